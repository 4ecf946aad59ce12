import Verif.FmtLit.Model

/-!
# Properties: strings that look like formatting arguments
-/

namespace Verif.FmtLit

theorem utf8Size_pos' (c : Char) : 1 ≤ c.utf8Size := Char.utf8Size_pos c

theorem size_append (a b : List Char) : size (a ++ b) = size a + size b := by
  induction a with
  | nil => simp [size]
  | cons c a ih => rw [List.cons_append, size, size, ih]; omega

theorem size_pos (a : List Char) (h : a ≠ []) : 1 ≤ size a := by
  cases a with
  | nil => exact absurd rfl h
  | cons c a => rw [size]; have := utf8Size_pos' c; omega

theorem dropB_cons (n : Nat) (c : Char) (s : List Char) (h : c.utf8Size ≤ n) : dropB n (c :: s) = dropB (n - c.utf8Size) s := by
  have hp := utf8Size_pos' c
  cases n with
  | zero => omega
  | succ n => rw [dropB, if_pos h]

theorem takeB_cons (n : Nat) (c : Char) (s : List Char) (h : c.utf8Size ≤ n) : takeB n (c :: s) = (takeB (n - c.utf8Size) s).map (c :: ·) := by
  have hp := utf8Size_pos' c
  cases n with
  | zero => omega
  | succ n => rw [takeB, if_pos h]

theorem dropB_size (a b : List Char) : dropB (size a) (a ++ b) = some b := by
  induction a with
  | nil => simp [size, dropB]
  | cons c a ih =>
    rw [size, List.cons_append, dropB_cons _ _ _ (by omega)]
    have : c.utf8Size + size a - c.utf8Size = size a := by omega
    rw [this, ih]

theorem takeB_size (a b : List Char) : takeB (size a) (a ++ b) = some a := by
  induction a with
  | nil => rw [size, takeB]
  | cons c a ih =>
    rw [size, List.cons_append, takeB_cons _ _ _ (by omega)]
    have : c.utf8Size + size a - c.utf8Size = size a := by omega
    rw [this, ih]
    rfl

/-- Fewer bytes give a shorter text. -/
theorem takeB_lt (n : Nat) (s t : List Char) (h : takeB n s = some t) : size t = n ∧ ∃ r, s = t ++ r := by
  induction s generalizing n t with
  | nil =>
    cases n with
    | zero => cases h; exact ⟨rfl, [], rfl⟩
    | succ n => cases h
  | cons c s ih =>
    cases n with
    | zero => cases h; exact ⟨rfl, c :: s, rfl⟩
    | succ n =>
      rw [takeB] at h
      by_cases hc : c.utf8Size ≤ n + 1
      · rw [if_pos hc, Option.map_eq_some_iff] at h
        obtain ⟨u, hu, e⟩ := h
        subst e
        obtain ⟨h1, r, h2⟩ := ih _ u hu
        exact ⟨by rw [size, h1]; omega, r, by rw [h2]; rfl⟩
      · rw [if_neg hc] at h; cases h

theorem find_append (ch : Char) (a b : List Char) (h : ch ∉ a) : find ch (a ++ ch :: b) = some (size a) := by
  induction a with
  | nil => rw [List.nil_append, find, if_pos (by simp)]; rfl
  | cons c a ih =>
    have hc : c ≠ ch := fun e => h (by rw [e]; simp)
    rw [List.cons_append, find, if_neg (by simpa using hc), ih (fun hm => h (by simp [hm])), Option.map_some, size, Nat.add_comm]

theorem find_none (ch : Char) (a : List Char) (h : ch ∉ a) : find ch a = none := by
  induction a with
  | nil => rfl
  | cons c a ih =>
    have hc : c ≠ ch := fun e => h (by rw [e]; simp)
    rw [find, if_neg (by simpa using hc), ih (fun hm => h (by simp [hm]))]
    rfl

theorem rfind_none (ch : Char) (a : List Char) (h : ch ∉ a) : rfind ch a = none := by
  induction a with
  | nil => rfl
  | cons c a ih =>
    have hc : c ≠ ch := fun e => h (by rw [e]; simp)
    rw [rfind, ih (fun hm => h (by simp [hm]))]
    simp only
    rw [if_neg (by simpa using hc)]

theorem rfind_append (ch : Char) (a b : List Char) (h : ch ∉ b) : rfind ch (a ++ ch :: b) = some (size a) := by
  induction a with
  | nil =>
    rw [List.nil_append, rfind, rfind_none ch b h]
    simp only
    rw [if_pos (by simp)]
    rfl
  | cons c a ih =>
    rw [List.cons_append, rfind, ih]
    simp only
    rw [size, Nat.add_comm]

theorem not_escape (s : List Char) (h : ∀ b, s ≠ b ++ ['\\', 'u']) : endsWithEscape s = false := by
  unfold endsWithEscape
  split
  · rename_i r e
    exfalso
    apply h r.reverse
    have := congrArg List.reverse e
    simpa using this
  · rfl

theorem not_blank (ws : Char → Bool) (a b : List Char) (h : ∃ c ∈ a, ws c = false) (hb : '}' ∉ a) : blankThenBrace ws (a ++ b) = false := by
  obtain ⟨c, hc, hw⟩ := h
  induction a with
  | nil => cases hc
  | cons d a ih =>
    unfold blankThenBrace
    rw [List.cons_append, List.dropWhile_cons]
    by_cases hd : ws d = true
    · rw [if_pos hd]
      rcases List.mem_cons.1 hc with e | hm
      · rw [← e, hw] at hd; cases hd
      · exact ih (fun k => hb (by simp [k])) hm
    · rw [if_neg hd]
      have : d ≠ '}' := fun e => hb (by rw [e]; simp)
      simpa using this

variable (ws : Char → Bool) (isIdent : List Char → Bool)

/-- For a well-formed placeholder only the name has to be found. -/
theorem piece_eq (p : Holder) (h : p.Ok ws) (n1 n2 : List Char) (hn : p.inside = n1 ++ n2) (h1 : '{' ∉ n1) (posEnd : Nat) :
    piece ws isIdent p.text (size p.before + 1 + size n1) posEnd = entry isIdent p.text (size p.before) (size p.before + size p.inside + 2) := by
  have hb : size ['{'] = 1 := rfl
  have e1 : size p.before + 1 + size n1 = size (p.before ++ '{' :: n1) := by
    rw [size_append, size]
    have : Char.utf8Size '{' = 1 := rfl
    omega
  have e2 : p.text = (p.before ++ '{' :: n1) ++ (n2 ++ '}' :: p.after) := by
    unfold Holder.text
    rw [hn]
    simp
  have e3 : takeB (size p.before) p.text = some p.before := takeB_size p.before _
  have e4 : dropB (size p.before + 1) p.text = some (p.inside ++ '}' :: p.after) := by
    have e5 : size p.before + 1 = size (p.before ++ ['{']) := by rw [size_append, hb]
    have e6 : p.text = (p.before ++ ['{']) ++ (p.inside ++ '}' :: p.after) := by unfold Holder.text; simp
    rw [e5, e6, dropB_size]
  unfold piece
  rw [e1]
  have e7 : takeB (size (p.before ++ '{' :: n1)) p.text = some (p.before ++ '{' :: n1) := by rw [e2, takeB_size]
  rw [e7]
  simp only
  rw [rfind_append '{' p.before n1 h1, Option.getD_some]
  unfold fromBrace
  rw [e3, e4]
  simp only
  rw [not_escape p.before h.escape, Bool.and_false, if_neg (by simp), not_blank ws p.inside _ h.blank h.spec, if_neg (by simp)]
  unfold stopOf
  rw [find_append '}' p.inside p.after h.spec]
  simp only
  congr 1
  omega

theorem inner_eq (p : Holder) : sliceB (size p.before + 1) (size p.before + size p.inside + 2) p.text = some (p.inside ++ ['}']) := by
  have hb : size ['{'] = 1 := rfl
  have hb' : size ['}'] = 1 := rfl
  have e5 : size p.before + 1 = size (p.before ++ ['{']) := by rw [size_append, hb]
  have e6 : p.text = (p.before ++ ['{']) ++ ((p.inside ++ ['}']) ++ p.after) := by unfold Holder.text; simp
  have e7 : size p.before + size p.inside + 2 - size (p.before ++ ['{']) = size (p.inside ++ ['}']) := by rw [size_append, size_append, hb, hb']; omega
  unfold sliceB
  rw [e5, e6, dropB_size]
  show takeB _ _ = _
  rw [e7, takeB_size]

theorem slice_prefix (p : Holder) (n : Nat) : sliceB (size p.before + 1) (size p.before + 1 + n) p.text = takeB n (p.inside ++ '}' :: p.after) := by
  have hb : size ['{'] = 1 := rfl
  have e5 : size p.before + 1 = size (p.before ++ ['{']) := by rw [size_append, hb]
  have e6 : p.text = (p.before ++ ['{']) ++ (p.inside ++ '}' :: p.after) := by unfold Holder.text; simp
  unfold sliceB
  rw [e5, e6, dropB_size]
  show takeB _ _ = _
  congr 1
  omega

/-- A placeholder without a format is found as it should be: `{name}` with its name, anything else not. -/
theorem no_format (p : Holder) (h : p.Ok ws) (hs : p.spec = none) (n1 n2 : List Char) (hn : p.name = n1 ++ n2) (posEnd : Nat) :
    piece ws isIdent p.text (size p.before + 1 + size n1) posEnd = match p.expected isIdent with | some f => .found f | none => .skip := by
  have hi : p.inside = p.name := by unfold Holder.inside; rw [hs]
  have h1 : '{' ∉ n1 := fun k => h.name.2.1 (by rw [hn]; simp [k])
  rw [piece_eq ws isIdent p h n1 n2 (by rw [hi, hn]) h1]
  unfold entry
  rw [inner_eq]
  simp only
  have hc : ':' ∉ p.inside ++ ['}'] := by
    rw [hi]
    intro k
    rcases List.mem_append.1 k with k | k
    · exact h.name.1 k
    · simp at k
  rw [find_none ':' _ hc]
  have he : identEnd none (size p.before + size p.inside + 2) = size p.before + 1 + size p.inside := by unfold identEnd; simp; omega
  rw [he]
  have hne : p.name ≠ [] := by
    intro k
    obtain ⟨c, hc, _⟩ := h.blank
    rw [hi, k] at hc
    cases hc
  have hpos : 1 ≤ size p.inside := by rw [hi]; exact size_pos _ hne
  rw [if_pos (by omega), slice_prefix, takeB_size]
  simp only
  unfold Holder.expected
  rw [hi, hs]
  by_cases hid : isIdent p.name = true
  · rw [if_pos (by simp [hid, hne]), if_pos ⟨hid, hne⟩]
  · rw [if_neg (by simp [hid])]
    simp [hid]

/-- A placeholder with only a format is found as it should be. -/
theorem only_format (p : Holder) (h : p.Ok ws) (sp : List Char) (hs : p.spec = some sp) (hn : p.name = []) (posEnd : Nat) :
    piece ws isIdent p.text (size p.before + 1) posEnd = match p.expected isIdent with | some f => .found f | none => .skip := by
  have hi : p.inside = ':' :: sp := by unfold Holder.inside; rw [hs, hn]; rfl
  have := piece_eq ws isIdent p h [] p.inside rfl (by simp) posEnd
  simp only [size, Nat.add_zero] at this
  rw [this]
  unfold entry
  rw [inner_eq]
  simp only
  have hf : find ':' (p.inside ++ ['}']) = some 0 := by rw [hi]; rfl
  rw [hf]
  have he : identEnd (some 0) (size p.before + size p.inside + 2) = 0 := rfl
  rw [he, if_neg (by omega)]
  unfold Holder.expected
  rw [hn, hs]
  simp

/-- For a placeholder with a name and a format: if the brace is as far from the start of the text as the name is long, or farther, no name is found. -/
theorem name_ignored (p : Holder) (h : p.Ok ws) (sp : List Char) (hs : p.spec = some sp) (n1 n2 : List Char) (hn : p.name = n1 ++ n2)
    (hl : size p.name ≤ size p.before + 1) (posEnd : Nat) :
    piece ws isIdent p.text (size p.before + 1 + size n1) posEnd = .found ⟨size p.before, size p.before + size p.inside + 2, none⟩ := by
  have hi : p.inside = p.name ++ ':' :: sp := by unfold Holder.inside; rw [hs]
  have h1 : '{' ∉ n1 := fun k => h.name.2.1 (by rw [hn]; simp [k])
  rw [piece_eq ws isIdent p h n1 (n2 ++ ':' :: sp) (by rw [hi, hn]; simp) h1]
  unfold entry
  rw [inner_eq]
  simp only
  have hf : find ':' (p.inside ++ ['}']) = some (size p.name) := by
    rw [hi, List.append_assoc]
    exact find_append ':' p.name _ h.name.1
  rw [hf]
  have he : identEnd (some (size p.name)) (size p.before + size p.inside + 2) = size p.name := rfl
  rw [he, if_neg (by omega)]
  rfl

/-- With a name and a format, the name that is found is never the name: the place of the colon is relative to the brace and used as one in the text. -/
theorem never_the_name (p : Holder) (h : p.Ok ws) (sp : List Char) (hs : p.spec = some sp) (n1 n2 : List Char) (hn : p.name = n1 ++ n2) (posEnd : Nat) (f : Found)
    (hf : piece ws isIdent p.text (size p.before + 1 + size n1) posEnd = .found f) : f.name ≠ some p.name := by
  by_cases hl : size p.name ≤ size p.before + 1
  · rw [name_ignored ws isIdent p h sp hs n1 n2 hn hl] at hf
    cases hf
    intro k
    cases k
  · have hi : p.inside = p.name ++ ':' :: sp := by unfold Holder.inside; rw [hs]
    have h1 : '{' ∉ n1 := fun k => h.name.2.1 (by rw [hn]; simp [k])
    rw [piece_eq ws isIdent p h n1 (n2 ++ ':' :: sp) (by rw [hi, hn]; simp) h1] at hf
    unfold entry at hf
    rw [inner_eq] at hf
    simp only at hf
    have hc : find ':' (p.inside ++ ['}']) = some (size p.name) := by
      rw [hi, List.append_assoc]
      exact find_append ':' p.name _ h.name.1
    have he : identEnd (some (size p.name)) (size p.before + size p.inside + 2) = size p.before + 1 + (size p.name - (size p.before + 1)) := by
      show size p.name = _
      omega
    rw [hc, he, if_pos (by omega), slice_prefix] at hf
    cases ht : takeB (size p.name - (size p.before + 1)) (p.inside ++ '}' :: p.after) with
    | none => rw [ht] at hf; cases hf
    | some arg =>
      rw [ht] at hf
      simp only at hf
      obtain ⟨hz, _⟩ := takeB_lt _ _ _ ht
      by_cases hg : (!arg.isEmpty && isIdent arg) = true
      · rw [if_pos hg] at hf
        cases hf
        intro k
        injection k with k
        rw [k] at hz
        omega
      · rw [if_neg hg, if_neg (by simp)] at hf
        cases hf
        intro k
        cases k

/-- What is found has the right place, whatever the name. -/
theorem place (p : Holder) (h : p.Ok ws) (n1 n2 : List Char) (hn : p.inside = n1 ++ n2) (h1 : '{' ∉ n1) (posEnd : Nat) (f : Found)
    (hf : piece ws isIdent p.text (size p.before + 1 + size n1) posEnd = .found f) : f.lo = size p.before ∧ f.hi = size p.before + size p.inside + 2 := by
  rw [piece_eq ws isIdent p h n1 n2 hn h1] at hf
  unfold entry at hf
  rw [inner_eq] at hf
  simp only at hf
  split at hf
  · split at hf
    · cases hf
    · split at hf
      · cases hf; exact ⟨rfl, rfl⟩
      · split at hf
        · cases hf
        · cases hf; exact ⟨rfl, rfl⟩
  · split at hf
    · cases hf
    · cases hf; exact ⟨rfl, rfl⟩

/-- Without a format there is no panic, and with one none if the text is ASCII. -/
theorem no_panic_ascii (p : Holder) (h : p.Ok ws) (sp : List Char) (hs : p.spec = some sp) (n1 n2 : List Char) (hn : p.name = n1 ++ n2) (posEnd : Nat)
    (ha : ∀ c ∈ p.name, c.utf8Size = 1) : piece ws isIdent p.text (size p.before + 1 + size n1) posEnd ≠ .panic := by
  have hi : p.inside = p.name ++ ':' :: sp := by unfold Holder.inside; rw [hs]
  have h1 : '{' ∉ n1 := fun k => h.name.2.1 (by rw [hn]; simp [k])
  have hA : ∀ (a : List Char), (∀ c ∈ a, c.utf8Size = 1) → ∀ n b, n ≤ size a → takeB n (a ++ b) ≠ none := by
    intro a
    induction a with
    | nil =>
      intro _ n b hl k
      have : n = 0 := by simpa [size] using hl
      rw [this, takeB] at k
      cases k
    | cons c a ih =>
      intro hc n b hl k
      have h1 := hc c (by simp)
      cases n with
      | zero => rw [takeB] at k; cases k
      | succ n =>
        rw [List.cons_append, takeB, if_pos (by omega), Option.map_eq_none_iff, h1] at k
        rw [size, h1] at hl
        exact ih (fun x hx => hc x (by simp [hx])) _ b (by omega) k
  by_cases hl : size p.name ≤ size p.before + 1
  · rw [name_ignored ws isIdent p h sp hs n1 n2 hn hl]
    intro k
    cases k
  · rw [piece_eq ws isIdent p h n1 (n2 ++ ':' :: sp) (by rw [hi, hn]; simp) h1]
    unfold entry
    rw [inner_eq]
    simp only
    have hc : find ':' (p.inside ++ ['}']) = some (size p.name) := by
      rw [hi, List.append_assoc]
      exact find_append ':' p.name _ h.name.1
    have he : identEnd (some (size p.name)) (size p.before + size p.inside + 2) = size p.before + 1 + (size p.name - (size p.before + 1)) := by
      show size p.name = _
      omega
    rw [hc, he, if_pos (by omega), slice_prefix]
    have e : p.inside ++ '}' :: p.after = p.name ++ (':' :: sp ++ '}' :: p.after) := by rw [hi]; simp
    rw [e]
    cases ht : takeB (size p.name - (size p.before + 1)) (p.name ++ (':' :: sp ++ '}' :: p.after)) with
    | none => exact absurd ht (hA p.name ha _ _ (by omega))
    | some arg =>
      simp only
      split
      · intro k; cases k
      · split <;> (intro k; cases k)

/-- Only entries without a name or with that of a variable are reported. -/
theorem mem_emit (locals : List (List Char)) (l : List Found) (f : Found) : f ∈ emit locals l ↔ f ∈ l ∧ ∀ n, f.name = some n → n ∈ locals := by
  unfold emit
  rw [List.mem_filter]
  cases hf : f.name with
  | none => simp
  | some n => simp

/-- The text before ends with `\u`: an escape of a character, which is skipped. -/
theorem escape_skipped (b rest : List Char) (n : List Char) (h : '{' ∉ n) (posEnd : Nat) :
    piece ws isIdent (b ++ '\\' :: 'u' :: '{' :: (n ++ rest)) (size b + 3 + size n) posEnd = .skip := by
  have hs : size (b ++ ['\\', 'u']) = size b + 2 := by rw [size_append]; rfl
  have e1 : size b + 3 + size n = size ((b ++ ['\\', 'u']) ++ '{' :: n) := by
    rw [size_append, hs, size]
    have : Char.utf8Size '{' = 1 := rfl
    omega
  have e2 : b ++ '\\' :: 'u' :: '{' :: (n ++ rest) = ((b ++ ['\\', 'u']) ++ '{' :: n) ++ rest := by simp
  have e3 : takeB (size (b ++ ['\\', 'u'])) (((b ++ ['\\', 'u']) ++ '{' :: n) ++ rest) = some (b ++ ['\\', 'u']) := by
    rw [List.append_assoc]; exact takeB_size _ _
  have e4 : dropB (size (b ++ ['\\', 'u']) + 1) (((b ++ ['\\', 'u']) ++ '{' :: n) ++ rest) = some (n ++ rest) := by
    have e5 : size (b ++ ['\\', 'u']) + 1 = size ((b ++ ['\\', 'u']) ++ ['{']) := by rw [size_append _ ['{']]; rfl
    have e6 : ((b ++ ['\\', 'u']) ++ '{' :: n) ++ rest = ((b ++ ['\\', 'u']) ++ ['{']) ++ (n ++ rest) := by simp
    rw [e5, e6, dropB_size]
  unfold piece
  rw [e1, e2, takeB_size]
  simp only
  rw [rfind_append '{' _ n h, Option.getD_some]
  unfold fromBrace
  rw [e3, e4]
  simp only
  have e7 : endsWithEscape (b ++ ['\\', 'u']) = true := by simp [endsWithEscape]
  rw [e7, if_pos (by rw [hs]; simp)]

/-! ## Examples -/

/-- A test for identifiers in the examples. -/
def letters (s : List Char) : Bool := s.all Char.isAlpha

/-- White space in the examples. -/
def blank (c : Char) : Bool := c == ' '

example : (⟨['a'], ['x', 'y'], none, []⟩ : Holder).Ok blank :=
  ⟨by decide +kernel, by decide +kernel, (fun b h => by
    have := congrArg List.length h
    simp at this), ⟨'x', by decide +kernel, by decide +kernel⟩, by decide +kernel⟩

example : piece blank letters ['a', '{', 'x', 'y', '}'] 2 4 = .found ⟨1, 5, some ['x', 'y']⟩ ∧
    piece blank letters ['a', '{', ':', '?', '}'] 2 2 = .found ⟨1, 5, none⟩ ∧ piece blank letters ['{', ' ', '}'] 1 2 = .skip ∧
    piece blank letters ['\\', 'u', '{', '1', '}'] 3 4 = .skip := by decide +kernel

/-- At the start of a text the last byte of the name is lost: a variable `name` is not recognised in `"{name:?}"`. -/
theorem name_cut : piece blank letters ['{', 'n', 'a', 'm', 'e', ':', '?', '}'] 1 5 = .found ⟨0, 8, some ['n', 'a', 'm']⟩ ∧
    emit [['n', 'a', 'm', 'e']] [⟨0, 8, some ['n', 'a', 'm']⟩] = [] := by decide +kernel

/-- Later the name is ignored: `"see {name:?}"` is reported without any variable. -/
theorem name_not_checked : piece blank letters ['s', 'e', 'e', ' ', '{', 'n', 'a', 'm', 'e', ':', '?', '}'] 5 9 = .found ⟨4, 12, none⟩ ∧
    emit [] [⟨4, 12, none⟩] = [⟨4, 12, none⟩] := by decide +kernel

/-- If that is inside a character of more than one byte the linter panics: `"{é:?}"`. -/
theorem slice_panics : piece blank letters ['{', 'é', ':', '?', '}'] 1 3 = .panic := by decide +kernel

end Verif.FmtLit
