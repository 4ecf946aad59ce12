import Verif.Dev.CargoModel

/-!
# C51: bumping the version edits only the version string
-/

namespace Verif.Dev

/-! ## Specification -/

/-- The text made of these lines. -/
def joinLines : List Str → Str
  | [] => []
  | [l] => l
  | l :: ls => l ++ '\n' :: joinLines ls

/-- The line is the header of a table with this name. -/
def IsHeader (name line : Str) : Prop :=
  ∃ n rest, line = '[' :: (n ++ ']' :: rest) ∧ ']' ∉ n ∧ trim n = name

/-- The line sets `version`. -/
def IsVersionLine (line : Str) : Prop :=
  ∃ sp value, line = str!"version" ++ sp ++ '=' :: value ∧ ∀ c ∈ sp, isWs c = true

/-- After these lines we are in the table `name`: its header is there, with no other header below it. -/
def InTable (name : Str) (lines : List Str) : Prop :=
  ∃ a h b, lines = a ++ h :: b ∧ IsHeader name h ∧ ∀ l ∈ b, ∀ n, ¬ IsHeader n l

/-! ## Proof -/

theorem splitOnce_some {c : Char} : ∀ {s a b : Str}, Text.splitOnce c s = (a, some b) → s = a ++ c :: b ∧ c ∉ a
  | [], a, b, h => by simp [Text.splitOnce] at h
  | x :: xs, a, b, h => by
    unfold Text.splitOnce at h
    split at h
    · next hx =>
      simp only [Prod.mk.injEq, Option.some.injEq] at h
      obtain ⟨rfl, rfl⟩ := h
      simp [hx]
    · next hx =>
      generalize hr : Text.splitOnce c xs = r at h
      obtain ⟨r1, r2⟩ := r
      simp only [Prod.mk.injEq] at h
      obtain ⟨rfl, rfl⟩ := h
      obtain ⟨h1, h2⟩ := splitOnce_some hr
      refine ⟨by rw [h1]; rfl, ?_⟩
      simp only [List.mem_cons, not_or]
      exact ⟨fun e => hx e.symm, h2⟩

theorem splitOnce_eq {c : Char} : ∀ {a b : Str}, c ∉ a → Text.splitOnce c (a ++ c :: b) = (a, some b)
  | [], b, _ => by simp [Text.splitOnce]
  | x :: a, b, h => by
    simp only [List.mem_cons, not_or] at h
    simp only [List.cons_append, Text.splitOnce]
    rw [if_neg (fun e => h.1 e.symm), splitOnce_eq h.2]

theorem tomlPart_table {l n : Str} (h : tomlPart l = some (.table n)) : IsHeader (trim n) l := by
  unfold tomlPart at h
  split at h
  · simp at h
  next c cs =>
  split at h
  · next hc =>
    split at h
    · next name rest hs =>
      simp only [Option.some.injEq, TomlPart.table.injEq] at h
      subst h
      obtain ⟨h1, h2⟩ := splitOnce_some hs
      exact ⟨name, rest, by rw [hc, h1], h2, rfl⟩
    · simp at h
  · split at h
    · split at h <;> simp at h
    · simp at h

theorem tomlPart_header {name l : Str} (h : IsHeader name l) : ∃ n, tomlPart l = some (.table n) ∧ trim n = name := by
  obtain ⟨n, rest, rfl, hn, ht⟩ := h
  refine ⟨n, ?_, ht⟩
  unfold tomlPart
  simp only [if_true]
  rw [splitOnce_eq hn]

theorem isWs_eq : isWs '=' = false := by decide

theorem trimEnd_version (sp : Str) (h : ∀ c ∈ sp, isWs c = true) : trimEnd (str!"version" ++ sp) = str!"version" := by
  unfold trimEnd
  rw [List.reverse_append, List.dropWhile_append_of_pos (by simpa using h)]
  decide

theorem tomlPart_version {l : Str} (sp value : Str) (he : l = str!"version" ++ sp ++ '=' :: value)
    (h : ∀ c ∈ sp, isWs c = true) : tomlPart l = some (.value (str!"version" ++ sp) value) := by
  subst he
  have hn : '=' ∉ str!"version" ++ sp := by
    simp only [List.mem_append, not_or]
    refine ⟨by decide, fun hm => ?_⟩
    have := h _ hm
    rw [isWs_eq] at this
    cases this
  unfold tomlPart
  have hk : isKeyStart 'v' = true := by decide
  simp only [List.cons_append, List.nil_append, hk, if_true]
  rw [if_neg (by decide)]
  have := splitOnce_eq (b := value) hn
  simp only [List.cons_append, List.nil_append] at this
  rw [this]

theorem dropWhile_decomp (p : Char → Bool) (s : Str) : ∃ t, s = t ++ s.dropWhile p ∧ ∀ c ∈ t, p c = true := by
  refine ⟨s.takeWhile p, List.takeWhile_append_dropWhile.symm, ?_⟩
  have := List.all_takeWhile (p := p) (l := s)
  rwa [List.all_eq_true] at this

theorem trimEnd_decomp (s : Str) : ∃ t, s = trimEnd s ++ t ∧ ∀ c ∈ t, isWs c = true := by
  obtain ⟨t, h1, h2⟩ := dropWhile_decomp isWs s.reverse
  refine ⟨t.reverse, ?_, by simpa using h2⟩
  have := congrArg List.reverse h1
  simpa [trimEnd] using this

theorem tomlPart_value {l k v : Str} (h : tomlPart l = some (.value k v)) : l = k ++ '=' :: v := by
  unfold tomlPart at h
  split at h
  · simp at h
  next c cs =>
  split at h
  · split at h <;> simp at h
  · split at h
    · split at h
      · next hs =>
        simp only [Option.some.injEq, TomlPart.value.injEq] at h
        obtain ⟨rfl, rfl⟩ := h
        exact (splitOnce_some hs).1
      · simp at h
    · simp at h

/-- One step of the loop for a line. -/
def lineStep (st : CargoState) (pos : Nat) (l : Str) : CargoState :=
  match tomlPart l with
  | some p => cargoStep st pos p
  | none => st

theorem cargoLoop_cons (pos : Nat) (st : CargoState) (l : Str) (ls : List Str) :
    cargoLoop pos st (l :: ls) = cargoLoop (pos + (l.length + 1)) (lineStep st pos l) ls := rfl

/-- The length of the lines, each with its newline. -/
def linesLen (ls : List Str) : Nat := (ls.map fun l => l.length + 1).sum

theorem cargoLoop_append : ∀ (a b : List Str) (pos : Nat) (st : CargoState),
    cargoLoop pos st (a ++ b) = cargoLoop (pos + linesLen a) (cargoLoop pos st a) b
  | [], b, pos, st => by simp [cargoLoop, linesLen]
  | l :: a, b, pos, st => by
    rw [List.cons_append, cargoLoop_cons, cargoLoop_append a, cargoLoop_cons]
    simp [linesLen, Nat.add_assoc]

theorem lineStep_header {name l : Str} (h : IsHeader name l) (st : CargoState) (pos : Nat) :
    (lineStep st pos l).inPackage = decide (name = str!"package") := by
  obtain ⟨n, hn, ht⟩ := tomlPart_header h
  rw [lineStep, hn]
  simp only [cargoStep, ht]
  split
  · next hp => simp [hp]
  · next hp =>
    split <;> simp [hp]

theorem lineStep_other {l : Str} (h : ∀ n, ¬ IsHeader n l) (st : CargoState) (pos : Nat) :
    (lineStep st pos l).inPackage = st.inPackage := by
  rw [lineStep]
  split
  · next p hp =>
    cases p with
    | table n => exact absurd (tomlPart_table hp) (h _)
    | value k v =>
      simp only [cargoStep]
      split
      · split
        · rfl
        split <;> rfl
      · rfl
  · rfl

theorem cargoLoop_others : ∀ (ls : List Str) (pos : Nat) (st : CargoState), (∀ l ∈ ls, ∀ n, ¬ IsHeader n l) →
    (cargoLoop pos st ls).inPackage = st.inPackage
  | [], _, _, _ => rfl
  | l :: ls, pos, st, h => by
    rw [cargoLoop_cons, cargoLoop_others ls _ _ (fun l' hl => h l' (List.mem_cons_of_mem _ hl)),
      lineStep_other (h l (List.mem_cons_self ..))]

theorem cargoLoop_inTable {ls : List Str} {name : Str} (h : InTable name ls) (pos : Nat) (st : CargoState) :
    (cargoLoop pos st ls).inPackage = decide (name = str!"package") := by
  obtain ⟨a, l, b, rfl, hl, hb⟩ := h
  rw [cargoLoop_append, cargoLoop_cons, cargoLoop_others b _ _ hb, lineStep_header hl]

/-- Where the loop is inside `[package]`, the last header is `[package]`. -/
theorem cargoLoop_inPackage : ∀ (ls : List Str) (pos : Nat) (st : CargoState), (cargoLoop pos st ls).inPackage = true →
    InTable (str!"package") ls ∨ (st.inPackage = true ∧ ∀ l ∈ ls, ∀ n, ¬ IsHeader n l)
  | [], _, st, h => .inr ⟨h, by simp⟩
  | l :: ls, pos, st, h => by
    rw [cargoLoop_cons] at h
    rcases cargoLoop_inPackage ls _ _ h with ⟨a, x, b, rfl, hx, hb⟩ | ⟨h1, h2⟩
    · exact .inl ⟨l :: a, x, b, rfl, hx, hb⟩
    · by_cases hh : ∃ n, IsHeader n l
      · obtain ⟨n, hh⟩ := hh
        rw [lineStep_header hh] at h1
        have hn : n = str!"package" := by simpa using h1
        subst hn
        exact .inl ⟨[], l, ls, rfl, hh, h2⟩
      · have hn : ∀ n, ¬ IsHeader n l := fun n hn => hh ⟨n, hn⟩
        rw [lineStep_other hn] at h1
        refine .inr ⟨h1, fun l' hl => ?_⟩
        rcases List.mem_cons.1 hl with rfl | hl
        · exact hn
        · exact h2 l' hl

theorem lineStep_version {l : Str} {st : CargoState} {pos : Nat}
    (h : st.inPackage = true → ¬ IsVersionLine l) :
    (lineStep st pos l).vstart = st.vstart ∧ (lineStep st pos l).vend = st.vend := by
  rw [lineStep]
  split
  · next p hp =>
    cases p with
    | table n =>
      simp only [cargoStep]
      split
      · split <;> simp
      · split
        · split <;> simp
        · split <;> simp
    | value k v =>
      simp only [cargoStep]
      split
      · next hi =>
        split
        · simp
        split
        · next hk =>
          exfalso
          apply h hi
          obtain ⟨t, h1, h2⟩ := trimEnd_decomp k
          rw [hk] at h1
          exact ⟨t, v, by rw [tomlPart_value hp, h1], h2⟩
        · simp
      · simp
  · simp

theorem cargoLoop_version : ∀ (ls : List Str) (pos : Nat) (st : CargoState),
    (∀ a l b, ls = a ++ l :: b → (cargoLoop pos st a).inPackage = true → ¬ IsVersionLine l) →
    (cargoLoop pos st ls).vstart = st.vstart ∧ (cargoLoop pos st ls).vend = st.vend
  | [], _, _, _ => ⟨rfl, rfl⟩
  | l :: ls, pos, st, h => by
    rw [cargoLoop_cons]
    obtain ⟨h1, h2⟩ := lineStep_version (pos := pos) (h [] l ls rfl)
    have := cargoLoop_version ls (pos + (l.length + 1)) (lineStep st pos l) (by
      intro a l' b he hi
      exact h (l :: a) l' b (by rw [he]; rfl) (by rw [cargoLoop_cons]; exact hi))
    exact ⟨this.1.trans h1, this.2.trans h2⟩

theorem split_joinLines : ∀ (ls : List Str), ls ≠ [] → (∀ l ∈ ls, '\n' ∉ l) → Text.split ['\n'] (joinLines ls) = ls
  | [], h, _ => absurd rfl h
  | [l], _, h => Text.split_char_none _ _ (h l (by simp))
  | l :: l' :: ls, _, h => by
    rw [joinLines, Text.split_char _ _ _ (h l (by simp)), split_joinLines (l' :: ls) (by simp) (fun x hx => h x (List.mem_cons_of_mem _ hx))]
    simp

/-- The lines, each with its newline. -/
def withNewlines (ls : List Str) : Str := (ls.map fun l => l ++ ['\n']).flatten

theorem joinLines_append : ∀ (a : List Str) (l : Str) (b : List Str),
    joinLines (a ++ l :: b) = withNewlines a ++ joinLines (l :: b)
  | [], _, _ => by simp [withNewlines]
  | x :: a, l, b => by
    obtain ⟨y, ys, hy⟩ : ∃ y ys, a ++ l :: b = y :: ys := by cases a <;> simp
    rw [List.cons_append, hy, joinLines, ← hy, joinLines_append a l b]
    simp [withNewlines]
    · simp

theorem withNewlines_length (ls : List Str) : (withNewlines ls).length = linesLen ls := by
  induction ls with
  | nil => rfl
  | cons l ls ih =>
    simp only [withNewlines, linesLen, List.map_cons, List.flatten_cons, List.length_append, List.sum_cons] at ih ⊢
    rw [ih]; simp

/-- What follows a line. -/
def afterLine : List Str → Str
  | [] => []
  | ls => '\n' :: joinLines ls

theorem joinLines_cons (l : Str) (b : List Str) : joinLines (l :: b) = l ++ afterLine b := by
  cases b <;> simp [joinLines, afterLine]

/-- A value with no white space around it. -/
def Trimmed (v : Str) : Prop := v ≠ [] ∧ (∀ c ∈ v.head?, isWs c = false) ∧ ∀ c ∈ v.getLast?, isWs c = false

theorem trimEnd_trimmed {v : Str} (h : Trimmed v) (w : Str) : trimEnd (w ++ v) = w ++ v := by
  obtain ⟨h1, _, h3⟩ := h
  unfold trimEnd
  rw [List.reverse_append]
  have hr : v.reverse = v.getLast h1 :: v.dropLast.reverse := by
    conv => lhs; rw [← List.dropLast_concat_getLast h1]
    simp
  have := h3 (v.getLast h1) (by rw [List.getLast?_eq_some_getLast h1]; rfl)
  rw [hr, List.cons_append, List.dropWhile_cons_of_neg (by simp [this]), ← List.cons_append, ← hr]
  simp

theorem trim_trimmed {v w : Str} (h : Trimmed v) (hw : ∀ c ∈ w, isWs c = true) : trim (w ++ v) = v := by
  unfold trim trimStart
  rw [List.dropWhile_append_of_pos hw]
  obtain ⟨c, cs, hc⟩ := List.exists_cons_of_ne_nil h.1
  have h2 := h.2.1 c (by rw [hc]; rfl)
  have : v.dropWhile isWs = v := by
    rw [hc, List.dropWhile_cons_of_neg (by simp [h2])]
  rw [this]
  simpa using trimEnd_trimmed h []

/-- **C51.** If `[package]` has one line `version = v`, with nothing but `v` after the `=` and the white space before `v`,
then bumping replaces `v` and leaves every other character unchanged; and it is reported as a change iff the text changes,
if `v` and the new version are texts in quotes.

Missing for the full property: white space (also a carriage return) or a comment after the version (see the violations). -/
theorem bump_exact_partial {pre post : List Str} {sp ws v new : Str}
    (hpre : ∀ l ∈ pre, '\n' ∉ l) (hpost : ∀ l ∈ post, '\n' ∉ l)
    (hnl : '\n' ∉ sp ++ ws ++ v) (hsp : ∀ c ∈ sp, isWs c = true) (hws : ∀ c ∈ ws, isWs c = true) (hv : Trimmed v)
    (hin : InTable (str!"package") pre)
    (honly : ∀ a l b, post = a ++ l :: b →
      InTable (str!"package") (pre ++ (str!"version" ++ sp ++ '=' :: (ws ++ v)) :: a) → ¬ IsVersionLine l) :
    (bumpFile new (joinLines (pre ++ (str!"version" ++ sp ++ '=' :: (ws ++ v)) :: post))).1 =
      joinLines (pre ++ (str!"version" ++ sp ++ '=' :: (ws ++ new)) :: post) ∧
    ∀ x y, '"' ∉ x → '"' ∉ y → v = '"' :: (x ++ ['"']) → new = '"' :: (y ++ ['"']) →
      ((bumpFile new (joinLines (pre ++ (str!"version" ++ sp ++ '=' :: (ws ++ v)) :: post))).2 = true ↔
        (bumpFile new (joinLines (pre ++ (str!"version" ++ sp ++ '=' :: (ws ++ v)) :: post))).1 ≠
          joinLines (pre ++ (str!"version" ++ sp ++ '=' :: (ws ++ v)) :: post)) := by
  generalize hl : str!"version" ++ sp ++ '=' :: (ws ++ v) = l at *
  generalize hs : joinLines (pre ++ l :: post) = s at *
  -- the lines of the text are the lines
  have hlnl : '\n' ∉ l := by
    rw [← hl]
    simp only [List.mem_append, List.mem_cons, not_or] at hnl ⊢
    exact ⟨⟨by decide, hnl.1.1⟩, by decide, hnl.1.2, hnl.2⟩
  have hsplit : Text.split ['\n'] s = pre ++ l :: post := by
    rw [← hs]
    refine split_joinLines _ (by simp) ?_
    intro x hx
    rcases List.mem_append.1 hx with hx | hx
    · exact hpre x hx
    · rcases List.mem_cons.1 hx with hx | hx
      · rw [hx]; exact hlnl
      · exact hpost x hx
  -- the range found
  have hrange : (parseCargo s).vstart = linesLen pre + (str!"version" ++ sp ++ '=' :: ws).length ∧
      (parseCargo s).vend = linesLen pre + l.length := by
    have h1 := cargoLoop_inTable hin 0 ⟨false, false, [], 0, 0, 0, 0⟩
    rw [parseCargo, hsplit, cargoLoop_append, cargoLoop_cons]
    have h2 := tomlPart_version sp (ws ++ v) hl.symm hsp
    have h3 : lineStep (cargoLoop 0 ⟨false, false, [], 0, 0, 0, 0⟩ pre) (0 + linesLen pre) l =
        { cargoLoop 0 ⟨false, false, [], 0, 0, 0, 0⟩ pre with
          vstart := linesLen pre + ((ws ++ v).length - v.length) + (str!"version" ++ sp).length + 1
          vend := linesLen pre + (str!"version" ++ sp).length + (ws ++ v).length + 1 } := by
      rw [lineStep, h2]
      simp only [cargoStep]
      rw [if_pos (by rw [h1]; simp), trimEnd_version sp hsp, if_neg (by decide), if_pos rfl, trim_trimmed hv hws,
        trimEnd_trimmed hv ws]
      simp
    have h4 := cargoLoop_version post (0 + linesLen pre + (l.length + 1))
      (lineStep (cargoLoop 0 ⟨false, false, [], 0, 0, 0, 0⟩ pre) (0 + linesLen pre) l) (by
        intro a l' b he hi
        refine honly a l' b he ?_
        have hi' : (cargoLoop 0 ⟨false, false, [], 0, 0, 0, 0⟩ (pre ++ l :: a)).inPackage = true := by
          rw [cargoLoop_append, cargoLoop_cons]; exact hi
        rcases cargoLoop_inPackage _ _ _ hi' with h | h
        · exact h
        · simp at h)
    rw [h4.1, h4.2, h3]
    simp only [← hl]
    simp
    omega
  have hdec : s = (withNewlines pre ++ (str!"version" ++ sp ++ '=' :: ws)) ++ (v ++ afterLine post) := by
    rw [← hs, joinLines_append, joinLines_cons, ← hl]
    simp
  have hne : ¬ (parseCargo s).vend ≤ (parseCargo s).vstart := by
    rw [hrange.1, hrange.2, ← hl]
    have := List.length_pos_iff.2 hv.1
    simp
    omega
  have hA : (withNewlines pre ++ (str!"version" ++ sp ++ '=' :: ws)).length = (parseCargo s).vstart := by
    rw [List.length_append, withNewlines_length, hrange.1]
  have hB : (parseCargo s).vend = (parseCargo s).vstart + v.length := by
    rw [hrange.1, hrange.2, ← hl]
    simp
    omega
  have hnew : joinLines (pre ++ (str!"version" ++ sp ++ '=' :: (ws ++ new)) :: post) =
      (withNewlines pre ++ (str!"version" ++ sp ++ '=' :: ws)) ++ (new ++ afterLine post) := by
    rw [joinLines_append, joinLines_cons]
    simp
  rw [hnew]
  generalize withNewlines pre ++ (str!"version" ++ sp ++ '=' :: ws) = A at hdec hA ⊢
  generalize afterLine post = Q at hdec ⊢
  have htake : s.take (parseCargo s).vstart = A := by
    rw [← hA]; conv => lhs; rw [hdec]
    simp
  have hdrop : s.drop (parseCargo s).vend = Q := by
    rw [hB, ← hA]; conv => lhs; rw [hdec]
    rw [← List.drop_drop]; simp
  have hfst : (bumpFile new s).1 = A ++ (new ++ Q) := by
    simp only [bumpFile]
    rw [if_neg hne, htake, hdrop]
    simp
  refine ⟨hfst, ?_⟩
  intro x y hx hy hvx hny
  have hsnd : (bumpFile new s).2 = decide (getRange s (parseCargo s).vstart (parseCargo s).vend ≠
      getRange (A ++ (new ++ Q)) (parseCargo s).vstart (parseCargo s).vend) := by
    simp only [bumpFile]
    rw [if_neg hne, htake, hdrop]
    simp
  rw [hfst, hsnd, hB, ← hA, decide_eq_true_eq]
  have hsrc : getRange s A.length (A.length + v.length) = some v := by
    rw [getRange, if_pos (by rw [hdec]; simp), hdec]
    simp
  rw [hsrc]
  constructor
  · intro h he
    rw [hdec] at he
    have he' : new = v := by
      have := List.append_cancel_left he
      exact List.append_cancel_right this
    apply h
    rw [he', ← hdec, hsrc]
  · intro h he
    apply h
    unfold getRange at he
    split at he
    · simp only [Option.some.injEq] at he
      rw [List.drop_left, Nat.add_sub_cancel_left] at he
      have h1 : new ++ Q = v ++ (new ++ Q).drop v.length := by
        have := (List.take_append_drop v.length (new ++ Q)).symm
        rwa [← he] at this
      generalize (new ++ Q).drop v.length = R at h1
      rw [hvx, hny] at h1
      simp only [List.cons_append, List.append_assoc, List.nil_append, List.cons.injEq, true_and] at h1
      have h2 := congrArg (Text.splitOnce '"') h1
      rw [splitOnce_eq hx, splitOnce_eq hy] at h2
      have h3 : y = x := congrArg Prod.fst h2
      rw [hdec, hny, hvx, h3]
    · simp at he

/-- The hypotheses are met by a manifest with two tables that both set `version`. -/
example : (bumpFile (str!"\"0.1.81\"")
    (str!"[package]\nname = \"clippy\"\nversion = \"0.1.80\"\n\n[dependencies.x]\nversion = \"1\"\n")) =
    (str!"[package]\nname = \"clippy\"\nversion = \"0.1.81\"\n\n[dependencies.x]\nversion = \"1\"\n", true) := by
  decide +kernel

example : ∃ (pre post : List Str) (v : Str), InTable (str!"package") pre ∧ Trimmed v ∧
    (∀ a l b, post = a ++ l :: b →
      InTable (str!"package") (pre ++ (str!"version" ++ str!" " ++ '=' :: (str!" " ++ v)) :: a) → ¬ IsVersionLine l) := by
  refine ⟨[str!"[package]"], [str!"edition = \"2024\""], str!"\"0.1.80\"", ?_, ⟨by decide, ?_, ?_⟩, ?_⟩
  · exact ⟨[], str!"[package]", [], rfl, ⟨str!"package", [], rfl, by decide, by decide⟩, by simp⟩
  · simp; decide
  · simp; decide
  · rintro a l b h _ ⟨sp, value, hl, _⟩
    have : a = [] := by
      have := congrArg List.length h
      simp at this
      exact List.length_eq_zero_iff.1 (by omega)
    subst this
    simp at h
    rw [← h.1] at hl
    simp at hl

/-- **C51.** A file with no `version` line in its `[package]` table is left as it is. -/
theorem bump_no_version {ls : List Str} {new : Str} (hne : ls ≠ []) (hnl : ∀ l ∈ ls, '\n' ∉ l)
    (hno : ∀ a l b, ls = a ++ l :: b → InTable (str!"package") a → ¬ IsVersionLine l) :
    bumpFile new (joinLines ls) = (joinLines ls, false) := by
  have h := cargoLoop_version ls 0 ⟨false, false, [], 0, 0, 0, 0⟩ (by
    intro a l b he hi
    refine hno a l b he ?_
    rcases cargoLoop_inPackage _ _ _ hi with h | h
    · exact h
    · simp at h)
  have he : (parseCargo (joinLines ls)).vend ≤ (parseCargo (joinLines ls)).vstart := by
    rw [parseCargo, split_joinLines ls hne hnl, h.1, h.2]
    exact Nat.le_refl _
  simp only [bumpFile]
  rw [if_pos he]

/-- A workspace manifest. -/
example : bumpFile (str!"\"0.1.81\"") (str!"[workspace]\nversion = \"1\"\n") =
    (str!"[workspace]\nversion = \"1\"\n", false) := by decide +kernel

/-! ## Violations -/

/-- In a file with CRLF line ends, the start of the version is one character too far to the right: the old quote
stays in front of the new one, and the manifest is no longer valid. -/
theorem bump_crlf_violation :
    bumpFile (str!"\"0.1.81\"") (str!"[package]\r\nversion = \"0.1.80\"\r\nedition = \"2024\"\r\n") =
      (str!"[package]\r\nversion = \"\"0.1.81\"\r\nedition = \"2024\"\r\n", true) := by decide +kernel

/-- With as much white space after the version as the version is long, no version is found, and nothing is changed. -/
theorem bump_trailing_space_violation :
    bumpFile (str!"\"2\"") (str!"[package]\nversion = \"1\"   \n") =
      (str!"[package]\nversion = \"1\"   \n", false) := by decide +kernel

/-- A comment after the version is erased. -/
theorem bump_comment_violation :
    bumpFile (str!"\"0.1.81\"") (str!"[package]\nversion = \"0.1.80\" # keep in sync\n") =
      (str!"[package]\nversion = \"0.1.81\"\n", true) := by decide +kernel

end Verif.Dev
