import Verif.Chars.Model

/-! Operations on texts and characters: the properties. -/

namespace Verif.Chars

open Model

/-! ## Replacing -/

/-- Replacing the character in the new text gives nothing new: it isn't in the text, or is the text. -/
def Harmless (t : Text) (c : Char) : Prop := c ∉ t ∨ t = [c]

theorem replaceChar_self {t : Text} {c : Char} (h : Harmless t c) : replaceChar c t t = t := by
  rcases h with h | h
  · unfold replaceChar
    have : ∀ s : Text, c ∉ s → s.flatMap (fun x => if x = c then t else [x]) = s := by
      intro s
      induction s with
      | nil => intro _; rfl
      | cons x xs ih =>
        intro hs
        have hx : ¬ x = c := fun hx => hs (by simp [hx])
        have hxs : c ∉ xs := fun hx => hs (by simp [hx])
        simp [hx, ih hxs]
    exact this t h
  · subst h; simp [replaceChar]

/-- One more character. -/
theorem replaceChar_any (cs : List Char) (c : Char) (t s : Text) (h : cs = [] ∨ replaceChar c t t = t) :
    replaceChar c t (replaceAny cs t s) = replaceAny (cs ++ [c]) t s := by
  unfold replaceAny
  rw [replaceChar, List.flatMap_assoc]
  congr 1
  funext x
  by_cases hx : x ∈ cs
  · have h' : replaceChar c t t = t := by
      rcases h with h | h
      · subst h; simp at hx
      · exact h
    simp only [hx, if_true, List.mem_append, true_or]
    exact h'
  · rw [if_neg hx]
    by_cases hc : x = c <;> simp [hx, hc]

/-- The texts: replacing one character after the other. -/
def replaceAll (t : Text) (cs : List Char) (s : Text) : Text := cs.foldl (fun s c => replaceChar c t s) s

theorem replaceAll_harmless (t : Text) (cs : List Char) (h : ∀ d ∈ cs, Harmless t d) (s : Text) :
    ∀ pre : List Char, pre ≠ [] → replaceAll t cs (replaceAny pre t s) = replaceAny (pre ++ cs) t s := by
  induction cs with
  | nil => intro pre _; simp [replaceAll]
  | cons d ds ih =>
    intro pre hp
    have := ih (fun x hx => h x (List.mem_cons_of_mem _ hx)) (pre ++ [d]) (by simp)
    simp only [replaceAll, List.foldl_cons] at this ⊢
    rw [replaceChar_any pre d t s (Or.inr (replaceChar_self (h d (List.mem_cons_self ..)))), this]
    simp

theorem replaceAny_single (c : Char) (t s : Text) : replaceAny [c] t s = replaceChar c t s := by
  simp [replaceAny, replaceChar]

theorem length_grows (c : Char) (t s : Text) (ht : t ≠ []) : s.length ≤ (replaceChar c t s).length := by
  have hl : 1 ≤ t.length := by cases t with
    | nil => exact absurd rfl ht
    | cons => simp
  unfold replaceChar
  induction s with
  | nil => simp
  | cons x xs ih =>
    by_cases hx : x = c
    · simp only [List.flatMap_cons, hx, if_true, List.length_append, List.length_cons]
      omega
    · simp only [List.flatMap_cons, hx, if_false, List.length_append, List.length_cons, List.length_nil]
      omega

theorem length_grows_strict (c : Char) (t s : Text) (ht : 2 ≤ t.length) (hs : c ∈ s) : s.length < (replaceChar c t s).length := by
  induction s with
  | nil => simp at hs
  | cons x xs ih =>
    have hne : t ≠ [] := by intro h; subst h; simp at ht
    by_cases hx : x = c
    · have := length_grows c t xs hne
      unfold replaceChar at this
      simp only [replaceChar, List.flatMap_cons, hx, if_true, List.length_append, List.length_cons]
      omega
    · have hxs : c ∈ xs := by
        rcases List.mem_cons.mp hs with h | h
        · exact absurd h.symm hx
        · exact h
      have := ih hxs
      unfold replaceChar at this
      simp only [replaceChar, List.flatMap_cons, hx, if_false, List.length_append, List.length_cons, List.length_nil]
      omega

theorem replaceAll_length (t : Text) (ht : t ≠ []) (cs : List Char) : ∀ s : Text, s.length ≤ (replaceAll t cs s).length := by
  induction cs with
  | nil => intro s; simp [replaceAll]
  | cons c cs ih =>
    intro s
    have h1 := length_grows c t s ht
    have h2 := ih (replaceChar c t s)
    simp only [replaceAll, List.foldl_cons] at h2 ⊢
    omega

theorem replaceAll_fixed (t : Text) (cs : List Char) (h : replaceAll t cs t = t) : ∀ d ∈ cs, Harmless t d := by
  induction cs with
  | nil => intro d hd; simp at hd
  | cons c cs ih =>
    by_cases hc : Harmless t c
    · intro d hd
      rcases List.mem_cons.mp hd with rfl | hd
      · exact hc
      · refine ih ?_ d hd
        simp only [replaceAll, List.foldl_cons, replaceChar_self hc] at h ⊢
        exact h
    · exfalso
      have hm : c ∈ t := Decidable.byContradiction fun hn => hc (Or.inl hn)
      have hne : t ≠ [] := by intro h0; subst h0; simp at hm
      have hl : 2 ≤ t.length := by
        match t, hm, hc with
        | [x], hm, hc => simp at hm; exact absurd (Or.inr (by rw [hm])) hc
        | _ :: _ :: _, _, _ => simp
      have h1 := length_grows_strict c t t hl hm
      have h2 := replaceAll_length t hne cs (replaceChar c t t)
      simp only [replaceAll, List.foldl_cons] at h h2
      rw [h] at h2
      omega

/-- **C123.** Replacing characters one after the other is replacing any of them, for every text, exactly if each later character is harmless:
it isn't in the new text, or is all of it. -/
theorem collapse_iff (t : Text) (c : Char) (cs : List Char) :
    (∀ s, replaceAll t (c :: cs) s = replaceAny (c :: cs) t s) ↔ ∀ d ∈ cs, Harmless t d := by
  constructor
  · intro h
    have := h [c]
    apply replaceAll_fixed t cs
    simp only [replaceAll, List.foldl_cons] at this ⊢
    simpa [replaceChar, replaceAny] using this
  · intro h s
    have := replaceAll_harmless t cs h s [c] (by simp)
    rw [replaceAny_single] at this
    simpa [replaceAll] using this

example : Harmless ['-'] 'b' ∧ Harmless ['b'] 'b' ∧ ¬ Harmless ['b', 'b'] 'b' := by
  simp [Harmless]

theorem eval_chain (M : Sem) (to : Nat) (cs : List Char) : ∀ r : Expr, (chain to cs r).eval M = replaceAll (M.to to) cs (r.eval M) := by
  induction cs with
  | nil => intro r; rfl
  | cons c cs ih =>
    intro r
    have := ih (.replace r (.char c) to)
    simpa [chain, replaceAll, Expr.eval] using this

/-- Below its methods the receiver doesn't replace a character by the same text. -/
def Free (to : Nat) : Expr → Prop
  | .base _ => True
  | .method _ e => Free to e
  | .replace _ (.char _) t => t ≠ to
  | .replace _ (.any _) _ => True
  | .replace _ (.other _) _ => True

theorem collect_free (to : Nat) (r : Expr) (h : Free to r) : collect to r = none := by
  induction r with
  | base k => rfl
  | method k e ih => exact ih h
  | replace e p t ih =>
    cases p with
    | char c => simp only [collect]; rw [if_neg (show ¬ t = to from h)]
    | any cs => rfl
    | other k => rfl

theorem collect_chain (to : Nat) (r : Expr) (h : Free to r) (c : Char) (cs : List Char) : collect to (chain to (cs ++ [c]) r) = some (cs ++ [c], r) := by
  have key : ∀ (rs : List Char) (c : Char), collect to (chain to (rs.reverse ++ [c]) r) = some (rs.reverse ++ [c], r) := by
    intro rs
    induction rs with
    | nil => intro c; simp [chain, collect, collect_free to r h]
    | cons d rs ih =>
      intro c
      have := ih d
      have hc : chain to ((d :: rs).reverse ++ [c]) r = .replace (chain to (rs.reverse ++ [d]) r) (.char c) to := by simp [chain]
      rw [hc, collect, if_pos rfl, this]
      simp
  have := key cs.reverse c
  rwa [List.reverse_reverse] at this

/-- **C123.** Chains of two or more replacements of characters are found, with all of their characters in order, unless the parent goes on. -/
theorem collapse_found (to : Nat) (r : Expr) (h : Free to r) (cs : List Char) (c d : Char) :
    collapse none (chain to (cs ++ [c, d]) r) = some (.replace r (.any (cs ++ [c, d])) to) ∧
      ∀ x, collapse (some (.char x, to)) (chain to (cs ++ [c, d]) r) = none := by
  have h1 : chain to (cs ++ [c, d]) r = .replace (.replace (chain to cs r) (.char c) to) (.char d) to := by simp [chain]
  have h2 := collect_chain to r h d (cs ++ [c])
  have h3 : cs ++ [c] ++ [d] = cs ++ [c, d] := by simp
  rw [h3, h1] at h2
  rw [h1]
  simp [collapse, isReplace, h2, sameParent]

/-- **C123.** A chain of replacements has the value of the suggested one if the later characters are harmless. -/
theorem collapse_partial (M : Sem) (parent : Option (Pat × Nat)) (to : Nat) (r : Expr) (h : Free to r) (c : Char) (cs : List Char) (e : Expr)
    (he : collapse parent (chain to (c :: cs) r) = some e) (hh : ∀ d ∈ cs, Harmless (M.to to) d) :
    e.eval M = (chain to (c :: cs) r).eval M := by
  have hr : e = .replace r (.any (c :: cs)) to := by
    have hcs : c :: cs = (c :: cs).dropLast ++ [(c :: cs).getLast (by simp)] := (List.dropLast_concat_getLast (by simp)).symm
    have h2 := collect_chain to r h ((c :: cs).getLast (by simp)) (c :: cs).dropLast
    rw [← hcs] at h2
    have h3 : chain to (c :: cs) r = .replace (chain to (c :: cs).dropLast r) (.char ((c :: cs).getLast (by simp))) to := by
      conv => lhs; rw [hcs]
      simp only [chain, List.foldl_append, List.foldl_cons, List.foldl_nil]
    rw [h3] at he h2
    simp only [collapse, h2] at he
    split at he
    · split at he
      · exact (Option.some.inj he).symm
      · exact absurd he (by simp)
    · exact absurd he (by simp)
  subst hr
  rw [eval_chain, Expr.eval]
  exact ((collapse_iff (M.to to) c cs).mpr hh (r.eval M)).symm

/-- Expression 0 is `"bb"`, expression 1 `"-"`; method 0 is `trim_start` for blanks. -/
def demo (s : Text) : Sem where
  base _ := s
  to k := if k = 0 then ['b', 'b'] else ['-']
  other _ _ s := s
  method _ s := s.dropWhile (· = ' ')

example : collapse none (chain 1 ['a', 'b', 'c'] (.method 0 (.base 0))) = some (.replace (.method 0 (.base 0)) (.any ['a', 'b', 'c']) 1) ∧
    (∀ d ∈ ['b', 'c'], Harmless ((demo [' ', 'a', 'x', 'c']).to 1) d) ∧
    (chain 1 ['a', 'b', 'c'] (.method 0 (.base 0))).eval (demo [' ', 'a', 'x', 'c']) = ['-', 'x', '-'] := by
  refine ⟨by decide +kernel, ?_, by decide +kernel⟩
  simp [demo, Harmless]

/-- **C123.** `s.replace('a', "bb").replace('b', "bb")` replaces what it has put in, `s.replace(['a', 'b'], "bb")` doesn't. -/
theorem later_wrong : ∃ e e', collapse none e = some e' ∧ e.eval (demo ['a']) = ['b', 'b', 'b', 'b'] ∧ e'.eval (demo ['a']) = ['b', 'b'] :=
  ⟨chain 0 ['a', 'b'] (.base 0), .replace (.base 0) (.any ['a', 'b']) 0, by decide +kernel, by decide +kernel, by decide +kernel⟩

/-- **C123.** A method in between is lost: `s.replace('a', "-").trim_start().replace('b', "-").replace('c', "-")`. -/
theorem method_lost : ∃ e e', collapse none e = some e' ∧ e.eval (demo [' ', 'a']) = ['-'] ∧ e'.eval (demo [' ', 'a']) = [' ', '-'] :=
  ⟨chain 1 ['b', 'c'] (.method 0 (chain 1 ['a'] (.base 0))), .replace (.base 0) (.any ['a', 'b', 'c']) 1,
    by decide +kernel, by decide +kernel, by decide +kernel⟩

theorem replaceFrom_self (p : Text) (hp : p ≠ []) : ∀ (s : Text) (k : Nat), replaceFrom p p k s = s.drop k := by
  intro s
  induction s with
  | nil => intro k; cases k <;> simp [replaceFrom]
  | cons x xs ih =>
    intro k
    cases k with
    | succ k => simp [replaceFrom, ih]
    | zero =>
      simp only [replaceFrom, ih, List.drop_zero]
      split
      · rename_i h
        obtain ⟨r, hr⟩ := List.isPrefixOf_iff_prefix.mp h
        cases p with
        | nil => exact absurd rfl hp
        | cons y ys =>
          simp only [List.cons_append, List.cons.injEq] at hr
          obtain ⟨rfl, rfl⟩ := hr
          simp
      · rfl

/-- Replacing a text by itself changes nothing. -/
theorem replaceText_self (p s : Text) : replaceText p p s = s := by
  cases p with
  | nil =>
    simp only [replaceText, List.nil_append]
    induction s with
    | nil => rfl
    | cons x xs ih => simp
  | cons y ys => exact replaceFrom_self (y :: ys) (by simp) s 0

theorem replaceText_char (c : Char) (t s : Text) : replaceText [c] t s = replaceChar c t s := by
  simp only [replaceText, replaceChar]
  induction s with
  | nil => rfl
  | cons x xs ih =>
    by_cases h : c = x
    · subst h; simp [replaceFrom, List.isPrefixOf, ih]
    · have h' : ¬ x = c := fun hx => h hx.symm
      simp [replaceFrom, List.isPrefixOf, h, h', ih]

/-- The code has no effects and always the same value. -/
def Pure {W : Type} (code : Nat → W → Text × W) : Arg → Prop
  | .char _ => True
  | .str _ => True
  | .code k => ∀ w w', (code k w).1 = (code k w').1

/-- **C123.** A replacement reported as one without effect gives back its receiver, if equal arguments have equal values. -/
theorem no_effect_partial {W : Type} (code : Nat → W → Text × W) (a b : Arg) (h : noEffect a b = true) (hp : Pure code a) (w : W) (s : Text) :
    replaceText (a.eval code w).1 (b.eval code (a.eval code w).2).1 s = s := by
  have key : (b.eval code (a.eval code w).2).1 = (a.eval code w).1 := by
    cases a with
    | char c =>
      cases b with
      | char d => have : c = d := by simpa [noEffect, litStringValue] using h
                  subst this; rfl
      | str t => have : [c] = t := by simpa [noEffect, litStringValue] using h
                 subst this; rfl
      | code k => simp [noEffect, litStringValue] at h
    | str t =>
      cases b with
      | char d => simp [noEffect, litStringValue] at h
      | str u => have : t = u := by simpa [noEffect, litStringValue] using h
                 subst this; rfl
      | code k => simp [noEffect, litStringValue] at h
    | code k =>
      cases b with
      | char d => simp [noEffect, litStringValue] at h
      | str u => simp [noEffect, litStringValue] at h
      | code j =>
        have : k = j := by simpa [noEffect, litStringValue] using h
        subst this
        exact hp _ _
  rw [key, replaceText_self]

example : noEffect (.char 'a') (.str ['a']) = true ∧ noEffect (.str ['a', 'b']) (.str ['a', 'b']) = true ∧
    noEffect (.str ['a', 'b']) (.str ['a']) = false ∧ noEffect (.char 'a') (.str ['b']) = false := by decide +kernel

/-- **C123.** Equal literals are found. -/
theorem no_effect_found (t : Text) (c : Char) : noEffect (.str t) (.str t) = true ∧ noEffect (.char c) (.str [c]) = true := by
  simp [noEffect, litStringValue]

/-- **C123.** `s.replace(&next(), &next())` is reported too, and may have an effect. -/
theorem next_wrong : ∃ (code : Nat → Nat → Text × Nat) (a b : Arg), noEffect a b = true ∧
    replaceText (a.eval code 0).1 (b.eval code (a.eval code 0).2).1 ['a', 'x'] = ['b', 'x'] :=
  ⟨fun _ w => (if w = 0 then ['a'] else ['b'], w + 1), .code 0, .code 0, by decide +kernel, by decide +kernel⟩

/-! ## Is it ASCII? -/

theorem lastBinding_eval (M : Code) (ss : List Stmt) : ∀ (x q : Nat) (e : Env), lastBinding x ss = some q → (ss.foldl (Stmt.run M) e) q = e x := by
  induction ss with
  | nil => intro x q e h; simp only [lastBinding, Option.some.injEq] at h; subst h; rfl
  | cons s ss ih =>
    intro x q e h
    cases s with
    | rename y z =>
      simp only [lastBinding] at h
      by_cases hz : z = x
      · rw [if_pos hz] at h
        rw [List.foldl_cons, ih y q _ h]
        simp [Stmt.run, Env.set, hz]
      · rw [if_neg hz] at h; exact absurd h (by simp)
    | bind y k => simp [lastBinding] at h
    | other k => simp [lastBinding] at h

theorem handle_eval (M : Code) (isAll : Bool) (b : Body) : ∀ (p : Nat) (revert r : Bool) (e : Env), handle isAll b p revert = some r →
    r ≠ isAll ∧ b.eval M e = ((r != revert) != asciiChar (e p)) := by
  induction b with
  | method x =>
    intro p revert r e h
    simp only [handle] at h
    by_cases hc : revert ≠ isAll ∧ x = p
    · rw [if_pos hc] at h; cases h; obtain ⟨h1, rfl⟩ := hc; exact ⟨h1, by simp [Body.eval]⟩
    · rw [if_neg hc] at h; exact absurd h (by simp)
  | call x =>
    intro p revert r e h
    simp only [handle] at h
    by_cases hc : revert ≠ isAll ∧ x = p
    · rw [if_pos hc] at h; cases h; obtain ⟨h1, rfl⟩ := hc; exact ⟨h1, by simp [Body.eval]⟩
    · rw [if_neg hc] at h; exact absurd h (by simp)
  | not b ih =>
    intro p revert r e h
    obtain ⟨h1, h2⟩ := ih p (!revert) r e h
    refine ⟨h1, ?_⟩
    simp only [Body.eval, h2]
    cases r <;> cases revert <;> cases asciiChar (e p) <;> rfl
  | block ss b ih =>
    intro p revert r e h
    simp only [handle] at h
    split at h
    · exact absurd h (by simp)
    · split at h
      · exact absurd h (by simp)
      · rename_i q hq
        obtain ⟨h1, h2⟩ := ih q revert r (ss.foldl (Stmt.run M) e) h
        exact ⟨h1, by rw [Body.eval, h2, lastBinding_eval M ss p q e hq]⟩
  | other k => intro p revert r e h; simp [handle] at h

/-- **C123.** An iteration that is found asks whether the text is an ASCII text, or whether it isn't. -/
theorem ascii_same (M : Code) (isAll neg : Bool) (x : Nat) (b : Body) (h : checkAscii isAll x b = some neg) (e : Env) (s : Text) :
    asciiText neg s = iterate M isAll x b e s := by
  have hb : ∀ c, b.eval M (e.set x c) = (neg != asciiChar c) := by
    intro c
    have := (handle_eval M isAll b x false neg (e.set x c) h).2
    simpa [Env.set] using this
  have hn := (handle_eval M isAll b x false neg e h).1
  simp only [iterate, asciiText, hb]
  cases isAll <;> cases neg <;> simp_all [List.all_eq_not_any_not]

/-- **C123.** `all` of `is_ascii` and `any` of its negation are found, through renamings. -/
theorem ascii_found (x y : Nat) : checkAscii true x (.method x) = some false ∧ checkAscii false x (.not (.call x)) = some true ∧
    checkAscii true x (.block [.rename y x] (.method y)) = some false ∧ checkAscii false x (.method x) = none ∧
    checkAscii true x (.not (.method x)) = none := by
  simp [checkAscii, handle, lastBinding, isLet]

example : checkAscii false 0 (.not (.not (.not (.block [.rename 1 0, .rename 2 1] (.call 2))))) = some true ∧
    checkAscii true 0 (.block [.rename 1 0, .bind 2 0] (.call 2)) = none ∧ checkAscii true 0 (.block [.rename 1 3] (.call 1)) = none := by
  decide +kernel

/-- **C123.** As a receiver the negated suggestion means something else: `s.chars().any(|c| !c.is_ascii()).le(&true)`. -/
theorem receiver_wrong (M : Code) (e : Env) : ∃ (b : Body) (m : Bool → Bool) (s : Text), checkAscii false 0 b = some true ∧
    m (iterate M false 0 b e s) = true ∧ asciiThen m true s = false :=
  ⟨.not (.method 0), fun b => !b || true, [], rfl, by simp, by simp [asciiThen]⟩

/-! ## The first and the last character -/

/-- **C123.** Comparing the first or last character with `Some(c)` is `starts_with` or `ends_with`. -/
theorem compare_same (d : End) (eq : Bool) (c : Char) (s : Text) :
    compare d false eq c s = some (startsOrEnds (charsCmp d eq).1 (charsCmp d eq).2 c s) := by
  have h1 : [c].isPrefixOf s = decide (s.head? = some c) := by
    cases s with
    | nil => simp [List.isPrefixOf]
    | cons x xs => by_cases h : c = x
                   · simp [List.isPrefixOf, h]
                   · have h' : ¬ x = c := fun hx => h hx.symm
                     simp [List.isPrefixOf, h, h']
  have h2 : [c].isSuffixOf s = decide (s.getLast? = some c) := by
    rw [List.isSuffixOf, List.getLast?_eq_head?_reverse]
    cases s.reverse with
    | nil => simp [List.isPrefixOf]
    | cons x xs => by_cases h : c = x
                   · simp [List.isPrefixOf, h]
                   · have h' : ¬ x = c := fun hx => h hx.symm
                     simp [List.isPrefixOf, h, h']
  have h3 : ∀ b : Bool, (b == eq) = ((!eq) != b) := by intro b; cases b <;> cases eq <;> rfl
  cases d <;> simp only [compare, startsOrEnds, charsCmp, h1, h2, End.get, h3] <;> simp <;> rfl

/-- **C123.** With `unwrap` the same holds for texts that aren't empty. -/
theorem compare_unwrap_partial (d : End) (eq : Bool) (c : Char) (s : Text) (hs : s ≠ []) :
    compare d true eq c s = some (startsOrEnds (charsCmp d eq).1 (charsCmp d eq).2 c s) := by
  rw [← compare_same d eq c s]
  obtain ⟨x, hx⟩ : ∃ x, d.get s = some x := by
    cases s with
    | nil => exact absurd rfl hs
    | cons y ys =>
      cases d with
      | next => exact ⟨y, rfl⟩
      | last => exact ⟨(y :: ys).getLast (by simp), (by simp only [End.get]; exact List.getLast?_eq_some_getLast _)⟩
      | nextBack => exact ⟨(y :: ys).getLast (by simp), (by simp only [End.get]; exact List.getLast?_eq_some_getLast _)⟩
  simp [compare, hx]

example : compare .last false false 'b' ['a', 'b'] = some false ∧ charsCmp .last false = (false, true) ∧
    startsOrEnds false true 'b' ['a', 'b'] = false ∧ compare .next true true 'b' ['a', 'b'] = some false := by decide +kernel

/-- **C123.** An empty text panics before and has a value afterwards. -/
theorem empty_value (d : End) (eq : Bool) (c : Char) :
    compare d true eq c [] = none ∧ startsOrEnds (charsCmp d eq).1 (charsCmp d eq).2 c [] = !eq := by
  cases d <;> cases eq <;> simp [compare, End.get, charsCmp, startsOrEnds, List.isPrefixOf, List.isSuffixOf]

/-! ## Literals -/

/-- The source of a string literal. -/
def source (style : Style) (body : Text) : Text :=
  match style with
  | .cooked => '"' :: body ++ ['"']
  | .raw n => 'r' :: List.replicate n '#' ++ '"' :: body ++ '"' :: List.replicate n '#'

theorem inner_source (style : Style) (body : Text) : inner style (source style body) = body := by
  cases style with
  | cooked =>
    have : (body ++ ['"']).take body.length = body := by simp
    simp [inner, source, slice]
  | raw n =>
    simp only [inner, source, slice]
    have hl : ('r' :: List.replicate n '#' ++ '"' :: body ++ '"' :: List.replicate n '#').length - 1 - n = (n + 2) + body.length := by
      simp; omega
    rw [hl]
    have hs : 'r' :: List.replicate n '#' ++ '"' :: body ++ '"' :: List.replicate n '#' =
        ('r' :: List.replicate n '#' ++ ['"']) ++ (body ++ '"' :: List.replicate n '#') := by simp
    have hp : ('r' :: List.replicate n '#' ++ ['"']).length = n + 2 := by simp
    rw [hs, ← hp, List.take_length_add_append, List.drop_left]
    simp

/-- The value of a literal. -/
def Means (style : Style) (body value : Text) : Prop :=
  match style with
  | .cooked => StrLit body value
  | .raw _ => body = value

/-- Ends of lines and tabs can't be written as they are in a character literal. -/
def OneLine (body : Text) : Prop := '\n' ∉ body ∧ '\r' ∉ body ∧ '\t' ∉ body

theorem strLit_nil {b : Text} (h : StrLit b []) (hb : '\n' ∉ b) : b = [] := by
  cases h with
  | nil => rfl
  | skip ws b' _ h1 h2 h3 => exact absurd (by simp) hb

theorem hint_raw (c : Char) (h : OneLine [c]) : CharLit (hint [c]) c := by
  obtain ⟨h1, h2, h3⟩ := h
  by_cases hq : c = '\''
  · subst hq; exact .escape _ _ .quote
  · by_cases hb : c = '\\'
    · subst hb; exact .escape _ _ .backslash
    · have : hint [c] = [c] := by simp [hint, hq, hb]
      rw [this]
      exact .plain c hq hb (fun h => h1 (by simp [h])) (fun h => h2 (by simp [h])) (fun h => h3 (by simp [h]))

theorem escape_ne {e : Text} {c : Char} (h : Escape e c) : e ≠ [] := by cases h <;> simp

theorem hint_escape (e : Text) (c : Char) (h : Escape e c) : CharLit (hint ('\\' :: e)) c := by
  by_cases hd : e = ['"']
  · subst hd
    have hc : c = '"' := by cases h; rfl
    subst hc
    exact .plain _ (by decide) (by decide) (by decide) (by decide) (by decide)
  · have : hint ('\\' :: e) = '\\' :: e := by
      have := escape_ne h
      simp [hint, hd, this]
    rw [this]
    exact .escape e c h

theorem byteLen_one {v : Text} (h : byteLen v = 1) : v.length = 1 := by
  match v with
  | [] => simp [byteLen] at h
  | [_] => rfl
  | a :: b :: r =>
    have h1 := Char.utf8Size_pos a
    have h2 := Char.utf8Size_pos b
    simp [byteLen] at h
    omega

/-- **C123.** The character literal made of a string literal on one line means the one character of the string. -/
theorem literal_partial (style : Style) (body value : Text) (asciiOnly : Bool) (hm : Means style body value) (ho : OneLine body) (t : Text)
    (h : strToChar style (source style body) value asciiOnly = some t) : ∃ c, value = [c] ∧ CharLit t c := by
  simp only [strToChar, inner_source] at h
  by_cases hl : (if asciiOnly = true then byteLen value else value.length) = 1
  · have hl' : value.length = 1 := by
      cases asciiOnly with
      | true => exact byteLen_one hl
      | false => exact hl
    rw [if_pos hl] at h
    cases h
    obtain ⟨c, rfl⟩ : ∃ c, value = [c] := by
      match value, hl' with
      | [c], _ => exact ⟨c, rfl⟩
    refine ⟨c, rfl, ?_⟩
    cases style with
    | raw n => simp only [Means] at hm; subst hm; exact hint_raw c ho
    | cooked =>
      simp only [Means] at hm
      generalize hv : [c] = v at hm
      cases hm with
      | nil => exact absurd hv (by simp)
      | plain d b v' h1 h2 h3 h4 =>
        simp only [List.cons.injEq] at hv
        obtain ⟨rfl, rfl⟩ := hv
        have hb := strLit_nil h4 (fun hx => ho.1 (by simp [hx]))
        subst hb
        exact hint_raw c ho
      | escape e d b v' h1 h2 =>
        simp only [List.cons.injEq] at hv
        obtain ⟨rfl, rfl⟩ := hv
        have hb := strLit_nil h2 (fun hx => ho.1 (by simp [hx]))
        subst hb
        rw [List.append_nil]
        exact hint_escape e c h1
      | skip ws b v' h1 h2 h3 => exact absurd (by simp) ho.1
  · rw [if_neg hl] at h; exact absurd h (by simp)

example : strToChar .cooked ['"', '\\', '"', '"'] ['"'] false = some ['"'] ∧ strToChar (.raw 1) ['r', '#', '"', '\\', '"', '#'] ['\\'] false =
    some ['\\', '\\'] ∧ strToChar .cooked ['"', '\'', '"'] ['\''] true = some ['\\', '\''] ∧ source (.raw 1) ['\\'] =
    ['r', '#', '"', '\\', '"', '#'] := by decide +kernel

/-- **C123.** Literals with one character are found; with the restriction to ASCII, those of one byte. -/
theorem literal_found (style : Style) (snip : Text) (c : Char) : (strToChar style snip [c] false).isSome ∧
    ((strToChar style snip [c] true).isSome ↔ c.utf8Size = 1) := by
  constructor
  · simp [strToChar]
  · by_cases h : c.utf8Size = 1 <;> simp [strToChar, byteLen, h]

theorem no_char_lit {t : Text} {c : Char} (h : CharLit t c) : t ≠ ['\n'] := by
  cases h with
  | plain _ _ _ h _ _ => intro h'; simp only [List.cons.injEq, and_true] at h'; exact h h'
  | escape e _ _ => intro h'; simp at h'

/-- **C123.** A line break, as it is in the source, gives a text that is no character literal. -/
theorem line_break_wrong : ∃ (body value t : Text), Means .cooked body value ∧ strToChar .cooked (source .cooked body) value false = some t ∧
    ∀ c, ¬ CharLit t c := by
  refine ⟨['\n'], ['\n'], ['\n'], .plain _ _ _ (by decide) (by decide) (by decide) .nil, by decide +kernel, ?_⟩
  intro c h
  exact no_char_lit h rfl

/-- **C123.** A continued line does too: `"a\` and blanks on the next line. -/
theorem continued_wrong : ∃ (body t : Text), Means .cooked body ['a'] ∧ strToChar .cooked (source .cooked body) ['a'] false = some t ∧
    ∀ c, ¬ CharLit t c := by
  refine ⟨['a', '\\', '\n', ' '], ['a', '\\', '\n', ' '],
    .plain _ _ _ (by decide) (by decide) (by decide) (.skip [' '] [] [] (by simp [blank]) (by simp) .nil), by decide +kernel, ?_⟩
  intro c h
  generalize ht : ['a', '\\', '\n', ' '] = t at h
  cases h with
  | plain => simp at ht
  | escape => simp at ht

/-- **C123.** The string literal for a repeated character means that character. -/
theorem repeat_same (src : Text) (c : Char) (h : CharLit src c) : StrLit (repeatText c src) [c] := by
  unfold repeatText
  by_cases hq : c = '\''
  · rw [if_pos hq]; subst hq; exact .plain _ _ _ (by decide) (by decide) (by decide) .nil
  · rw [if_neg hq]
    by_cases hd : c = '"'
    · rw [if_pos hd]; subst hd; exact .escape ['"'] _ [] [] .double .nil
    · rw [if_neg hd]
      cases h with
      | plain _ h1 h2 h3 h4 h5 => exact .plain c [] [] hd h2 h4 .nil
      | escape e _ he => have := StrLit.escape e c [] [] he .nil; simpa using this

example : CharLit ['\\', 'x', '2', '7'] '\'' ∧ repeatText '\'' ['\\', 'x', '2', '7'] = ['\''] :=
  ⟨.escape _ _ (.x '2' '7' 2 7 (by decide) (by decide) (by decide)), rfl⟩

theorem digit_hex (n : Nat) (h : n < 16) : hexDigit (digit n) = some n ∧ digit n ≠ '_' := by
  have : ∀ n : Fin 16, hexDigit (digit n.val) = some n.val ∧ digit n.val ≠ '_' := by decide +kernel
  exact this ⟨n, h⟩

theorem hexValue_snoc (d : Char) (k : Nat) (hd : hexDigit d = some k) (hu : d ≠ '_') : ∀ (ds : Text) (a v : Nat), hexValue ds a = some v →
    hexValue (ds ++ [d]) a = some (16 * v + k) := by
  intro ds
  induction ds with
  | nil =>
    intro a v h
    simp only [hexValue, Option.some.injEq] at h
    subst h
    rw [List.nil_append, hexValue.eq_3 _ _ _ (by exact hu), hd]
    rfl
  | cons x xs ih =>
    intro a v h
    by_cases hx : x = '_'
    · subst hx; rw [List.cons_append, hexValue]; exact ih _ _ (by rw [hexValue] at h; exact h)
    · rw [List.cons_append, hexValue.eq_3 _ _ _ (by exact hx)]
      rw [hexValue.eq_3 _ _ _ (by exact hx)] at h
      cases hh : hexDigit x with
      | none => rw [hh] at h; exact absurd h (by simp)
      | some j => rw [hh] at h; exact ih _ _ h

theorem hexText_value : ∀ n : Nat, hexValue (hexText n) 0 = some n ∧ hexText n ≠ [] := by
  intro n
  induction n using Nat.strongRecOn with
  | _ n ih =>
    rw [hexText]
    by_cases h : n < 16
    · rw [if_pos h]
      obtain ⟨h1, h2⟩ := digit_hex n h
      have := hexValue_snoc (digit n) n h1 h2 [] 0 0 rfl
      exact ⟨by simpa using this, by simp⟩
    · rw [if_neg h]
      obtain ⟨h1, h2⟩ := digit_hex (n % 16) (Nat.mod_lt _ (by decide))
      have := hexValue_snoc _ _ h1 h2 (hexText (n / 16)) 0 (n / 16) (ih (n / 16) (by omega)).1
      refine ⟨?_, by simp⟩
      rw [this]
      congr 1
      omega

/-- What `{c:?}` prints is a literal of the character. -/
theorem debugChar_lit (printable : Char → Bool) (c : Char) : CharLit (debugChar printable c) c := by
  unfold debugChar
  by_cases h0 : c = Char.ofNat 0
  · rw [if_pos h0]; subst h0; exact .escape _ _ .zero
  rw [if_neg h0]
  by_cases h1 : c = '\t'
  · rw [if_pos h1]; subst h1; exact .escape _ _ .t
  rw [if_neg h1]
  by_cases h2 : c = '\r'
  · rw [if_pos h2]; subst h2; exact .escape _ _ .r
  rw [if_neg h2]
  by_cases h3 : c = '\n'
  · rw [if_pos h3]; subst h3; exact .escape _ _ .n
  rw [if_neg h3]
  by_cases h4 : c = '\\'
  · rw [if_pos h4]; subst h4; exact .escape _ _ .backslash
  rw [if_neg h4]
  by_cases h5 : c = '\''
  · rw [if_pos h5]; subst h5; exact .escape _ _ .quote
  rw [if_neg h5]
  by_cases h6 : printable c = true
  · rw [if_pos h6]; exact .plain c h5 h4 h3 h2 h1
  · rw [if_neg h6]
    obtain ⟨hv, hn⟩ := hexText_value c.toNat
    have := Escape.u (hexText c.toNat) c.toNat hv hn c.valid
    rw [Char.ofNat_toNat] at this
    exact .escape _ _ this

/-- **C123.** The suggested `matches!` has the value of the search in a literal that isn't empty. -/
theorem any_partial (printable : Char → Bool) (lit : Text) (h : lit ≠ []) (x : Char) :
    MatchesAny (litPattern printable lit) x (anyOf lit x) := by
  refine ⟨by simp [litPattern, h], lit, by simp [litPattern], ?_, rfl⟩
  intro q hq
  simp only [litPattern, List.zip_map_right, List.mem_map] at hq
  obtain ⟨⟨a, b⟩, hab, rfl⟩ := hq
  have : a = b := by
    have : ∀ l : Text, (a, b) ∈ l.zip l → a = b := by
      intro l
      induction l with
      | nil => intro h; simp at h
      | cons y ys ih =>
        intro h
        simp only [List.zip_cons_cons, List.mem_cons, Prod.mk.injEq] at h
        rcases h with ⟨rfl, rfl⟩ | h
        · rfl
        · exact ih h
    exact this lit hab
  subst this
  exact debugChar_lit printable a

/-- Literals have one value. -/
theorem escape_unique {e : Text} {c d : Char} (h : Escape e c) (h' : Escape e d) : c = d := by
  generalize he : e = e' at h'
  cases h with
  | x a b i j h1 h2 h3 =>
    cases h' with
    | x a' b' i' j' h1' h2' h3' =>
      simp only [List.cons.injEq, and_true, true_and] at he
      obtain ⟨rfl, rfl⟩ := he
      rw [h1] at h1'; rw [h2] at h2'
      cases h1'; cases h2'; rfl
    | _ => simp at he
  | u ds v h1 h2 h3 =>
    cases h' with
    | u ds' v' h1' h2' h3' =>
      simp only [List.cons_append, List.cons.injEq, true_and, List.append_cancel_right_eq] at he
      subst he
      rw [h1] at h1'
      cases h1'; rfl
    | _ => simp at he
  | _ => cases h' <;> first | rfl | simp at he

theorem charLit_unique {t : Text} {c d : Char} (h : CharLit t c) (h' : CharLit t d) : c = d := by
  cases h with
  | plain _ h1 h2 => cases h' with
    | plain => rfl
    | escape e _ he => exact absurd rfl h2
  | escape e _ he =>
    generalize ht : '\\' :: e = t at h'
    cases h' with
    | plain _ h1 h2 => simp only [List.cons.injEq] at ht; exact absurd ht.1.symm h2
    | escape e' _ he' => simp only [List.cons.injEq, true_and] at ht; subst ht; exact escape_unique he he'

/-- **C123.** And it has no other value. -/
theorem any_only (ps : List Text) (x : Char) (v v' : Bool) (h : MatchesAny ps x v) (h' : MatchesAny ps x v') : v = v' := by
  obtain ⟨_, cs, h1, h2, rfl⟩ := h
  obtain ⟨_, ds, h1', h2', rfl⟩ := h'
  have : ∀ (ps : List Text) (cs ds : List Char), cs.length = ps.length → ds.length = ps.length → (∀ q ∈ cs.zip ps, CharLit q.2 q.1) →
      (∀ q ∈ ds.zip ps, CharLit q.2 q.1) → cs = ds := by
    intro ps
    induction ps with
    | nil => intro cs ds h h' _ _; cases cs <;> cases ds <;> simp_all
    | cons p ps ih =>
      intro cs ds h h' hc hd
      cases cs with
      | nil => simp at h
      | cons c cs =>
        cases ds with
        | nil => simp at h'
        | cons d ds =>
          have h3 : c = d := charLit_unique (hc (c, p) (by simp)) (hd (d, p) (by simp))
          have h4 := ih cs ds (by simpa using h) (by simpa using h') (fun q hq => hc q (by simp [hq])) (fun q hq => hd q (by simp [hq]))
          rw [h3, h4]
  rw [this ps cs ds h1 h1' h2 h2']

example : litPattern (fun _ => true) ['a', '\n', '\''] = [['a'], ['\\', 'n'], ['\\', '\'']] ∧ anyOf ['a', '\n', '\''] '\n' = true := by decide +kernel

/-- **C123.** For an empty literal there is no pattern: `matches!(x, )`. -/
theorem empty_wrong (printable : Char → Bool) (x : Char) (v : Bool) : ¬ MatchesAny (litPattern printable []) x v := fun h => h.1 rfl

end Verif.Chars
