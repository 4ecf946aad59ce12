import Verif.Ctrl.CollapseSpec
import Verif.Ctrl.Facts

/-!
# Collapsing nested `if`s keeps the meaning
-/

namespace Verif.Ctrl.Collapse
open Verif.Ctrl

/-! ## The tree -/

section
variable {S : Sem}

theorem exprBlock_cases {b : Stmts} {e : Expr} (h : exprBlock b = some e) :
    b = .tail e ∨ b = .semi e .done := by
  unfold exprBlock at h
  split at h
  · cases h; exact .inl rfl
  · cases h; exact .inr rfl
  · cases h

/-- An inner `if` in a block, with or without semicolon, up to its value. -/
theorem exprBlock_eval {b : Stmts} {e : Expr} (h : exprBlock b = some e) (k : Nat) (ρ : Env S) :
    (eval k (.block none b) ρ).bind (fun _ => M.pure S.unit) =
      (eval k e ρ).bind fun _ => M.pure S.unit := by
  cases exprBlock_cases h with
  | inl h => subst h; simp only [eval, evalS, hoist]
  | inr h => subst h; simp only [eval, evalS, hoist, M.bind_assoc, M.pure_bind]

theorem ifn_unit (c : Cond) (t : Expr) (k : Nat) (ρ : Env S) :
    (eval k (.ifn c t) ρ).bind (fun _ => M.pure S.unit) = eval k (.ifn c t) ρ := by
  simp only [eval, M.bind_assoc]
  refine M.bind_congr fun o => ?_
  cases o with
  | none => rfl
  | some ρ' => simp only [M.bind_assoc, M.pure_bind]

/-- **C74** (`if` in `if`): `if a { if b { … } }` is `if a && b { … }`. -/
theorem if_if_same {chains : Bool} {clear : Stmts → Bool} {c : Cond} {t e' : Expr}
    (h : collapse chains clear (.ifn c t) = some e') (k : Nat) (ρ : Env S) :
    eval k e' ρ = eval k (.ifn c t) ρ := by
  unfold collapse at h
  split at h
  · next hx => cases hx
  · next c0 b hx =>
    cases hx
    split at h
    · split at h
      · next c' t' hb =>
        split at h
        · cases h
          simp only [eval, evalC, M.bind_assoc]
          refine M.bind_congr fun o => ?_
          cases o with
          | none => simp only [M.pure_bind]
          | some ρ' =>
            have := exprBlock_eval (S := S) hb k ρ'
            rw [ifn_unit] at this
            simp only [eval] at this
            exact this.symm
        · cases h
      · cases h
    · cases h
  · cases h

/-- An `if`, with or without `else`: what may follow `else` without braces. -/
def IfExpr (e : Expr) : Prop := (∃ c t e', e = .ite c t e') ∨ ∃ c t, e = .ifn c t

/-- **C74** (`if` in `else`, form): only the `else` changes, and what follows it is an `if`. -/
theorem else_if_shape {chains : Bool} {clear : Stmts → Bool} {c : Cond} {t e e' : Expr}
    (h : collapse chains clear (.ite c t e) = some e') : ∃ f, e' = .ite c t f ∧ IfExpr f := by
  unfold collapse at h
  split at h
  · next hx =>
    cases hx
    split at h
    · cases h
    · split at h
      · next e0 hb =>
        split at h
        · next hi =>
          cases h
          simp only [Bool.and_eq_true] at hi
          refine ⟨e0, rfl, ?_⟩
          cases e0 with
          | ite c t e => exact .inl ⟨c, t, e, rfl⟩
          | ifn c t => exact .inr ⟨c, t, rfl⟩
          | _ => cases hi.1
        · cases h
      · cases h
  · next hx => cases hx
  · cases h

/-- **C74** (`if` in `else`, value not used): `else { if b … }` is `else if b …` up to the value. -/
theorem else_if_discard {chains : Bool} {clear : Stmts → Bool} {c : Cond} {t e e' : Expr}
    (h : collapse chains clear (.ite c t e) = some e') (k : Nat) (ρ : Env S) :
    (eval k e' ρ).bind (fun _ => M.pure S.unit) =
      (eval k (.ite c t e) ρ).bind fun _ => M.pure S.unit := by
  unfold collapse at h
  split at h
  · next hx =>
    cases hx
    split at h
    · cases h
    · split at h
      · next e0 hb =>
        split at h
        · cases h
          simp only [eval, M.bind_assoc]
          refine M.bind_congr fun o => ?_
          cases o with
          | none =>
            have := exprBlock_eval (S := S) hb k ρ
            simp only [eval] at this
            exact this.symm
          | some ρ' => rfl
        · cases h
      · cases h
  · next hx => cases hx
  · cases h

/-- **C74** (`if` in `else`): with its value, if the inner `if` is not ended by a semicolon or has
no `else`.  *Missing*: an inner `if … else …;` with a semicolon, see `CollapseWitness`. -/
theorem else_if_same_partial {chains : Bool} {clear : Stmts → Bool} {c : Cond} {t e e' : Expr}
    (h : collapse chains clear (.ite c t e) = some e')
    (hv : (∃ i, e = .block none (.tail i)) ∨ ∃ c' t', e = .block none (.semi (.ifn c' t') .done))
    (k : Nat) (ρ : Env S) : eval k e' ρ = eval k (.ite c t e) ρ := by
  cases hv with
  | inl hv =>
    obtain ⟨i, rfl⟩ := hv
    simp only [collapse, exprBlock] at h
    split at h
    · cases h
    · split at h
      · cases h; simp only [eval, evalS, hoist]
      · cases h
  | inr hv =>
    obtain ⟨c', t', rfl⟩ := hv
    simp only [collapse, exprBlock] at h
    split at h
    · cases h
    · split at h
      · cases h
        have := ifn_unit (S := S) c' t' k ρ
        simp only [eval, evalS, hoist] at *
        rw [this]
      · cases h

end

/-! ## The conditions -/

theorem parens_conj {s : List Tok} {t : BE} (h : Disj s t) : Conj (parensAround t s) t := by
  cases h with
  | one h =>
    cases h with
    | one h =>
      cases h with
      | atom n => exact .one (.atom n)
      | paren h =>
        cases t with
        | or a b => exact .one (.paren (.one (.one (.paren h))))
        | atom n => exact .one (.paren h)
        | and a b => exact .one (.paren h)
    | and h h' => exact .and h h'
  | or h h' => exact .one (.paren (.or h h'))

/-- Joining with `&&` to the right of a conjunction keeps the order in which the parts run. -/
theorem conj_append {s : List Tok} {a : BE} (ha : Conj s a) :
    ∀ {s' : List Tok} {b : BE}, Conj s' b → ∃ t, Conj (s ++ .and :: s') t ∧
      ∀ {W X : Type} (c : Nat → W → Except X Bool × W) w, t.run c w = (BE.and a b).run c w := by
  intro s' b hb
  induction hb using Conj.rec (motive_1 := fun _ _ _ => True) (motive_3 := fun _ _ _ => True) with
  | one h => exact ⟨_, .and ha h, fun _ _ => rfl⟩
  | @and s1 s2 t1 t2 h h' ih =>
    obtain ⟨t, ht, he⟩ := ih
    refine ⟨.and t t2, ?_, fun c w => ?_⟩
    · have := Conj.and ht h'
      simpa using this
    · simp only [BE.run, he]
      cases a.run c w with
      | mk r w1 =>
        cases r with
        | error x => rfl
        | ok v => cases v <;> rfl
  | _ => trivial

/-! ### Reading is complete -/

/-- From some number on. -/
def Enough (P : Nat → Prop) : Prop := ∃ N, ∀ f ≥ N, P f

theorem Enough.step {P Q : Nat → Prop} (h : Enough P) (hpq : ∀ f, P f → Q (f + 1)) : Enough Q := by
  obtain ⟨N, h⟩ := h
  refine ⟨N + 1, fun f hf => ?_⟩
  obtain ⟨g, rfl⟩ : ∃ g, f = g + 1 := ⟨f - 1, by omega⟩
  exact hpq g (h g (by omega))

theorem Enough.and {P Q : Nat → Prop} (h : Enough P) (h' : Enough Q) : Enough fun f => P f ∧ Q f := by
  obtain ⟨N, h⟩ := h
  obtain ⟨N', h'⟩ := h'
  exact ⟨max N N', fun f hf => ⟨h f (by omega), h' f (by omega)⟩⟩

theorem Enough.of_all {P : Nat → Prop} (h : ∀ f, P (f + 1)) : Enough P := by
  refine ⟨1, fun f hf => ?_⟩
  obtain ⟨g, rfl⟩ : ∃ g, f = g + 1 := ⟨f - 1, by omega⟩
  exact h g

mutual

theorem atom_reads : ∀ {s : List Tok} {t : BE}, Atom s t → ∀ rest,
    Enough fun f => readAtom f (s ++ rest) = some (t, rest)
  | _, _, .atom n, rest => Enough.of_all fun f => by simp [readAtom]
  | _, _, @Atom.paren s t h, rest => by
    refine Enough.step (disj_reads h (.rp :: rest) (some (t, .rp :: rest)) (by simp)
      (Enough.of_all fun f => by simp [moreDisj])) fun f hf => ?_
    simp only [List.cons_append, List.append_assoc, List.nil_append, readAtom, hf]

theorem conj_reads : ∀ {s : List Tok} {t : BE}, Conj s t → ∀ rest R,
    (Enough fun f => moreConj f t rest = R) → Enough fun f => readConj f (s ++ rest) = R
  | _, _, .one h, rest, R, hR => by
    refine Enough.step ((atom_reads h rest).and hR) fun f hf => ?_
    simp only [readConj, hf.1, Option.bind_some]
    exact hf.2
  | _, _, @Conj.and s s' t t' h h', rest, R, hR => by
    have := conj_reads h (.and :: (s' ++ rest)) R
      (Enough.step ((atom_reads h' rest).and hR) fun f hf => by
        simp only [moreConj, hf.1, Option.bind_some]; exact hf.2)
    simpa using this

theorem disj_reads : ∀ {s : List Tok} {t : BE}, Disj s t → ∀ rest R, rest.head? ≠ some .and →
    (Enough fun f => moreDisj f t rest = R) → Enough fun f => readDisj f (s ++ rest) = R
  | _, _, @Disj.one s t h, rest, R, hh, hR => by
    have := conj_reads h rest (some (t, rest)) (Enough.of_all fun f => by
      cases rest with
      | nil => simp [moreConj]
      | cons a r => cases a with
        | and => simp at hh
        | _ => simp [moreConj])
    refine Enough.step (this.and hR) fun f hf => ?_
    simp only [readDisj, hf.1, Option.bind_some]
    exact hf.2
  | _, _, @Disj.or s s' t t' h h', rest, R, hh, hR => by
    have h2 := conj_reads h' rest (some (t', rest)) (Enough.of_all fun f => by
      cases rest with
      | nil => simp [moreConj]
      | cons a r => cases a with
        | and => simp at hh
        | _ => simp [moreConj])
    have := disj_reads h (.or :: (s' ++ rest)) R (by simp)
      (Enough.step (h2.and hR) fun f hf => by
        simp only [moreDisj, hf.1, Option.bind_some]; exact hf.2)
    simpa using this

end

/-- Every condition is read as what it is. -/
theorem disj_complete {s : List Tok} {t : BE} (h : Disj s t) : Reads s t := by
  have := disj_reads h [] (some (t, [])) (by simp) (Enough.of_all fun f => by simp [moreDisj])
  simpa [Reads, Enough] using this

theorem reads_unique {s : List Tok} {t t' : BE} (h : Reads s t) (h' : Reads s t') : t = t' := by
  obtain ⟨N, h⟩ := h
  obtain ⟨N', h'⟩ := h'
  have := (h (max N N') (by omega)).symm.trans (h' (max N N') (by omega))
  cases this; rfl

/-- **C74** (conditions): whatever two conditions are written as, the text of the new condition is
read as one condition, and this does what the two nested ones did. -/
theorem joined_same {s s' : List Tok} {a b : BE} (ha : Disj s a) (hb : Disj s' b) :
    ∃ t, Reads (joined a b s s') t ∧ (∀ t', Disj (joined a b s s') t' → t' = t) ∧
      ∀ {W X : Type} (c : Nat → W → Except X Bool × W) w, t.run c w = nested c a b w := by
  obtain ⟨t, ht, hr⟩ := conj_append (parens_conj ha) (parens_conj hb)
  refine ⟨t, disj_complete (.one ht), fun t' h' =>
    reads_unique (disj_complete h') (disj_complete (.one ht)), fun c w => ?_⟩
  rw [hr]
  simp only [BE.run, nested]
  cases a.run c w with
  | mk r w1 =>
    cases r with
    | error x => rfl
    | ok v => cases v <;> rfl

/-! ## The parentheses of the inner `if` -/

theorem dropWhile_split (q : Char → Bool) (s : List Char) :
    ∃ w, s = w ++ s.dropWhile q ∧ ∀ x ∈ w, q x = true := by
  induction s with
  | nil => exact ⟨[], rfl, by simp⟩
  | cons a s ih =>
    by_cases ha : q a = true
    · obtain ⟨w, h, hw⟩ := ih
      refine ⟨a :: w, ?_, ?_⟩
      · rw [List.dropWhile_cons_of_pos ha, List.cons_append, ← h]
      · intro x hx
        cases List.mem_cons.1 hx with
        | inl h => rw [h]; exact ha
        | inr h => exact hw x h
    · exact ⟨[], by rw [List.dropWhile_cons_of_neg ha]; rfl, by simp⟩

theorem dropWhile_stop (q : Char → Bool) (l l' : List Char) (x : Char) (hl : ∀ y ∈ l, q y = true)
    (hx : q x = false) : (l ++ x :: l').dropWhile q = x :: l' := by
  induction l with
  | nil => simp [hx]
  | cons a l ih =>
    rw [List.cons_append, List.dropWhile_cons_of_pos (hl a List.mem_cons_self)]
    exact ih fun y hy => hl y (List.mem_cons_of_mem _ hy)

theorem trims (ws : Char → Bool) (hl : ws '(' = false) (hr : ws ')' = false) (w w' m : List Char)
    (hw : ∀ x ∈ w, ws x = true) (hw' : ∀ x ∈ w', ws x = true) :
    trimStart ws (w ++ '(' :: m ++ ')' :: w') = '(' :: m ++ ')' :: w' ∧
    trimEnd ws (w ++ '(' :: m ++ ')' :: w') = w ++ '(' :: m ++ [')'] ∧
    trimEnd ws ('(' :: m ++ ')' :: w') = '(' :: m ++ [')'] := by
  refine ⟨?_, ?_, ?_⟩
  · unfold trimStart
    have := dropWhile_stop ws w (m ++ ')' :: w') '(' hw hl
    simpa using this
  · unfold trimEnd
    have := dropWhile_stop ws w'.reverse (m.reverse ++ '(' :: w.reverse) ')'
      (fun y hy => hw' y (List.mem_reverse.1 hy)) hr
    simp only [List.append_assoc, List.cons_append, List.reverse_append, List.reverse_cons,
      List.nil_append] at *
    rw [this]
    simp
  · unfold trimEnd
    have := dropWhile_stop ws w'.reverse (m.reverse ++ ['(']) ')'
      (fun y hy => hw' y (List.mem_reverse.1 hy)) hr
    simp only [List.append_assoc, List.cons_append, List.reverse_append, List.reverse_cons,
      List.nil_append] at *
    rw [this]
    simp

/-- A text that is cut is whitespace, a parenthesis, the rest, a parenthesis and whitespace. -/
theorem trimmed_shape (ws : Char → Bool) (s : List Char)
    (h1 : (trimEnd ws (trimStart ws s)).head? = some '(')
    (h2 : (trimEnd ws (trimStart ws s)).getLast? = some ')') :
    ∃ w m w', s = w ++ '(' :: m ++ ')' :: w' ∧ (∀ x ∈ w, ws x = true) ∧ ∀ x ∈ w', ws x = true := by
  obtain ⟨w, hs, hw⟩ := dropWhile_split ws s
  obtain ⟨w', hs', hw'⟩ := dropWhile_split ws (trimStart ws s).reverse
  have hs2 : trimStart ws s = trimEnd ws (trimStart ws s) ++ w'.reverse := by
    have := congrArg List.reverse hs'
    simpa [trimEnd] using this
  generalize trimEnd ws (trimStart ws s) = t at *
  cases t with
  | nil => simp at h1
  | cons a u =>
    simp only [List.head?_cons, Option.some.injEq] at h1
    subst h1
    cases List.eq_nil_or_concat u with
    | inl h => subst h; simp at h2
    | inr h =>
      obtain ⟨m, x, rfl⟩ := h
      have : x = ')' := by simpa [List.getLast?_cons] using h2
      subst this
      refine ⟨w, m, w'.reverse, ?_, hw, fun x hx => hw' x (List.mem_reverse.1 hx)⟩
      have : s = w ++ trimStart ws s := hs
      rw [hs2] at this
      rw [this]
      simp

/-- One step. -/
theorem peel_step (ws : Char → Bool) (hl : ws '(' = false) (hr : ws ')' = false) (n : Nat)
    (w w' m : List Char) (hw : ∀ x ∈ w, ws x = true) (hw' : ∀ x ∈ w', ws x = true) :
    peel ws (n + 1) (w ++ '(' :: m ++ ')' :: w') =
      match peel ws n m with
      | none => some (w.length + 1, m, w'.length + 1)
      | some (a', inner', b') => some (w.length + 1 + a', inner', w'.length + 1 + b') := by
  obtain ⟨t1, t2, t3⟩ := trims ws hl hr w w' m hw hw'
  simp only [peel, t1, t2, t3]
  have hl1 : (w ++ '(' :: m ++ ')' :: w').length - ('(' :: m ++ ')' :: w').length + 1 = w.length + 1 := by
    simp
  have hl2 : (w ++ '(' :: m ++ ')' :: w').length - (w ++ '(' :: m ++ [')']).length + 1 = w'.length + 1 := by
    simp; omega
  have hin : ((w ++ '(' :: m ++ ')' :: w').drop (w.length + 1)).take
      ((w ++ '(' :: m ++ ')' :: w').length - (w'.length + 1) - (w.length + 1)) = m := by
    have e1 : (w ++ '(' :: m ++ ')' :: w').drop (w.length + 1) = m ++ ')' :: w' := by
      have : w ++ '(' :: m ++ ')' :: w' = (w ++ ['(']) ++ (m ++ ')' :: w') := by simp
      rw [this, List.drop_left' (by simp)]
    rw [e1]
    have : (w ++ '(' :: m ++ ')' :: w').length - (w'.length + 1) - (w.length + 1) = m.length := by
      simp; omega
    rw [this, List.take_left' rfl]
  rw [hl1, hl2, hin, if_pos (by simp [List.getLast?_cons]), if_pos (by simp; omega)]
  cases peel ws n m <;> rfl

/-- **C74** (parentheses): what is cut around the inner `if` is whitespace and as many opening
parentheses before it as closing ones after it. -/
theorem peel_sound (ws : Char → Bool) (hl : ws '(' = false) (hr : ws ')' = false) :
    ∀ (n : Nat) (s : List Char) {a b : Nat} {inner : List Char}, peel ws n s = some (a, inner, b) →
    ∃ pre post, s = pre ++ inner ++ post ∧ pre.length = a ∧ post.length = b ∧
      (∀ x ∈ pre, ws x = true ∨ x = '(') ∧ (∀ x ∈ post, ws x = true ∨ x = ')') ∧
      pre.count '(' = post.count ')' ∧ 0 < pre.count '('
  | 0, s, a, b, inner, h => by simp [peel] at h
  | n + 1, s, a, b, inner, h => by
    have hc : (trimEnd ws (trimStart ws s)).head? = some '(' ∧
        (trimEnd ws (trimStart ws s)).getLast? = some ')' := by
      unfold peel at h
      simp only at h
      split at h
      · assumption
      · cases h
    obtain ⟨w, m, w', rfl, hw, hw'⟩ := trimmed_shape ws s hc.1 hc.2
    rw [peel_step ws hl hr n w w' m hw hw'] at h
    have c1 : w.count '(' = 0 := List.count_eq_zero.2 fun hx => by simp [hw _ hx] at hl
    have c2 : w'.count ')' = 0 := List.count_eq_zero.2 fun hx => by simp [hw' _ hx] at hr
    cases hp : peel ws n m with
    | none =>
      rw [hp] at h
      cases h
      refine ⟨w ++ ['('], ')' :: w', by simp, by simp, by simp, ?_, ?_, ?_, ?_⟩
      · intro x hx
        cases List.mem_append.1 hx with
        | inl h => exact .inl (hw x h)
        | inr h => exact .inr (List.mem_singleton.1 h)
      · intro x hx
        cases List.mem_cons.1 hx with
        | inl h => exact .inr h
        | inr h => exact .inl (hw' x h)
      · simp [c1, c2]
      · simp
    | some r =>
      obtain ⟨a', inner', b'⟩ := r
      rw [hp] at h
      cases h
      obtain ⟨pre, post, rfl, e1, e2, q1, q2, q3, q4⟩ := peel_sound ws hl hr n m hp
      refine ⟨w ++ '(' :: pre, post ++ ')' :: w', by simp, by simp; omega, by simp; omega, ?_, ?_, ?_, ?_⟩
      · intro x hx
        simp only [List.mem_append, List.mem_cons] at hx
        rcases hx with h | h | h
        · exact .inl (hw x h)
        · exact .inr h
        · exact q1 x h
      · intro x hx
        simp only [List.mem_append, List.mem_cons] at hx
        rcases hx with h | h | h
        · exact q2 x h
        · exact .inr h
        · exact .inl (hw' x h)
      · simp [c1, c2, q3]
      · rw [List.count_append, List.count_cons_self]; omega

/-- The text has no parentheses around it. -/
def Bare (ws : Char → Bool) (s : List Char) : Prop :=
  ¬ ((trimEnd ws (trimStart ws s)).head? = some '(' ∧ (trimEnd ws (trimStart ws s)).getLast? = some ')')

theorem peel_exact (ws : Char → Bool) (hl : ws '(' = false) (hr : ws ')' = false) {core : List Char}
    (hb : Bare ws core) : ∀ (n f : Nat), n < f →
    peel ws f (List.replicate n '(' ++ core ++ List.replicate n ')') =
      if n = 0 then none else some (n, core, n)
  | 0, f + 1, _ => by
    have hb' : ¬ ((trimEnd ws (trimStart ws core)).head? = some '(' ∧
      (trimEnd ws (trimStart ws core)).getLast? = some ')') := hb
    unfold peel
    simp [hb']
  | n + 1, f + 1, h => by
    have e : List.replicate (n + 1) '(' ++ core ++ List.replicate (n + 1) ')' =
        [] ++ '(' :: (List.replicate n '(' ++ core ++ List.replicate n ')') ++ ')' :: [] := by
      rw [List.replicate_succ, List.replicate_succ']; simp
    rw [e, peel_step ws hl hr f [] [] _ (by simp) (by simp), peel_exact ws hl hr hb n f (by omega)]
    by_cases hn : n = 0
    · subst hn; simp
    · simp [hn]; omega

/-- **C74** (`&&` for `if`): of an inner `if` in parentheses exactly the word `if` and the
parentheses are replaced by `&&`.  *Missing*: whitespace between a parenthesis and the `if`, see
`CollapseWitness`. -/
theorem with_and_partial (ws : Char → Bool) (hl : ws '(' = false) (hr : ws ')' = false)
    (hi : ws 'i' = false) (n : Nat) (rest : List Char) :
    withAnd ws (List.replicate n '(' ++ 'i' :: 'f' :: rest ++ List.replicate n ')') =
      '&' :: '&' :: rest := by
  have hb : Bare ws ('i' :: 'f' :: rest) := by
    intro h
    obtain ⟨w, m, w', e, hw, -⟩ := trimmed_shape ws _ h.1 h.2
    cases w with
    | nil => simp at e
    | cons a w =>
      simp only [List.cons_append, List.cons.injEq] at e
      have := hw a List.mem_cons_self
      rw [← e.1, hi] at this
      cases this
  unfold withAnd peeled
  rw [peel_exact ws hl hr hb n _ (by simp; omega)]
  by_cases hn : n = 0
  · subst hn; simp
  · simp [hn]

end Verif.Ctrl.Collapse
