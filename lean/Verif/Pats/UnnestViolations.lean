import Verif.Pats.UnnestProps

/-!
# C39: what the suggestion gets wrong, and its parentheses
-/

namespace Verif.Unnest

/-! ## The text of a pattern

`pprust::pat_to_string` prints a pattern node by node; parentheses are only printed for `Paren` nodes (and in
`&(mut x)`). -/

/-- The operand of `x @`: an or-pattern needs parentheses. -/
def bindOperand : APat → Bool
  | .or ps => decide (ps.length ≤ 1)
  | .rest => true
  | _ => true

/-- The operand of `&`, `&mut` and `box`: or-patterns and ranges need parentheses. -/
def refOperand : APat → Bool
  | .or ps => decide (ps.length ≤ 1)
  | .leaf .range _ | .leaf .rangeFrom _ => false
  | _ => true

/-- The operand of `&`: `&mut x` would be read as a mutable reference pattern. -/
def shrOperand : APat → Bool
  | .ident 1 _ | .bind 1 _ _ => false
  | p => refOperand p

/-- The operand of `box`, `deref!`, `&` or `&mut`. -/
def wrapOperand : Wrap → APat → Bool
  | .deref, _ => true
  | .ref, p => shrOperand p
  | _, p => refOperand p

/-- An element of a slice pattern: `a..` needs parentheses. -/
def sliceElem : APat → Bool
  | .leaf .rangeFrom _ => false
  | _ => true

/-- A shorthand field is printed without its name, so it must be a variable. -/
def shorthandOk : List (Nat × Bool) → List APat → Bool
  | f :: fs, p :: ps => (match f.2, p with
    | false, _ => true
    | true, .ident _ _ => true
    | true, _ => false) && shorthandOk fs ps
  | _, _ => true

mutual
/-- The printed text is a pattern again, and the same one. -/
def printable : APat → Bool
  | .rest => false
  | .bind _ _ p => bindOperand p && printable p
  | .paren p => printable p
  | .wrap w p => wrapOperand w p && printable p
  | .slice ps => ps.all sliceElem && printableElems ps
  | .tuple ps => printableElems ps
  | .tupleStruct _ ps => printableElems ps
  | .struct _ fs ps _ => shorthandOk fs ps && printableAll ps
  | .or ps => printableAll ps
  | _ => true

/-- The elements of a list of patterns, which may be `..`. -/
def printableElems : List APat → Bool
  | [] => true
  | p :: ps => (p.isRest || printable p) && printableElems ps

/-- All patterns of a list. -/
def printableAll : List APat → Bool
  | [] => true
  | p :: ps => printable p && printableAll ps
end

/-! ## Violations -/

/-- The bindings chosen by a pattern: those of the first or-free pattern, from the left, that matches. -/
def Picks (S : Sem) (p : APat) (v : S.V) (ρ : Nat → Option S.V) : Prop :=
  ∃ pre q post, exp p = pre ++ q :: post ∧ (∀ r ∈ pre, ∀ ρ', ¬ M S ρ' r v) ∧ M S ρ q v

/-- Numbers and tuples of numbers. -/
def tuples : Sem where
  V := List Nat
  leaf := fun _ i v => v = [i]
  unwrap := fun _ _ => none
  slice := fun _ => none
  tuple := fun v => some (v.map fun n => [n])
  tupleStruct := fun _ _ => none
  struct := fun _ _ => none
  bound := fun _ v => v

/-- The literal `n`. -/
abbrev num (n : Nat) : APat := .leaf .expr n

/-- `(x, 0, 0) | (_, x, 1) | (x, 0, 1)` -/
def orderPat : APat :=
  .or [.tuple [.ident 0 7, num 0, num 0], .tuple [.wild, .ident 0 7, num 1], .tuple [.ident 0 7, num 0, num 1]]

/-- `(x, 0, 0 | 1) | (_, x, 1)` -/
def orderPat' : APat :=
  .or [.tuple [.ident 0 7, num 0, .or [num 0, num 1]], .tuple [.wild, .ident 0 7, num 1]]

theorem orderPat_exp : exp orderPat = [.tuple [.ident 0 7, num 0, num 0], .tuple [.wild, .ident 0 7, num 1],
    .tuple [.ident 0 7, num 0, num 1]] := by rfl

theorem orderPat'_exp : exp orderPat' = [.tuple [.ident 0 7, num 0, num 0], .tuple [.ident 0 7, num 0, num 1],
    .tuple [.wild, .ident 0 7, num 1]] := by rfl

/-- **Violation of C39.** The suggestion can bind a variable to something else: the alternatives are tried in another
order. `match (5, 0, 1) { (x, 0, 0) | (_, x, 1) | (x, 0, 1) => x }` gives 0, with the suggestion it gives 5. -/
theorem order_of_alternatives :
    WF orderPat ∧ NoDuplicates orderPat ∧ suggest orderPat = some orderPat' ∧
      (∃ ρ, Picks tuples orderPat [5, 0, 1] ρ) ∧ (∃ ρ, Picks tuples orderPat' [5, 0, 1] ρ) ∧
      (∀ ρ, Picks tuples orderPat [5, 0, 1] ρ → ρ 7 = some [0]) ∧
      (∀ ρ, Picks tuples orderPat' [5, 0, 1] ρ → ρ 7 = some [5]) := by
  refine ⟨?_, ?_, by rfl, ?_, ?_, ?_, ?_⟩
  · simp [orderPat, WF, WFAll, WFElems]
  · simp [NoDuplicates, orderPat_exp]
  · refine ⟨fun _ => some [0], [.tuple [.ident 0 7, num 0, num 0]], _, _, by rw [orderPat_exp]; rfl, ?_, ?_⟩
    · intro r hr ρ' h
      simp only [List.mem_singleton] at hr
      subst hr
      simp [M, MList, tuples, APat.isRest] at h
    · simp [M, MList, tuples, APat.isRest]
  · refine ⟨fun _ => some [5], [.tuple [.ident 0 7, num 0, num 0]], _, _, by rw [orderPat'_exp]; rfl, ?_, ?_⟩
    · intro r hr ρ' h
      simp only [List.mem_singleton] at hr
      subst hr
      simp [M, MList, tuples, APat.isRest] at h
    · simp [M, MList, tuples, APat.isRest]
  · rintro ρ ⟨pre, q, post, he, hpre, hq⟩
    rw [orderPat_exp] at he
    match pre, he with
    | [], he =>
      simp only [List.nil_append, List.cons.injEq] at he
      rw [← he.1] at hq
      simp [M, MList, tuples, APat.isRest] at hq
    | [_], he =>
      simp only [List.cons_append, List.nil_append, List.cons.injEq] at he
      rw [← he.2.1] at hq
      simp [M, MList, tuples, APat.isRest] at hq
      obtain ⟨_, _, ⟨rfl, rfl⟩, _, h, h'⟩ := hq
      simp only [List.cons.injEq, and_true] at h
      rw [h', h]
    | _ :: a :: pre, he =>
      exfalso
      simp only [List.cons_append, List.cons.injEq] at he
      refine hpre a (by simp) (fun _ => some [0]) ?_
      rw [← he.2.1]
      simp [M, MList, tuples, APat.isRest]
  · rintro ρ ⟨pre, q, post, he, hpre, hq⟩
    rw [orderPat'_exp] at he
    match pre, he with
    | [], he =>
      simp only [List.nil_append, List.cons.injEq] at he
      rw [← he.1] at hq
      simp [M, MList, tuples, APat.isRest] at hq
    | [_], he =>
      simp only [List.cons_append, List.nil_append, List.cons.injEq] at he
      rw [← he.2.1] at hq
      simpa [M, MList, tuples, APat.isRest] using hq
    | _ :: a :: pre, he =>
      exfalso
      simp only [List.cons_append, List.cons.injEq] at he
      refine hpre a (by simp) (fun _ => some [5]) ?_
      rw [← he.2.1]
      simp [M, MList, tuples, APat.isRest]

/-- `(0 | 0 | 1, 5) | (0 | 1 | 2, 6)` -/
def dupPat : APat := .or [.tuple [.or [num 0, num 0, num 1], num 5], .tuple [.or [num 0, num 1, num 2], num 6]]

/-- **Violation of C39.** With a duplicate alternative the suggestion can match less: `eq_pat` takes `0 | 0 | 1` for
equal to `0 | 1 | 2`, and the suggestion `(0 | 0 | 1, 5 | 6)` does not match `(2, 6)`. -/
theorem duplicate_alternative : WF dupPat ∧
    suggest dupPat = some (.or [.tuple [.or [num 0, num 0, num 1], .or [num 5, num 6]]]) ∧
    (∀ ρ, M tuples ρ dupPat [2, 6]) ∧
    ∀ ρ, ¬ M tuples ρ (.or [.tuple [.or [num 0, num 0, num 1], .or [num 5, num 6]]]) [2, 6] := by
  refine ⟨?_, by rfl, ?_, ?_⟩
  · simp [dupPat, WF, WFAll, WFElems]
  · intro ρ; simp [dupPat, M, MAny, MList, tuples, APat.isRest]
  · intro ρ h
    simp [M, MAny, MList, tuples, APat.isRest] at h
    obtain ⟨_, _, ⟨rfl, _⟩, h, _⟩ := h
    simp at h

/-- `Some(&(1..=3)) | Some(&5)` -/
def refRangePat : APat :=
  .or [.tupleStruct 0 [.wrap .ref (.paren (.leaf .range 1))], .tupleStruct 0 [.wrap .ref (num 5)]]

/-- **Violation of C39.** The parentheses around a range behind `&` are lost: `Some(&(1..=3)) | Some(&5)` becomes
`Some(&1..=3 | &5)`, which is not a pattern. -/
theorem range_behind_reference : WF refRangePat ∧ NoDuplicates refRangePat ∧ printable refRangePat = true ∧
    suggest refRangePat =
      some (.or [.tupleStruct 0 [.or [.wrap .ref (.leaf .range 1), .wrap .ref (num 5)]]]) ∧
    printable (.or [.tupleStruct 0 [.or [.wrap .ref (.leaf .range 1), .wrap .ref (num 5)]]]) = false := by
  refine ⟨?_, ?_, by rfl, by rfl, by rfl⟩
  · simp [refRangePat, WF, WFAll, WFElems]
  · simp [NoDuplicates, refRangePat, exp, expAny, expEach, choices]

/-- `[(1..), 0] | [(1..), 2]` -/
def sliceRangePat : APat :=
  .or [.slice [.paren (.leaf .rangeFrom 1), num 0], .slice [.paren (.leaf .rangeFrom 1), num 2]]

/-- **Violation of C39.** The parentheses around `a..` in a slice pattern are lost: `[(1..), 0] | [(1..), 2]` becomes
`[1.., 0 | 2]`, which the compiler rejects. -/
theorem open_range_in_slice : WF sliceRangePat ∧ NoDuplicates sliceRangePat ∧ printable sliceRangePat = true ∧
    suggest sliceRangePat = some (.or [.slice [.leaf .rangeFrom 1, .or [num 0, num 2]]]) ∧
    printable (.or [.slice [.leaf .rangeFrom 1, .or [num 0, num 2]]]) = false := by
  refine ⟨?_, ?_, by rfl, by rfl, by rfl⟩
  · simp [sliceRangePat, WF, WFAll, WFElems]
  · simp [NoDuplicates, sliceRangePat, exp, expAny, expEach, choices]

/-- `Foo { x } | Foo { x: x @ 1 }` -/
def shorthandPat : APat :=
  .or [.struct 0 [(7, true)] [.ident 0 7] false, .struct 0 [(7, false)] [.bind 0 7 (num 1)] false]

/-- **Violation of C39.** A shorthand field is extended without writing its name: `Foo { x } | Foo { x: x @ 1 }` becomes
`Foo { x | x @ 1 }`, which is not a pattern. -/
theorem shorthand_field : WF shorthandPat ∧ NoDuplicates shorthandPat ∧ printable shorthandPat = true ∧
    suggest shorthandPat = some (.or [.struct 0 [(7, true)] [.or [.ident 0 7, .bind 0 7 (num 1)]] false]) ∧
    printable (.or [.struct 0 [(7, true)] [.or [.ident 0 7, .bind 0 7 (num 1)]] false]) = false := by
  refine ⟨?_, ?_, by rfl, by rfl, by rfl⟩
  · simp [shorthandPat, WF, WFAll]
  · simp [NoDuplicates, shorthandPat, exp, expAny, expEach, choices, canonStruct, sortBy, insertBy]

/-- `[..] | [..]` -/
def restPat : APat := .or [.slice [.rest], .slice [.rest]]

/-- **Violation of C39.** Two equal alternatives with `..` become `[.. | ..]`, which is not a pattern and matches
nothing. -/
theorem duplicate_rest : WF restPat ∧ printable restPat = true ∧
    suggest restPat = some (.or [.slice [.or [.rest, .rest]]]) ∧
    printable (.or [.slice [.or [.rest, .rest]]]) = false := by
  refine ⟨?_, by rfl, by rfl, by rfl⟩
  simp [restPat, WF, WFAll, WFElems]

/-- The hypotheses of `suggest_matches_same_partial` hold for `Some(0 | 1) | None | Some(2)`, which becomes
`Some(0 | 1 | 2) | None`. -/
example : let p : APat := .or [.tupleStruct 0 [.or [num 0, num 1]], .leaf .path 1, .tupleStruct 0 [num 2]]
    WF p ∧ NoDuplicates p ∧
    suggest p = some (.or [.tupleStruct 0 [.or [num 0, num 1, num 2]], .leaf .path 1]) := by
  refine ⟨?_, ?_, by rfl⟩
  · simp [WF, WFAll, WFElems]
  · simp [NoDuplicates, exp, expAny, expEach, choices]

/-- They hold for `S { a: 0, b: 1 } | S { b: 2, a: 0 }` with fields in another order. -/
example : let p : APat := .or [.struct 0 [(1, false), (2, false)] [num 0, num 1] false,
      .struct 0 [(2, false), (1, false)] [num 2, num 0] false]
    WF p ∧ NoDuplicates p ∧
    suggest p = some (.or [.struct 0 [(1, false), (2, false)] [num 0, .or [num 1, num 2]] false]) := by
  refine ⟨?_, ?_, by rfl⟩
  · simp [WF, WFAll]
  · simp [NoDuplicates, exp, expAny, expEach, choices, canonStruct, sortBy, insertBy, nameLe]

/-! ## The parentheses that are inserted -/

/-- An or-pattern or a `mut` binding is never the bare operand of `&`, `&mut`, `box` or `@`. -/
def operandOk : Wrap → APat → Bool
  | .deref, _ => true
  | .ref, .ident 1 _ | .ref, .bind 1 _ _ => false
  | _, .or ps => decide (ps.length ≤ 1)
  | _, _ => true

mutual
/-- All operands of a pattern are fine. -/
def orsParenthesised : APat → Bool
  | .bind _ _ p => bindOperand p && orsParenthesised p
  | .wrap w p => operandOk w p && orsParenthesised p
  | .paren p => orsParenthesised p
  | .slice ps => orsParenthesisedAll ps
  | .tuple ps => orsParenthesisedAll ps
  | .tupleStruct _ ps => orsParenthesisedAll ps
  | .struct _ _ ps _ => orsParenthesisedAll ps
  | .or ps => orsParenthesisedAll ps
  | _ => true

/-- The same for the elements of a list. -/
def orsParenthesisedAll : List APat → Bool
  | [] => true
  | p :: ps => orsParenthesised p && orsParenthesisedAll ps
end

theorem parenOr_bindOperand (p : APat) : bindOperand (parenOr p) = true := by
  unfold parenOr
  split
  · split
    · rfl
    · simp only [bindOperand, decide_eq_true_eq]; omega
  · next h => cases p <;> first | rfl | exact absurd rfl (h _)

theorem parenWrap_operandOk (w : Wrap) (p : APat) : operandOk w (parenWrap w p) = true := by
  cases w with
  | deref => rfl
  | box | refMut =>
    simp only [parenWrap, parenOr]
    split
    · split
      · rfl
      · simp only [operandOk, decide_eq_true_eq]; omega
    · next h => cases p <;> first | rfl | exact absurd rfl (h _)
  | ref =>
    simp only [parenWrap, parenRef]
    split
    · rfl
    · rfl
    · next h1 h2 =>
      unfold parenOr
      split
      · split
        · rfl
        · simp only [operandOk, decide_eq_true_eq]; omega
      · next h =>
        cases p with
        | or ps => exact absurd rfl (h _)
        | ident m x =>
          unfold operandOk
          split <;> first | rfl | (next e => simp at e) | skip
          all_goals simp_all
        | bind m x q =>
          unfold operandOk
          split <;> first | rfl | (next e => simp at e) | skip
          all_goals simp_all
        | _ => rfl

theorem orsParenthesised_parenOr {p : APat} (h : orsParenthesised p = true) : orsParenthesised (parenOr p) = true := by
  unfold parenOr
  split
  · split
    · rw [orsParenthesised]; exact h
    · exact h
  · exact h

theorem orsParenthesised_parenWrap {w : Wrap} {p : APat} (h : orsParenthesised p = true) :
    orsParenthesised (parenWrap w p) = true := by
  cases w
  · exact orsParenthesised_parenOr h
  · exact h
  · simp only [parenWrap, parenRef]
    split
    · rw [orsParenthesised]; exact h
    · rw [orsParenthesised]; exact h
    · exact orsParenthesised_parenOr h
  · exact orsParenthesised_parenOr h

mutual
/-- **C39.** In a suggestion, an or-pattern behind `&`, `&mut`, `box` or `@` and a `mut` binding behind `&` always stand
in parentheses. -/
theorem insertParens_parenthesised : ∀ p : APat, orsParenthesised (insertParens p) = true
  | .wild | .rest | .never | .ident .. | .leaf .. => by simp [insertParens, orsParenthesised]
  | .paren p => by rw [insertParens, orsParenthesised]; exact insertParens_parenthesised p
  | .bind m x p => by
    rw [insertParens, orsParenthesised, parenOr_bindOperand,
      orsParenthesised_parenOr (insertParens_parenthesised p)]; rfl
  | .wrap w p => by
    rw [insertParens, orsParenthesised, parenWrap_operandOk,
      orsParenthesised_parenWrap (insertParens_parenthesised p)]; rfl
  | .slice ps | .tuple ps | .tupleStruct _ ps | .struct _ _ ps _ | .or ps => by
    rw [insertParens, orsParenthesised]; exact insertParensAll_parenthesised ps

theorem insertParensAll_parenthesised : ∀ ps : List APat, orsParenthesisedAll (insertParensAll ps) = true
  | [] => by simp [insertParensAll, orsParenthesisedAll]
  | p :: ps => by
    rw [insertParensAll, orsParenthesisedAll, insertParens_parenthesised p, insertParensAll_parenthesised ps]; rfl
end

theorem suggest_parenthesised {p p' : APat} (h : suggest p = some p') : orsParenthesised p' = true := by
  unfold suggest at h
  simp only at h
  split at h
  · simp only [Option.some.injEq] at h
    subst h
    exact insertParens_parenthesised _
  · simp at h

example : suggest (.or [.wrap .box (num 0), .wrap .box (num 1)]) =
    some (.or [.wrap .box (.paren (.or [num 0, num 1]))]) := by rfl

end Verif.Unnest
