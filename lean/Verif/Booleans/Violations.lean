import Verif.Booleans.Print

/-!
# C35: a concrete meaning of the atoms, and where the suggestions change the meaning
-/

namespace Verif.Booleans

open Verif.Sugg

/-- Values: booleans, integers, floats (`none` is NaN). -/
inductive Val
  | b (x : Bool)
  | int (n : Int)
  | float (x : Option Int)
  deriving DecidableEq, Repr

/-- Truth value. -/
def Val.tr : Val → Bool
  | .b x => x
  | _ => false

/-- Integer value; 0 where the types do not fit. -/
def Val.toInt : Val → Int
  | .int n => n
  | _ => 0

/-- Comparison of integers. -/
def intCmp : BinOp → Int → Int → Bool
  | .eq, a, b => a == b
  | .ne, a, b => a != b
  | .lt, a, b => decide (a < b)
  | .le, a, b => decide (a ≤ b)
  | .gt, a, b => decide (a > b)
  | .ge, a, b => decide (a ≥ b)
  | _, _, _ => false

/-- Comparison of floats: all but `!=` are false if one is NaN. -/
def floatCmp (o : BinOp) : Option Int → Val → Bool
  | some a, .float (some b) => intCmp o a b
  | _, _ => o == .ne

/-- Comparison of booleans. -/
def boolCmp : BinOp → Bool → Bool → Bool
  | .eq, a, b => a == b
  | .ne, a, b => a != b
  | _, _, _ => false

/-- Comparison of two values. -/
def cmpVal (o : BinOp) : Val → Val → Bool
  | .b x, v => boolCmp o x v.tr
  | .int n, v => intCmp o n v.toInt
  | .float x, v => floatCmp o x v

/-- The operators. -/
def binVal : AssocOp → Val → Val → Val
  | .binary .and, a, b => .b (a.tr && b.tr)
  | .binary .or, a, b => .b (a.tr || b.tr)
  | .binary .bitXor, a, b => .b (a.tr != b.tr)
  | .binary .add, a, b => .int (a.toInt + b.toInt)
  | .binary o, a, b => .b (cmpVal o a b)
  | _, _, _ => .b false

/-- Atoms: 0 and 1 are `true` and `false`, 2 to 9 boolean variables (3 stands for a call whose opposite is
the call 2), 10 to 19 integers, the others floats. -/
def atomVal (bv : Nat → Bool) (iv : Nat → Int) (fv : Nat → Option Int) (n : Nat) : Val :=
  if n = 0 then .b true else if n = 1 then .b false else if n = 3 then .b !(bv 2)
  else if n < 10 then .b (bv n) else if n < 20 then .int (iv n) else .float (fv n)

/-- The meaning of all texts. -/
def demoI (bv : Nat → Bool) (iv : Nat → Int) (fv : Nat → Option Int) : Interp where
  V := Val
  atom := atomVal bv iv fv
  un
    | .not, v => .b (!v.tr)
    | _, v => v
  bin := binVal
  cast a _ := a
  lam _ a := a

/-- An integer variable, or the sum of two expressions. -/
def intExpr : Expr → Bool
  | .atom n => decide (10 ≤ n) && decide (n < 20)
  | .bin (.binary .add) _ _ => true
  | _ => false

/-- The type is `bool`. -/
def boolExprTy : Expr → Bool
  | .atom n => decide (n < 10)
  | .paren e => boolExprTy e
  | .un .not _ => true
  | .bin (.binary o) _ _ => (negateOp o).isSome || o == .and || o == .or || o == .bitXor
  | _ => false

/-- What the compiler answers. -/
def demoC : Ctx where
  lit n := if n = 0 then some true else if n = 1 then some false else none
  ttAtom := 0
  ffAtom := 1
  ord := intExpr
  never _ := false
  boolTy := boolExprTy
  same a b := decide (a = b)
  negAtom n := if n = 2 then some 3 else none

theorem isB_bin (o : BinOp) (h : o ≠ .add) (a b : Val) : ∃ x, binVal (.binary o) a b = .b x := by
  cases o <;> first | exact absurd rfl h | exact ⟨_, rfl⟩

theorem intCmp_negate {o o' : BinOp} (h : negateOp o = some o') (a b : Int) :
    intCmp o' a b = !intCmp o a b := by
  cases o <;> simp [negateOp] at h <;> subst h <;> simp [intCmp, bne] <;> grind

theorem binVal_cmp {o : BinOp} (h : (negateOp o).isSome = true) (a b : Val) :
    binVal (.binary o) a b = .b (cmpVal o a b) := by
  cases o <;> simp [negateOp] at h <;> rfl

/-- The answers are right for every value of the variables. -/
def demoS (bv : Nat → Bool) (iv : Nat → Int) (fv : Nat → Option Int) : Sem demoC (demoI bv iv fv) where
  isB v := ∃ x, v = Val.b x
  tr := Val.tr
  boolTy e h := by
    induction e with
    | atom n =>
      have h' : n < 10 := by simpa [demoC, boolExprTy] using h
      simp only [Sugg.eval, demoI, atomVal, h', if_true]
      split
      · exact ⟨_, rfl⟩
      · split
        · exact ⟨_, rfl⟩
        · split <;> exact ⟨_, rfl⟩
    | paren e ih => exact ih h
    | un u e ih => cases u <;> first | exact ⟨_, rfl⟩ | simp [demoC, boolExprTy] at h
    | bin o l r =>
      cases o with
      | binary o => exact isB_bin o (by rintro rfl; simp [demoC, boolExprTy, negateOp] at h) _ _
      | _ => simp [demoC, boolExprTy] at h
    | cast e n => simp [demoC, boolExprTy] at h
    | lam n e => simp [demoC, boolExprTy] at h
  isB_not v _ := ⟨_, rfl⟩
  tr_not v _ := rfl
  isB_and a b := ⟨_, rfl⟩
  tr_and a b := rfl
  isB_or a b := ⟨_, rfl⟩
  tr_or a b := rfl
  isB_cmp o h a b := isB_bin o (by rintro rfl; simp [negateOp] at h) a b
  lit n b h := by
    simp only [demoC] at h
    split at h
    · next hn => cases h; subst hn; exact ⟨⟨true, rfl⟩, rfl⟩
    · split at h
      · next hn => cases h; subst hn; exact ⟨⟨false, rfl⟩, rfl⟩
      · cases h
  ord l o o' v h ho := by
    have hl : ∃ k, Sugg.eval (demoI bv iv fv) l = Val.int k := by
      cases l with
      | atom n =>
        have h' : 10 ≤ n ∧ n < 20 := by simpa [demoC, intExpr] using h
        refine ⟨iv n, ?_⟩
        have h0 : n ≠ 0 := by omega
        have h1 : n ≠ 1 := by omega
        have h3 : n ≠ 3 := by omega
        have h10 : ¬ n < 10 := by omega
        simp [Sugg.eval, demoI, atomVal, h0, h1, h3, h10, h'.2]
      | bin o l r =>
        cases o with
        | binary o => cases o <;> first | exact ⟨_, rfl⟩ | simp [demoC, intExpr] at h
        | _ => simp [demoC, intExpr] at h
      | _ => simp [demoC, intExpr] at h
    obtain ⟨k, hk⟩ := hl
    have ho' : (negateOp o').isSome = true := by cases o <;> simp [negateOp] at ho <;> subst ho <;> rfl
    have key : ∀ v : Val, Val.tr (binVal (.binary o') (.int k) v) = !Val.tr (binVal (.binary o) (.int k) v) := by
      intro v
      rw [binVal_cmp ho', binVal_cmp (by rw [ho]; rfl)]
      exact intCmp_negate ho _ _
    rw [hk]
    exact key v
  same a b h := by rw [of_decide_eq_true h]
  negAtom n m h := by
    simp only [demoC] at h
    split at h
    · next hn => cases h; subst hn; exact ⟨⟨_, rfl⟩, rfl⟩
    · cases h
  tr_eq a b ha hb := by obtain ⟨x, rfl⟩ := ha; obtain ⟨y, rfl⟩ := hb; rfl
  tr_ne a b ha hb := by obtain ⟨x, rfl⟩ := ha; obtain ⟨y, rfl⟩ := hb; rfl

/-- A simplifier that knows two formulas. -/
def demoSimplify : B → List B
  | .not (.and [.term 0, .not (.term 1)]) => [.or [.not (.term 0), .term 1]]
  | .and [.term 0, .not (.not (.term 1))] => [.and [.term 0, .term 1]]
  | _ => []

theorem demo_simplifier : Simplifier demoSimplify := by
  intro b s h
  unfold demoSimplify at h
  split at h
  · rw [List.mem_singleton] at h
    subst h
    refine ⟨.inr (.inr (.inr ⟨_, by simp, rfl, ?_⟩)), ?_, ?_⟩
    · intro x hx
      simp only [List.mem_cons, List.not_mem_nil, or_false] at hx
      rcases hx with rfl | rfl
      · exact .inl (.inr ⟨0, rfl⟩)
      · exact .inl (.inl ⟨1, rfl⟩)
    · intro ρ; simp [B.eval, allB, anyB]
    · intro n hn; simpa [count, countList] using hn
  · rw [List.mem_singleton] at h
    subst h
    refine ⟨.inr (.inr (.inl (.inr ⟨_, by simp, rfl, ?_⟩))), ?_, ?_⟩
    · intro x hx
      simp only [List.mem_cons, List.not_mem_nil, or_false] at hx
      rcases hx with rfl | rfl
      · exact .inl ⟨0, rfl⟩
      · exact .inl ⟨1, rfl⟩
    · intro ρ; simp [B.eval, allB]
    · intro n hn; simpa [count, countList] using hn
  · cases h

/-- `!(l < r && !b)`. -/
def notLess (o : BinOp) (l r : Expr) : Expr :=
  .un .not (.paren (.bin (.binary .and) (.bin (.binary o) l r) (.un .not (.atom 4))))

/-- All suggestions printed for a condition. -/
def printed (C : Ctx) (simplify : B → List B) (e : Expr) : List (List Tok) :=
  match boolExpr C simplify e with
  | some (_, T, r) => r.suggestions.map (printB C T)
  | none => []

/-- The whole claim: all suggestions can be read and have the truth value of the condition. -/
def KeepsValue {C : Ctx} {I : Interp} (S : Sem C I) (simplify : B → List B) (e : Expr) : Prop :=
  ∀ ts ∈ printed C simplify e, ∃ e', Parses ts e' ∧ S.tr (Sugg.eval I e') = S.tr (Sugg.eval I e)

/-! Non-vacuity: over the integers, `!(x < y && !b)` has the suggestion `b || x >= y`, and all hypotheses of
`suggestions_keep_value_partial` hold. -/

theorem demo_bool :
    boolExpr demoC demoSimplify (notLess .lt (.atom 10) (.atom 11)) =
      some (.not (.and [.term 0, .not (.term 1)]), [.bin (.binary .lt) (.atom 10) (.atom 11), .atom 4],
        .nonminimal [.or [.not (.term 0), .term 1]]) := rfl

example : printed demoC demoSimplify (notLess .lt (.atom 10) (.atom 11)) =
    [[.atom 4, .op (.binary .or), .atom 10, .op (.binary .ge), .atom 11]] := by decide +kernel

example (bv iv fv) : ∃ e', Parses [.atom 4, .op (.binary .or), .atom 10, .op (.binary .ge), .atom 11] e' ∧
    (Sugg.eval (demoI bv iv fv) e').tr = !(decide (iv 10 < iv 11) && !bv 4) := by
  have h := suggestions_keep_value_partial (demoS bv iv fv) demo_simplifier ⟨rfl, rfl⟩
    (e := notLess .lt (.atom 10) (.atom 11))
    (by simp [WF, notLess, lvl, leftLevel, rightLevel, AssocOp.prec, nonAssoc, endsInType]) (by decide)
    (by simp [Typed, notLess, demoC, boolExprTy, negateOp]) ⟨_, rfl⟩ demo_bool
    (by
      intro t ht o l r hp hn
      simp only [List.mem_cons, List.not_mem_nil, or_false] at ht
      rcases ht with rfl | rfl <;> simp only [peel, Expr.bin.injEq, AssocOp.binary.injEq, reduceCtorEq] at hp
      obtain ⟨rfl, rfl, rfl⟩ := hp
      exact ⟨by decide, by simp⟩)
  obtain ⟨e', h1, _, h2⟩ := h _ (List.mem_singleton.2 rfl)
  exact ⟨e', h1, h2⟩

/-- C35 fails for floats: `!(x < y && !b)` gets the suggestion `b || x >= y`. With `x` NaN and `b` false the
condition is true and the suggestion is false. -/
theorem float_violation :
    printed demoC demoSimplify (notLess .lt (.atom 20) (.atom 21)) =
      [[.atom 4, .op (.binary .or), .atom 20, .op (.binary .ge), .atom 21]] ∧
    ¬ KeepsValue (demoS (fun _ => false) (fun _ => 0) (fun _ => none)) demoSimplify
      (notLess .lt (.atom 20) (.atom 21)) := by
  have hp : printed demoC demoSimplify (notLess .lt (.atom 20) (.atom 21)) =
      [[.atom 4, .op (.binary .or), .atom 20, .op (.binary .ge), .atom 21]] := by decide +kernel
  refine ⟨hp, fun h => ?_⟩
  unfold KeepsValue at h
  rw [hp] at h
  obtain ⟨e', h1, h2⟩ := h _ (List.mem_singleton.2 rfl)
  have : Parses [.atom 4, .op (.binary .or), .atom 20, .op (.binary .ge), .atom 21]
      (.bin (.binary .or) (.atom 4) (.bin (.binary .ge) (.atom 20) (.atom 21))) := ⟨10, by decide +kernel⟩
  rw [h1.unique this] at h2
  exact absurd h2 (by decide +kernel)

/-- C35 fails for casts: `!(x + y as T >= z && !b)` gets the suggestion `b || x + y as T < z`, which is a
syntax error. -/
theorem cast_violation :
    printed demoC demoSimplify
        (notLess .ge (.bin (.binary .add) (.atom 10) (.cast (.atom 11) 0)) (.atom 12)) =
      [[.atom 4, .op (.binary .or), .atom 10, .op (.binary .add), .atom 11, .op .cast, .ty 0,
        .op (.binary .lt), .atom 12]] ∧
    ∀ bv iv fv, ¬ KeepsValue (demoS bv iv fv) demoSimplify
      (notLess .ge (.bin (.binary .add) (.atom 10) (.cast (.atom 11) 0)) (.atom 12)) := by
  have hp : printed demoC demoSimplify
        (notLess .ge (.bin (.binary .add) (.atom 10) (.cast (.atom 11) 0)) (.atom 12)) =
      [[.atom 4, .op (.binary .or), .atom 10, .op (.binary .add), .atom 11, .op .cast, .ty 0,
        .op (.binary .lt), .atom 12]] := by decide +kernel
  refine ⟨hp, fun bv iv fv h => ?_⟩
  unfold KeepsValue at h
  rw [hp] at h
  obtain ⟨e', ⟨f, hf⟩, _⟩ := h _ (List.mem_singleton.2 rfl)
  rcases f with _ | _ | _ | _ | _ | _ | _ | _ | _ | f <;>
    simp [parseFrom, parsePrefix, parseRest, parseType, rejected, nonAssoc, AssocOp.prec, startsGenerics,
      endsInType, rightLevel] at hf

/-- `a && !!b`. -/
def doubleNot : Expr := .bin (.binary .and) (.atom 4) (.un .not (.un .not (.atom 5)))

/-- C35 fails in context. The span of an expression includes the parentheses around it, the suggestion has
none: in `x ^ (a && !!b)` replacing the linted part gives `x ^ a && b`. With `x` true and the others false,
the first is true, the second false. -/
theorem context_violation :
    printed demoC demoSimplify (.paren doubleNot) = [[.atom 4, .op (.binary .and), .atom 5]] ∧
    ∃ (I : Interp) (S : Sem demoC I) (e' : Expr),
      text (.bin (.binary .bitXor) (.atom 6) (.paren doubleNot)) =
        [.atom 6, .op (.binary .bitXor)] ++ text (.paren doubleNot) ∧
      Parses ([.atom 6, .op (.binary .bitXor)] ++ [.atom 4, .op (.binary .and), .atom 5]) e' ∧
      S.tr (Sugg.eval I (.bin (.binary .bitXor) (.atom 6) (.paren doubleNot))) = true ∧
      S.tr (Sugg.eval I e') = false :=
  ⟨by decide +kernel, _, demoS (fun n => n == 6) (fun _ => 0) (fun _ => none),
    .bin (.binary .and) (.bin (.binary .bitXor) (.atom 6) (.atom 4)) (.atom 5),
    rfl, ⟨10, by decide +kernel⟩, rfl, rfl⟩

/-! Non-vacuity of `check_simplify_not_sound` and `inverted_bool_sound`. -/

example : checkSimplifyNot demoC (.un .not (.paren (.bin (.binary .lt) (.atom 10) (.atom 11)))) =
    some [.lpar, .atom 10, .op (.binary .ge), .atom 11, .rpar] := by decide +kernel

example : checkSimplifyNot demoC (.un .not (.atom 2)) = some [.atom 3] := by decide +kernel

example : invertedBool demoC .eq (.un .not (.atom 4)) (.atom 5) =
    some [.atom 4, .op (.binary .ne), .atom 5] := by decide +kernel

end Verif.Booleans
