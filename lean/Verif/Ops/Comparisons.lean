import Verif.Ops.Model
import Verif.Common.POrd

/-! C22: `redundant_comparisons` / `impossible_comparisons`; C23: `double_comparisons`. -/

namespace Verif.Ops
open Verif.RInt Verif.Consts

/-- The comparison operators among the binary operators. -/
def cmpOf : BinOp → Option Cmp
  | .eq => some .eq | .ne => some .ne | .lt => some .lt | .le => some .le | .gt => some .gt
  | .ge => some .ge | _ => none

/-- Value of `l op r` when the non-constant expression evaluates to `x` and a constant `c` to `den c`. -/
def runCmp {α β} (P : POrd α) (den : β → α) (x : α) (op : Cmp) (l r : Operand β) : Bool :=
  P.holds op (match l with | .const c => den c | .var => x) (match r with | .const c => den c | .var => x)

/-- `x op c`, as a proposition. -/
def COp.holds {α} (P : POrd α) : COp → α → α → Bool
  | .lt => P.holds .lt | .le => P.holds .le | .ge => P.holds .ge | .gt => P.holds .gt

theorem toConst_spec {α β} (P : POrd α) (den : β → α) {op : BinOp} {l r : Operand β} {o : COp} {c : β}
    (h : comparisonToConst op l r = some (o, c)) :
    ∃ k, cmpOf op = some k ∧ ∀ x, runCmp P den x k l r = o.holds P x (den c) := by
  have flip : ∀ a b, P.cmp b a = (P.cmp a b).map Ordering.swap := P.dual
  cases op <;> simp [comparisonToConst, COp.ofBinOp] at h <;>
    (cases l <;> cases r <;> simp at h <;> obtain ⟨rfl, rfl⟩ := h <;>
      refine ⟨_, rfl, fun x => ?_⟩ <;> simp only [runCmp, COp.holds, COp.reverse, POrd.holds])
  all_goals
    rename_i c
    rw [flip x (den c)]
    cases P.cmp x (den c) with
    | none => simp
    | some o => cases o <;> simp

/-- What a verdict on `L && R` claims, for every value `x` of the compared expression. -/
def ConstCmp.True (L R : Bool) : ConstCmp → Prop
  | .leftUseless => (L && R) = R
  | .rightUseless => (L && R) = L
  | .impossible => (L && R) = false

/-- **C22.** For every lawful `PartialOrd` (floats included) in which the constants stand for the values
`den c` and are ordered like them (C19), and every value of the compared expression: a side the lint calls
useless can be dropped without changing the result, and a condition it calls impossible is false. -/
theorem constCmp_sound {α β} (P : POrd α) (den : β → α) {pcmp : β → β → Option Ordering}
    (hp : ∀ a b o, pcmp a b = some o → P.cmp (den a) (den b) = some o)
    {lop rop : BinOp} {ll lr rl rr : Operand β} {v : ConstCmp}
    (h : constCmpCheck pcmp lop ll lr rop rl rr = some v) :
    ∃ kl kr, cmpOf lop = some kl ∧ cmpOf rop = some kr ∧
      ∀ x, v.True (runCmp P den x kl ll lr) (runCmp P den x kr rl rr) := by
  unfold constCmpCheck at h
  split at h
  case h_2 => simp at h
  rename_i lo lc ro rc h1 h2
  obtain ⟨kl, e1, s1⟩ := toConst_spec P den h1
  obtain ⟨kr, e2, s2⟩ := toConst_spec P den h2
  refine ⟨kl, kr, e1, e2, fun x => ?_⟩
  rw [s1, s2]
  split at h
  · simp at h
  rename_i ord hord
  have hab := hp _ _ _ hord
  generalize den lc = a at *
  generalize den rc = b at *
  -- the possible results of the two comparisons
  have dual := P.dual
  have hba := P.dual a b
  rw [hab] at hba
  have key : (ord = .eq → P.cmp x a = P.cmp x b) ∧
      (ord = .lt → (P.cmp x a = some .lt → P.cmp x b = some .lt) ∧ (P.cmp x a = some .eq → P.cmp x b = some .lt) ∧
        (P.cmp x b = some .gt → P.cmp x a = some .gt) ∧ (P.cmp x b = some .eq → P.cmp x a = some .gt)) ∧
      (ord = .gt → (P.cmp x b = some .lt → P.cmp x a = some .lt) ∧ (P.cmp x b = some .eq → P.cmp x a = some .lt) ∧
        (P.cmp x a = some .gt → P.cmp x b = some .gt) ∧ (P.cmp x a = some .eq → P.cmp x b = some .gt)) := by
    have up : ∀ {a b : α}, P.cmp a b = some .lt →
        (P.cmp x a = some .lt → P.cmp x b = some .lt) ∧ (P.cmp x a = some .eq → P.cmp x b = some .lt) ∧
        (P.cmp x b = some .gt → P.cmp x a = some .gt) ∧ (P.cmp x b = some .eq → P.cmp x a = some .gt) := by
      intro a b hlt
      refine ⟨fun h => P.lt_trans h hlt, fun h => by rw [P.eq_left h]; exact hlt, fun h => ?_, fun h => ?_⟩
      · exact P.gt_iff.2 (P.lt_trans hlt (P.gt_iff.1 h))
      · rw [P.eq_left h]; exact P.gt_iff.2 hlt
    refine ⟨fun e => ?_, fun e => ?_, fun e => ?_⟩
    · subst e; exact P.eq_right hab x
    · subst e; exact up hab
    · subst e; exact up hba
  obtain ⟨k1, k2, k3⟩ := key
  cases ord
  · have k := k2 rfl
    cases lo <;> cases ro <;> simp [COp.direction, leftUseless, uselessDir, comparisonPossible] at h <;> subst h <;>
      simp only [ConstCmp.True, COp.holds, POrd.holds] <;>
      (revert k; cases P.cmp x a <;> cases P.cmp x b <;> (try rename_i o1; cases o1) <;>
        (try rename_i o2; cases o2) <;> simp)
  · have k := k1 rfl
    cases lo <;> cases ro <;> simp [COp.direction, leftUseless, uselessDir, comparisonPossible] at h <;> subst h <;>
      simp only [ConstCmp.True, COp.holds, POrd.holds, k] <;>
      (cases P.cmp x b <;> (try rename_i o2; cases o2) <;> simp)
  · have k := k3 rfl
    cases lo <;> cases ro <;> simp [COp.direction, leftUseless, uselessDir, comparisonPossible] at h <;> subst h <;>
      simp only [ConstCmp.True, COp.holds, POrd.holds] <;>
      (revert k; cases P.cmp x a <;> cases P.cmp x b <;> (try rename_i o1; cases o1) <;>
        (try rename_i o2; cases o2) <;> simp)

/-- `x < 3 && 2 >= x`, `x > 5 && x < 3` on integers. -/
example :
    constCmpCheck intOrd.cmp .lt .var (.const 3) .ge (.const 2) .var = some .leftUseless ∧
    constCmpCheck intOrd.cmp .gt .var (.const 5) .lt .var (.const 3) = some .impossible := by decide

/-- **C22 (nothing is missed).** If the two constants are ordered and both comparisons point in the same
direction, the lint does report a redundant side, except for the excluded `x <= c && x <= c`. -/
theorem constCmp_complete {β} {pcmp : β → β → Option Ordering} {lop rop : BinOp} {lc rc : β} {o : Ordering}
    (h : pcmp lc rc = some o) {lo ro : COp} (h1 : COp.ofBinOp lop = some lo) (h2 : COp.ofBinOp rop = some ro)
    (hd : lo.direction = ro.direction) (hne : o ≠ .eq) :
    (constCmpCheck pcmp lop .var (.const lc) rop .var (.const rc)).isSome := by
  simp only [constCmpCheck, comparisonToConst, h1, h2, Option.bind_some, h, hne, and_false, if_false, hd, if_true]
  split <;> simp

example : COp.ofBinOp .lt = some .lt ∧ COp.ofBinOp .le = some .le ∧ COp.lt.direction = COp.le.direction := by
  decide

/-- **C22 (nothing is missed).** If the comparisons point in opposite directions and the lint is silent, the condition can be true, provided that
there is a value between any two different constants: the compared expression takes the values `n / 2`, and the constants are integers. -/
theorem constCmp_possible {lop rop : BinOp} {a b : Int} {lo ro : COp} (h1 : COp.ofBinOp lop = some lo)
    (h2 : COp.ofBinOp rop = some ro) (hd : lo.direction ≠ ro.direction)
    (h : constCmpCheck intOrd.cmp lop .var (.const a) rop .var (.const b) = none) :
    ∃ n : Int, lo.holds intOrd n (2 * a) = true ∧ ro.holds intOrd n (2 * b) = true := by
  have key : (a < b → lo.direction = .greater → ∃ n : Int, lo.holds intOrd n (2 * a) = true ∧ ro.holds intOrd n (2 * b) = true) ∧
      (b < a → lo.direction = .lesser → ∃ n : Int, lo.holds intOrd n (2 * a) = true ∧ ro.holds intOrd n (2 * b) = true) ∧
      (a = b → (lo = .le ∨ lo = .ge) ∧ (ro = .le ∨ ro = .ge) →
        ∃ n : Int, lo.holds intOrd n (2 * a) = true ∧ ro.holds intOrd n (2 * b) = true) := by
    refine ⟨fun hab hl => ⟨2 * a + 1, ?_⟩, fun hab hl => ⟨2 * a - 1, ?_⟩, fun hab hl => ⟨2 * a, ?_⟩⟩ <;>
      cases lo <;> cases ro <;> simp [COp.direction] at hl hd ⊢ <;> simp [COp.holds, intOrd_holds] <;> omega
  have hc : intOrd.cmp a b = some (compare a b) := rfl
  simp only [constCmpCheck, comparisonToConst, h1, h2, Option.bind_some, hc] at h
  by_cases he : (lo = .le ∨ lo = .ge) ∧ (ro = .le ∨ ro = .ge) ∧ compare a b = .eq
  · exact key.2.2 (Int.compare_eq_eq.1 he.2.2) ⟨he.1, he.2.1⟩
  · rw [if_neg he, if_neg hd] at h
    rcases Int.lt_trichotomy a b with hl | hl | hl
    · refine key.1 hl ?_
      rw [Int.compare_eq_lt.2 hl] at h
      cases hx : lo.direction
      · rw [hx] at h; simp [comparisonPossible] at h
      · rfl
    · rw [Int.compare_eq_eq.2 hl] at h
      cases hx : lo.direction <;> rw [hx] at h <;> simp [comparisonPossible] at h
    · refine key.2.1 hl ?_
      rw [Int.compare_eq_gt.2 hl] at h
      cases hx : lo.direction
      · rfl
      · rw [hx] at h; simp [comparisonPossible] at h

example : constCmpCheck intOrd.cmp .gt .var (.const 2) .lt .var (.const 3) = none ∧
    constCmpCheck intOrd.cmp .ge .var (.const 2) .le .var (.const 2) = none ∧ COp.gt.direction ≠ COp.lt.direction := by decide

/-- Value of `lop`/`rop` on the same operands joined by `op` (`&&` or `||`). -/
def joined {α} (P : POrd α) (op : BinOp) (l r : Cmp) (a b : α) : Option Bool :=
  match op with
  | .and => some (P.holds l a b && P.holds r a b)
  | .or => some (P.holds l a b || P.holds r a b)
  | _ => none

/-- **C23.** Replacing two comparisons of the same operands by the suggested one keeps the value, for all
operands of a totally ordered type; and for partially ordered types (floats) too unless the suggested
operator is `!=`. Missing: `x < y || x > y` on floats (see `double_not_equal`). -/
theorem doubleComparison_partial {α} (P : POrd α) {op lop rop res : BinOp}
    (h : doubleComparison op lop rop = some res) (hne : P.Total ∨ res ≠ .ne) :
    ∃ kl kr k, cmpOf lop = some kl ∧ cmpOf rop = some kr ∧ cmpOf res = some k ∧
      ∀ a b, joined P op kl kr a b = some (P.holds k a b) := by
  unfold doubleComparison at h
  split at h <;> simp at h <;> subst h <;> refine ⟨_, _, _, rfl, rfl, rfl, fun a b => ?_⟩ <;>
    simp only [joined, POrd.holds, Option.some.injEq] <;>
    (have ht : P.Total → ∃ o, P.cmp a b = some o := fun t => t a b
     cases hc : P.cmp a b with
     | none =>
       first
       | (simp; done)
       | (rcases hne with t | t
          · obtain ⟨o, ho⟩ := ht t; rw [hc] at ho; simp at ho
          · exact absurd rfl t)
     | some o => cases o <;> simp)

example : doubleComparison .or .lt .eq = some .le ∧ intOrd.Total := ⟨rfl, intOrd_total⟩

/-- Violation of C23: with an operand that is not comparable (NaN), `x < y || x > y` is false while the
suggested `x != y` is true. The lint does not look at the types of the operands. -/
theorem double_not_equal :
    doubleComparison .or .lt .gt = some .ne ∧
    joined floatOrd .or .lt .gt none (some 0) = some false ∧ floatOrd.holds .ne none (some 0) = true := by
  decide

end Verif.Ops
