import Verif.Ops.Model
import Verif.Consts.Order

/-! C21: verdicts of `absurd_extreme_comparisons`. -/

namespace Verif.Ops
open Verif.RInt Verif.Consts

/-- What a verdict claims about the comparison `vl op vr` (run-time semantics of `Verif.Consts.Spec`). -/
def Absurd.True (S : Sess) (ty : Ty) (op : BinOp) (vl vr : Val) : Absurd → Prop
  | .alwaysFalse => runStrict S op ty vl vr = .ok (.bool false)
  | .alwaysTrue => runStrict S op ty vl vr = .ok (.bool true)
  | .inequalityImpossible => runStrict S op ty vl vr = .ok (.bool (vl = vr))

def vle : Val → Val → Bool
  | .int a, .int b => a ≤ b
  | .bool a, .bool b => !a || b
  | _, _ => false

theorem extreme_le {S : Sess} (hS : S.Native) {ty : Ty} {c : Constant} {v w : Val}
    (hr : Rep S ty c v) (hw : HasTy S ty w) :
    (detectExtreme S ty c = some .minimum → vle v w = true) ∧
    (detectExtreme S ty c = some .maximum → vle w v = true) := by
  cases v with
  | bool b =>
    cases c <;> simp only [Rep] at hr
    obtain ⟨rfl, rfl⟩ := hr
    cases w with
    | int x => obtain ⟨t, ht, _⟩ := hw; simp [Ty.it] at ht
    | bool x => rename_i b; cases b <;> cases x <;> simp [detectExtreme, vle]
  | int v =>
    have hr' := hr
    cases c <;> simp only [Rep] at hr
    obtain ⟨t, ht, _⟩ := hr
    have h := detectExtreme_iff hS ht hr'
    cases w with
    | bool x => simp only [HasTy] at hw; subst hw; simp [Ty.it] at ht
    | int x =>
      obtain ⟨t', ht', hx⟩ := hw
      rw [ht] at ht'
      cases ht'
      simp only [vle, decide_eq_true_eq]
      constructor
      · intro e; rw [h.1.1 e]; exact hx.1
      · intro e; rw [h.2.1 e]; exact hx.2

theorem cmp_of_vle {S : Sess} {ty : Ty} {v w : Val} (hv : HasTy S ty v) (hw : HasTy S ty w) :
    runStrict S .lt ty v w = .ok (.bool (!vle w v)) ∧ runStrict S .gt ty v w = .ok (.bool (!vle v w)) ∧
    runStrict S .le ty v w = .ok (.bool (vle v w)) ∧ runStrict S .ge ty v w = .ok (.bool (vle w v)) ∧
    decide (v = w) = (vle v w && vle w v) := by
  cases v with
  | bool a =>
    cases w with
    | bool b => cases a <;> cases b <;> simp [runStrict, runBool, vle]
    | int b =>
      simp only [HasTy] at hv hw
      obtain ⟨t, ht, _⟩ := hw
      rw [hv] at ht; simp [Ty.it] at ht
  | int a =>
    cases w with
    | bool b =>
      simp only [HasTy] at hv hw
      obtain ⟨t, ht, _⟩ := hv
      rw [hw] at ht; simp [Ty.it] at ht
    | int b =>
      obtain ⟨t, ht, _⟩ := hv
      simp only [runStrict, ht, runInt, vle]
      have e1 : ∀ x y : Int, decide (x < y) = !decide (y ≤ x) := by
        intro x y; rw [Bool.eq_iff_iff]; simp
      refine ⟨by rw [e1], by rw [show decide (a > b) = _ from e1 b a], trivial, trivial, ?_⟩
      rw [Bool.eq_iff_iff]; simp; omega

/-- **C21.** Whatever the lint says about a comparison is so for all run-time values of the operands,
provided the constants found for the operands are what they evaluate to (C18). -/
theorem detectAbsurd_sound {S : Sess} (hS : S.Native) {ty : Ty} {op : BinOp} {l r : Option Constant}
    {vl vr : Val} (hvl : HasTy S ty vl) (hvr : HasTy S ty vr)
    (hl : ∀ c, l = some c → Rep S ty c vl) (hr : ∀ c, r = some c → Rep S ty c vr) {a : Absurd}
    (h : detectAbsurd S ty op l r = some a) : a.True S ty op vl vr := by
  -- what the two `detect_extreme_expr` calls tell
  have side : ∀ {o : Option Constant} {v w : Val}, HasTy S ty w → (∀ c, o = some c → Rep S ty c v) →
      (o.bind (detectExtreme S ty) = some .minimum → vle v w = true) ∧
      (o.bind (detectExtreme S ty) = some .maximum → vle w v = true) := by
    intro o v w hw ho
    cases o with
    | none => simp
    | some c => simpa using extreme_le hS (ho c rfl) hw
  have main : ∀ {rel : Rel} {x y : Option Constant} {v w : Val}, HasTy S ty v → HasTy S ty w →
      (∀ c, x = some c → Rep S ty c v) → (∀ c, y = some c → Rep S ty c w) →
      absurdVerdict rel (x.bind (detectExtreme S ty)) (y.bind (detectExtreme S ty)) = some a →
      (rel = .lt → (a = .alwaysFalse ∧ vle w v = true)) ∧
      (rel = .le → (a = .alwaysTrue ∧ vle v w = true) ∨ (a = .inequalityImpossible ∧ vle w v = true)) ∧
      (rel ≠ .eq ∧ rel ≠ .ne) := by
    intro rel x y v w hv hw hx hy hverdict
    have sx := side hw hx
    have sy := side hv hy
    generalize x.bind (detectExtreme S ty) = ex at *
    generalize y.bind (detectExtreme S ty) = ey at *
    unfold absurdVerdict at hverdict
    split at hverdict <;> simp only [Option.some.injEq, reduceCtorEq] at hverdict
    · subst hverdict; simp [sx.2 rfl]
    · subst hverdict; simp [sy.1 rfl]
    · subst hverdict; simp [sx.1 rfl]
    · subst hverdict; simp [sx.2 rfl]
    · subst hverdict; simp [sy.1 rfl]
    · subst hverdict; simp [sy.2 rfl]
  obtain ⟨c1, c2, c3, c4, c5⟩ := cmp_of_vle hvl hvr
  obtain ⟨d1, d2, d3, d4, d5⟩ := cmp_of_vle hvr hvl
  simp only [detectAbsurd] at h
  cases op <;> simp only [normalizeComparison, Option.bind_none, Option.bind_some, reduceCtorEq] at h
  case eq => exact absurd rfl (main hvr hvl hr hl h).2.2.1
  case ne => exact absurd rfl (main hvr hvl hr hl h).2.2.2
  case lt =>
    obtain ⟨rfl, e⟩ := (main hvl hvr hl hr h).1 rfl
    simp [Absurd.True, c1, e]
  case gt =>
    obtain ⟨rfl, e⟩ := (main hvr hvl hr hl h).1 rfl
    simp [Absurd.True, c2, e]
  case le =>
    rcases (main hvl hvr hl hr h).2.1 rfl with ⟨rfl, e⟩ | ⟨rfl, e⟩
    · simp [Absurd.True, c3, e]
    · simp [Absurd.True, c3, c5, e]
  case ge =>
    rcases (main hvr hvl hr hl h).2.1 rfl with ⟨rfl, e⟩ | ⟨rfl, e⟩
    · simp [Absurd.True, c4, e]
    · simp [Absurd.True, c4, c5, e]

/-- `x >= i8::MAX`, with `x = 5`. -/
example : detectAbsurd native64 (.int .i8) .ge none (some (.int 127)) = some .inequalityImpossible ∧
    HasTy native64 (.int .i8) (.int 5) ∧ Rep native64 (.int .i8) (.int 127) (.int 127) :=
  ⟨by decide +kernel, ⟨_, rfl, by decide⟩, _, rfl, by decide, by decide⟩

/-- The lint is complete for `<` and `<=` with an extreme constant on one side: it says something. -/
theorem detectAbsurd_complete (S : Sess) {ty : Ty} {c : Constant} {e : Extreme}
    (h : detectExtreme S ty c = some e) (l : Option Constant) :
    (detectAbsurd S ty .le (some c) l).isSome ∧ (detectAbsurd S ty .ge (some c) l).isSome ∧
    (detectAbsurd S ty .le l (some c)).isSome ∧ (detectAbsurd S ty .ge l (some c)).isSome := by
  cases e <;> simp only [detectAbsurd, normalizeComparison, Option.bind_some, h] <;>
    generalize l.bind (detectExtreme S ty) = x <;>
    cases x <;> (try rename_i e; cases e) <;> simp [absurdVerdict]

example : detectExtreme native64 (.uint .u8) (.int 255) = some .maximum := by decide +kernel

end Verif.Ops
