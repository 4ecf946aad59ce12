import Verif.VarAnd.Model

/-!
# Questions about variants and their contents (C120)
-/

namespace Verif.VarAnd

variable {W V E : Type} {M : Sem W V E} {errIs : E → Bool → Bool}

/-- No early `return`. -/
def Body.NoReturn : Body → Prop
  | .expr _ => True
  | .retIf _ _ _ => False
  | .not b => b.NoReturn

/-- No early `return`. -/
def Func.NoReturn : Func → Prop
  | .closure b => b.NoReturn
  | _ => True

theorem noReturn_val {b : Body} (h : b.NoReturn) (v : V) (w : W) : ∃ x w', b.run M v w = (.val x, w') := by
  induction b generalizing w with
  | expr k => exact ⟨_, _, rfl⟩
  | retIf c r rest ih => exact h.elim
  | not b ih =>
    obtain ⟨x, w', hx⟩ := ih h w
    exact ⟨!x, w', by rw [Body.run, hx]⟩

theorem sugg_same (f : Func) (v : V) (w : W) : (Model.sugg false f).call M v w = f.call M v w := by
  cases f <;> rfl

theorem sugg_invert {f : Func} (h : f.NoReturn) (hm : Model.isMapFunc f = true) (v : V) (w : W) :
    (Model.sugg true f).call M v w = (!(f.call M v w).1, (f.call M v w).2) := by
  cases f with
  | closure b =>
    obtain ⟨x, w', hx⟩ := noReturn_val (M := M) h v w
    simp only [Model.sugg, Func.call, if_true]
    rw [Body.run, hx]
  | path k => rfl
  | notPath k => rfl
  | other k => simp [Model.isMapFunc] at hm

/-- The receiver has always the value it has now, whatever the function and its own evaluation do. -/
def Stable (M : Sem W V E) (r : Nat) (f : Func) (w : W) : Prop :=
  (M.recv r w).2 = w ∧ ∀ v, (M.recv r w).1 = .good v → M.recv r (f.call M v w).2 = ((M.recv r w).1, (f.call M v w).2)

/-- The function is inverted in the question about its value. -/
def Inverted : Flavor → (ne b : Bool) → Bool
  | .option, true, b => b
  | _, _, b => !b

/-- What has to hold for a replacement: the other side of a comparison is no `Err`, no inverted closure has an early `return`, a receiver that is
evaluated only once instead of twice is stable. -/
def Fits (M : Sem W V E) (w : W) : Expr → Prop
  | .mapCmp fl _ f ne err b => err = false ∧ (Inverted fl ne b = true → f.NoReturn)
  | .filterIs _ f isSome => isSome = false → f.NoReturn
  | .or (.isNone r) (.isGoodAnd _ _ _) => (M.recv r w).2 = w
  | .or (.isGoodAnd _ r f) (.isNone _) => Stable M r f w
  | _ => True

/-- The suggested expression has the same value and the same effects, unless the other side is `Err(..)`, an inverted closure has an early
`return`, or the receivers that are written twice do something; see `err_wrong`, `return_wrong`, `twice_wrong`. -/
theorem variant_partial {e e' : Expr} (h : Model.check e = some e') {w : W} (hf : Fits M w e) : e'.run M errIs w = e.run M errIs w := by
  cases e with
  | mapCmp fl r f ne err b =>
    simp only [Model.check] at h
    split at h
    · rename_i hm
      cases h
      obtain ⟨rfl, hr⟩ := hf
      by_cases hi : Inverted fl ne b = true
      · have hinv := fun v w => sugg_invert (M := M) (hr hi) hm v w
        cases fl <;> cases ne <;> cases b <;> simp only [Inverted, Bool.not_true, Bool.not_false, Bool.false_eq_true] at hi <;>
          simp only [Model.emit, Bool.not_false, Expr.run, askV, mapV] <;> cases (M.recv r w).1 <;> simp [hinv]
      · cases fl <;> cases ne <;> cases b <;> simp only [Inverted, Bool.not_true, Bool.not_false, not_true_eq_false] at hi <;>
          simp only [Model.emit, Bool.not_true, Expr.run, askV, mapV] <;> cases (M.recv r w).1 <;> simp [sugg_same]
    · cases h
  | mapDefault fl r f =>
    cases h
    simp only [Expr.run, askV, mapV]
    cases (M.recv r w).1 <;> rfl
  | isNone r => cases h
  | isGoodAnd fl r f => cases h
  | refGoodAnd r f => cases h
  | isNoneOr r f => cases h
  | refNoneOr r f => cases h
  | filterIs r f isSome =>
    simp only [Model.check] at h
    split at h
    · rename_i hm
      cases h
      cases isSome
      · simp only [Bool.false_eq_true, if_false, Bool.not_false, Expr.run, askV, filterV]
        cases (M.recv r w).1 <;> simp [sugg_invert (hf rfl) hm]
      · simp only [if_true, Bool.not_true, Expr.run, askV, filterV]
        cases (M.recv r w).1 <;> simp [sugg_same]
    · cases h
  | okIsSomeAnd r f => cases h; rfl
  | or a b =>
    simp only [Model.check] at h
    unfold Model.checkOr at h
    split at h
    · rename_i n s f
      split at h
      · rename_i hc
        obtain ⟨rfl, hm⟩ := hc
        cases h
        simp only [Fits] at hf
        simp only [Expr.run, askV]
        obtain ⟨x, w', hv⟩ : ∃ x w', M.recv n w = (x, w') := ⟨_, _, rfl⟩
        simp only [hv]
        rw [hv] at hf
        simp only at hf
        subst hf
        cases x <;> simp [sugg_same, hv]
      · cases h
    · rename_i s f n
      split at h
      · rename_i hc
        obtain ⟨rfl, hm⟩ := hc
        cases h
        simp only [Fits, Stable] at hf
        simp only [Expr.run, askV]
        obtain ⟨x, w', hv⟩ : ∃ x w', M.recv n w = (x, w') := ⟨_, _, rfl⟩
        simp only [hv]
        rw [hv] at hf
        simp only at hf
        obtain ⟨hw, hg⟩ := hf
        subst hw
        cases x with
        | bad e => simp [hv]
        | good v =>
          have := hg v rfl
          obtain ⟨x2, w2, hc2⟩ : ∃ x2 w2, f.call M v w' = (x2, w2) := ⟨_, _, rfl⟩
          rw [hc2] at this
          simp only at this
          cases x2 <;> simp [sugg_same, hc2, this]
      · cases h
    · cases h
  | not a => cases h

/-- `r.map(f) == Err(b)` is replaced although the question is another one. -/
theorem err_wrong : ∃ e e', Model.check e = some e' ∧ ∃ (M : Sem Unit Unit Bool), (e'.run M (· == ·) ()).1 ≠ (e.run M (· == ·) ()).1 :=
  ⟨.mapCmp .result 0 (.path 0) false true true, _, rfl, ⟨fun _ _ => (.good (), ()), fun _ _ _ => (true, ())⟩, by decide⟩

/-- The values of early `return`s aren't inverted: `r.map(|x| { if c { return true } d }) == Some(false)` is replaced by
`r.is_some_and(|x| !{ if c { return true } d })`. -/
theorem return_wrong : ∃ f, Model.isMapFunc f = true ∧ ∀ e ∈ [Expr.mapCmp .option 0 f false false false, .mapCmp .option 0 f true false true,
      .mapCmp .result 0 f false false false, .mapCmp .result 0 f true false false, .filterIs 0 f false],
    ∃ e', Model.check e = some e' ∧ ∃ (M : Sem Unit Unit Bool), (e'.run M (· == ·) ()).1 ≠ (e.run M (· == ·) ()).1 := by
  refine ⟨.closure (.retIf 0 0 (.expr 0)), rfl, ?_⟩
  intro e he
  simp only [List.mem_cons, List.not_mem_nil, or_false] at he
  rcases he with rfl | rfl | rfl | rfl | rfl <;>
    exact ⟨_, rfl, ⟨fun _ _ => (.good (), ()), fun _ _ _ => (true, ())⟩, by decide⟩

/-- Receivers that do something are evaluated only once: `it.next().is_none() || it.next().is_some_and(f)` is replaced by
`it.next().is_none_or(f)`. -/
theorem twice_wrong : ∃ e e', Model.check e = some e' ∧ ∃ (M : Sem Nat Unit Unit) (w : Nat),
    (e'.run M (fun _ _ => true) w).1 ≠ (e.run M (fun _ _ => true) w).1 ∧ (e'.run M (fun _ _ => true) w).2 ≠ (e.run M (fun _ _ => true) w).2 :=
  ⟨.or (.isNone 0) (.isGoodAnd .option 0 (.path 0)), _, rfl, ⟨fun _ w => (if w = 0 then .good () else .bad (), w + 1), fun _ _ w => (true, w)⟩, 0,
    by decide⟩

/-- What fits is reported whenever the function is a closure or a path. -/
theorem found {fl : Flavor} {r : Nat} {f : Func} (hm : ∀ k, f ≠ .other k) :
    (∀ ne b, ∃ e', Model.check (.mapCmp fl r f ne false b) = some e') ∧ (∃ e', Model.check (.mapDefault fl r f) = some e') ∧
    (∀ s, ∃ e', Model.check (.filterIs r f s) = some e') ∧ (∃ e', Model.check (.okIsSomeAnd r f) = some e') ∧
    (∃ e', Model.check (.or (.isNone r) (.isGoodAnd .option r f)) = some e') ∧
    ∃ e', Model.check (.or (.isGoodAnd .option r f) (.isNone r)) = some e' := by
  have : Model.isMapFunc f = true := by cases f <;> first | rfl | exact absurd rfl (hm _)
  simp [Model.check, Model.checkOr, this]

/-- What is suggested isn't reported again. -/
theorem idempotent {e e' : Expr} (h : Model.check e = some e') : Model.check e' = none := by
  cases e with
  | mapCmp fl r f ne err b => simp only [Model.check] at h; split at h <;> cases h; cases fl <;> cases ne <;> rfl
  | filterIs r f s => simp only [Model.check] at h; split at h <;> cases h; cases s <;> rfl
  | or a b =>
    simp only [Model.check] at h
    unfold Model.checkOr at h
    split at h
    · split at h <;> cases h; rfl
    · split at h <;> cases h; rfl
    · cases h
  | mapDefault fl r f => cases h; rfl
  | okIsSomeAnd r f => cases h; rfl
  | _ => cases h

example : Model.check (.mapCmp .result 0 (.closure (.expr 1)) true false false) = some (.not (.isGoodAnd .result 0 (.closure (.not (.expr 1))))) ∧
    Fits (W := Unit) (V := Unit) (E := Unit) ⟨fun _ _ => (.good (), ()), fun _ _ _ => (true, ())⟩ ()
      (.mapCmp .result 0 (.closure (.expr 1)) true false false) := by
  simp [Model.check, Model.isMapFunc, Model.emit, Model.sugg, Fits, Inverted, Func.NoReturn, Body.NoReturn]

end Verif.VarAnd
