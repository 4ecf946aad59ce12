import Verif.Lazily.Props

/-!
# Cheap expressions: examples and counterexamples
-/

namespace Verif.Lazily

/-- A small language: function `0` gives back its first argument, every other one is undefined
behaviour; a union has no valid field; making a value with a destructor is written down. -/
def toy : Sem where
  W := List Nat
  truth := fun v => v ≠ .num 0
  plain := fun k _ => .num k
  closure := fun k _ => .obj k
  union := fun _ _ => none
  global := fun x _ => .num x
  make := fun k _ w => (.obj k, w ++ [k])
  fn := fun f vs w => if f = 0 then (.ok (vs.headD (.obj 0)), w) else (.stop .undefined, w)
  fnVal := fun v _ w => (.ok v, w)
  opFn := fun _ a _ w => (.ok a, w)
  unFn := fun a w => (.ok a, w)
  userDeref := fun v w => (.ok v, w)
  index := fun _ _ => none
  read := fun v _ => v
  readRaw := fun _ _ => none
  prim := fun op a b =>
    match op, a, b with
    | .add, .num x, .num y => .num (x + y)
    | _, _, _ => a
  primU := fun v => v
  store := fun _ _ w => w
  pick := fun _ v => if v = .num 0 then 1 else 0
  ext := fun _ _ ρ => ρ

/-- Literals are constants. -/
def lits : Ex → Option V
  | .plain k .nil => some (.num k)
  | _ => none

theorem lits_sound : ConstSound toy lits := by
  intro e v h ρ w
  unfold lits at h
  split at h
  · cases h; rfl
  · cases h

/-- Function `0` is a well-behaved one of the standard library. -/
def isZero (f : Nat) : Prop := f = 0

theorem toy_pure : LibPure toy isZero isZero :=
  ⟨fun f h vs w => ⟨vs.headD (.obj 0), by cases h; rfl⟩,
    fun f h vs w => ⟨vs.headD (.obj 0), by cases h; rfl⟩⟩

private def lit (n : Nat) : Ex := .plain n .nil
private def i32 : Ty := .int true 32

/-- `x.len()` -/
private def lenInfo : FnInfo := ⟨true, true, true, false, false, false⟩

/-- `if x.len() < 7 { 1 + 2 } else { 8 / 3 }` -/
private def cheap : Ex :=
  .branch 0 (.bin (.other 0) i32 i32 .bool (.method 0 lenInfo (.path .loc false 5) .nil) (lit 7))
    (.bin .add i32 i32 i32 (lit 1) (lit 2)) (.cons (.bin .div i32 i32 i32 (lit 8) (lit 3)) .nil)

private theorem cheap_tame : Tame lits isZero isZero cheap := by
  refine ⟨⟨by intro s n h; decide, ⟨?_, ?_⟩, ⟨fun _ _ => rfl, rfl, (by intro h; cases h), trivial⟩,
    trivial⟩, ⟨by intro s n h; decide, ⟨?_, ?_⟩, trivial, trivial⟩,
    ⟨by intro s n h; decide, ⟨?_, ?_⟩, trivial, trivial⟩, trivial⟩
  · intro va vb h; cases h
  · intro vb h; cases h; exact ⟨0, by decide⟩
  · intro va vb h1 h2; cases h1; cases h2; decide
  · intro vb h; cases h; exact ⟨0, by decide⟩
  · intro va vb h1 h2; cases h1; cases h2; decide
  · intro vb h; cases h; exact ⟨0, by decide⟩

/-- The hypotheses of `eager_harmless_partial` are met. -/
example : Harmless toy cheap :=
  eager_harmless_partial lits_sound toy_pure (by decide +kernel) cheap_tame

example (m : Lazy toy) (recv : Ex) (ρ : Env) (w : List Nat) :
    withClosure toy m recv cheap ρ w = withValue toy m recv cheap ρ w :=
  un_lazy_partial lits_sound toy_pure (paramsUsed := false) (by rfl) cheap_tame m recv ρ w

/-- `x + 1`, `x / y`, `x / -1`, `-x` and `a[0]` are not called cheap: they may panic. -/
example : switchToEager lits (.bin .add i32 i32 i32 (.path .loc false 0) (lit 1)) = false ∧
    switchToEager lits (.bin .div i32 i32 i32 (lit 1) (.path .loc false 0)) = false ∧
    switchToEager lits (.bin .shl i32 i32 i32 (lit 1) (.path .loc false 0)) = false ∧
    switchToEager lits (.neg i32 (.path .loc false 0)) = false ∧
    switchToEager lits (.index true true (.path .loc false 0) (lit 0)) = false := by
  decide +kernel

/-- **C76 does not hold in general:** a field of a union is called cheap, but reading it early may
be undefined behaviour. -/
theorem union_not_harmless : switchToEager lits (.union 0 (.path .loc false 0)) = true ∧
    ¬Harmless toy (.union 0 (.path .loc false 0)) := by
  refine ⟨rfl, ?_⟩
  intro h
  obtain ⟨v, hv⟩ := h (fun _ => .num 0) []
  cases hv

/-- `as_ref` of a raw pointer. -/
private def asRef : FnInfo := ⟨true, true, true, false, false, true⟩

/-- **C76 does not hold in general:** `unsafe { p.as_ref() }` is called cheap although `*p` is
not. -/
theorem unsafe_not_harmless : switchToEager lits (.block (.method 1 asRef (.path .loc false 0) .nil)) = true ∧
    switchToEager lits (.deref .raw (.path .loc false 0)) = false ∧
    ¬Harmless toy (.block (.method 1 asRef (.path .loc false 0) .nil)) := by
  refine ⟨rfl, rfl, ?_⟩
  intro h
  obtain ⟨v, hv⟩ := h (fun _ => .num 0) []
  cases hv

/-- **C76 does not hold in general:** a constant whose type has a destructor is called cheap,
although a constructor of the same type is not. -/
theorem const_not_harmless : switchToEager lits (.path .const true 3) = true ∧
    switchToEager lits (.path .ctor true 3) = false ∧ ¬Harmless toy (.path .const true 3) := by
  refine ⟨rfl, rfl, ?_⟩
  intro h
  obtain ⟨v, hv⟩ := h (fun _ => .num 0) []
  cases hv

/-- `trim` -/
private def trim : FnInfo := ⟨true, false, true, false, false, false⟩

/-- `s.trim()` is moved into a closure; the argument is not left. -/
example : leaves (.method 0 trim (.path .loc false 0) .nil) = false :=
  lazy_stays_partial (const? := lits) (by decide +kernel) rfl

/-- **C76, closures, does not hold in general:** with `f().await.trim()` the `.await`, whose value
goes through the `Deref` of `String`, is moved into a closure. -/
theorem await_moved : orFunCall lits (.method 0 trim (.adj (.leave false .nil)) .nil) = true ∧
    leaves (.method 0 trim (.adj (.leave false .nil)) .nil) = true := by decide +kernel

end Verif.Lazily
