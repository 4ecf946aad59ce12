import Verif.Certain.Props

/-!
# Types called certain which the context decides, and an example
-/

namespace Verif.Certain

/-- `u8`. -/
def u8 : Ty := .con (.other 1) []
/-- `u16`. -/
def u16 : Ty := .con (.other 2) []

theorem u8_ne_u16 : u8 ≠ u16 := by
  simp [u8, u16]

/-- `u8`, as it is written. -/
def u8ty : HTy := .path .none (.fixed u8 .nil)

/-- A definition without parameters. -/
def plain : Def := ⟨0, 0, 0, false, false, .con (.other 0) [], .con (.other 0) [], [], .con (.other 0) []⟩

/-- Some definitions. -/
def defs : Nat → Def
  -- `struct Vec<T>`
  | 0 => { plain with own := 1, out := .con (.adt 0) [.var 0] }
  -- `impl<T> Vec<T> { fn new() -> Vec<T> }`
  | 1 => { plain with parents := 1, inherent := true, head := .con (.adt 0) [.var 0],
                      out := .con (.fnDef 1) [.var 0], output := .con (.adt 0) [.var 0] }
  -- `impl<T> Vec<T> { fn pop(&mut self) -> Option<T> }`
  | 2 => { plain with parents := 1, inherent := true, head := .con (.adt 0) [.var 0],
                      out := .con (.fnDef 2) [.var 0], inputs := [.con .ref [.con (.adt 0) [.var 0]]],
                      output := .con (.other 3) [.var 0] }
  -- `fn id<T>(x: T) -> T`
  | 3 => { plain with own := 1, out := .con (.fnDef 3) [.var 0], inputs := [.var 0], output := .var 0 }
  -- `trait FromIterator<A>`, here without `A`; the parameter is `Self`
  | 4 => { plain with own := 1, out := .con (.adt 4) [.var 0] }
  -- `fn from_iter<I: IntoIterator<Item = A>>(iter: I) -> Self`
  | 5 => { plain with parents := 1, own := 1, head := .con (.adt 4) [.var 0],
                      out := .con (.fnDef 5) [.var 0, .var 1], inputs := [.var 1], output := .var 0 }
  -- `fn get<'a: 'a, T: Default>() -> T`
  | 6 => { plain with own := 1, lifetimes := 1, out := .con (.fnDef 6) [.var 0], output := .var 0 }
  -- `pub enum E<T> { A, B(T) }`
  | 7 => { plain with own := 1, out := .con (.adt 7) [.var 0] }
  -- `A`
  | 8 => { plain with parents := 1, variant := true, head := .con (.adt 7) [.var 0], out := .con (.adt 7) [.var 0] }
  -- `struct Foo`
  | 9 => { plain with out := .con (.adt 9) [] }
  -- `impl Foo { fn make<T: Default>(&self) -> T }`
  | 10 => { plain with own := 1, inherent := true, head := .con (.adt 9) [], out := .con (.fnDef 10) [.var 0],
                       inputs := [.con .ref [.con (.adt 9) []]], output := .var 0 }
  -- `fn with<I: Iterator + Default>(x: I::Item) -> I`
  | 11 => { plain with own := 1, out := .con (.fnDef 11) [.var 0], inputs := [.proj 0 (.var 0)], output := .var 0 }
  -- `impl Foo { fn build<T: Default>() -> T }`
  | 12 => { plain with own := 1, inherent := true, head := .con (.adt 9) [], out := .con (.fnDef 12) [.var 0],
                       output := .var 0 }
  | _ => plain

/-- The receivers: `pop` and `make`. -/
inductive Recv : Ty → Nat → List Ty → Prop
  | pop {a} : Recv (.con (.adt 0) [a]) 2 [a]
  | make {a} : Recv (.con (.adt 9) []) 10 [a]

/-- The language: `u8` and `u16` are numbers; operator 0 is `<<`; `<t as Iterator>::Item` is `u8`; `t[i]` is `i`. -/
def sig : Sig where
  assoc := fun _ _ => u8
  num := fun t => t = u8 ∨ t = u16
  un := fun _ t => some t
  bin := fun _ t _ => some t
  field := fun _ _ => none
  index := fun _ t => some t
  apply := fun _ => none
  recv := Recv

theorem lawful : Lawful defs sig where
  head := by
    intro d i hi
    unfold defs at hi ⊢
    split at hi <;> first | (exact absurd hi (Nat.not_lt_zero i)) | skip
    all_goals
      have h0 : i = 0 := by simp only [] at hi; omega
      rw [h0]
      exact .con List.mem_cons_self .var
  variant := by
    intro d hv
    unfold defs at hv ⊢
    split at hv <;> first | rfl | cases hv
  recv := by
    intro t d σ σ' i s h h' hs ho
    cases h with
    | pop =>
      cases h' with
      | pop => rfl
    | make =>
      cases h' with
      | make =>
        simp only [defs, plain, List.head?_cons, Option.some.injEq] at hs
        rw [← hs] at ho
        cases ho with
        | con hm ho =>
          rw [List.mem_singleton.mp hm] at ho
          cases ho with
          | con hm _ => nomatch hm
  self := by
    intro t d σ i h hi hlt
    cases h with
    | pop =>
      have h0 : i = 0 := by simp only [defs, plain] at hlt; omega
      rw [h0]
      exact ⟨_, rfl, .con List.mem_cons_self (.con List.mem_cons_self .var)⟩
    | make => exact absurd hlt (Nat.not_lt_zero i)

/-- The compiler finds the functions of the `impl`s. -/
def facts : Facts where
  adt := fun e => match e with
    | .call (some 1) _ _ => some 0
    | .param _ => some 9
    | _ => none
  selfAdt := fun d => if d = 2 then some 0 else if d = 10 then some 9 else none
  alias := fun _ => none
  finds := fun _ d _ => d == 1 || d == 2 || d == 10 || d == 12

theorem finds_ok : Finds defs facts := by
  intro q d b h
  simp only [facts, Bool.or_eq_true, beq_iff_eq] at h
  rcases h with ((h | h) | h) | h <;> rw [h] <;> rfl

/-- `Vec::<u8>`. -/
def vecU8 : HTy := .path .none (.defn false 0 (.given (.cons u8ty .nil)) .nil)

/-- `(Vec::<u8>::new().pop(), [1, 2u8])`. -/
def good : Ex :=
  .tup (.cons (.method (.call (some 1) (.path (.ty vecU8) (.defn true 1 .absent .nil)) .nil) 2 .absent .nil)
    (.cons (.arr (.cons .num (.cons (.lit u8) .nil))) .nil))

theorem u8ty_fine : FineTy defs sig u8ty := .path .none (.fixed .nil)

theorem vec_fine : FineTy defs sig vecU8 :=
  .path .none (.defn (.given (.cons u8ty_fine .nil))
    ⟨(fun h => nomatch h), fun h => absurd rfl h, (fun h => nomatch h), fun _ => .inr (.inl rfl)⟩ .nil)

theorem den_u8 : Den defs sig u8ty u8 := .path .none (.fixed .nil)

theorem den_vec : Den defs sig vecU8 (.con (.adt 0) [u8]) :=
  .path .none (.defn [u8] rfl trivial (.given (.cons den_u8 .nil)) .nil)

/-- The hypotheses are met by an expression with a call, a method, type arguments, an array and a number without
suffix; it has a type. -/
example : Fine defs sig false good ∧ isCertain defs facts good = true ∧
    HasTy defs sig good (.con .tuple [.con (.other 3) [u8], .con .array [u8]]) := by
  refine ⟨.tup (.cons (.inherent (.call (.path (.path (.ty vec_fine) (.defn .absent ⟨fun _ => rfl, ?_, ?_, ?_⟩ .nil)))
    .nil ?_) rfl rfl) (.cons (.arr (.cons .num (.cons .lit .nil))) .nil)), by decide +kernel, ?_⟩
  · intro _ h
    nomatch h
  · intro h
    nomatch h
  · intro h
    exact absurd rfl h
  · intro k hk
    cases hk
    rintro i ⟨s, hm, -⟩
    nomatch hm
  · refine .tup (.cons (.method (σ := [u8]) rfl (.callFn (σ := [u8]) rfl (.path (.path (.ty den_vec)
      (.defn [u8] rfl (.inr rfl) .absent .nil))) .nil) .pop .absent .nil)
      (.cons (.arr (ts := [u8, u8]) (.cons (.num (.inl rfl)) (.cons .lit .nil)) ?_) .nil))
    intro u hu
    simp only [List.mem_cons, List.not_mem_nil, or_false, or_self] at hu
    exact hu

/-- `1 << 2u8`: only the right operand has a type of its own. -/
theorem shift :
    isCertain defs facts (.bin 0 .num (.lit u8)) = true ∧
      HasTy defs sig (.bin 0 .num (.lit u8)) u8 ∧ HasTy defs sig (.bin 0 .num (.lit u8)) u16 :=
  ⟨by decide +kernel, .bin (.num (.inl rfl)) .lit rfl, .bin (.num (.inr rfl)) .lit rfl⟩

/-- `id(1)`. -/
theorem number_argument :
    isCertain defs facts (.call (some 3) (.path .none (.defn false 3 .absent .nil)) (.cons .num .nil)) = true ∧
      (∀ t, t = u8 ∨ t = u16 →
        HasTy defs sig (.call (some 3) (.path .none (.defn false 3 .absent .nil)) (.cons .num .nil)) t) :=
  ⟨by decide +kernel, fun t ht =>
    .callFn (σ := [t]) rfl (.path (.path .none (.defn [t] rfl trivial .absent .nil))) (.cons (.num ht) .nil)⟩

/-- `FromIterator::from_iter::<u8>(1u8)` (with a list for the number): the type arguments say nothing of `Self`. -/
theorem trait_self (t : Ty) :
    isCertain defs facts (.call (some 5) (.path .none (.defn false 4 .absent (.defn false 5
      (.given (.cons u8ty .nil)) .nil))) (.cons (.lit u8) .nil)) = true ∧
    HasTy defs sig (.call (some 5) (.path .none (.defn false 4 .absent (.defn false 5
      (.given (.cons u8ty .nil)) .nil))) (.cons (.lit u8) .nil)) t :=
  ⟨by decide +kernel, .callFn (σ := [t, u8]) rfl (.path (.path .none (.defn [t] rfl trivial .absent
    (.defn [t, u8] rfl (.inr rfl) (.given (.cons den_u8 .nil)) .nil)))) (.cons .lit .nil)⟩

/-- `get::<'static>()`. -/
theorem lifetime_argument (t : Ty) :
    isCertain defs facts (.call (some 6) (.path .none (.defn false 6 (.given .nil) .nil)) .nil) = true ∧
    HasTy defs sig (.call (some 6) (.path .none (.defn false 6 (.given .nil) .nil)) .nil) t :=
  ⟨by decide +kernel, .callFn (σ := [t]) rfl (.path (.path .none (.defn [t] rfl trivial .noTypes .nil))) .nil⟩

/-- `m::A` for a variant that the module `m` exports, as `std::prelude::v1::None`, or a constructor named through a
module, as `std::marker::PhantomData`. -/
theorem exported_variant (t : Ty) :
    isCertain defs facts (.path .none (.modl (.defn false 8 .absent .nil))) = true ∧
    HasTy defs sig (.path .none (.modl (.defn false 8 .absent .nil))) (.con (.adt 7) [t]) :=
  ⟨by decide +kernel, .path (.path .none (.modl (.defn [t] rfl trivial .absent .nil)))⟩

/-- `Foo::build()`: the generic parameters of what the lookup finds are not looked at. -/
theorem generic_function (t : Ty) :
    isCertain defs facts (.call (some 12) (.path (.ty (.path .none (.defn false 9 .absent .nil)))
      (.defn true 12 .absent .nil)) .nil) = true ∧
    HasTy defs sig (.call (some 12) (.path (.ty (.path .none (.defn false 9 .absent .nil)))
      (.defn true 12 .absent .nil)) .nil) t :=
  ⟨by decide +kernel, .callFn (σ := [t]) rfl (.path (.path (.ty (.path .none (.defn [] rfl trivial .absent .nil)))
    (.defn [t] rfl (.inl rfl) .absent .nil))) .nil⟩

/-- `foo.make()`. -/
theorem generic_method (t : Ty) :
    isCertain defs facts (.method (.param (.ty (.path .none (.defn false 9 .absent .nil)))) 10 .absent .nil) = true ∧
    HasTy defs sig (.method (.param (.ty (.path .none (.defn false 9 .absent .nil)))) 10 .absent .nil) t :=
  ⟨by decide +kernel, .method (σ := [t]) rfl (.param (.ty (.path .none (.defn [] rfl trivial .absent .nil)))) .make
    .absent .nil⟩

/-- `with(1u8)`: the parameter appears only in `I::Item`. -/
theorem projection (t : Ty) :
    isCertain defs facts (.call (some 11) (.path .none (.defn false 11 .absent .nil)) (.cons (.lit u8) .nil)) = true ∧
    HasTy defs sig (.call (some 11) (.path .none (.defn false 11 .absent .nil)) (.cons (.lit u8) .nil)) t :=
  ⟨by decide +kernel, .callFn (σ := [t]) rfl (.path (.path .none (.defn [t] rfl trivial .absent .nil)))
    (.cons .lit .nil)⟩

/-- `table[1]`, where the type of the element depends on the type of the index. -/
theorem index_type :
    isCertain defs facts (.idx (.lit u8) .num) = true ∧
      HasTy defs sig (.idx (.lit u8) .num) u8 ∧ HasTy defs sig (.idx (.lit u8) .num) u16 :=
  ⟨by decide +kernel, .idx .lit (.num (.inl rfl)) rfl, .idx .lit (.num (.inr rfl)) rfl⟩

/-- So the full statement fails. -/
theorem not_unique :
    ¬ ∀ e t t', isCertain defs facts e = true → HasTy defs sig e t → HasTy defs sig e t' → t = t' :=
  fun h => u8_ne_u16 (h _ _ _ shift.1 shift.2.1 shift.2.2)

end Verif.Certain
