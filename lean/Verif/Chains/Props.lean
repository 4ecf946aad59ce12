import Verif.Chains.Model

/-!
# Chains of methods on options (C121)
-/

namespace Verif.Chains

variable {W V : Type} {M : Sem W V}

/-- The code has a value and does nothing else. -/
def Harmless (M : Sem W V) (k : Nat) : Prop := ∀ w, ∃ v, M.code k w = (.val v, w)

/-- The code doesn't leave the function. -/
def NoReturn (M : Sem W V) (k : Nat) : Prop := ∀ w, ∃ v w', M.code k w = (.val v, w')

/-! ## `if` -/

theorem callClosure_same {k : Nat} (h : NoReturn M k) (w : W) : callClosure (M.code k w) = M.code k w := by
  obtain ⟨v, w', hv⟩ := h w
  rw [hv]; rfl

/-- An `if` that may be applied by a machine does what the chain does, if what is called eager is harmless and no closure has an early `return`;
see `return_wrong`. -/
theorem if_partial {eager : Nat → Bool} {t : Then} {u : Unwrap} {a b : Block} (h : Model.obfuscated eager t u = some (a, b, true))
    (he : ∀ k, eager k = true → Harmless M k) (ht : ∀ k, t = .closure k → NoReturn M k) (hu : ∀ k, u = .orElse k → NoReturn M k)
    (c : Nat) (w : W) : runIf M c a b w = runChain M c t u w := by
  unfold Model.obfuscated at h
  split at h
  · rename_i a' b' ha hb
    simp only [Option.some.injEq, Prod.mk.injEq] at h
    obtain ⟨rfl, rfl, heager⟩ := h
    rw [Bool.and_eq_true] at heager
    obtain ⟨het, heu⟩ := heager
    unfold runIf runChain
    obtain ⟨b0, w0, hc⟩ : ∃ b0 w0, M.cond c w = (b0, w0) := ⟨_, _, rfl⟩
    simp only [hc]
    cases t with
    | path k => cases ha
    | value k =>
      cases ha
      obtain ⟨x, hx⟩ := he k het w0
      simp only [Then.run, hx, andThen, Block.run]
      cases u with
      | orElseOther k' => cases hb
      | or k' =>
        cases hb
        obtain ⟨y, hy⟩ := he k' heu w0
        cases b0 <;> simp [Unwrap.run, hy, andThen, Block.run]
      | orElse k' =>
        cases hb
        cases b0 <;> simp [Unwrap.run, Block.run, callClosure_same (hu k' rfl)]
      | orElsePath k' => cases hb; cases b0 <;> simp [Unwrap.run, Block.run]
      | orDefault => cases hb; cases b0 <;> simp [Unwrap.run, Block.run]
    | closure k =>
      cases ha
      simp only [Then.run, Block.run, callClosure_same (ht k rfl)]
      obtain ⟨x, w1, hx⟩ := ht k rfl w0
      simp only [hx]
      cases u with
      | orElseOther k' => cases hb
      | or k' =>
        cases hb
        obtain ⟨y, hy⟩ := he k' heu w0
        obtain ⟨y', hy'⟩ := he k' heu w1
        cases b0 <;> simp [Unwrap.run, hy, hy', andThen, Block.run]
      | orElse k' =>
        cases hb
        cases b0 <;> simp [Unwrap.run, Block.run, andThen, callClosure_same (hu k' rfl)]
      | orElsePath k' => cases hb; cases b0 <;> simp [Unwrap.run, Block.run, andThen]
      | orDefault => cases hb; cases b0 <;> simp [Unwrap.run, Block.run, andThen]
  · cases h

/-- The suggestion for `c.then(|| { .. return 1; .. }).unwrap_or(2)` may be applied by a machine, and leaves the function instead of the closure;
so does the one for `unwrap_or_else(|| { .. return 1; .. })`. -/
theorem return_wrong : ∀ p ∈ [((true, Then.closure 0, Unwrap.orDefault) : Bool × Then × Unwrap), (false, .value 1, .orElse 0)],
    ∃ a b eager, Model.obfuscated eager p.2.1 p.2.2 = some (a, b, true) ∧
      ∃ M : Sem Unit Nat, (∀ k, eager k = true → Harmless M k) ∧ runIf M 0 a b () ≠ runChain M 0 p.2.1 p.2.2 () := by
  intro p hp
  simp only [List.mem_cons, List.not_mem_nil, or_false] at hp
  have hh : ∀ c, ∀ k, (k == 1) = true → Harmless (⟨fun k _ => if k = 1 then (.val 1, ()) else (.ret 1, ()), fun _ _ => (0, ()), fun _ _ _ => (0, ()),
      fun _ _ => (c, ()), fun _ _ => (none, ()), fun _ _ _ => (none, ()), 0⟩ : Sem Unit Nat) k := by
    intro c k hk w
    simp only [beq_iff_eq] at hk
    subst hk
    exact ⟨1, rfl⟩
  rcases hp with rfl | rfl
  · exact ⟨_, _, fun k => k == 1, rfl, _, hh true, by decide⟩
  · exact ⟨_, _, fun k => k == 1, rfl, _, hh false, by decide⟩

/-- Every chain of one of the forms is reported. -/
theorem if_found (eager : Nat → Bool) {t : Then} {u : Unwrap} (ht : ∀ k, t ≠ .path k) (hu : ∀ k, u ≠ .orElseOther k) :
    ∃ r, Model.obfuscated eager t u = some r := by
  cases t <;> cases u <;> first | exact ⟨_, rfl⟩ | exact absurd rfl (ht _) | exact absurd rfl (hu _)

/-! ## `map_or` -/

/-- `map_or(a, f)`, `and_then(f)` and `is_some_and(f)` do what `map(f).unwrap_or(a)` does, if the default has no effects; see `order_wrong`. -/
theorem map_or_partial {copy referenced adjusted option : Bool} {a : Dflt V} {m : MapOr V}
    (h : Model.mapUnwrapOr copy referenced adjusted option a = some m) (ha : ∀ k, a = .code k → Harmless M k) (r f : Nat) (w : W) :
    runMapOr M r f m w = runMapUnwrap M r f a w := by
  unfold Model.mapUnwrapOr at h
  unfold runMapOr runMapUnwrap
  obtain ⟨o, w0, ho⟩ : ∃ o w0, M.opt r w = (o, w0) := ⟨_, _, rfl⟩
  split at h
  · cases h
  · cases a with
    | none v =>
      simp only at h
      split at h
      · cases h; simp only [Dflt.run, andThen]
      · split at h
        · cases h
        · cases h; simp only [Dflt.run, andThen]
    | false v => cases h; simp only [Dflt.run, andThen]
    | code k =>
      simp only at h
      split at h
      · cases h
      · cases h
        simp only [ho, Dflt.run]
        obtain ⟨d, hd⟩ := ha k rfl w0
        rw [hd]
        obtain ⟨d2, hd2⟩ := ha k rfl (mapOpt M f o w0).2
        rw [hd2]
        simp only [andThen]
        cases o with
        | some x => simp [mapOpt]
        | none =>
          simp only [mapOpt] at hd2 ⊢
          rw [hd] at hd2
          cases hd2
          rfl

/-- The default is evaluated before the function runs: `o.map(|x| n.replace(x)).unwrap_or(n.replace(1))` and
`o.map_or(n.replace(1), |x| n.replace(x))` differ in their values. -/
theorem order_wrong : ∃ m, Model.mapUnwrapOr true false false true (Dflt.code (V := Nat) 0) = some m ∧
    ∃ (M : Sem Nat Nat) (w : Nat), (runMapOr M 0 0 m w).1 ≠ (runMapUnwrap M 0 0 (.code 0) w).1 ∧
      (runMapOr M 0 0 m w).2 ≠ (runMapUnwrap M 0 0 (.code 0) w).2 :=
  ⟨_, rfl, ⟨fun _ w => (.val w, 1), fun _ w => (0, w), fun _ x w => (w, x), fun _ w => (true, w), fun _ w => (some 7, w), fun _ _ w => (none, w), 0⟩, 5,
    by decide⟩

/-! ## `zip` -/

/-- `zip` does what the nested calls do, if what is called eager has no effects and the receiver doesn't change its value where it is moved before
the receiver; see `swapped_wrong`. -/
theorem zip_partial {eager uses : Nat → Bool} {b : Nat} {x y : Part} {sw : Bool} (h : Model.zip eager uses b x y = some sw) {r : Nat} {w : W}
    (hu : uses b = false → ∀ a a' w, M.optOf b a w = M.optOf b a' w) (he : eager b = true → ∀ a w, (M.optOf b a w).2 = w)
    (hs : sw = true → ∀ a, (M.optOf b a (M.opt r w).2).1 = (M.optOf b a w).1) (any : V) :
    runZip M r b any sw w = runNested M r b x y w := by
  unfold Model.zip at h
  split at h
  · rename_i hc
    simp only [Bool.and_eq_true, Bool.not_eq_true'] at hc
    have hw := he hc.1
    have ha := hu hc.2
    obtain ⟨o, w0, ho⟩ : ∃ o w0, M.opt r w = (o, w0) := ⟨_, _, rfl⟩
    unfold Model.zipOperands at h
    split at h
    · cases h
      simp only [runZip, runNested, ho, Bool.false_eq_true, if_false, hw]
      cases o with
      | none => simp [zipOpt]
      | some v =>
        simp only [ha any v w0]
        cases (M.optOf b v w0).1 <;> simp [zipOpt, Part.val]
    · cases h
      have hs := hs rfl
      simp only [ho] at hs
      simp only [runZip, runNested, if_true, hw, ho]
      cases o with
      | none => cases (M.optOf b any w).1 <;> simp [zipOpt]
      | some v =>
        simp only [hs v, ← ha any v w]
        cases (M.optOf b any w).1 <;> simp [zipOpt, Part.val]
    · cases h
  · cases h

/-- With the pair the other way round, the option in the closure is read before the receiver runs: `it.next().and_then(|a| it.seen.map(|b| (b, a)))`
and `it.seen.zip(it.next())`. -/
theorem swapped_wrong : ∃ eager uses sw, Model.zip eager uses 0 .inner .outer = some sw ∧ ∃ (M : Sem Nat Nat) (w : Nat),
    (∀ a a' w, M.optOf 0 a w = M.optOf 0 a' w) ∧ (∀ a w, (M.optOf 0 a w).2 = w) ∧
      ∀ any, (runZip M 0 0 any sw w).1 ≠ (runNested M 0 0 .inner .outer w).1 :=
  ⟨fun _ => true, fun _ => false, true, rfl,
    ⟨fun _ w => (.val 0, w), fun _ w => (0, w), fun _ x w => (x, w), fun _ w => (true, w), fun _ w => (some w, w + 1), fun _ _ w => (some w, w), 0⟩, 0,
    fun _ _ _ => rfl, fun _ _ => rfl, fun _ => by simp [runZip, runNested, zipOpt, Part.val]⟩

/-- Nothing else than the two orders is replaced. -/
theorem zip_only {eager uses : Nat → Bool} {b : Nat} {x y : Part} {sw : Bool} (h : Model.zip eager uses b x y = some sw) :
    (x, y) = if sw then (.inner, .outer) else (.outer, .inner) := by
  unfold Model.zip at h
  split at h
  · unfold Model.zipOperands at h
    split at h <;> cases h <;> rfl
  · cases h

/-! ## `map_or_else` for a match -/

/-- The second arm takes what the first one leaves. -/
def Exhaustive (other : Nat → V → Bool) (p1 p2 : Pat) : Prop := ∀ o, p1.fits other o = false → p2.fits other o = true

/-- Bodies don't leave the function. -/
def Body.Stays (M : Sem W V) : Body → Prop
  | .plain k => NoReturn M k
  | _ => True

theorem stays_call {b : Body} (h : b.Stays M) (o : Option V) (w : W) : callClosure (b.run M o w) = b.run M o w := by
  cases b with
  | withVar f => cases o <;> rfl
  | plain k => exact callClosure_same h w
  | call k => rfl

/-- The call of `map_or` or `map_or_else` does what the match does, unless the default is a call of a function without arguments that is called
eager, or the first arm is `_`; see `omitted_wrong` and `wild_wrong`. Bodies which can be moved into closures don't leave the function. -/
theorem match_partial {eager eagerCall : Nat → Bool} {isResult lazy : Bool} {p1 p2 : Pat} {b1 b2 b : Body} {arg : Arg}
    (h : Model.optionMatch eager eagerCall isResult p1 p2 b1 b2 = some (lazy, arg, b)) (other : Nat → V → Bool)
    (hw : p1 ≠ .wild) (hc : isResult = false → ∀ k, b1 = .call k ∨ b2 = .call k → eagerCall k = false)
    (he : ∀ k, eager k = true → Harmless M k) (hf : ∀ k, eagerCall k = true → ∀ w, (M.fn0 k w).2 = w) (h1 : b1.Stays M) (h2 : b2.Stays M)
    (r : Nat) (w : W) : runMapOrElse M r lazy arg b w = some (runMatch M other r p1 b1 b2 w) := by
  have key : ∀ s n : Body, s.Stays M → n.Stays M → (isResult = false → ∀ k, n = .call k → eagerCall k = false) →
      Model.occurrence eager eagerCall isResult .good s n = some (lazy, arg, b) →
      runMapOrElse M r lazy arg b w =
        some (if (M.opt r w).1.isSome then s.run M (M.opt r w).1 (M.opt r w).2 else n.run M (M.opt r w).1 (M.opt r w).2) := by
    intro s n hs hn hcn ho
    simp only [Model.occurrence, Option.some.injEq, Prod.mk.injEq] at ho
    obtain ⟨rfl, rfl, rfl⟩ := ho
    obtain ⟨o, w0, hr⟩ : ∃ o w0, M.opt r w = (o, w0) := ⟨_, _, rfl⟩
    unfold runMapOrElse
    simp only [hr]
    cases n with
    | withVar f =>
      simp only [Model.bodyEager, Model.noneArg, Bool.not_false, if_true]
      cases o <;> simp [stays_call hs] <;> simp [Body.run, callClosure]
    | plain k =>
      simp only [Model.bodyEager, Model.noneArg]
      rcases Bool.eq_false_or_eq_true (eager k) with hk | hk <;> simp only [hk]
      · obtain ⟨d, hd⟩ := he k hk w0
        simp only [Bool.not_true, Bool.false_eq_true, if_false]
        have hd2 : Body.run M none w0 (.plain k) = (.val d, w0) := hd
        simp only [hd2, andThen]
        cases o <;> simp [stays_call hs] <;> simp [Body.run, hd]
      · simp only [Bool.not_false, if_true]
        cases o <;> simp [stays_call hs] <;> simp [Body.run, callClosure_same hn]
    | call k =>
      simp only [Model.bodyEager, Model.noneArg]
      cases isResult with
      | false =>
        simp only [hcn rfl k rfl, Bool.not_false, Bool.false_eq_true, if_false]
        cases o <;> simp [stays_call hs] <;> simp [Body.run]
      | true =>
        rcases Bool.eq_false_or_eq_true (eagerCall k) with hk | hk <;> simp only [hk]
        · have hd := hf k hk w0
          simp only [Bool.not_true, Bool.false_eq_true, if_false, if_true]
          cases o <;> simp [andThen, stays_call hs] <;> simp [Body.run, hd]
        · simp only [Bool.not_false, if_true]
          cases o <;> simp [stays_call hs] <;> simp [Body.run, callClosure]
  unfold Model.optionMatch Model.convertMatch at h
  by_cases hp2 : Model.isNoneOrErr p2 = true
  · rw [if_pos hp2] at h
    simp only at h
    cases p1 with
    | good => exact key b1 b2 h1 h2 (fun hr k hk => hc hr k (.inr hk)) h
    | bad => simp [Model.occurrence] at h
    | wild => simp [Model.occurrence] at h
    | other k => simp [Model.occurrence] at h
  · rw [if_neg hp2] at h
    by_cases hp1 : Model.isNoneOrErr p1 = true
    · rw [if_pos hp1] at h
      simp only at h
      cases p2 with
      | good =>
        cases p1 with
        | bad =>
          rw [key b2 b1 h2 h1 (fun hr k hk => hc hr k (.inl hk)) h]
          unfold runMatch
          cases (M.opt r w).1 <;> simp [Pat.fits]
        | wild => exact absurd rfl hw
        | good => simp [Model.isNoneOrErr] at hp1
        | other k => simp [Model.isNoneOrErr] at hp1
      | bad => simp [Model.occurrence] at h
      | wild => simp [Model.occurrence] at h
      | other k => simp [Model.occurrence] at h
    · rw [if_neg hp1] at h
      cases h

/-- `if let Some(x) = o { f(x) } else { u32::max_value() }` gets `o.map_or(u32::max_value, ..)`, the function instead of its value. -/
theorem omitted_wrong {eager eagerCall : Nat → Bool} {k : Nat} (he : eagerCall k = true) (f r : Nat) (w : W) :
    ∃ lazy arg b, Model.optionMatch eager eagerCall false .good .wild (.withVar f) (.call k) = some (lazy, arg, b) ∧
      runMapOrElse M r lazy arg b w = none :=
  ⟨false, .fn k, .withVar f, by simp [Model.optionMatch, Model.convertMatch, Model.isNoneOrErr, Model.occurrence, Model.bodyEager, Model.noneArg, he],
    rfl⟩

/-- An unreachable second arm gets reachable: `match o { _ => 0, Some(x) => x }` and `o.map_or(0, |x| x)`. -/
theorem wild_wrong : ∃ lazy arg b, Model.optionMatch (fun _ => true) (fun _ => true) false .wild .good (.plain 0) (.withVar 0) = some (lazy, arg, b) ∧
    ∃ (M : Sem Unit Nat), ∀ other, runMapOrElse M 0 lazy arg b () ≠ some (runMatch M other 0 .wild (.plain 0) (.withVar 0) ()) :=
  ⟨false, .value (.plain 0), .withVar 0, rfl,
    ⟨fun _ _ => (.val 0, ()), fun _ _ => (0, ()), fun _ x _ => (x, ()), fun _ _ => (true, ()), fun _ _ => (some 7, ()), fun _ _ _ => (none, ()), 0⟩,
    fun _ => by simp [runMapOrElse, runMatch, Body.run, Pat.fits, andThen, callClosure]⟩

example : Model.optionMatch (fun _ => false) (fun _ => false) true .bad .good (.plain 1) (.withVar 0) = some (true, .closure (.plain 1), .withVar 0) ∧
    Exhaustive (V := Nat) (fun _ _ => false) .bad .good := by
  refine ⟨by decide, fun o ho => ?_⟩
  cases o <;> simp_all [Pat.fits]

example : Model.obfuscated (fun _ => true) (.closure 0) (.or 1) = some (.code 0, .code 1, true) := by decide

example : Model.mapUnwrapOr true true false false (Dflt.code (V := Nat) 3) = some (.mapOr (.code 3)) := by decide

example : Model.zip (fun _ => true) (fun _ => false) 0 .outer .inner = some false := by decide

end Verif.Chains
