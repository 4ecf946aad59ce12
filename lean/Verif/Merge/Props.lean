import Verif.Merge.Model

/-!
# C129: a `filter` and a `map` are merged without a change of the items
-/

namespace Verif.Merge

/-! ## Steps -/

/-- Adaptors that do the same to every item do the same to all items, whatever the consumer does. -/
theorem run_same (I : Sem) {f g : V → I.W → Step × I.W} (l : List V) (h : ∀ x ∈ l, ∀ w, f x w = g x w) (w : I.W) :
    run I f l w = run I g l w := by
  induction l generalizing w with
  | nil => rfl
  | cons x l ih =>
    have ih' := ih (fun y hy => h y (List.mem_cons_of_mem _ hy))
    simp only [run, h x (List.mem_cons_self ..), ih']

/-! ## `flatten` -/

/-- Functions of the standard library, or closures that call its methods. -/
def Std : Fun → Prop
  | .path own _ _ => own = true
  | .made _ _ => False
  | .closure _ _ => True

def IsOption (v : V) : Prop := v = .none' ∨ ∃ a, v = .some' a
def IsResult (v : V) : Prop := (∃ a, v = .ok a) ∨ ∃ a, v = .err a

theorem bodyIs_eq {n : Nm} {e : E} (h : bodyIs n e = true) :
    (n = .isSome ∧ e = .isSome .var) ∨ (n = .isOk ∧ e = .isOk .var) ∨ (n = .unwrap ∧ e = .unwrap .var) := by
  unfold bodyIs at h
  split at h
  · exact .inl ⟨by simpa using h, rfl⟩
  · exact .inr (.inl ⟨by simpa using h, rfl⟩)
  · exact .inr (.inr ⟨by simpa using h, rfl⟩)
  · cases h

theorem unwrap_call {I : Sem} {f : Fun} (h : isMethod f .unwrap = true) (hs : Std f) : call I f = unwrapV I := by
  cases f with
  | path own k n =>
    cases hs
    simp only [isMethod, beq_iff_eq] at h
    subst h
    rfl
  | made k n => exact hs.elim
  | closure r e =>
    simp only [isMethod, Bool.and_eq_true] at h
    rcases bodyIs_eq h.2 with ⟨h1, _⟩ | ⟨h1, _⟩ | ⟨_, rfl⟩
    · cases h1
    · cases h1
    · rfl

theorem isSome_call {I : Sem} {f : Fun} (h : isMethod f .isSome = true) (hs : Std f) : call I f = isSomeV I := by
  cases f with
  | path own k n =>
    cases hs
    simp only [isMethod, beq_iff_eq] at h
    subst h
    rfl
  | made k n => exact hs.elim
  | closure r e =>
    simp only [isMethod, Bool.and_eq_true] at h
    rcases bodyIs_eq h.2 with ⟨_, rfl⟩ | ⟨h1, _⟩ | ⟨h1, _⟩
    · rfl
    · cases h1
    · cases h1

theorem isOk_call {I : Sem} {f : Fun} (h : isMethod f .isOk = true) (hs : Std f) : call I f = isOkV I := by
  cases f with
  | path own k n =>
    cases hs
    simp only [isMethod, beq_iff_eq] at h
    subst h
    rfl
  | made k n => exact hs.elim
  | closure r e =>
    simp only [isMethod, Bool.and_eq_true] at h
    rcases bodyIs_eq h.2 with ⟨h1, _⟩ | ⟨_, rfl⟩ | ⟨h1, _⟩
    · cases h1
    · rfl
    · cases h1

/-- **C129 (partial).** Where `flatten()` is suggested it gives the same items, if they are all options, or all
results, and the functions are those of the standard library. Missing: other functions and types with such
names — see `name_only`, `type_only`. -/
theorem flatten_partial (I : Sem) {p q : Fun} (h : check p q = .flatten) (hp : Std p) (hq : Std q) (l : List V)
    (ht : (isMethod p .isSome = true ∧ ∀ x ∈ l, IsOption x) ∨ (isMethod p .isOk = true ∧ ∀ x ∈ l, IsResult x)) (w : I.W) :
    run I (two I (call I p) (call I q)) l w = run I (flat I) l w := by
  have hf : flattens p q = true := by
    unfold check at h
    by_cases hc : flattens p q = true
    · exact hc
    · rw [if_neg hc] at h
      split at h <;> cases h
  have hu : isMethod q .unwrap = true := by
    simp only [flattens, Bool.or_eq_true, Bool.and_eq_true] at hf
    rcases hf with h | h <;> exact h.1
  apply run_same
  intro x hx w
  rw [unwrap_call hu hq]
  rcases ht with ⟨h1, ht⟩ | ⟨h1, ht⟩
  · rw [isSome_call h1 hp]
    rcases ht x hx with rfl | ⟨a, rfl⟩ <;> rfl
  · rw [isOk_call h1 hp]
    rcases ht x hx with ⟨a, rfl⟩ | ⟨a, rfl⟩ <;> rfl

/-- `.filter(Option::is_some).map(|x| x.unwrap())` -/
example : check (.path true 0 .isSome) (.closure false (.unwrap .var)) = .flatten ∧
    Std (.path true 0 .isSome) ∧ Std (.closure false (.unwrap .var)) := ⟨by decide, rfl, trivial⟩

/-! ## `filter_map` and `find_map` -/

theorem andThen_none {W : Type} (f : V → W → Option V × W) (w : W) : andThen (none, w) f = (none, w) := rfl
theorem andThen_some {W : Type} (f : V → W → Option V × W) (v : V) (w : W) : andThen (some v, w) f = f v w := rfl

/-- Expressions that count as the same have the same value and effects. -/
theorem same_eval (I : Sem) {r : Bool} : ∀ {a b : E}, same r a b = true → ∀ x y w, eval I a x y w = eval I b x y w := by
  intro a b h
  fun_induction same r a b
  case case1 => intros; rfl
  case case2 => intros; rfl
  case case3 => intros; rfl
  case case4 =>
    simp only [beq_iff_eq] at h
    subst h
    intros; rfl
  case case5 ih =>
    intro x y w
    simp only [eval, ih h]
  case case6 ih =>
    simp only [Bool.and_eq_true, beq_iff_eq] at h
    intro x y w
    simp only [eval, ih h.2, h.1]
  case case7 ih =>
    simp only [Bool.and_eq_true, beq_iff_eq] at h
    intro x y w
    simp only [eval, ih h.2, h.1]
  case case8 ih =>
    simp only [Bool.and_eq_true, beq_iff_eq] at h
    intro x y w
    simp only [eval, ih h.2, h.1]
  case case9 => cases h

/-- Expressions without side effects leave the world alone and have a value. -/
theorem effects_none (I : Sem) {a : E} (h : effects a = false) : ∀ x y w, ∃ v, eval I a x y w = (some v, w) := by
  induction a with
  | var => intro x y w; exact ⟨_, rfl⟩
  | bound => intro x y w; exact ⟨_, rfl⟩
  | const k => intro x y w; exact ⟨_, rfl⟩
  | deref a ih => exact ih h
  | field k a ih =>
    intro x y w
    obtain ⟨v, hv⟩ := ih h x y w
    exact ⟨I.field k v, by simp only [eval, hv, andThen_some]⟩
  | _ => cases h

/-- The argument of `expect` or `unwrap_or` has a value and no effects. -/
def QuietArg (I : Sem) : E → Prop
  | .expect _ d => ∀ x y w, ∃ v, eval I d x y w = (some v, w)
  | .unwrapOr _ d => ∀ x y w, ∃ v, eval I d x y w = (some v, w)
  | _ => True

/-- Unwrapping what is there. -/
theorem unwrapped_eval (I : Sem) {q a : E} (h : unwrapped q = some a) (hq : QuietArg I q) {x y : V} {w w' : I.W} {v : V}
    (hv : eval I a x y w = (some (.some' v), w') ∨ eval I a x y w = (some (.ok v), w')) :
    eval I q x y w = (some v, w') := by
  unfold unwrapped at h
  split at h
  · cases h
    rcases hv with hv | hv <;> simp only [eval, hv, andThen_some, unwrapV]
  · cases h
    obtain ⟨u, hu⟩ := hq x y w'
    rcases hv with hv | hv <;> simp only [eval, hv, andThen_some, hu, unwrapV]
  · cases h
    obtain ⟨u, hu⟩ := hq x y w'
    rcases hv with hv | hv <;> simp only [eval, hv, andThen_some, hu, unwrapOrV]
  · cases h

theorem unwrapped_panic (I : Sem) {q a : E} (h : unwrapped q = some a) {x y : V} {w w' : I.W}
    (hv : eval I a x y w = (none, w')) : eval I q x y w = (none, w') := by
  unfold unwrapped at h
  split at h <;> cases h <;> simp only [eval, hv, andThen_none]

/-- The cases of the report, for methods. -/
theorem found_method {isRef : Bool} {p q body : E} {m : Bool}
    (h : check (.closure isRef p) (.closure false q) = .filterMap body m) :
    (∃ recv a, p = .isSome recv ∧ unwrapped q = some a ∧ same isRef recv (peelKeep a) = true ∧ body = a ∧ m = !effects recv) ∨
    (∃ recv a, p = .isOk recv ∧ unwrapped q = some a ∧ same isRef recv (peelKeep a) = true ∧ body = .okOf a ∧ m = !effects recv) ∨
    (∃ k s g pt g', p = .sel .var (.con k s) g .yes .no ∧ q = .sel .var pt g' .bound .panic ∧ usesLocal k pt = true ∧
      body = .sel .var pt .yes (.mkSome .bound) .mkNone ∧ m = true) := by
  unfold check at h
  by_cases hc : flattens (.closure isRef p) (.closure false q) = true
  · rw [if_pos hc] at h
    cases h
  rw [if_neg hc] at h
  cases hf : findOrFilter (.closure isRef p) (.closure false q) with
  | none => rw [hf] at h; cases h
  | some f =>
    rw [hf] at h
    simp only [Report.filterMap.injEq] at h
    obtain ⟨rfl, rfl⟩ := h
    simp only [findOrFilter] at hf
    obtain ⟨o, ho, hm⟩ := Option.bind_eq_some_iff.1 hf
    unfold offending at ho
    split at ho
    · cases ho
      left
      simp only [checkMap] at hm
      unfold methodFound at hm
      split at hm
      · rename_i a ha
        split at hm
        · cases hm
          exact ⟨_, a, rfl, ha, by assumption, rfl, rfl⟩
        · cases hm
      · cases hm
    · cases ho
      right; left
      simp only [checkMap] at hm
      unfold methodFound at hm
      split at hm
      · rename_i a ha
        split at hm
        · cases hm
          exact ⟨_, a, rfl, ha, by assumption, rfl, rfl⟩
        · cases hm
      · cases hm
    · cases ho
      right; right
      simp only [checkMap] at hm
      unfold patternFound at hm
      split at hm
      · split at hm
        · cases hm
          exact ⟨_, _, _, _, _, rfl, rfl, by assumption, rfl, rfl⟩
        · cases hm
      · cases hm
    · cases ho

/-- **C129 (partial).** `filter(|x| r.is_some()).map(|x| r.unwrap())` and `filter_map(|x| r)` are the same — the same items,
effects and panics, whatever the consumer does — if the suggestion is machine-applicable (so `r` has no effects), `r` is an
option and the argument of `expect` or `unwrap_or` has no effects. Missing: such arguments, see `default_lost`. -/
theorem some_partial (I : Sem) {isRef : Bool} {recv q body : E}
    (h : check (.closure isRef (.isSome recv)) (.closure false q) = .filterMap body true) (hq : QuietArg I q)
    (l : List V) (ht : ∀ x ∈ l, ∀ w v, (eval I recv x (.prim 0) w).1 = some v → IsOption v) (w : I.W) :
    run I (two I (call I (.closure isRef (.isSome recv))) (call I (.closure false q))) l w =
      run I (one I (call I (.closure false body))) l w := by
  apply run_same
  intro x hx w
  rcases found_method h with ⟨r, a, hr, hu, hs, rfl, hm⟩ | ⟨r, a, hr, _⟩ | ⟨k, s, g, pt, g', hr, _⟩
  · cases hr
    have he : effects recv = false := by simpa using hm.symm
    obtain ⟨v, hv⟩ := effects_none I he x (.prim 0) w
    have hpk := same_eval I hs x (.prim 0) w
    rw [hv] at hpk
    simp only [two, one, call, eval, hv, andThen_some]
    rcases ht x hx w v (by rw [hv]) with rfl | ⟨b, rfl⟩
    · have ha : eval I body x (.prim 0) w = (some .none', w) := by
        unfold peelKeep at hpk
        split at hpk
        · simp only [eval, ← hpk, andThen_some, keepV]
        · exact hpk.symm
      simp only [isSomeV, ha]
    · simp only [isSomeV]
      have ha : (∃ c w', eval I body x (.prim 0) w = (some (.some' c), w')) ∨ ∃ w', eval I body x (.prim 0) w = (none, w') := by
        unfold peelKeep at hpk
        split at hpk
        · rename_i k a'
          simp only [eval, ← hpk, andThen_some, keepV]
          rcases hk : I.keep k b w with ⟨_ | c, w'⟩
          · exact .inr ⟨w', rfl⟩
          · exact .inl ⟨c, w', rfl⟩
        · exact .inl ⟨b, w, hpk.symm⟩
      rcases ha with ⟨c, w', ha⟩ | ⟨w', ha⟩
      · rw [unwrapped_eval I hu hq (.inl ha)]
        simp only [ha]
      · rw [unwrapped_panic I hu ha]
        simp only [ha]
  · cases hr
  · cases hr

/-- **C129 (partial).** The same for results: `filter(|x| r.is_ok()).map(|x| r.unwrap())` and `filter_map(|x| r.ok())`. Missing: a result that is
cloned, see `error_cloned`. -/
theorem ok_partial (I : Sem) {isRef : Bool} {recv q body : E}
    (h : check (.closure isRef (.isOk recv)) (.closure false q) = .filterMap body true) (hq : QuietArg I q)
    (hk : ∀ k a, unwrapped q ≠ some (.keep k a))
    (l : List V) (ht : ∀ x ∈ l, ∀ w v, (eval I recv x (.prim 0) w).1 = some v → IsResult v) (w : I.W) :
    run I (two I (call I (.closure isRef (.isOk recv))) (call I (.closure false q))) l w =
      run I (one I (call I (.closure false body))) l w := by
  apply run_same
  intro x hx w
  rcases found_method h with ⟨r, a, hr, _⟩ | ⟨r, a, hr, hu, hs, rfl, hm⟩ | ⟨k, s, g, pt, g', hr, _⟩
  · cases hr
  · cases hr
    have he : effects recv = false := by simpa using hm.symm
    obtain ⟨v, hv⟩ := effects_none I he x (.prim 0) w
    have hpk := same_eval I hs x (.prim 0) w
    rw [hv] at hpk
    have ha : eval I a x (.prim 0) w = (some v, w) := by
      unfold peelKeep at hpk
      split at hpk
      · exact absurd hu (hk _ _)
      · exact hpk.symm
    simp only [two, one, call, eval, hv, ha, andThen_some]
    rcases ht x hx w v (by rw [hv]) with ⟨b, rfl⟩ | ⟨b, rfl⟩
    · simp only [isOkV, okV]
      rw [unwrapped_eval I hu hq (.inr ha)]
    · simp only [isOkV, okV]
  · cases hr

/-- A suggestion for an expression that may have effects is marked as possibly incorrect. -/
theorem effects_marked {isRef m : Bool} {recv q body : E}
    (h : check (.closure isRef (.isSome recv)) (.closure false q) = .filterMap body m ∨
      check (.closure isRef (.isOk recv)) (.closure false q) = .filterMap body m) : m = !effects recv := by
  rcases h with h | h <;>
    rcases found_method h with ⟨r, a, hr, _, _, _, hm⟩ | ⟨r, a, hr, _, _, _, hm⟩ | ⟨k, s, g, pt, g', hr, _⟩ <;>
    cases hr <;> exact hm

/-- Any call inside makes an effect possible. -/
theorem calls_marked (k : Nat) (a : E) (f : Nat) : effects (.opq k a) = true ∧ effects (.field f (.opq k a)) = true ∧
    effects (.deref (.opq k a)) = true := ⟨rfl, rfl, rfl⟩

/-- Paths and calls on the parameter. -/
def Simple : E → Prop
  | .var => True
  | .const _ => True
  | .deref a => Simple a
  | .field _ a => Simple a
  | .opq _ a => Simple a
  | _ => False

theorem same_self (r : Bool) {a : E} (h : Simple a) : same r a a = true := by
  induction a with
  | var => rfl
  | const k => simp [same]
  | deref a ih =>
    have := ih h
    cases a <;> first | exact this | exact h.elim
  | field k a ih => simpa [same] using ih h
  | opq k a ih => simpa [same] using ih h
  | _ => exact h.elim

/-- Repeated expressions are found, with all three methods, and with a `clone()` or the like in between. -/
theorem merged_found (r : Bool) (k : Nat) {a d : E} (h : Simple a) (hv : a ≠ .var) :
    check (.closure r (.isSome a)) (.closure false (.unwrap a)) = .filterMap a (!effects a) ∧
    check (.closure r (.isSome a)) (.closure false (.expect a d)) = .filterMap a (!effects a) ∧
    check (.closure r (.isOk a)) (.closure false (.unwrapOr a d)) = .filterMap (.okOf a) (!effects a) ∧
    check (.closure r (.isSome a)) (.closure false (.unwrap (.keep k a))) = .filterMap (.keep k a) (!effects a) := by
  have hs := same_self r h
  have hp : peelKeep a = a := by
    cases a <;> first | rfl | exact h.elim
  have hk : peelKeep (.keep k a) = a := rfl
  have h1 : ∀ n, bodyIs n (.isSome a) = false ∧ bodyIs n (.isOk a) = false := by
    intro n
    cases a <;> first | exact absurd rfl hv | exact ⟨rfl, rfl⟩
  simp [check, flattens, isMethod, findOrFilter, offending, checkMap, methodFound, unwrapped, hp, hk, hs, sugg,
    (h1 _).1, (h1 _).2]

/-- `*x` in the filter and `x` in the map. -/
example : Simple (.opq 1 (.field 2 .var)) := trivial

/-- Patterns that match everything. -/
def P.always : P → Prop
  | .wild => True
  | .bind => True
  | .at' p => p.always
  | _ => False

theorem always_matches {p : P} (h : p.always) (v : V) : p.matches v = true := by
  induction p generalizing v with
  | wild => rfl
  | bind => rfl
  | at' p ih => exact ih h v
  | _ => exact h.elim

/-- **C129 (partial).** `filter(|x| matches!(x, K(_)))` and a `map` that takes the field out are `filter_map` with a match, if the pattern
inside the variant matches everything and there are no guards. Missing: such patterns and guards — see `subpattern_lost`,
`guard_lost`, `map_guard_lost`. -/
theorem pattern_partial (I : Sem) {isRef m : Bool} {k : Nat} {s : P} {pt : P} {body : E}
    (h : check (.closure isRef (.sel .var (.con k s) .yes .yes .no)) (.closure false (.sel .var pt .yes .bound .panic)) =
      .filterMap body m) (hs : s.always) (hpt : ∀ v, pt.matches (.con k v) = true) (l : List V) (w : I.W) :
    run I (two I (call I (.closure isRef (.sel .var (.con k s) .yes .yes .no)))
      (call I (.closure false (.sel .var pt .yes .bound .panic)))) l w = run I (one I (call I (.closure false body))) l w := by
  rcases found_method h with ⟨r, a, hr, _⟩ | ⟨r, a, hr, _⟩ | ⟨k', s', g, pt', g', hr, hq, hu, rfl, _⟩
  · cases hr
  · cases hr
  cases hr
  cases hq
  apply run_same
  intro x _ w
  by_cases hx : ∃ v, x = .con k v
  · obtain ⟨v, rfl⟩ := hx
    simp only [two, one, call, eval, andThen_some, P.matches, beq_self_eq_true, always_matches hs, hpt, Bool.and_true, if_true]
  · have h1 : ∀ r : P, (P.con k r).matches x = false := by
      intro r
      cases x with
      | con k' v =>
        have : k ≠ k' := by
          rintro rfl
          exact hx ⟨v, rfl⟩
        simp [P.matches, this]
      | _ => rfl
    have h2 : pt.matches x = false := by
      unfold usesLocal at hu
      split at hu
      · have := beq_iff_eq.1 hu
        subst this
        exact h1 _
      · have := beq_iff_eq.1 hu
        subst this
        exact h1 _
      · cases hu
    simp [two, one, call, eval, andThen_some, h1, h2]

/-- Taking the field of a variant out is found. -/
theorem pattern_found (r : Bool) (k : Nat) (s : P) :
    check (.closure r (.sel .var (.con k s) .yes .yes .no)) (.closure false (.sel .var (.con k .bind) .yes .bound .panic)) =
      .filterMap (.sel .var (.con k .bind) .yes (.mkSome .bound) .mkNone) true := by
  simp [check, flattens, isMethod, bodyIs, findOrFilter, offending, checkMap, patternFound, usesLocal, sugg]

/-- Mixing up variants is not possible: the variant in `matches!` is the one that the `map` takes apart. -/
theorem variant_kept {isRef m : Bool} {k k' : Nat} {s s' : P} {body g : E}
    (h : check (.closure isRef (.sel .var (.con k s) .yes .yes .no)) (.closure false (.sel .var (.con k' s') g .bound .panic)) =
      .filterMap body m) : k = k' := by
  rcases found_method h with ⟨r, a, hr, _⟩ | ⟨r, a, hr, _⟩ | ⟨k1, s1, g1, pt1, g2, hr, hq, hu, _⟩
  · cases hr
  · cases hr
  cases hr
  cases hq
  unfold usesLocal at hu
  split at hu
  · rename_i heq
    cases heq
    exact (beq_iff_eq.1 hu).symm
  · rename_i heq
    cases heq
    exact (beq_iff_eq.1 hu).symm
  · cases hu

/-! ## Findings -/

/-- A world that is a counter: `opq k` adds to it, `keep` too; `user 0` is a function of the program that tells
whether an option has a value greater than one; items are consumed until the end. -/
def demo : Sem where
  W := Nat
  const := fun k => .prim k
  field := fun _ v => v
  opq := fun _ v w => (some v, w + 1)
  keep := fun _ v w => (some v, w + 1)
  meth := fun n v w => match n with
    | .unwrap => (some v, w)
    | _ => (some (.bool (decide (v = .con 1 (.prim 1)))), w)
  user := fun _ v w => (some (.bool (decide (v = .some' (.prim 2)))), w)
  more := fun _ w => (true, w)
  iter := fun _ => none

/-- What the consumer gets, and the counter. -/
def result (step : V → demo.W → Step × demo.W) (l : List V) : Bool × List V × Nat := run demo step l (0 : Nat)

/-- The hypotheses of the theorems are met: a field of the parameter, through a reference in the filter, copied. -/
example : check (.closure false (.isSome (.field 1 (.deref .var)))) (.closure false (.unwrap (.keep 2 (.field 1 .var)))) =
      .filterMap (.keep 2 (.field 1 .var)) true ∧
    check (.closure true (.isOk .var)) (.closure false (.expect .var (.const 3))) = .filterMap (.okOf .var) true ∧
    check (.closure false (.sel .var (.con 1 .wild) .yes .yes .no)) (.closure false (.sel .var (.con 1 .bind) .yes .bound .panic)) =
      .filterMap (.sel .var (.con 1 .bind) .yes (.mkSome .bound) .mkNone) true ∧
    check (.closure false (.isSome (.opq 1 .var))) (.closure false (.unwrap (.opq 1 .var))) = .filterMap (.opq 1 .var) false := by
  decide

/-- FINDING: a function of the program that is called `is_some` is taken for the method: `.filter(is_some).map(Option::unwrap)`
becomes `flatten()`. -/
theorem name_only : check (.path false 0 .isSome) (.path true 0 .unwrap) = .flatten ∧
    result (two demo (call demo (.path false 0 .isSome)) (call demo (.path true 0 .unwrap)))
      [.some' (.prim 1), .some' (.prim 2)] = (true, [.prim 2], 0) ∧
    result (flat demo) [.some' (.prim 1), .some' (.prim 2)] = (true, [.prim 1, .prim 2], 0) := by
  decide +kernel

/-- FINDING: also methods of other types: `flatten()` iterates over the items of a type of the program. -/
theorem type_only : check (.closure false (.isSome .var)) (.closure false (.unwrap .var)) = .flatten ∧
    result (two demo (call demo (.closure false (.isSome .var))) (call demo (.closure false (.unwrap .var))))
      [.con 1 (.prim 1)] = (true, [.con 1 (.prim 1)], 0) ∧
    result (flat demo) [.con 1 (.prim 1)] = (true, [], 0) := by
  decide +kernel

/-- FINDING: the argument of `unwrap_or` (and of `expect`) is no longer evaluated:
`.filter(|x| x.a.is_some()).map(|x| x.a.unwrap_or(next()))`. -/
theorem default_lost : check (.closure false (.isSome (.field 0 .var))) (.closure false (.unwrapOr (.field 0 .var) (.opq 0 .var))) =
      .filterMap (.field 0 .var) true ∧
    result (two demo (call demo (.closure false (.isSome (.field 0 .var))))
      (call demo (.closure false (.unwrapOr (.field 0 .var) (.opq 0 .var))))) [.some' (.prim 1)] = (true, [.prim 1], 1) ∧
    result (one demo (call demo (.closure false (.field 0 .var)))) [.some' (.prim 1)] = (true, [.prim 1], 0) := by
  decide +kernel

/-- FINDING: errors are cloned that were not cloned before: `.filter(|x| x.is_ok()).map(|x| x.clone().unwrap())` becomes
`.filter_map(|x| x.clone().ok())`. -/
theorem error_cloned : check (.closure false (.isOk .var)) (.closure false (.unwrap (.keep 0 .var))) =
      .filterMap (.okOf (.keep 0 .var)) true ∧
    result (two demo (call demo (.closure false (.isOk .var))) (call demo (.closure false (.unwrap (.keep 0 .var)))))
      [.err (.prim 1)] = (true, [], 0) ∧
    result (one demo (call demo (.closure false (.okOf (.keep 0 .var))))) [.err (.prim 1)] = (true, [], 1) := by
  decide +kernel

/-- FINDING: the pattern inside the variant is lost: `.filter(|x| matches!(x, K(1))).map(|x| if let K(v) = x { v } else
{ unreachable!() })` keeps only ones, the suggestion keeps all numbers. -/
theorem subpattern_lost :
    check (.closure false (.sel .var (.con 1 (.lit 1)) .yes .yes .no)) (.closure false (.sel .var (.con 1 .bind) .yes .bound .panic)) =
      .filterMap (.sel .var (.con 1 .bind) .yes (.mkSome .bound) .mkNone) true ∧
    result (two demo (call demo (.closure false (.sel .var (.con 1 (.lit 1)) .yes .yes .no)))
      (call demo (.closure false (.sel .var (.con 1 .bind) .yes .bound .panic)))) [.con 1 (.prim 1), .con 1 (.prim 2)] =
        (true, [.prim 1], 0) ∧
    result (one demo (call demo (.closure false (.sel .var (.con 1 .bind) .yes (.mkSome .bound) .mkNone))))
      [.con 1 (.prim 1), .con 1 (.prim 2)] = (true, [.prim 1, .prim 2], 0) := by
  decide +kernel

/-- FINDING: the guard is lost too: `matches!(x, K(_) if g)`. -/
theorem guard_lost :
    check (.closure false (.sel .var (.con 1 .wild) .no .yes .no)) (.closure false (.sel .var (.con 1 .bind) .yes .bound .panic)) =
      .filterMap (.sel .var (.con 1 .bind) .yes (.mkSome .bound) .mkNone) true ∧
    result (two demo (call demo (.closure false (.sel .var (.con 1 .wild) .no .yes .no)))
      (call demo (.closure false (.sel .var (.con 1 .bind) .yes .bound .panic)))) [.con 1 (.prim 1)] = (true, [], 0) ∧
    result (one demo (call demo (.closure false (.sel .var (.con 1 .bind) .yes (.mkSome .bound) .mkNone))))
      [.con 1 (.prim 1)] = (true, [.prim 1], 0) := by
  decide +kernel

/-- FINDING: a guard in the `map`, too: `match x { K(v) if g => v, _ => panic!() }` panics where the suggestion gives
the item; and with `K(v @ 1)` the suggestion skips where there was a panic. -/
theorem map_guard_lost :
    check (.closure false (.sel .var (.con 1 .wild) .yes .yes .no)) (.closure false (.sel .var (.con 1 .bind) .no .bound .panic)) =
      .filterMap (.sel .var (.con 1 .bind) .yes (.mkSome .bound) .mkNone) true ∧
    (result (two demo (call demo (.closure false (.sel .var (.con 1 .wild) .yes .yes .no)))
      (call demo (.closure false (.sel .var (.con 1 .bind) .no .bound .panic)))) [.con 1 (.prim 1)]).1 = false ∧
    result (one demo (call demo (.closure false (.sel .var (.con 1 .bind) .yes (.mkSome .bound) .mkNone))))
      [.con 1 (.prim 1)] = (true, [.prim 1], 0) ∧
    check (.closure false (.sel .var (.con 1 .wild) .yes .yes .no)) (.closure false (.sel .var (.con 1 (.at' (.lit 1))) .yes .bound .panic)) =
      .filterMap (.sel .var (.con 1 (.at' (.lit 1))) .yes (.mkSome .bound) .mkNone) true ∧
    (result (two demo (call demo (.closure false (.sel .var (.con 1 .wild) .yes .yes .no)))
      (call demo (.closure false (.sel .var (.con 1 (.at' (.lit 1))) .yes .bound .panic)))) [.con 1 (.prim 2)]).1 = false ∧
    result (one demo (call demo (.closure false (.sel .var (.con 1 (.at' (.lit 1))) .yes (.mkSome .bound) .mkNone))))
      [.con 1 (.prim 2)] = (true, [], 0) := by
  decide +kernel

/-- What is merged but may differ, and is marked: effects happen once instead of twice. -/
theorem effects_once : check (.closure false (.isSome (.opq 0 .var))) (.closure false (.unwrap (.opq 0 .var))) =
      .filterMap (.opq 0 .var) false ∧
    result (two demo (call demo (.closure false (.isSome (.opq 0 .var)))) (call demo (.closure false (.unwrap (.opq 0 .var)))))
      [.some' (.prim 1)] = (true, [.prim 1], 2) ∧
    result (one demo (call demo (.closure false (.opq 0 .var)))) [.some' (.prim 1)] = (true, [.prim 1], 1) := by
  decide +kernel

end Verif.Merge
