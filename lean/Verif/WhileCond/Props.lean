import Verif.WhileCond.Lemmas

/-!
# C104: conditions that do not change
-/

namespace Verif.WhileCond

theorem check_cases {l : Loop} {note : Bool} (h : check l = some note) :
    note = leaves l.body ∧ ∃ f, collect l.cond = some f ∧ Fits f.ids f (mutated l.cond) ∧
      ∀ x ∈ f.ids, x ∉ mutated l.body := by
  have mv : ∀ {e : Expr} {m : List Name}, mutatedVariables l.upvars e = some m → m = mutated e := by
    intro e m g
    unfold mutatedVariables at g
    split at g
    · cases g
    · cases g; rfl
  unfold check at h
  split at h
  · cases h
  · split at h
    · next f mb mc c1 c2 c3 =>
      split at h
      · next g =>
        cases h
        cases mv c2
        cases mv c3
        simp only [Bool.and_eq_true, disjoint, List.all_eq_true, Bool.not_eq_true', List.any_eq_false, id,
          List.contains_eq_mem, decide_eq_false_iff_not] at g
        exact ⟨rfl, f, c1, ⟨fun _ h => h, fun b i => by simpa using g.2 b i, g.1.2⟩, g.1.1⟩
      · cases h
    · cases h

/-- If a loop is reported, the condition has no effects, and its value is the same before every round. -/
theorem same_condition_partial {w : World} {n : Nat} {l : Loop} {note : Bool} (h : check l = some note)
    (hd : direct l.cond = true) (hc : staticsOk w l.cond = true) (hb : staticsOk w l.body = true)
    {σ τ υ : St} {o r : Out} (e : eval w n l.cond σ = some (o, τ)) (b : eval w n l.body τ = some (r, υ)) :
    τ = σ ∧ eval w n l.cond υ = some (o, υ) := by
  obtain ⟨_, f, c, t, m⟩ := check_cases h
  have p := pure_cond (n := n) l.cond c t hd hc
  obtain ⟨rfl, _⟩ := p (σ' := σ) ⟨fun _ _ => rfl, fun _ _ => rfl⟩ e
  refine ⟨rfl, (p ⟨fun x i => ?_, fun s i => ?_⟩ e).2⟩
  · exact (keeps l.body hb (m x i) b).1
  · have hx : ∃ x : Name, x ∉ mutated l.body := by
      refine ⟨(mutated l.body).sum + 1, fun i => ?_⟩
      have := List.le_sum_of_mem_nat i
      omega
    obtain ⟨x, hx⟩ := hx
    exact (keeps l.body hb hx b).2 s i
where
  List.le_sum_of_mem_nat {l : List Nat} {x : Nat} (h : x ∈ l) : x ≤ l.sum := by
    induction l with
    | nil => cases h
    | cons a t ih =>
      simp only [List.sum_cons]
      rcases List.mem_cons.mp h with e | e
      · omega
      · have := ih e; omega

theorem rounds {w : World} {n : Nat} {l : Loop} {note : Bool} (h : check l = some note)
    (hd : direct l.cond = true) (hc : staticsOk w l.cond = true) (hb : staticsOk w l.body = true) :
    (m : Nat) → {σ : St} → eval w n l.cond σ = some (.val (.bool true), σ) →
    iter (eval w n (.ite l.cond l.body (.brk 0))) m σ = iter (eval w n l.body) m σ
  | 0, _, _ => rfl
  | m + 1, σ, e => by
    have s : eval w n (.ite l.cond l.body (.brk 0)) σ = eval w n l.body σ := by
      simp only [eval]
      rw [andThen_val e]
      rfl
    unfold iter
    rw [s]
    cases b : eval w n l.body σ with
    | none => rfl
    | some r =>
      obtain ⟨r, υ⟩ := r
      have next := (same_condition_partial h hd hc hb e b).2
      cases r with
      | val v => exact rounds h hd hc hb m next
      | ret v => rfl
      | brk k => cases k <;> rfl
      | cont k => cases k with
        | zero => exact rounds h hd hc hb m next
        | succ k => rfl

/-- As the lint suggests, a loop that is reported can be written as `if cond { loop { … } }`: it does not run at
all, or the condition never ends it.

Missing: conditions that follow pointers or use operators of traits, which the lint does not treat as calls; see
`pointer_changed` and `operator_changed`.  (The hypotheses about static variables hold for code that compiles.) -/
theorem if_loop_partial {w : World} {n : Nat} {l : Loop} {note : Bool} (h : check l = some note)
    (hd : direct l.cond = true) (hc : staticsOk w l.cond = true) (hb : staticsOk w l.body = true)
    {σ τ : St} {b : Bool} (e : eval w n l.cond σ = some (.val (.bool b), τ)) (hn : 0 < n) :
    eval w n l.asWhile σ = eval w n l.asLoop σ := by
  obtain ⟨_, f, c, t, m⟩ := check_cases h
  obtain ⟨rfl, _⟩ := pure_cond (n := n) l.cond c t hd hc (σ' := σ) ⟨fun _ _ => rfl, fun _ _ => rfl⟩ e
  cases b with
  | true =>
    have r := rounds h hd hc hb n e
    simp only [Loop.asWhile, Loop.asLoop, eval] at r ⊢
    rw [andThen_val e]
    exact r
  | false =>
    obtain ⟨k, rfl⟩ : ∃ k, n = k + 1 := ⟨n - 1, by omega⟩
    have s : eval w (k + 1) (.ite l.cond l.body (.brk 0)) τ = some (.brk 0, τ) := by
      simp only [eval]
      rw [andThen_val e]
      rfl
    have lhs : eval w (k + 1) l.asWhile τ = some (.val .unit, τ) := by
      show iter (eval w (k + 1) (.ite l.cond l.body (.brk 0))) (k + 1) τ = _
      unfold iter
      rw [s]
    rw [lhs]
    simp only [Loop.asLoop, eval]
    rw [andThen_val e]
    rfl

theorem never {f : St → Res} (hf : ∀ {σ o τ}, f σ = some (o, τ) → Inside 0 o) :
    (n : Nat) → {σ : St} → iter f n σ = none
  | 0, _ => rfl
  | n + 1, σ => by
    unfold iter
    split
    · exact never hf n
    · exact never hf n
    · next e => exact absurd (hf e) (Nat.not_succ_le_zero _)
    · next e => exact (hf e).elim
    · next e => exact (hf e).elim
    · next e => exact (hf e).elim
    · rfl

/-- If a loop is reported without the note about `break` and `return`, and it is entered, then it does not end,
whatever the number of rounds, except by a panic.

Missing: as before, and bodies that continue an outer loop, which the note forgets; see `outer_continued`. -/
theorem never_ends_partial {w : World} {n : Nat} {l : Loop} (h : check l = some false)
    (hd : direct l.cond = true) (hc : staticsOk w l.cond = true) (hb : staticsOk w l.body = true)
    (hs : staysIn 0 l.body = true) {σ : St} (e : l.Enters w n σ) : eval w n l.asWhile σ = none := by
  obtain ⟨τ, e⟩ := e
  obtain ⟨hl, f, c, t, m⟩ := check_cases h
  obtain ⟨rfl, _⟩ := pure_cond (n := n) l.cond c t hd hc (σ' := σ) ⟨fun _ _ => rfl, fun _ _ => rfl⟩ e
  have r := rounds h hd hc hb n e
  show iter (eval w n (.ite l.cond l.body (.brk 0))) n τ = none
  rw [r]
  exact never (inside l.body hl.symm hs) n

theorem fixed_const {e : Expr} (h : Fixed e) : isConst e = true := by
  induction h with
  | lit v => rfl
  | op _ _ ha hb => simp only [isConst, ha, hb, Bool.and_self]

/-- Loops such as `while true` are not reported. -/
theorem fixed_silent {l : Loop} (h : Fixed l.cond) : check l = none := by
  unfold check
  rw [if_pos (fixed_const h)]

example (b : Expr) : check { cond := .op 0 (.lit (.num 1)) (.lit (.num 2)), body := b, upvars := [] } = none :=
  fixed_silent (.op (.lit _) (.lit _))

/-! ### Examples -/

/-- Operators: 0 is `<`, 1 is `+`; function 0 increments what a pointer points to, and 1 compares it with a
number. -/
def world : World where
  op f a b := match f, a, b with
    | 0, .num a, .num b => some (.bool (a < b))
    | 1, .num a, .num b => some (.num (a + b))
    | _, _, _ => none
  call f vs σ := match f, vs with
    | 0, [.ptr a] =>
      match σ.heap a with
      | .num k => some (.unit, { σ with heap := fun b => if b = a then .num (k + 1) else σ.heap b })
      | _ => none
    | 1, [.ptr a, .num m] =>
      match σ.heap a with
      | .num k => some (.bool (k < m), σ)
      | _ => none
    | _, _ => none
  callMut f v σ := match v with
    | .num k => some (.unit, .num (k + f), σ)
    | _ => none
  isMut s := s == 0
  call_env := by
    intro f vs σ v τ h
    split at h
    · split at h <;> cases h; rfl
    · split at h <;> cases h; rfl
    · cases h
  call_stat := by
    intro f vs σ v τ s h _
    split at h
    · split at h <;> cases h; rfl
    · split at h <;> cases h; rfl
    · cases h
  callMut_env := by
    intro f u σ v v' τ h
    split at h <;> cases h; rfl
  callMut_stat := by
    intro f u σ v v' τ s h _
    split at h <;> cases h; rfl

/-- Variable 0 is 0, variable 1 is 5, variables 2 and 3 point to a zero. -/
def start : St where
  env x := if x = 0 then .num 0 else if x = 1 then .num 5 else if x = 2 ∨ x = 3 then .ptr 7 else .bool true
  stat _ := .num 0
  heap _ := .num 0
  log := []

/-- How it ends, and the value on the heap. -/
def outcome (r : Res) : Option (Out × Val) := r.map fun (o, τ) => (o, τ.heap 7)

/-- `while x < y { step(&mut z) }` -/
def sample : Loop := { cond := .op 0 (.var 0) (.var 1), body := .callMut 1 9, upvars := [] }

example : check sample = some false ∧ direct sample.cond = true ∧ staticsOk world sample.cond = true ∧
    staticsOk world sample.body = true ∧ staysIn 0 sample.body = true := by
  decide +kernel

example : sample.Enters world 3 start := ⟨_, rfl⟩

/-- The hypotheses hold. -/
example (n : Nat) : eval world n sample.asWhile start = none :=
  never_ends_partial (by decide +kernel) (by decide +kernel) (by decide +kernel) (by decide +kernel)
    (by decide +kernel) ⟨_, rfl⟩

/-- `while x < y { z = 1; break }` -/
def sampleBreak : Loop := { sample with body := .seq (.set 9 (.lit (.num 1))) (.brk 0) }

example : check sampleBreak = some true ∧
    outcome (eval world 3 sampleBreak.asWhile start) = some (.val .unit, .num 0) := by
  decide +kernel

example : eval world 3 sampleBreak.asWhile start = eval world 3 sampleBreak.asLoop start :=
  if_loop_partial (b := true) (τ := start) (note := true) (by decide +kernel) (by decide +kernel)
    (by decide +kernel) (by decide +kernel) rfl (by decide)

/-- Silent: `while x < y { x = x + 1 }`, the same with `&mut x`, `while f(x) { }`, `while true { }`, and a
mutable static variable in the condition. -/
example : check { sample with body := .set 0 (.op 1 (.var 0) (.lit (.num 1))) } = none ∧
    check { sample with body := .callMut 1 0 } = none ∧ check { sample with cond := .call 0 (.var 0) } = none ∧
    check { sample with cond := .lit (.bool true) } = none ∧
    check { sample with cond := .op 0 (.stat true 0) (.var 1) } = none := by
  decide +kernel

/-- `while *p < 2 { step(p) }` with a raw pointer. -/
def samplePointer : Loop :=
  { cond := .op 0 (.deref (.var 2)) (.lit (.num 2)), body := .call 0 (.var 2), upvars := [] }

/-- The loop is reported, without a note, but it ends. -/
theorem pointer_changed : check samplePointer = some false ∧
    outcome (eval world 9 samplePointer.asWhile start) = some (.val .unit, .num 2) := by
  decide +kernel

/-- `while *p < 2 { *q = *q + 1 }` with raw pointers to the same place. -/
def sampleAlias : Loop :=
  { samplePointer with body := .setDeref (.var 3) (.op 1 (.deref (.var 3)) (.lit (.num 1))) }

theorem alias_changed : check sampleAlias = some false ∧
    outcome (eval world 9 sampleAlias.asWhile start) = some (.val .unit, .num 2) := by
  decide +kernel

/-- `while c < 2 { step(c) }`, where `<` is implemented for the type of `c` (a shared counter). -/
def sampleOperator : Loop :=
  { cond := .overOp 1 (.var 2) (.lit (.num 2)), body := .call 0 (.var 2), upvars := [] }

/-- The operator is not taken for a call. -/
theorem operator_changed : check sampleOperator = some false ∧
    outcome (eval world 9 sampleOperator.asWhile start) = some (.val .unit, .num 2) := by
  decide +kernel

/-- `'a: loop { while x < y { continue 'a } }` -/
def sampleContinue : Loop := { sample with body := .cont 1 }

/-- The loop is left after the first round, but there is no note. -/
theorem outer_continued : check sampleContinue = some false ∧
    outcome (eval world 9 sampleContinue.asWhile start) = some (.cont 0, .num 0) := by
  decide +kernel

end Verif.WhileCond
