import Verif.Strip.Sim

/-!
# C103: `strip_prefix` and `strip_suffix`
-/

namespace Verif.Strip

/-- The value and the calls. -/
def outcome (r : Res) : Option (Val × List Val) := r.map fun (v, τ) => (v, τ.log)

theorem check_cases {c : Test} {nm : Option Name} (h : check c = some nm)
    (hu : ∀ y ∈ freeSets c.body, y ∉ c.upvars) :
    c.target ∉ freeSets c.body ∧
      ∀ x, nm = some x → bindings x c.body = 1 ∧ onlyLet c.kind c.target c.pattern x [] c.body := by
  have hm : mutatedVariables c.upvars c.body = some (freeSets c.body) := by
    unfold mutatedVariables
    rw [mutated_eq, if_neg]
    simp only [List.any_eq_true, not_exists, not_and, List.contains_iff_mem]
    exact hu
  unfold check at h
  rw [hm] at h
  simp only [List.contains_iff_mem] at h
  split at h
  · cases h
  · next n =>
    refine ⟨n, fun x e => ?_⟩
    subst e
    unfold check.named at h
    split at h
    · cases h
    · cases h
    · next y f =>
      split at h
      · next b =>
        cases h
        have b : bindings x c.body = 1 := by simpa using b
        exact ⟨b, (first_bound c.body f).2 b⟩
      · cases h

theorem lets_zero (x : Name) : (e : Expr) → x ∉ lets e → bindings x e = 0 := by
  intro e
  induction e <;> simp_all [lets, bindings]
  next m y a b _ _ => exact fun h _ _ e => h e.symm

/-- The suggested code gives the same value, has the same effects and leaves the variables as they were, if no
variable of an enclosing function is assigned to, the ranges are not inclusive, the variable of the pattern is
not assigned to, and the name of the new variable is not that of an outer variable which is used besides in the
slices that are replaced (by some `z`).

Missing: just these cases; `inclusive`, `pattern_assigned`, `shadowed`, `captured` and `upvar_assigned` below
show that the lint does not test for them.  (The remaining hypotheses hold for all code that compiles: the new
variable is not assigned to, as the declaration has no `mut`, and a placeholder is replaced by a new name.) -/
theorem strip_same_partial {w : World} {c : Test} {nm : Option Name} {ph z : Name} {σ τ : St} {u : Val}
    (h : check c = some nm) (hp : plain c.pattern = true)
    (hu : ∀ y ∈ freeSets c.body, y ∉ c.upvars) (ho : halfOpen c.body = true)
    (hv : ∀ y, c.pattern = .var y → y ∉ freeSets c.body)
    (hf : nm.getD ph ∉ free (edit c.kind c.target c.pattern z none [] c.body))
    (hs : nm.getD ph ∉ sets c.body) (hl : nm = none → ph ∉ lets c.body)
    (r : c.run w σ = some (u, τ)) :
    c.runStrip w (nm.getD ph) (newBody c nm ph) σ = some (u, τ) := by
  obtain ⟨ht, hn⟩ := check_cases h hu
  unfold Test.run at r
  unfold Test.runStrip
  cases hT : σ.env c.target with
  | num n => rw [hT] at r; cases r
  | str s =>
    rw [hT] at r
    cases hP : eval w c.pattern σ with
    | none => rw [hP] at r; cases r
    | some q =>
      obtain ⟨q, σ1⟩ := q
      cases q with
      | num n => rw [hP] at r; cases r
      | str p =>
        obtain ⟨rfl, hpv⟩ := patVal_eval hp hP
        rw [hP] at r
        simp only at r ⊢
        by_cases g : has c.kind s p = true
        · rw [if_pos g] at r
          rw [strip_rest g]
          simp only
          have l : ∀ n, constLen c.pattern = some n → n = p.length := by
            intro n hn
            cases hc : c.pattern <;> rw [hc] at hn hpv <;> simp_all [constLen, patVal]
          have kept : ∀ y ∈ c.target :: mentioned c.pattern, y ∉ freeSets c.body := by
            intro y hy
            rcases List.mem_cons.mp hy with e | e
            · rw [e]; exact ht
            · cases hc : c.pattern <;> rw [hc] at e hp <;> simp [plain, mentioned] at e hp
              subst e
              exact hv _ hc
          have o : Ok c.kind c.target c.pattern (nm.getD ph) z nm false [] c.body := by
            refine ⟨ho, fun y hy _ => kept y hy, .inr hf, ?_, ?_, hs⟩
            · cases nm with
              | none => exact onlyLet_zero _ (lets_zero _ _ (hl rfl))
              | some x => exact (hn x rfl).2
            · cases nm with
              | none => exact .inr ⟨rfl, hl rfl⟩
              | some x => exact .inl rfl
          have := sim (w := w) l (has_le g) c.body o ⟨fun _ => hT, fun _ => hpv⟩ (fun e => nomatch e) r
          simp only [Goal] at this
          unfold newBody
          rw [this]
          simp only [Option.map_some, set_set]
          rw [set_id (keeps c.body (freeSets_sets _ _ hs) r)]
        · rw [if_neg g] at r
          rw [strip_none g]
          exact r

/-- The lint does not fire if the target is assigned to, outside of closures. -/
theorem not_mutated {c : Test} (h : c.target ∈ freeSets c.body) (hu : ∀ y ∈ freeSets c.body, y ∉ c.upvars) :
    check c = none := by
  cases g : check c with
  | none => rfl
  | some nm => exact absurd h (check_cases g hu).1

theorem orElse_none {a b : Option (Option Name)} (h : orElse a b = none) : a = none ∧ b = none := by
  cases a <;> cases b <;> simp_all [orElse]

theorem edit_none {k : Kind} {t : Name} {p : Expr} {z : Name} (e : Expr) : ∀ {sh : List Name},
    first k t p sh e = none → edit k t p z none sh e = e := by
  have nn : ∀ y, ((none : Option Name) == some y) = false := fun _ => rfl
  induction e <;> intro sh h
  case letIn m y a b ia ib =>
    simp only [first] at h
    split at h
    · cases h
    · obtain ⟨h1, h2⟩ := orElse_none h
      simp [edit, nn, ia h1, ib h2]
  case sub a b ia ib =>
    obtain ⟨h1, h2⟩ := orElse_none h
    simp [edit, ia h1, ib h2]
  case seq a b ia ib =>
    obtain ⟨h1, h2⟩ := orElse_none h
    simp [edit, ia h1, ib h2]
  case sliceFrom a b ia ib =>
    simp only [first] at h
    split at h
    · cases h
    · next g =>
      obtain ⟨h1, h2⟩ := orElse_none h
      simp [edit, ia h1, ib h2, g]
  case sliceTo c a b ia ib =>
    simp only [first] at h
    split at h
    · cases h
    · next g =>
      obtain ⟨h1, h2⟩ := orElse_none h
      simp [edit, ia h1, ib h2, g]
  case addr a ia =>
    simp only [first] at h
    split at h
    · cases h
    · next g => simp [edit, ia h, g]
  case len a ia => simp only [first] at h; simp [edit, ia h]
  case call a ia => simp only [first] at h; simp [edit, ia h]
  case set y a ia => simp only [first] at h; simp [edit, ia h]
  all_goals rfl

/-- If the lint is silent, and the target is not assigned to, there is nothing to replace. -/
theorem silent {c : Test} (h : check c = none) (n : c.target ∉ freeSets c.body) (z : Name) :
    edit c.kind c.target c.pattern z none [] c.body = c.body := by
  apply edit_none
  unfold check mutatedVariables at h
  have key : check.named c = none := by
    rw [mutated_eq] at h
    by_cases g : (freeSets c.body).any c.upvars.contains = true
    · rw [if_pos g] at h; exact h
    · rw [if_neg g] at h
      simpa [n] using h
  unfold check.named at key
  split at key
  · next f => exact f
  · cases key
  · split at key <;> cases key

/-- `if s.starts_with("a") { f(&s[2..]) }` -/
example : check
    { kind := .pre, target := 0, pattern := .str [97]
      body := .call (.addr (.sliceFrom (.var 0) (.num 2))), other := .num 0, upvars := [] } = none := by
  decide +kernel

/-- Strings "ab" in variable 0, and "a" in variable 1. -/
def start : St := { env := fun x => if x = 0 then .str [97, 98] else if x = 1 then .str [97] else .num x, log := [] }

/-- Calls return zero. -/
def zero : World := fun _ _ => .num 0

/-- `if s.starts_with("a") { let t = &s[1..]; f(t); f(&s[1..]) }` -/
def sample : Test :=
  { kind := .pre, target := 0, pattern := .str [97]
    body := .letIn false 3 (.addr (.sliceFrom (.var 0) (.num 1)))
      (.seq (.call (.var 3)) (.call (.addr (.sliceFrom (.var 0) (.num 1)))))
    other := .num 0, upvars := [] }

/-- `if s.ends_with('b') { f(&s[..s.len() - 1]) }`, with a placeholder. -/
def sampleSuf : Test :=
  { kind := .suf, target := 0, pattern := .chr [98]
    body := .call (.addr (.sliceTo false (.var 0) (.sub (.len (.var 0)) (.num 1))))
    other := .num 0, upvars := [] }

example : check sample = some (some 3) ∧ newBody sample (some 3) 9 = .seq (.call (.var 3)) (.call (.var 3)) := by
  decide +kernel

example : outcome (sample.runStrip zero 3 (newBody sample (some 3) 9) start) =
    some (.num 0, [.str [98], .str [98]]) := by
  decide +kernel

/-- The hypotheses hold. -/
example {τ : St} {u : Val} (r : sample.run zero start = some (u, τ)) :
    sample.runStrip zero 3 (newBody sample (some 3) 9) start = some (u, τ) :=
  strip_same_partial (nm := some 3) (z := 9) (by decide +kernel) (by decide +kernel) (by decide +kernel)
    (by decide +kernel) (fun _ h => nomatch h) (by decide +kernel) (by decide +kernel) (fun h => nomatch h) r

example {τ : St} {u : Val} (r : sampleSuf.run zero start = some (u, τ)) :
    sampleSuf.runStrip zero 9 (newBody sampleSuf none 9) start = some (u, τ) :=
  strip_same_partial (nm := none) (z := 8) (by decide +kernel) (by decide +kernel) (by decide +kernel)
    (by decide +kernel) (fun _ h => nomatch h) (by decide +kernel) (by decide +kernel)
    (fun _ => by decide +kernel) r

example : outcome (sampleSuf.runStrip zero 9 (newBody sampleSuf none 9) start) = some (.num 0, [.str [97]]) := by
  decide +kernel

/-! ### Code that changes -/

/-- `if s.ends_with('b') { f(&s[..=s.len() - 1]) }` -/
def sampleInclusive : Test :=
  { sampleSuf with body := .call (.addr (.sliceTo true (.var 0) (.sub (.len (.var 0)) (.num 1)))) }

/-- The whole of `s` was passed, and now the suffix is removed. -/
theorem inclusive : check sampleInclusive = some none ∧
    outcome (sampleInclusive.run zero start) = some (.num 0, [.str [97, 98]]) ∧
    outcome (sampleInclusive.runStrip zero 9 (newBody sampleInclusive none 9) start) =
      some (.num 0, [.str [97]]) := by
  decide +kernel

/-- `if s.starts_with(p) { p = ""; f(&s[p.len()..]) }` -/
def sampleAssigned : Test :=
  { sample with
    pattern := .var 1
    body := .seq (.set 1 (.str [])) (.call (.addr (.sliceFrom (.var 0) (.len (.var 1))))) }

/-- The slice was made with the new value of `p`. -/
theorem pattern_assigned : check sampleAssigned = some none ∧
    outcome (sampleAssigned.run zero start) = some (.num 0, [.str [97, 98]]) ∧
    outcome (sampleAssigned.runStrip zero 9 (newBody sampleAssigned none 9) start) =
      some (.num 0, [.str [98]]) := by
  decide +kernel

/-- `if s.starts_with("a") { f(s); let s = &s[1..]; f(s) }` -/
def sampleShadowed : Test :=
  { sample with
    body := .seq (.call (.var 0)) (.letIn false 0 (.addr (.sliceFrom (.var 0) (.num 1))) (.call (.var 0))) }

/-- The first call is passed the stripped string too: the new variable hides the target in the whole block. -/
theorem shadowed : check sampleShadowed = some (some 0) ∧
    outcome (sampleShadowed.run zero start) = some (.num 0, [.str [97, 98], .str [98]]) ∧
    outcome (sampleShadowed.runStrip zero 0 (newBody sampleShadowed (some 0) 9) start) =
      some (.num 0, [.str [98], .str [98]]) := by
  decide +kernel

/-- `if s.starts_with("a") { f(t); let t = &s[1..]; f(t) }` -/
def sampleCaptured : Test :=
  { sample with
    body := .seq (.call (.var 1)) (.letIn false 1 (.addr (.sliceFrom (.var 0) (.num 1))) (.call (.var 1))) }

/-- The same for another outer variable. -/
theorem captured : check sampleCaptured = some (some 1) ∧
    outcome (sampleCaptured.run zero start) = some (.num 0, [.str [97], .str [98]]) ∧
    outcome (sampleCaptured.runStrip zero 1 (newBody sampleCaptured (some 1) 9) start) =
      some (.num 0, [.str [98], .str [98]]) := by
  decide +kernel

/-- `if s.starts_with("a") { n = 0; s = "cd"; f(&s[1..]) }` in a closure, where `n` is captured. -/
def sampleUpvar : Test :=
  { sample with
    body := .seq (.set 5 (.num 0)) (.seq (.set 0 (.str [99, 100])) (.call (.addr (.sliceFrom (.var 0) (.num 1)))))
    upvars := [5] }

/-- An assignment to a captured variable disables the test whether the target is changed. -/
theorem upvar_assigned : check sampleUpvar = some none ∧ check { sampleUpvar with upvars := [] } = none ∧
    outcome (sampleUpvar.run zero start) = some (.num 0, [.str [100]]) ∧
    outcome (sampleUpvar.runStrip zero 9 (newBody sampleUpvar none 9) start) = some (.num 0, [.str [98]]) := by
  decide +kernel

end Verif.Strip
