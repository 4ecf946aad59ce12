import Verif.Server.Model

/-! What holds for one invocation and its connection in every state. -/

namespace Verif.Server

open Model

/-- A list with one place changed. -/
theorem split_at {α} {l : List α} {n : Nat} {c : α} (h : l[n]? = some c) :
    ∃ a b, l = a ++ c :: b ∧ ∀ x, l.set n x = a ++ x :: b := by
  induction l generalizing n with
  | nil => simp at h
  | cons y ys ih =>
    cases n with
    | zero =>
      simp at h
      subst h
      exact ⟨[], ys, rfl, fun x => rfl⟩
    | succ n =>
      simp at h
      obtain ⟨a, b, e1, e2⟩ := ih h
      exact ⟨y :: a, b, by simp [e1], fun x => by simp [e2]⟩

/-- The thread has answered. -/
def After : Hnd → Prop
  | .replied | .sending _ | .done => True
  | _ => False

/-- The thread has not decided yet. -/
def Before : Hnd → Prop
  | .none | .queued | .spawned => True
  | _ => False

/-- What holds at each place of the wrapper's program. -/
def Where (c : Conn) : Prop :=
  match c.drv with
  | .idle => c.hnd = .none ∧ c.written = [] ∧ c.ran = [] ∧ c.closed = false ∧ c.asked = false
  | .connected =>
    c.job.info ≠ none ∧ (c.hnd = .queued ∨ c.hnd = .spawned) ∧ c.written = [] ∧ c.ran = [] ∧
      c.closed = false ∧ c.asked = false
  | .asking =>
    c.job.info ≠ none ∧ c.written = [] ∧ c.ran = [] ∧ c.closed = false ∧ c.asked = true ∧
      (c.hnd = .queued ∨ c.hnd = .spawned ∨ ((c.hnd = .decided ∨ c.hnd = .replied) ∧ c.verdict ≠ none))
  | .running =>
    c.job.info ≠ none ∧ c.written = [] ∧ c.ran = [] ∧ c.closed = false ∧ c.hnd = .replied ∧
      c.verdict = some true
  | .wrote =>
    c.job.info ≠ none ∧ c.written = c.job.lines ∧ c.ran = [.clippy] ∧ c.closed = false ∧
      c.hnd = .replied ∧ c.verdict = some true
  | .compile =>
    c.written = [] ∧ c.ran = [] ∧
      ((c.job.info = none ∧ c.hnd = .none) ∨
       (c.job.info ≠ none ∧ c.closed = true ∧ c.verdict = some false ∧ After c.hnd))
  | .exited 0 =>
    (c.job.info = none ∧ c.hnd = .none ∧ c.ran = [.rustc] ∧ c.job.rustcCode = 0) ∨
    (c.job.info ≠ none ∧ c.closed = true ∧ c.verdict = some false ∧ After c.hnd ∧ c.written = [] ∧
      c.ran = [.rustc] ∧ c.job.rustcCode = 0) ∨
    (c.job.info ≠ none ∧ c.closed = true ∧ c.verdict = some true ∧ c.written = c.job.lines ∧
      c.ran = [.clippy] ∧ c.job.clippyCode = 0 ∧
      (After c.hnd ∨ c.hnd = .died ∧ c.job.utf8 = false))
  | .exited (_ + 1) => c.hnd = .none ∨ c.closed = true

/-- The invariant of one connection. -/
structure Inv (c : Conn) : Prop where
  whr : Where c
  early : Before c.hnd → c.verdict = none
  info : c.hnd ≠ .none → c.job.info ≠ none
  size : c.written.length ≤ c.job.lines.length
  told : Tool.clippy ∈ c.ran → c.verdict = some true

/-- Nothing has happened yet. -/
theorem Inv.start (j : Job) : Inv (Conn.start j) :=
  ⟨⟨rfl, rfl, rfl, rfl, rfl⟩, fun _ => rfl, fun h => absurd rfl h, Nat.zero_le _, fun h => by cases h⟩

/-- A step of the wrapper keeps the invariant. -/
theorem Inv.drive {c d : Conn} (I : Inv c) (h : drive c = some d) : Inv d := by
  obtain ⟨hw, he, hi, hs, ht⟩ := I
  obtain ⟨j, drv, hnd, v, as, cl, wr, ra⟩ := c
  cases drv with
  | idle =>
    obtain ⟨h1, h2, h3, h4, h5⟩ := hw
    simp only at h1 h2 h3 h4 h5
    subst h1 h2 h3 h4 h5
    simp only [Model.drive] at h
    split at h <;> rename_i q <;> cases h
    · exact ⟨⟨rfl, rfl, .inl ⟨q, rfl⟩⟩, he, hi, hs, ht⟩
    · exact ⟨⟨by simp [q], .inl rfl, rfl, rfl, rfl, rfl⟩, fun _ => he trivial, fun _ => by simp [q], hs, ht⟩
  | connected =>
    obtain ⟨h0, h1, h2, h3, h4, h5⟩ := hw
    simp only [Model.drive, Option.some.injEq] at h
    subst h
    refine ⟨⟨h0, h2, h3, h4, rfl, ?_⟩, he, hi, hs, ht⟩
    rcases h1 with h1 | h1
    · exact .inl h1
    · exact .inr (.inl h1)
  | asking =>
    obtain ⟨h0, h1, h2, h3, h4, h5⟩ := hw
    simp only at h0 h1 h2 h3 h4
    simp only [Model.drive] at h
    split at h
    · cases h
      exact ⟨⟨h0, h1, h2, h3, rfl, rfl⟩, he, hi, hs, ht⟩
    · cases h
      exact ⟨⟨h1, h2, .inr ⟨h0, rfl, rfl, trivial⟩⟩, he, hi, hs, ht⟩
    · cases h
  | running =>
    obtain ⟨h0, h1, h2, h3, h4, h5⟩ := hw
    simp only at h2
    simp only [Model.drive, Option.some.injEq] at h
    subst h
    exact ⟨⟨h0, rfl, by simp [h2], h3, h4, h5⟩, he, hi, Nat.le_refl _, fun _ => h5⟩
  | wrote =>
    obtain ⟨h0, h1, h2, h3, h4, h5⟩ := hw
    simp only [Model.drive, Option.some.injEq] at h
    subst h
    simp only at h4
    refine ⟨?_, he, hi, hs, ht⟩
    cases hc : j.clippyCode with
    | zero =>
      simp only [Where, hc]
      exact .inr (.inr ⟨h0, trivial, h5, h1, h2, trivial, .inl (by simp [After, h4])⟩)
    | succ k =>
      simp [Where, hc]
  | compile =>
    obtain ⟨h1, h2, h3⟩ := hw
    simp only at h2 h3
    simp only [Model.drive, Option.some.injEq] at h
    subst h
    refine ⟨?_, he, hi, hs, fun h => by simp [h2] at h⟩
    cases hc : j.rustcCode with
    | zero =>
      simp only [Where, hc]
      rcases h3 with ⟨a, b⟩ | ⟨a, b, e, f⟩
      · exact .inl ⟨a, b, by simp [h2], trivial⟩
      · exact .inr (.inl ⟨a, b, e, f, h1, by simp [h2], trivial⟩)
    | succ k =>
      simp only [Where, hc]
      rcases h3 with ⟨a, b⟩ | ⟨a, b, e, f⟩
      · exact .inl b
      · exact .inr b
  | exited n => simp [Model.drive] at h

/-- Being killed keeps the invariant. -/
theorem Inv.kill {c d : Conn} {k : Nat} (I : Inv c) (h : kill k c = some d) : Inv d := by
  obtain ⟨hw, he, hi, hs, ht⟩ := I
  simp only [Model.kill] at h
  split at h
  · cases h
  · cases h
    exact ⟨.inr rfl, he, hi, by simp [List.length_take]; omega, ht⟩
  · cases h
    exact ⟨.inr rfl, he, hi, hs, ht⟩

/-- Accepting a connection keeps the invariant. -/
theorem Inv.accept {c : Conn} (I : Inv c) (h : c.hnd = .queued) : Inv { c with hnd := .spawned } := by
  obtain ⟨hw, he, hi, hs, ht⟩ := I
  obtain ⟨j, drv, hnd, v, as, cl, wr, ra⟩ := c
  simp only at h
  subst h
  have hi' := hi (by simp)
  refine ⟨?_, fun _ => he trivial, fun _ => hi', hs, ht⟩
  cases drv with
  | exited n =>
    cases n with
    | zero =>
      simp only [Where, After] at hw ⊢
      simp at hw
    | succ n =>
      simp only [Where] at hw ⊢
      simpa using hw
  | idle => simp [Where] at hw
  | connected => simp only [Where] at hw ⊢; simp_all
  | asking => simp only [Where] at hw ⊢; simp_all
  | running => simp [Where] at hw
  | wrote => simp [Where] at hw
  | compile => simp [Where, After, hi'] at hw

/-- A step of the thread keeps the invariant. -/
theorem Inv.handle {c d : Conn} {seen ignore i w} (I : Inv c)
    (h : handle seen ignore c = some (d, i, w)) : Inv d := by
  obtain ⟨hw, he, hi, hs, ht⟩ := I
  obtain ⟨j, drv, hnd, v, as, cl, wr, ra⟩ := c
  cases hnd with
  | none => simp [Model.handle] at h
  | queued => simp [Model.handle] at h
  | done => simp [Model.handle] at h
  | died => simp [Model.handle] at h
  | spawned =>
    have hi' := hi (by simp)
    simp only [Model.handle] at h
    split at h
    · rename_i q1 q2
      cases h
      refine ⟨?_, fun h => absurd h (by simp [Before]), fun _ => hi', hs,
        fun h => absurd (ht h) (by rw [he trivial]; simp)⟩
      cases drv with
      | exited n => cases n <;> simp_all [Where, After]
      | idle => simp [Where] at hw
      | connected => simp [Where] at hw
      | asking => simp only [Where] at hw ⊢; simp_all
      | running => simp [Where] at hw
      | wrote => simp [Where] at hw
      | compile => simp [Where, After, hi'] at hw
    · split at h
      · rename_i q
        cases h
        subst q
        refine ⟨?_, fun h => absurd h (by simp [Before]), fun _ => hi', hs, ht⟩
        cases drv with
        | exited n => cases n <;> simp_all [Where, After]
        | idle => simp [Where] at hw
        | connected => simp [Where] at hw
        | asking => simp [Where] at hw
        | running => simp [Where] at hw
        | wrote => simp [Where] at hw
        | compile => simp [Where, After, hi'] at hw
      · cases h
  | decided =>
    have hi' := hi (by simp)
    simp only [Model.handle] at h
    split at h <;> rename_i q <;> cases h
    · subst q
      refine ⟨?_, fun h => absurd h (by simp [Before]), fun _ => hi', hs, ht⟩
      cases drv with
      | exited n => cases n <;> simp_all [Where, After]
      | idle => simp [Where] at hw
      | connected => simp [Where] at hw
      | asking => simp [Where] at hw
      | running => simp [Where] at hw
      | wrote => simp [Where] at hw
      | compile => simp [Where, After, hi'] at hw
    · refine ⟨?_, fun h => absurd h (by simp [Before]), fun _ => hi', hs, ht⟩
      cases drv with
      | exited n => cases n <;> simp_all [Where, After]
      | idle => simp [Where] at hw
      | connected => simp [Where] at hw
      | asking => simp only [Where] at hw ⊢; simp_all
      | running => simp [Where] at hw
      | wrote => simp [Where] at hw
      | compile => simp [Where, After, hi'] at hw
  | replied =>
    have hi' := hi (by simp)
    simp only [Model.handle] at h
    split at h
    · rename_i q
      subst q
      split at h
      · split at h <;> rename_i q2 <;> cases h
        · refine ⟨?_, fun h => absurd h (by simp [Before]), fun _ => hi', hs, ht⟩
          cases drv with
          | exited n => cases n <;> simp_all [Where, After]
          | idle => simp [Where] at hw
          | connected => simp [Where] at hw
          | asking => simp [Where] at hw
          | running => simp [Where] at hw
          | wrote => simp [Where] at hw
          | compile => simp [Where, After, hi'] at hw ⊢; simp_all
        · refine ⟨?_, fun h => absurd h (by simp [Before]), fun _ => hi', hs, ht⟩
          cases drv with
          | exited n => cases n <;> simp_all [Where, After]
          | idle => simp [Where] at hw
          | connected => simp [Where] at hw
          | asking => simp [Where] at hw
          | running => simp [Where] at hw
          | wrote => simp [Where] at hw
          | compile => simp_all [Where, After]
      · cases h
    · cases h
  | sending ms =>
    have hi' := hi (by simp)
    have key : ∀ g, After g → (g ≠ Hnd.none) → (Before g → False) → Inv ⟨j, drv, g, v, as, cl, wr, ra⟩ := by
      intro g hg hn hb
      refine ⟨?_, fun h => (hb h).elim, fun _ => hi', hs, ht⟩
      cases drv with
      | exited n =>
        cases n with
        | zero =>
          simp only [Where] at hw ⊢
          rcases hw with ⟨_, h', _⟩ | ⟨h1, h2, h3, _, h4⟩ | ⟨h1, h2, h3, h4, h5, h6, _⟩
          · cases h'
          · exact .inr (.inl ⟨h1, h2, h3, hg, h4⟩)
          · exact .inr (.inr ⟨h1, h2, h3, h4, h5, h6, .inl hg⟩)
        | succ n => simp_all [Where]
      | idle => simp [Where] at hw
      | connected => simp [Where] at hw
      | asking => simp [Where] at hw
      | running => simp [Where] at hw
      | wrote => simp [Where] at hw
      | compile => simp_all [Where]
    cases ms with
    | nil =>
      simp only [Model.handle, Option.some.injEq, Prod.mk.injEq] at h
      obtain ⟨h, -, -⟩ := h
      subst h
      exact key _ trivial (by simp) (by simp [Before])
    | cons m ms =>
      cases m <;> simp only [Model.handle, Option.some.injEq, Prod.mk.injEq] at h <;>
        obtain ⟨h, -, -⟩ := h <;> subst h <;> exact key _ trivial (by simp) (by simp [Before])

end Verif.Server
