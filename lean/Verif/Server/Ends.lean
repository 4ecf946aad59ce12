import Verif.Server.Global

/-! Every schedule ends, and none gets stuck. -/

namespace Verif.Server

open Model

/-- How many steps a wrapper has before it. -/
def drvRank (c : Conn) : Nat :=
  match c.drv with
  | .idle => 12 + 2 * c.job.lines.length
  | .connected => 5
  | .asking => 4
  | .running => 3
  | .wrote => 2
  | .compile => 2
  | .exited _ => 0

/-- How many steps a thread has before it, with those of the main thread for its warnings. -/
def hndRank (c : Conn) : Nat :=
  match c.hnd with
  | .none => 0
  | .queued => 5 + 2 * c.job.lines.length
  | .spawned => 4 + 2 * c.job.lines.length
  | .decided => 3 + 2 * c.job.lines.length
  | .replied => 2 + 2 * c.job.lines.length
  | .sending ms => 1 + 2 * ms.length
  | .done => 0
  | .died => 0

/-- Both together. -/
def rank (c : Conn) : Nat := drvRank c + hndRank c

/-- The ranks of all connections. -/
def ranks : List Conn → Nat
  | [] => 0
  | c :: cs => rank c + ranks cs

theorem ranks_append (a b : List Conn) : ranks (a ++ b) = ranks a + ranks b := by
  induction a with
  | nil => simp [ranks]
  | cons x xs ih => simp only [List.cons_append, ranks, ih]; omega

/-- How many steps the main thread has before it. -/
def mainRank : Main → Nat
  | .working => 2
  | .collecting => 1
  | .finished => 0
  | .failed => 0

/-- A bound for the number of steps. -/
def total (s : State) : Nat :=
  ranks s.conns + s.chan.length + mainRank s.main + (if s.stuck then 0 else 1)

/-- A wrapper's steps count down. -/
theorem drive_less {c d : Conn} (I : Inv c) (h : drive c = some d) : rank d < rank c := by
  have hw := I.whr
  obtain ⟨j, drv, hnd, v, as, cl, wr, ra⟩ := c
  cases drv with
  | idle =>
    simp only [Where] at hw
    simp only [Model.drive] at h
    split at h <;> cases h <;> simp [rank, drvRank, hndRank, hw.1] <;> omega
  | connected => simp only [Model.drive, Option.some.injEq] at h; subst h; simp [rank, drvRank, hndRank]
  | asking =>
    simp only [Model.drive] at h
    split at h <;> cases h <;> simp [rank, drvRank, hndRank]
  | running => simp only [Model.drive, Option.some.injEq] at h; subst h; simp [rank, drvRank, hndRank]
  | wrote => simp only [Model.drive, Option.some.injEq] at h; subst h; simp [rank, drvRank, hndRank]
  | compile => simp only [Model.drive, Option.some.injEq] at h; subst h; simp [rank, drvRank, hndRank]
  | exited => simp [Model.drive] at h

/-- A killed wrapper has nothing before it. -/
theorem kill_less {c d : Conn} {k : Nat} (h : kill k c = some d) : rank d < rank c := by
  obtain ⟨j, drv, hnd, v, as, cl, wr, ra⟩ := c
  cases drv <;> simp only [Model.kill, Option.some.injEq] at h <;>
    first | (cases h; done) | (subst h; simp [rank, drvRank, hndRank]; done) |
      (subst h; simp only [rank, drvRank, hndRank]; omega)

/-- A thread's steps count down. -/
theorem handle_less {c d : Conn} {seen ignore is w} (I : Inv c)
    (h : handle seen ignore c = some (d, is, w)) : rank d + w.length < rank c := by
  have hs := I.size
  obtain ⟨j, drv, hnd, v, as, cl, wr, ra⟩ := c
  cases hnd with
  | none => simp [Model.handle] at h
  | queued => simp [Model.handle] at h
  | done => simp [Model.handle] at h
  | died => simp [Model.handle] at h
  | spawned =>
    simp only [Model.handle] at h
    split at h
    · cases h
      simp [rank, drvRank, hndRank]
    · split at h <;> cases h
      simp only [rank, drvRank, hndRank, List.length_nil]
      omega
  | decided =>
    simp only [Model.handle] at h
    split at h <;> cases h <;> simp only [rank, drvRank, hndRank, List.length_nil] <;> omega
  | replied =>
    simp only [Model.handle] at h
    split at h
    · split at h
      · split at h <;> cases h <;>
          simp only [rank, drvRank, hndRank, List.length_nil, List.length_map] at hs ⊢ <;> omega
      · cases h
    · cases h
  | sending ms =>
    cases ms with
    | nil =>
      cases h
      simp only [rank, drvRank, hndRank, List.length_nil]
      omega
    | cons m ms =>
      cases m <;> cases h <;> simp only [rank, drvRank, hndRank, List.length_nil, List.length_cons] <;> omega

/-- Every step counts down. -/
theorem step_less {ignore jobs} {s t : State} {a : Action} (G : Glob ignore jobs s)
    (h : step ignore s a = some t) : total t < total s := by
  simp only [Model.step] at h
  split at h
  · cases a with
    | drive n =>
      simp only [Option.bind_eq_bind, Option.bind_eq_some_iff, Option.some.injEq] at h
      obtain ⟨c, hn, d, hd, rfl⟩ := h
      have hl := drive_less (G.inv c (List.mem_of_getElem? hn)) hd
      obtain ⟨x, y, e1, e2⟩ := split_at hn
      simp only [total, e2]
      rw [e1]
      simp only [ranks_append, ranks]
      omega
    | kill n k =>
      simp only [Option.bind_eq_bind, Option.bind_eq_some_iff, Option.some.injEq] at h
      obtain ⟨c, hn, d, hd, rfl⟩ := h
      have hl := kill_less hd
      obtain ⟨x, y, e1, e2⟩ := split_at hn
      simp only [total, e2]
      rw [e1]
      simp only [ranks_append, ranks]
      omega
    | accept n =>
      simp only [Option.bind_eq_bind, Option.bind_eq_some_iff] at h
      obtain ⟨c, hn, hd⟩ := h
      obtain ⟨x, y, e1, e2⟩ := split_at hn
      simp only [accept] at hd
      split at hd
      · rename_i q
        split at hd <;> cases hd
        · simp only [total, e2]
          rw [e1]
          simp only [ranks_append, ranks, rank, drvRank, hndRank, q.1]
          omega
        · simp only [total, q.2]
          simp
      · cases hd
    | handle n =>
      simp only [Option.bind_eq_bind, Option.bind_eq_some_iff, Option.some.injEq] at h
      obtain ⟨c, hn, ⟨d, is, w⟩, hd, rfl⟩ := h
      have hl := handle_less (G.inv c (List.mem_of_getElem? hn)) hd
      obtain ⟨x, y, e1, e2⟩ := split_at hn
      simp only [total, e2]
      rw [e1]
      simp only [ranks_append, ranks, List.length_append]
      omega
    | join =>
      simp only [join] at h
      split at h
      · rename_i q
        cases h
        simp only [total, q.1, mainRank]
        omega
      · cases h
    | fail =>
      simp only [fail] at h
      split at h
      · rename_i q
        cases h
        simp only [total, q.1, mainRank]
        omega
      · cases h
    | recv =>
      obtain ⟨conns, seen, chan, coll, main, stuck⟩ := s
      simp only [recv] at h
      split at h
      · cases h
        simp only [total, List.length_cons]
        omega
      · cases h
    | finish =>
      simp only [finish] at h
      split at h
      · rename_i q
        cases h
        simp only [total, q.1, mainRank]
        omega
      · cases h
  · cases h

/-- A schedule has at most as many steps as the bound says. -/
theorem run_bound {ignore jobs} {as : List Action} {s t : State} (G : Glob ignore jobs s)
    (h : run ignore s as = some t) : as.length + total t ≤ total s := by
  induction as generalizing s with
  | nil =>
    simp only [run, Option.some.injEq] at h
    subst h
    simp
  | cons a as ih =>
    simp only [run, Option.bind_eq_some_iff] at h
    obtain ⟨u, hu, ht⟩ := h
    have := ih (G.step hu) ht
    have := step_less G hu
    simp only [List.length_cons]
    omega

/-- A connection on which nothing can be done. -/
theorem conn_moves {c : Conn} {seen ignore} (I : Inv c) :
    (∃ d, drive c = some d) ∨ (∃ r, handle seen ignore c = some r) ∨ c.hnd = .queued ∨
      ((∃ k, c.drv = .exited k) ∧ c.hnd.live = false) := by
  have hw := I.whr
  have hi := I.info
  obtain ⟨j, drv, hnd, v, as, cl, wr, ra⟩ := c
  by_cases hx : ∃ k, drv = .exited k
  · obtain ⟨k, rfl⟩ := hx
    cases hnd with
    | none => exact .inr (.inr (.inr ⟨⟨k, rfl⟩, rfl⟩))
    | queued => exact .inr (.inr (.inl rfl))
    | done => exact .inr (.inr (.inr ⟨⟨k, rfl⟩, rfl⟩))
    | died => exact .inr (.inr (.inr ⟨⟨k, rfl⟩, rfl⟩))
    | spawned =>
      right; left
      have hc : cl = true := by
        cases k <;> simp [Where, After] at hw
        exact hw
      simp only [handle]
      split
      · exact ⟨_, rfl⟩
      · simp only [hc, if_true]
        exact ⟨_, rfl⟩
    | decided =>
      right; left
      simp only [handle]
      split <;> exact ⟨_, rfl⟩
    | replied =>
      right; left
      have hc : cl = true := by
        cases k with
        | zero =>
          simp only [Where] at hw
          rcases hw with ⟨_, h, _⟩ | ⟨_, h, _⟩ | ⟨_, h, _⟩
          · cases h
          · exact h
          · exact h
        | succ k => simpa [Where] using hw
      have hn := hi (by simp)
      simp only [handle, hc, if_true]
      cases hj : j.info with
      | none => exact absurd hj hn
      | some i =>
        simp only
        split <;> exact ⟨_, rfl⟩
    | sending ms =>
      right; left
      cases ms with
      | nil => exact ⟨_, rfl⟩
      | cons m ms => cases m <;> exact ⟨_, rfl⟩
  · cases drv with
    | exited k => exact absurd ⟨k, rfl⟩ hx
    | idle =>
      left
      simp only [drive]
      split <;> exact ⟨_, rfl⟩
    | connected => exact .inl ⟨_, rfl⟩
    | running => exact .inl ⟨_, rfl⟩
    | wrote => exact .inl ⟨_, rfl⟩
    | compile => exact .inl ⟨_, rfl⟩
    | asking =>
      simp only [Where] at hw
      obtain ⟨h0, h1, h2, h3, h4, h5⟩ := hw
      rcases h5 with h5 | h5 | ⟨h5 | h5, h6⟩
      · exact .inr (.inr (.inl h5))
      · right; left
        subst h5 h4
        cases hj : j.info with
        | none => exact absurd hj h0
        | some i => simp only [handle, hj]; exact ⟨_, rfl⟩
      · right; left
        subst h5
        simp only [handle]
        split <;> exact ⟨_, rfl⟩
      · left
        subst h5
        cases v with
        | none => exact absurd rfl h6
        | some b => cases b <;> exact ⟨_, rfl⟩

/-- As long as lintcheck runs, some process or thread can take a step, without any fault. -/
theorem moves {ignore jobs} {s : State} (G : Glob ignore jobs s) (ha : s.active = true) :
    ∃ a t, step ignore s a = some t ∧ ∀ n k, a ≠ .kill n k := by
  by_cases h : ∀ c ∈ s.conns, (∃ k, c.drv = .exited k) ∧ c.hnd.live = false ∧ c.hnd ≠ .queued
  · have hconn : s.conns.any (·.hnd.live) = false := by
      rw [List.any_eq_false]
      intro c hc
      simp [(h c hc).2.1]
    obtain ⟨conns, seen, chan, coll, main, stuck⟩ := s
    simp only at hconn h
    cases main with
    | finished => simp [State.active] at ha
    | failed => simp [State.active] at ha
    | collecting =>
      cases chan with
      | nil =>
        refine ⟨.finish, { conns := conns, seen := seen, chan := [], collected := coll, main := .finished, stuck := stuck }, ?_, fun _ _ => by simp⟩
        simp [step, State.active, finish, State.connected, hconn]
      | cons w ws => exact ⟨.recv, _, rfl, fun _ _ => by simp⟩
    | working =>
      by_cases hb : conns.any Conn.bad = true
      · refine ⟨.fail, { conns := conns, seen := seen, chan := chan, collected := coll, main := .failed, stuck := stuck }, ?_, fun _ _ => by simp⟩
        simp only [step, State.active, if_true, fail, hb, and_self]
      · refine ⟨.join, { conns := conns, seen := seen, chan := chan, collected := coll, main := .collecting, stuck := stuck }, ?_, fun _ _ => by simp⟩
        have : conns.all Conn.ok = true := by
          rw [List.all_eq_true]
          intro c hc
          obtain ⟨⟨k, hk⟩, -⟩ := h c hc
          cases k with
          | zero => simp [Conn.ok, hk]
          | succ k =>
            exact absurd (List.any_eq_true.2 ⟨c, hc, by simp [Conn.bad, hk]⟩) hb
        simp only [step, State.active, if_true, join, this, and_self]
  · have : ∃ c ∈ s.conns, ¬ ((∃ k, c.drv = .exited k) ∧ c.hnd.live = false ∧ c.hnd ≠ .queued) := by
      apply Classical.byContradiction
      intro hn
      apply h
      intro c hc
      apply Classical.byContradiction
      intro hx
      exact hn ⟨c, hc, hx⟩
    obtain ⟨c, hc, hx⟩ := this
    obtain ⟨n, hn⟩ := List.mem_iff_getElem?.1 hc
    by_cases hq : c.hnd = .queued
    · refine ⟨.accept n, ?_⟩
      by_cases hcn : s.connected = true
      · exact ⟨{ s with conns := s.conns.set n { c with hnd := .spawned } },
          by simp [step, ha, hn, accept, hq, G.free, hcn], fun _ _ => by simp⟩
      · exact ⟨{ s with stuck := true },
          by simp [step, ha, hn, accept, hq, G.free, hcn], fun _ _ => by simp⟩
    rcases conn_moves (seen := s.seen) (ignore := ignore) (G.inv c hc) with
      ⟨d, hd⟩ | ⟨⟨d, is, w⟩, hd⟩ | hq' | ⟨h1, h2⟩
    · exact ⟨.drive n, { s with conns := s.conns.set n d }, by simp [step, ha, hn, hd], fun _ _ => by simp⟩
    · exact ⟨.handle n, { s with conns := s.conns.set n d, seen := s.seen ++ is, chan := s.chan ++ w },
        by simp [step, ha, hn, hd], fun _ _ => by simp⟩
    · exact absurd hq' hq
    · exact absurd ⟨h1, h2, hq⟩ hx

end Verif.Server
