import Verif.Server.Local

/-! What holds for the whole system in every state of every schedule. -/

namespace Verif.Server

open Model

/-- The warnings which a thread sends for some lines: until it panics. -/
def good : List Item → List Warning
  | [] => []
  | .skip :: ms => good ms
  | .warn w :: ms => w :: good ms
  | .panic :: _ => []

/-- What the thread of a connection still has to send. -/
def todo (c : Conn) : List Warning :=
  match c.hnd with
  | .sending ms => good ms
  | _ => []

/-- What comes of what has been sent over a connection. -/
def items (c : Conn) : List Item :=
  match c.job.info with
  | some i => c.written.map (item i)
  | none => []

/-- All that the thread of a connection sends. -/
def full (c : Conn) : List Warning :=
  match c.hnd with
  | .sending _ | .done => good (items c)
  | _ => []

/-- The package which the invocation was told to check. -/
def claim (c : Conn) : Option Info := if c.verdict = some true then c.job.info else none

/-- The invariant of the system. -/
structure Glob (ignore : List Text) (jobs : List Job) (s : State) : Prop where
  jobs : s.conns.map Conn.job = jobs
  inv : ∀ c ∈ s.conns, Inv c
  nodup : (s.conns.filterMap claim).Nodup
  sound : ∀ i ∈ s.conns.filterMap claim, i ∈ s.seen ∧ i.package ∉ ignore
  compl : ∀ i ∈ s.seen, i.package ∉ ignore → i ∈ s.conns.filterMap claim
  known : ∀ c ∈ s.conns, c.verdict ≠ none → ∀ i, c.job.info = some i → i ∈ s.seen
  free : s.stuck = false
  ok : s.main = .collecting ∨ s.main = .finished → ∀ c ∈ s.conns, c.ok = true
  ended : s.main = .finished → s.chan = [] ∧ s.connected = false
  acct : ((s.collected ++ s.chan) ++ s.conns.flatMap todo).Perm (s.conns.flatMap full)

/-- Nothing is claimed at the start. -/
theorem claims_start (jobs : List Job) : (jobs.map Conn.start).filterMap claim = [] := by
  induction jobs with
  | nil => rfl
  | cons j js ih => simpa [claim, Conn.start] using ih

/-- The invariant holds at the start. -/
theorem Glob.init (ignore : List Text) (jobs : List Job) : Glob ignore jobs (init jobs) where
  jobs := by simp [Model.init, Conn.start, Function.comp_def]
  inv := by
    intro c hc
    simp only [Model.init, List.mem_map] at hc
    obtain ⟨j, -, rfl⟩ := hc
    exact Inv.start j
  nodup := by simp only [Model.init, claims_start]; exact List.nodup_nil
  sound := by simp only [Model.init, claims_start]; intro i h; cases h
  compl := by simp [Model.init]
  known := by
    intro c hc
    simp only [Model.init, List.mem_map] at hc
    obtain ⟨j, -, rfl⟩ := hc
    intro h
    exact absurd rfl h
  free := rfl
  ok := by simp [Model.init]
  ended := by simp [Model.init]
  acct := by
    have h1 : ∀ js : List Job, (js.map Conn.start).flatMap todo = [] := by
      intro js
      induction js with
      | nil => rfl
      | cons j js ih => simp [todo, Conn.start]
    have h2 : ∀ js : List Job, (js.map Conn.start).flatMap full = [] := by
      intro js
      induction js with
      | nil => rfl
      | cons j js ih => simp [full, Conn.start]
    simp only [Model.init, h1, h2, List.append_nil]
    exact List.Perm.refl _

/-- A step inside one connection which does not change what was decided. -/
theorem Glob.update {ignore jobs} {s : State} (G : Glob ignore jobs s) (ha : s.active = true)
    {n : Nat} {c d : Conn} {w : List Warning} (hn : s.conns[n]? = some c) (hj : d.job = c.job)
    (hI : Inv d) (hv : d.verdict = c.verdict) (hok : c.ok = true → d.ok = true)
    (hacc : ((w ++ todo d) ++ full c).Perm (todo c ++ full d)) :
    Glob ignore jobs { s with conns := s.conns.set n d, chan := s.chan ++ w } := by
  obtain ⟨a, b, e1, e2⟩ := split_at hn
  have hcl : claim d = claim c := by simp [claim, hj, hv]
  have hfm : (a ++ d :: b).filterMap claim = (a ++ c :: b).filterMap claim := by
    simp [List.filterMap_append, List.filterMap_cons, hcl]
  obtain ⟨conns, seen, chan, coll, main, stuck⟩ := s
  simp only at e1 e2
  subst e1
  simp only [e2]
  constructor
  · simpa [hj] using G.jobs
  · intro x hx
    simp only [List.mem_append, List.mem_cons] at hx
    rcases hx with hx | rfl | hx
    · exact G.inv x (by simp [hx])
    · exact hI
    · exact G.inv x (by simp [hx])
  · rw [hfm]; exact G.nodup
  · rw [hfm]; exact G.sound
  · rw [hfm]; exact G.compl
  · intro x hx
    simp only [List.mem_append, List.mem_cons] at hx
    rcases hx with hx | rfl | hx
    · exact G.known x (by simp [hx])
    · rw [hv, hj]
      exact G.known c (by simp)
    · exact G.known x (by simp [hx])
  · exact G.free
  · intro hm x hx
    simp only [List.mem_append, List.mem_cons] at hx
    rcases hx with hx | rfl | hx
    · exact G.ok hm x (by simp [hx])
    · exact hok (G.ok hm c (by simp))
    · exact G.ok hm x (by simp [hx])
  · intro hm
    simp only at hm
    subst hm
    simp [State.active] at ha
  · have h := G.acct
    rw [List.perm_iff_count] at h hacc ⊢
    intro x
    have hx := h x
    have hy := hacc x
    simp only [List.flatMap_append, List.flatMap_cons, List.count_append] at hx hy ⊢
    omega

/-- The accounts of a connection do not change if its thread does not move and nothing that counts
is written. -/
theorem acct_same {c d : Conn} (hj : d.job = c.job) (hh : d.hnd = c.hnd)
    (hw : d.written = c.written ∨ c.hnd = .replied) :
    (([] ++ todo d) ++ full c).Perm (todo c ++ full d) := by
  have h1 : todo d = todo c := by simp [todo, hh]
  have h2 : full d = full c := by
    rcases hw with hw | hw
    · simp [full, items, hh, hj, hw]
    · simp [full, hh, hw]
  rw [h1, h2]
  exact List.Perm.refl _

/-- A step of the wrapper. -/
theorem Glob.drive {ignore jobs} {s : State} (G : Glob ignore jobs s) (ha : s.active = true)
    {n : Nat} {c d : Conn} (hn : s.conns[n]? = some c) (h : drive c = some d) :
    Glob ignore jobs { s with conns := s.conns.set n d } := by
  have hI := G.inv c (List.mem_of_getElem? hn)
  have hnok : c.ok = true → d.ok = true := by
    intro hk
    obtain ⟨j, drv, hnd, v, as, cl, wr, ra⟩ := c
    cases drv <;> simp_all [Conn.ok, Model.drive]
  have key : d.job = c.job ∧ d.verdict = c.verdict ∧
      ((d.hnd = c.hnd ∧ (d.written = c.written ∨ c.hnd = .replied)) ∨
        (c.hnd = .none ∧ d.hnd = .queued)) := by
    have hw := hI.whr
    obtain ⟨j, drv, hnd, v, as, cl, wr, ra⟩ := c
    cases drv with
    | idle =>
      simp only [Where] at hw
      simp only [Model.drive] at h
      split at h <;> cases h <;> simp_all
    | connected => simp only [Model.drive, Option.some.injEq] at h; subst h; simp
    | asking =>
      simp only [Model.drive] at h
      split at h <;> cases h <;> simp
    | running =>
      simp only [Where] at hw
      simp only [Model.drive, Option.some.injEq] at h
      subst h
      simp_all
    | wrote => simp only [Model.drive, Option.some.injEq] at h; subst h; simp
    | compile => simp only [Model.drive, Option.some.injEq] at h; subst h; simp
    | exited => simp [Model.drive] at h
  obtain ⟨hj, hv, hh⟩ := key
  have hacc : (([] ++ todo d) ++ full c).Perm (todo c ++ full d) := by
    rcases hh with ⟨h1, h2⟩ | ⟨h1, h2⟩
    · exact acct_same hj h1 h2
    · simp [todo, full, h1, h2]
  have := G.update ha hn hj (hI.drive h) hv hnok (w := []) hacc
  simpa using this

/-- A wrapper is killed. -/
theorem Glob.kill {ignore jobs} {s : State} (G : Glob ignore jobs s) (ha : s.active = true)
    {n k : Nat} {c d : Conn} (hn : s.conns[n]? = some c) (h : kill k c = some d) :
    Glob ignore jobs { s with conns := s.conns.set n d } := by
  have hI := G.inv c (List.mem_of_getElem? hn)
  have hnok : c.ok = true → d.ok = true := by
    intro hk
    obtain ⟨j, drv, hnd, v, as, cl, wr, ra⟩ := c
    cases drv <;> simp_all [Conn.ok, Model.kill]
  have key : d.job = c.job ∧ d.verdict = c.verdict ∧ d.hnd = c.hnd ∧
      (d.written = c.written ∨ c.hnd = .replied) := by
    have hw := hI.whr
    obtain ⟨j, drv, hnd, v, as, cl, wr, ra⟩ := c
    cases drv <;> simp only [Model.kill, Option.some.injEq] at h <;> first | (cases h; done) | (subst h; simp_all [Where])
  have := G.update ha hn key.1 (hI.kill h) key.2.1 hnok (w := []) (acct_same key.1 key.2.2.1 key.2.2.2)
  simpa using this

/-- A connection is accepted. -/
theorem Glob.accept {ignore jobs} {s t : State} (G : Glob ignore jobs s) (ha : s.active = true)
    {n : Nat} {c : Conn} (hn : s.conns[n]? = some c) (h : accept s n c = some t) :
    Glob ignore jobs t := by
  have hI := G.inv c (List.mem_of_getElem? hn)
  have hm := List.mem_of_getElem? hn
  simp only [Model.accept] at h
  split at h
  · rename_i q
    split at h
    · cases h
      have hacc : (([] ++ todo { c with hnd := .spawned }) ++ full c).Perm
          (todo c ++ full { c with hnd := .spawned }) := by simp [todo, full, q.1]
      have := G.update ha hn (d := { c with hnd := .spawned }) rfl (hI.accept q.1) rfl (fun h => h)
        (w := []) hacc
      simpa using this
    · rename_i q2
      exfalso
      apply q2
      obtain ⟨conns, seen, chan, coll, main, stuck⟩ := s
      cases main with
      | working => simp [State.connected]
      | collecting =>
        have hk := G.ok (.inl rfl) c hm
        have hw := hI.whr
        have hi := hI.info (by simp [q.1])
        obtain ⟨j, drv, hnd, v, as, cl, wr, ra⟩ := c
        simp only [Conn.ok] at hk
        obtain ⟨q1, -⟩ := q
        simp only at q1
        subst q1
        split at hk
        · simp [Where, After] at hw
        · cases hk
      | finished => simp [State.active] at ha
      | failed => simp [State.active] at ha
  · cases h

/-- A step of a thread. -/
theorem Glob.handle {ignore jobs} {s : State} (G : Glob ignore jobs s) (ha : s.active = true)
    {n : Nat} {c d : Conn} {is : List Info} {w : List Warning} (hn : s.conns[n]? = some c)
    (h : handle s.seen ignore c = some (d, is, w)) :
    Glob ignore jobs
      { s with conns := s.conns.set n d, seen := s.seen ++ is, chan := s.chan ++ w } := by
  have hI := G.inv c (List.mem_of_getElem? hn)
  have hI' := hI.handle h
  have hs : s.seen ++ [] = s.seen := List.append_nil _
  obtain ⟨j, drv, hnd, v, as, cl, wr, ra⟩ := c
  cases hnd with
  | none => simp [Model.handle] at h
  | queued => simp [Model.handle] at h
  | done => simp [Model.handle] at h
  | died => simp [Model.handle] at h
  | decided =>
    simp only [Model.handle] at h
    split at h <;> cases h <;> rw [hs] <;>
      exact G.update ha hn rfl hI' rfl (fun h => h) (by simp [todo, full])
  | replied =>
    simp only [Model.handle] at h
    split at h
    · split at h
      · rename_i i q
        split at h <;> cases h <;> rw [hs]
        · exact G.update ha hn rfl hI' rfl (fun h => h) (by simp [todo, full, items, q])
        · exact G.update ha hn rfl hI' rfl (fun h => h) (by simp [todo, full])
      · cases h
    · cases h
  | sending ms =>
    cases ms with
    | nil =>
      cases h
      rw [hs]
      exact G.update ha hn rfl hI' rfl (fun h => h) (by simp [todo, full, good, items])
    | cons m ms =>
      cases m <;> cases h <;> rw [hs] <;>
      exact G.update ha hn rfl hI' rfl (fun h => h) (by simp [todo, full, good, items])
  | spawned =>
    simp only [Model.handle] at h
    split at h
    · rename_i i q
      cases h
      have hv : v = none := hI.early trivial
      subst hv
      obtain ⟨a, b, e1, e2⟩ := split_at hn
      obtain ⟨conns, seen, chan, coll, main, stuck⟩ := s
      simp only at e1 e2
      subst e1
      have hd : ¬ (main = .collecting ∨ main = .finished) := by
        intro hm
        have hk := G.ok hm _ (List.mem_of_getElem? hn)
        have hw := hI.whr
        have hi := hI.info (by simp)
        simp only [Conn.ok] at hk
        split at hk
        · simp [Where, After] at hw
        · cases hk
      have c0 : (a ++ (⟨j, drv, .spawned, none, true, cl, wr, ra⟩ : Conn) :: b).filterMap claim =
          a.filterMap claim ++ b.filterMap claim := by
        simp [List.filterMap_append, claim]
      have Gn := G.nodup
      have Gs := G.sound
      have Gc := G.compl
      simp only [c0] at Gn Gs Gc
      simp only [e2]
      have c1 : (a ++ (⟨j, drv, .decided, some (shouldRun seen ignore i), true, cl, wr, ra⟩ : Conn) ::
          b).filterMap claim =
          if shouldRun seen ignore i = true then a.filterMap claim ++ i :: b.filterMap claim
          else a.filterMap claim ++ b.filterMap claim := by
        by_cases hr : shouldRun seen ignore i = true
        · simp [List.filterMap_append, claim, hr, q]
        · simp only [Bool.not_eq_true] at hr
          simp [List.filterMap_append, claim, hr]
      have hrun : shouldRun seen ignore i = true ↔ i ∉ seen ∧ i.package ∉ ignore := by
        simp [shouldRun]
      constructor
      · simpa using G.jobs
      · intro x hx
        simp only [List.mem_append, List.mem_cons] at hx
        rcases hx with hx | rfl | hx
        · exact G.inv x (by simp [hx])
        · exact hI'
        · exact G.inv x (by simp [hx])
      · simp only [c1]
        split
        · rename_i hr
          have hi : i ∉ a.filterMap claim ++ b.filterMap claim := fun hm => (hrun.1 hr).1 (Gs i hm).1
          have hp : (a.filterMap claim ++ i :: b.filterMap claim).Perm
              (i :: (a.filterMap claim ++ b.filterMap claim)) := List.perm_middle
          exact hp.nodup_iff.2 (List.nodup_cons.2 ⟨hi, Gn⟩)
        · exact Gn
      · simp only [c1]
        split
        · rename_i hr
          intro x hx
          have hx' : x = i ∨ x ∈ a.filterMap claim ++ b.filterMap claim := by
            simp only [List.mem_append, List.mem_cons] at hx ⊢
            rcases hx with hx | hx | hx
            · exact .inr (.inl hx)
            · exact .inl hx
            · exact .inr (.inr hx)
          rcases hx' with rfl | hx'
          · exact ⟨by simp, (hrun.1 hr).2⟩
          · exact ⟨List.mem_append_left _ (Gs x hx').1, (Gs x hx').2⟩
        · intro x hx
          exact ⟨List.mem_append_left _ (Gs x hx).1, (Gs x hx).2⟩
      · simp only [c1]
        intro x hx hg
        simp only [List.mem_append, List.mem_singleton] at hx
        split
        · rcases hx with hx | rfl
          · have := Gc x hx hg
            simp only [List.mem_append, List.mem_cons] at this ⊢
            rcases this with h | h
            · exact .inl h
            · exact .inr (.inr h)
          · simp
        · rename_i hr
          rcases hx with hx | rfl
          · exact Gc x hx hg
          · by_cases hm : x ∈ seen
            · exact Gc x hm hg
            · exact absurd (hrun.2 ⟨hm, hg⟩) hr
      · intro x hx
        simp only [List.mem_append, List.mem_cons] at hx
        rcases hx with hx | rfl | hx
        · intro hv y hy
          exact List.mem_append_left _ (G.known x (by simp [hx]) hv y hy)
        · intro _ y hy
          simp only [q, Option.some.injEq] at hy
          subst hy
          simp
        · intro hv y hy
          exact List.mem_append_left _ (G.known x (by simp [hx]) hv y hy)
      · exact G.free
      · exact fun hm => absurd hm hd
      · exact fun hm => absurd (.inr hm) hd
      · have h := G.acct
        simpa [todo, full] using h
    · split at h
      · cases h
        rw [hs]
        exact G.update ha hn rfl hI' rfl (fun h => h) (by simp [todo, full])
      · cases h

/-- Every step keeps the invariant. -/
theorem Glob.step {ignore jobs} {s t : State} {a : Action} (G : Glob ignore jobs s)
    (h : step ignore s a = some t) : Glob ignore jobs t := by
  simp only [Model.step] at h
  split at h
  · rename_i ha
    cases a with
    | drive n =>
      simp only [Option.bind_eq_bind, Option.bind_eq_some_iff, Option.some.injEq] at h
      obtain ⟨c, hn, d, hd, rfl⟩ := h
      exact G.drive ha hn hd
    | kill n k =>
      simp only [Option.bind_eq_bind, Option.bind_eq_some_iff, Option.some.injEq] at h
      obtain ⟨c, hn, d, hd, rfl⟩ := h
      exact G.kill ha hn hd
    | accept n =>
      simp only [Option.bind_eq_bind, Option.bind_eq_some_iff] at h
      obtain ⟨c, hn, hd⟩ := h
      exact G.accept ha hn hd
    | handle n =>
      simp only [Option.bind_eq_bind, Option.bind_eq_some_iff, Option.some.injEq] at h
      obtain ⟨c, hn, ⟨d, is, w⟩, hd, rfl⟩ := h
      exact G.handle ha hn hd
    | join =>
      simp only [join] at h
      split at h
      · rename_i q
        cases h
        exact ⟨G.jobs, G.inv, G.nodup, G.sound, G.compl, G.known, G.free,
          fun _ c hc => List.all_eq_true.1 q.2 c hc, fun hm => (by cases hm), G.acct⟩
      · cases h
    | fail =>
      simp only [fail] at h
      split at h
      · cases h
        exact ⟨G.jobs, G.inv, G.nodup, G.sound, G.compl, G.known, G.free,
          fun hm => (by rcases hm with hm | hm <;> cases hm), fun hm => (by cases hm), G.acct⟩
      · cases h
    | recv =>
      obtain ⟨conns, seen, chan, coll, main, stuck⟩ := s
      simp only [recv] at h
      split at h
      · rename_i w ws
        cases h
        exact ⟨G.jobs, G.inv, G.nodup, G.sound, G.compl, G.known, G.free, G.ok,
          fun hm => (by cases hm), by have := G.acct; simpa using this⟩
      · cases h
    | finish =>
      simp only [finish] at h
      split at h
      · rename_i q
        cases h
        refine ⟨G.jobs, G.inv, G.nodup, G.sound, G.compl, G.known, G.free,
          fun _ => G.ok (.inl q.1), fun _ => ⟨q.2.1, ?_⟩, G.acct⟩
        have := q.2.2
        simp only [State.connected, q.1] at this ⊢
        exact this
      · cases h
  · cases h

/-- The invariant holds in every state of every schedule. -/
theorem Glob.run {ignore jobs} {as : List Action} {s t : State} (G : Glob ignore jobs s)
    (h : run ignore s as = some t) : Glob ignore jobs t := by
  induction as generalizing s with
  | nil =>
    simp only [Model.run, Option.some.injEq] at h
    exact h ▸ G
  | cons a as ih =>
    simp only [Model.run, Option.bind_eq_some_iff] at h
    obtain ⟨u, hu, ht⟩ := h
    exact ih (G.step hu) ht

end Verif.Server
