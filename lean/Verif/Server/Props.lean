import Verif.Server.Ends
import Verif.Server.TextLemmas

/-! The properties of lintcheck's recursive mode. -/

namespace Verif.Server

open Model

/-- The connections whose wrapper was told to check. -/
def pickedConns (s : State) : List Conn := s.conns.filter fun c => c.verdict == some true

theorem claims_map {l : List Conn} (h : ∀ c ∈ l, Inv c) :
    ((l.filter fun c => c.verdict == some true).map fun c => c.job.info) =
      (l.filterMap claim).map some := by
  induction l with
  | nil => rfl
  | cons c l ih =>
    have ih := ih fun x hx => h x (List.mem_cons_of_mem _ hx)
    have I := h c (by simp)
    by_cases hv : c.verdict = some true
    · have hi : c.job.info ≠ none := I.info fun hn => by
        have := I.early (by rw [hn]; trivial)
        rw [hv] at this
        cases this
      cases hj : c.job.info with
      | none => exact absurd hj hi
      | some i =>
        rw [List.filter_cons_of_pos (by simp [hv]), List.map_cons, ih,
          List.filterMap_cons_some (by simp [claim, hv]; exact hj), hj]
        rfl
    · rw [List.filter_cons_of_neg (by simp [hv]), ih, List.filterMap_cons_none (by simp [claim, hv])]

/-- At the end every thread is through. -/
theorem done_at_end {ignore jobs} {s : State} (G : Glob ignore jobs s) (hm : s.main = .finished)
    {c : Conn} (hc : c ∈ s.conns) (hcl : Spec.Clean c.job) :
    todo c = [] ∧
    ((c.verdict = some true ∧ ∃ i, c.job.info = some i ∧ full c = good (c.job.lines.map (item i))) ∨
      (c.verdict ≠ some true ∧ full c = [] ∧ ∀ i, c.job.info = some i → c.verdict ≠ none)) := by
  have I := G.inv c hc
  have hk := G.ok (.inr hm) c hc
  have hl : c.hnd.live = false := by
    have := (G.ended hm).2
    simp only [State.connected, Bool.or_eq_false_iff, List.any_eq_false] at this
    simpa using this.2 c hc
  have hw := I.whr
  have he := I.early
  obtain ⟨j, drv, hnd, v, as, cl, wr, ra⟩ := c
  simp only [Conn.ok] at hk
  split at hk
  · rcases hw with ⟨h1, h2, -⟩ | ⟨h1, h2, h3, h4, h5, -⟩ | ⟨h1, h2, h3, h4, -, -, h5⟩
    · simp only at h1 h2
      subst h2
      have := he trivial
      simp only at this
      subst this
      simp [todo, full, h1]
    · simp only at h1 h2 h3 h4 h5
      subst h3 h5
      cases hnd <;> simp [After, Hnd.live] at h4 hl
      cases hi : j.info with
      | none => exact absurd hi h1
      | some i => simp [todo, full, items, good, hi]
    · simp only at h1 h2 h3 h4 h5
      subst h3 h4
      have hd : hnd = .done := by
        rcases h5 with h5 | ⟨_, h5⟩
        · cases hnd <;> simp [After, Hnd.live] at h5 hl
          rfl
        · have := hcl.1
          simp only at this
          rw [this] at h5
          cases h5
      subst hd
      cases hi : j.info with
      | none => exact absurd hi h1
      | some i => simp [todo, full, items, hi]
  · cases hk

/-- C107.  For every schedule: when lintcheck has collected its results, every package for which
the compiler was called and which is not ignored has been checked by exactly one invocation, and
the results are exactly the warnings of these invocations.  Partial: only if the output of Clippy
is text and its diagnostics have a rendered form and a place (see `spanless_lost` and
`not_text_lost`). -/
theorem results_partial (jobs : List Job) (ignore : List Text) (schedule : List Action) (s : State)
    (h : run ignore (init jobs) schedule = some s) (hm : s.main = .finished)
    (hc : ∀ j ∈ jobs, Spec.Clean j) : Spec.Results jobs ignore s.collected := by
  have G := (Glob.init ignore jobs).run h
  have hcl : ∀ c ∈ s.conns, Spec.Clean c.job := fun c hx =>
    hc c.job (by rw [← G.jobs]; exact List.mem_map_of_mem hx)
  have hpm := claims_map G.inv
  refine ⟨(pickedConns s).map Conn.job, ?_, ?_, ?_, ?_⟩
  · rw [← G.jobs]
    exact (List.filter_sublist).map _
  · rw [List.map_map, pickedConns]
    rw [show (Job.info ∘ Conn.job) = fun c : Conn => c.job.info from rfl, hpm]
    rw [List.Nodup, List.pairwise_map]
    exact G.nodup.imp fun hne e => hne (by cases e; rfl)
  · intro i
    rw [List.map_map, pickedConns]
    rw [show (Job.info ∘ Conn.job) = fun c : Conn => c.job.info from rfl, hpm]
    constructor
    · intro hx
      simp only [List.mem_map, Option.some.injEq, exists_eq_right] at hx
      refine ⟨?_, (G.sound i hx).2⟩
      simp only [List.mem_filterMap] at hx
      obtain ⟨c, hc1, hc2⟩ := hx
      have : c.job.info = some i := by
        simp only [claim] at hc2
        split at hc2
        · exact hc2
        · cases hc2
      rw [← this, ← G.jobs, List.map_map]
      exact List.mem_map_of_mem (f := Job.info ∘ Conn.job) hc1
    · rintro ⟨h1, h2⟩
      simp only [List.mem_map, Option.some.injEq, exists_eq_right]
      apply G.compl i ?_ h2
      rw [← G.jobs, List.map_map] at h1
      obtain ⟨c, hc1, hc2⟩ := List.mem_map.1 h1
      simp only [Function.comp] at hc2
      apply G.known c hc1 ?_ i hc2
      rcases (done_at_end G hm hc1 (hcl c hc1)).2 with ⟨hv, -⟩ | ⟨-, -, hv⟩
      · rw [hv]; simp
      · exact hv i hc2
  · have hacc := G.acct
    rw [(G.ended hm).1] at hacc
    have ht : s.conns.flatMap todo = [] := by
      rw [List.flatMap_eq_nil_iff]
      exact fun c hc => (done_at_end G hm hc (hcl c hc)).1
    rw [ht] at hacc
    simp only [List.append_nil] at hacc
    refine ⟨s.conns.flatMap full, ?_, hacc⟩
    have key : ∀ l : List Conn, (∀ c ∈ l, c ∈ s.conns) →
        Spec.All ((l.filter fun c => c.verdict == some true).map Conn.job) (l.flatMap full) := by
      intro l
      induction l with
      | nil => exact fun _ => .nil
      | cons c l ih =>
        intro hl
        have ih := ih fun x hx => hl x (List.mem_cons_of_mem _ hx)
        have hc1 := hl c (by simp)
        rcases (done_at_end G hm hc1 (hcl c hc1)).2 with ⟨hv, i, hi, hf⟩ | ⟨hv, hf, -⟩
        · rw [List.filter_cons_of_pos (by simp [hv]), List.map_cons, List.flatMap_cons, hf]
          exact .cons hi (good_warns i (hcl c hc1).2) ih
        · rw [List.filter_cons_of_neg (by simp [hv]), List.flatMap_cons, hf]
          exact ih
    exact key s.conns fun _ h => h

/-- C107.  For every schedule, with any faults and at any time: Clippy is run at most once for a
package, and never for an ignored one. -/
theorem checked_once (jobs : List Job) (ignore : List Text) (schedule : List Action) (s : State)
    (h : run ignore (init jobs) schedule = some s) (n : Nat) (c : Conn)
    (hn : s.conns[n]? = some c) (hc : Tool.clippy ∈ c.ran) :
    ∃ i, c.job.info = some i ∧ i.package ∉ ignore ∧
      ∀ m d, s.conns[m]? = some d → Tool.clippy ∈ d.ran → d.job.info = some i → m = n := by
  have G := (Glob.init ignore jobs).run h
  have I := G.inv c (List.mem_of_getElem? hn)
  have hv := I.told hc
  have hi : c.job.info ≠ none := I.info fun hn => by
    have := I.early (by rw [hn]; trivial)
    rw [hv] at this
    cases this
  cases hj : c.job.info with
  | none => exact absurd hj hi
  | some i =>
    have hcl : claim c = some i := by simp [claim, hv, hj]
    refine ⟨i, rfl, (G.sound i (List.mem_filterMap.2 ⟨c, List.mem_of_getElem? hn, hcl⟩)).2, ?_⟩
    intro m d hm hd hdi
    have hdv := (G.inv d (List.mem_of_getElem? hm)).told hd
    have hdc : claim d = some i := by simp [claim, hdv, hdi]
    have key : ∀ (l : List Conn), (l.filterMap claim).Nodup → ∀ n m : Nat, ∀ x y : Conn,
        l[n]? = some x → l[m]? = some y → claim x = some i → claim y = some i → m = n := by
      intro l
      induction l with
      | nil => intro _ n m x y hx; simp at hx
      | cons z l ih =>
        intro hnd n m x y hx hy hcx hcy
        cases n with
        | zero =>
          cases m with
          | zero => rfl
          | succ m =>
            simp at hx hy
            subst hx
            rw [List.filterMap_cons_some hcx, List.nodup_cons] at hnd
            exact absurd (List.mem_filterMap.2 ⟨y, List.mem_of_getElem? hy, hcy⟩) hnd.1
        | succ n =>
          cases m with
          | zero =>
            simp at hx hy
            subst hy
            rw [List.filterMap_cons_some hcy, List.nodup_cons] at hnd
            exact absurd (List.mem_filterMap.2 ⟨x, List.mem_of_getElem? hx, hcx⟩) hnd.1
          | succ m =>
            simp at hx hy
            have hnd' : (l.filterMap claim).Nodup := by
              cases hz : claim z with
              | none => rwa [List.filterMap_cons_none hz] at hnd
              | some k =>
                rw [List.filterMap_cons_some hz, List.nodup_cons] at hnd
                exact hnd.2
            rw [ih hnd' n m x y hx hy hcx hcy]
    exact key s.conns G.nodup n m c d hn hm hcl hdc

/-- C107.  For every schedule: if lintcheck gives results, then every invocation has run exactly one
of Clippy and the compiler, and without a failure. -/
theorem all_ran (jobs : List Job) (ignore : List Text) (schedule : List Action) (s : State)
    (h : run ignore (init jobs) schedule = some s) (hm : s.main = .finished) :
    s.conns.map Conn.job = jobs ∧ ∀ c ∈ s.conns,
      (c.ran = [.clippy] ∧ c.job.clippyCode = 0) ∨ (c.ran = [.rustc] ∧ c.job.rustcCode = 0) := by
  have G := (Glob.init ignore jobs).run h
  refine ⟨G.jobs, fun c hc => ?_⟩
  have hk := G.ok (.inr hm) c hc
  have hw := (G.inv c hc).whr
  obtain ⟨j, drv, hnd, v, as, cl, wr, ra⟩ := c
  simp only [Conn.ok] at hk
  split at hk
  · rcases hw with ⟨-, -, h1, h2⟩ | ⟨-, -, -, -, -, h1, h2⟩ | ⟨-, -, -, -, h1, h2, -⟩
    · exact .inr ⟨h1, h2⟩
    · exact .inr ⟨h1, h2⟩
    · exact .inl ⟨h1, h2⟩
  · cases hk

/-- C107.  For every schedule, with any faults: no connection comes in after the channel has been
closed, so the accepting thread never panics. -/
theorem accepts_all (jobs : List Job) (ignore : List Text) (schedule : List Action) (s : State)
    (h : run ignore (init jobs) schedule = some s) : s.stuck = false :=
  ((Glob.init ignore jobs).run h).free

/-- C107.  Every schedule ends: there is a bound for its length. -/
theorem schedules_end (jobs : List Job) (ignore : List Text) :
    ∃ bound, ∀ schedule s, run ignore (init jobs) schedule = some s → schedule.length ≤ bound :=
  ⟨total (init jobs), fun _ s h => by have := run_bound (Glob.init ignore jobs) h; omega⟩

/-- The code with which an invocation ends without being killed. -/
theorem codes {ignore jobs} {s : State} (G : Glob ignore jobs s) : ∀ (as : List Action) (t : State),
    (∀ n k, Action.kill n k ∉ as) → run ignore s as = some t →
    ((∀ c ∈ s.conns, ∀ k, c.drv = .exited k → k = c.job.clippyCode ∨ k = c.job.rustcCode) ∧
      (s.main = .failed → s.conns.any Conn.bad = true)) →
    (∀ c ∈ t.conns, ∀ k, c.drv = .exited k → k = c.job.clippyCode ∨ k = c.job.rustcCode) ∧
      (t.main = .failed → t.conns.any Conn.bad = true) := by
  intro as
  induction as generalizing s with
  | nil =>
    intro t _ h hs
    simp only [run, Option.some.injEq] at h
    subst h
    exact hs
  | cons a as ih =>
    intro t hk h hs
    simp only [run, Option.bind_eq_some_iff] at h
    obtain ⟨u, hu, ht⟩ := h
    refine ih (G.step hu) t (fun n k hm => hk n k (List.mem_cons_of_mem _ hm)) ht ?_
    obtain ⟨hs1, hs2⟩ := hs
    have upd : ∀ (n : Nat) (c d : Conn), s.conns[n]? = some c →
        (∀ k, d.drv = .exited k → k = d.job.clippyCode ∨ k = d.job.rustcCode) →
        ∀ x ∈ s.conns.set n d, ∀ k, x.drv = .exited k → k = x.job.clippyCode ∨ k = x.job.rustcCode := by
      intro n c d hn hd x hx
      rcases List.mem_or_eq_of_mem_set hx with hx | hx
      · exact hs1 x hx
      · subst hx; exact hd
    simp only [step] at hu
    split at hu
    · rename_i ha
      have hnf : ∀ {P : Prop}, s.main = .failed → P := by
        intro P hf
        simp [State.active, hf] at ha
      cases a with
      | drive n =>
        simp only [Option.bind_eq_bind, Option.bind_eq_some_iff, Option.some.injEq] at hu
        obtain ⟨c, hn, d, hd, rfl⟩ := hu
        refine ⟨upd n c d hn ?_, hnf⟩
        obtain ⟨j, drv, hnd, v, as, cl, wr, ra⟩ := c
        intro k hk
        cases drv with
        | idle => simp only [drive] at hd; split at hd <;> cases hd <;> cases hk
        | connected => simp only [drive, Option.some.injEq] at hd; subst hd; cases hk
        | asking => simp only [drive] at hd; split at hd <;> cases hd <;> cases hk
        | running => simp only [drive, Option.some.injEq] at hd; subst hd; cases hk
        | wrote => simp only [drive, Option.some.injEq] at hd; subst hd; cases hk; exact .inl rfl
        | compile => simp only [drive, Option.some.injEq] at hd; subst hd; cases hk; exact .inr rfl
        | exited => simp [drive] at hd
      | kill n k => exact absurd (List.mem_cons_self) (hk n k)
      | accept n =>
        simp only [Option.bind_eq_bind, Option.bind_eq_some_iff] at hu
        obtain ⟨c, hn, hd⟩ := hu
        simp only [accept] at hd
        split at hd
        · split at hd <;> cases hd
          · exact ⟨upd n c _ hn (hs1 c (List.mem_of_getElem? hn)), hnf⟩
          · exact ⟨hs1, hs2⟩
        · cases hd
      | handle n =>
        simp only [Option.bind_eq_bind, Option.bind_eq_some_iff, Option.some.injEq] at hu
        obtain ⟨c, hn, ⟨d, is, w⟩, hd, rfl⟩ := hu
        refine ⟨upd n c d hn ?_, hnf⟩
        have hc := hs1 c (List.mem_of_getElem? hn)
        have : d.drv = c.drv ∧ d.job = c.job := by
          obtain ⟨j, drv, hnd, v, as, cl, wr, ra⟩ := c
          simp only [handle] at hd
          repeat' split at hd
          all_goals first | (cases hd; done) | (cases hd; exact ⟨rfl, rfl⟩)
        rw [this.1, this.2]
        exact hc
      | join =>
        simp only [join] at hu
        split at hu
        · cases hu
          exact ⟨hs1, fun h => by cases h⟩
        · cases hu
      | fail =>
        simp only [fail] at hu
        split at hu
        · rename_i q
          cases hu
          exact ⟨hs1, fun _ => q.2⟩
        · cases hu
      | recv =>
        obtain ⟨conns, seen, chan, coll, main, stuck⟩ := s
        simp only [recv] at hu
        split at hu
        · cases hu
          exact ⟨hs1, fun h => by cases h⟩
        · cases hu
      | finish =>
        simp only [finish] at hu
        split at hu
        · cases hu
          exact ⟨hs1, fun h => by cases h⟩
        · cases hu
    · cases hu

/-- C107.  Every schedule leads to results: whatever the order of the steps, if nothing is killed and
no run of Clippy or the compiler fails, then lintcheck can only stop with results. -/
theorem reaches_results (jobs : List Job) (ignore : List Text) (schedule : List Action) (s : State)
    (h : run ignore (init jobs) schedule = some s) (hk : ∀ n k, Action.kill n k ∉ schedule)
    (hc : ∀ j ∈ jobs, j.clippyCode = 0 ∧ j.rustcCode = 0)
    (hstop : ∀ a, (∀ n k, a ≠ Action.kill n k) → step ignore s a = none) : s.main = .finished := by
  have G := (Glob.init ignore jobs).run h
  have hna : ¬ s.active = true := by
    intro ha
    obtain ⟨a, t, ht, hn⟩ := moves G ha
    rw [hstop a hn] at ht
    cases ht
  have hcd := codes (Glob.init ignore jobs) schedule s hk h
    ⟨fun c hx k hd => (by
      simp only [init, List.mem_map] at hx
      obtain ⟨j, -, rfl⟩ := hx
      cases hd), fun hf => by simp [init] at hf⟩
  cases hmn : s.main with
  | finished => rfl
  | working => simp [State.active, hmn] at hna
  | collecting => simp [State.active, hmn] at hna
  | failed =>
    exfalso
    obtain ⟨c, hx, hb⟩ := List.any_eq_true.1 (hcd.2 hmn)
    have hj := hc c.job (by rw [← G.jobs]; exact List.mem_map_of_mem hx)
    simp only [Conn.bad] at hb
    split at hb
    · rename_i k hd
      have := hcd.1 c hx _ hd
      omega
    · cases hb

/-- The end of the link with holes. -/
theorem holes : "/source/src/{file}#{line}".toList =
    "/source/src/".toList ++ "{file}#{line}".toList := by decide +kernel

/-- The link with holes ends with them. -/
theorem baseUrl_holes (i : Info) :
    baseUrl i = ("https://docs.rs/crate/".toList ++ i.package ++ "/".toList ++ i.version ++
      "/source/src/".toList) ++ "{file}#{line}".toList := by
  unfold baseUrl
  rw [holes]
  exact (List.append_assoc _ _ _).symm

/-- C107.  The link of a warning leads to the file and the line of its place.  Partial: only if the
names of the package and of the file have no braces. -/
theorem link_partial (i : Info) (d : Diag) (w : Warning) (h : item i (.diag d) = .warn w)
    (hp : '{' ∉ i.package) (hv : '{' ∉ i.version) (hf : ∀ s ∈ d.spans, '{' ∉ s.file) :
    ∃ s, Spec.Place d s ∧ Spec.Link i s w.url := by
  rcases item_diag i d with ⟨-, h2⟩ | ⟨-, -, h2⟩ | ⟨-, n, s, h1, h3, h4⟩
  · rw [h2] at h; cases h
  · rw [h2] at h; cases h
  · rw [h4] at h
    cases h
    refine ⟨s, pickSpan_place h3, ?_⟩
    simp only [url]
    cases ha : afterFirst "/src/".toList s.file with
    | none => exact .inr ⟨afterFirst_none ha, rfl⟩
    | some f =>
      obtain ⟨dir, hd, hmin⟩ := afterFirst_some ha
      have hs : s ∈ d.spans := by
        rcases pickSpan_place h3 with ⟨a, b, e, -⟩ | ⟨-, b, e⟩ <;> rw [e] <;> simp
      have hfb : '{' ∉ f := by
        have := hf s hs
        rw [hd] at this
        simp only [List.mem_append, not_or] at this
        exact this.2
      refine .inl ⟨dir, f, hd, hmin, ?_⟩
      have hb := baseUrl_holes i
      have ha' : '{' ∉ ("https://docs.rs/crate/".toList ++ i.package ++ "/".toList ++ i.version ++
          "/source/src/".toList) := by
        simp only [List.mem_append, not_or]
        exact ⟨⟨⟨⟨by decide +kernel, hp⟩, by decide +kernel⟩, hv⟩, by decide +kernel⟩
      simp only [hb]
      exact filled ha' hfb

/-- C107.  Clippy gets the arguments of the compiler without those that silence lints.  Partial: only
if no such option has another one as its value. -/
theorem uncap_partial (as bs : List Text) (h : Spec.Uncapped as bs) : uncap true as = bs := by
  induction h with
  | nil => rfl
  | one _ ih => simp only [uncap, if_pos, ih]
  | two h1 h2 _ ih =>
    rw [uncap, if_neg (by decide), if_pos rfl, uncap, if_neg h2, if_neg h1]
    simpa using ih
  | keep h1 h2 _ ih =>
    rw [uncap, if_neg h2, if_neg h1]
    simpa using ih

/-! ### Examples -/

/-- A diagnostic of Clippy at a place. -/
def exDiag (file : String) : Diag :=
  ⟨some "clippy::all".toList, "m".toList, some [], [⟨true, file.toList, "3".toList⟩]⟩

/-- Two invocations for one package and one for an ignored package. -/
def exJobs : List Job :=
  [⟨some ⟨"a".toList, "1".toList⟩, [.other, .diag (exDiag "a-1/src/lib.rs")], true, 0, 0⟩,
   ⟨some ⟨"a".toList, "1".toList⟩, [.diag (exDiag "build.rs")], true, 0, 0⟩,
   ⟨some ⟨"b".toList, "1".toList⟩, [.diag (exDiag "b-1/src/lib.rs")], true, 0, 0⟩]

/-- A schedule in which the second invocation is the first to ask. -/
def exSchedule : List Action :=
  [.drive 0, .drive 1, .drive 1, .accept 1, .handle 1, .drive 0, .accept 0, .handle 0, .handle 0,
   .drive 0, .drive 0, .handle 1, .drive 1, .drive 2, .drive 2, .accept 2, .handle 2, .handle 2,
   .drive 2, .drive 2, .drive 1, .drive 1, .join, .handle 1, .handle 1, .handle 1, .handle 0,
   .handle 0, .handle 2, .handle 2, .recv, .finish]

example : ((run ["b".toList] (init exJobs) exSchedule).map fun s =>
    (s.main, s.collected.map (·.url), s.conns.map (·.ran))) =
    some (.finished, ["build.rs".toList], [[.rustc], [.clippy], [.rustc]]) := by decide +kernel

example : ∃ s, run ["b".toList] (init exJobs) exSchedule = some s ∧ s.main = .finished ∧
    ∀ j ∈ exJobs, Spec.Clean j := by
  cases h : run ["b".toList] (init exJobs) exSchedule with
  | none => exact absurd h (by decide +kernel)
  | some s =>
    refine ⟨s, rfl, ?_, ?_⟩
    · have : (run ["b".toList] (init exJobs) exSchedule).map State.main = some .finished := by
        decide +kernel
      rw [h] at this
      simpa using this
    · intro j hj
      simp only [exJobs, List.mem_cons, List.not_mem_nil, or_false] at hj
      rcases hj with rfl | rfl | rfl <;> refine ⟨rfl, fun d hd _ => ?_⟩ <;>
        simp at hd <;> subst hd <;> exact ⟨by simp [exDiag], by simp [exDiag]⟩

example : item ⟨"a".toList, "1".toList⟩ (.diag (exDiag "a-1/src/lib.rs")) =
    .warn ⟨"clippy::all".toList, "a".toList, exDiag "a-1/src/lib.rs",
      "https://docs.rs/crate/a/1/source/src/lib.rs#3".toList⟩ := by decide +kernel

example : Spec.Uncapped ["a".toList, "--cap-lints".toList, "allow".toList, "b".toList]
    ["a".toList, "b".toList] :=
  .keep (by decide) (by decide) (.two (by decide) (by decide) (.keep (by decide) (by decide) .nil))

/-! ### What is lost -/

/-- One invocation and what it does alone. -/
def soloSchedule : List Action :=
  [.drive 0, .drive 0, .accept 0, .handle 0, .handle 0, .drive 0, .drive 0, .drive 0, .join,
   .handle 0, .handle 0, .finish]

/-- The invocation of one package whose second diagnostic is fine, while the first has no place. -/
def spanlessJob : Job :=
  ⟨some ⟨"a".toList, "1".toList⟩,
    [.diag ⟨some "clippy::x".toList, [], some [], []⟩, .diag (exDiag "a-1/src/lib.rs")], true, 0, 0⟩

/-- C107.  A diagnostic without a place makes the thread panic: the other warnings about the package
are lost, and lintcheck gives its results as if nothing had happened. -/
theorem spanless_lost :
    ((run [] (init [spanlessJob]) soloSchedule).map fun s => (s.main, s.collected)) =
      some (.finished, []) ∧
    ∃ w, Item.warn w = item ⟨"a".toList, "1".toList⟩ (.diag (exDiag "a-1/src/lib.rs")) := by
  refine ⟨by decide +kernel, ⟨⟨"clippy::all".toList, "a".toList, exDiag "a-1/src/lib.rs",
      "https://docs.rs/crate/a/1/source/src/lib.rs#3".toList⟩, by decide +kernel⟩⟩

/-- An invocation whose output is not text. -/
def noTextJob : Job :=
  ⟨some ⟨"a".toList, "1".toList⟩, [.diag (exDiag "a-1/src/lib.rs")], false, 0, 0⟩

/-- C107.  Output which is not text makes the thread panic: all warnings about the package are lost,
and lintcheck gives its results as if nothing had happened. -/
theorem not_text_lost :
    ((run [] (init [noTextJob])
        [.drive 0, .drive 0, .accept 0, .handle 0, .handle 0, .drive 0, .drive 0, .drive 0, .join,
         .handle 0, .finish]).map fun s => (s.main, s.collected, s.conns.map (·.ran))) =
      some (.finished, [], [[.clippy]]) := by decide +kernel

/-- C107.  Two invocations for the same package, for instance its library and its program, are not
told apart: only the one which asks first is checked, so the results depend on the schedule. -/
theorem schedule_decides :
    ((run ["b".toList] (init exJobs) exSchedule).map fun s => s.collected.map (·.url)) =
      some ["build.rs".toList] ∧
    ((run ["b".toList] (init exJobs)
        [.drive 0, .drive 0, .accept 0, .handle 0, .handle 0, .drive 0, .drive 0, .drive 0,
         .drive 1, .drive 1, .accept 1, .handle 1, .handle 1, .drive 1, .drive 1,
         .drive 2, .drive 2, .accept 2, .handle 2, .handle 2, .drive 2, .drive 2, .join,
         .handle 0, .handle 0, .handle 0, .handle 0, .handle 1, .handle 1, .handle 2, .handle 2,
         .recv, .finish]).map fun s => s.collected.map (·.url)) =
      some ["https://docs.rs/crate/a/1/source/src/lib.rs#3".toList] := by
  constructor <;> decide +kernel

end Verif.Server
