import Verif.Dev.UtilsModel

/-!
# C42, C43, C47, C48: helpers of `cargo dev`
-/

namespace Verif.Dev

/-! ## C42: text regions -/

/-- `pat` occurs in `s` for the first time after `pre`, and is followed by `post`. -/
def FirstAt (pat s pre post : Str) : Prop :=
  s = pre ++ (pat ++ post) ∧ ∀ i, i < pre.length → ¬ pat <+: s.drop i

theorem splitOnceStr_some {pat : Str} : ∀ {s pre post : Str}, splitOnceStr pat s = some (pre, post) →
    FirstAt pat s pre post
  | [], pre, post, h => by
    unfold splitOnceStr at h
    split at h
    · next hp =>
      simp only [Option.some.injEq, Prod.mk.injEq] at h
      rw [List.isEmpty_iff] at hp
      subst hp
      obtain ⟨rfl, rfl⟩ := h
      exact ⟨rfl, by simp⟩
    · simp at h
  | c :: cs, pre, post, h => by
    unfold splitOnceStr at h
    split at h
    · next hp =>
      simp only [Option.some.injEq, Prod.mk.injEq] at h
      obtain ⟨rfl, rfl⟩ := h
      rw [List.isPrefixOf_iff_prefix] at hp
      obtain ⟨t, ht⟩ := hp
      refine ⟨?_, by simp⟩
      rw [← ht]; simp
    · next hp =>
      rw [Option.map_eq_some_iff] at h
      obtain ⟨⟨p, q⟩, hr, he⟩ := h
      simp only [Prod.mk.injEq] at he
      obtain ⟨rfl, rfl⟩ := he
      obtain ⟨h1, h2⟩ := splitOnceStr_some hr
      refine ⟨by rw [List.cons_append, ← h1], ?_⟩
      intro i hi
      cases i with
      | zero => simpa [List.isPrefixOf_iff_prefix] using hp
      | succ i => simpa using h2 i (by simpa using hi)

theorem splitOnceStr_of_first {pat : Str} : ∀ {s pre post : Str}, FirstAt pat s pre post →
    splitOnceStr pat s = some (pre, post)
  | [], pre, post, ⟨h, _⟩ => by
    obtain ⟨rfl, h'⟩ := List.append_eq_nil_iff.1 h.symm
    obtain ⟨rfl, rfl⟩ := List.append_eq_nil_iff.1 h'
    rfl
  | c :: cs, [], post, ⟨h, _⟩ => by
    unfold splitOnceStr
    have : pat.isPrefixOf (c :: cs) = true := by
      rw [List.isPrefixOf_iff_prefix]; exact ⟨post, by simpa using h.symm⟩
    rw [if_pos this, h]
    simp
  | c :: cs, x :: pre, post, ⟨h, hf⟩ => by
    unfold splitOnceStr
    have hn : ¬ pat.isPrefixOf (c :: cs) = true := by
      rw [List.isPrefixOf_iff_prefix]; exact hf 0 (by simp)
    simp only [List.cons_append, List.cons.injEq] at h
    obtain ⟨rfl, h⟩ := h
    rw [if_neg hn, splitOnceStr_of_first (pre := pre) (post := post) ⟨h, fun i hi => by simpa using hf (i + 1) (by simpa using hi)⟩]
    rfl

theorem splitOnceStr_none {pat : Str} : ∀ {s : Str}, splitOnceStr pat s = none ↔ ¬ pat <:+: s
  | [] => by
    unfold splitOnceStr
    cases pat <;> simp
  | c :: cs => by
    unfold splitOnceStr
    split
    · next hp =>
      rw [List.isPrefixOf_iff_prefix] at hp
      simp [hp.isInfix]
    · next hp =>
      rw [List.isPrefixOf_iff_prefix] at hp
      rw [Option.map_eq_none_iff, splitOnceStr_none, List.infix_cons_iff]
      simp [hp]

/-- Whether a pattern begins somewhere in `pre` does not depend on what follows `pre ++ pat`. -/
theorem FirstAt.change {pat s pre post : Str} (h : FirstAt pat s pre post) (post' : Str) :
    FirstAt pat (pre ++ (pat ++ post')) pre post' := by
  refine ⟨rfl, fun i hi hp => h.2 i hi ?_⟩
  rw [h.1]
  rw [List.drop_append_of_le_length (by omega)] at hp ⊢
  have hpre : pat <+: pre.drop i ++ pat := by
    refine List.prefix_of_prefix_length_le hp ?_ (by simp)
    rw [← List.append_assoc]; exact List.prefix_append ..
  refine hpre.trans ?_
  rw [← List.append_assoc]; exact List.prefix_append ..

/-- **C42.** An update succeeds iff the start marker occurs and the end marker occurs after the first start marker.
Then everything up to the start marker and from the next end marker on is kept, exactly the generated text is put between
them, and 'changed' is reported iff the text changes. -/
theorem update_region (start stop src ins dst : Str) (changed : Bool) :
    updateTextRegion start stop src ins = .ok (dst, changed) ↔
      ∃ pre rest old post, FirstAt start src pre rest ∧ FirstAt stop rest old post ∧
        dst = pre ++ start ++ ins ++ stop ++ post ∧ (changed = true ↔ dst ≠ src) := by
  have key : ∀ {pre rest old post : Str}, FirstAt start src pre rest → FirstAt stop rest old post →
      (ins ≠ old ↔ pre ++ start ++ ins ++ stop ++ post ≠ src) := by
    intro pre rest old post h1 h2
    rw [h1.1, h2.1]
    simp
  constructor
  · intro h
    unfold updateTextRegion at h
    split at h
    · cases h
    next pre rest e1 =>
    split at h
    · cases h
    next old post e2 =>
    cases h
    have f1 := splitOnceStr_some e1
    have f2 := splitOnceStr_some e2
    exact ⟨pre, rest, old, post, f1, f2, rfl, by rw [decide_eq_true_eq]; exact key f1 f2⟩
  · rintro ⟨pre, rest, old, post, h1, h2, rfl, hc⟩
    unfold updateTextRegion
    rw [splitOnceStr_of_first h1]
    simp only
    rw [splitOnceStr_of_first h2]
    simp only [Except.ok.injEq, Prod.mk.injEq, true_and]
    rw [Bool.eq_iff_iff, hc, decide_eq_true_eq]
    exact key h1 h2

/-- **C42.** It panics iff a marker is missing. -/
theorem update_region_panics (start stop src ins : Str) :
    (∃ e, updateTextRegion start stop src ins = .error e) ↔
      ¬ start <:+: src ∨ ∃ pre rest, FirstAt start src pre rest ∧ ¬ stop <:+: rest := by
  unfold updateTextRegion
  cases h : splitOnceStr start src with
  | none => simp [splitOnceStr_none.1 h]
  | some r =>
    obtain ⟨pre, rest⟩ := r
    simp only
    have f1 := splitOnceStr_some h
    have hin : start <:+: src := ⟨pre, rest, by rw [f1.1]; simp⟩
    have uniq : ∀ p r, FirstAt start src p r → p = pre ∧ r = rest := by
      intro p r hf
      have := splitOnceStr_of_first hf
      rw [h] at this
      simp at this
      exact ⟨this.1.symm, this.2.symm⟩
    cases h2 : splitOnceStr stop rest with
    | none => simp only [Except.error.injEq, exists_eq', true_iff]; exact .inr ⟨pre, rest, f1, splitOnceStr_none.1 h2⟩
    | some r2 =>
      have h2' : stop <:+: rest := by
        have : ¬ splitOnceStr stop rest = none := by rw [h2]; simp
        rw [splitOnceStr_none] at this
        exact Decidable.not_not.1 this
      constructor
      · rintro ⟨e, he⟩; cases he
      · rintro (hn | ⟨p, r, hf, hn⟩)
        · exact absurd hin hn
        · obtain ⟨rfl, rfl⟩ := uniq p r hf
          exact absurd h2' hn

/-- **C42.** Running the update twice changes nothing the second time, if the end marker does not begin in the generated
text.

Missing for the full property: generated texts that contain the end marker (see `update_region_not_idempotent`). -/
theorem update_region_idempotent_partial {start stop src ins dst : Str} {changed : Bool}
    (h : updateTextRegion start stop src ins = .ok (dst, changed))
    (hi : ∀ i, i < ins.length → ¬ stop <+: (ins ++ stop).drop i) :
    updateTextRegion start stop dst ins = .ok (dst, false) := by
  rw [update_region] at h ⊢
  obtain ⟨pre, rest, old, post, h1, h2, rfl, _⟩ := h
  have f1 := h1.change (ins ++ (stop ++ post))
  have f2 : FirstAt stop (ins ++ stop) ins [] := ⟨by simp, hi⟩
  refine ⟨pre, _, ins, post, by simpa using f1, f2.change post, by simp, by simp⟩

/-- The README: `[There are over 700 lints included in this crate!]`, shortened. -/
example : updateTextRegion (str!"over ") (str!" lints") (str!"There are over 700 lints.") (str!"750") =
      .ok (str!"There are over 750 lints.", true) ∧
    ∀ i, i < (str!"750").length → ¬ str!" lints" <+: (str!"750" ++ str!" lints").drop i :=
  ⟨by rfl, by decide⟩

/-- Without the condition the text grows with every run: the generated text contains the end marker. -/
theorem update_region_not_idempotent : ∃ start stop src ins dst,
    updateTextRegion start stop src ins = .ok (dst, true) ∧
    ∃ dst', dst' ≠ dst ∧ updateTextRegion start stop dst ins = .ok (dst', true) :=
  ⟨str!"<", str!">", str!"<>", str!"a>b", str!"<a>b>", rfl, str!"<a>b>b>", by decide, rfl⟩

/-! ## C43: check mode -/

theorem replaceContents_eq (old data : Str) : replaceContents old data = data := by
  simp [replaceContents]

/-- **C43.** In check mode no file is modified. -/
theorem check_never_writes (us : List Update) (fs : Files) : (updateAll .check us fs).1 = fs := by
  induction us with
  | nil => rfl
  | cons u us ih =>
    unfold updateAll updateFile
    cases (u.run (fs u.path)).2 <;> simp [ih]

theorem change_goes_on (us : List Update) (fs : Files) : (updateAll .change us fs).2 = true := by
  induction us generalizing fs with
  | nil => rfl
  | cons u us ih =>
    unfold updateAll updateFile
    cases (u.run (fs u.path)).2 <;> simp [ih]

/-- The files before each update of a run in change mode. -/
def trace : List Update → Files → List (Update × Files)
  | [], _ => []
  | u :: us, fs => (u, fs) :: trace us (updateFile .change u fs).1

/-- **C43.** A run in check mode fails iff the run in change mode on the same files reports a change at some update. -/
theorem check_fails_iff (us : List Update) (fs : Files) :
    (updateAll .check us fs).2 = false ↔ ∃ p ∈ trace us fs, (p.1.run (p.2 p.1.path)).2 = true := by
  induction us with
  | nil => simp [updateAll, trace]
  | cons u us ih =>
    unfold updateAll trace
    cases h : (u.run (fs u.path)).2 with
    | true => simp [updateFile, h]
    | false => simp [updateFile, h, ih]

/-- If the callbacks report exactly the changes, change mode leaves all files alone iff check mode succeeds. -/
theorem check_ok_iff_unchanged (us : List Update) (fs : Files)
    (hr : ∀ u ∈ us, ∀ s, (u.run s).2 = true ↔ (u.run s).1 ≠ s) (hone : (us.map (·.path)).Nodup) :
    (updateAll .check us fs).2 = true ↔ (updateAll .change us fs).1 = fs := by
  -- the files of updates still to come are untouched
  have far : ∀ (us : List Update) (fs : Files) (q : Nat), q ∉ us.map (·.path) →
      (updateAll .change us fs).1 q = fs q := by
    intro us
    induction us with
    | nil => intros; rfl
    | cons u us ih =>
      intro fs q hq
      simp only [List.map_cons, List.mem_cons, not_or] at hq
      unfold updateAll updateFile
      cases (u.run (fs u.path)).2
      · simpa using ih fs q hq.2
      · simp only [if_true]
        rw [ih _ q hq.2]
        simp [setFile, hq.1]
  induction us generalizing fs with
  | nil => simp [updateAll]
  | cons u us ih =>
    simp only [List.map_cons, List.nodup_cons] at hone
    have ih := fun fs => ih fs (fun v hv => hr v (List.mem_cons_of_mem _ hv)) hone.2
    unfold updateAll updateFile
    cases h : (u.run (fs u.path)).2 with
    | false => simpa [h] using ih fs
    | true =>
      simp only [if_true, Bool.false_eq_true, if_false, false_iff]
      intro he
      have := congrFun he u.path
      rw [far us _ u.path hone.1] at this
      simp only [setFile, if_true, replaceContents_eq] at this
      exact (hr u (List.mem_cons_self ..) _).1 h this

/-- **C43.** In change mode a single update writes the new text iff it is reported as changed. -/
theorem change_writes (u : Update) (fs : Files) :
    (updateFile .change u fs).1 =
      if (u.run (fs u.path)).2 then setFile fs u.path (u.run (fs u.path)).1 else fs := by
  unfold updateFile
  cases (u.run (fs u.path)).2 <;> simp [replaceContents_eq]

example : ∃ (us : List Update) (fs : Files), (∀ u ∈ us, ∀ s, (u.run s).2 = true ↔ (u.run s).1 ≠ s) ∧
    (us.map (·.path)).Nodup ∧ (updateAll .check us fs).2 = false ∧ us.length = 2 := by
  refine ⟨[⟨0, fun s => (s, false)⟩, ⟨1, fun s => (str!"a", decide (str!"a" ≠ s))⟩], fun _ => [], ?_, by decide, by rfl, rfl⟩
  intro u hu s
  simp only [List.mem_cons, List.not_mem_nil, or_false] at hu
  rcases hu with h | h <;> subst h <;> simp

/-! ## C47: batches -/

theorem takeArgs_append : ∀ (n c : Nat) (args : List Nat), (takeArgs n c args).1 ++ (takeArgs n c args).2.1 = args
  | 0, _, _ => by simp [takeArgs]
  | _ + 1, _, [] => by simp [takeArgs]
  | n + 1, c, a :: args => by
    unfold takeArgs
    split
    · simp
    · simp [takeArgs_append n]

theorem takeArgs_ge : ∀ (n c : Nat) (args : List Nat), c ≤ (takeArgs n c args).2.2.1
  | 0, _, _ => by simp [takeArgs]
  | _ + 1, _, [] => by simp [takeArgs]
  | n + 1, c, a :: args => by
    unfold takeArgs
    split
    · simp; omega
    · have := takeArgs_ge n (c + (a + 8) + 8) args
      simp only; omega

theorem takeArgs_ne (n c a : Nat) (args : List Nat) :
    (takeArgs (n + 1) c (a :: args)).1 ≠ [] ∧ (takeArgs (n + 1) c (a :: args)).2.2.1 ≠ 0 := by
  unfold takeArgs
  split
  · simp
  · have := takeArgs_ge n (c + (a + 8) + 8) args
    simp only [ne_eq, reduceCtorEq, not_false_eq_true, true_and]; omega

theorem takeArgs_length : ∀ (n c : Nat) (args : List Nat), (takeArgs n c args).1.length ≤ n
  | 0, _, _ => by simp [takeArgs]
  | _ + 1, _, [] => by simp [takeArgs]
  | n + 1, c, a :: args => by
    unfold takeArgs
    split
    · simp
    · simpa using takeArgs_length n _ args

/-- The length counted for a command line. -/
def cmdLength (b : List Nat) : Nat := (b.map (· + 16)).sum

theorem takeArgs_limit : ∀ (n c : Nat) (args : List Nat), c ≤ 30000 →
    c + cmdLength (takeArgs n c args).1.dropLast ≤ 30000
  | 0, _, _, _ => by simpa [takeArgs, cmdLength]
  | _ + 1, _, [], _ => by simpa [takeArgs, cmdLength]
  | n + 1, c, a :: args, hc => by
    unfold takeArgs
    split
    · simpa [cmdLength]
    · next h =>
      have := takeArgs_limit n (c + (a + 8) + 8) args (by omega)
      simp only
      generalize (takeArgs n (c + (a + 8) + 8) args).1 = t at this ⊢
      cases t with
      | nil => simpa [cmdLength]
      | cons x xs =>
        simp only [List.dropLast_cons_cons, cmdLength, List.map_cons, List.sum_cons] at this ⊢
        omega

theorem divCeil_pos {a b : Nat} (ha : 0 < a) (hb : 0 < b) : 0 < divCeil a b := by
  unfold divCeil
  exact Nat.div_pos (by omega) hb

/-- What holds for the iterator between two steps. -/
structure Inv (s : Splitter) : Prop where
  threads : 0 < s.threads
  batch : s.args ≠ [] → 0 < s.batch

theorem nextBatch_inv {s : Splitter} (h : Inv s) : Inv (nextBatch s).2 := by
  have ht : 0 < if s.threads > 1 then s.threads - 1 else s.threads := by
    have := h.threads
    split <;> omega
  refine ⟨ht, fun hne => ?_⟩
  simp only [nextBatch] at hne ⊢
  split
  · have hl : 0 < (takeArgs s.batch 0 s.args).2.1.length := List.length_pos_iff.2 hne
    have := divCeil_pos hl ht
    omega
  · refine h.batch fun he => hne ?_
    have := takeArgs_append s.batch 0 s.args
    rw [he] at this ⊢
    exact (List.append_eq_nil_iff.1 this).2

theorem nextBatch_some {s : Splitter} (h : Inv s) (hne : s.args ≠ []) :
    ∃ b, (nextBatch s).1 = some b ∧ b ≠ [] ∧ b ++ (nextBatch s).2.args = s.args ∧ b = (takeArgs s.batch 0 s.args).1 := by
  have hb := h.batch hne
  obtain ⟨n, hn⟩ : ∃ n, s.batch = n + 1 := ⟨s.batch - 1, by omega⟩
  obtain ⟨a, as, ha⟩ := List.exists_cons_of_ne_nil hne
  have := takeArgs_ne n 0 a as
  rw [← hn, ← ha] at this
  refine ⟨_, by simp only [nextBatch]; rw [if_pos this.2], this.1, ?_, rfl⟩
  simpa [nextBatch] using takeArgs_append s.batch 0 s.args

theorem nextBatch_none {s : Splitter} (he : s.args = []) : (nextBatch s).1 = none := by
  have : takeArgs s.batch 0 [] = ([], [], 0, false) := by
    cases s.batch <;> rfl
  simp [nextBatch, he, this]

theorem batches_spec : ∀ (fuel : Nat) (s : Splitter), Inv s → s.args.length < fuel →
    (batches fuel s).flatten = s.args ∧ ∀ b ∈ batches fuel s, b ≠ [] ∧ cmdLength b.dropLast ≤ 30000
  | 0, _, _, h => by omega
  | fuel + 1, s, hi, h => by
    by_cases he : s.args = []
    · have : batches (fuel + 1) s = [] := by
        unfold batches
        have := nextBatch_none he
        generalize nextBatch s = r at this
        obtain ⟨r1, r2⟩ := r
        simp only at this
        subst this
        rfl
      rw [this, he]; simp
    · obtain ⟨b, h1, h2, h3, h4⟩ := nextBatch_some hi he
      have hinv := nextBatch_inv hi
      have hb : batches (fuel + 1) s = b :: batches fuel (nextBatch s).2 := by
        rw [batches]
        generalize nextBatch s = r at h1
        obtain ⟨r1, r2⟩ := r
        simp only at h1
        subst h1
        rfl
      have hlen : (nextBatch s).2.args.length < fuel := by
        have := congrArg List.length h3
        have := List.length_pos_iff.2 h2
        simp only [List.length_append] at *
        omega
      obtain ⟨i1, i2⟩ := batches_spec fuel _ hinv hlen
      rw [hb]
      refine ⟨by rw [List.flatten_cons, i1, h3], ?_⟩
      intro c hc
      rcases List.mem_cons.1 hc with hc | hc
      · subst hc
        exact ⟨h2, by rw [h4]; simpa using takeArgs_limit s.batch 0 s.args (by omega)⟩
      · exact i2 c hc

theorem splitArgs_inv {minBatch threads : Nat} {args : List Nat} (ht : 0 < threads) :
    Inv { args, minBatch, batch := max (divCeil args.length threads) minBatch, threads } := by
  refine ⟨ht, fun hne => ?_⟩
  have := divCeil_pos (List.length_pos_iff.2 hne) ht
  exact Nat.lt_of_lt_of_le this (Nat.le_max_left ..)

/-- **C47.** The batches together are the arguments in order, none is empty, and apart from its last argument none is
longer than the limit. -/
theorem splitArgs_complete (minBatch : Nat) {threads : Nat} (ht : 0 < threads) (args : List Nat) :
    (splitArgs minBatch threads args).flatten = args ∧
    ∀ b ∈ splitArgs minBatch threads args, b ≠ [] ∧ cmdLength b.dropLast ≤ 30000 :=
  batches_spec _ _ (splitArgs_inv ht) (by simp)

/-- With short arguments the limit is never hit, and a batch is the first `batch` arguments. -/
theorem takeArgs_short : ∀ (n c : Nat) (args : List Nat), c + cmdLength args ≤ 30000 →
    takeArgs n c args = (args.take n, args.drop n, c + cmdLength (args.take n), false)
  | 0, c, args, _ => by simp [takeArgs, cmdLength]
  | _ + 1, c, [], _ => by simp [takeArgs, cmdLength]
  | n + 1, c, a :: args, h => by
    have hs : cmdLength (a :: args) = a + 16 + cmdLength args := by simp [cmdLength]
    unfold takeArgs
    rw [if_neg (by omega)]
    rw [takeArgs_short n _ args (by omega)]
    simp [cmdLength]
    omega

theorem batches_count : ∀ (fuel : Nat) (s : Splitter) (k : Nat), cmdLength s.args ≤ 30000 → s.args.length ≤ k * s.batch →
    (batches fuel s).length ≤ k
  | 0, _, _, _, _ => by simp [batches]
  | fuel + 1, s, k, hc, hk => by
    have hn : nextBatch s = (if 0 + cmdLength (s.args.take s.batch) ≠ 0 then some (s.args.take s.batch) else none,
        { s with args := s.args.drop s.batch, threads := if s.threads > 1 then s.threads - 1 else s.threads }) := by
      simp [nextBatch, takeArgs_short s.batch 0 s.args (by omega)]
    rw [batches, hn]
    split
    · simp
    · next b s' he =>
      simp only [Prod.mk.injEq] at he
      obtain ⟨he, rfl⟩ := he
      cases k with
      | zero =>
        exfalso
        have : s.args = [] := by simpa using hk
        rw [this] at he
        simp [cmdLength] at he
      | succ k =>
        have hdrop : cmdLength (s.args.drop s.batch) ≤ 30000 := by
          have : cmdLength s.args = cmdLength (s.args.take s.batch) + cmdLength (s.args.drop s.batch) := by
            unfold cmdLength
            rw [← List.sum_append_nat, ← List.map_append, List.take_append_drop]
          omega
        have := batches_count fuel { s with args := s.args.drop s.batch, threads := if s.threads > 1 then s.threads - 1 else s.threads } k hdrop (by
          simp only [List.length_drop]
          rw [Nat.succ_mul] at hk
          omega)
        simpa using this

/-- **C47.** If the arguments fit into one command line, there are at most as many batches as threads. -/
theorem splitArgs_threads (minBatch : Nat) {threads : Nat} (ht : 0 < threads) (args : List Nat)
    (h : cmdLength args ≤ 30000) : (splitArgs minBatch threads args).length ≤ threads := by
  refine batches_count _ _ threads h ?_
  simp only
  have h1 : args.length ≤ threads * divCeil args.length threads := by
    unfold divCeil
    have := Nat.div_add_mod (args.length + threads - 1) threads
    have hm := Nat.mod_lt (args.length + threads - 1) ht
    omega
  exact Nat.le_trans h1 (Nat.mul_le_mul_left _ (Nat.le_max_left ..))

/-- Six files, two threads: two batches of three. A long argument ends a batch early. -/
example : splitArgs 2 2 [10, 10, 10, 10, 10, 10] = [[10, 10, 10], [10, 10, 10]] ∧
    splitArgs 2 2 [10, 40000, 10, 10, 10, 10] = [[10, 40000], [10, 10, 10, 10]] := by decide +kernel

/-! ## C48: groups -/

/-- Elements next to each other. -/
def Adjacent {α : Type} (R : α → α → Prop) : List α → Prop
  | a :: b :: l => R a b ∧ Adjacent R (b :: l)
  | _ => True

theorem sliceGroupsGo_spec {α : Type} {splitIdx : α → List α → Nat} (hs : ∀ a l, splitIdx a l ≤ l.length) :
    ∀ (fuel : Nat) (l : List α), l.length ≤ fuel →
      (sliceGroupsGo splitIdx fuel l).flatten = l ∧ ∀ g ∈ sliceGroupsGo splitIdx fuel l, g ≠ []
  | 0, l, h => by
    have : l = [] := by simpa using h
    subst this; simp [sliceGroupsGo]
  | _ + 1, [], _ => by simp [sliceGroupsGo]
  | fuel + 1, a :: l, h => by
    have hi := hs a l
    unfold sliceGroupsGo
    simp only
    rw [if_pos (by simp; omega)]
    obtain ⟨i1, i2⟩ := sliceGroupsGo_spec hs fuel ((a :: l).drop (splitIdx a l + 1)) (by simp at h ⊢; omega)
    refine ⟨by rw [List.flatten_cons, i1, List.take_append_drop], ?_⟩
    intro g hg
    rcases List.mem_cons.1 hg with hg | hg
    · subst hg; simp
    · exact i2 g hg

/-- **C48.** As long as the callback splits inside the list, the groups together are the list and none is empty. -/
theorem sliceGroups_complete {α : Type} {splitIdx : α → List α → Nat} (hs : ∀ a l, splitIdx a l ≤ l.length) (l : List α) :
    (sliceGroups splitIdx l).flatten = l ∧ ∀ g ∈ sliceGroups splitIdx l, g ≠ [] :=
  sliceGroupsGo_spec hs l.length l (Nat.le_refl _)

theorem sameKey_le {α κ : Type} [DecidableEq κ] (key : α → κ) (a : α) (l : List α) : sameKey key a l ≤ l.length := by
  unfold sameKey
  exact (List.takeWhile_sublist _).length_le

theorem take_sameKey {α κ : Type} [DecidableEq κ] (key : α → κ) (a : α) (l : List α) :
    (a :: l).take (sameKey key a l + 1) = a :: l.takeWhile fun x => decide (key a = key x) := by
  rw [List.take_succ_cons]
  unfold sameKey
  congr 1
  exact List.prefix_iff_eq_take.1 (List.takeWhile_prefix _) |>.symm

theorem drop_sameKey {α κ : Type} [DecidableEq κ] (key : α → κ) (a : α) (l : List α) :
    (a :: l).drop (sameKey key a l + 1) = l.dropWhile fun x => decide (key a = key x) := by
  rw [List.drop_succ_cons]
  unfold sameKey
  have h := List.takeWhile_append_dropWhile (p := fun x => decide (key a = key x)) (l := l)
  generalize l.takeWhile (fun x => decide (key a = key x)) = t at h ⊢
  generalize l.dropWhile (fun x => decide (key a = key x)) = d at h ⊢
  rw [← h]
  simp

theorem sliceGroupsGo_keys {α κ : Type} [DecidableEq κ] (key : α → κ) :
    ∀ (fuel : Nat) (l : List α), l.length ≤ fuel →
      (∀ g ∈ sliceGroupsGo (sameKey key) fuel l, ∀ x ∈ g, ∀ y ∈ g, key x = key y) ∧
      (∀ a l', l = a :: l' → ∃ g gs, sliceGroupsGo (sameKey key) fuel l = (a :: g) :: gs) ∧
      Adjacent (fun g h : List α => ∀ x ∈ g, ∀ y ∈ h.head?, key x ≠ key y) (sliceGroupsGo (sameKey key) fuel l)
  | 0, l, h => by
    have : l = [] := by simpa using h
    subst this; simp [sliceGroupsGo, Adjacent]
  | _ + 1, [], _ => by simp [sliceGroupsGo, Adjacent]
  | fuel + 1, a :: l, h => by
    have hi := sameKey_le key a l
    have heq : sliceGroupsGo (sameKey key) (fuel + 1) (a :: l) =
        (a :: l.takeWhile fun x => decide (key a = key x)) ::
          sliceGroupsGo (sameKey key) fuel (l.dropWhile fun x => decide (key a = key x)) := by
      rw [sliceGroupsGo]
      rw [if_pos (by simp; omega), take_sameKey, drop_sameKey]
    have hlen : (l.dropWhile fun x => decide (key a = key x)).length ≤ fuel := by
      have := (List.dropWhile_sublist (fun x => decide (key a = key x)) (l := l)).length_le
      simp at h; omega
    obtain ⟨i1, i2, i3⟩ := sliceGroupsGo_keys key fuel _ hlen
    have hk : ∀ x ∈ a :: l.takeWhile fun x => decide (key a = key x), key a = key x := by
      intro x hx
      rcases List.mem_cons.1 hx with hx | hx
      · rw [hx]
      · have := List.all_takeWhile (p := fun x => decide (key a = key x)) (l := l)
        rw [List.all_eq_true] at this
        simpa using this x hx
    rw [heq]
    refine ⟨?_, ?_, ?_⟩
    · intro g hg x hx y hy
      rcases List.mem_cons.1 hg with hg | hg
      · subst hg; rw [← hk x hx, hk y hy]
      · exact i1 g hg x hx y hy
    · intro b l' hb
      cases hb
      exact ⟨_, _, rfl⟩
    · cases hd : l.dropWhile fun x => decide (key a = key x) with
      | nil =>
        cases fuel <;> simp [sliceGroupsGo, Adjacent]
      | cons b l' =>
        obtain ⟨g, gs, hg⟩ := i2 b l' hd
        rw [hd] at hg i3
        rw [hg] at i3 ⊢
        refine ⟨?_, i3⟩
        intro x hx y hy
        simp only [List.head?_cons, Option.mem_def, Option.some.injEq] at hy
        subst hy
        rw [← hk x hx]
        have := List.head?_dropWhile_not (fun x => decide (key a = key x)) l
        rw [hd] at this
        simpa using this

/-- **C48.** Grouping by a key, as `update_lints` does: the groups together are the list, none is empty, the elements of a
group share the key, and groups next to each other have different keys. -/
theorem sliceGroups_by_key {α κ : Type} [DecidableEq κ] (key : α → κ) (l : List α) :
    (sliceGroups (sameKey key) l).flatten = l ∧ (∀ g ∈ sliceGroups (sameKey key) l, g ≠ []) ∧
    (∀ g ∈ sliceGroups (sameKey key) l, ∀ x ∈ g, ∀ y ∈ g, key x = key y) ∧
    Adjacent (fun g h : List α => ∀ x ∈ g, ∀ y ∈ h, key x ≠ key y) (sliceGroups (sameKey key) l) := by
  obtain ⟨h1, h2⟩ := sliceGroups_complete (sameKey_le key) l
  obtain ⟨h3, _, h4⟩ := sliceGroupsGo_keys key l.length l (Nat.le_refl _)
  refine ⟨h1, h2, h3, ?_⟩
  change Adjacent _ (sliceGroupsGo (sameKey key) l.length l)
  change ∀ g ∈ sliceGroupsGo (sameKey key) l.length l, _ at h2
  generalize sliceGroupsGo (sameKey key) l.length l = gs at h2 h3 h4
  induction gs with
  | nil => trivial
  | cons g gs ih =>
    cases gs with
    | nil => trivial
    | cons g' gs =>
      refine ⟨?_, ih (fun g hg => h2 g (List.mem_cons_of_mem _ hg)) (fun g hg => h3 g (List.mem_cons_of_mem _ hg)) h4.2⟩
      intro x hx y hy
      obtain ⟨b, bs, hb⟩ := List.exists_cons_of_ne_nil (h2 g' (by simp))
      have hne := h4.1 x hx b (by simp [hb])
      rw [h3 g' (by simp) y hy b (by simp [hb])]
      exact hne

example : sliceGroups (sameKey (· / 10)) [11, 12, 21, 13, 14] = [[11, 12], [21], [13, 14]] := by decide

/-- A callback that splits outside the list makes the rest of the list disappear without an error. -/
theorem sliceGroups_loses : sliceGroups (fun _ _ => 1) [1, 2, 3] = [[1, 2]] := by decide

end Verif.Dev
