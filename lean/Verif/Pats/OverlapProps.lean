import Verif.Pats.OverlapModel
import Verif.Pats.RangeProps

/-!
# C37: only overlapping arms are reported, and every crossing overlap is
-/

namespace Verif.Pats

open Verif Verif.Consts Verif.RInt

/-! ## Specification -/

/-- The values in a range. -/
def SRange.Has (r : SRange) (v : Int) : Prop := r.start ≤ v ∧ if r.incl then v ≤ r.fin else v < r.fin

/-- `c` is what the constant evaluator gave for `e`: nothing, or a constant standing for its value. -/
def Known (S : Sess) (ty : Ty) (e : PExpr) (c : Option Constant) : Prop :=
  ∀ k, c = some k → Rep S ty k (.int e.value)

/-- The pattern the lint sees for a pattern `a` (in HIR a range without end is `Included`). -/
def Seen (S : Sess) (ty : Ty) : Alt → ArmPat → Prop
  | .expr e, .expr c => Known S ty e c
  | .range l r incl, .range cl cr incl' => incl = incl' ∧ (r = none → incl = true) ∧
      (l = none ↔ cl = none) ∧ (r = none ↔ cr = none) ∧
      (∀ e c, l = some e → cl = some c → Known S ty e c) ∧ (∀ e c, r = some e → cr = some c → Known S ty e c)
  | .other _, .other => True
  | _, _ => False

/-! ## The sweep -/

theorem Ev.le_total (a b : Ev) : a.le b = true ∨ b.le a = true := by
  simp only [Ev.le, Bool.or_eq_true, Bool.and_eq_true, decide_eq_true_eq, beq_iff_eq]
  omega

theorem Ev.le_trans (a b c : Ev) (h1 : a.le b = true) (h2 : b.le c = true) : a.le c = true := by
  simp only [Ev.le, Bool.or_eq_true, Bool.and_eq_true, decide_eq_true_eq, beq_iff_eq] at *
  omega

theorem Ev.le_iff (a b : Ev) :
    a.le b = true ↔ a.val < b.val ∨ a.val = b.val ∧ a.kind.rank ≤ b.kind.rank := by
  simp only [Ev.le, Bool.or_eq_true, Bool.and_eq_true, decide_eq_true_eq, beq_iff_eq]

theorem Ev.not_le_iff (a b : Ev) :
    a.le b = false ↔ ¬ (a.val < b.val ∨ a.val = b.val ∧ a.kind.rank ≤ b.kind.rank) := by
  rw [← Ev.le_iff]; simp

/-- Not empty. -/
def Proper (r : SRange) : Prop := r.endEv.le r.startEv = false

theorem proper_iff (r : SRange) : Proper r ↔ r.Has r.start := by
  cases h : r.incl <;>
    simp [Proper, SRange.Has, Ev.le, SRange.endEv, SRange.startEv, h, BoundKind.rank] <;> omega

theorem endEv_inj {r o : SRange} (h : r.endEv = o.endEv) : r = o := by
  simp only [SRange.endEv, Ev.mk.injEq] at h; exact h.2.2

theorem startEv_inj {r o : SRange} (h : r.startEv = o.startEv) : r = o := by
  simp only [SRange.startEv, Ev.mk.injEq] at h; exact h.2.2

theorem start_ne_end (r o : SRange) : r.startEv ≠ o.endEv := by
  simp only [SRange.startEv, SRange.endEv, ne_eq, Ev.mk.injEq]
  cases o.incl <;> simp

/-- Invariant of the sweep. -/
structure SInv (R : List SRange) (evs : List Ev) (st : List SRange) : Prop where
  sorted : evs.Pairwise (fun a b => a.le b = true)
  nodup : evs.Nodup
  stNodup : st.Nodup
  wf : ∀ e ∈ evs, e.range ∈ R ∧ (e = e.range.startEv ∨ e = e.range.endEv)
  sub : ∀ r ∈ st, r ∈ R
  stEnd : ∀ r ∈ st, r.endEv ∈ evs
  stStart : ∀ r ∈ st, r.startEv ∉ evs
  startEnd : ∀ r : SRange, r.startEv ∈ evs → r.endEv ∈ evs
  open_ : ∀ r : SRange, r.endEv ∈ evs → r ∈ st ∨ r.startEv ∈ evs
  order : st.Pairwise (fun top below => below.startEv.le top.startEv = true)
  before : ∀ r ∈ st, ∀ e ∈ evs, r.startEv.le e = true

theorem sinv_start {R : List SRange} {evs : List Ev} {st : List SRange} {x : SRange} (hR : ∀ r ∈ R, Proper r) (h : SInv R (x.startEv :: evs) st) :
    SInv R evs (x :: st) := by
  have hs := List.pairwise_cons.1 h.sorted
  have hn := List.nodup_cons.1 h.nodup
  have hx : x ∉ st := fun hx => h.stStart x hx (by simp)
  refine ⟨hs.2, hn.2, List.nodup_cons.2 ⟨hx, h.stNodup⟩, fun e he => h.wf e (by simp [he]), ?_, ?_, ?_, ?_,
    ?_, ?_, ?_⟩
  · intro r hr
    rcases List.mem_cons.1 hr with rfl | hr
    · exact (h.wf r.startEv (by simp)).1
    · exact h.sub r hr
  · intro r hr
    rcases List.mem_cons.1 hr with rfl | hr
    · rcases List.mem_cons.1 (h.startEnd r (by simp)) with h' | h'
      · exact absurd h'.symm (start_ne_end _ _)
      · exact h'
    · rcases List.mem_cons.1 (h.stEnd r hr) with h' | h'
      · exact absurd h'.symm (start_ne_end _ _)
      · exact h'
  · intro r hr hm
    rcases List.mem_cons.1 hr with rfl | hr
    · exact hn.1 hm
    · exact h.stStart r hr (by simp [hm])
  · intro r hr
    rcases List.mem_cons.1 (h.startEnd r (by simp [hr])) with h' | h'
    · exact absurd h'.symm (start_ne_end _ _)
    · exact h'
  · intro r hr
    rcases h.open_ r (by simp [hr]) with h' | h'
    · exact .inl (by simp [h'])
    · rcases List.mem_cons.1 h' with h' | h'
      · exact .inl (by simp [startEv_inj h'])
      · exact .inr h'
  · rw [List.pairwise_cons]
    exact ⟨fun r hr => h.before r hr _ (by simp), h.order⟩
  · intro r hr e he
    rcases List.mem_cons.1 hr with rfl | hr
    · exact hs.1 e he
    · exact h.before r hr e (by simp [he])

theorem sinv_end_mem {R : List SRange} {evs : List Ev} {st : List SRange} {x : SRange} (hR : ∀ r ∈ R, Proper r) (h : SInv R (x.endEv :: evs) st) :
    x ∈ st := by
  rcases h.open_ x (by simp) with h' | h'
  · exact h'
  · have hp := hR x (h.wf x.endEv (by simp)).1
    rcases List.mem_cons.1 h' with h' | h'
    · exact absurd h' (start_ne_end _ _)
    · have := (List.pairwise_cons.1 h.sorted).1 _ h'
      rw [hp] at this
      cases this

theorem sinv_end {R : List SRange} {evs : List Ev} {st : List SRange} {x : SRange} (hR : ∀ r ∈ R, Proper r) (h : SInv R (x.endEv :: evs) (x :: st)) :
    SInv R evs st := by
  have hs := List.pairwise_cons.1 h.sorted
  have hn := List.nodup_cons.1 h.nodup
  have hst := List.nodup_cons.1 h.stNodup
  refine ⟨hs.2, hn.2, hst.2, fun e he => h.wf e (by simp [he]), fun r hr => h.sub r (by simp [hr]), ?_, ?_,
    ?_, ?_, (List.pairwise_cons.1 h.order).2, fun r hr e he => h.before r (by simp [hr]) e (by simp [he])⟩
  · intro r hr
    rcases List.mem_cons.1 (h.stEnd r (by simp [hr])) with h' | h'
    · exact absurd (endEv_inj h' ▸ hr) hst.1
    · exact h'
  · intro r hr hm
    exact h.stStart r (by simp [hr]) (by simp [hm])
  · intro r hr
    rcases List.mem_cons.1 (h.startEnd r (by simp [hr])) with h' | h'
    · have := endEv_inj h'
      subst this
      exact absurd (List.mem_cons_of_mem _ hr) (h.stStart r (by simp))
    · exact h'
  · intro r hr
    rcases h.open_ r (by simp [hr]) with h' | h'
    · rcases List.mem_cons.1 h' with rfl | h'
      · exact absurd hr hn.1
      · exact .inl h'
    · rcases List.mem_cons.1 h' with h' | h'
      · exact absurd h' (start_ne_end _ _)
      · exact .inr h'

theorem popTo_spec (x : SRange) : ∀ (st : List SRange) (ov : Option SRange), x ∈ st →
    ∃ pre post, st = pre ++ x :: post ∧ (∀ y ∈ pre, y ≠ x) ∧
      popTo x st ov = (if pre = [] then ov else pre.getLast?, post)
  | y :: st, ov, h => by
    unfold popTo
    by_cases hy : y = x
    · subst hy
      exact ⟨[], st, rfl, by simp, by simp⟩
    · rw [if_neg hy]
      obtain ⟨pre, post, h1, h2, h3⟩ := popTo_spec x st (some y)
        ((List.mem_cons.1 h).resolve_left (fun h => hy h.symm))
      refine ⟨y :: pre, post, by simp [h1], ?_, ?_⟩
      · intro z hz
        rcases List.mem_cons.1 hz with rfl | hz
        · exact hy
        · exact h2 z hz
      · rw [h3]
        cases pre with
        | nil => simp
        | cons a as => simp [List.getLast?_cons_cons]

/-- What is reported: a range, and one that starts in it and does not end before it. -/
theorem sweep_sound {R : List SRange} (hR : ∀ r ∈ R, Proper r) : ∀ {evs : List Ev} {st : List SRange}
    {r o : SRange}, SInv R evs st → sweep evs st = some (r, o) → r ∈ R ∧ o ∈ R ∧ r ≠ o ∧
      r.startEv.le o.startEv = true ∧ o.startEv.le r.endEv = true ∧ r.endEv.le o.endEv = true
  | [], _, _, _, _, h => by simp [sweep] at h
  | e :: evs, st, r, o, hi, h => by
    unfold sweep at h
    obtain ⟨hmem, hwf⟩ := hi.wf e (by simp)
    split at h
    · next hk =>
      rcases hwf with he | he
      · rw [he] at hi
        exact sweep_sound hR (sinv_start hR hi) h
      · rw [he] at hk; simp only [SRange.endEv] at hk; split at hk <;> cases hk
    · next hk =>
      rcases hwf with he | he
      · rw [he] at hk; exact absurd rfl hk
      · generalize e.range = x at *
        subst he
        have hx := sinv_end_mem hR hi
        obtain ⟨pre, post, rfl, h2, h3⟩ := popTo_spec x st none hx
        rw [h3] at h
        cases hpre : pre with
        | nil =>
          subst hpre
          simp only [if_true] at h
          exact sweep_sound hR (sinv_end hR hi) h
        | cons a as =>
          have hne : pre ≠ [] := by simp [hpre]
          rw [if_neg hne, List.getLast?_eq_some_getLast hne] at h
          simp only [Option.some.injEq, Prod.mk.injEq] at h
          obtain ⟨rfl, rfl⟩ := h
          have ho : pre.getLast hne ∈ pre := List.getLast_mem hne
          generalize pre.getLast hne = o at *
          refine ⟨hmem, hi.sub o (by simp [ho]), fun h => h2 o ho h.symm, ?_, ?_, ?_⟩
          · exact (List.pairwise_append.1 hi.order).2.2 o ho x (by simp)
          · exact hi.before o (by simp [ho]) _ (by simp)
          · rcases List.mem_cons.1 (hi.stEnd o (by simp [ho])) with h' | h'
            · exact absurd (endEv_inj h') (h2 o ho)
            · exact (List.pairwise_cons.1 hi.sorted).1 _ h'

/-- Strictly before. -/
def Ev.lt (a b : Ev) : Prop := b.le a = false

/-- Nothing reported: no two ranges cross. -/
theorem sweep_none {R : List SRange} (hR : ∀ r ∈ R, Proper r) : ∀ {evs : List Ev} {st : List SRange},
    SInv R evs st → sweep evs st = none →
    st.Pairwise (fun top below => ¬ below.endEv.lt top.endEv) ∧
    (∀ r ∈ st, ∀ o : SRange, o.startEv ∈ evs → ¬ (o.startEv.lt r.endEv ∧ r.endEv.lt o.endEv)) ∧
    (∀ r o : SRange, r.startEv ∈ evs → o.startEv ∈ evs →
      ¬ (r.startEv.lt o.startEv ∧ o.startEv.lt r.endEv ∧ r.endEv.lt o.endEv))
  | [], st, hi, _ => by
    have : st = [] := by
      cases st with
      | nil => rfl
      | cons a as => exact absurd (hi.stEnd a (by simp)) (by simp)
    subst this
    simp
  | e :: evs, st, hi, h => by
    unfold sweep at h
    obtain ⟨hmem, hwf⟩ := hi.wf e (by simp)
    split at h
    · next hk =>
      rcases hwf with he | he
      case inr => rw [he] at hk; simp only [SRange.endEv] at hk; split at hk <;> cases hk
      generalize e.range = x at *
      subst he
      obtain ⟨h1, h2, h3⟩ := sweep_none hR (sinv_start hR hi) h
      rw [List.pairwise_cons] at h1
      refine ⟨h1.2, ?_, ?_⟩
      · intro r hr o ho
        rcases List.mem_cons.1 ho with ho | ho
        · rw [startEv_inj ho]
          exact fun hc => h1.1 r hr hc.2
        · exact h2 r (by simp [hr]) o ho
      · intro r o hr ho
        rcases List.mem_cons.1 ho with ho | ho
        · have := startEv_inj ho
          subst this
          rintro ⟨hc, _⟩
          rcases List.mem_cons.1 hr with hr | hr
          · rw [startEv_inj hr] at hc
            have := Ev.le_total o.startEv o.startEv
            simp only [Ev.lt] at hc
            simp [hc] at this
          · have := (List.pairwise_cons.1 hi.sorted).1 _ hr
            simp only [Ev.lt] at hc
            rw [hc] at this; cases this
        · rcases List.mem_cons.1 hr with hr | hr
          · have := startEv_inj hr
            subst this
            exact fun hc => h2 r (by simp) o (by assumption) hc.2
          · exact h3 r o hr ho
    · next hk =>
      rcases hwf with he | he
      case inl => rw [he] at hk; exact absurd rfl hk
      generalize e.range = x at *
      subst he
      have hx := sinv_end_mem hR hi
      obtain ⟨pre, post, rfl, h2, h3⟩ := popTo_spec x st none hx
      rw [h3] at h
      cases hpre : pre with
      | cons a as =>
        have hne : pre ≠ [] := by simp [hpre]
        rw [if_neg hne, List.getLast?_eq_some_getLast hne] at h
        cases h
      | nil =>
        subst hpre
        simp only [if_true] at h
        obtain ⟨h1, h2, h3⟩ := sweep_none hR (sinv_end hR hi) h
        have first : ∀ r : SRange, r.endEv ∈ evs → ¬ r.endEv.lt x.endEv := by
          intro r hr hc
          have := (List.pairwise_cons.1 hi.sorted).1 _ hr
          simp only [Ev.lt] at hc
          rw [hc] at this; cases this
        refine ⟨?_, ?_, ?_⟩
        · rw [List.nil_append, List.pairwise_cons]
          exact ⟨fun r hr => first r ((sinv_end hR hi).stEnd r hr), h1⟩
        · intro r hr o ho
          have ho' : o.startEv ∈ evs := (List.mem_cons.1 ho).resolve_left (start_ne_end _ _)
          rcases List.mem_cons.1 hr with rfl | hr
          · rintro ⟨hc, _⟩
            have := (List.pairwise_cons.1 hi.sorted).1 _ ho'
            simp only [Ev.lt] at hc
            rw [hc] at this; cases this
          · exact h2 r hr o ho'
        · intro r o hr ho
          exact h3 r o ((List.mem_cons.1 hr).resolve_left (start_ne_end _ _))
            ((List.mem_cons.1 ho).resolve_left (start_ne_end _ _))

theorem mem_events {rs : List SRange} {e : Ev} :
    e ∈ events rs ↔ ∃ r ∈ rs, e = r.startEv ∨ e = r.endEv := by
  induction rs with
  | nil => simp [events]
  | cons r rs ih => simp [events, ih, or_assoc]

theorem events_nodup : ∀ {rs : List SRange}, rs.Nodup → (events rs).Nodup
  | [], _ => by simp [events]
  | r :: rs, h => by
    obtain ⟨h1, h2⟩ := List.nodup_cons.1 h
    simp only [events, List.nodup_cons, List.mem_cons, mem_events, not_or, not_exists, not_and]
    refine ⟨⟨start_ne_end _ _, fun o ho => ⟨?_, start_ne_end _ _⟩⟩, fun o ho => ⟨?_, ?_⟩, events_nodup h2⟩
    · intro h; exact h1 (startEv_inj h ▸ ho)
    · intro h; exact start_ne_end _ _ h.symm
    · intro h; exact h1 (endEv_inj h ▸ ho)

theorem sinv_init {rs : List SRange} (hn : rs.Nodup) : SInv rs (sortBy Ev.le (events rs)) [] := by
  have hp := sortBy_perm Ev.le (events rs)
  have hmem : ∀ e, e ∈ sortBy Ev.le (events rs) ↔ ∃ r ∈ rs, e = r.startEv ∨ e = r.endEv := fun e => by
    rw [hp.mem_iff, mem_events]
  refine ⟨sortBy_sorted Ev.le_total Ev.le_trans _, hp.nodup_iff.2 (events_nodup hn), .nil, ?_, by simp,
    by simp, by simp, ?_, ?_, .nil, by simp⟩
  · intro e he
    obtain ⟨r, hr, rfl | rfl⟩ := (hmem e).1 he
    · exact ⟨hr, .inl rfl⟩
    · exact ⟨hr, .inr rfl⟩
  · intro r hr
    obtain ⟨o, ho, h | h⟩ := (hmem _).1 hr
    · rw [startEv_inj h]; exact (hmem _).2 ⟨o, ho, .inr rfl⟩
    · exact absurd h (start_ne_end _ _)
  · intro r hr
    obtain ⟨o, ho, h | h⟩ := (hmem _).1 hr
    · exact absurd h.symm (start_ne_end _ _)
    · rw [endEv_inj h]; exact .inr ((hmem _).2 ⟨o, ho, .inl rfl⟩)

/-- **C37, for ranges.** Two reported ranges are different and have a common value; neither lies strictly
inside the other. -/
theorem overlapping_sound {rs : List SRange} (hn : rs.Nodup) (hne : ∀ r ∈ rs, ∃ v, r.Has v) {r o : SRange}
    (h : overlapping rs = some (r, o)) :
    r ∈ rs ∧ o ∈ rs ∧ r ≠ o ∧ r.Has o.start ∧ o.Has o.start ∧ r.start ≤ o.start ∧ r.fin ≤ o.fin := by
  have hR : ∀ r ∈ rs, Proper r := by
    intro r hr
    rw [proper_iff]
    obtain ⟨v, h1, h2⟩ := hne r hr
    refine ⟨Int.le_refl _, ?_⟩
    split <;> simp_all <;> omega
  obtain ⟨h1, h2, h3, h4, h5, h6⟩ := sweep_sound hR (sinv_init hn) h
  refine ⟨h1, h2, h3, ?_, (proper_iff o).1 (hR o h2), ?_, ?_⟩
  · clear h1 h2 h3 h6
    obtain ⟨_, rs, rf, ri⟩ := r
    obtain ⟨_, os, of, oi⟩ := o
    simp only [Ev.le_iff, SRange.startEv, SRange.endEv, SRange.Has] at *
    cases ri <;> simp [BoundKind.rank] at * <;> omega
  · simp [Ev.le_iff, SRange.startEv] at h4
    omega
  · simp [Ev.le_iff, SRange.endEv] at h6
    omega

theorem not_crossing {r o : SRange} (h : ¬ (r.startEv.lt o.startEv ∧ o.startEv.lt r.endEv ∧ r.endEv.lt o.endEv))
    {u v w : Int} (hu : r.Has u) (hu' : u < o.start) (hv : r.Has v) (hv' : o.Has v) (hw : o.Has w)
    (hw' : ¬ r.Has w) : False := by
  apply h
  clear h
  obtain ⟨_, rs, rf, ri⟩ := r
  obtain ⟨_, os, of, oi⟩ := o
  simp only [Ev.lt, Ev.not_le_iff, SRange.startEv, SRange.endEv, SRange.Has] at *
  cases ri <;> cases oi <;> simp [BoundKind.rank] at * <;> omega

/-- **C37, for ranges (completeness).** If nothing is reported, any two ranges are disjoint or one contains
the other. -/
theorem overlapping_complete {rs : List SRange} (hn : rs.Nodup) (hne : ∀ r ∈ rs, ∃ v, r.Has v)
    (h : overlapping rs = none) : ∀ r ∈ rs, ∀ o ∈ rs,
    (∀ v, ¬ (r.Has v ∧ o.Has v)) ∨ (∀ v, r.Has v → o.Has v) ∨ (∀ v, o.Has v → r.Has v) := by
  have hR : ∀ r ∈ rs, Proper r := by
    intro r hr
    rw [proper_iff]
    obtain ⟨v, h1, h2⟩ := hne r hr
    refine ⟨Int.le_refl _, ?_⟩
    split <;> simp_all <;> omega
  have hx := (sweep_none hR (sinv_init hn) h).2.2
  have hmem : ∀ r ∈ rs, r.startEv ∈ sortBy Ev.le (events rs) := fun r hr =>
    (sortBy_perm Ev.le _).mem_iff.2 (mem_events.2 ⟨r, hr, .inl rfl⟩)
  intro r hr o ho
  by_cases h1 : ∃ v, r.Has v ∧ o.Has v
  · obtain ⟨v, hv, hv'⟩ := h1
    by_cases h2 : ∃ u, r.Has u ∧ ¬ o.Has u
    · obtain ⟨u, hu, hu'⟩ := h2
      by_cases h3 : ∃ w, o.Has w ∧ ¬ r.Has w
      · obtain ⟨w, hw, hw'⟩ := h3
        exfalso
        by_cases hlt : u < o.start
        · exact not_crossing (hx r o (hmem r hr) (hmem o ho)) hu hlt hv hv' hw hw'
        · -- `u` lies beyond `o`; then `w` lies before `r`
          refine not_crossing (hx o r (hmem o ho) (hmem r hr)) hw ?_ hv' hv hu hu'
          simp only [SRange.Has] at *
          cases hr : r.incl <;> cases ho : o.incl <;> simp [hr, ho] at * <;> omega
      · refine .inr (.inr fun v hv => ?_)
        by_cases h : r.Has v
        · exact h
        · exact absurd ⟨v, hv, h⟩ h3
    · refine .inr (.inl fun v hv => ?_)
      by_cases h : o.Has v
      · exact h
      · exact absurd ⟨v, hv, h⟩ h2
  · exact .inl fun v hv => h1 ⟨v, hv⟩

/-! ## From arms to ranges -/

theorem mem_allRanges {S : Sess} {ty : Ty} : ∀ {as : List RArm} {k : Nat} {r : SRange},
    r ∈ allRanges S ty k as ↔ ∃ i a, as[i]? = some a ∧ armRange S ty (k + i) a = some r
  | [], k, r => by simp [allRanges]
  | a :: as, k, r => by
    simp only [allRanges, List.mem_append, Option.mem_toList, mem_allRanges (as := as)]
    constructor
    · rintro (h | ⟨i, b, h1, h2⟩)
      · exact ⟨0, a, rfl, h⟩
      · exact ⟨i + 1, b, h1, by rw [← Nat.add_assoc, Nat.add_right_comm]; exact h2⟩
    · rintro ⟨i, b, h1, h2⟩
      cases i with
      | zero => simp at h1; subst h1; exact .inl h2
      | succ i => exact .inr ⟨i, b, h1, by rw [← Nat.add_assoc, Nat.add_right_comm] at h2; exact h2⟩

theorem armRange_span {S : Sess} {ty : Ty} {i : Nat} {a : RArm} {r : SRange}
    (h : armRange S ty i a = some r) : r.span = i ∧ a.guard = false := by
  unfold armRange at h
  split at h
  · cases h
  · next hg =>
    refine ⟨?_, by simpa using hg⟩
    split at h
    · split at h
      · split at h
        · cases h; rfl
        · cases h
      · cases h
    · split at h
      · cases h; rfl
      · cases h
    · cases h

theorem allRanges_nodup {S : Sess} {ty : Ty} : ∀ (as : List RArm) (k : Nat), (allRanges S ty k as).Nodup
  | [], k => .nil
  | a :: as, k => by
    simp only [allRanges]
    cases h : armRange S ty k a with
    | none => simpa using allRanges_nodup as (k + 1)
    | some r =>
      simp only [Option.toList_some, List.singleton_append, List.nodup_cons]
      refine ⟨?_, allRanges_nodup as (k + 1)⟩
      intro hm
      obtain ⟨i, b, h1, h2⟩ := mem_allRanges.1 hm
      have e1 := (armRange_span h).1
      have e2 := (armRange_span h2).1
      omega

theorem intValue_min {S : Sess} (hS : S.Native) {ty : Ty} {t : IT} (ht : ty.it S = some t) {c : Constant}
    (h : newNumericMin S ty = some c) {f : FullInt} (hf : intValue S c ty = some f) : f.toInt = t.min := by
  cases ty <;> simp only [newNumericMin, Option.some.injEq, reduceCtorEq] at h <;> subst h
  · rename_i ti
    obtain ⟨_, h8, h128⟩ := ti.bounds hS
    simp only [Ty.it, Option.some.injEq] at ht
    subst ht
    simp only [intValue, Option.some.injEq] at hf
    subst hf
    simp only [FullInt.toInt, sext]
    rw [sextW_eq (by omega) h128]
    have hin : IT.In ⟨true, ti.targetBits S⟩ (-(2 ^ (ti.targetBits S - 1))) := by
      have := two_pow_pos (ti.targetBits S - 1)
      simp only [IT.In, IT.min, IT.max, if_true]; omega
    refine IT.emod_inj _ (by simp only; omega) (IT.ofBits_in _ (by simp only; omega) _) hin ?_
    rw [IT.ofBits_emod, IT.toBits_cast]
    exact emod_pow h128 _
  · simp only [Ty.it, Option.some.injEq] at ht
    subst ht
    simp only [intValue, Option.some.injEq] at hf
    subst hf
    rfl

theorem intValue_max {S : Sess} (hS : S.Native) {ty : Ty} {t : IT} (ht : ty.it S = some t) {c : Constant}
    (h : newNumericMax S ty = some c) {f : FullInt} (hf : intValue S c ty = some f) : f.toInt = t.max := by
  cases ty <;> simp only [newNumericMax, Option.some.injEq, reduceCtorEq] at h <;> subst h
  · rename_i ti
    obtain ⟨_, h8, h128⟩ := ti.bounds hS
    simp only [Ty.it, Option.some.injEq] at ht
    subst ht
    simp only [intValue, Option.some.injEq] at hf
    subst hf
    simp only [FullInt.toInt, sext]
    rw [sextW_eq (by omega) h128]
    have hin : IT.In ⟨true, ti.targetBits S⟩ (2 ^ (ti.targetBits S - 1) - 1) := by
      have := two_pow_pos (ti.targetBits S - 1)
      simp only [IT.In, IT.min, IT.max, if_true]; omega
    refine IT.emod_inj _ (by simp only; omega) (IT.ofBits_in _ (by simp only; omega) _) hin ?_
    rw [IT.ofBits_emod, IT.toBits_cast]
    exact emod_pow h128 _
  · rename_i ti
    simp only [Ty.it, Option.some.injEq] at ht
    subst ht
    simp only [intValue, Option.some.injEq] at hf
    subst hf
    have cw := cast_two_pow (ti.targetBits S)
    have hw := Nat.two_pow_pos (ti.targetBits S)
    simp only [FullInt.toInt, IT.max, Bool.false_eq_true, if_false]
    omega

theorem rep_in {S : Sess} {ty : Ty} {t : IT} (ht : ty.it S = some t) {c : Constant} {v : Int}
    (h : Rep S ty c (.int v)) : t.In v := by
  cases c <;> simp only [Rep] at h
  obtain ⟨t', ht', hv, _⟩ := h
  rw [ht] at ht'
  cases ht'
  exact hv

theorem intValue_rep {S : Sess} (hS : S.Native) {ty : Ty} {c : Constant} {v : Int}
    (h : Rep S ty c (.int v)) {f : FullInt} (hf : intValue S c ty = some f) : f.toInt = v := by
  obtain ⟨g, h1, h2⟩ := intValue_sound hS h
  rw [hf] at h1
  cases h1
  exact h2

/-- The range of an arm has the values of its pattern. -/
theorem armRange_sound {S : Sess} (hS : S.Native) {ty : Ty} {t : IT} (ht : ty.it S = some t) {i : Nat}
    {p : Alt} {a : RArm} (hp : Seen S ty p a.pat) {r : SRange} (h : armRange S ty i a = some r) :
    t.In r.start ∧ ∀ v, t.In v → (p.Matches v ↔ r.Has v) := by
  obtain ⟨h8, h128⟩ := Ty.it_bounds hS ht
  unfold armRange at h
  split at h
  · cases h
  · obtain ⟨pat, g⟩ := a
    simp only at h hp
    cases pat with
    | other => simp at h
    | expr c =>
      cases p with
      | expr e =>
        cases c with
        | none => simp at h
        | some c =>
          simp only at h
          split at h
          · next f hf =>
            cases h
            have hrep := hp c rfl
            have := intValue_rep hS hrep hf
            refine ⟨by simp only; rw [this]; exact rep_in ht hrep, fun v _ => ?_⟩
            simp only [Alt.Matches, SRange.Has, if_true, this]
            omega
          · cases h
      | range => exact hp.elim
      | other => exact hp.elim
    | range cl cr incl =>
      cases p with
      | expr e => exact hp.elim
      | other => exact hp.elim
      | range l r' incl' =>
        obtain ⟨rfl, h1, h2, h3, h4, h5⟩ := hp
        simp only at h
        split at h
        case h_2 => cases h
        case h_1 c d hc hd =>
          split at h
          case h_2 => cases h
          case h_1 f g hf hg =>
            cases h
            have lo : t.In f.toInt ∧ ∀ v, t.In v →
                ((∀ x, l.map PExpr.value = some x → x ≤ v) ↔ f.toInt ≤ v) := by
              cases l with
              | none =>
                have : cl = none := h2.1 rfl
                subst this
                have e := intValue_min hS ht hc hf
                rw [e]
                have hmm : t.min ≤ t.max := by
                  have := t.ofBits_in (by omega) 0
                  exact Int.le_trans this.1 this.2
                exact ⟨⟨Int.le_refl _, hmm⟩, fun v hv => by simp [hv.1]⟩
              | some e =>
                cases cl with
                | none => exact absurd (h2.2 rfl) (by simp)
                | some k =>
                  simp only [boundConst] at hc
                  have hrep := h4 e k rfl rfl c hc
                  rw [intValue_rep hS hrep hf]
                  exact ⟨rep_in ht hrep, fun v _ => by simp⟩
            refine ⟨lo.1, fun v hv => ?_⟩
            simp only [Alt.Matches, InRange, SRange.Has]
            rw [lo.2 v hv]
            refine and_congr_right fun _ => ?_
            cases r' with
            | none =>
              have : cr = none := h3.1 rfl
              subst this
              have e := intValue_max hS ht hd hg
              rw [e, h1 rfl]
              simp [hv.2]
            | some e =>
              cases cr with
              | none => exact absurd (h3.2 rfl) (by simp)
              | some k =>
                simp only [boundConst] at hd
                have hrep := h5 e k rfl rfl d hd
                rw [intValue_rep hS hrep hg]
                simp

/-- The arms the lint sees are those of the match. -/
def SeenArms (S : Sess) (ty : Ty) (pats : List Alt) (arms : List RArm) : Prop :=
  ∀ (i : Nat) (a : RArm), arms[i]? = some a → ∃ p, pats[i]? = some p ∧ Seen S ty p a.pat

theorem ranges_nonempty {S : Sess} (hS : S.Native) {ty : Ty} {t : IT} (ht : ty.it S = some t)
    {pats : List Alt} {arms : List RArm} (hp : SeenArms S ty pats arms)
    (hne : ∀ p ∈ pats, ∃ v, t.In v ∧ p.Matches v) : ∀ r ∈ allRanges S ty 0 arms, ∃ v, r.Has v := by
  intro r hr
  obtain ⟨i, a, h1, h2⟩ := mem_allRanges.1 hr
  obtain ⟨p, h3, h4⟩ := hp i a h1
  obtain ⟨v, h5, h6⟩ := hne p (List.mem_of_getElem? h3)
  exact ⟨v, ((armRange_sound hS ht h4 h2).2 v h5).1 h6⟩

/-- **C37.** Two reported arms are different, have no guards, and some value of the matched type is matched
by both patterns. -/
theorem overlapping_arms_sound {S : Sess} (hS : S.Native) {ty : Ty} {t : IT} (ht : ty.it S = some t)
    {pats : List Alt} {arms : List RArm} (hp : SeenArms S ty pats arms)
    (hne : ∀ p ∈ pats, ∃ v, t.In v ∧ p.Matches v) {i j : Nat} (h : checkOverlap S ty arms = some (i, j)) :
    i ≠ j ∧ ∃ a b p q, arms[i]? = some a ∧ arms[j]? = some b ∧ a.guard = false ∧ b.guard = false ∧
      pats[i]? = some p ∧ pats[j]? = some q ∧ ∃ v, t.In v ∧ p.Matches v ∧ q.Matches v := by
  unfold checkOverlap at h
  split at h
  case isFalse => cases h
  case isTrue =>
    split at h
    case h_2 => cases h
    case h_1 r o hro =>
      cases h
      obtain ⟨h1, h2, h3, h4, h5, h6, h7⟩ := overlapping_sound (allRanges_nodup _ _)
        (ranges_nonempty hS ht hp hne) hro
      obtain ⟨i, a, ha, hra⟩ := mem_allRanges.1 h1
      obtain ⟨j, b, hb, hrb⟩ := mem_allRanges.1 h2
      obtain ⟨p, hpi, hpa⟩ := hp i a ha
      obtain ⟨q, hqj, hqb⟩ := hp j b hb
      obtain ⟨e1, g1⟩ := armRange_span hra
      obtain ⟨e2, g2⟩ := armRange_span hrb
      rw [Nat.zero_add] at e1 e2
      rw [e1, e2]
      have s1 := armRange_sound hS ht hpa hra
      have s2 := armRange_sound hS ht hqb hrb
      refine ⟨?_, a, b, p, q, ha, hb, g1, g2, hpi, hqj, o.start, s2.1, (s1.2 _ s2.1).2 h4, (s2.2 _ s2.1).2 h5⟩
      rintro rfl
      rw [ha] at hb
      cases hb
      rw [hra] at hrb
      cases hrb
      exact h3 rfl

/-- **C37 (completeness).** If nothing is reported, any two arms without guards whose bounds could be
evaluated have disjoint patterns, or one pattern covers the other. -/
theorem overlapping_arms_complete {S : Sess} (hS : S.Native) {ty : Ty} {t : IT} (ht : ty.it S = some t)
    {pats : List Alt} {arms : List RArm} (hlen : arms.length ≥ 2) (hp : SeenArms S ty pats arms)
    (hne : ∀ p ∈ pats, ∃ v, t.In v ∧ p.Matches v) (h : checkOverlap S ty arms = none)
    {i j : Nat} {a b : RArm} {p q : Alt} (ha : arms[i]? = some a) (hb : arms[j]? = some b)
    (hpi : pats[i]? = some p) (hqj : pats[j]? = some q)
    (hra : armRange S ty i a ≠ none) (hrb : armRange S ty j b ≠ none) :
    (∀ v, t.In v → ¬ (p.Matches v ∧ q.Matches v)) ∨ (∀ v, t.In v → p.Matches v → q.Matches v) ∨
      (∀ v, t.In v → q.Matches v → p.Matches v) := by
  unfold checkOverlap at h
  rw [if_pos hlen] at h
  split at h
  case h_1 => cases h
  case h_2 hno =>
    obtain ⟨r, hra⟩ := Option.ne_none_iff_exists'.1 hra
    obtain ⟨o, hrb⟩ := Option.ne_none_iff_exists'.1 hrb
    have m1 : r ∈ allRanges S ty 0 arms := mem_allRanges.2 ⟨i, a, ha, by rw [Nat.zero_add]; exact hra⟩
    have m2 : o ∈ allRanges S ty 0 arms := mem_allRanges.2 ⟨j, b, hb, by rw [Nat.zero_add]; exact hrb⟩
    obtain ⟨p', hpi', hpa⟩ := hp i a ha
    obtain ⟨q', hqj', hqb⟩ := hp j b hb
    rw [hpi] at hpi'; cases hpi'
    rw [hqj] at hqj'; cases hqj'
    have s1 := (armRange_sound hS ht hpa hra).2
    have s2 := (armRange_sound hS ht hqb hrb).2
    rcases overlapping_complete (allRanges_nodup _ _) (ranges_nonempty hS ht hp hne) hno r m1 o m2 with
      h | h | h
    · exact .inl fun v hv hm => h v ⟨(s1 v hv).1 hm.1, (s2 v hv).1 hm.2⟩
    · exact .inr (.inl fun v hv hm => (s2 v hv).2 (h v ((s1 v hv).1 hm)))
    · exact .inr (.inr fun v hv hm => (s1 v hv).2 (h v ((s2 v hv).1 hm)))

/-! Non-vacuity: for an `i8`, `..0`, `-5..=3` and a guarded `0..=1`. -/

def demoArms : List RArm :=
  [⟨.range none (some (some (.int 0))) false, false⟩,
   ⟨.range (some (some (.int 1))) (some (some (.int 2))) true, true⟩,
   ⟨.range (some (some (.int 251))) (some (some (.int 3))) true, false⟩]

def demoPats : List Alt :=
  [.range none (some (.lit 0 false)) false, .range (some (.lit 1 false)) (some (.lit 2 false)) true,
   .range (some (.lit 5 true)) (some (.lit 3 false)) true]

example : checkOverlap ⟨64, 64⟩ (.int .i8) demoArms = some (0, 2) := by decide +kernel

example : SeenArms ⟨64, 64⟩ (.int .i8) demoPats demoArms := by
  have rep : ∀ (e : PExpr) (n : Nat), IT.In ⟨true, 8⟩ e.value → n = IT.toBits ⟨true, 8⟩ e.value →
      Known ⟨64, 64⟩ (.int .i8) e (some (.int n)) := by
    intro e n h1 h2 k hk
    cases hk
    exact ⟨_, rfl, h1, h2⟩
  intro i a h
  match i, h with
  | 0, h =>
    cases h
    refine ⟨_, rfl, rfl, by simp, by simp, by simp, by simp, ?_⟩
    intro e c h1 h2; cases h1; cases h2; exact rep _ _ (by decide) (by decide)
  | 1, h =>
    cases h
    refine ⟨_, rfl, rfl, by simp, by simp, by simp, ?_, ?_⟩ <;>
      (intro e c h1 h2; cases h1; cases h2; exact rep _ _ (by decide) (by decide))
  | 2, h =>
    cases h
    refine ⟨_, rfl, rfl, by simp, by simp, by simp, ?_, ?_⟩ <;>
      (intro e c h1 h2; cases h1; cases h2; exact rep _ _ (by decide) (by decide))
  | n + 3, h => simp [demoArms] at h

example : checkOverlap ⟨64, 64⟩ (.uint .u8)
    [⟨.range (some (some (.int 1))) (some (some (.int 5))) false, false⟩,
     ⟨.range (some (some (.int 5))) none true, false⟩, ⟨.expr (some (.int 7)), false⟩] = none := by
  decide +kernel

end Verif.Pats
