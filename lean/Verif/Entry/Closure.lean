import Verif.Entry.Run

/-!
# The blocks that become closures
-/

namespace Verif.Entry

variable {σ V : Type} {S : Sys σ V} {k : Nat} {good : World σ V → Prop} {clean : V → Prop} (fa : Facts)

/-- The evaluation does not leave the code inside of `d` loops. -/
def Stays (d : Nat) (f : Flow V) : Prop := f ≠ .ret ∧ ∀ j, f = .leave j → j < d

theorem stays_val (d : Nat) (v : V) : Stays d (.val v) := ⟨(fun h => nomatch h), fun _ h => nomatch h⟩
theorem stays_panic (d : Nat) : Stays d (.panic : Flow V) := ⟨(fun h => nomatch h), fun _ h => nomatch h⟩

theorem Stays.step {d : Nat} {r : World σ V × Flow V} {f : World σ V → V → World σ V × Flow V} (h : Stays d r.2)
    (K : ∀ s v, Stays d (f s v).2) : Stays d (andThen r f id).2 := by
  obtain ⟨s, g⟩ := r
  cases g with
  | val v => exact K s v
  | leave j => exact h
  | ret => exact h
  | panic => exact h

theorem other_allow {st : Srch} {m : Bool} (h : (st.other m).allow = true) : st.tail = false ∧ m = true := by
  simp [Srch.other] at h; exact ⟨h.1.2, h.2⟩

variable (L : Law S fa.movable k good clean)
include L

mutual
theorem visit_stays : ∀ (d : Nat) (e : Ex) (st : Srch) (s : World σ V), (visit fa d e st).can = true →
    (visit fa d e st).allow = true → Stays d (eval S k e s).2
  | d, .ins own v, st, s, hc, ha => by
    have h0 := (visit_le fa d (.ins own v) st).can hc
    simp only [visit_ins fa h0] at hc ha
    generalize st.restore (walk fa d v { st with mapUsed := st.mapUsed || fa.keyUsesMap }) = st1 at hc ha
    by_cases hm : (st1.mapUsed || !own) = true
    · rw [if_pos hm] at hc; exact nomatch hc
    · rw [if_neg hm] at hc ha
      simp only [eval]
      exact (visit_stays d v _ _ hc ha).step fun s v => stays_val _ _
  | d, .part n, st, s, hc, ha => by simp only [eval]; exact stays_val _ _
  | d, .key, st, s, hc, ha => by simp only [eval]; exact stays_val _ _
  | d, .ite c t e, st, s, hc, ha => by
    have h0 := (visit_le fa d (.ite c t e) st).can hc
    simp only [visit_ite fa h0] at hc ha
    have i1 := visit_stays d c { st with single := false, tail := false } s
    generalize visit fa d c { st with single := false, tail := false } = st1 at i1 hc ha
    have i2 := visit_stays d t { st1 with tail := st.tail }
    have h2 := visit_le fa d t { st1 with tail := st.tail }
    generalize visit fa d t { st1 with tail := st.tail } = st2 at h2 i2 hc ha
    have i3 := visit_stays d e { st2 with mapUsed := st1.mapUsed, tail := st.tail }
    have h3 := visit_le fa d e { st2 with mapUsed := st1.mapUsed, tail := st.tail }
    generalize visit fa d e { st2 with mapUsed := st1.mapUsed, tail := st.tail } = st3 at h3 i3 hc ha
    simp only [eval]
    refine (i1 (h2.can (h3.can hc)) (h2.allow (h3.allow ha))).step fun s1 v => ?_
    split
    · exact i2 s1 (h3.can hc) (h3.allow ha)
    · exact i3 s1 hc ha
  | d, .when c t, st, s, hc, ha => by
    have h0 := (visit_le fa d (.when c t) st).can hc
    simp only [visit_when fa h0] at hc ha
    have h2 := visit_le fa d t (visit fa d c (st.other true))
    simp only [eval]
    refine (visit_stays d c _ s (h2.can hc) (h2.allow ha)).step fun s1 v => ?_
    split
    · exact (visit_stays d t _ s1 hc ha).step fun s v => stays_val _ _
    · exact stays_val _ _
  | d, .mtch e as, st, s, hc, ha => by
    have h0 := (visit_le fa d (.mtch e as) st).can hc
    simp only [visit_mtch fa h0] at hc ha
    have i1 := visit_stays d e { st with single := false, tail := false } s
    generalize visit fa d e { st with single := false, tail := false } = st1 at i1 hc ha
    have h2 := arms_le fa d as { st1 with tail := st.tail } st1.mapUsed
    simp only [eval]
    refine (i1 (h2.1 hc) (h2.2.2.2.2 ha)).step fun s1 v => ?_
    exact arms_stays d as _ _ v s1 hc ha
  | d, .loop b, st, s, hc, ha => by
    have h0 := (visit_le fa d (.loop b) st).can hc
    simp only [visit_loop fa h0] at hc ha
    have ib := visitB_stays (d + 1) b { st.notTail with single := false }
    generalize visitB fa (d + 1) b { st.notTail with single := false } = st1 at ib hc ha
    by_cases hl : (st1.edits.length != st.edits.length) = true
    · rw [if_pos hl] at hc; exact nomatch hc
    · rw [if_neg hl] at hc ha
      simp only [eval]
      exact L.loopStays _ d (fun s' => ib s' hc ha) s
  | d, .blk b, st, s, hc, ha => by
    have h0 := (visit_le fa d (.blk b) st).can hc
    simp only [visit_blk fa h0] at hc ha
    simp only [eval]
    exact visitB_stays d b st s hc ha
  | d, .asm n, st, s, hc, ha => by simp only [visit] at hc; exact nomatch hc
  | d, .op n args, st, s, hc, ha => by
    have h0 := (visit_le fa d (.op n args) st).can hc
    simp only [visit_op fa h0] at hc ha
    have hm := (other_allow ((all_le fa d args _).allow ha)).2
    have i := all_stays d args _ s hc ha
    simp only [eval]
    generalize evalAll S k args s = r at i
    obtain ⟨s1, vs⟩ := r
    cases vs with
    | ok vs => exact L.stays n d vs s1 hm
    | error f => exact i f rfl
  | d, .eIns w v, st, s, hc, ha => by simp only [visit] at hc; exact nomatch hc
theorem all_stays : ∀ (d : Nat) (es : Exs) (st : Srch) (s : World σ V), (visitAll fa d es st).can = true →
    (visitAll fa d es st).allow = true → ∀ f, (evalAll S k es s).2 = .error f → Stays d f
  | d, .nil, st, s, hc, ha, f, hf => by simp only [evalAll] at hf; exact nomatch hf
  | d, .cons e es, st, s, hc, ha, f, hf => by
    simp only [visitAll] at hc ha
    have h2 := all_le fa d es (visit fa d e st)
    have i1 := visit_stays d e st s (h2.can hc) (h2.allow ha)
    simp only [evalAll] at hf
    generalize eval S k e s = r at i1 hf
    obtain ⟨s1, g⟩ := r
    cases g with
    | val v =>
      simp only [andThen] at hf
      cases hr : (evalAll S k es s1).2 with
      | ok ws => rw [hr] at hf; exact nomatch hf
      | error g =>
        rw [hr] at hf; cases hf
        exact all_stays d es _ s1 hc ha _ hr
    | leave j => cases hf; exact i1
    | ret => cases hf; exact i1
    | panic => cases hf; exact i1
theorem visitB_stays : ∀ (d : Nat) (b : Blk) (st : Srch) (s : World σ V), (visitB fa d b st).can = true →
    (visitB fa d b st).allow = true → Stays d (evalB S k b s).2
  | d, .done, st, s, hc, ha => by simp only [evalB]; exact stays_val _ _
  | d, .tail e, st, s, hc, ha => by
    simp only [visitB] at hc ha; simp only [evalB]; exact visit_stays d e st s hc ha
  | d, .semi e r, st, s, hc, ha => by
    simp only [visitB] at hc ha
    simp only [evalB]
    have h1 := le_afterSemi (visit fa d e (st.enter r.isDone))
    cases hr : r.isDone with
    | true =>
      simp only [hr, if_true] at hc ha h1
      rw [isDone_eq hr]
      exact (visit_stays d e _ s (h1.can hc) (h1.allow ha)).step fun s v => by simp only [evalB]; exact stays_val _ _
    | false =>
      simp only [hr, Bool.false_eq_true, if_false] at hc ha h1
      have h2 := visitB_le fa d r { (visit fa d e (st.enter false)).afterSemi with tail := st.tail }
      exact (visit_stays d e _ s (h1.can (h2.can hc)) (h1.allow (h2.allow ha))).step
        fun s v => visitB_stays d r _ s hc ha
  | d, .stmt e r, st, s, hc, ha => by
    simp only [visitB] at hc ha
    simp only [evalB]
    cases hr : r.isDone with
    | true =>
      simp only [hr, if_true] at hc ha
      rw [isDone_eq hr]
      exact (visit_stays d e _ s hc ha).step fun s v => by simp only [evalB]; exact stays_val _ _
    | false =>
      simp only [hr, Bool.false_eq_true, if_false] at hc ha
      have h2 := visitB_le fa d r { visit fa d e (st.enter false) with tail := st.tail }
      exact (visit_stays d e _ s (h2.can hc) (h2.allow ha)).step fun s v => visitB_stays d r _ s hc ha
  | d, .letWild e r, st, s, hc, ha => by
    simp only [visitB] at hc ha
    simp only [evalB]
    cases hr : r.isDone with
    | true =>
      simp only [hr, if_true] at hc ha
      rw [isDone_eq hr]
      exact (visit_stays d e _ s hc ha).step fun s v => by simp only [evalB]; exact stays_val _ _
    | false =>
      simp only [hr, Bool.false_eq_true, if_false] at hc ha
      have h2 := visitB_le fa d r { visit fa d e (st.enter false).forInit with tail := st.tail }
      exact (visit_stays d e _ s (h2.can hc) (h2.allow ha)).step fun s v => visitB_stays d r _ s hc ha
  | d, .let_ p e r, st, s, hc, ha => by
    simp only [visitB] at hc ha
    simp only [evalB]
    cases hr : r.isDone with
    | true =>
      simp only [hr, if_true] at hc ha
      rw [isDone_eq hr]
      exact (visit_stays d e _ s hc ha).step fun s v => by simp only [evalB]; exact stays_val _ _
    | false =>
      simp only [hr, Bool.false_eq_true, if_false] at hc ha
      have h2 := visitB_le fa d r { visit fa d e (st.enter false).forInit with tail := st.tail }
      exact (visit_stays d e _ s (h2.can hc) (h2.allow ha)).step fun s v => visitB_stays d r _ _ hc ha
  | d, .letElse p e els r, st, s, hc, ha => by
    simp only [visitB] at hc ha
    simp only [evalB]
    have he := visitB_le fa d els (visit fa d e (st.enter r.isDone).forInit)
    cases hr : r.isDone with
    | true =>
      simp only [hr, if_true] at hc ha he
      rw [isDone_eq hr]
      refine (visit_stays d e _ s (he.can hc) (he.allow ha)).step fun s v => ?_
      split
      · simp only [evalB]; exact stays_val _ _
      · exact (visitB_stays d els _ s hc ha).step fun s v => stays_panic _
    | false =>
      simp only [hr, Bool.false_eq_true, if_false] at hc ha he
      have h2 := visitB_le fa d r { visitB fa d els (visit fa d e (st.enter false).forInit) with tail := st.tail }
      refine (visit_stays d e _ s (he.can (h2.can hc)) (he.allow (h2.allow ha))).step fun s v => ?_
      split
      · exact visitB_stays d r _ _ hc ha
      · exact (visitB_stays d els _ s (h2.can hc) (h2.allow ha)).step fun s v => stays_panic _
  | d, .decl r, st, s, hc, ha => by
    simp only [visitB] at hc ha
    simp only [evalB]
    cases hr : r.isDone with
    | true => rw [isDone_eq hr]; simp only [evalB]; exact stays_val _ _
    | false =>
      simp only [hr, Bool.false_eq_true, if_false] at hc ha
      exact visitB_stays d r _ s hc ha
  | d, .item r, st, s, hc, ha => by
    simp only [visitB] at hc ha
    simp only [evalB]
    cases hr : r.isDone with
    | true => rw [isDone_eq hr]; simp only [evalB]; exact stays_val _ _
    | false =>
      simp only [hr, Bool.false_eq_true, if_false] at hc ha
      exact visitB_stays d r _ s hc ha
theorem arms_stays : ∀ (d : Nat) (as : Arms) (st : Srch) (acc : Bool) (v : V) (s : World σ V),
    (visitArms fa d as st acc).1.can = true → (visitArms fa d as st acc).1.allow = true →
    Stays d (evalArms S k as v s).2
  | d, .nil, st, acc, v, s, hc, ha => by simp only [evalArms]; exact stays_panic _
  | d, .arm p e r, st, acc, v, s, hc, ha => by
    simp only [visitArms] at hc ha
    have h2 := arms_le fa d r { visit fa d e st with mapUsed := st.mapUsed, tail := st.tail }
      (acc || (visit fa d e st).mapUsed)
    simp only [evalArms]
    split
    · exact visit_stays d e st _ (h2.1 hc) (h2.2.2.2.2 ha)
    · exact arms_stays d r _ _ v s hc ha
  | d, .guarded p g e r, st, acc, v, s, hc, ha => by
    simp only [visitArms] at hc ha
    have i0 := visit_stays d g { st with tail := false } (S.bind p v s)
    generalize visit fa d g { st with tail := false } = st0 at i0 hc ha
    have i1 := visit_stays d e { st0 with tail := st.tail }
    have h1 := visit_le fa d e { st0 with tail := st.tail }
    generalize visit fa d e { st0 with tail := st.tail } = st1 at i1 h1 hc ha
    have h2 := arms_le fa d r { st1 with mapUsed := st0.mapUsed, tail := st.tail } (acc || st1.mapUsed)
    simp only [evalArms]
    split
    · refine (i0 (h1.can (h2.1 hc)) (h1.allow (h2.2.2.2.2 ha))).step fun s1 b => ?_
      split
      · exact i1 s1 (h2.1 hc) (h2.2.2.2.2 ha)
      · exact arms_stays d r _ _ v s1 hc ha
    · exact arms_stays d r _ _ v s hc ha
end

omit L in
/-- The block inserts a value, the closure returns it. -/
def Ret (k : Nat) (r r' : World σ V × Flow V) : Prop :=
  (∃ v u, r'.2 = .val v ∧ r.2 = .val u ∧ r.1 = r'.1.set k v) ∨ (r' = r ∧ ∀ v, r.2 ≠ .val v)

omit L in
theorem Ret.step {r : World σ V × Flow V} {f f' : World σ V → V → World σ V × Flow V}
    (K : ∀ s v, r = (s, .val v) → Ret k (f s v) (f' s v)) : Ret k (andThen r f id) (andThen r f' id) := by
  obtain ⟨s, g⟩ := r
  cases g with
  | val v => exact K s v rfl
  | leave j => exact .inr ⟨rfl, fun v hv => nomatch hv⟩
  | ret => exact .inr ⟨rfl, fun v hv => nomatch hv⟩
  | panic => exact .inr ⟨rfl, fun v hv => nomatch hv⟩

/-- What the search knows after an expression. -/
theorem after {occ : Bool} {d : Nat} {e : Ex} {st : Srch} {s s1 : World σ V} {v : V}
    (hc : (visit fa d e st).can = true) (hg : st.mapUsed = false → Good k good occ s)
    (h : eval S k e s = (s1, .val v)) :
    (visit fa d e st).mapUsed = false → Good k good occ s1 ∧ clean v := fun hm => by
  have o := (visit_out (occ := occ) fa L d e st true s hc hg).good hm
  rw [h] at o
  exact ⟨o.1, o.2 v rfl⟩

mutual
theorem clo_ret : ∀ (d : Nat) (e : Ex) (st : Srch) (s : World σ V), st.tail = true → (visit fa d e st).can = true →
    (visit fa d e st).allow = true → (st.mapUsed = false → Good k good false s) → idle e = false →
    Ret k (eval S k e s) (eval S k (clo e) s)
  | d, .ins own v, st, s, ht, hc, ha, hg, hi => by
    have h0 := (visit_le fa d (.ins own v) st).can hc
    simp only [visit_ins fa h0] at hc ha
    have h1 : Le st (st.restore (walk fa d v { st with mapUsed := st.mapUsed || fa.keyUsesMap })) := by
      have h := walk_le fa d v { st with mapUsed := st.mapUsed || fa.keyUsesMap }
      exact ⟨h.can, fun x => h.map (by simp [x]), h.edits, h.key, id⟩
    generalize st.restore (walk fa d v { st with mapUsed := st.mapUsed || fa.keyUsesMap }) = st1 at h1 hc ha
    by_cases hm : (st1.mapUsed || !own) = true
    · rw [if_pos hm] at hc; exact nomatch hc
    · have hm1 : st1.mapUsed = false := by
        cases hx : st1.mapUsed with
        | false => rfl
        | true => simp [hx] at hm
      have ho : own = true := by
        cases own with
        | true => rfl
        | false => simp at hm
      subst ho
      have hgs := hg (false_of_mono h1.map hm1)
      simp only [clo, eval, if_true, L.key s hgs.1]
      generalize eval S k v s = r
      obtain ⟨s1, f⟩ := r
      cases f with
      | val x => exact .inl ⟨x, _, rfl, rfl, rfl⟩
      | leave j => exact .inr ⟨rfl, fun v hv => nomatch hv⟩
      | ret => exact .inr ⟨rfl, fun v hv => nomatch hv⟩
      | panic => exact .inr ⟨rfl, fun v hv => nomatch hv⟩
  | d, .part n, st, s, ht, hc, ha, hg, hi => by simp [idle] at hi
  | d, .key, st, s, ht, hc, ha, hg, hi => by simp [idle] at hi
  | d, .ite c t e, st, s, ht, hc, ha, hg, hi => by
    have h0 := (visit_le fa d (.ite c t e) st).can hc
    simp only [visit_ite fa h0] at hc ha
    have h1 : ∀ s1 v, eval S k c s = (s1, .val v) →
      (visit fa d c { st with single := false, tail := false }).can = true → _ :=
      fun s1 v hv hcc => after fa L (occ := false) (st := { st with single := false, tail := false }) hcc hg hv
    generalize visit fa d c { st with single := false, tail := false } = st1 at h1 hc ha
    have i2 := clo_ret d t { st1 with tail := st.tail }
    have h2 := visit_le fa d t { st1 with tail := st.tail }
    generalize visit fa d t { st1 with tail := st.tail } = st2 at h2 i2 hc ha
    have i3 := clo_ret d e { st2 with mapUsed := st1.mapUsed, tail := st.tail }
    have h3 := visit_le fa d e { st2 with mapUsed := st1.mapUsed, tail := st.tail }
    generalize visit fa d e { st2 with mapUsed := st1.mapUsed, tail := st.tail } = st3 at h3 i3 hc ha
    simp only [idle, Bool.or_eq_false_iff] at hi
    simp only [clo, eval]
    refine Ret.step fun s1 v hv => ?_
    have hg1 := h1 s1 v hv (h2.can (h3.can hc))
    by_cases htv : S.truth v = true
    · rw [if_pos htv, if_pos htv]
      exact i2 s1 ht (h3.can hc) (h3.allow ha) (fun h => (hg1 h).1) hi.1
    · rw [if_neg htv, if_neg htv]
      exact i3 s1 ht hc ha (fun h => (hg1 h).1) hi.2
  | d, .when c t, st, s, ht, hc, ha, hg, hi => by
    have h0 := (visit_le fa d (.when c t) st).can hc
    simp only [visit_when fa h0] at hc ha
    have := (other_allow ((visit_le fa d c _).allow ((visit_le fa d t _).allow ha))).1
    rw [ht] at this; exact nomatch this
  | d, .mtch e as, st, s, ht, hc, ha, hg, hi => by
    have h0 := (visit_le fa d (.mtch e as) st).can hc
    simp only [visit_mtch fa h0] at hc ha
    have h1 : ∀ s1 v, eval S k e s = (s1, .val v) →
      (visit fa d e { st with single := false, tail := false }).can = true → _ :=
      fun s1 v hv hcc => after fa L (occ := false) (st := { st with single := false, tail := false }) hcc hg hv
    generalize visit fa d e { st with single := false, tail := false } = st1 at h1 hc ha
    have h2 := arms_le fa d as { st1 with tail := st.tail } st1.mapUsed
    simp only [idle] at hi
    simp only [clo, eval]
    refine Ret.step fun s1 v hv => ?_
    exact arms_ret d as _ _ v s1 (by exact ht) hc ha (h1 s1 v hv (h2.1 hc)) hi
  | d, .loop b, st, s, ht, hc, ha, hg, hi => by
    exfalso
    have h0 := (visit_le fa d (.loop b) st).can hc
    simp only [visit_loop fa h0] at hc ha
    have hb := visitB_le fa (d + 1) b { st.notTail with single := false }
    generalize visitB fa (d + 1) b { st.notTail with single := false } = st1 at hb hc ha
    by_cases hl : (st1.edits.length != st.edits.length) = true
    · rw [if_pos hl] at hc; exact nomatch hc
    · rw [if_neg hl] at ha
      have := hb.allow ha
      simp [Srch.notTail, ht] at this
  | d, .blk b, st, s, ht, hc, ha, hg, hi => by
    have h0 := (visit_le fa d (.blk b) st).can hc
    simp only [visit_blk fa h0] at hc ha
    simp only [idle] at hi
    simp only [clo, eval]
    exact cloB_ret d b st s ht hc ha hg hi
  | d, .asm n, st, s, ht, hc, ha, hg, hi => by simp only [visit] at hc; exact nomatch hc
  | d, .op n args, st, s, ht, hc, ha, hg, hi => by
    have h0 := (visit_le fa d (.op n args) st).can hc
    simp only [visit_op fa h0] at hc ha
    have := (other_allow ((all_le fa d args _).allow ha)).1
    rw [ht] at this; exact nomatch this
  | d, .eIns w v, st, s, ht, hc, ha, hg, hi => by simp only [visit] at hc; exact nomatch hc
theorem cloB_ret : ∀ (d : Nat) (b : Blk) (st : Srch) (s : World σ V), st.tail = true → (visitB fa d b st).can = true →
    (visitB fa d b st).allow = true → (st.mapUsed = false → Good k good false s) → idleB b = false →
    Ret k (evalB S k b s) (evalB S k (cloB b) s)
  | d, .done, st, s, ht, hc, ha, hg, hi => by
    simp only [visitB] at ha; simp [Srch.notTail, ht] at ha
  | d, .tail e, st, s, ht, hc, ha, hg, hi => by
    simp only [visitB] at hc ha
    simp only [idleB] at hi
    simp only [cloB, evalB]
    exact clo_ret d e st s ht hc ha hg hi
  | d, .semi e r, st, s, ht, hc, ha, hg, hi => by
    simp only [visitB] at hc ha
    have h1 := le_afterSemi (visit fa d e (st.enter r.isDone))
    cases hr : r.isDone with
    | true =>
      simp only [hr, if_true] at hc ha h1
      simp only [idleB, hr, if_true] at hi
      simp only [cloB, hr, if_true, evalB]
      rw [isDone_eq hr]
      have i := clo_ret d e (st.enter true) s ht (h1.can hc) (h1.allow ha) hg hi
      rcases i with ⟨v, u, h1, h2, h3⟩ | ⟨h1, h2⟩
      · refine .inl ⟨v, S.unit, h1, ?_, ?_⟩
        · simp only [andThen, h2, evalB]
        · simp only [andThen, h2, evalB, h3]
      · rw [h1]
        refine .inr ?_
        generalize eval S k e s = q at h2
        obtain ⟨s1, g⟩ := q
        cases g with
        | val v => exact (h2 v rfl).elim
        | leave j => exact ⟨rfl, h2⟩
        | ret => exact ⟨rfl, h2⟩
        | panic => exact ⟨rfl, h2⟩
    | false =>
      simp only [hr, Bool.false_eq_true, if_false] at hc ha h1
      simp only [idleB, hr, Bool.false_eq_true, if_false] at hi
      simp only [cloB, hr, Bool.false_eq_true, if_false, evalB]
      have h2 := visitB_le fa d r { (visit fa d e (st.enter false)).afterSemi with tail := st.tail }
      refine Ret.step fun s1 v hv => ?_
      have hg1 := after fa L (occ := false) (st := st.enter false) (h1.can (h2.can hc)) hg hv
      refine cloB_ret d r _ s1 (by exact ht) hc ha (fun h => (hg1 ?_).1) hi
      rw [← afterSemi_map]; exact h
  | d, .stmt e r, st, s, ht, hc, ha, hg, hi => by
    simp only [visitB] at hc ha
    cases hr : r.isDone with
    | true =>
      simp only [hr, if_true] at hc ha
      simp only [idleB, hr, if_true] at hi
      simp only [cloB, hr, if_true, evalB]
      rw [isDone_eq hr]
      have i := clo_ret d e (st.enter true) s ht hc ha hg hi
      rcases i with ⟨v, u, h1, h2, h3⟩ | ⟨h1, h2⟩
      · refine .inl ⟨v, S.unit, h1, ?_, ?_⟩
        · simp only [andThen, h2, evalB]
        · simp only [andThen, h2, evalB, h3]
      · rw [h1]
        refine .inr ?_
        generalize eval S k e s = q at h2
        obtain ⟨s1, g⟩ := q
        cases g with
        | val v => exact (h2 v rfl).elim
        | leave j => exact ⟨rfl, h2⟩
        | ret => exact ⟨rfl, h2⟩
        | panic => exact ⟨rfl, h2⟩
    | false =>
      simp only [hr, Bool.false_eq_true, if_false] at hc ha
      simp only [idleB, hr, Bool.false_eq_true, if_false] at hi
      simp only [cloB, hr, Bool.false_eq_true, if_false, evalB]
      have h2 := visitB_le fa d r { visit fa d e (st.enter false) with tail := st.tail }
      refine Ret.step fun s1 v hv => ?_
      have hg1 := after fa L (occ := false) (st := st.enter false) (h2.can hc) hg hv
      exact cloB_ret d r _ s1 (by exact ht) hc ha (fun h => (hg1 h).1) hi
  | d, .letWild e r, st, s, ht, hc, ha, hg, hi => by
    simp only [visitB] at hc ha
    simp only [idleB] at hi
    simp only [cloB, evalB]
    cases hr : r.isDone with
    | true =>
      simp only [hr, if_true] at hc ha
      have := (visit_le fa d e _).allow ha
      simp [Srch.forInit, Srch.notTail, Srch.enter, ht] at this
    | false =>
      simp only [hr, Bool.false_eq_true, if_false] at hc ha
      have h2 := visitB_le fa d r { visit fa d e (st.enter false).forInit with tail := st.tail }
      refine Ret.step fun s1 v hv => ?_
      have hg1 := after fa L (occ := false) (st := (st.enter false).forInit) (h2.can hc) hg hv
      exact cloB_ret d r _ s1 (by exact ht) hc ha (fun h => (hg1 h).1) hi
  | d, .let_ p e r, st, s, ht, hc, ha, hg, hi => by
    simp only [visitB] at hc ha
    simp only [idleB] at hi
    simp only [cloB, evalB]
    cases hr : r.isDone with
    | true =>
      simp only [hr, if_true] at hc ha
      have := (visit_le fa d e _).allow ha
      simp [Srch.forInit, Srch.notTail, Srch.enter, ht] at this
    | false =>
      simp only [hr, Bool.false_eq_true, if_false] at hc ha
      have h2 := visitB_le fa d r { visit fa d e (st.enter false).forInit with tail := st.tail }
      refine Ret.step fun s1 v hv => ?_
      have hg1 := after fa L (occ := false) (st := (st.enter false).forInit) (h2.can hc) hg hv
      refine cloB_ret d r _ _ (by exact ht) hc ha (fun h => ?_) hi
      obtain ⟨g1, g2⟩ := L.bind p v s1 (hg1 h).1.1 (hg1 h).2
      exact ⟨g1, by rw [g2]; exact (hg1 h).1.2⟩
  | d, .letElse p e els r, st, s, ht, hc, ha, hg, hi => by
    simp only [visitB] at hc ha
    simp only [idleB] at hi
    simp only [cloB, evalB]
    have he := visitB_le fa d els (visit fa d e (st.enter r.isDone).forInit)
    cases hr : r.isDone with
    | true =>
      simp only [hr, if_true] at hc ha he
      have := (visit_le fa d e _).allow (he.allow ha)
      simp [Srch.forInit, Srch.notTail, Srch.enter, ht] at this
    | false =>
      simp only [hr, Bool.false_eq_true, if_false] at hc ha he
      have h2 := visitB_le fa d r { visitB fa d els (visit fa d e (st.enter false).forInit) with tail := st.tail }
      refine Ret.step fun s1 v hv => ?_
      have hg1 := after fa L (occ := false) (st := (st.enter false).forInit) (he.can (h2.can hc)) hg hv
      by_cases htv : S.test p v s1 = true
      · rw [if_pos htv, if_pos htv]
        refine cloB_ret d r _ _ (by exact ht) hc ha (fun h => ?_) hi
        have h := false_of_mono he.map h
        obtain ⟨g1, g2⟩ := L.bind p v s1 (hg1 h).1.1 (hg1 h).2
        exact ⟨g1, by rw [g2]; exact (hg1 h).1.2⟩
      · rw [if_neg htv, if_neg htv]
        exact Ret.step fun s2 w _ => .inr ⟨rfl, fun v hv => nomatch hv⟩
  | d, .decl r, st, s, ht, hc, ha, hg, hi => by
    simp only [visitB] at hc ha
    simp only [idleB, Bool.or_eq_false_iff] at hi
    simp only [cloB, evalB]
    simp only [hi.1, Bool.false_eq_true, if_false] at hc ha
    exact cloB_ret d r _ s (by exact ht) hc ha hg hi.2
  | d, .item r, st, s, ht, hc, ha, hg, hi => by
    simp only [visitB] at hc ha
    simp only [idleB] at hi
    simp only [cloB, evalB]
    cases hr : r.isDone with
    | true =>
      simp only [hr, if_true] at ha
      simp [Srch.notTail, Srch.enter, ht] at ha
    | false =>
      simp only [hr, Bool.false_eq_true, if_false] at hc ha
      exact cloB_ret d r _ s (by exact ht) hc ha hg hi
theorem arms_ret : ∀ (d : Nat) (as : Arms) (st : Srch) (acc : Bool) (v : V) (s : World σ V), st.tail = true →
    (visitArms fa d as st acc).1.can = true → (visitArms fa d as st acc).1.allow = true →
    (st.mapUsed = false → Good k good false s ∧ clean v) → idleArms as = false →
    Ret k (evalArms S k as v s) (evalArms S k (cloArms as) v s)
  | d, .nil, st, acc, v, s, ht, hc, ha, hg, hi => by
    simp only [cloArms, evalArms]; exact .inr ⟨rfl, fun v hv => nomatch hv⟩
  | d, .arm p e r, st, acc, v, s, ht, hc, ha, hg, hi => by
    simp only [visitArms] at hc ha
    have h2 := arms_le fa d r { visit fa d e st with mapUsed := st.mapUsed, tail := st.tail }
      (acc || (visit fa d e st).mapUsed)
    simp only [idleArms, Bool.or_eq_false_iff] at hi
    simp only [cloArms, evalArms]
    by_cases htv : S.test p v s = true
    · rw [if_pos htv, if_pos htv]
      refine clo_ret d e st _ ht (h2.1 hc) (h2.2.2.2.2 ha) (fun h => ?_) hi.1
      obtain ⟨g1, g2⟩ := L.bind p v s (hg h).1.1 (hg h).2
      exact ⟨g1, by rw [g2]; exact (hg h).1.2⟩
    · rw [if_neg htv, if_neg htv]
      exact arms_ret d r _ _ v s (by exact ht) hc ha hg hi.2
  | d, .guarded p g e r, st, acc, v, s, ht, hc, ha, hg, hi => by
    simp only [visitArms] at hc ha
    have a0 : ∀ s1 b, eval S k g (S.bind p v s) = (s1, .val b) →
        (visit fa d g { st with tail := false }).can = true → _ :=
      fun s1 b hb hcc => after fa L (occ := false) (st := { st with tail := false }) hcc (fun h => by
        obtain ⟨g1, g2⟩ := L.bind p v s (hg h).1.1 (hg h).2
        exact ⟨g1, by rw [g2]; exact (hg h).1.2⟩) hb
    have h0 := visit_le fa d g { st with tail := false }
    generalize visit fa d g { st with tail := false } = st0 at a0 h0 hc ha
    have i1 := clo_ret d e { st0 with tail := st.tail }
    have h1 := visit_le fa d e { st0 with tail := st.tail }
    generalize visit fa d e { st0 with tail := st.tail } = st1 at i1 h1 hc ha
    have h2 := arms_le fa d r { st1 with mapUsed := st0.mapUsed, tail := st.tail } (acc || st1.mapUsed)
    simp only [idleArms, Bool.or_eq_false_iff] at hi
    simp only [cloArms, evalArms]
    by_cases htv : S.test p v s = true
    · rw [if_pos htv, if_pos htv]
      refine Ret.step fun s1 b hb => ?_
      have hg1 := a0 s1 b hb (h1.can (h2.1 hc))
      by_cases htb : S.truth b = true
      · rw [if_pos htb, if_pos htb]
        exact i1 s1 ht (h2.1 hc) (h2.2.2.2.2 ha) (fun h => (hg1 h).1) hi.1
      · rw [if_neg htb, if_neg htb]
        exact arms_ret d r _ _ v s1 (by exact ht) hc ha (fun h => ⟨(hg1 h).1, (hg (false_of_mono h0.map h)).2⟩) hi.2
    · rw [if_neg htv, if_neg htv]
      exact arms_ret d r _ _ v s (by exact ht) hc ha (fun h => hg (false_of_mono h0.map h)) hi.2
end

end Verif.Entry
