import Verif.Entry.Fixed
import Verif.Entry.Spec

/-!
# The blocks with entries do the same
-/

namespace Verif.Entry

variable {σ V : Type} {S : Sys σ V} {k : Nat} {good : World σ V → Prop} {clean : V → Prop} (fa : Facts)

/-- The key is stable, and it is in the map or not. -/
def Good (k : Nat) (good : World σ V → Prop) (occ : Bool) (s : World σ V) : Prop :=
  good s ∧ (s.map k).isSome = occ

/-- The same result, and the key is still stable if the map was not used. -/
structure Out (k : Nat) (good : World σ V → Prop) (clean : V → Prop) (occ used m : Bool) (r r' : World σ V × Flow V) :
    Prop where
  state : r'.1 = r.1
  flow : Same used r.2 r'.2
  good : m = false → Good k good occ r.1 ∧ ∀ v, r.2 = .val v → clean v

theorem Same.refl (used : Bool) (f : Flow V) : Same used f f := by
  cases f <;> simp [Same]

theorem Same.eq {f g : Flow V} (h : Same true f g) : f = g := by
  cases f <;> cases g <;> simp_all [Same]

theorem Same.of_true {used : Bool} {f g : Flow V} (h : Same true f g) : Same used f g := by
  rw [h.eq]; exact .refl _ _

variable {occ : Bool}

theorem Out.of_true {used m : Bool} {r r' : World σ V × Flow V} (h : Out k good clean occ true m r r') :
    Out k good clean occ used m r r' := ⟨h.state, h.flow.of_true, h.good⟩

theorem Out.mono {used m m' : Bool} {r r' : World σ V × Flow V} (h : Out k good clean occ used m r r')
    (hm : m' = false → m = false) : Out k good clean occ used m' r r' := ⟨h.state, h.flow, fun x => h.good (hm x)⟩

/-- One expression after the other. -/
theorem Out.step {used used1 m m1 : Bool} {r r' : World σ V × Flow V}
    {f f' : World σ V → V → World σ V × Flow V}
    (o : Out k good clean occ used1 m1 r r') (hm : m = false → m1 = false)
    (K : ∀ s v v', r = (s, .val v) → (used1 = true → v' = v) → (m1 = false → Good k good occ s ∧ clean v) →
      Out k good clean occ used m (f s v) (f' s v')) :
    Out k good clean occ used m (andThen r f id) (andThen r' f' id) := by
  obtain ⟨s, g⟩ := r
  obtain ⟨s', g'⟩ := r'
  obtain ⟨h1, h2, h3⟩ := o
  simp only at h1 h2 h3
  subst h1
  cases g with
  | val v =>
    cases g' with
    | val v' =>
      exact K s' v v' rfl (fun hu => (h2 hu).symm) (fun h => ⟨(h3 h).1, (h3 h).2 v rfl⟩)
    | leave j => simp [Same] at h2
    | ret => simp [Same] at h2
    | panic => simp [Same] at h2
  | leave j =>
    have : g' = .leave j := by cases g' <;> simp_all [Same]
    subst this
    exact ⟨rfl, .refl _ _, fun h => ⟨(h3 (hm h)).1, fun v hv => nomatch hv⟩⟩
  | ret =>
    have : g' = .ret := by cases g' <;> simp_all [Same]
    subst this
    exact ⟨rfl, .refl _ _, fun h => ⟨(h3 (hm h)).1, fun v hv => nomatch hv⟩⟩
  | panic =>
    have : g' = .panic := by cases g' <;> simp_all [Same]
    subst this
    exact ⟨rfl, .refl _ _, fun h => ⟨(h3 (hm h)).1, fun v hv => nomatch hv⟩⟩

/-- The operands have been evaluated. -/
structure AOut (k : Nat) (good : World σ V → Prop) (clean : V → Prop) (occ : Bool) (r : World σ V × Vals V) : Prop where
  good : Good k good occ r.1
  clean : ∀ vs, r.2 = .ok vs → ∀ v ∈ vs, clean v
  stop : ∀ f, r.2 = .error f → ∀ v, f ≠ .val v

theorem isDone_eq {r : Blk} (h : r.isDone = true) : r = .done := by
  cases r <;> simp [Blk.isDone] at h; rfl

theorem false_of_mono {a b : Bool} (h : a = true → b = true) (hb : b = false) : a = false := by
  cases a with
  | false => rfl
  | true => rw [h rfl] at hb; exact nomatch hb

/-- Unused flags do not matter. -/
theorem enter_map (st : Srch) (l : Bool) : (st.enter l).mapUsed = st.mapUsed := by
  unfold Srch.enter; split <;> rfl

theorem afterSemi_map (st : Srch) : st.afterSemi.mapUsed = st.mapUsed := by
  unfold Srch.afterSemi; split <;> rfl

theorem afterSemi_can (st : Srch) : st.afterSemi.can = st.can := by
  unfold Srch.afterSemi; split <;> rfl

variable (L : Law S fa.movable k good clean)
include L

mutual
theorem visit_out : ∀ (d : Nat) (e : Ex) (st : Srch) (used : Bool) (s : World σ V), (visit fa d e st).can = true →
    (st.mapUsed = false → Good k good occ s) →
    Out k good clean occ used (visit fa d e st).mapUsed (eval S k e s) (eval S k (rw_ occ used e) s)
  | d, .ins own v, st, used, s, hc, hg => by
    have h0 := (visit_le fa d (.ins own v) st).can hc
    simp only [visit_ins fa h0] at hc ⊢
    have h1 : Le st (st.restore (walk fa d v { st with mapUsed := st.mapUsed || fa.keyUsesMap })) := by
      have h := walk_le fa d v { st with mapUsed := st.mapUsed || fa.keyUsesMap }
      exact ⟨h.can, fun x => h.map (by simp [x]), h.edits, h.key, id⟩
    have hw := walk_good d v { st with mapUsed := st.mapUsed || fa.keyUsesMap } s
    have hr1 : (st.restore (walk fa d v { st with mapUsed := st.mapUsed || fa.keyUsesMap })).can =
      (walk fa d v { st with mapUsed := st.mapUsed || fa.keyUsesMap }).can := rfl
    have hr2 : (st.restore (walk fa d v { st with mapUsed := st.mapUsed || fa.keyUsesMap })).mapUsed =
      (walk fa d v { st with mapUsed := st.mapUsed || fa.keyUsesMap }).mapUsed := rfl
    rw [← hr1, ← hr2] at hw
    generalize st.restore (walk fa d v { st with mapUsed := st.mapUsed || fa.keyUsesMap }) = st1 at h1 hw hc ⊢
    by_cases hm : (st1.mapUsed || !own) = true
    · rw [if_pos hm] at hc; exact nomatch hc
    · rw [if_neg hm] at hc
      simp only [if_neg hm]
      have hm1 : st1.mapUsed = false := by
        cases hx : st1.mapUsed with
        | false => rfl
        | true => simp [hx] at hm
      have ho : own = true := by
        cases own with
        | true => rfl
        | false => simp at hm
      subst ho
      have hgs := hg (false_of_mono h1.map hm1)
      have h2 := visit_le fa d v { st1.record with tail := false }
      have hna : ∀ n, v ≠ .asm n := fun n hn => by subst hn; simp only [visit] at hc; exact nomatch hc
      have hg1 := hw hna (h2.can hc) hm1 (fun _ => hgs)
      have hmu : (visit fa d v { st1.record with tail := false }).mapUsed = true := h2.map rfl
      simp only [rw_, eval, if_true, L.key s hgs.1]
      generalize eval S k v s = r at hg1
      obtain ⟨s1, f⟩ := r
      cases f with
      | val x =>
        refine ⟨rfl, ?_, fun h => ?_⟩
        · cases used with
          | false => simp [andThen, Same]
          | true =>
            simp only [andThen, Same]
            intro _
            cases occ with
            | true =>
              obtain ⟨y, hy⟩ := Option.isSome_iff_exists.1 hg1.2
              simp only at hy
              rw [hy]; rfl
            | false =>
              have hy : s1.map k = none := by simpa using hg1.2
              rw [hy]; rfl
        · rw [hmu] at h; exact nomatch h
      | leave j => exact ⟨rfl, .refl _ _, fun h => by rw [hmu] at h; exact nomatch h⟩
      | ret => exact ⟨rfl, .refl _ _, fun h => by rw [hmu] at h; exact nomatch h⟩
      | panic => exact ⟨rfl, .refl _ _, fun h => by rw [hmu] at h; exact nomatch h⟩
  | d, .part n, st, used, s, hc, hg => by
    have h0 := (visit_le fa d (.part n) st).can hc
    simp only [visit_part fa h0, rw_]
    exact ⟨rfl, .refl _ _, fun h => nomatch h⟩
  | d, .key, st, used, s, hc, hg => by
    have h0 := (visit_le fa d .key st).can hc
    simp only [visit_key fa h0, rw_]
    refine ⟨rfl, .refl _ _, fun h => ?_⟩
    have hgs := hg h
    simp only [eval, L.key s hgs.1]
    exact ⟨hgs, fun v hv => by cases hv; exact L.ofKey⟩
  | d, .ite c t e, st, used, s, hc, hg => by
    have h0 := (visit_le fa d (.ite c t e) st).can hc
    simp only [visit_ite fa h0] at hc ⊢
    have i1 := visit_out d c { st with single := false, tail := false } true s
    generalize visit fa d c { st with single := false, tail := false } = st1 at i1 hc ⊢
    have i2 := visit_out d t { st1 with tail := st.tail } true
    have h2 := visit_le fa d t { st1 with tail := st.tail }
    generalize visit fa d t { st1 with tail := st.tail } = st2 at h2 i2 hc ⊢
    have i3 := visit_out d e { st2 with mapUsed := st1.mapUsed, tail := st.tail } true
    have h3 := visit_le fa d e { st2 with mapUsed := st1.mapUsed, tail := st.tail }
    generalize visit fa d e { st2 with mapUsed := st1.mapUsed, tail := st.tail } = st3 at h3 i3 hc ⊢
    simp only [rw_, eval]
    refine (i1 (h2.can (h3.can hc)) hg).step (m := st2.mapUsed || st3.mapUsed)
      (fun h => false_of_mono h2.map (by simp at h; exact h.1)) fun s1 v v' _ hv hgv => ?_
    rw [hv rfl]
    by_cases ht : S.truth v = true
    · rw [if_pos ht, if_pos ht]
      exact ((i2 s1 (h3.can hc) fun h => (hgv h).1).mono fun h => by simp at h; exact h.1).of_true
    · rw [if_neg ht, if_neg ht]
      exact ((i3 s1 hc fun h => (hgv h).1).mono fun h => by simp at h; exact h.2).of_true
  | d, .when c t, st, used, s, hc, hg => by
    have h0 := (visit_le fa d (.when c t) st).can hc
    simp only [visit_when fa h0] at hc ⊢
    have h2 := visit_le fa d t (visit fa d c (st.other true))
    have i1 := visit_out d c (st.other true) true s (h2.can hc) hg
    simp only [rw_, eval]
    refine i1.step (fun h => false_of_mono h2.map h) fun s1 v v' _ hv hgv => ?_
    rw [hv rfl]
    by_cases ht : S.truth v = true
    · rw [if_pos ht, if_pos ht]
      refine (visit_out d t _ false s1 hc fun h => (hgv h).1).step id fun s2 w w' _ _ hgw => ?_
      exact ⟨rfl, .refl _ _, fun h => ⟨(hgw h).1, fun x hx => by cases hx; exact L.unit⟩⟩
    · rw [if_neg ht, if_neg ht]
      exact ⟨rfl, .refl _ _, fun h => ⟨(hgv (false_of_mono h2.map h)).1, fun x hx => by cases hx; exact L.unit⟩⟩
  | d, .mtch e as, st, used, s, hc, hg => by
    have h0 := (visit_le fa d (.mtch e as) st).can hc
    simp only [visit_mtch fa h0] at hc ⊢
    have i1 := visit_out d e { st with single := false, tail := false } true s
    generalize visit fa d e { st with single := false, tail := false } = st1 at i1 hc ⊢
    have h2 := arms_le fa d as { st1 with tail := st.tail } st1.mapUsed
    have i2 := arms_out d as { st1 with tail := st.tail } st1.mapUsed (used || !as.isOne)
    generalize visitArms fa d as { st1 with tail := st.tail } st1.mapUsed = r at h2 i2 hc ⊢
    have hfalse : r.2 = false → st1.mapUsed = false := fun h => by
      cases hx : st1.mapUsed with
      | false => rfl
      | true => rw [h2.2.1 hx] at h; exact nomatch h
    simp only [rw_, eval]
    refine (i1 (h2.1 hc) hg).step (m := r.2) hfalse fun s1 v v' _ hv hgv => ?_
    rw [hv rfl]
    have o := i2 v s1 hc hgv id
    cases used with
    | true => exact o.of_true
    | false => exact ⟨o.state, by
        have := o.flow
        cases hx : as.isOne with
        | true => simpa [hx] using this
        | false => rw [hx] at this; exact (Same.of_true (by simpa using this)), o.good⟩
  | d, .loop b, st, used, s, hc, hg => by
    have hfix := rw_fixed fa occ d (.loop b) st used hc
    have h0 := (visit_le fa d (.loop b) st).can hc
    simp only [visit_loop fa h0] at hc hfix ⊢
    have ib := visitB_out (d + 1) b { st.notTail with single := false } true
    have hb := visitB_le fa (d + 1) b { st.notTail with single := false }
    generalize visitB fa (d + 1) b { st.notTail with single := false } = st1 at ib hb hc hfix ⊢
    by_cases hl : (st1.edits.length != st.edits.length) = true
    · rw [if_pos hl] at hc; exact nomatch hc
    · rw [if_neg hl] at hc hfix ⊢
      rw [hfix (.inr (Nat.le_of_eq (by simpa using hl)))]
      refine ⟨rfl, .refl _ _, fun h => ?_⟩
      have hm : st.mapUsed = false := false_of_mono hb.map h
      simp only [eval]
      exact L.loop _ (Good k good occ) (fun s' hs' => (ib s' hc fun _ => hs').good h) s (hg hm)
  | d, .blk b, st, used, s, hc, hg => by
    have h0 := (visit_le fa d (.blk b) st).can hc
    simp only [visit_blk fa h0] at hc ⊢
    simp only [rw_, eval]
    exact visitB_out d b st used s hc hg
  | d, .asm n, st, used, s, hc, hg => by simp only [visit] at hc; exact nomatch hc
  | d, .op n args, st, used, s, hc, hg => by
    have h0 := (visit_le fa d (.op n args) st).can hc
    simp only [visit_op fa h0] at hc ⊢
    obtain ⟨a1, a2⟩ := all_out d args (st.other (fa.movable n d)) s hc hg
    simp only [rw_, eval, a1]
    refine ⟨rfl, .refl _ _, fun h => ?_⟩
    have ha := a2 h
    generalize evalAll S k args s = r at ha
    obtain ⟨s1, vs⟩ := r
    cases vs with
    | ok vs =>
      obtain ⟨g1, g2, g3⟩ := L.op n vs s1 ha.good.1 (ha.clean vs rfl)
      exact ⟨⟨g1, by rw [g2]; exact ha.good.2⟩, g3⟩
    | error f => exact ⟨ha.good, fun v hv => (ha.stop f rfl v hv).elim⟩
  | d, .eIns w v, st, used, s, hc, hg => by simp only [visit] at hc; exact nomatch hc
theorem walk_good : ∀ (d : Nat) (e : Ex) (st : Srch) (s : World σ V), (∀ n, e ≠ .asm n) →
    (walk fa d e st).can = true → (walk fa d e st).mapUsed = false →
    (st.mapUsed = false → Good k good occ s) → Good k good occ (eval S k e s).1
  | d, .ins own v, st, s, ha, hc, hm, hg => by
    simp only [walk] at hm
    have := (visit_le fa d v { st with mapUsed := true }).map rfl
    rw [this] at hm; exact nomatch hm
  | d, .part n, st, s, ha, hc, hm, hg => by simp only [walk] at hm; simp only [eval]; exact hg hm
  | d, .key, st, s, ha, hc, hm, hg => by
    simp only [walk] at hm; simp only [eval, L.key s (hg hm).1]; exact hg hm
  | d, .ite c t e, st, s, ha, hc, hm, hg => by
    simp only [walk] at hc hm
    have h3 := visit_le fa d e (visit fa d t (visit fa d c st))
    have h2 := visit_le fa d t (visit fa d c st)
    have i1 := visit_out d c st true s (h2.can (h3.can hc)) hg
    have m2 := false_of_mono h3.map hm
    have m1 := false_of_mono h2.map m2
    have o : Out k good clean occ true false (eval S k (.ite c t e) s) (eval S k (.ite c t e) s) := by
      simp only [eval]
      refine Out.step (m1 := false) (used1 := true) ⟨rfl, .refl _ _, fun _ => i1.good m1⟩ id fun s1 v v' _ hv hgv => ?_
      rw [hv rfl]
      refine ⟨rfl, .refl _ _, fun _ => ?_⟩
      by_cases ht : S.truth v = true
      · rw [if_pos ht]; exact (visit_out d t _ true s1 (h3.can hc) fun _ => (hgv rfl).1).good m2
      · rw [if_neg ht]; exact (visit_out d e _ true s1 hc fun _ => (hgv rfl).1).good hm
    exact (o.good rfl).1
  | d, .when c t, st, s, ha, hc, hm, hg => by
    simp only [walk] at hc hm
    have h2 := visit_le fa d t (visit fa d c st)
    have i1 := visit_out d c st true s (h2.can hc) hg
    have m1 := false_of_mono h2.map hm
    have o : Out k good clean occ true false (eval S k (.when c t) s) (eval S k (.when c t) s) := by
      simp only [eval]
      refine Out.step (m1 := false) (used1 := true) ⟨rfl, .refl _ _, fun _ => i1.good m1⟩ id fun s1 v v' _ hv hgv => ?_
      rw [hv rfl]
      by_cases ht : S.truth v = true
      · rw [if_pos ht]
        refine Out.step (m1 := false) (used1 := true)
          ⟨rfl, .refl _ _, fun _ => (visit_out d t _ true s1 hc fun _ => (hgv rfl).1).good hm⟩ id
          fun s2 w w' _ _ hgw => ?_
        exact ⟨rfl, .refl _ _, fun h => ⟨(hgw h).1, fun x hx => by cases hx; exact L.unit⟩⟩
      · rw [if_neg ht]
        exact ⟨rfl, .refl _ _, fun h => ⟨(hgv rfl).1, fun x hx => by cases hx; exact L.unit⟩⟩
    exact (o.good rfl).1
  | d, .mtch e as, st, s, ha, hc, hm, hg => by
    simp only [walk] at hc hm
    have h2 := walkArms_le fa d as (visit fa d e st)
    have i1 := visit_out d e st true s (h2.can hc) hg
    have m1 := false_of_mono h2.map hm
    have o : Out k good clean occ true false (eval S k (.mtch e as) s) (eval S k (.mtch e as) s) := by
      simp only [eval]
      refine Out.step (m1 := false) (used1 := true) ⟨rfl, .refl _ _, fun _ => i1.good m1⟩ id fun s1 v v' _ hv hgv => ?_
      rw [hv rfl]
      exact ⟨rfl, .refl _ _, fun _ => walkArms_good d as _ v s1 hc hm fun _ => hgv rfl⟩
    exact (o.good rfl).1
  | d, .loop b, st, s, ha, hc, hm, hg => by
    simp only [walk] at hc hm
    simp only [eval]
    have h := visitB_le fa d b st
    have m1 := false_of_mono h.map hm
    exact (L.loop _ (Good k good occ) (fun s' hs' => (visitB_out d b st true s' hc fun _ => hs').good hm) s (hg m1)).1
  | d, .blk b, st, s, ha, hc, hm, hg => by
    simp only [walk] at hc hm
    simp only [eval]
    exact ((visitB_out d b st true s hc hg).good hm).1
  | d, .asm n, st, s, ha, hc, hm, hg => by
    exact (ha n rfl).elim
  | d, .op n args, st, s, ha, hc, hm, hg => by
    simp only [walk] at hc hm
    have ha := (all_out d args st s hc hg).2 hm
    simp only [eval]
    generalize evalAll S k args s = r at ha
    obtain ⟨s1, vs⟩ := r
    cases vs with
    | ok vs =>
      obtain ⟨g1, g2, g3⟩ := L.op n vs s1 ha.good.1 (ha.clean vs rfl)
      exact ⟨g1, by rw [g2]; exact ha.good.2⟩
    | error f => exact ha.good
  | d, .eIns w v, st, s, ha, hc, hm, hg => by simp only [walk] at hc; exact nomatch hc
theorem all_out : ∀ (d : Nat) (es : Exs) (st : Srch) (s : World σ V), (visitAll fa d es st).can = true →
    (st.mapUsed = false → Good k good occ s) →
    evalAll S k (rwAll occ es) s = evalAll S k es s ∧
    ((visitAll fa d es st).mapUsed = false → AOut k good clean occ (evalAll S k es s))
  | d, .nil, st, s, hc, hg => by
    simp only [visitAll, rwAll, evalAll]
    exact ⟨trivial, fun h => ⟨hg h, fun vs hv => (by cases hv; exact fun _ hx => nomatch hx), fun f hf => nomatch hf⟩⟩
  | d, .cons e es, st, s, hc, hg => by
    simp only [visitAll] at hc ⊢
    have h2 := all_le fa d es (visit fa d e st)
    have o := visit_out d e st true s (h2.can hc) hg
    have i2 := all_out d es (visit fa d e st)
    simp only [rwAll, evalAll]
    have heq : eval S k (rw_ occ true e) s = eval S k e s := Prod.ext o.state o.flow.eq.symm
    rw [heq]
    have og := o.good
    generalize eval S k e s = r at og
    obtain ⟨s1, f⟩ := r
    cases f with
    | val v =>
      simp only [andThen]
      have i := i2 s1 hc fun h => (og h).1
      rw [i.1]
      refine ⟨rfl, fun h => ?_⟩
      have hv := (og (false_of_mono h2.map h)).2 v rfl
      have ha := i.2 h
      refine ⟨ha.good, fun vs hvs => ?_, fun f hf => ?_⟩
      · cases hr : (evalAll S k es s1).2 with
        | ok ws =>
          rw [hr] at hvs
          cases hvs
          intro x hx
          rcases List.mem_cons.1 hx with hx | hx
          · rw [hx]; exact hv
          · exact ha.clean ws hr x hx
        | error f => rw [hr] at hvs; exact nomatch hvs
      · cases hr : (evalAll S k es s1).2 with
        | ok ws => rw [hr] at hf; exact nomatch hf
        | error g => rw [hr] at hf; cases hf; exact ha.stop _ hr
    | leave j =>
      exact ⟨rfl, fun h => ⟨(og (false_of_mono h2.map h)).1, (fun vs hv => nomatch hv), fun f hf => by
        cases hf; exact fun v hv => nomatch hv⟩⟩
    | ret =>
      exact ⟨rfl, fun h => ⟨(og (false_of_mono h2.map h)).1, (fun vs hv => nomatch hv), fun f hf => by
        cases hf; exact fun v hv => nomatch hv⟩⟩
    | panic =>
      exact ⟨rfl, fun h => ⟨(og (false_of_mono h2.map h)).1, (fun vs hv => nomatch hv), fun f hf => by
        cases hf; exact fun v hv => nomatch hv⟩⟩
theorem visitB_out : ∀ (d : Nat) (b : Blk) (st : Srch) (used : Bool) (s : World σ V), (visitB fa d b st).can = true →
    (st.mapUsed = false → Good k good occ s) →
    Out k good clean occ used (visitB fa d b st).mapUsed (evalB S k b s) (evalB S k (rwB occ used b) s)
  | d, .done, st, used, s, hc, hg => by
    simp only [visitB, rwB, evalB]
    exact ⟨rfl, .refl _ _, fun h => ⟨hg h, fun v hv => by cases hv; exact L.unit⟩⟩
  | d, .tail e, st, used, s, hc, hg => by
    simp only [visitB] at hc ⊢
    simp only [rwB, evalB]
    exact visit_out d e st used s hc hg
  | d, .semi e r, st, used, s, hc, hg => by
    simp only [visitB] at hc ⊢
    simp only [rwB, evalB]
    have i1 := visit_out d e (st.enter r.isDone) false s
    rw [enter_map] at i1
    generalize visit fa d e (st.enter r.isDone) = st1 at i1 hc ⊢
    cases hr : r.isDone with
    | true =>
      simp only [hr, if_true, afterSemi_can, afterSemi_map] at hc ⊢
      rw [isDone_eq hr]
      refine (i1 hc hg).step id fun s1 v v' _ _ hgv => ?_
      simp only [rwB, evalB]
      exact ⟨rfl, .refl _ _, fun h => ⟨(hgv h).1, fun v hv => by cases hv; exact L.unit⟩⟩
    | false =>
      simp only [hr, Bool.false_eq_true, if_false] at hc ⊢
      have h2 := visitB_le fa d r { st1.afterSemi with tail := st.tail }
      have hm : ({ st1.afterSemi with tail := st.tail } : Srch).mapUsed = st1.mapUsed := afterSemi_map st1
      have hc1 : st1.can = true := by rw [← afterSemi_can]; exact h2.can hc
      refine (i1 hc1 hg).step (fun h => hm ▸ false_of_mono h2.map h) fun s1 v v' _ _ hgv => ?_
      exact visitB_out d r _ used s1 hc fun h => (hgv (hm ▸ h)).1
  | d, .stmt e r, st, used, s, hc, hg => by
    simp only [visitB] at hc ⊢
    simp only [rwB, evalB]
    have i1 := visit_out d e (st.enter r.isDone) false s
    rw [enter_map] at i1
    generalize visit fa d e (st.enter r.isDone) = st1 at i1 hc ⊢
    cases hr : r.isDone with
    | true =>
      simp only [hr, if_true] at hc ⊢
      rw [isDone_eq hr]
      refine (i1 hc hg).step id fun s1 v v' _ _ hgv => ?_
      simp only [rwB, evalB]
      exact ⟨rfl, .refl _ _, fun h => ⟨(hgv h).1, fun v hv => by cases hv; exact L.unit⟩⟩
    | false =>
      simp only [hr, Bool.false_eq_true, if_false] at hc ⊢
      have h2 := visitB_le fa d r { st1 with tail := st.tail }
      refine (i1 (h2.can hc) hg).step (fun h => false_of_mono h2.map h) fun s1 v v' _ _ hgv => ?_
      exact visitB_out d r _ used s1 hc fun h => (hgv h).1
  | d, .letWild e r, st, used, s, hc, hg => by
    simp only [visitB] at hc ⊢
    simp only [rwB, evalB]
    have i1 := visit_out d e (st.enter r.isDone).forInit false s
    have hi : (st.enter r.isDone).forInit.mapUsed = st.mapUsed := enter_map _ _
    rw [hi] at i1
    generalize visit fa d e (st.enter r.isDone).forInit = st1 at i1 hc ⊢
    cases hr : r.isDone with
    | true =>
      simp only [hr, if_true] at hc ⊢
      rw [isDone_eq hr]
      refine (i1 hc hg).step id fun s1 v v' _ _ hgv => ?_
      simp only [rwB, evalB]
      exact ⟨rfl, .refl _ _, fun h => ⟨(hgv h).1, fun v hv => by cases hv; exact L.unit⟩⟩
    | false =>
      simp only [hr, Bool.false_eq_true, if_false] at hc ⊢
      have h2 := visitB_le fa d r { st1 with tail := st.tail }
      refine (i1 (h2.can hc) hg).step (fun h => false_of_mono h2.map h) fun s1 v v' _ _ hgv => ?_
      exact visitB_out d r _ used s1 hc fun h => (hgv h).1
  | d, .let_ p e r, st, used, s, hc, hg => by
    simp only [visitB] at hc ⊢
    simp only [rwB, evalB]
    have i1 := visit_out d e (st.enter r.isDone).forInit true s
    have hi : (st.enter r.isDone).forInit.mapUsed = st.mapUsed := enter_map _ _
    rw [hi] at i1
    generalize visit fa d e (st.enter r.isDone).forInit = st1 at i1 hc ⊢
    cases hr : r.isDone with
    | true =>
      simp only [hr, if_true] at hc ⊢
      rw [isDone_eq hr]
      refine (i1 hc hg).step id fun s1 v v' _ hv hgv => ?_
      rw [hv rfl]
      simp only [rwB, evalB]
      refine ⟨rfl, .refl _ _, fun h => ⟨?_, fun v hv => by cases hv; exact L.unit⟩⟩
      obtain ⟨g1, g2⟩ := L.bind p v s1 (hgv h).1.1 (hgv h).2
      exact ⟨g1, by rw [g2]; exact (hgv h).1.2⟩
    | false =>
      simp only [hr, Bool.false_eq_true, if_false] at hc ⊢
      have h2 := visitB_le fa d r { st1 with tail := st.tail }
      refine (i1 (h2.can hc) hg).step (fun h => false_of_mono h2.map h) fun s1 v v' _ hv hgv => ?_
      rw [hv rfl]
      refine visitB_out d r _ used _ hc fun h => ?_
      obtain ⟨g1, g2⟩ := L.bind p v s1 (hgv h).1.1 (hgv h).2
      exact ⟨g1, by rw [g2]; exact (hgv h).1.2⟩
  | d, .letElse p e els r, st, used, s, hc, hg => by
    simp only [visitB] at hc ⊢
    simp only [rwB, evalB]
    have i1 := visit_out d e (st.enter r.isDone).forInit true s
    have hi : (st.enter r.isDone).forInit.mapUsed = st.mapUsed := enter_map _ _
    rw [hi] at i1
    generalize visit fa d e (st.enter r.isDone).forInit = st1 at i1 hc ⊢
    have ie := visitB_out d els st1 true
    have he := visitB_le fa d els st1
    generalize visitB fa d els st1 = st2 at ie he hc ⊢
    cases hr : r.isDone with
    | true =>
      simp only [hr, if_true] at hc ⊢
      rw [isDone_eq hr]
      refine (i1 (he.can hc) hg).step (fun h => false_of_mono he.map h) fun s1 v v' _ hv hgv => ?_
      rw [hv rfl]
      by_cases ht : S.test p v s1 = true
      · rw [if_pos ht, if_pos ht]
        simp only [rwB, evalB]
        refine ⟨rfl, .refl _ _, fun h => ⟨?_, fun v hv => by cases hv; exact L.unit⟩⟩
        have h := false_of_mono he.map h
        obtain ⟨g1, g2⟩ := L.bind p v s1 (hgv h).1.1 (hgv h).2
        exact ⟨g1, by rw [g2]; exact (hgv h).1.2⟩
      · rw [if_neg ht, if_neg ht]
        refine (ie s1 hc fun h => (hgv h).1).step id fun s2 w w' _ _ hgw => ?_
        exact ⟨rfl, .refl _ _, fun h => ⟨(hgw h).1, fun v hv => nomatch hv⟩⟩
    | false =>
      simp only [hr, Bool.false_eq_true, if_false] at hc ⊢
      have h2 := visitB_le fa d r { st2 with tail := st.tail }
      refine (i1 (he.can (h2.can hc)) hg).step (fun h => false_of_mono he.map (false_of_mono h2.map h))
        fun s1 v v' _ hv hgv => ?_
      rw [hv rfl]
      by_cases ht : S.test p v s1 = true
      · rw [if_pos ht, if_pos ht]
        refine visitB_out d r _ used _ hc fun h => ?_
        have h := false_of_mono he.map h
        obtain ⟨g1, g2⟩ := L.bind p v s1 (hgv h).1.1 (hgv h).2
        exact ⟨g1, by rw [g2]; exact (hgv h).1.2⟩
      · rw [if_neg ht, if_neg ht]
        refine (ie s1 (h2.can hc) fun h => (hgv h).1).step (fun h => false_of_mono h2.map h) fun s2 w w' _ _ hgw => ?_
        exact ⟨rfl, .refl _ _, fun h => ⟨(hgw (false_of_mono h2.map h)).1, fun v hv => nomatch hv⟩⟩
  | d, .decl r, st, used, s, hc, hg => by
    simp only [visitB] at hc ⊢
    simp only [rwB, evalB]
    cases hr : r.isDone with
    | true =>
      simp only [hr, if_true] at hc ⊢
      rw [isDone_eq hr]
      simp only [rwB, evalB]
      exact ⟨rfl, .refl _ _, fun h => ⟨hg h, fun v hv => by cases hv; exact L.unit⟩⟩
    | false =>
      simp only [hr, Bool.false_eq_true, if_false] at hc ⊢
      exact visitB_out d r st used s hc hg
  | d, .item r, st, used, s, hc, hg => by
    simp only [visitB] at hc ⊢
    simp only [rwB, evalB]
    cases hr : r.isDone with
    | true =>
      simp only [hr, if_true] at hc ⊢
      rw [isDone_eq hr]
      simp only [rwB, evalB]
      exact ⟨rfl, .refl _ _, fun h => ⟨hg h, fun v hv => by cases hv; exact L.unit⟩⟩
    | false =>
      simp only [hr, Bool.false_eq_true, if_false] at hc ⊢
      exact visitB_out d r _ used s hc hg
theorem arms_out : ∀ (d : Nat) (as : Arms) (st : Srch) (acc used : Bool) (v : V) (s : World σ V),
    (visitArms fa d as st acc).1.can = true → (st.mapUsed = false → Good k good occ s ∧ clean v) →
    (acc = false → st.mapUsed = false) →
    Out k good clean occ used (visitArms fa d as st acc).2 (evalArms S k as v s)
      (evalArms S k (rwArms occ used as) v s)
  | d, .nil, st, acc, used, v, s, hc, hg, hacc => by
    simp only [visitArms, rwArms, evalArms]
    exact ⟨rfl, .refl _ _, fun h => ⟨(hg (hacc h)).1, fun v hv => nomatch hv⟩⟩
  | d, .arm p e r, st, acc, used, v, s, hc, hg, hacc => by
    simp only [visitArms] at hc ⊢
    have i1 := visit_out d e st used (S.bind p v s)
    have h1 := visit_le fa d e st
    generalize visit fa d e st = st1 at i1 h1 hc ⊢
    have h2 := arms_le fa d r { st1 with mapUsed := st.mapUsed, tail := st.tail } (acc || st1.mapUsed)
    have i2 := arms_out d r { st1 with mapUsed := st.mapUsed, tail := st.tail } (acc || st1.mapUsed) used v s hc hg
      (fun h => hacc (by simp at h; exact h.1))
    generalize visitArms fa d r { st1 with mapUsed := st.mapUsed, tail := st.tail } (acc || st1.mapUsed) = q
      at h2 i2 hc ⊢
    simp only [rwArms, evalArms]
    by_cases ht : S.test p v s = true
    · rw [if_pos ht, if_pos ht]
      refine (i1 (h2.1 hc) fun h => ?_).mono fun h => ?_
      · obtain ⟨g1, g2⟩ := L.bind p v s (hg h).1.1 (hg h).2
        exact ⟨g1, by rw [g2]; exact (hg h).1.2⟩
      · cases hx : st1.mapUsed with
        | false => rfl
        | true => rw [h2.2.1 (by simp [hx])] at h; exact nomatch h
    · rw [if_neg ht, if_neg ht]; exact i2
  | d, .guarded p g e r, st, acc, used, v, s, hc, hg, hacc => by
    simp only [visitArms] at hc ⊢
    have i0 := visit_out d g { st with tail := false } true (S.bind p v s)
    have h0 := visit_le fa d g { st with tail := false }
    generalize visit fa d g { st with tail := false } = st0 at i0 h0 hc ⊢
    have i1 := visit_out d e { st0 with tail := st.tail } used
    have h1 := visit_le fa d e { st0 with tail := st.tail }
    generalize visit fa d e { st0 with tail := st.tail } = st1 at i1 h1 hc ⊢
    have h2 := arms_le fa d r { st1 with mapUsed := st0.mapUsed, tail := st.tail } (acc || st1.mapUsed)
    have i2 := arms_out d r { st1 with mapUsed := st0.mapUsed, tail := st.tail } (acc || st1.mapUsed) used v
    generalize visitArms fa d r { st1 with mapUsed := st0.mapUsed, tail := st.tail } (acc || st1.mapUsed) = q
      at h2 i2 hc ⊢
    have hq : q.2 = false → st1.mapUsed = false := fun h => by
      cases hx : st1.mapUsed with
      | false => rfl
      | true => rw [h2.2.1 (by simp [hx])] at h; exact nomatch h
    have h00 : st0.mapUsed = false → st.mapUsed = false := fun h => false_of_mono h0.map h
    have hx : (acc || st1.mapUsed) = false → st0.mapUsed = false := fun h =>
      false_of_mono h1.map (by simp at h; exact h.2)
    simp only [rwArms, evalArms]
    by_cases ht : S.test p v s = true
    · rw [if_pos ht, if_pos ht]
      refine (i0 (h1.can (h2.1 hc)) fun h => ?_).step (fun h => false_of_mono h1.map (hq h)) fun s1 b b' _ hb hgb => ?_
      · obtain ⟨g1, g2⟩ := L.bind p v s (hg h).1.1 (hg h).2
        exact ⟨g1, by rw [g2]; exact (hg h).1.2⟩
      · rw [hb rfl]
        by_cases htb : S.truth b = true
        · rw [if_pos htb, if_pos htb]
          exact (i1 s1 (h2.1 hc) fun h => (hgb h).1).mono hq
        · rw [if_neg htb, if_neg htb]
          exact i2 s1 hc (fun h => ⟨(hgb h).1, (hg (h00 h)).2⟩) hx
    · rw [if_neg ht, if_neg ht]
      exact i2 s hc (fun h => hg (h00 h)) hx
theorem walkArms_good : ∀ (d : Nat) (as : Arms) (st : Srch) (v : V) (s : World σ V),
    (walkArms fa d as st).can = true → (walkArms fa d as st).mapUsed = false →
    (st.mapUsed = false → Good k good occ s ∧ clean v) →
    Good k good occ (evalArms S k as v s).1 ∧ ∀ w, (evalArms S k as v s).2 = .val w → clean w
  | d, .nil, st, v, s, hc, hm, hg => by
    simp only [walkArms] at hm
    simp only [evalArms]
    exact ⟨(hg hm).1, fun w hw => nomatch hw⟩
  | d, .arm p e r, st, v, s, hc, hm, hg => by
    simp only [walkArms] at hc hm
    have h2 := walkArms_le fa d r (visit fa d e st)
    have m1 := false_of_mono h2.map hm
    have m0 := false_of_mono (visit_le fa d e st).map m1
    simp only [evalArms]
    by_cases ht : S.test p v s = true
    · rw [if_pos ht]
      refine (visit_out d e st true _ (h2.can hc) fun h => ?_).good m1
      obtain ⟨g1, g2⟩ := L.bind p v s (hg h).1.1 (hg h).2
      exact ⟨g1, by rw [g2]; exact (hg h).1.2⟩
    · rw [if_neg ht]
      exact walkArms_good d r _ v s hc hm fun _ => hg m0
  | d, .guarded p g e r, st, v, s, hc, hm, hg => by
    simp only [walkArms] at hc hm
    have h2 := walkArms_le fa d r (visit fa d e (visit fa d g st))
    have h1 := visit_le fa d e (visit fa d g st)
    have m2 := false_of_mono h2.map hm
    have m1 := false_of_mono h1.map m2
    have m0 := false_of_mono (visit_le fa d g st).map m1
    simp only [evalArms]
    by_cases ht : S.test p v s = true
    · rw [if_pos ht]
      have i0 := visit_out d g st true (S.bind p v s) (h1.can (h2.can hc)) fun h => by
        obtain ⟨g1, g2⟩ := L.bind p v s (hg h).1.1 (hg h).2
        exact ⟨g1, by rw [g2]; exact (hg h).1.2⟩
      have o : Out k good clean occ true false
          (andThen (eval S k g (S.bind p v s)) (fun s b => if S.truth b then eval S k e s else evalArms S k r v s) id)
          (andThen (eval S k g (S.bind p v s))
            (fun s b => if S.truth b then eval S k e s else evalArms S k r v s) id) := by
        refine Out.step (m1 := false) (used1 := true) ⟨rfl, .refl _ _, fun _ => i0.good m1⟩ id
          fun s1 b b' _ hb hgb => ?_
        rw [hb rfl]
        refine ⟨rfl, .refl _ _, fun _ => ?_⟩
        by_cases htb : S.truth b = true
        · rw [if_pos htb]; exact (visit_out d e _ true s1 (h2.can hc) fun _ => (hgb rfl).1).good m2
        · rw [if_neg htb]; exact walkArms_good d r _ v s1 hc hm fun _ => ⟨(hgb rfl).1, (hg m0).2⟩
      exact o.good rfl
    · rw [if_neg ht]
      exact walkArms_good d r _ v s hc hm fun _ => hg m0
end

end Verif.Entry
