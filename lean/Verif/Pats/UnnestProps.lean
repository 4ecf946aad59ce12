import Verif.Pats.UnnestEq

/-!
# C39: the suggested pattern matches the same values with the same bindings
-/

namespace Verif.Unnest

/-! ## Choices with one list replaced -/

theorem choices_set_append {α : Type} (a b : List α) : ∀ (ls : List (List α)) (idx : Nat), idx < ls.length →
    (choices (ls.set idx (a ++ b))).Perm (choices (ls.set idx a) ++ choices (ls.set idx b))
  | [], _, h => by simp at h
  | l :: ls, 0, _ => by simp [choices]
  | l :: ls, idx + 1, h => by
    simp only [List.set_cons_succ, choices]
    have ih := choices_set_append a b ls idx (by simpa using h)
    refine (perm_flatMap_left l fun q _ => (ih.map fun qs => q :: qs)).trans ?_
    simp only [List.map_append]
    exact flatMap_append_fun ..

theorem choices_set_nil {α : Type} : ∀ (ls : List (List α)) (idx : Nat), idx < ls.length →
    choices (ls.set idx []) = []
  | [], _, h => by simp at h
  | l :: ls, 0, _ => by simp [choices]
  | l :: ls, idx + 1, h => by
    simp only [List.set_cons_succ, choices]
    rw [choices_set_nil ls idx (by simpa using h)]
    simp

theorem choices_set_flatMap {α β : Type} (e : β → List α) (ls : List (List α)) (idx : Nat) (h : idx < ls.length) :
    ∀ ys : List β, (choices (ls.set idx (ys.flatMap e))).Perm (ys.flatMap fun y => choices (ls.set idx (e y)))
  | [] => by simp [choices_set_nil ls idx h]
  | y :: ys => by
    simp only [List.flatMap_cons]
    exact (choices_set_append _ _ _ _ h).trans ((List.Perm.refl _).append (choices_set_flatMap e ls idx h ys))

theorem expEach_set (ps : List APat) (idx : Nat) (p : APat) : expEach (ps.set idx p) = (expEach ps).set idx (exp p) := by
  rw [expEach_map, expEach_map, List.map_set]

theorem exp_extendTarget (t : APat) (tail : List APat) : exp (extendTarget t tail) = exp t ++ tail.flatMap exp := by
  unfold extendTarget
  split
  · rw [exp, exp, expAny_flatMap, expAny_flatMap, List.flatMap_append]
  · rw [exp, expAny_flatMap, List.flatMap_cons]

theorem WF_extendTarget {t : APat} {tail : List APat} (ht : WF t) (h : ∀ y ∈ tail, WF y) : WF (extendTarget t tail) := by
  unfold extendTarget
  split
  · rw [WF] at ht ⊢
    refine ⟨by simp [ht.1], WFAll_iff.2 ?_⟩
    intro p hp
    rcases List.mem_append.1 hp with hp | hp
    · exact WFAll_iff.1 ht.2 p hp
    · exact h p hp
  · rw [WF]
    refine ⟨by simp, WFAll_iff.2 ?_⟩
    intro p hp
    rcases List.mem_cons.1 hp with rfl | hp
    · exact ht
    · exact h p hp

theorem PermEach.append {α : Type} : ∀ {a a' b b' : List (List α)}, PermEach a a' → PermEach b b' →
    PermEach (a ++ b) (a' ++ b')
  | [], [], _, _, _, h => h
  | _ :: _, _ :: _, _, _, h, h' => ⟨h.1, PermEach.append h.2 h'⟩
  | [], _ :: _, _, _, h, _ => h.elim
  | _ :: _, [], _, _, h, _ => h.elim

/-! ## Draining -/

theorem drain_flatMap {extract : APat → Option APat} {after : List APat} {e : APat → List APat}
    (h : ∀ q ∈ after, ∀ y, extract q = some y → (exp q).Perm (e y)) :
    ((drain extract after).2.flatMap e ++ expAny (drain extract after).1).Perm (expAny after) := by
  simp only [drain, expAny_flatMap]
  induction after with
  | nil => simp
  | cons q after ih =>
    have ih := ih fun q' hq' => h q' (List.mem_cons_of_mem _ hq')
    cases hq : extract q with
    | none =>
      rw [List.filterMap_cons_none hq, List.filter_cons_of_pos (by simp [hq]), List.flatMap_cons, List.flatMap_cons]
      exact (List.perm_append_comm_assoc ..).trans ((List.Perm.refl _).append ih)
    | some y =>
      rw [List.filterMap_cons_some hq, List.filter_cons_of_neg (by simp [hq]), List.flatMap_cons, List.flatMap_cons,
        List.append_assoc]
      exact (h q (List.mem_cons_self ..) y hq).symm.append ih

theorem drain_mem {extract : APat → Option APat} {after : List APat} {y : APat} (h : y ∈ (drain extract after).2) :
    ∃ q ∈ after, extract q = some y := by
  simpa [drain] using h

theorem drain_kept {extract : APat → Option APat} {after : List APat} (h : WFAll after) :
    WFAll (drain extract after).1 := by
  rw [WFAll_iff] at h ⊢
  intro p hp
  exact h p (List.mem_filter.1 hp).1

/-- What a step does to the focus and the alternatives after it. -/
def StepOk (focus : APat) (after : List APat) (r : APat × List APat × Bool) : Prop :=
  (exp r.1 ++ expAny r.2.1).Perm (exp focus ++ expAny after) ∧ WF r.1 ∧ WFAll r.2.1

theorem extendSingle_ok {mk g : APat → APat} {t : APat} {extract : APat → Option APat} {after : List APat}
    (hexp : ∀ p, exp (mk p) = (exp p).map g) (hwf : ∀ p, WF (mk p) ↔ WF p)
    (hx : ∀ q y, extract q = some y → q = mk y) (wt : WF (mk t)) (wa : WFAll after) :
    StepOk (mk t) after (extendSingle mk t extract after) := by
  unfold extendSingle
  split
  · exact ⟨.refl _, wt, wa⟩
  · refine ⟨?_, (hwf _).2 (WF_extendTarget ((hwf t).1 wt) ?_), drain_kept wa⟩
    · simp only [hexp, exp_extendTarget, List.map_append, List.append_assoc]
      refine (List.Perm.refl _).append ?_
      have h := drain_flatMap (extract := extract) (after := after) (e := fun y => exp (mk y))
        (fun q _ y e => by rw [hx q y e])
      simp only [hexp] at h
      rw [List.map_flatMap]
      exact h
    · intro y hy
      obtain ⟨q, hq, e⟩ := drain_mem hy
      exact (hwf y).1 (hx q y e ▸ WFAll_iff.1 wa q hq)

/-- What is known about the index at which a product is extended. -/
theorem extendProduct_some {extract : Nat → APat → Option APat} {ps after ps' kept : List APat}
    (h : extendProduct extract ps after = some (ps', kept)) :
    ∃ idx, idx < ps.length ∧ (drain (extract idx) after).2 ≠ [] ∧
      ps' = ps.set idx (extendTarget (ps.getD idx .wild) (drain (extract idx) after).2) ∧
      kept = (drain (extract idx) after).1 := by
  unfold extendProduct at h
  split at h
  · next idx e =>
    simp only [Option.some.injEq, Prod.mk.injEq] at h
    refine ⟨idx, ?_, ?_, h.1.symm, h.2.symm⟩
    · exact List.mem_range.1 (List.mem_of_find?_eq_some e)
    · have := List.find?_some e
      simpa using this
  · simp at h

theorem extendMany_ok {mk : List APat → APat} {g : List APat → APat} {ps : List APat}
    {extract : Nat → APat → Option APat} {after : List APat}
    (hexp : ∀ ps, exp (mk ps) = (choices (expEach ps)).map g)
    (hx : ∀ idx, idx < ps.length → ∀ q ∈ after, ∀ y, extract idx q = some y →
      (exp q).Perm (exp (mk (ps.set idx y))) ∧
      ∀ tail, (∀ z ∈ tail, WF z) → WF y ∧ WF (mk (ps.set idx (extendTarget (ps.getD idx .wild) tail))))
    (wf : WF (mk ps)) (wa : WFAll after) :
    StepOk (mk ps) after (extendMany mk ps extract after) := by
  unfold extendMany
  split
  · next ps' kept e =>
    obtain ⟨idx, hidx, hne, rfl, rfl⟩ := extendProduct_some e
    obtain ⟨y0, hy0⟩ := List.exists_mem_of_ne_nil _ hne
    have hwf : ∀ y ∈ (drain (extract idx) after).2, WF y := by
      intro y hy
      obtain ⟨q, hq, e⟩ := drain_mem hy
      exact ((hx idx hidx q hq y e).2 [] (by simp)).1
    refine ⟨?_, ?_, drain_kept wa⟩
    · have h := drain_flatMap (extract := extract idx) (after := after) (e := fun y => exp (mk (ps.set idx y)))
        (fun q hq y e => (hx idx hidx q hq y e).1)
      refine List.Perm.trans ?_ ((List.Perm.refl (exp (mk ps))).append h)
      rw [← List.append_assoc]
      refine List.Perm.append ?_ (.refl _)
      simp only [hexp, expEach_set, exp_extendTarget]
      have hl : idx < (expEach ps).length := by simpa [expEach_map] using hidx
      refine ((choices_set_append _ _ _ _ hl).map g).trans ?_
      rw [List.map_append]
      have e1 : (expEach ps).set idx (exp (ps.getD idx .wild)) = expEach ps := by
        rw [← expEach_set, List.getD_eq_getElem?_getD, List.getElem?_eq_getElem hidx]
        simp
      rw [e1]
      refine (List.Perm.refl _).append ?_
      refine ((choices_set_flatMap exp _ _ hl _).map g).trans ?_
      rw [List.map_flatMap]
    · obtain ⟨q, hq, e⟩ := drain_mem hy0
      exact ((hx idx hidx q hq y0 e).2 _ hwf).2
  · exact ⟨.refl _, wf, wa⟩

/-! ## Products -/

theorem prePost_perm {ps1 ps2 : List APat} {idx : Nat} {y : APat} (hidx : idx < ps1.length)
    (h : eqPrePost ps1 ps2 idx = true) (hy : ps2[idx]? = some y) (w1 : WFElems ps1) (w2 : WFElems ps2)
    (nd : ∀ l ∈ expEach ps1, l.Nodup) : PermEach (expEach (ps1.set idx y)) (expEach ps2) := by
  unfold eqPrePost at h
  simp only [Bool.and_eq_true, beq_iff_eq] at h
  obtain ⟨⟨⟨hlen, _⟩, hpre⟩, hpost⟩ := h
  obtain ⟨h2, e2⟩ := List.getElem?_eq_some_iff.1 hy
  have e3 : ps2 = ps2.take idx ++ y :: ps2.drop (idx + 1) := by
    rw [← e2, List.getElem_cons_drop, List.take_append_drop]
  have e1 : ps1.set idx y = ps1.take idx ++ y :: ps1.drop (idx + 1) := by
    rw [List.set_eq_take_append_cons_drop, if_pos hidx]
  rw [WFElems_iff] at w1 w2
  simp only [expEach_map, List.mem_map, forall_exists_index, and_imp, forall_apply_eq_imp_iff₂] at nd
  have p1 := eqAll_exp _ _ hpre (WFElems_iff.2 fun p hp => w1 p (List.mem_of_mem_take hp))
    (WFElems_iff.2 fun p hp => w2 p (List.mem_of_mem_take hp)) (by
      simp only [expEach_map, List.mem_map, forall_exists_index, and_imp, forall_apply_eq_imp_iff₂]
      exact fun p hp => nd p (List.mem_of_mem_take hp))
  have p2 := eqAll_exp _ _ hpost (WFElems_iff.2 fun p hp => w1 p (List.mem_of_mem_drop hp))
    (WFElems_iff.2 fun p hp => w2 p (List.mem_of_mem_drop hp)) (by
      simp only [expEach_map, List.mem_map, forall_exists_index, and_imp, forall_apply_eq_imp_iff₂]
      exact fun p hp => nd p (List.mem_of_mem_drop hp))
  rw [e1]
  conv => rhs; rw [e3]
  simp only [expEach_map, List.map_append, List.map_cons] at p1 p2 ⊢
  exact p1.append ⟨.refl _, p2⟩

theorem WFElems_set {ps : List APat} {idx : Nat} {p : APat} (h : WFElems ps) (hp : WFE p) : WFElems (ps.set idx p) := by
  rw [WFElems_iff] at h ⊢
  intro q hq
  rcases List.mem_or_eq_of_mem_set hq with hq | rfl
  · exact h q hq
  · exact hp

theorem WFAll_set {ps : List APat} {idx : Nat} {p : APat} (h : WFAll ps) (hp : WF p) : WFAll (ps.set idx p) := by
  rw [WFAll_iff] at h ⊢
  intro q hq
  rcases List.mem_or_eq_of_mem_set hq with hq | rfl
  · exact h q hq
  · exact hp

theorem isRest_eq {p : APat} : p.isRest = true ↔ p = .rest := by cases p <;> simp [APat.isRest]

/-- The hypothesis of `extendMany_ok` for slices, tuples and tuple structs. -/
theorem product_hx {mk : List APat → APat} {g : List APat → APat} {ps1 ps2 after : List APat}
    (hexp : ∀ ps, exp (mk ps) = (choices (expEach ps)).map g) (hwf : ∀ ps, WF (mk ps) ↔ WFElems ps)
    (wf : WF (mk ps1)) (wa : WFAll after) (nd : (exp (mk ps1) ++ expAny after).Nodup) {idx : Nat}
    (hidx : idx < ps1.length) (hq : mk ps2 ∈ after) {y : APat} (he : eqPrePost ps1 ps2 idx = true)
    (hy : ps2[idx]? = some y) :
    (exp (mk ps2)).Perm (exp (mk (ps1.set idx y))) ∧
      ∀ tail, (∀ z ∈ tail, WF z) → WF y ∧ WF (mk (ps1.set idx (extendTarget (ps1.getD idx .wild) tail))) := by
  have w1 := (hwf _).1 wf
  have w2 := (hwf _).1 (WFAll_iff.1 wa _ hq)
  obtain ⟨nd1, _, nd3⟩ := List.nodup_append.1 nd
  have nde : ∀ l ∈ expEach ps1, l.Nodup := by
    rw [hexp] at nd1
    exact choices_nodup_each (expElems_ne _ w1) (nodup_of_map nd1)
  have hp : (exp (mk ps2)).Perm (exp (mk (ps1.set idx y))) := by
    rw [hexp, hexp]
    exact ((choices_perm (prePost_perm hidx he hy w1 w2 nde)).map g).symm
  refine ⟨hp, ?_⟩
  have hr : (ps1.getD idx .wild).isRest = y.isRest := by
    unfold eqPrePost at he
    simp only [Bool.and_eq_true, beq_iff_eq] at he
    rw [he.1.1.2, List.getD_eq_getElem?_getD, hy]
    rfl
  have hget : ps1.getD idx .wild = ps1[idx] := by
    rw [List.getD_eq_getElem?_getD, List.getElem?_eq_getElem hidx]; rfl
  have hnr : y.isRest = false := by
    cases hb : y.isRest with
    | false => rfl
    | true =>
      exfalso
      have h1 := isRest_eq.1 (hr.trans hb)
      have h2 := isRest_eq.1 hb
      have e : ps1.set idx y = ps1 := by
        rw [h2, ← h1, hget]; simp
      rw [e] at hp
      obtain ⟨q, hq'⟩ := List.exists_mem_of_ne_nil _ (exp_ne _ wf)
      refine nd3 q hq' q ?_ rfl
      rw [expAny_flatMap]
      exact List.mem_flatMap.2 ⟨_, hq, hp.mem_iff.2 hq'⟩
  have wy : WF y := (WFElems_iff.1 w2 y (List.mem_of_getElem? hy)).wf (by rintro rfl; simp [APat.isRest] at hnr)
  have wx : WF (ps1.getD idx .wild) := by
    rw [hget] at hr ⊢
    exact (WFElems_iff.1 w1 _ (List.getElem_mem hidx)).wf (fun e => by rw [e, hnr] at hr; exact absurd hr (by simp [APat.isRest]))
  intro tail ht
  exact ⟨wy, (hwf _).2 (WFElems_set w1 (.inr (WF_extendTarget wx ht)))⟩

/-! ## Struct patterns -/

theorem zip_set {ns : List Nat} {ps : List APat} {idx : Nat} {y : APat} (h : ns.length = ps.length)
    (hidx : idx < ns.length) : ns.zip (ps.set idx y) = (ns.zip ps).set idx (ns[idx], y) := by
  induction ns generalizing ps idx with
  | nil => simp at hidx
  | cons n ns ih => cases ps with
    | nil => simp at h
    | cons p ps => cases idx with
      | zero => simp
      | succ idx =>
        simp only [List.set_cons_succ, List.zip_cons_cons, List.getElem_cons_succ]
        rw [ih (by simpa using h) (by simpa using hidx)]

/-- The hypothesis of `extendMany_ok` for struct patterns. -/
theorem struct_hx {path : Nat} {fs1 fs2 : List (Nat × Bool)} {ps1 ps2 after : List APat} {dots : Bool}
    (wf : WF (.struct path fs1 ps1 dots)) (wa : WFAll after) (nd : (exp (.struct path fs1 ps1 dots)).Nodup)
    {idx pos : Nat} (hidx : idx < ps1.length) (hq : .struct path fs2 ps2 dots ∈ after) {y : APat}
    (hlen : fs1.length = fs2.length) (ho : otherFields fs1 ps1 idx fs2 ps2 = true)
    (hpos : fieldPos (fs1.getD idx (0, false)) fs2 = some pos) (hy : ps2[pos]? = some y) :
    (exp (.struct path fs2 ps2 dots)).Perm (exp (.struct path fs1 (ps1.set idx y) dots)) ∧
      ∀ tail, (∀ z ∈ tail, WF z) →
        WF y ∧ WF (.struct path fs1 (ps1.set idx (extendTarget (ps1.getD idx .wild) tail)) dots) := by
  have w2 := WFAll_iff.1 wa _ hq
  rw [WF] at wf w2
  have hfidx : idx < fs1.length := by omega
  have wy : WF y := WFAll_iff.1 w2.1 y (List.mem_of_getElem? hy)
  have nde : ∀ l ∈ expEach ps1, l.Nodup := by
    rw [exp] at nd
    exact choices_nodup_each (expEach_ne _ wf.1) (nodup_of_map nd)
  have hnd : ∀ p ∈ ps1, (exp p).Nodup := fun p hp =>
    nde _ (by rw [expEach_map]; exact List.mem_map.2 ⟨p, hp, rfl⟩)
  refine ⟨?_, ?_⟩
  · rw [exp_struct _ _ _ _ w2.2.1, exp_struct _ _ _ _ (by simpa using wf.2.1)]
    refine (fields_perm path dots _ _ ?_ ?_ ?_).symm
    · intro a ha
      rw [List.set_eq_take_append_cons_drop, if_pos hidx] at ha
      have e1 : fs1 = fs1.take idx ++ fs1[idx] :: fs1.drop (idx + 1) := by
        rw [List.getElem_cons_drop, List.take_append_drop]
      have e2 : fs1.map (·.1) = (fs1.take idx).map (·.1) ++ fs1[idx].1 :: (fs1.drop (idx + 1)).map (·.1) := by
        conv => lhs; rw [e1]
        rw [List.map_append, List.map_cons]
      rw [e2, List.zip_append (by simp; omega), List.zip_cons_cons, List.mem_append, List.mem_cons] at ha
      unfold otherFields at ho
      rw [Bool.and_eq_true, eqFields_iff, eqFields_iff] at ho
      rcases ha with ha | rfl | ha
      · obtain ⟨b, hb, e1, e2⟩ := ho.1 a ha
        have hm := List.mem_of_mem_take (mem_zip_snd ha)
        exact ⟨b, hb, e1, eqPat_exp _ _ e2 (.inr (WFAll_iff.1 wf.1 _ hm))
          (.inr (WFAll_iff.1 w2.1 _ (mem_zip_snd hb))) (hnd _ hm)⟩
      · refine ⟨(fs1[idx].1, y), ?_, rfl, .refl _⟩
        unfold fieldPos at hpos
        obtain ⟨hp1, hp2, _⟩ := List.findIdx?_eq_some_iff_getElem.1 hpos
        have hp3 : fs1.getD idx (0, false) = fs1[idx] := by
          rw [List.getD_eq_getElem?_getD, List.getElem?_eq_getElem hfidx]; rfl
        rw [hp3, Bool.and_eq_true, beq_iff_eq] at hp2
        obtain ⟨hp4, rfl⟩ := List.getElem?_eq_some_iff.1 hy
        rw [hp2.2]
        have : ((fs2.map (·.1)).zip ps2)[pos]'(by simp; omega) = (fs2[pos].1, ps2[pos]) := by simp
        rw [← this]
        exact List.getElem_mem _
      · obtain ⟨b, hb, e1, e2⟩ := ho.2 a ha
        have hm := List.mem_of_mem_drop (mem_zip_snd ha)
        exact ⟨b, hb, e1, eqPat_exp _ _ e2 (.inr (WFAll_iff.1 wf.1 _ hm))
          (.inr (WFAll_iff.1 w2.1 _ (mem_zip_snd hb))) (hnd _ hm)⟩
    · rw [List.map_fst_zip (by simp [wf.2.1])]
      exact wf.2.2
    · simp only [List.length_zip, List.length_map, List.length_set]
      omega
  · intro tail ht
    refine ⟨wy, ?_⟩
    rw [WF]
    refine ⟨WFAll_set wf.1 (WF_extendTarget ?_ ht), by simpa using wf.2.1, wf.2.2⟩
    rw [List.getD_eq_getElem?_getD, List.getElem?_eq_getElem hidx]
    exact WFAll_iff.1 wf.1 _ (List.getElem_mem hidx)

/-! ## One focus, one level, the whole pattern -/

theorem transform_ok (focus : APat) (after : List APat) (wf : WF focus) (wa : WFAll after)
    (nd : (exp focus ++ expAny after).Nodup) : StepOk focus after (transform focus after) := by
  have wrapCase : ∀ (w : Wrap) (t : APat), WF (.wrap w t) →
      StepOk (.wrap w t) after (extendSingle (.wrap w) t (extractWrap w) after) := by
    intro w t wt
    refine extendSingle_ok (g := .wrap w) (fun p => by rw [exp]) (fun p => by rw [WF]) ?_ wt wa
    intro q y h
    unfold extractWrap at h
    split at h
    · split at h
      · next e => simp at h; rw [e, h]
      · simp at h
    · simp at h
  unfold transform
  split
  · exact wrapCase _ _ wf
  · exact wrapCase _ _ wf
  · exact wrapCase _ _ wf
  · next m x t =>
    refine extendSingle_ok (g := .bind m x) (fun p => by rw [exp]) (fun p => by rw [WF]) ?_ wf wa
    intro q y h
    unfold extractBind at h
    split at h
    · split at h
      · next e => simp at h; rw [e.1, e.2, h]
      · simp at h
    · simp at h
  · next ps =>
    refine extendMany_ok (g := .slice) (fun ps => by rw [exp]) ?_ wf wa
    intro idx hidx q hq y h
    unfold extractSlice at h
    split at h
    · next ps2 =>
      split at h
      · next e => exact product_hx (g := .slice) (fun ps => by rw [exp]) (fun ps => by rw [WF]) wf wa nd hidx hq e h
      · simp at h
    · simp at h
  · next ps =>
    refine extendMany_ok (g := .tuple) (fun ps => by rw [exp]) ?_ wf wa
    intro idx hidx q hq y h
    unfold extractTuple at h
    split at h
    · next ps2 =>
      split at h
      · next e => exact product_hx (g := .tuple) (fun ps => by rw [exp]) (fun ps => by rw [WF]) wf wa nd hidx hq e h
      · simp at h
    · simp at h
  · next path ps =>
    refine extendMany_ok (g := .tupleStruct path) (fun ps => by rw [exp]) ?_ wf wa
    intro idx hidx q hq y h
    unfold extractTupleStruct at h
    split at h
    · next ps2 =>
      split at h
      · next e =>
        obtain ⟨rfl, e⟩ := e
        exact product_hx (mk := .tupleStruct path) (g := .tupleStruct path) (fun ps => by rw [exp])
          (fun ps => by rw [WF]) wf wa nd hidx hq e h
      · simp at h
    · simp at h
  · next path fs ps dots =>
    refine extendMany_ok (g := fun qs => canonStruct path dots ((fs.map (·.1)).zip qs)) (fun ps => by rw [exp]) ?_ wf wa
    intro idx hidx q hq y h
    unfold extractStruct at h
    split at h
    · next path2 fs2 ps2 dots2 =>
      split at h
      · next e =>
        obtain ⟨rfl, rfl, hlen, ho⟩ := e
        split at h
        · next pos hpos => exact struct_hx wf wa (List.nodup_append.1 nd).1 hidx hq hlen ho hpos h
        · simp at h
      · simp at h
    · simp at h
  · exact ⟨.refl _, wf, wa⟩

theorem focusLoop_ok : ∀ (n : Nat) (alts : List APat), WFAll alts → (expAny alts).Nodup →
    (expAny (focusLoop n alts).1).Perm (expAny alts) ∧ WFAll (focusLoop n alts).1 ∧
      ((focusLoop n alts).1 = [] → alts = [])
  | 0, alts, w, _ => by rw [focusLoop]; exact ⟨.refl _, w, id⟩; simp
  | n + 1, [], w, _ => by rw [focusLoop]; exact ⟨.refl _, w, id⟩; simp
  | n + 1, focus :: after, w, nd => by
    rw [WFAll] at w
    rw [expAny] at nd
    obtain ⟨h1, h2, h3⟩ := transform_ok focus after w.1 w.2 nd
    have nd' := h1.nodup_iff.2 nd
    obtain ⟨i1, i2, _⟩ := focusLoop_ok n _ h3 (List.nodup_append.1 nd').2.1
    simp only [focusLoop, expAny, WFAll]
    refine ⟨((List.Perm.refl _).append i1).trans h1, ⟨h2, i2⟩, by simp⟩

mutual
theorem flat_ok : ∀ p : APat, WF p → (flat p).flatMap exp = exp p ∧ WFAll (flat p)
  | .or ps, w => by
    rw [WF] at w
    have := flatAll_ok ps w.2
    rw [flat, exp]; exact this
  | .wild, w | .rest, w | .never, w | .ident .., w | .leaf .., w | .bind .., w | .wrap .., w | .slice _, w
  | .tuple _, w | .tupleStruct .., w | .struct .., w | .paren _, w => by
    rw [flat]
    · exact ⟨by simp, by rw [WFAll]; exact ⟨w, by simp [WFAll]⟩⟩
    · simp

theorem flatAll_ok : ∀ ps : List APat, WFAll ps → (flatAll ps).flatMap exp = expAny ps ∧ WFAll (flatAll ps)
  | [], _ => by simp [flatAll, expAny, WFAll]
  | p :: ps, w => by
    rw [WFAll] at w
    have h1 := flat_ok p w.1
    have h2 := flatAll_ok ps w.2
    rw [flatAll, expAny, List.flatMap_append, h1.1, h2.1]
    refine ⟨rfl, WFAll_iff.2 ?_⟩
    intro q hq
    rcases List.mem_append.1 hq with hq | hq
    · exact WFAll_iff.1 h1.2 q hq
    · exact WFAll_iff.1 h2.2 q hq
end

theorem level_ok (alts : List APat) (w : WF (.or alts)) (nd : (exp (.or alts)).Nodup) :
    (exp (.or (level alts).1)).Perm (exp (.or alts)) ∧ WF (.or (level alts).1) := by
  have hne := exp_ne _ w
  rw [WF] at w
  rw [exp] at nd hne
  obtain ⟨h1, h2⟩ := flatAll_ok alts w.2
  rw [← h1, ← expAny_flatMap] at nd hne
  obtain ⟨i1, i2, i3⟩ := focusLoop_ok (flatAll alts).length (flatAll alts) h2 nd
  simp only [level, exp]
  rw [← h1, ← expAny_flatMap]
  refine ⟨i1, ?_⟩
  rw [WF]
  refine ⟨fun e => hne ?_, i2⟩
  rw [i3 e]; rfl

/-- What visiting a sub-pattern does. -/
def VisitOk (f : APat → APat × Bool) : Prop :=
  (f .rest).1 = .rest ∧ ∀ p, WF p → (exp p).Nodup → (exp (f p).1).Perm (exp p) ∧ WF (f p).1

theorem VisitOk.elems {f : APat → APat × Bool} (hf : VisitOk f) : ∀ {ps : List APat}, WFElems ps →
    (∀ l ∈ expEach ps, l.Nodup) →
    PermEach (expEach (ps.map fun p => (f p).1)) (expEach ps) ∧ WFElems (ps.map fun p => (f p).1)
  | [], _, _ => by simp [expEach, PermEach, WFElems]
  | p :: ps, w, nd => by
    rw [WFElems] at w
    simp only [expEach, List.mem_cons, forall_eq_or_imp] at nd
    have ih := hf.elems w.2 nd.2
    simp only [List.map_cons, expEach, PermEach, WFElems]
    rcases w.1 with rfl | wp
    · rw [hf.1]; exact ⟨⟨.refl _, ih.1⟩, .inl rfl, ih.2⟩
    · have := hf.2 p wp nd.1
      exact ⟨⟨this.1, ih.1⟩, .inr this.2, ih.2⟩

theorem VisitOk.all {f : APat → APat × Bool} (hf : VisitOk f) : ∀ {ps : List APat}, WFAll ps →
    (∀ l ∈ expEach ps, l.Nodup) →
    PermEach (expEach (ps.map fun p => (f p).1)) (expEach ps) ∧ WFAll (ps.map fun p => (f p).1)
  | [], _, _ => by simp [expEach, PermEach, WFAll]
  | p :: ps, w, nd => by
    rw [WFAll] at w
    simp only [expEach, List.mem_cons, forall_eq_or_imp] at nd
    have ih := hf.all w.2 nd.2
    have := hf.2 p w.1 nd.1
    simp only [List.map_cons, expEach, PermEach, WFAll]
    exact ⟨⟨this.1, ih.1⟩, this.2, ih.2⟩

theorem expAny_permEach : ∀ {ps qs : List APat}, PermEach (expEach ps) (expEach qs) → (expAny ps).Perm (expAny qs)
  | [], [], _ => .refl _
  | p :: ps, q :: qs, h => by
    simp only [expEach, PermEach] at h
    rw [expAny, expAny]
    exact h.1.append (expAny_permEach h.2)
  | [], _ :: _, h => by simp [expEach, PermEach] at h
  | _ :: _, [], h => by simp [expEach, PermEach] at h

theorem walk_ok {f : APat → APat × Bool} (hf : VisitOk f) (p : APat) (w : WF p) (nd : (exp p).Nodup) :
    (exp (walk f p).1).Perm (exp p) ∧ WF (walk f p).1 := by
  cases p with
  | wild | never | ident | leaf => simp only [walk]; exact ⟨.refl _, w⟩
  | rest => simp [WF] at w
  | bind m x p =>
    rw [WF] at w; rw [exp] at nd
    have := hf.2 p w (nodup_of_map nd)
    simp only [walk, exp, WF]; exact ⟨this.1.map _, this.2⟩
  | paren p =>
    rw [WF] at w; rw [exp] at nd
    have := hf.2 p w nd
    simp only [walk, exp, WF]; exact this
  | wrap c p =>
    rw [WF] at w; rw [exp] at nd
    have := hf.2 p w (nodup_of_map nd)
    simp only [walk, exp, WF]; exact ⟨this.1.map _, this.2⟩
  | slice ps =>
    rw [WF] at w; rw [exp] at nd
    have := hf.elems w (choices_nodup_each (expElems_ne _ w) (nodup_of_map nd))
    simp only [walk, exp, WF]; exact ⟨(choices_perm this.1).map _, this.2⟩
  | tuple ps =>
    rw [WF] at w; rw [exp] at nd
    have := hf.elems w (choices_nodup_each (expElems_ne _ w) (nodup_of_map nd))
    simp only [walk, exp, WF]; exact ⟨(choices_perm this.1).map _, this.2⟩
  | tupleStruct c ps =>
    rw [WF] at w; rw [exp] at nd
    have := hf.elems w (choices_nodup_each (expElems_ne _ w) (nodup_of_map nd))
    simp only [walk, exp, WF]; exact ⟨(choices_perm this.1).map _, this.2⟩
  | struct c fs ps d =>
    rw [WF] at w; rw [exp] at nd
    have := hf.all w.1 (choices_nodup_each (expEach_ne _ w.1) (nodup_of_map nd))
    simp only [walk, exp, WF]
    exact ⟨(choices_perm this.1).map _, this.2, by simpa using w.2.1, w.2.2⟩
  | or ps =>
    rw [WF] at w; rw [exp, expAny_flatMap] at nd
    have := hf.all w.2 (by
      intro l hl
      rw [expEach_map] at hl
      obtain ⟨p, hp, rfl⟩ := List.mem_map.1 hl
      exact (List.pairwise_flatMap.1 nd).1 p hp)
    simp only [walk, exp, WF]
    exact ⟨expAny_permEach this.1, by simpa using w.1, this.2⟩

theorem visit_ok : ∀ n, VisitOk (visit n)
  | 0 => ⟨rfl, fun p w _ => ⟨.refl _, w⟩⟩
  | n + 1 => by
    have ih := visit_ok n
    refine ⟨by simp [visit, walk], ?_⟩
    intro p w nd
    have hw := walk_ok ih p w nd
    have nd' := hw.1.nodup_iff.2 nd
    simp only [visit]
    split
    · next alts e =>
      rw [e] at hw nd'
      have hl := level_ok alts hw.2 nd'
      have nd2 := hl.1.nodup_iff.2 nd'
      have hw2 := walk_ok ih _ hl.2 nd2
      split
      · exact ⟨hw2.1.trans (hl.1.trans hw.1), hw2.2⟩
      · exact ⟨hl.1.trans hw.1, hl.2⟩
    · exact hw

mutual
theorem removeParens_ok : ∀ p : APat, exp (removeParens p) = exp p ∧ (WF p → WF (removeParens p))
  | .paren p => by
    have := removeParens_ok p
    rw [removeParens, exp, WF]; exact this
  | .bind m x p => by
    have := removeParens_ok p
    rw [removeParens, exp, exp, WF, WF, this.1]; exact ⟨rfl, this.2⟩
  | .wrap c p => by
    have := removeParens_ok p
    rw [removeParens, exp, exp, WF, WF, this.1]; exact ⟨rfl, this.2⟩
  | .slice ps => by
    have := removeParensAll_ok ps
    rw [removeParens, exp, exp, WF, WF, this.1]; exact ⟨rfl, this.2.1⟩
  | .tuple ps => by
    have := removeParensAll_ok ps
    rw [removeParens, exp, exp, WF, WF, this.1]; exact ⟨rfl, this.2.1⟩
  | .tupleStruct c ps => by
    have := removeParensAll_ok ps
    rw [removeParens, exp, exp, WF, WF, this.1]; exact ⟨rfl, this.2.1⟩
  | .struct c fs ps d => by
    have := removeParensAll_ok ps
    rw [removeParens, exp, exp, WF, WF, this.1]
    exact ⟨rfl, fun h => ⟨this.2.2.1 h.1, by rw [this.2.2.2]; exact h.2.1, h.2.2⟩⟩
  | .or ps => by
    have := removeParensAll_ok ps
    rw [removeParens, exp, exp, WF, WF, expAny_flatMap, expAny_flatMap]
    refine ⟨?_, fun h => ⟨fun e => h.1 ?_, this.2.2.1 h.2⟩⟩
    · have h1 := this.1
      rw [expEach_map, expEach_map] at h1
      rw [List.flatMap_def, List.flatMap_def, h1]
    · have h1 := this.2.2.2
      rw [e] at h1
      exact List.length_eq_zero_iff.1 h1.symm
  | .wild | .rest | .never | .ident .. | .leaf .. => by
    rw [removeParens] <;> simp

theorem removeParensAll_ok : ∀ ps : List APat, expEach (removeParensAll ps) = expEach ps ∧
    (WFElems ps → WFElems (removeParensAll ps)) ∧ (WFAll ps → WFAll (removeParensAll ps)) ∧
    (removeParensAll ps).length = ps.length
  | [] => by simp [removeParensAll]
  | p :: ps => by
    have h1 := removeParens_ok p
    have h2 := removeParensAll_ok ps
    simp only [removeParensAll, expEach, WFElems, WFAll, List.length_cons, h1.1, h2.1, h2.2.2.2, true_and, and_true]
    refine ⟨fun h => ⟨?_, h2.2.1 h.2⟩, fun h => ⟨h1.2 h.1, h2.2.2.1 h.2⟩⟩
    rcases h.1 with rfl | h
    · exact .inl rfl
    · exact .inr (h1.2 h)
end

theorem removeAllParens_ok (p : APat) : exp (removeAllParens p) = exp p ∧ (WF p → WF (removeAllParens p)) := by
  unfold removeAllParens
  split
  · have := removeParens_ok (by assumption)
    rw [exp, exp, WF, WF]; exact this
  · exact removeParens_ok p

variable (S : Sem) (ρ : Nat → Option S.V)

theorem M_parenOr (p : APat) (v : S.V) : M S ρ (parenOr p) v ↔ M S ρ p v := by
  unfold parenOr
  split
  · split <;> simp [M]
  · exact .rfl

theorem M_parenRef (p : APat) (v : S.V) : M S ρ (parenRef p) v ↔ M S ρ p v := by
  unfold parenRef
  split
  · simp [M]
  · simp [M]
  · exact M_parenOr S ρ p v

theorem M_parenWrap (w : Wrap) (p : APat) (v : S.V) : M S ρ (parenWrap w p) v ↔ M S ρ p v := by
  unfold parenWrap
  split
  · exact M_parenOr S ρ p v
  · exact .rfl
  · exact M_parenRef S ρ p v
  · exact M_parenOr S ρ p v

theorem insertParens_isRest (p : APat) : (insertParens p).isRest = p.isRest := by
  cases p <;> simp [insertParens, APat.isRest]

mutual
theorem M_insertParens : ∀ (p : APat) (v : S.V), M S ρ (insertParens p) v ↔ M S ρ p v
  | .wild, v | .rest, v | .never, v | .ident .., v | .leaf .., v => by rw [insertParens] <;> simp
  | .paren p, v => by rw [insertParens, M, M, M_insertParens p]
  | .bind m x p, v => by rw [insertParens, M, M, M_parenOr, M_insertParens p]
  | .wrap w p, v => by
    simp only [insertParens, M, M_parenWrap]
    exact exists_congr fun u => and_congr .rfl (M_insertParens p u)
  | .slice ps, v | .tuple ps, v | .tupleStruct _ ps, v => by
    simp only [insertParens, M]
    exact exists_congr fun u => and_congr .rfl (MList_insertParens ps u)
  | .struct c fs ps d, v => by
    simp only [insertParens, M]
    exact exists_congr fun u => and_congr .rfl (MFields_insertParens ps fs u)
  | .or ps, v => by
    simp only [insertParens, M]
    exact MAny_insertParens ps v

theorem MList_insertParens : ∀ (ps : List APat) (vs : List S.V), MList S ρ (insertParensAll ps) vs ↔ MList S ρ ps vs
  | [], vs => by rw [insertParensAll]
  | p :: ps, vs => by
    simp only [insertParensAll, MList, insertParens_isRest]
    refine or_congr ?_ ?_
    · exact and_congr .rfl (exists_congr fun a => exists_congr fun b => and_congr .rfl (MList_insertParens ps b))
    · exact exists_congr fun a => exists_congr fun b => and_congr .rfl
        (and_congr (M_insertParens p a) (MList_insertParens ps b))

theorem MFields_insertParens : ∀ (ps : List APat) (fs : List (Nat × Bool)) (g : Nat → Option S.V),
    MFields S ρ fs (insertParensAll ps) g ↔ MFields S ρ fs ps g
  | [], fs, g => by rw [insertParensAll]
  | p :: ps, [], g => by simp [MFields]
  | p :: ps, f :: fs, g => by
    simp only [insertParensAll, MFields]
    exact and_congr (exists_congr fun v => and_congr .rfl (M_insertParens p v)) (MFields_insertParens ps fs g)

theorem MAny_insertParens : ∀ (ps : List APat) (v : S.V), MAny S ρ (insertParensAll ps) v ↔ MAny S ρ ps v
  | [], v => by rw [insertParensAll]
  | p :: ps, v => by
    simp only [insertParensAll, MAny]
    exact or_congr (M_insertParens p v) (MAny_insertParens ps v)
end

/-- **C39.** For every pattern without sub-slice bindings that lists no or-free pattern twice: the suggested pattern
matches exactly the values the original matches, and with the same possible bindings.

Missing for the full property: patterns with duplicates, the order in which alternatives are tried, and the text of the
suggestion (see `UnnestViolations`). -/
theorem suggest_matches_same_partial {p p' : APat} (wf : WF p) (nd : NoDuplicates p) (h : suggest p = some p')
    (S : Sem) (ρ : Nat → Option S.V) (v : S.V) : M S ρ p v ↔ M S ρ p' v := by
  unfold suggest at h
  simp only at h
  split at h
  · simp only [Option.some.injEq] at h
    subst h
    have hr := removeAllParens_ok p
    have w1 := hr.2 wf
    have nd1 : (exp (removeAllParens p)).Nodup := by rw [hr.1]; exact nd
    have hv := (visit_ok (removeAllParens p).size).2 _ w1 nd1
    rw [M_insertParens, M_exp S ρ wf, M_exp S ρ hv.2, ← hr.1]
    exact exists_congr fun q => and_congr hv.1.mem_iff.symm .rfl
  · simp at h

/-- The suggested pattern lists exactly the or-free patterns of the original, none of them twice. -/
theorem visit_alternatives {p : APat} (wf : WF p) (nd : NoDuplicates p) (n : Nat) :
    (exp (visit n (removeAllParens p)).1).Perm (exp p) := by
  have hr := removeAllParens_ok p
  have := ((visit_ok n).2 _ (hr.2 wf) (by rw [hr.1]; exact nd)).1
  rwa [hr.1] at this

end Verif.Unnest
