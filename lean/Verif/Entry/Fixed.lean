import Verif.Entry.Mono

/-!
# Code without insertions is not changed
-/

namespace Verif.Entry

/-- The map was used before, or no edits were made. -/
def Quiet (a b : Srch) : Prop := a.mapUsed = true ∨ b.edits.length ≤ a.edits.length

theorem Quiet.left {a b c : Srch} (h : Le b c) (q : Quiet a c) : Quiet a b :=
  q.imp id fun x => Nat.le_trans h.edits x

theorem Quiet.right {a b c : Srch} (h : Le a b) (q : Quiet a c) : Quiet b c :=
  q.imp h.map fun x => Nat.le_trans x h.edits

variable (fa : Facts) (occ : Bool)

mutual
theorem rw_fixed : ∀ (d : Nat) (e : Ex) (st : Srch) (used : Bool), (visit fa d e st).can = true →
    Quiet st (visit fa d e st) → rw_ occ used e = e
  | d, .ins own v, st, used, hc, q => by
    exfalso
    have h0 := (visit_le fa d (.ins own v) st).can hc
    simp only [visit_ins fa h0] at hc q
    have h1 : Le st (st.restore (walk fa d v { st with mapUsed := st.mapUsed || fa.keyUsesMap })) := by
      have h := walk_le fa d v { st with mapUsed := st.mapUsed || fa.keyUsesMap }
      exact ⟨h.can, fun x => h.map (by simp [x]), h.edits, h.key, id⟩
    generalize st.restore (walk fa d v { st with mapUsed := st.mapUsed || fa.keyUsesMap }) = st1 at h1 hc q
    by_cases hm : (st1.mapUsed || !own) = true
    · rw [if_pos hm] at hc; exact nomatch hc
    · rw [if_neg hm] at q
      rcases q with q | q
      · apply hm; rw [h1.map q]; rfl
      · have h2 := (visit_le fa d v { st1.record with tail := false }).edits
        generalize visit fa d v { st1.record with tail := false } = st3 at h2 q
        have h4 := h1.edits
        simp only [Srch.record, List.length_append, List.length_cons, List.length_nil] at h2 q
        omega
  | _, .part _, _, _, _, _ => by simp only [rw_]
  | _, .key, _, _, _, _ => by simp only [rw_]
  | d, .ite c t e, st, used, hc, q => by
    have h0 := (visit_le fa d (.ite c t e) st).can hc
    simp only [visit_ite fa h0] at hc q
    have i1 := rw_fixed d c { st with single := false, tail := false } true
    have h1 := visit_le fa d c { st with single := false, tail := false }
    generalize visit fa d c { st with single := false, tail := false } = st1 at h1 i1 hc q
    have i2 := rw_fixed d t { st1 with tail := st.tail } true
    have h2 := visit_le fa d t { st1 with tail := st.tail }
    generalize visit fa d t { st1 with tail := st.tail } = st2 at h2 i2 hc q
    have i3 := rw_fixed d e { st2 with mapUsed := st1.mapUsed, tail := st.tail } true
    have h3 := visit_le fa d e { st2 with mapUsed := st1.mapUsed, tail := st.tail }
    generalize visit fa d e { st2 with mapUsed := st1.mapUsed, tail := st.tail } = st3 at h3 i3 hc q
    have e1 := h1.edits; have e2 := h2.edits; have e3 := h3.edits
    simp only at hc e1 e2 e3
    simp only [rw_]
    rw [i1 (h2.can (h3.can hc)) (q.imp id fun x => Nat.le_trans e2 (Nat.le_trans e3 x)),
      i2 (h3.can hc) (q.imp h1.map fun x => Nat.le_trans e3 (Nat.le_trans x e1)),
      i3 hc (q.imp h1.map fun x => Nat.le_trans x (Nat.le_trans e1 e2))]
  | d, .when c t, st, used, hc, q => by
    have h0 := (visit_le fa d (.when c t) st).can hc
    simp only [visit_when fa h0] at hc q
    simp only [rw_]
    have h1 := visit_le fa d c (st.other true)
    have h2 := visit_le fa d t (visit fa d c (st.other true))
    rw [rw_fixed d c _ true (h2.can hc) ((q.right (le_other st true)).left h2),
      rw_fixed d t _ false hc ((q.right (le_other st true)).right h1)]
  | d, .mtch s as, st, used, hc, q => by
    have h0 := (visit_le fa d (.mtch s as) st).can hc
    simp only [visit_mtch fa h0] at hc q
    have i1 := rw_fixed d s { st with single := false, tail := false } true
    have h1 := visit_le fa d s { st with single := false, tail := false }
    generalize visit fa d s { st with single := false, tail := false } = st1 at h1 i1 hc q
    have h2 := arms_le fa d as { st1 with tail := st.tail } st1.mapUsed
    have i2 := rwArms_fixed d as { st1 with tail := st.tail } st1.mapUsed
    generalize visitArms fa d as { st1 with tail := st.tail } st1.mapUsed = r at h2 i2 hc q
    have e1 := h1.edits; have e2 := h2.2.2.1
    simp only at hc e1 e2
    simp only [rw_]
    rw [i1 (h2.1 hc) (q.imp id fun x => Nat.le_trans e2 x),
      i2 _ hc (q.imp h1.map fun x => Nat.le_trans x e1)]
  | d, .loop b, st, used, hc, q => by
    have h0 := (visit_le fa d (.loop b) st).can hc
    simp only [visit_loop fa h0] at hc q
    simp only [rw_]
    have i := rwB_fixed (d + 1) b { st.notTail with single := false } true
    generalize visitB fa (d + 1) b { st.notTail with single := false } = st1 at i hc q
    by_cases hl : (st1.edits.length != st.edits.length) = true
    · rw [if_pos hl] at hc; exact nomatch hc
    · rw [if_neg hl] at hc
      rw [i hc (.inr (Nat.le_of_eq (show st1.edits.length = st.edits.length by simpa using hl)))]
  | d, .blk b, st, used, hc, q => by
    have h0 := (visit_le fa d (.blk b) st).can hc
    simp only [visit_blk fa h0] at hc q
    simp only [rw_]
    rw [rwB_fixed d b st used hc q]
  | _, .asm _, _, _, _, _ => by simp only [rw_]
  | d, .op n args, st, used, hc, q => by
    have h0 := (visit_le fa d (.op n args) st).can hc
    simp only [visit_op fa h0] at hc q
    simp only [rw_]
    rw [rwAll_fixed d args _ hc (q.right (le_other st _))]
  | _, .eIns _ _, _, _, _, _ => by simp only [rw_]
theorem rwAll_fixed : ∀ (d : Nat) (es : Exs) (st : Srch), (visitAll fa d es st).can = true →
    Quiet st (visitAll fa d es st) → rwAll occ es = es
  | _, .nil, _, _, _ => by simp only [rwAll]
  | d, .cons e es, st, hc, q => by
    simp only [visitAll] at hc q
    have h2 := all_le fa d es (visit fa d e st)
    simp only [rwAll]
    rw [rw_fixed d e st true (h2.can hc) (q.left h2), rwAll_fixed d es _ hc (q.right (visit_le fa d e st))]
theorem rwB_fixed : ∀ (d : Nat) (b : Blk) (st : Srch) (used : Bool), (visitB fa d b st).can = true →
    Quiet st (visitB fa d b st) → rwB occ used b = b
  | _, .done, _, _, _, _ => by simp only [rwB]
  | d, .tail e, st, used, hc, q => by
    simp only [visitB] at hc q
    simp only [rwB]; rw [rw_fixed d e st used hc q]
  | d, .semi e r, st, used, hc, q => by
    simp only [visitB] at hc q
    simp only [rwB]
    have i1 := rw_fixed d e (st.enter r.isDone) false
    have h1 := visit_le fa d e (st.enter r.isDone)
    generalize visit fa d e (st.enter r.isDone) = st1 at h1 i1 hc q
    cases hr : r.isDone with
    | true =>
      simp only [hr, if_true] at hc q
      have : r = .done := by cases r <;> simp [Blk.isDone] at hr; rfl
      rw [i1 ((le_afterSemi st1).can hc) ((q.left (le_afterSemi st1)).right (le_enter st _)), this]
      simp only [rwB]
    | false =>
      simp only [hr, Bool.false_eq_true, if_false] at hc q
      have i2 := rwB_fixed d r { st1.afterSemi with tail := st.tail } used
      have h2 := visitB_le fa d r { st1.afterSemi with tail := st.tail }
      have h3 : Le st1 { st1.afterSemi with tail := st.tail } := (le_afterSemi st1).tail _
      rw [i1 (h3.can (h2.can hc)) ((q.right (le_enter st _)).left (h3.trans h2)),
        i2 hc (q.right ((le_enter st _).trans (h1.trans h3)))]
  | d, .stmt e r, st, used, hc, q => by
    simp only [visitB] at hc q
    simp only [rwB]
    have i1 := rw_fixed d e (st.enter r.isDone) false
    have h1 := visit_le fa d e (st.enter r.isDone)
    generalize visit fa d e (st.enter r.isDone) = st1 at h1 i1 hc q
    cases hr : r.isDone with
    | true =>
      simp only [hr, if_true] at hc q
      have : r = .done := by cases r <;> simp [Blk.isDone] at hr; rfl
      rw [i1 hc (q.right (le_enter st _)), this]
      simp only [rwB]
    | false =>
      simp only [hr, Bool.false_eq_true, if_false] at hc q
      have i2 := rwB_fixed d r { st1 with tail := st.tail } used
      have h2 := visitB_le fa d r { st1 with tail := st.tail }
      have h3 : Le st1 { st1 with tail := st.tail } := Le.rfl.tail _
      rw [i1 (h3.can (h2.can hc)) ((q.right (le_enter st _)).left (h3.trans h2)),
        i2 hc (q.right ((le_enter st _).trans (h1.trans h3)))]
  | d, .letWild e r, st, used, hc, q => by
    simp only [visitB] at hc q
    simp only [rwB]
    have i1 := rw_fixed d e (st.enter r.isDone).forInit false
    have h1 := visit_le fa d e (st.enter r.isDone).forInit
    have h0 : Le st (st.enter r.isDone).forInit := (le_enter st _).trans (le_forInit _)
    generalize visit fa d e (st.enter r.isDone).forInit = st1 at h1 i1 hc q
    cases hr : r.isDone with
    | true =>
      simp only [hr, if_true] at hc q
      have : r = .done := by cases r <;> simp [Blk.isDone] at hr; rfl
      rw [i1 hc (q.right h0), this]
      simp only [rwB]
    | false =>
      simp only [hr, Bool.false_eq_true, if_false] at hc q
      have i2 := rwB_fixed d r { st1 with tail := st.tail } used
      have h2 := visitB_le fa d r { st1 with tail := st.tail }
      have h3 : Le st1 { st1 with tail := st.tail } := Le.rfl.tail _
      rw [i1 (h3.can (h2.can hc)) ((q.right h0).left (h3.trans h2)), i2 hc (q.right (h0.trans (h1.trans h3)))]
  | d, .let_ p e r, st, used, hc, q => by
    simp only [visitB] at hc q
    simp only [rwB]
    have i1 := rw_fixed d e (st.enter r.isDone).forInit true
    have h1 := visit_le fa d e (st.enter r.isDone).forInit
    have h0 : Le st (st.enter r.isDone).forInit := (le_enter st _).trans (le_forInit _)
    generalize visit fa d e (st.enter r.isDone).forInit = st1 at h1 i1 hc q
    cases hr : r.isDone with
    | true =>
      simp only [hr, if_true] at hc q
      have : r = .done := by cases r <;> simp [Blk.isDone] at hr; rfl
      rw [i1 hc (q.right h0), this]
      simp only [rwB]
    | false =>
      simp only [hr, Bool.false_eq_true, if_false] at hc q
      have i2 := rwB_fixed d r { st1 with tail := st.tail } used
      have h2 := visitB_le fa d r { st1 with tail := st.tail }
      have h3 : Le st1 { st1 with tail := st.tail } := Le.rfl.tail _
      rw [i1 (h3.can (h2.can hc)) ((q.right h0).left (h3.trans h2)), i2 hc (q.right (h0.trans (h1.trans h3)))]
  | d, .letElse p e els r, st, used, hc, q => by
    simp only [visitB] at hc q
    simp only [rwB]
    have i1 := rw_fixed d e (st.enter r.isDone).forInit true
    have h1 := visit_le fa d e (st.enter r.isDone).forInit
    have h0 : Le st (st.enter r.isDone).forInit := (le_enter st _).trans (le_forInit _)
    generalize visit fa d e (st.enter r.isDone).forInit = st1 at h1 i1 hc q
    have ie := rwB_fixed d els st1 true
    have he := visitB_le fa d els st1
    generalize visitB fa d els st1 = st2 at he ie hc q
    cases hr : r.isDone with
    | true =>
      simp only [hr, if_true] at hc q
      have : r = .done := by cases r <;> simp [Blk.isDone] at hr; rfl
      rw [i1 (he.can hc) ((q.right h0).left he), ie hc (q.right (h0.trans h1)), this]
      simp only [rwB]
    | false =>
      simp only [hr, Bool.false_eq_true, if_false] at hc q
      have i2 := rwB_fixed d r { st2 with tail := st.tail } used
      have h2 := visitB_le fa d r { st2 with tail := st.tail }
      have h3 : Le st2 { st2 with tail := st.tail } := Le.rfl.tail _
      rw [i1 (he.can (h3.can (h2.can hc))) ((q.right h0).left (he.trans (h3.trans h2))),
        ie (h3.can (h2.can hc)) ((q.right (h0.trans h1)).left (h3.trans h2)),
        i2 hc (q.right (h0.trans (h1.trans (he.trans h3))))]
  | d, .decl r, st, used, hc, q => by
    simp only [visitB] at hc q
    simp only [rwB]
    cases hr : r.isDone with
    | true =>
      have : r = .done := by cases r <;> simp [Blk.isDone] at hr; rfl
      rw [this]; simp only [rwB]
    | false =>
      simp only [hr, Bool.false_eq_true, if_false] at hc q
      rw [rwB_fixed d r st used hc q]
  | d, .item r, st, used, hc, q => by
    simp only [visitB] at hc q
    simp only [rwB]
    cases hr : r.isDone with
    | true =>
      have : r = .done := by cases r <;> simp [Blk.isDone] at hr; rfl
      rw [this]; simp only [rwB]
    | false =>
      simp only [hr, Bool.false_eq_true, if_false] at hc q
      have h : Le st { (st.enter false).notTail with single := false, tail := st.tail } :=
        ((le_enter st false).trans (le_notTail _)).flags _ _
      rw [rwB_fixed d r _ used hc (q.right h)]
theorem rwArms_fixed : ∀ (d : Nat) (as : Arms) (st : Srch) (acc : Bool) (used : Bool),
    (visitArms fa d as st acc).1.can = true → Quiet st (visitArms fa d as st acc).1 → rwArms occ used as = as
  | _, .nil, _, _, _, _, _ => by simp only [rwArms]
  | d, .arm p e r, st, acc, used, hc, q => by
    simp only [visitArms] at hc q
    have i1 := rw_fixed d e st used
    have h1 := visit_le fa d e st
    generalize visit fa d e st = st1 at h1 i1 hc q
    have h2 := arms_le fa d r { st1 with mapUsed := st.mapUsed, tail := st.tail } (acc || st1.mapUsed)
    have i2 := rwArms_fixed d r { st1 with mapUsed := st.mapUsed, tail := st.tail } (acc || st1.mapUsed) used
    simp only [rwArms]
    rw [i1 (h2.1 hc) (q.imp id fun x => Nat.le_trans h2.2.2.1 x), i2 hc (q.imp id fun x => Nat.le_trans x h1.edits)]
  | d, .guarded p g e r, st, acc, used, hc, q => by
    simp only [visitArms] at hc q
    have i0 := rw_fixed d g { st with tail := false } true
    have h0 := visit_le fa d g { st with tail := false }
    generalize visit fa d g { st with tail := false } = st0 at h0 i0 hc q
    have i1 := rw_fixed d e { st0 with tail := st.tail } used
    have h1 := visit_le fa d e { st0 with tail := st.tail }
    generalize visit fa d e { st0 with tail := st.tail } = st1 at h1 i1 hc q
    have h2 := arms_le fa d r { st1 with mapUsed := st0.mapUsed, tail := st.tail } (acc || st1.mapUsed)
    have i2 := rwArms_fixed d r { st1 with mapUsed := st0.mapUsed, tail := st.tail } (acc || st1.mapUsed) used
    have e0 := h0.edits; have e1 := h1.edits; have e2 := h2.2.2.1
    simp only at e0 e1 e2
    simp only [rwArms]
    rw [i0 (h1.can (h2.1 hc)) (q.imp id fun x => Nat.le_trans e1 (Nat.le_trans e2 x)),
      i1 (h2.1 hc) (q.imp h0.map fun x => Nat.le_trans e2 (Nat.le_trans x e0)),
      i2 hc (q.imp h0.map fun x => Nat.le_trans x (Nat.le_trans e0 e1))]
end

end Verif.Entry
