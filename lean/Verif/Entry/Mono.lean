import Verif.Entry.Model

/-!
# The search only goes forward
-/

namespace Verif.Entry

/-- The search has gone on. -/
structure Le (a b : Srch) : Prop where
  can : b.can = true → a.can = true
  map : a.mapUsed = true → b.mapUsed = true
  edits : a.edits.length ≤ b.edits.length
  key : a.keyUsed = true → b.keyUsed = true
  allow : b.allow = true → a.allow = true

theorem Le.rfl {a : Srch} : Le a a := ⟨id, id, Nat.le_refl _, id, id⟩

theorem Le.trans {a b c : Srch} (h : Le a b) (g : Le b c) : Le a c :=
  ⟨fun x => h.can (g.can x), fun x => g.map (h.map x), Nat.le_trans h.edits g.edits, fun x => g.key (h.key x),
    fun x => h.allow (g.allow x)⟩

theorem le_notTail (a : Srch) : Le a a.notTail :=
  ⟨id, id, Nat.le_refl _, id, fun h => by simp [Srch.notTail] at h; exact h.1⟩

theorem le_forInit (a : Srch) : Le a a.forInit :=
  ⟨id, id, Nat.le_refl _, id, fun h => by simp [Srch.forInit, Srch.notTail] at h; exact h.1⟩

theorem le_enter (a : Srch) (l : Bool) : Le a (a.enter l) := by
  unfold Srch.enter; split
  · exact .rfl
  · exact ⟨id, id, Nat.le_refl _, id, id⟩

theorem le_other (a : Srch) (m : Bool) : Le a (a.other m) :=
  ⟨id, id, Nat.le_refl _, id, fun h => by simp [Srch.other] at h; exact h.1.1⟩

theorem le_afterSemi (a : Srch) : Le a a.afterSemi := by
  unfold Srch.afterSemi; split
  · exact ⟨id, id, by simp, id, id⟩
  · exact .rfl

theorem le_record (a : Srch) : Le a a.record :=
  ⟨id, fun _ => rfl, by simp [Srch.record], id, fun h => by simp [Srch.record] at h; exact h.1⟩

theorem le_stop (a : Srch) : Le a { a with can := false } :=
  ⟨(fun h => nomatch h), id, Nat.le_refl _, id, id⟩

/-- Setting the tail and the single flag does not matter. -/
theorem Le.flags {a b : Srch} (h : Le a b) (t s : Bool) : Le a { b with tail := t, single := s } :=
  ⟨h.can, h.map, h.edits, h.key, h.allow⟩

theorem Le.of_flags {a b : Srch} (t s : Bool) (h : Le { a with tail := t, single := s } b) : Le a b :=
  ⟨h.can, h.map, h.edits, h.key, h.allow⟩

theorem Le.tail {a b : Srch} (h : Le a b) (t : Bool) : Le a { b with tail := t } :=
  ⟨h.can, h.map, h.edits, h.key, h.allow⟩

variable (fa : Facts)

mutual
theorem visit_le : ∀ (d : Nat) (e : Ex) (st : Srch), Le st (visit fa d e st)
  | d, .ins own v, st => by
    simp only [visit]
    split
    · exact .rfl
    · have h0 : Le st (st.restore (walk fa d v { st with mapUsed := st.mapUsed || fa.keyUsesMap })) := by
        have h := walk_le d v { st with mapUsed := st.mapUsed || fa.keyUsesMap }
        exact ⟨h.can, fun x => h.map (by simp [x]), h.edits, h.key, id⟩
      generalize st.restore (walk fa d v { st with mapUsed := st.mapUsed || fa.keyUsesMap }) = st1 at h0 ⊢
      split
      · exact h0.trans (le_stop _)
      · exact ((h0.trans (le_record st1)).trans (((visit_le d v _).of_flags false _).flags _ _))
  | _, .part _, st => by
    simp only [visit]; split
    · exact .rfl
    · exact ⟨id, fun _ => rfl, Nat.le_refl _, id, id⟩
  | _, .key, st => by
    simp only [visit]; split
    · exact .rfl
    · exact ⟨id, id, Nat.le_refl _, fun _ => rfl, id⟩
  | d, .ite c t e, st => by
    simp only [visit]; split
    · exact .rfl
    · have h1 := (visit_le d c { st with single := false, tail := false }).of_flags false false
      generalize visit fa d c { st with single := false, tail := false } = st1 at h1 ⊢
      have h2 := (visit_le d t { st1 with tail := st.tail }).of_flags st.tail st1.single
      generalize visit fa d t { st1 with tail := st.tail } = st2 at h2 ⊢
      have h3 := visit_le d e { st2 with mapUsed := st1.mapUsed, tail := st.tail }
      generalize visit fa d e { st2 with mapUsed := st1.mapUsed, tail := st.tail } = st3 at h3 ⊢
      exact ⟨fun x => h1.can (h2.can (h3.can x)), fun x => by simp [h2.map (h1.map x)],
        Nat.le_trans h1.edits (Nat.le_trans h2.edits h3.edits), fun x => h3.key (h2.key (h1.key x)),
        fun x => h1.allow (h2.allow (h3.allow x))⟩
  | d, .when c t, st => by
    simp only [visit]; split
    · exact .rfl
    · exact (le_other st true).trans ((visit_le d c _).trans (visit_le d t _))
  | d, .mtch s as, st => by
    simp only [visit]; split
    · exact .rfl
    · have h1 := (visit_le d s { st with single := false, tail := false }).of_flags false false
      generalize visit fa d s { st with single := false, tail := false } = st1 at h1 ⊢
      have h2 := arms_le d as { st1 with tail := st.tail } st1.mapUsed
      generalize visitArms fa d as { st1 with tail := st.tail } st1.mapUsed = r at h2 ⊢
      exact ⟨fun x => h1.can (h2.1 x), fun x => h2.2.1 (h1.map x), Nat.le_trans h1.edits h2.2.2.1,
        fun x => h2.2.2.2.1 (h1.key x), fun x => h1.allow (h2.2.2.2.2 x)⟩
  | d, .loop b, st => by
    simp only [visit]; split
    · exact .rfl
    · have h1 := ((le_notTail st).flags st.notTail.tail false).trans
        (visitB_le (d + 1) b { st.notTail with single := false })
      split
      · exact h1.trans (le_stop _)
      · exact h1
  | d, .blk b, st => by
    simp only [visit]; split
    · exact .rfl
    · exact visitB_le d b st
  | _, .asm _, st => by simp only [visit]; exact le_stop st
  | d, .op n args, st => by
    simp only [visit]; split
    · exact .rfl
    · exact (le_other st _).trans (all_le d args _)
  | _, .eIns _ _, st => by simp only [visit]; exact le_stop st
theorem walk_le : ∀ (d : Nat) (e : Ex) (st : Srch), Le st (walk fa d e st)
  | d, .ins _ v, st => by
    simp only [walk]
    have h := visit_le d v { st with mapUsed := true }
    exact ⟨h.can, fun _ => h.map rfl, h.edits, h.key, h.allow⟩
  | _, .part _, st => by simp only [walk]; exact .rfl
  | _, .key, st => by simp only [walk]; exact .rfl
  | d, .ite c t e, st => by
    simp only [walk]; exact (visit_le d c _).trans ((visit_le d t _).trans (visit_le d e _))
  | d, .when c t, st => by simp only [walk]; exact (visit_le d c _).trans (visit_le d t _)
  | d, .mtch s as, st => by simp only [walk]; exact (visit_le d s _).trans (walkArms_le d as _)
  | d, .loop b, st => by simp only [walk]; exact visitB_le d b st
  | d, .blk b, st => by simp only [walk]; exact visitB_le d b st
  | _, .asm _, st => by simp only [walk]; exact .rfl
  | d, .op _ args, st => by simp only [walk]; exact all_le d args st
  | _, .eIns _ _, st => by simp only [walk]; exact le_stop st
theorem all_le : ∀ (d : Nat) (es : Exs) (st : Srch), Le st (visitAll fa d es st)
  | _, .nil, st => by simp only [visitAll]; exact .rfl
  | d, .cons e es, st => by simp only [visitAll]; exact (visit_le d e st).trans (all_le d es _)
theorem visitB_le : ∀ (d : Nat) (b : Blk) (st : Srch), Le st (visitB fa d b st)
  | _, .done, st => by simp only [visitB]; exact le_notTail st
  | d, .tail e, st => by simp only [visitB]; exact visit_le d e st
  | d, .semi e r, st => by
    simp only [visitB]
    have h := (le_enter st r.isDone).trans ((visit_le d e _).trans (le_afterSemi _))
    split
    · exact h
    · exact (h.tail st.tail).trans (visitB_le d r _)
  | d, .stmt e r, st => by
    simp only [visitB]
    have h := (le_enter st r.isDone).trans (visit_le d e _)
    split
    · exact h
    · exact (h.tail st.tail).trans (visitB_le d r _)
  | d, .letWild e r, st => by
    simp only [visitB]
    have h := (le_enter st r.isDone).trans ((le_forInit _).trans (visit_le d e _))
    split
    · exact h
    · exact (h.tail st.tail).trans (visitB_le d r _)
  | d, .let_ _ e r, st => by
    simp only [visitB]
    have h := (le_enter st r.isDone).trans ((le_forInit _).trans (visit_le d e _))
    split
    · exact h
    · exact (h.tail st.tail).trans (visitB_le d r _)
  | d, .letElse _ e els r, st => by
    simp only [visitB]
    have h := (le_enter st r.isDone).trans ((le_forInit _).trans ((visit_le d e _).trans (visitB_le d els _)))
    split
    · exact h
    · exact (h.tail st.tail).trans (visitB_le d r _)
  | d, .decl r, st => by
    simp only [visitB]; split
    · exact .rfl
    · exact visitB_le d r st
  | d, .item r, st => by
    simp only [visitB]
    have h := ((le_enter st r.isDone).trans (le_notTail _)).flags (st.enter r.isDone).notTail.tail false
    split
    · exact h
    · exact (h.tail st.tail).trans (visitB_le d r _)
theorem arms_le : ∀ (d : Nat) (as : Arms) (st : Srch) (acc : Bool),
    ((visitArms fa d as st acc).1.can = true → st.can = true) ∧ (acc = true → (visitArms fa d as st acc).2 = true) ∧
    st.edits.length ≤ (visitArms fa d as st acc).1.edits.length ∧
    (st.keyUsed = true → (visitArms fa d as st acc).1.keyUsed = true) ∧
    ((visitArms fa d as st acc).1.allow = true → st.allow = true)
  | _, .nil, st, acc => by simp only [visitArms]; exact ⟨id, id, Nat.le_refl _, id, id⟩
  | d, .arm _ e r, st, acc => by
    simp only [visitArms]
    have h := visit_le d e st
    obtain ⟨a1, a2, a3, a4, a5⟩ := arms_le d r { visit fa d e st with mapUsed := st.mapUsed, tail := st.tail }
      (acc || (visit fa d e st).mapUsed)
    exact ⟨fun x => h.can (a1 x), fun x => a2 (by simp [x]), Nat.le_trans h.edits a3, fun x => a4 (h.key x),
      fun x => h.allow (a5 x)⟩
  | d, .guarded _ g e r, st, acc => by
    simp only [visitArms]
    have h0 := (visit_le d g { st with tail := false }).of_flags false st.single
    generalize visit fa d g { st with tail := false } = st0 at h0 ⊢
    have h := h0.trans ((visit_le d e { st0 with tail := st.tail }).of_flags st.tail st0.single)
    generalize visit fa d e { st0 with tail := st.tail } = st1 at h ⊢
    obtain ⟨a1, a2, a3, a4, a5⟩ := arms_le d r { st1 with mapUsed := st0.mapUsed, tail := st.tail }
      (acc || st1.mapUsed)
    exact ⟨fun x => h.can (a1 x), fun x => a2 (by simp [x]), Nat.le_trans h.edits a3, fun x => a4 (h.key x),
      fun x => h.allow (a5 x)⟩
theorem walkArms_le : ∀ (d : Nat) (as : Arms) (st : Srch), Le st (walkArms fa d as st)
  | _, .nil, st => by simp only [walkArms]; exact .rfl
  | d, .arm _ e r, st => by simp only [walkArms]; exact (visit_le d e st).trans (walkArms_le d r _)
  | d, .guarded _ g e r, st => by
    simp only [walkArms]; exact (visit_le d g st).trans ((visit_le d e _).trans (walkArms_le d r _))
end

/-! Each step, while the search goes on. -/

section
variable {st : Srch} (h : st.can = true) (d : Nat)
include h

theorem visit_ins (own : Bool) (v : Ex) : visit fa d (.ins own v) st =
    (let st1 := st.restore (walk fa d v { st with mapUsed := st.mapUsed || fa.keyUsesMap })
     if st1.mapUsed || !own then { st1 with can := false } else
     let st2 := st1.record
     let st3 := visit fa d v { st2 with tail := false }
     { st3 with tail := st2.tail, single := st2.single }) := by
  simp only [visit]; rw [if_neg (by simp [h])]

theorem visit_ite (c t e : Ex) : visit fa d (.ite c t e) st =
    (let st1 := visit fa d c { st with single := false, tail := false }
     let st2 := visit fa d t { st1 with tail := st.tail }
     let st3 := visit fa d e { st2 with mapUsed := st1.mapUsed, tail := st.tail }
     { st3 with mapUsed := st2.mapUsed || st3.mapUsed, tail := st.tail }) := by
  simp only [visit]; rw [if_neg (by simp [h])]

theorem visit_when (c t : Ex) : visit fa d (.when c t) st = visit fa d t (visit fa d c (st.other true)) := by
  simp only [visit]; rw [if_neg (by simp [h])]

theorem visit_mtch (s : Ex) (as : Arms) : visit fa d (.mtch s as) st =
    (let st1 := visit fa d s { st with single := false, tail := false }
     let r := visitArms fa d as { st1 with tail := st.tail } st1.mapUsed
     { r.1 with mapUsed := r.2 }) := by
  simp only [visit]; rw [if_neg (by simp [h])]

theorem visit_loop (b : Blk) : visit fa d (.loop b) st =
    (let st1 := visitB fa (d + 1) b { st.notTail with single := false }
     if st1.edits.length != st.edits.length then { st1 with can := false } else st1) := by
  simp only [visit]; rw [if_neg (by simp [h])]

theorem visit_blk (b : Blk) : visit fa d (.blk b) st = visitB fa d b st := by
  simp only [visit]; rw [if_neg (by simp [h])]

theorem visit_op (n : Nat) (args : Exs) :
    visit fa d (.op n args) st = visitAll fa d args (st.other (fa.movable n d)) := by
  simp only [visit]; rw [if_neg (by simp [h])]

theorem visit_part (n : Nat) : visit fa d (.part n) st = { st with mapUsed := true } := by
  simp only [visit]; rw [if_neg (by simp [h])]

theorem visit_key : visit fa d .key st = { st with keyUsed := true } := by
  simp only [visit]; rw [if_neg (by simp [h])]
end

end Verif.Entry
