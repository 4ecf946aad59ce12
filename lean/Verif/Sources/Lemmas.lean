import Verif.Sources.Model
import Verif.Sources.Spec

/-! What the steps do to a directory. -/

namespace Verif.Sources

open Model

theorem put_same {β} (g : String → β) (k : String) (v : β) : put g k v k = v := by simp [put]

theorem put_other {β} {g : String → β} {k x : String} {v : β} (h : x ≠ k) : put g k v x = g x := by
  simp [put, h]

/-- The last file of a name counts. -/
theorem filesOf_iff (l : List (String × Nat)) (f : String) (x : Nat) :
    filesOf l f = some x ↔ Spec.Has l f x := by
  have key : ∀ r : List (String × Nat), (filesOf r.reverse f = some x ↔ Spec.Has r.reverse f x) := by
    intro r
    induction r with
    | nil =>
      simp only [List.reverse_nil, filesOf, List.foldl_nil, Spec.Has]
      constructor
      · intro h; cases h
      · rintro ⟨a, b, h, -⟩
        simp at h
    | cons p r ih =>
      obtain ⟨g, y⟩ := p
      simp only [List.reverse_cons, filesOf, List.foldl_append, List.foldl_cons, List.foldl_nil]
      simp only [filesOf] at ih
      by_cases hg : f = g
      · subst hg
        rw [put_same]
        constructor
        · intro h
          cases h
          exact ⟨r.reverse, [], by simp, by simp⟩
        · rintro ⟨a, b, h, hn⟩
          rcases List.eq_nil_or_concat b with rfl | ⟨b', z, rfl⟩
          · have := List.append_inj_right' h rfl
            simp at this
            rw [this]
          · rw [List.concat_eq_append] at h hn
            have h' : r.reverse ++ [(f, y)] = (a ++ (f, x) :: b') ++ [z] := by simpa using h
            have := List.append_inj_right' h' rfl
            simp at this
            exact absurd (by simp [← this]) (hn y)
      · rw [put_other hg, ih]
        constructor
        · rintro ⟨a, b, h, hn⟩
          refine ⟨a, b ++ [(g, y)], by simp [h], ?_⟩
          intro z hz
          simp only [List.mem_append, List.mem_singleton, Prod.mk.injEq] at hz
          rcases hz with hz | ⟨hz, -⟩
          · exact hn z hz
          · exact hg hz
        · rintro ⟨a, b, h, hn⟩
          rcases List.eq_nil_or_concat b with rfl | ⟨b', z, rfl⟩
          · have := List.append_inj_right' h rfl
            simp at this
            exact absurd this.1.symm hg
          · rw [List.concat_eq_append] at h hn
            have h' : r.reverse ++ [(g, y)] = (a ++ (f, x) :: b') ++ [z] := by simpa using h
            have := List.append_inj_left' h' rfl
            exact ⟨a, b', this, fun y hy => hn y (by simp [hy])⟩
  simpa using key l.reverse

/-- The directory which a step is about. -/
def opDir : Op → String
  | .create d | .fetch d | .extract d _ _ | .clone d _ | .checkout d _ | .rmdir d | .mkdir d
  | .copy d _ _ | .rm d _ => d

/-- A step leaves other directories and archives alone. -/
theorem apply_other (w : World) (s : Disk) (o : Op) {d : String} (h : d ≠ opDir o) :
    (apply w s o).dir d = s.dir d ∧ (apply w s o).arch d = s.arch d := by
  cases o with
  | create e => exact ⟨rfl, put_other h⟩
  | fetch e => exact ⟨rfl, rfl⟩
  | extract e f x =>
    simp only [apply, writeFile]
    split
    · exact ⟨put_other h, rfl⟩
    · exact ⟨put_other h, rfl⟩
  | clone e u => exact ⟨put_other h, rfl⟩
  | checkout e c =>
    simp only [apply, gitCheckout]
    split
    · split
      · exact ⟨put_other h, rfl⟩
      · exact ⟨put_other h, rfl⟩
    · exact ⟨rfl, rfl⟩
  | rmdir e => exact ⟨put_other h, rfl⟩
  | mkdir e => exact ⟨put_other h, rfl⟩
  | copy e f x =>
    simp only [apply, writeFile]
    split
    · exact ⟨put_other h, rfl⟩
    · exact ⟨put_other h, rfl⟩
  | rm e f =>
    simp only [apply, rmFile]
    split
    · exact ⟨put_other h, rfl⟩
    · exact ⟨rfl, rfl⟩

/-- Steps about one directory leave the others alone. -/
theorem applyAll_other (w : World) {os : List Op} (s : Disk) {d : String} (h : ∀ o ∈ os, d ≠ opDir o) :
    (applyAll w s os).dir d = s.dir d ∧ (applyAll w s os).arch d = s.arch d := by
  induction os generalizing s with
  | nil => exact ⟨rfl, rfl⟩
  | cons o os ih =>
    have h1 := apply_other w s o (h o (by simp))
    have h2 := ih (apply w s o) fun x hx => h x (List.mem_cons_of_mem _ hx)
    simp only [applyAll, List.foldl_cons] at h2 ⊢
    exact ⟨h2.1.trans h1.1, h2.2.trans h1.2⟩

/-- The steps of a source are about its directory. -/
theorem prepOps_dir (w : World) (s : Disk) (src : Source) : ∀ o ∈ prepOps w s src, opDir o = dirOf src := by
  intro o ho
  simp only [prepOps, List.mem_append, List.mem_cons, List.not_mem_nil, or_false] at ho
  rcases ho with ho | rfl | rfl
  · cases src with
    | cratesIo n v =>
      simp only [extractOps] at ho
      split at ho
      · simp only [List.mem_cons, List.mem_map] at ho
        rcases ho with rfl | rfl | ⟨p, -, rfl⟩ <;> rfl
      · cases ho
    | git n u c =>
      simp only [extractOps] at ho
      split at ho <;> simp only [List.mem_cons, List.not_mem_nil, or_false] at ho
      · rcases ho with rfl | rfl <;> rfl
      · subst ho; rfl
    | path n p =>
      simp only [extractOps, List.mem_append, List.mem_cons, List.mem_map] at ho
      rcases ho with ho | rfl | ⟨q, -, rfl⟩
      · split at ho
        · simp only [List.mem_cons, List.not_mem_nil, or_false] at ho
          subst ho; rfl
        · cases ho
      · rfl
      · rfl
  · rfl
  · rfl

/-- Writing files into a directory that is there. -/
theorem writes (w : World) (mk : String → String → Nat → Op)
    (hmk : ∀ s d f x, apply w s (mk d f x) = writeFile s d f x) {d : String}
    (l : List (String × Nat)) (s : Disk) (o : Option String) (g : Files) (h : s.dir d = some ⟨o, g⟩) :
    (applyAll w s (l.map fun p => mk d p.1 p.2)).dir d =
        some ⟨o, l.foldl (fun g p => put g p.1 (some p.2)) g⟩ ∧
      (applyAll w s (l.map fun p => mk d p.1 p.2)).arch d = s.arch d := by
  induction l generalizing s g with
  | nil => exact ⟨h, rfl⟩
  | cons p l ih =>
    have h1 : (apply w s (mk d p.1 p.2)).dir d = some ⟨o, put g p.1 (some p.2)⟩ := by
      rw [hmk, writeFile, h]
      exact put_same ..
    have h2 : (apply w s (mk d p.1 p.2)).arch d = s.arch d := by
      rw [hmk, writeFile, h]
    have := ih _ _ h1
    simp only [applyAll, List.map_cons, List.foldl_cons] at this ⊢
    exact ⟨this.1, this.2.trans h2⟩

/-- Unpacking where nothing was. -/
theorem unpack (w : World) {d : String} (l : List (String × Nat)) (hl : l ≠ []) (s : Disk)
    (h : s.dir d = none) :
    (applyAll w s (l.map fun p => .extract d p.1 p.2)).dir d = some ⟨none, filesOf l⟩ ∧
      (applyAll w s (l.map fun p => .extract d p.1 p.2)).arch d = s.arch d := by
  cases l with
  | nil => exact absurd rfl hl
  | cons p l =>
    have h1 : (apply w s (.extract d p.1 p.2)).dir d = some ⟨none, put (fun _ => none) p.1 (some p.2)⟩ := by
      simp only [apply, writeFile, h]
      exact put_same ..
    have h2 : (apply w s (.extract d p.1 p.2)).arch d = s.arch d := by
      simp only [apply, writeFile, h]
    have := writes w .extract (fun _ _ _ _ => rfl) l _ _ _ h1
    simp only [applyAll, List.map_cons, List.foldl_cons, filesOf] at this ⊢
    exact ⟨this.1, this.2.trans h2⟩

/-- Removing files. -/
theorem removes (w : World) {d : String} (fs : List String) (s : Disk) (e : Dir) (h : s.dir d = some e) :
    ∃ g, (applyAll w s (fs.map (.rm d))).dir d = some ⟨e.origin, g⟩ ∧
      (∀ f ∈ fs, g f = none) ∧ (∀ f, f ∉ fs → g f = e.files f) ∧
      (applyAll w s (fs.map (.rm d))).arch d = s.arch d := by
  induction fs generalizing s e with
  | nil => exact ⟨e.files, h, by simp, by simp, rfl⟩
  | cons f fs ih =>
    have h1 : (apply w s (.rm d f)).dir d = some ⟨e.origin, put e.files f none⟩ := by
      simp only [apply, rmFile, h]
      exact put_same ..
    have h2 : (apply w s (.rm d f)).arch d = s.arch d := by simp only [apply, rmFile, h]
    obtain ⟨g, g1, g2, g3, g4⟩ := ih _ _ h1
    simp only [applyAll, List.map_cons, List.foldl_cons] at g1 g4 ⊢
    refine ⟨g, g1, ?_, ?_, g4.trans h2⟩
    · intro y hy
      by_cases hm : y ∈ fs
      · exact g2 y hm
      · simp only [List.mem_cons, hm, or_false] at hy
        subst hy
        rw [g3 y hm]; exact put_same ..
    · intro y hy
      simp only [List.mem_cons, not_or] at hy
      rw [g3 y hy.2]; exact put_other hy.1

/-- Removing files where nothing is. -/
theorem removes_none (w : World) {d : String} (fs : List String) (s : Disk) (h : s.dir d = none) :
    applyAll w s (fs.map (.rm d)) = s := by
  induction fs with
  | nil => rfl
  | cons f fs ih =>
    simp only [applyAll, List.map_cons, List.foldl_cons] at ih ⊢
    have : apply w s (.rm d f) = s := by simp only [apply, rmFile, h]
    rw [this]
    exact ih

/-- Steps in two parts. -/
theorem applyAll_append (w : World) (s : Disk) (a b : List Op) :
    applyAll w s (a ++ b) = applyAll w (applyAll w s a) b := by simp [applyAll]

end Verif.Sources
