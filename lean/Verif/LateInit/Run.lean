import Verif.LateInit.Spec

/-!
# Facts about runs
-/

namespace Verif.LateInit

variable {σ : Type} {S : Sys σ} {ordered : Id → Bool}

theorem upd_same (st : Store) (x : Id) : upd st x (st x) = st := by
  funext y; simp only [upd]; split
  · next h => rw [h]
  · rfl

theorem upd_none {st : Store} {x : Id} (h : st x = none) : upd st x none = st := by
  rw [← h]; exact upd_same st x

theorem upd_ne {st : Store} {x y : Id} {o} (h : y ≠ x) : upd st x o y = st y := if_neg h

theorem upd_eq {st : Store} {x : Id} {o} : upd st x o x = o := if_pos rfl

theorem keep (hS : Sound S ordered) {c : Code} {x : Id} (h : x ∉ c.uses) (st : Store) (w : σ) :
    (S.exec c st w).1 x = st x := by
  have := hS.frame c x (st x) st w h
  rw [upd_same] at this
  rw [this]; exact upd_eq

theorem stmts_append (a b : List Stmt) : ∀ r : R σ, runStmts S (a ++ b) r = runStmts S b (runStmts S a r) := by
  induction a with
  | nil => exact fun _ => rfl
  | cons s ss ih =>
    intro r
    simp only [List.cons_append, runStmts]
    cases hf : r.flow with
    | some v => exact ih _
    | none => cases b <;> simp [runStmts, hf]

theorem items_append (a b : List Item) : ∀ r : R σ, runItems S (a ++ b) r = runItems S b (runItems S a r) := by
  induction a with
  | nil => exact fun _ => rfl
  | cons s ss ih =>
    intro r
    simp only [List.cons_append, runItems]
    cases hf : r.flow with
    | some v => exact ih _
    | none => cases b <;> simp [runItems, hf]

/-- A statement: what it declares, and what it does. -/
theorem runStmt_keep (hS : Sound S ordered) {s : Stmt} {x : Id} (hm : x ∉ s.mentions) (hd : x ∉ s.declares)
    (ds : List Id) (st : Store) (w : σ) : (runStmt S s ds st w).st x = st x := by
  cases s with
  | decl y => exact upd_ne (by simpa [Stmt.declares] using hd)
  | init y sub c =>
    have hne : x ≠ y := by simpa [Stmt.declares] using hd
    have := keep hS (c := c) hm st w
    simp only [runStmt]
    rcases he : S.exec c st w with ⟨st', w', _ | v⟩ <;> rw [he] at this
    · exact this
    · exact (upd_ne hne).trans this
  | assign y c =>
    have hm' : x ≠ y ∧ x ∉ c.uses := by simpa [Stmt.mentions] using hm
    have := keep hS hm'.2 st w
    simp only [runStmt]
    rcases he : S.exec c st w with ⟨st', w', _ | v⟩ <;> rw [he] at this
    · exact this
    · exact (upd_ne hm'.1).trans this
  | expr c => exact keep hS hm st w

theorem runStmts_keep (hS : Sound S ordered) {x : Id} (ss : List Stmt) :
    ∀ r : R σ, (∀ s ∈ ss, x ∉ s.mentions ∧ x ∉ s.declares) → (runStmts S ss r).st x = r.st x := by
  induction ss with
  | nil => exact fun _ _ => rfl
  | cons s ss ih =>
    intro r h
    simp only [runStmts]
    cases r.flow with
    | none => rfl
    | some v =>
      exact (ih _ fun t ht => h t (.tail _ ht)).trans (runStmt_keep hS (h s (.head _)).1 (h s (.head _)).2 _ _ _)

theorem runStmt_ds (s : Stmt) (ds : List Id) (st : Store) (w : σ) :
    ∀ d ∈ (runStmt S s ds st w).ds, d ∈ ds ∨ d ∈ s.declares := by
  cases s with
  | decl y => intro d hd; rcases List.mem_cons.1 hd with h | h
              · exact .inr (by simp [Stmt.declares, h])
              · exact .inl h
  | init y sub c =>
    simp only [runStmt]
    rcases S.exec c st w with ⟨st', w', _ | v⟩
    · exact fun d hd => .inl hd
    · intro d hd
      rcases List.mem_cons.1 hd with h | h
      · exact .inr (by simp [Stmt.declares, h])
      · exact .inl h
  | assign y c =>
    simp only [runStmt]
    rcases S.exec c st w with ⟨st', w', _ | v⟩ <;> exact fun d hd => .inl hd
  | expr c => exact fun d hd => .inl hd

theorem runStmts_ds (ss : List Stmt) : ∀ r : R σ,
    ∀ d ∈ (runStmts S ss r).ds, d ∈ r.ds ∨ d ∈ ss.flatMap Stmt.declares := by
  induction ss with
  | nil => exact fun _ _ hd => .inl hd
  | cons s ss ih =>
    intro r d hd
    simp only [runStmts] at hd
    cases hf : r.flow with
    | none => rw [hf] at hd; exact .inl hd
    | some v =>
      rw [hf] at hd
      rcases ih _ d hd with h | h
      · rcases runStmt_ds s _ _ _ d h with h | h
        · exact .inl h
        · exact .inr (by simp [h])
      · exact .inr (by rw [List.flatMap_cons]; exact List.mem_append_right _ h)

theorem dropAll_congr (ds : List Id) : ∀ {st st' : Store} (w : σ), (∀ d ∈ ds, st d = st' d) →
    dropAll S ds st w = dropAll S ds st' w := by
  induction ds with
  | nil => exact fun _ _ => rfl
  | cons d ds ih =>
    intro st st' w h
    simp only [dropAll, dropOne, h d (.head _)]
    exact ih _ fun d' hd' => h d' (.tail _ hd')

/-- Variables without a value, or without an ordered drop, do not matter. -/
theorem dropAll_filter (hS : Sound S ordered) (p : Id → Bool) (ds : List Id) : ∀ {st : Store} (w : σ),
    (∀ d ∈ ds, p d = false → st d = none ∨ ordered d = false) →
    dropAll S ds st w = dropAll S (ds.filter p) st w := by
  induction ds with
  | nil => exact fun _ _ => rfl
  | cons d ds ih =>
    intro st w h
    have h' : ∀ d ∈ ds, p d = false → st d = none ∨ ordered d = false := fun d' hd' => h d' (.tail _ hd')
    cases hp : p d with
    | true => rw [List.filter_cons_of_pos hp]; exact ih _ h'
    | false =>
      rw [List.filter_cons_of_neg (by simp [hp])]
      have : dropOne S d st w = w := by
        rcases h d (.head _) hp with h | h
        · simp [dropOne, h]
        · simp only [dropOne]
          split
          · exact hS.drop _ _ _ h
          · rfl
      simp only [dropAll, this]
      exact ih _ h'

theorem dropAll_ordered (hS : Sound S ordered) {a b : List Id} (h : a.filter ordered = b.filter ordered) (st : Store)
    (w : σ) : dropAll S a st w = dropAll S b st w := by
  rw [dropAll_filter hS ordered a w fun _ _ h => .inr h, dropAll_filter hS ordered b w fun _ _ h => .inr h, h]

theorem dropVals_none (hS : Sound S ordered) : ∀ (acc : List (Id × Nat)) (w : σ),
    (∀ a ∈ acc, ordered a.1 = false) → dropVals S acc w = w
  | [], _, _ => rfl
  | (x, v) :: r, w, h => by
    simp only [dropVals]
    rw [hS.drop x v w (h (x, v) (.head _))]
    exact dropVals_none hS r w fun a ha => h a (.tail _ ha)

theorem bindAll_keep {x : Id} : ∀ (acc : List (Id × Nat)) (st : Store), x ∉ acc.map (·.1) → bindAll acc st x = st x
  | [], _, _ => rfl
  | (y, v) :: r, st, h => by
    have h' : x ≠ y ∧ x ∉ r.map (·.1) := by simpa using h
    exact (upd_ne h'.1).trans (bindAll_keep r st h'.2)

theorem exec_bindAll (hS : Sound S ordered) {c : Code} : ∀ (acc : List (Id × Nat)) (st : Store) (w : σ),
    (∀ a ∈ acc, a.1 ∉ c.uses) →
    S.exec c (bindAll acc st) w = (bindAll acc (S.exec c st w).1, (S.exec c st w).2)
  | [], _, _, _ => rfl
  | (x, v) :: r, st, w, h => by
    simp only [bindAll]
    rw [hS.frame c x _ _ _ (h (x, v) (.head _)), exec_bindAll hS r st w fun a ha => h a (.tail _ ha)]

theorem runVals_keep (hS : Sound S ordered) {x : Id} : ∀ (as : List (Id × Code)) (acc : List (Id × Nat)) (st : Store)
    (w : σ), (∀ a ∈ as, x ∉ a.2.uses) → (runVals S as acc st w).1 x = st x
  | [], _, _, _, _ => rfl
  | (y, c) :: r, acc, st, w, h => by
    have hk := keep hS (h (y, c) (.head _)) st w
    simp only [runVals]
    rcases he : S.exec c st w with ⟨st', w', _ | v⟩ <;> rw [he] at hk
    · exact hk
    · exact (runVals_keep hS r _ _ _ fun a ha => h a (.tail _ ha)).trans hk

theorem runVals_vars : ∀ (as : List (Id × Code)) (acc : List (Id × Nat)) (st : Store) (w : σ) (acc' : List (Id × Nat)),
    (runVals S as acc st w).2.2 = some acc' → ∀ a ∈ acc', a.1 ∈ acc.map (·.1) ∨ a.1 ∈ as.map (·.1)
  | [], acc, st, w, acc', h, a, ha => by cases h; exact .inl (List.mem_map_of_mem ha)
  | (y, c) :: r, acc, st, w, acc', h, a, ha => by
    simp only [runVals] at h
    rcases he : S.exec c st w with ⟨st', w', _ | v⟩ <;> rw [he] at h
    · cases h
    · rcases runVals_vars r _ _ _ acc' h a ha with h | h
      · rcases (by simpa using h : a.1 = y ∨ _) with h | h
        · exact .inr (by simp [h])
        · exact .inl (by simpa using h)
      · exact .inr (by rw [List.map_cons]; exact .tail _ h)

theorem branch_keep (hS : Sound S ordered) {b : Branch} {x : Id} (hm : x ∉ b.all.flatMap Stmt.mentions)
    (hd : x ∉ b.all.flatMap Stmt.declares) (st : Store) (w : σ) : (runBranch S b st w).1 x = st x :=
  runStmts_keep hS b.all ⟨[], st, w, some 0⟩ fun s hs =>
    ⟨fun h => hm (List.mem_flatMap.2 ⟨s, hs, h⟩), fun h => hd (List.mem_flatMap.2 ⟨s, hs, h⟩)⟩

theorem vbranch_keep (hS : Sound S ordered) {xs : List Id} {b : VBranch} {x : Id}
    (hm : x ∉ b.all.flatMap Stmt.mentions ++ b.vals.flatMap Code.uses)
    (hd : x ∉ b.all.flatMap Stmt.declares) (st : Store) (w : σ) : (runVBranch S xs b st w).1 x = st x := by
  have h1 := runStmts_keep hS (x := x) b.all ⟨[], st, w, some 0⟩ fun s hs =>
    ⟨fun h => hm (List.mem_append_left _ (List.mem_flatMap.2 ⟨s, hs, h⟩)), fun h => hd (List.mem_flatMap.2 ⟨s, hs, h⟩)⟩
  simp only [runVBranch]
  split
  · exact h1
  · refine (runVals_keep hS _ _ _ _ fun a ha h => hm (List.mem_append_right _ (List.mem_flatMap.2 ⟨a.2, ?_, h⟩))).trans h1
    exact (List.of_mem_zip (a := a.1) (b := a.2) ha).2

theorem vbranch_vars {xs : List Id} {b : VBranch} {st : Store} {w : σ} {acc : List (Id × Nat)}
    (h : (runVBranch S xs b st w).2.2 = some acc) : ∀ a ∈ acc, a.1 ∈ xs := by
  simp only [runVBranch] at h
  split at h
  · cases h
  · intro a ha
    rcases runVals_vars _ _ _ _ acc h a ha with h | h
    · cases h
    · obtain ⟨c, hc, he⟩ := List.mem_map.1 h
      rw [← he]; exact (List.of_mem_zip (a := c.1) (b := c.2) hc).1

/-- What a statement does does not depend on what was declared before. -/
theorem runItem_shape (s : Item) (st : Store) (w : σ) : ∃ t st' w' f, (∀ y ∈ t, y ∈ s.top) ∧
    ∀ ds, runItem S s ds st w = ⟨t ++ ds, st', w', f⟩ := by
  cases s with
  | simple s => cases s with
    | decl x => exact ⟨[x], upd st x none, w, some 0, by simp [Item.top, Stmt.declares], fun _ => rfl⟩
    | init x sub c =>
      simp only [runItem, runStmt]
      rcases S.exec c st w with ⟨st', w', _ | v⟩
      · exact ⟨[], st', w', none, by simp, fun _ => rfl⟩
      · exact ⟨[x], upd st' x (some v), w', some 0, by simp [Item.top, Stmt.declares], fun _ => rfl⟩
    | assign x c =>
      simp only [runItem, runStmt]
      rcases S.exec c st w with ⟨st', w', _ | v⟩
      · exact ⟨[], st', w', none, by simp, fun _ => rfl⟩
      · exact ⟨[], upd st' x (some v), dropOne S x st' w', some 0, by simp, fun _ => rfl⟩
    | expr c => exact ⟨[], _, _, _, by simp, fun _ => rfl⟩
  | choice sel bs =>
    simp only [runItem]
    rcases S.exec sel st w with ⟨st', w', _ | i⟩
    · exact ⟨[], st', w', none, by simp, fun _ => rfl⟩
    · cases hb : bs[i]? with
      | none => exact ⟨[], st', w', none, by simp, fun _ => by simp [select, hb]⟩
      | some b => exact ⟨[], _, _, _, by simp, fun _ => by simp only [select, hb]; rfl⟩
  | letChoice xs sel bs =>
    simp only [runItem]
    rcases S.exec sel st w with ⟨st', w', _ | i⟩
    · exact ⟨[], st', w', none, by simp, fun _ => rfl⟩
    · cases hb : bs[i]? with
      | none => exact ⟨[], st', w', none, by simp, fun _ => by simp [select, hb]⟩
      | some b =>
        simp only [select, hb]
        rcases runVBranch S xs b st' w' with ⟨st2, w2, _ | acc⟩
        · exact ⟨[], st2, w2, none, by simp, fun _ => rfl⟩
        · exact ⟨xs.reverse, bindAll acc st2, w2, some 0, by simp [Item.top], fun _ => rfl⟩

theorem item_keep (hS : Sound S ordered) {s : Item} {x : Id} (hm : x ∉ s.mentions) (hi : x ∉ s.inner) (ht : x ∉ s.top)
    (ds : List Id) (st : Store) (w : σ) : (runItem S s ds st w).st x = st x := by
  cases s with
  | simple s => exact runStmt_keep hS hm ht _ _ _
  | choice sel bs =>
    have hm' : x ∉ sel.uses ∧ x ∉ bs.flatMap fun b => b.all.flatMap Stmt.mentions :=
      ⟨fun h => hm (List.mem_append_left _ h), fun h => hm (List.mem_append_right _ h)⟩
    have hk := keep hS hm'.1 st w
    simp only [runItem]
    rcases he : S.exec sel st w with ⟨st', w', _ | i⟩ <;> rw [he] at hk
    · exact hk
    · simp only [select]
      split
      · next b hb =>
        have hmem := List.mem_of_getElem? hb
        exact (branch_keep hS (fun h => hm'.2 (List.mem_flatMap.2 ⟨b, hmem, h⟩))
          (fun h => hi (List.mem_flatMap.2 ⟨b, hmem, h⟩)) st' w').trans hk
      · exact hk
  | letChoice xs sel bs =>
    have hm' : x ∉ sel.uses ∧ x ∉ bs.flatMap fun b => b.all.flatMap Stmt.mentions ++ b.vals.flatMap Code.uses :=
      ⟨fun h => hm (List.mem_append_left _ h), fun h => hm (List.mem_append_right _ h)⟩
    have hk := keep hS hm'.1 st w
    simp only [runItem]
    rcases he : S.exec sel st w with ⟨st', w', _ | i⟩ <;> rw [he] at hk
    · exact hk
    · simp only [select]
      split
      · next b hb =>
        have hmem := List.mem_of_getElem? hb
        have h1 := vbranch_keep hS (xs := xs) (fun h => hm'.2 (List.mem_flatMap.2 ⟨b, hmem, h⟩))
          (fun h => hi (List.mem_flatMap.2 ⟨b, hmem, h⟩)) st' w'
        have h2 := fun acc => vbranch_vars (S := S) (xs := xs) (b := b) (st := st') (w := w') (acc := acc)
        rcases hv : runVBranch S xs b st' w' with ⟨st2, w2, _ | acc⟩ <;> rw [hv] at h1 h2
        · exact h1.trans hk
        · refine ((bindAll_keep acc st2 fun h => ?_).trans h1).trans hk
          obtain ⟨a, ha, he⟩ := List.mem_map.1 h
          exact ht (he ▸ h2 acc rfl a ha)
      · exact hk

/-- The rest of a block runs the same way from states that differ in variables without an ordered drop. -/
theorem items_ds (ss : List Item) : ∀ (st : Store) (w : σ) (f : Option Nat), ∃ t st' w' f', ∀ ds,
    runItems S ss ⟨ds, st, w, f⟩ = ⟨t ++ ds, st', w', f'⟩ := by
  induction ss with
  | nil => exact fun st w f => ⟨[], st, w, f, fun _ => rfl⟩
  | cons s ss ih =>
    intro st w f
    cases f with
    | none => exact ⟨[], st, w, none, fun _ => rfl⟩
    | some v =>
      obtain ⟨t, st1, w1, f1, -, h1⟩ := runItem_shape (S := S) s st w
      obtain ⟨t2, st2, w2, f2, h2⟩ := ih st1 w1 f1
      refine ⟨t2 ++ t, st2, w2, f2, fun ds => ?_⟩
      simp only [runItems, h1, h2, List.append_assoc]

end Verif.LateInit
