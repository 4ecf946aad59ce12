import Verif.LateInit.Model
import Verif.LateInit.Run

/-!
# Properties of `needless_late_init`
-/

namespace Verif.LateInit

variable {σ : Type} {S : Sys σ} {fa : Facts}

/-- The assignments of a group, as statements. -/
def asg (as : List (Id × Code)) : List Stmt := as.map fun a => .assign a.1 a.2

theorem asAssign_some {s : Stmt} {a : Id × Code} (h : asAssign s = some a) : s = .assign a.1 a.2 := by
  cases s <;> simp [asAssign] at h; subst h; rfl

/-- No variable of the group is used or assigned again later. -/
def Free (g : List (Id × Code)) : Prop := g.Pairwise fun a b => b.1 ∉ a.2.uses ∧ b.1 ≠ a.1

theorem collect_facts : ∀ (ss : List Stmt) (used : List Id),
    (∃ rest, ss = asg (collect ss used) ++ rest) ∧ Free (collect ss used) ∧ ∀ a ∈ collect ss used, a.1 ∉ used
  | [], _ => ⟨⟨[], rfl⟩, .nil, fun _ h => nomatch h⟩
  | s :: ss, used => by
    simp only [collect]
    split
    · next x c hx =>
      split
      · exact ⟨⟨s :: ss, rfl⟩, .nil, fun _ h => nomatch h⟩
      · next hu =>
        obtain ⟨⟨rest, h1⟩, h2, h3⟩ := collect_facts ss (x :: (c.uses ++ used))
        refine ⟨⟨rest, ?_⟩, .cons (fun b hb => ?_) h2, fun a ha => ?_⟩
        · rw [asAssign_some hx]
          exact congrArg (Stmt.assign x c :: ·) h1
        · have := h3 b hb
          simp only [List.mem_cons, List.mem_append, not_or] at this
          exact ⟨this.2.1, this.1⟩
        · rcases List.mem_cons.1 ha with h | h
          · subst h; simpa using hu
          · have := h3 a h
            simp only [List.mem_cons, List.mem_append, not_or] at this
            exact this.2.2
    · exact ⟨⟨s :: ss, rfl⟩, .nil, fun _ h => nomatch h⟩

/-- The group of a branch is its end. -/
theorem group_facts {b : Branch} {g : List (Id × Code)} (h : group b = some g) :
    b.all = (valueBranch b (some g)).all ++ asg g.reverse ∧ Free g ∧ g ≠ [] ∧
      (valueBranch b (some g)).vals = (g.map (·.2)).reverse := by
  simp only [group] at h
  rcases b with ⟨ty, stmts, _ | t⟩
  · simp only at h
    split at h
    · cases h
    · next hne =>
      simp only [Option.some.injEq] at h
      obtain ⟨⟨rest, h1⟩, h2, -⟩ := collect_facts stmts.reverse []
      rw [h] at h1 h2
      have h3 : stmts = rest.reverse ++ asg g.reverse := by
        have := congrArg List.reverse h1
        rw [List.reverse_reverse, List.reverse_append] at this
        rw [this]; simp [asg]
      refine ⟨?_, h2, fun h0 => hne (h.trans h0), rfl⟩
      have hl : stmts.length - g.length = rest.reverse.length := by
        rw [h3]; simp [asg]
      simp only [Branch.all, VBranch.all, valueBranch, hl, Option.toList, List.append_nil]
      conv => rhs; rw [h3]
      rw [List.take_left]; exact h3
  · simp only [Option.map_eq_some_iff] at h
    obtain ⟨a, ha, rfl⟩ := h
    refine ⟨?_, List.pairwise_singleton _ _, by simp, rfl⟩
    rw [asAssign_some ha]
    simp [Branch.all, VBranch.all, valueBranch, asg]

theorem once_split {x : Id} {c : Code} {m : List Stmt} : ∀ (l : List Stmt), Once x (l ++ .assign x c :: m) →
    (∀ s ∈ l, x ∉ s.mentions) ∧ x ∉ c.uses
  | [], h => by
    refine ⟨fun _ h => (nomatch h), ?_⟩
    rcases h with h | ⟨c', h1, h2, -⟩
    · exact absurd (.head _) h.1
    · cases h1; exact h2
  | s :: l, h => by
    rcases h with h | ⟨c', h1, -, h3⟩
    · have := once_split l h.2
      refine ⟨fun t ht => ?_, this.2⟩
      rcases List.mem_cons.1 ht with ht | ht
      · exact ht ▸ h.1
      · exact this.1 t ht
    · exact absurd rfl (h3 (.assign x c) (List.mem_append_right _ (.head _)) c)

/-- In a branch that gives the variables of its group their values, nothing else mentions them. -/
theorem group_unused {body : List Stmt} {g : List (Id × Code)} (hg : Free g)
    (ho : ∀ x ∈ g.map (·.1), Once x (body ++ asg g.reverse)) :
    (∀ x ∈ g.map (·.1), ∀ s ∈ body, x ∉ s.mentions) ∧ (∀ x ∈ g.map (·.1), ∀ a ∈ g, x ∉ a.2.uses) := by
  have key : ∀ x ∈ g.map (·.1), (∀ s ∈ body, x ∉ s.mentions) ∧ ∀ a ∈ g, x ∉ a.2.uses := by
    intro x hx
    obtain ⟨⟨y, c⟩, hm, rfl⟩ := List.mem_map.1 hx
    have ho := ho y hx
    obtain ⟨l, m, rfl⟩ := List.append_of_mem hm
    have he : body ++ asg (l ++ (y, c) :: m).reverse = (body ++ asg m.reverse) ++ .assign y c :: asg l.reverse := by
      simp [asg]
    rw [he] at ho
    obtain ⟨h1, h2⟩ := once_split _ ho
    refine ⟨fun s hs => h1 s (List.mem_append_left _ hs), fun a ha => ?_⟩
    rcases List.mem_append.1 ha with ha | ha
    · exact ((List.pairwise_append.1 hg).2.2 a ha (y, c) (.head _)).1
    · rcases List.mem_cons.1 ha with ha | ha
      · rw [ha]; exact h2
      · have := h1 (.assign a.1 a.2) (List.mem_append_right _ (List.mem_map.2 ⟨a, List.mem_reverse.2 ha, rfl⟩))
        exact fun h => this (.tail _ h)
  exact ⟨fun x hx => (key x hx).1, fun x hx => (key x hx).2⟩

theorem free_nodup {g : List (Id × Code)} (hg : Free g) : (g.map (·.1)).Nodup := by
  rw [List.Nodup, List.pairwise_map]
  exact hg.imp fun h => Ne.symm h.2

/-- The assignments at the end of a branch, and the values. -/
theorem asg_same (hS : Sound S fa.ordered) (ds : List Id) : ∀ (as : List (Id × Code)) (acc : List (Id × Nat)) (st : Store)
    (w : σ) (k : Nat),
    (∀ x ∈ acc.map (·.1) ++ as.map (·.1), ∀ a ∈ as, x ∉ a.2.uses) →
    (acc.map (·.1) ++ as.map (·.1)).Nodup → (∀ a ∈ as, st a.1 = none) →
    (as ≠ [] → ∀ a ∈ acc, fa.ordered a.1 = false) → (as.length > 1 → ∀ a ∈ as, fa.ordered a.1 = false) →
    (∃ acc' k', runStmts S (asg as) ⟨ds, bindAll acc st, w, some k⟩ =
        ⟨ds, bindAll acc' (runVals S as acc st w).1, (runVals S as acc st w).2.1, some k'⟩ ∧
      (runVals S as acc st w).2.2 = some acc' ∧ (as ≠ [] → k' = 0)) ∨
    (∃ acc', runStmts S (asg as) ⟨ds, bindAll acc st, w, some k⟩ =
        ⟨ds, bindAll acc' (runVals S as acc st w).1, (runVals S as acc st w).2.1, none⟩ ∧
      (runVals S as acc st w).2.2 = none ∧
      (∀ a ∈ acc', a.1 ∈ acc.map (·.1) ++ as.map (·.1)) ∧ ∀ a ∈ acc', fa.ordered a.1 = false)
  | [], acc, st, w, k, _, _, _, _, _ => .inl ⟨acc, k, rfl, rfl, fun h => absurd rfl h⟩
  | (x, c) :: as, acc, st, w, k, hu, hn, hs, ho, hl => by
    have hx := exec_bindAll hS (c := c) acc st w fun a ha =>
      hu a.1 (List.mem_append_left _ (List.mem_map_of_mem ha)) (x, c) (.head _)
    have hkx := keep hS (hu x (List.mem_append_right _ (.head _)) (x, c) (.head _)) st w
    rw [hs (x, c) (.head _)] at hkx
    have hkr : ∀ a ∈ as, (S.exec c st w).1 a.1 = none := fun a ha =>
      (keep hS (hu a.1 (List.mem_append_right _ (.tail _ (List.mem_map_of_mem ha))) (x, c) (.head _)) st w).trans
        (hs a (.tail _ ha))
    have hxa : x ∉ acc.map (·.1) := fun h => by
      have := (List.nodup_append.1 hn).2.2 x h x (.head _)
      exact this rfl
    have ha0 := ho (by simp)
    simp only [asg, List.map_cons, runStmts, runStmt, runVals]
    rw [hx]
    rcases he : S.exec c st w with ⟨st', w', _ | v⟩
    · simp only [he] at hkx
      right
      refine ⟨acc, ?_, rfl, fun a ha => List.mem_append_left _ (List.mem_map_of_mem ha), ha0⟩
      simp only [store]
      rw [dropVals_none hS acc w' ha0]
      cases as <;> rfl
    · simp only [he] at hkx hkr
      have hd : dropOne S x (bindAll acc st') w' = w' := by
        simp only [dropOne]; rw [bindAll_keep acc st' hxa, hkx]
      simp only [store, hd, Bool.false_eq_true, if_false]
      have ih := asg_same hS ds as ((x, v) :: acc) st' w' 0
        (fun y hy a ha => hu y (by
            simp only [List.map_cons, List.cons_append, List.mem_cons, List.mem_append] at hy ⊢
            rcases hy with h | h | h
            · exact .inr (.inl h)
            · exact .inl h
            · exact .inr (.inr h)) a (.tail _ ha))
        (by
          have : (acc.map (·.1) ++ x :: as.map (·.1)).Nodup := hn
          exact (List.perm_middle.nodup_iff).1 this)
        hkr
        (fun hne a ha => by
          rcases List.mem_cons.1 ha with ha | ha
          · subst ha
            exact hl (by cases as with | nil => exact absurd rfl hne | cons _ _ => simp) (x, c) (.head _)
          · exact ha0 a ha)
        (fun h a ha => hl (by simp only [List.length_cons]; omega) a (.tail _ ha))
      rcases ih with ⟨acc', k', h1, h2, h3⟩ | ⟨acc', h1, h2, h3, h4⟩
      · left
        refine ⟨acc', k', h1, h2, fun _ => ?_⟩
        cases as with
        | nil =>
          simp only [asg, List.map_nil, runStmts, R.mk.injEq, Option.some.injEq] at h1
          exact h1.2.2.2.symm
        | cons _ _ => exact h3 (by simp)
      · right
        refine ⟨acc', h1, h2, fun a ha => ?_, h4⟩
        have := h3 a ha
        simp only [List.map_cons, List.cons_append, List.mem_cons, List.mem_append] at this ⊢
        rcases this with h | h | h
        · exact .inr (.inl h)
        · exact .inl h
        · exact .inr (.inr h)

/-- Both runs of the statement: either both come to an end with the same state, or both are left. -/
def Step (fa : Facts) (xs : List Id) (ds1 ds2 : List Id) (r1 r2 : R σ) : Prop :=
  (∃ st w, r1 = ⟨ds1, st, w, some 0⟩ ∧ r2 = ⟨xs.reverse ++ ds2, st, w, some 0⟩) ∨
  (∃ st1 st2 w, r1 = ⟨ds1, st1, w, none⟩ ∧ r2 = ⟨ds2, st2, w, none⟩ ∧ (∀ y, y ∉ xs → st1 y = st2 y) ∧
    ∀ x ∈ xs, st1 x = none ∨ fa.ordered x = false)

theorem branch_same (hS : Sound S fa.ordered) {b : Branch} {g : List (Id × Code)} {xs : List Id}
    (hg : group b = some g) (hv : g.map (·.1) = xs.reverse) (ho : ∀ x ∈ xs, Once x b.all)
    (hi : ∀ x ∈ xs, x ∉ b.all.flatMap Stmt.declares) (hl : xs.length > 1 → ∀ x ∈ xs, fa.ordered x = false)
    (ds1 ds2 : List Id) (st : Store) (w : σ) (hs : ∀ x ∈ xs, st x = none) :
    Step fa xs ds1 ds2 ⟨ds1, (runBranch S b st w).1, (runBranch S b st w).2.1, (runBranch S b st w).2.2⟩
      (bindNew xs ds2 (runVBranch S xs (valueBranch b (some g)) st w)) := by
  obtain ⟨h1, h2, hne, h3⟩ := group_facts hg
  have hxs : g.reverse.map (·.1) = xs := by rw [List.map_reverse, hv, List.reverse_reverse]
  have hmem : ∀ x, x ∈ g.map (·.1) ↔ x ∈ xs := fun x => by rw [hv, List.mem_reverse]
  have hz : xs.zip (valueBranch b (some g)).vals = g.reverse := by
    rw [h3, ← List.map_reverse, ← hxs]
    generalize g.reverse = l
    induction l with
    | nil => rfl
    | cons a l ih => simp [ih]
  generalize hvb : valueBranch b (some g) = vb at h1 h3 hz
  obtain ⟨u1, u2⟩ := group_unused (body := vb.all) h2 fun x hx => by
    rw [← h1]; exact ho x ((hmem x).1 hx)
  have hvi : ∀ x ∈ xs, x ∉ vb.all.flatMap Stmt.declares := fun x hx h => hi x hx (by
    rw [h1, List.flatMap_append]; exact List.mem_append_left _ h)
  simp only [runBranch, runVBranch, close]
  rw [h1, stmts_append, hz]
  have hk : ∀ x ∈ xs, (runStmts S vb.all ⟨[], st, w, some 0⟩).st x = none := fun x hx =>
    (runStmts_keep hS vb.all _ fun s hs => ⟨u1 x ((hmem x).2 hx) s hs,
      fun h => hvi x hx (List.mem_flatMap.2 ⟨s, hs, h⟩)⟩).trans (hs x hx)
  have hds := runStmts_ds (S := S) vb.all ⟨[], st, w, some 0⟩
  rcases hr : runStmts S vb.all ⟨[], st, w, some 0⟩ with ⟨ds, st', w', _ | k⟩
  · simp only [hr] at hk
    right
    have : runStmts S (asg g.reverse) ⟨ds, st', w', none⟩ = ⟨ds, st', w', none⟩ := by
      cases asg g.reverse <;> rfl
    rw [this]
    exact ⟨st', st', _, rfl, rfl, fun _ _ => rfl, fun x hx => .inl (hk x hx)⟩
  · simp only [hr] at hk hds ⊢
    have hdx : ∀ d ∈ ds, d ∉ xs := fun d hd hx => by
      rcases hds d hd with h | h
      · cases h
      · exact hvi d hx h
    have key := asg_same hS ds g.reverse [] st' w' k
      (fun x hx a ha => u2 x (by simpa [List.map_reverse] using hx) a (List.mem_reverse.1 ha))
      (by
        simp only [List.map_nil, List.nil_append, List.map_reverse]
        exact (List.reverse_perm _).nodup_iff.2 (free_nodup h2))
      (fun a ha => hk a.1 ((hmem _).1 (List.mem_map_of_mem (List.mem_reverse.1 ha))))
      (fun _ _ h => nomatch h)
      (fun hlen a ha => hl (by rw [← hxs, List.length_map]; exact hlen) a.1
        ((hmem _).1 (List.mem_map_of_mem (List.mem_reverse.1 ha))))
    simp only [bindAll] at key
    rcases key with ⟨acc', k', e1, e2, e3⟩ | ⟨acc', e1, e2, e3, e4⟩
    · left
      have hvars := runVals_vars (S := S) g.reverse [] st' w' acc' e2
      rw [e1, e3 (by simpa using hne)]
      rcases hq : runVals S g.reverse [] st' w' with ⟨qs, qw, qo⟩
      rw [hq] at e2; simp only at e2; subst e2
      refine ⟨bindAll acc' qs, dropAll S ds (bindAll acc' qs) qw, ?_, ?_⟩
      · cases b.tail <;> rfl
      · simp only [bindNew]
        rw [dropAll_congr ds (st := qs) (st' := bindAll acc' qs)]
        intro d hd
        refine (bindAll_keep acc' qs fun h => ?_).symm
        obtain ⟨a, ha, rfl⟩ := List.mem_map.1 h
        rcases hvars a ha with h | h
        · cases h
        · exact hdx _ hd ((hmem _).1 (by simpa [List.map_reverse] using h))
    · right
      rw [e1]
      have hka : ∀ x ∈ xs, (runVals S g.reverse [] st' w').1 x = none := fun x hx =>
        (runVals_keep hS _ _ _ _ fun a ha => u2 x ((hmem x).2 hx) a (List.mem_reverse.1 ha)).trans (hk x hx)
      rcases hq : runVals S g.reverse [] st' w' with ⟨qs, qw, qo⟩
      rw [hq] at e2 hka; simp only at e2; subst e2
      have e3' : ∀ a ∈ acc', a.1 ∈ xs := fun a ha => (hmem _).1 (by simpa [List.map_reverse] using e3 a ha)
      refine ⟨bindAll acc' qs, qs, dropAll S ds (bindAll acc' qs) qw, rfl, ?_, fun y hy => ?_, fun x hx => ?_⟩
      · simp only [bindNew]
        rw [dropAll_congr ds (st := qs) (st' := bindAll acc' qs)]
        intro d hd
        refine (bindAll_keep acc' qs fun h => ?_).symm
        obtain ⟨a, ha, rfl⟩ := List.mem_map.1 h
        exact hdx _ hd (e3' a ha)
      · refine bindAll_keep acc' qs fun h => ?_
        obtain ⟨a, ha, rfl⟩ := List.mem_map.1 h
        exact hy (e3' a ha)
      · by_cases h : x ∈ acc'.map (·.1)
        · obtain ⟨a, ha, rfl⟩ := List.mem_map.1 h
          exact .inr (e4 a ha)
        · exact .inl ((bindAll_keep acc' qs h).trans (hka x hx))

/-- What the groups of the branches say. -/
inductive All2 (V : List Id) : List Branch → List (Option (List (Id × Code))) → Prop where
  | nil : All2 V [] []
  | never {b bs gs} : b.ty = .never → All2 V bs gs → All2 V (b :: bs) (none :: gs)
  | group {b bs g gs} : b.ty = .unit → group b = some g → g.map (·.1) = V → All2 V bs gs → All2 V (b :: bs) (some g :: gs)

theorem groups_all {V : List Id} : ∀ (bs : List Branch) (last : Option (List Id)) (gs),
    groups last bs = some gs → (last = some V ∨ (last = none ∧ groupVars gs = some V.reverse)) → All2 V bs gs
  | [], last, gs, h, _ => by cases h; exact .nil
  | b :: bs, last, gs, h, hV => by
    simp only [groups] at h
    split at h
    · next hty =>
      obtain ⟨gs', hg, rfl⟩ := Option.map_eq_some_iff.1 h
      exact .never hty (groups_all bs last gs' hg (by
        rcases hV with h | ⟨h1, h2⟩
        · exact .inl h
        · exact .inr ⟨h1, h2⟩))
    · cases h
    · next hty =>
      split at h
      · cases h
      · next g hg =>
        split at h
        · next hc =>
          obtain ⟨gs', hgs, rfl⟩ := Option.map_eq_some_iff.1 h
          have hgV : g.map (·.1) = V := by
            rcases hV with h | ⟨h1, h2⟩
            · subst h; exact (by simpa using hc : V = g.map (·.1)).symm
            · simp only [groupVars, Option.some.injEq] at h2
              exact List.reverse_inj.1 h2
          exact .group hty hg hgV (groups_all bs _ gs' hgs (.inl (by rw [hgV])))
        · cases h

theorem all2_get {V : List Id} {bs gs} (h : All2 V bs gs) : ∀ (i : Nat),
    (bs[i]? = none → (valueBranches bs gs)[i]? = none) ∧
    ∀ b, bs[i]? = some b → ∃ g, (valueBranches bs gs)[i]? = some (valueBranch b g) ∧
      ((g = none ∧ b.ty = .never) ∨ ∃ g', g = some g' ∧ b.ty = .unit ∧ group b = some g' ∧ g'.map (·.1) = V) := by
  induction h with
  | nil => exact fun i => ⟨fun _ => rfl, fun _ h => nomatch h⟩
  | never hty _ ih =>
    intro i
    cases i with
    | zero => exact ⟨(fun h => nomatch h), fun b h => by cases h; exact ⟨none, rfl, .inl ⟨rfl, hty⟩⟩⟩
    | succ i => exact ih i
  | group hty hg hV _ ih =>
    intro i
    cases i with
    | zero => exact ⟨(fun h => nomatch h), fun b h => by cases h; exact ⟨_, rfl, .inr ⟨_, rfl, hty, hg, hV⟩⟩⟩
    | succ i => exact ih i

theorem step_left (xs ds1 ds2 : List Id) (st : Store) (w : σ) (hs : ∀ x ∈ xs, st x = none) :
    Step fa xs ds1 ds2 ⟨ds1, st, w, none⟩ ⟨ds2, st, w, none⟩ :=
  .inr ⟨st, st, w, rfl, rfl, fun _ _ => rfl, fun x hx => .inl (hs x hx)⟩

/-- The statement that gives the variables their values, and the new statement. -/
theorem item_same (hS : Sound S fa.ordered) {item new : Item} {xs : List Id} (hn : newItem item = some (xs, new))
    (hg : ∀ x ∈ xs, Gives x item) (hi : ∀ x ∈ xs, x ∉ item.inner) (hv : NeverEnds S item)
    (hl : xs.length > 1 → ∀ x ∈ xs, fa.ordered x = false) (ds1 ds2 : List Id) (st : Store) (w : σ)
    (hs : ∀ x ∈ xs, st x = none) :
    Step fa xs ds1 ds2 (runItem S item ds1 st w) (runItem S new ds2 st w) := by
  cases item with
  | simple s =>
    cases s with
    | assign x c =>
      simp only [newItem, Option.some.injEq, Prod.mk.injEq] at hn
      obtain ⟨rfl, rfl⟩ := hn
      have hx := once_split [] (hg x (.head _))
      have hk := keep hS hx.2 st w
      rw [hs x (.head _)] at hk
      simp only [runItem, runStmt]
      rcases he : S.exec c st w with ⟨st', w', _ | v⟩ <;> rw [he] at hk
      · exact step_left _ _ _ _ _ fun y hy => by
          rw [List.mem_singleton.1 hy]; exact hk
      · left
        refine ⟨upd st' x (some v), w', ?_, rfl⟩
        simp only [store, dropOne]
        rw [show st' x = none from hk]; rfl
    | decl x => cases hn
    | init x sub c => cases hn
    | expr c => cases hn
  | letChoice ys sel bs => cases hn
  | choice sel bs =>
    simp only [newItem] at hn
    split at hn
    · cases hn
    · next gs hgs =>
      split at hn
      · cases hn
      · next xs' hxs =>
        simp only [Option.some.injEq, Prod.mk.injEq] at hn
        obtain ⟨rfl, rfl⟩ := hn
        have hall := all2_get (groups_all (V := xs'.reverse) bs none gs hgs
          (.inr ⟨rfl, by rw [List.reverse_reverse]; exact hxs⟩))
        have hk : ∀ x ∈ xs', (S.exec sel st w).1 x = none := fun x hx => (keep hS (hg x hx).1 st w).trans (hs x hx)
        simp only [runItem]
        rcases he : S.exec sel st w with ⟨st', w', _ | i⟩ <;> simp only [he] at hk
        · exact step_left _ _ _ _ _ hk
        · simp only [select]
          cases hb : bs[i]? with
          | none =>
            rw [(hall i).1 hb]
            exact step_left _ _ _ _ _ hk
          | some b =>
            obtain ⟨g, h1, h2⟩ := (hall i).2 b hb
            rw [h1]
            have hmem := List.mem_of_getElem? hb
            have hib : ∀ x ∈ xs', x ∉ b.all.flatMap Stmt.declares := fun x hx h =>
              hi x hx (List.mem_flatMap.2 ⟨b, hmem, h⟩)
            rcases h2 with ⟨rfl, hty⟩ | ⟨g', rfl, hty, hgr, hV⟩
            · have hnv := hv b hmem hty st' w'
              have hk2 : ∀ x ∈ xs', (runBranch S b st' w').1 x = none := fun x hx =>
                (branch_keep hS (((hg x hx).2 b hmem).1 hty) (hib x hx) st' w').trans (hk x hx)
              have hvb : (valueBranch b none).all = b.all := by cases b; rfl
              simp only [runBranch, close, runVBranch, hvb] at hnv hk2 ⊢
              rcases hr : runStmts S b.all ⟨[], st', w', some 0⟩ with ⟨ds, st2, w2, _ | k⟩
              · simp only [hr] at hk2
                exact step_left _ _ _ _ _ hk2
              · rw [hr] at hnv; cases hnv
            · exact branch_same hS hgr hV (fun x hx => ((hg x hx).2 b hmem).2 (by rw [hty]; exact fun h => nomatch h))
                hib hl ds1 ds2 st' w' hk

theorem removeDecls_other {xs : List Id} {s : Item} {pre : List Item} (hd : ¬∃ y, s = .simple (.decl y) ∧ y ∈ xs) :
    removeDecls xs (s :: pre) = s :: removeDecls xs pre := by
  cases s with
  | simple s => cases s with
    | decl y =>
      simp only [removeDecls]
      split
      · next hc => exact absurd ⟨y, rfl, by simpa using hc⟩ hd
      · rfl
    | init _ _ _ => rfl
    | assign _ _ => rfl
    | expr _ => rfl
  | choice _ _ => rfl
  | letChoice _ _ _ => rfl

/-- The other statements before the variables get their values. -/
theorem pre_same (hS : Sound S fa.ordered) {xs : List Id} : ∀ (pre : List Item) (ds : List Id) (st : Store) (w : σ)
    (f g : Option Nat), f.isSome = g.isSome →
    (∀ x ∈ xs, st x = none) →
    (∀ x ∈ xs, ∀ s ∈ pre, x ∉ s.mentions ∧ x ∉ s.inner ∧ (x ∈ s.top → s = .simple (.decl x))) →
    ∃ t st' w' f' g', runItems S pre ⟨ds, st, w, f⟩ = ⟨t ++ ds, st', w', f'⟩ ∧ (∀ x ∈ xs, st' x = none) ∧
      runItems S (removeDecls xs pre) ⟨ds.filter (fun d => !xs.contains d), st, w, g⟩ =
        ⟨(t ++ ds).filter (fun d => !xs.contains d), st', w', g'⟩ ∧ f'.isSome = g'.isSome ∧
      ∀ y ∈ t, ∃ s ∈ pre, y ∈ s.top
  | [], ds, st, w, f, g, hf, hs, _ => ⟨[], st, w, f, g, rfl, hs, rfl, hf, fun _ h => nomatch h⟩
  | s :: pre, ds, st, w, none, none, _, hs, _ => ⟨[], st, w, none, none, rfl, hs, by
      cases removeDecls xs (s :: pre) <;> rfl, rfl, fun _ h => nomatch h⟩
  | s :: pre, ds, st, w, some v, some u, _, hs, h => by
    have hp : ∀ x ∈ xs, ∀ s ∈ pre, x ∉ s.mentions ∧ x ∉ s.inner ∧ (x ∈ s.top → s = .simple (.decl x)) :=
      fun x hx s hs => h x hx s (.tail _ hs)
    by_cases hd : ∃ y, s = .simple (.decl y) ∧ y ∈ xs
    · obtain ⟨y, rfl, hy⟩ := hd
      have hc : xs.contains y = true := by simpa using hy
      have hrun : runItems S (.simple (.decl y) :: pre) ⟨ds, st, w, some v⟩ = runItems S pre ⟨y :: ds, st, w, some 0⟩ := by
        simp only [runItems, runItem, runStmt, upd_none (hs y hy)]
      have hrem : removeDecls xs (.simple (.decl y) :: pre) = removeDecls xs pre := by
        simp only [removeDecls]; rw [if_pos hc]
      obtain ⟨t, st', w', f', g', e1, e2, e3, e4, e5⟩ := pre_same hS pre (y :: ds) st w (some 0) (some u) rfl hs hp
      refine ⟨t ++ [y], st', w', f', g', ?_, e2, ?_, e4, fun z hz => ?_⟩
      · rw [hrun, e1]; simp
      · rw [hrem]
        rw [List.filter_cons_of_neg (by simpa using hy)] at e3
        rw [e3]; simp
      · rcases List.mem_append.1 hz with hz | hz
        · obtain ⟨s, hs, h⟩ := e5 z hz; exact ⟨s, .tail _ hs, h⟩
        · rw [List.mem_singleton.1 hz]; exact ⟨_, .head _, .head _⟩
    · have hrem : removeDecls xs (s :: pre) = s :: removeDecls xs pre := removeDecls_other hd
      have htop : ∀ x ∈ xs, x ∉ s.top := fun x hx ht => hd ⟨x, (h x hx s (.head _)).2.2 ht, hx⟩
      obtain ⟨t, st1, w1, f1, ht, hrun⟩ := runItem_shape (S := S) s st w
      have hs1 : ∀ x ∈ xs, st1 x = none := fun x hx => by
        have := item_keep hS (h x hx s (.head _)).1 (h x hx s (.head _)).2.1 (htop x hx) [] st w
        rw [hrun] at this; exact this.trans (hs x hx)
      have hft : t.filter (fun d => !xs.contains d) = t := by
        rw [List.filter_eq_self]
        intro a ha
        simpa using fun hx => htop a hx (ht a ha)
      obtain ⟨t2, st', w', f', g', e1, e2, e3, e4, e5⟩ := pre_same hS pre (t ++ ds) st1 w1 f1 f1 rfl hs1 hp
      refine ⟨t2 ++ t, st', w', f', g', ?_, e2, ?_, e4, fun z hz => ?_⟩
      · simp only [runItems, hrun, e1, List.append_assoc]
      · rw [hrem]
        simp only [runItems, hrun]
        rw [List.filter_append, hft] at e3
        rw [e3, List.append_assoc]
      · rcases List.mem_append.1 hz with hz | hz
        · obtain ⟨s, hs, h⟩ := e5 z hz; exact ⟨s, .tail _ hs, h⟩
        · exact ⟨s, .head _, ht z hz⟩

/-- Where a variable with an ordered drop was declared. -/
def DropOk (fa : Facts) (xs : List Id) (pre : List Item) : Prop :=
  (∀ x ∈ xs, fa.ordered x = false) ∨
  ∃ x l m, xs = [x] ∧ pre = l ++ .simple (.decl x) :: m ∧ (∀ s ∈ l, x ∉ s.top) ∧
    ∀ s ∈ m, ∀ y ∈ s.top, fa.ordered y = false

theorem filter_none {xs : List Id} (hx : ∀ x ∈ xs, fa.ordered x = false) (ds : List Id) :
    (ds.filter fun d => !xs.contains d).filter fa.ordered = ds.filter fa.ordered := by
  rw [List.filter_filter]
  refine List.filter_congr fun d _ => ?_
  by_cases hd : d ∈ xs
  · simp [hx d hd]
  · simp [hd]

/-- The variables are dropped in the same order. -/
theorem ds_same (hS : Sound S fa.ordered) {xs : List Id} {pre : List Item} (hd : DropOk fa xs pre) {st st' : Store}
    {w w' : σ} {ds : List Id} {f : Option Nat} (hs : ∀ x ∈ xs, st x = none)
    (hp : ∀ x ∈ xs, ∀ s ∈ pre, x ∉ s.mentions ∧ x ∉ s.inner ∧ (x ∈ s.top → s = .simple (.decl x)))
    (hr : runItems S pre ⟨[], st, w, some 0⟩ = ⟨ds, st', w', some 0⟩ ∨
      runItems S pre ⟨[], st, w, some 0⟩ = ⟨ds, st', w', f⟩ ∧ f.isSome) :
    ds.filter fa.ordered = (xs.reverse ++ ds.filter fun d => !xs.contains d).filter fa.ordered := by
  have hr : ∃ f, runItems S pre ⟨[], st, w, some 0⟩ = ⟨ds, st', w', f⟩ ∧ f.isSome := by
    rcases hr with h | h
    · exact ⟨_, h, rfl⟩
    · exact ⟨f, h⟩
  obtain ⟨f, hr, hfs⟩ := hr
  rcases hd with hd | ⟨x, l, m, rfl, rfl, hl, hm⟩
  · rw [List.filter_append, filter_none hd]
    have : xs.reverse.filter fa.ordered = [] := by
      rw [List.filter_eq_nil_iff]; intro a ha; simp [hd a (List.mem_reverse.1 ha)]
    rw [this]; rfl
  · obtain ⟨t, st1, w1, f1, g1, e1, e2, -, -, e5⟩ := pre_same hS (xs := [x]) l [] st w (some 0) (some 0) rfl hs
      fun y hy s hs => hp y hy s (List.mem_append_left _ hs)
    rw [items_append, e1] at hr
    have hxt : x ∉ t := fun h => by
      obtain ⟨s, hs, h⟩ := e5 x h
      exact hl s hs h
    cases f1 with
    | none =>
      simp only [runItems, R.mk.injEq] at hr
      rw [← hr.2.2.2] at hfs; cases hfs
    | some k =>
      simp only [runItems, runItem, runStmt, upd_none (e2 x (.head _))] at hr
      obtain ⟨t2, st2, w2, f2, g2, a1, -, -, -, a5⟩ := pre_same hS (xs := [x]) m (x :: (t ++ [])) st1 w1 (some 0) (some 0)
        rfl e2 fun y hy s hs => hp y hy s (List.mem_append_right _ (.tail _ hs))
      rw [a1] at hr
      simp only [R.mk.injEq] at hr
      rw [← hr.1]
      have ht2 : t2.filter fa.ordered = [] := by
        rw [List.filter_eq_nil_iff]; intro a ha
        obtain ⟨s, hs, h⟩ := a5 a ha
        simp [hm s hs a h]
      have hft : (t2.filter fun d => ![x].contains d).filter fa.ordered = [] := by
        rw [List.filter_filter, List.filter_eq_nil_iff]; intro a ha
        obtain ⟨s, hs, h⟩ := a5 a ha
        simp [hm s hs a h]
      have htt : t.filter (fun d => ![x].contains d) = t := by
        rw [List.filter_eq_self]; intro a ha
        have : a ≠ x := fun h => hxt (h ▸ ha)
        simp [this]
      have hx0 : [x].filter (fun d => ![x].contains d) = [] := by simp
      rw [List.append_nil, List.filter_append, ht2]
      simp only [List.filter_append, hft, htt, List.nil_append, List.reverse_singleton]
      rw [show x :: t = [x] ++ t from rfl, List.filter_append, List.filter_append (p := fun d => ![x].contains d), hx0, htt]
      rfl

/-- The block, and the block with the new statement. -/
theorem block_same (hS : Sound S fa.ordered) {pre rest : List Item} {item new : Item} {xs : List Id}
    (hn : newItem item = some (xs, new)) (hg : ∀ x ∈ xs, Gives x item) (hi : ∀ x ∈ xs, x ∉ item.inner)
    (hv : NeverEnds S item) (hl : xs.length > 1 → ∀ x ∈ xs, fa.ordered x = false)
    (hp : ∀ x ∈ xs, ∀ s ∈ pre, x ∉ s.mentions ∧ x ∉ s.inner ∧ (x ∈ s.top → s = .simple (.decl x)))
    (hd : DropOk fa xs pre) (st : Store) (w : σ) (hs : ∀ x ∈ xs, st x = none) :
    Same xs (close S (runItems S (pre ++ item :: rest) ⟨[], st, w, some 0⟩))
      (close S (runItems S (removeDecls xs pre ++ new :: rest) ⟨[], st, w, some 0⟩)) := by
  obtain ⟨t, st', w', f, g, e1, e2, e3, e4, -⟩ := pre_same hS pre [] st w (some 0) (some 0) rfl hs hp
  rw [items_append, items_append, e1]
  rw [List.filter_nil] at e3
  rw [e3, List.append_nil]
  have hdrop : ∀ {st1 st2 : Store} {w : σ}, (∀ y, y ∉ xs → st1 y = st2 y) →
      (∀ x ∈ xs, st1 x = none ∨ fa.ordered x = false) →
      dropAll S t st1 w = dropAll S (t.filter fun d => !xs.contains d) st2 w := by
    intro st1 st2 w h1 h2
    rw [dropAll_filter hS (fun d => !xs.contains d) t w fun d _ hd => h2 d (by simpa using hd)]
    exact dropAll_congr _ _ fun d hd => h1 d (by simpa using (List.mem_filter.1 hd).2)
  cases f with
  | none =>
    cases g with
    | some _ => cases e4
    | none =>
      simp only [runItems, close]
      exact ⟨by rw [hdrop (fun _ _ => rfl) fun x hx => .inl (e2 x hx)], fun _ _ => rfl⟩
  | some v =>
    cases g with
    | none => cases e4
    | some u =>
      simp only [runItems]
      have hfil := ds_same hS hd hs hp (.inr ⟨e1, rfl⟩)
      rw [List.append_nil] at hfil
      rcases item_same hS hn hg hi hv hl t (t.filter fun d => !xs.contains d) st' w' e2 with
        ⟨st2, w2, h1, h2⟩ | ⟨st1, st2, w2, h1, h2, h3, h4⟩
      · rw [h1, h2]
        obtain ⟨t3, st3, w3, f3, h3⟩ := items_ds (S := S) rest st2 w2 (some 0)
        simp only [h3, close]
        refine ⟨?_, fun _ _ => rfl⟩
        rw [dropAll_ordered hS]
        rw [List.filter_append, hfil, ← List.filter_append]
      · rw [h1, h2]
        have hn : ∀ ds (st : Store) (w : σ), runItems S rest ⟨ds, st, w, none⟩ = ⟨ds, st, w, none⟩ := by
          intro ds st w; cases rest <;> rfl
        rw [hn, hn]
        exact ⟨by simp only [close]; rw [hdrop h3 h4], h3⟩

theorem declAt_get {x : Id} : ∀ (ss : List Item) (n k : Nat), declAt x ss n = some k →
    n ≤ k ∧ ss[k - n]? = some (.simple (.decl x))
  | [], n, k, h => nomatch h
  | s :: ss, n, k, h => by
    have key : declAt x ss (n + 1) = some k → n ≤ k ∧ (s :: ss)[k - n]? = some (.simple (.decl x)) := fun h => by
      obtain ⟨h1, h2⟩ := declAt_get ss (n + 1) k h
      refine ⟨by omega, ?_⟩
      rw [show k - n = (k - (n + 1)) + 1 by omega]; exact h2
    cases s with
    | simple s => cases s with
      | decl y =>
        simp only [declAt] at h
        split at h
        · next hy => cases h; subst hy; simp
        · exact key h
      | init _ _ _ => exact key h
      | assign _ _ => exact key h
      | expr _ => exact key h
    | choice _ _ => exact key h
    | letChoice _ _ _ => exact key h

theorem scan_facts {x : Id} : ∀ (ss : List Item) (n : Nat) (p : Place), scan fa x ss n = some (some p) →
    ∃ i, p = .stmt (n + i) ∧ ∀ j s, j < i → ss[j]? = some s →
      x ∉ s.mentions ∧ (fa.ordered x = true → orderedStmt fa s = false)
  | [], n, p, h => nomatch h
  | s :: ss, n, p, h => by
    simp only [scan] at h
    split at h
    · cases h
    · next ho =>
      split at h
      · refine ⟨0, ?_, fun j s hj => absurd hj (Nat.not_lt_zero j)⟩
        split at h <;> first | (cases h; rfl) | cases h
      · next hm =>
        obtain ⟨i, h1, h2⟩ := scan_facts ss (n + 1) p h
        refine ⟨i + 1, by rw [h1]; congr 1; omega, fun j t hj ht => ?_⟩
        cases j with
        | zero =>
          cases ht
          refine ⟨by simpa using hm, fun hx => ?_⟩
          rw [hx, Bool.true_and] at ho
          exact Bool.not_eq_true _ ▸ ho
        | succ j => exact h2 j t (by omega) ht

/-- Statements up to the first usage do not mention the variable. -/
theorem declaredFor_stmt {b : Block} {i : Nat} {x : Id} (h : declaredFor fa b (.stmt i) x = true) :
    ∃ k, k < i ∧ b.stmts[k]? = some (.simple (.decl x)) ∧ ∀ j s, k < j → j < i → b.stmts[j]? = some s →
      x ∉ s.mentions ∧ (fa.ordered x = true → orderedStmt fa s = false) := by
  simp only [declaredFor] at h
  split at h
  · next k hk =>
    obtain ⟨-, hget⟩ := declAt_get _ _ _ hk
    simp only [firstUsage, beq_iff_eq] at h
    split at h
    · next p hp =>
      cases h
      obtain ⟨m, h1, h2⟩ := scan_facts _ _ _ hp
      injection h1 with h1
      refine ⟨k, by omega, hget, fun j s hkj hji hs => h2 (j - (k + 1)) s (by omega) ?_⟩
      rw [List.getElem?_drop, show k + 1 + (j - (k + 1)) = j by omega]
      exact hs
    · simp only [atEnd] at h
      split at h
      · split at h <;> cases h
      · cases h
  · cases h

theorem declaredFor_decl {b : Block} {p : Place} {x : Id} (h : declaredFor fa b p x = true) :
    ∃ k : Nat, b.stmts[k]? = some (.simple (.decl x)) := by
  simp only [declaredFor] at h
  split at h
  · next k hk => exact ⟨k, (declAt_get _ _ _ hk).2⟩
  · cases h

theorem removeDecls_not {xs : List Id} {x : Id} (hx : x ∈ xs) : ∀ ss : List Item,
    .simple (.decl x) ∉ removeDecls xs ss
  | [] => fun h => nomatch h
  | s :: ss => by
    by_cases hd : ∃ y, s = .simple (.decl y) ∧ y ∈ xs
    · obtain ⟨y, rfl, hy⟩ := hd
      simp only [removeDecls]
      rw [if_pos (by simpa using hy)]
      exact removeDecls_not hx ss
    · rw [removeDecls_other hd]
      intro h
      rcases List.mem_cons.1 h with h | h
      · exact hd ⟨x, h.symm, hx⟩
      · exact removeDecls_not hx ss h

theorem groupVars_nodup {V : List Id} {bs gs} (h : All2 V bs gs) {xs : List Id} (hx : groupVars gs = some xs) :
    xs.Nodup := by
  induction h with
  | nil => cases hx
  | never _ _ ih => exact ih hx
  | group hty hg hV _ _ =>
    simp only [groupVars, Option.some.injEq] at hx
    rw [← hx]
    exact (List.reverse_perm _).nodup_iff.2 (free_nodup (group_facts hg).2.1)

theorem newItem_facts {item new : Item} {xs : List Id} (h : newItem item = some (xs, new)) :
    xs.Nodup ∧ (∀ x, new ≠ .simple (.decl x)) ∧ ((∃ s, new = .simple s) ∨ ∃ ys sel bs, new = .letChoice ys sel bs) := by
  cases item with
  | simple s => cases s with
    | assign x c => cases h; exact ⟨by simp, by simp, .inl ⟨_, rfl⟩⟩
    | decl x => cases h
    | init x sub c => cases h
    | expr c => cases h
  | letChoice ys sel bs => cases h
  | choice sel bs =>
    simp only [newItem] at h
    split at h
    · cases h
    · next gs hgs =>
      split at h
      · cases h
      · next xs' hxs =>
        cases h
        refine ⟨?_, by simp, .inr ⟨_, _, _, rfl⟩⟩
        exact groupVars_nodup (groups_all (V := xs.reverse) bs none gs hgs (.inr ⟨rfl, by
          rw [List.reverse_reverse]; exact hxs⟩)) hxs

theorem ordered_top {s : Item} (h : orderedStmt fa s = false)
    (hsub : ∀ y c, s = .simple (.init y true c) → fa.ordered y = false) : ∀ y ∈ s.top, fa.ordered y = false := by
  cases s with
  | simple s => cases s with
    | decl x => intro y hy; rw [List.mem_singleton.1 hy]; exact h
    | init x sub c =>
      intro y hy; rw [List.mem_singleton.1 hy]
      cases sub with
      | true => exact hsub x c rfl
      | false => exact h
    | assign x c => exact fun y hy => nomatch hy
    | expr c => exact fun y hy => nomatch hy
  | choice sel bs => exact fun y hy => nomatch hy
  | letChoice xs sel bs => 
    intro y hy
    have := List.any_eq_false.1 h y hy
    simpa using this

theorem two_of_length {xs : List Id} (hn : xs.Nodup) (hl : xs.length > 1) {x : Id} (hx : x ∈ xs) : ∃ y ∈ xs, x ≠ y := by
  match xs, hl with
  | a :: b :: l, _ =>
    have hab : a ≠ b := by
      have := (List.nodup_cons.1 hn).1
      exact fun h => this (h ▸ .head _)
    by_cases h : x = a
    · exact ⟨b, .tail _ (.head _), h ▸ hab⟩
    · exact ⟨a, .head _, h⟩

/-- One variable at most has an ordered drop. -/
theorem dropOk_of {xs : List Id} {pre : List Item} (hl : xs.length > 1 → ∀ x ∈ xs, fa.ordered x = false)
    (h : ∀ x ∈ xs, fa.ordered x = true → ∃ l m, pre = l ++ .simple (.decl x) :: m ∧ (∀ s ∈ l, x ∉ s.top) ∧
      ∀ s ∈ m, ∀ y ∈ s.top, fa.ordered y = false) : DropOk fa xs pre := by
  match xs, hl, h with
  | [], _, _ => exact .inl fun _ h => nomatch h
  | [x], _, h =>
    cases ho : fa.ordered x with
    | false => exact .inl fun y hy => by rw [List.mem_singleton.1 hy]; exact ho
    | true =>
      obtain ⟨l, m, h1, h2, h3⟩ := h x (.head _) ho
      exact .inr ⟨x, l, m, rfl, h1, h2, h3⟩
  | _ :: _ :: _, hl, _ => exact .inl (hl (by simp))

theorem mem_take {ss : List Item} {i : Nat} {s : Item} (h : s ∈ ss.take i) : ∃ j, j < i ∧ ss[j]? = some s := by
  obtain ⟨j, hj⟩ := List.getElem?_of_mem h
  by_cases hji : j < i
  · rw [List.getElem?_take_of_lt hji] at hj; exact ⟨j, hji, hj⟩
  · rw [List.getElem?_eq_none (by simp; omega)] at hj; cases hj

theorem mem_drop {ss : List Item} {i : Nat} {s : Item} (h : s ∈ ss.drop i) : ∃ j, i ≤ j ∧ ss[j]? = some s := by
  obtain ⟨j, hj⟩ := List.getElem?_of_mem h
  rw [List.getElem?_drop] at hj
  exact ⟨i + j, by omega, hj⟩

theorem split_at {ss : List Item} {k : Nat} {s : Item} (h : ss[k]? = some s) :
    ss = ss.take k ++ s :: ss.drop (k + 1) := by
  obtain ⟨hk, he⟩ := List.getElem?_eq_some_iff.1 h
  rw [← he, List.getElem_cons_drop, List.take_append_drop]

/-- A declaration at the end of a block has no value. -/
theorem letChoice_value (pre : List Item) (ys : List Id) (sel : Code) (bs : List VBranch) (st : Store) (w : σ) :
    value true (close S (runItems S (pre ++ [.letChoice ys sel bs]) ⟨[], st, w, some 0⟩)).2.2 =
      value false (close S (runItems S (pre ++ [.letChoice ys sel bs]) ⟨[], st, w, some 0⟩)).2.2 := by
  rw [items_append]
  rcases runItems S pre ⟨[], st, w, some 0⟩ with ⟨ds, st', w', _ | k⟩
  · rfl
  · simp only [runItems, runItem, close]
    rcases S.exec sel st' w' with ⟨st2, w2, _ | i⟩
    · rfl
    · simp only [select]
      cases bs[i]? with
      | none => rfl
      | some b =>
        simp only
        rcases runVBranch S ys b st2 w2 with ⟨st3, w3, _ | acc⟩ <;> rfl

/-- **Moving the declaration of a variable to the statement that gives it its value does not change what the block does**:
its value, how it is left, the rest of the world (with the order of drops) and the other variables are the same.
Partial: several variables must not have an ordered drop; branches that are left must not mention the variables; bindings
with subpatterns must not have an ordered drop; at the end of the block, no other statement may mention the variables or
declare variables with an ordered drop (see the witnesses). -/
theorem late_init_partial (hS : Sound S fa.ordered) {b b' : Block} {p : Place} {item : Item}
    (hc : check fa b p = some (some b')) (hat : b.at p = some item) (hsc : Scoped b)
    (hgiv : ∀ x, Moved b b' x → Gives x item) (hv : NeverEnds S item)
    (hgr : ∀ x y, Moved b b' x → Moved b b' y → x ≠ y → fa.ordered x = false)
    (hsub : ∀ y c, .simple (.init y true c) ∈ b.stmts → fa.ordered y = false)
    (htail : p = .tail → ∀ x, Moved b b' x → (∀ s ∈ b.stmts, x ∉ s.mentions) ∧
      (fa.ordered x = true → ∀ s ∈ b.stmts, ∀ y ∈ s.top, y ≠ x → fa.ordered y = false))
    (st : Store) (w : σ) (hs : ∀ x, Moved b b' x → st x = none) :
    (runBlock S b st w).2 = (runBlock S b' st w).2 ∧
      ∀ y, ¬Moved b b' y → (runBlock S b st w).1 y = (runBlock S b' st w).1 y := by
  simp only [check, hat] at hc
  split at hc
  · cases hc
  · next xs new hn =>
    split at hc
    · next hall =>
      have hall : ∀ x ∈ xs, declaredFor fa b p x = true := by
        simp only [Bool.and_eq_true, List.all_eq_true] at hall
        exact hall.2
      simp only [Option.some.injEq] at hc
      obtain ⟨hnd, hnew, hkind⟩ := newItem_facts hn
      cases p with
      | stmt i =>
        simp only [rewrite, Option.some.injEq] at hc
        subst hc
        have hat : b.stmts[i]? = some item := hat
        have hmv : ∀ x ∈ xs, Moved b ⟨removeDecls xs (b.stmts.take i) ++ new :: b.stmts.drop (i + 1), b.tail⟩ x := by
          intro x hx
          obtain ⟨k, hk, hget, -⟩ := declaredFor_stmt (hall x hx)
          refine ⟨List.mem_of_getElem? hget, fun h => ?_⟩
          rcases List.mem_append.1 h with h | h
          · exact removeDecls_not hx _ h
          · rcases List.mem_cons.1 h with h | h
            · exact hnew x h.symm
            · obtain ⟨j, hj, hjs⟩ := mem_drop h
              exact (hsc x k hget).1 j _ hjs (by omega) (.head _)
        have hl : xs.length > 1 → ∀ x ∈ xs, fa.ordered x = false := fun hlen x hx => by
          obtain ⟨y, hy, hne⟩ := two_of_length hnd hlen hx
          exact hgr x y (hmv x hx) (hmv y hy) hne
        have hp : ∀ x ∈ xs, ∀ s ∈ b.stmts.take i, x ∉ s.mentions ∧ x ∉ s.inner ∧ (x ∈ s.top → s = .simple (.decl x)) := by
          intro x hx s hs
          obtain ⟨k, hk, hget, hbet⟩ := declaredFor_stmt (hall x hx)
          obtain ⟨j, hj, hjs⟩ := mem_take hs
          obtain ⟨s1, s2, s3, -⟩ := hsc x k hget
          refine ⟨?_, s3 s (List.mem_append_left _ (List.mem_of_getElem? hjs)), fun ht => ?_⟩
          · rcases Nat.lt_trichotomy j k with h | h | h
            · exact s2 j s hjs h
            · subst h; rw [hget] at hjs; cases hjs; exact fun h => nomatch h
            · exact (hbet j s h hj hjs).1
          · by_cases h : j = k
            · subst h; rw [hget] at hjs; cases hjs; rfl
            · exact absurd ht (s1 j s hjs h)
        have hdo : DropOk fa xs (b.stmts.take i) := dropOk_of hl fun x hx ho => by
          obtain ⟨k, hk, hget, hbet⟩ := declaredFor_stmt (hall x hx)
          have hget' : (b.stmts.take i)[k]? = some (.simple (.decl x)) := by
            rw [List.getElem?_take_of_lt hk]; exact hget
          refine ⟨_, _, split_at hget', fun s hs => ?_, fun s hs => ?_⟩
          · obtain ⟨j, hj, hjs⟩ := mem_take hs
            rw [List.getElem?_take_of_lt (by omega)] at hjs
            exact (hsc x k hget).1 j s hjs (by omega)
          · obtain ⟨j, hj, hjs⟩ := mem_drop hs
            obtain ⟨j', hj', hjs'⟩ := mem_take (List.mem_of_getElem? hjs)
            have hji : j < i := by
              apply Classical.byContradiction; intro h
              rw [List.getElem?_eq_none (by simp; omega)] at hjs; cases hjs
            rw [List.getElem?_take_of_lt hji] at hjs
            exact ordered_top ((hbet j s (by omega) hji hjs).2 ho)
              fun y c he => hsub y c (he ▸ List.mem_of_getElem? hjs)
        have hmain := block_same hS (rest := b.stmts.drop (i + 1) ++ b.tail.toList) hn (fun x hx => hgiv x (hmv x hx))
          (fun x hx => by
            obtain ⟨k, hget⟩ := declaredFor_decl (hall x hx)
            exact (hsc x k hget).2.2.1 item (List.mem_append_left _ (List.mem_of_getElem? hat)))
          hv hl hp hdo st w (fun x hx => hs x (hmv x hx))
        have e1 : b.stmts ++ b.tail.toList = b.stmts.take i ++ item :: (b.stmts.drop (i + 1) ++ b.tail.toList) := by
          conv => lhs; rw [split_at hat]
          simp
        simp only [runBlock, List.append_assoc, List.cons_append]
        rw [e1]
        refine ⟨?_, fun y hy => hmain.2 y fun hx => hy (hmv y hx)⟩
        rw [hmain.1]
      | tail =>
        have htl : b.tail = some item := hat
        have hnl : ∃ ys sel bs, new = .letChoice ys sel bs := by
          rcases hkind with ⟨s, rfl⟩ | h
          · cases hc
          · exact h
        obtain ⟨ys, sel, bs, rfl⟩ := hnl
        simp only [rewrite, Option.some.injEq] at hc
        subst hc
        have hmv : ∀ x ∈ xs, Moved b ⟨removeDecls xs b.stmts ++ [.letChoice ys sel bs], none⟩ x := by
          intro x hx
          obtain ⟨k, hget⟩ := declaredFor_decl (hall x hx)
          refine ⟨List.mem_of_getElem? hget, fun h => ?_⟩
          rcases List.mem_append.1 h with h | h
          · exact removeDecls_not hx _ h
          · exact hnew x (List.mem_singleton.1 h).symm
        have hl : xs.length > 1 → ∀ x ∈ xs, fa.ordered x = false := fun hlen x hx => by
          obtain ⟨y, hy, hne⟩ := two_of_length hnd hlen hx
          exact hgr x y (hmv x hx) (hmv y hy) hne
        have hp : ∀ x ∈ xs, ∀ s ∈ b.stmts, x ∉ s.mentions ∧ x ∉ s.inner ∧ (x ∈ s.top → s = .simple (.decl x)) := by
          intro x hx s hs
          obtain ⟨k, hget⟩ := declaredFor_decl (hall x hx)
          obtain ⟨s1, s2, s3, -⟩ := hsc x k hget
          refine ⟨(htail rfl x (hmv x hx)).1 s hs, s3 s (List.mem_append_left _ hs), fun ht => ?_⟩
          obtain ⟨j, hjs⟩ := List.getElem?_of_mem hs
          by_cases h : j = k
          · subst h; rw [hget] at hjs; cases hjs; rfl
          · exact absurd ht (s1 j s hjs h)
        have hdo : DropOk fa xs b.stmts := dropOk_of hl fun x hx ho => by
          obtain ⟨k, hget⟩ := declaredFor_decl (hall x hx)
          refine ⟨_, _, split_at hget, fun s hs => ?_, fun s hs y hy => ?_⟩
          · obtain ⟨j, hj, hjs⟩ := mem_take hs
            exact (hsc x k hget).1 j s hjs (by omega)
          · obtain ⟨j, hj, hjs⟩ := mem_drop hs
            refine (htail rfl x (hmv x hx)).2 ho s (List.mem_of_getElem? hjs) y hy fun h => ?_
            exact (hsc x k hget).1 j s hjs (by omega) (h ▸ hy)
        have hmain := block_same hS (rest := []) hn (fun x hx => hgiv x (hmv x hx))
          (fun x hx => by
            obtain ⟨k, hget⟩ := declaredFor_decl (hall x hx)
            exact (hsc x k hget).2.2.1 item (List.mem_append_right _ (by rw [htl]; exact .head _)))
          hv hl hp hdo st w (fun x hx => hs x (hmv x hx))
        simp only [runBlock, htl, Option.toList, Option.isSome, List.append_nil]
        refine ⟨?_, fun y hy => hmain.2 y fun hx => hy (hmv y hx)⟩
        rw [hmain.1]
        congr 1
        exact letChoice_value _ _ _ _ _ _
    · cases hc

end Verif.LateInit
