import Verif.Pats.UnnestExp

/-!
# Lemmas about choices and rearrangements
-/

namespace Verif.Unnest

theorem perm_flatMap_left {α β : Type} (l : List α) {f g : α → List β} (h : ∀ a ∈ l, (f a).Perm (g a)) :
    (l.flatMap f).Perm (l.flatMap g) := by
  induction l with
  | nil => simp
  | cons a l ih =>
    rw [List.flatMap_cons, List.flatMap_cons]
    exact (h a (List.mem_cons_self ..)).append (ih fun b hb => h b (List.mem_cons_of_mem _ hb))

theorem flatMap_append_fun {α β : Type} (l : List α) (f g : α → List β) :
    (l.flatMap fun a => f a ++ g a).Perm (l.flatMap f ++ l.flatMap g) := by
  induction l with
  | nil => simp
  | cons a l ih =>
    simp only [List.flatMap_cons]
    refine ((List.Perm.refl (f a ++ g a)).append ih).trans ?_
    simp only [List.append_assoc]
    refine (List.Perm.refl (f a)).append ?_
    exact List.perm_append_comm_assoc ..

theorem flatMap_swap {α β γ : Type} (l : List α) (m : List β) (g : α → β → List γ) :
    (l.flatMap fun a => m.flatMap fun b => g a b).Perm (m.flatMap fun b => l.flatMap fun a => g a b) := by
  induction l with
  | nil => simp
  | cons a l ih =>
    simp only [List.flatMap_cons]
    exact ((List.Perm.refl _).append ih).trans (flatMap_append_fun m _ _).symm

/-- Lists that are rearrangements of each other, position by position. -/
def PermEach {α : Type} : List (List α) → List (List α) → Prop
  | [], [] => True
  | a :: as, b :: bs => a.Perm b ∧ PermEach as bs
  | _, _ => False

theorem PermEach.refl {α : Type} : ∀ l : List (List α), PermEach l l
  | [] => trivial
  | a :: as => ⟨.refl a, PermEach.refl as⟩

theorem choices_perm {α : Type} : ∀ {ls rs : List (List α)}, PermEach ls rs → (choices ls).Perm (choices rs)
  | [], [], _ => .refl _
  | l :: ls, r :: rs, h => by
    simp only [choices]
    refine (List.Perm.flatMap_right _ h.1).trans ?_
    exact perm_flatMap_left _ fun q _ => (choices_perm h.2).map _
  | [], _ :: _, h => h.elim
  | _ :: _, [], h => h.elim

theorem choices_nodup_cons {α : Type} {l : List α} {ls : List (List α)} (hl : l ≠ []) (hls : choices ls ≠ [])
    (h : (choices (l :: ls)).Nodup) : l.Nodup ∧ (choices ls).Nodup := by
  simp only [choices, List.Nodup, List.pairwise_flatMap, List.pairwise_map] at h
  obtain ⟨q, hq⟩ := List.exists_mem_of_ne_nil _ hl
  obtain ⟨x, hx⟩ := List.exists_mem_of_ne_nil _ hls
  constructor
  · refine h.2.imp ?_
    intro a b hab e
    subst e
    exact hab (a :: x) (List.mem_map.2 ⟨x, hx, rfl⟩) (a :: x) (List.mem_map.2 ⟨x, hx, rfl⟩) rfl
  · refine (h.1 q hq).imp ?_
    intro a b hab e
    exact hab (e ▸ rfl)

theorem choices_nodup_each {α : Type} : ∀ {ls : List (List α)}, (∀ l ∈ ls, l ≠ []) → (choices ls).Nodup →
    ∀ l ∈ ls, l.Nodup
  | [], _, _, l, hl => by simp at hl
  | a :: ls, hne, h, l, hl => by
    have hls := choices_ne (ls := ls) fun l' h' => hne l' (List.mem_cons_of_mem _ h')
    have := choices_nodup_cons (hne a (List.mem_cons_self ..)) hls h
    rcases List.mem_cons.1 hl with rfl | hl
    · exact this.1
    · exact choices_nodup_each (fun l' h' => hne l' (List.mem_cons_of_mem _ h')) this.2 l hl

theorem nodup_of_map {α β : Type} {l : List α} {f : α → β} (h : (l.map f).Nodup) : l.Nodup := by
  rw [List.Nodup, List.pairwise_map] at h
  exact h.imp fun {a b} hab e => hab (congrArg f e)

theorem mem_split' {α : Type} {a : α} {l : List α} (h : a ∈ l) : ∃ s t, l = s ++ a :: t := List.append_of_mem h

/-- If every list on the left is a rearrangement of one on the right, there are at least as many on the left, and
nothing is listed twice on the left, then both sides list the same. -/
theorem cover_perm {α β : Type} (e : α → List β) : ∀ (ls rs : List α),
    (∀ l ∈ ls, ∃ r ∈ rs, (e l).Perm (e r)) → rs.length ≤ ls.length → (∀ l ∈ ls, e l ≠ []) →
    (ls.flatMap e).Nodup → (ls.flatMap e).Perm (rs.flatMap e)
  | [], rs, _, hlen, _, _ => by
    have : rs = [] := List.length_eq_zero_iff.1 (Nat.le_zero.1 hlen)
    subst this; exact .refl _
  | l :: ls, rs, h, hlen, hne, nd => by
    obtain ⟨r, hr, hp⟩ := h l (List.mem_cons_self ..)
    obtain ⟨s, t, rfl⟩ := mem_split' hr
    rw [List.flatMap_cons] at nd ⊢
    obtain ⟨_, nd2, nd3⟩ := List.nodup_append.1 nd
    have ih := cover_perm e ls (s ++ t) (fun l' hl' => by
      obtain ⟨r', hr', hp'⟩ := h l' (List.mem_cons_of_mem _ hl')
      rw [List.mem_append, List.mem_cons] at hr'
      rcases hr' with hr' | rfl | hr'
      · exact ⟨r', List.mem_append.2 (.inl hr'), hp'⟩
      · exfalso
        obtain ⟨q, hq⟩ := List.exists_mem_of_ne_nil _ (hne l (List.mem_cons_self ..))
        have : q ∈ e l' := hp'.mem_iff.2 (hp.mem_iff.1 hq)
        exact nd3 q hq q (List.mem_flatMap.2 ⟨l', hl', this⟩) rfl
      · exact ⟨r', List.mem_append.2 (.inr hr'), hp'⟩)
      (by simp only [List.length_append, List.length_cons] at hlen ⊢; omega)
      (fun l' h' => hne l' (List.mem_cons_of_mem _ h')) nd2
    refine (hp.append ih).trans ?_
    simp only [List.flatMap_append, List.flatMap_cons]
    exact List.perm_append_comm_assoc ..

/-! ## Struct fields -/

/-- The or-free patterns of a list of fields, shown through a function of the list of chosen fields. -/
def expFields (L : List (Nat × APat)) (f : List (Nat × APat) → APat) : List APat :=
  (choices (expEach (L.map (·.2)))).map fun qs => f ((L.map (·.1)).zip qs)

theorem expFields_cons (a : Nat × APat) (L : List (Nat × APat)) (f : List (Nat × APat) → APat) :
    expFields (a :: L) f = (exp a.2).flatMap fun q => expFields L fun x => f ((a.1, q) :: x) := by
  simp only [expFields, List.map_cons, expEach, choices, List.map_flatMap, List.map_map]
  rfl

theorem zip_fst_perm {L : List (Nat × APat)} {qs : List APat} (h : qs ∈ choices (expEach (L.map (·.2)))) :
    ((L.map (·.1)).zip qs).map (·.1) = L.map (·.1) := by
  have := choices_length h
  rw [List.length_map] at this
  exact List.map_fst_zip (by simp [this])

theorem expFields_congr {L : List (Nat × APat)} {f g : List (Nat × APat) → APat}
    (h : ∀ x : List (Nat × APat), x.map (·.1) = L.map (·.1) → f x = g x) : expFields L f = expFields L g := by
  unfold expFields
  exact List.map_congr_left fun qs hqs => h _ (zip_fst_perm hqs)

theorem expFields_perm {R R' : List (Nat × APat)} (hp : R.Perm R') :
    ∀ f : List (Nat × APat) → APat,
      (∀ x y : List (Nat × APat), x.Perm y → (x.map (·.1)).Perm (R.map (·.1)) → f x = f y) →
      (expFields R f).Perm (expFields R' f) := by
  induction hp with
  | nil => intro f _; exact .refl _
  | cons a hp ih =>
    intro f hf
    rw [expFields_cons, expFields_cons]
    refine perm_flatMap_left _ fun q _ => ih _ ?_
    intro x y hxy hx
    exact hf _ _ (hxy.cons _) (by simpa using hx.cons a.1)
  | swap a b l =>
    intro f hf
    simp only [expFields_cons]
    refine (flatMap_swap ..).trans ?_
    refine perm_flatMap_left _ fun q _ => perm_flatMap_left _ fun q' _ => ?_
    rw [expFields_congr]
    intro x hx
    exact hf _ _ (.swap ..) (by simp [hx])
  | trans h1 h2 ih1 ih2 =>
    intro f hf
    refine (ih1 f hf).trans (ih2 f ?_)
    intro x y hxy hx
    exact hf x y hxy (hx.trans (h1.map _).symm)

/-- Fields with the same names and the same or-free patterns up to order, position by position. -/
def Aligned : List (Nat × APat) → List (Nat × APat) → Prop
  | [], [] => True
  | a :: as, b :: bs => a.1 = b.1 ∧ (exp a.2).Perm (exp b.2) ∧ Aligned as bs
  | _, _ => False

theorem expFields_aligned : ∀ {L R : List (Nat × APat)}, Aligned L R → ∀ f, (expFields L f).Perm (expFields R f)
  | [], [], _, f => .refl _
  | a :: as, b :: bs, h, f => by
    obtain ⟨h1, h2, h3⟩ := h
    rw [expFields_cons, expFields_cons, h1]
    refine (h2.flatMap_right _).trans ?_
    exact perm_flatMap_left _ fun q _ => expFields_aligned h3 _
  | [], _ :: _, h, _ => h.elim
  | _ :: _, [], h, _ => h.elim

theorem align : ∀ (L R : List (Nat × APat)), (∀ a ∈ L, ∃ b ∈ R, a.1 = b.1 ∧ (exp a.2).Perm (exp b.2)) →
    (L.map (·.1)).Nodup → R.length ≤ L.length → ∃ R', R.Perm R' ∧ Aligned L R'
  | [], R, _, _, hlen => by
    have : R = [] := List.length_eq_zero_iff.1 (Nat.le_zero.1 hlen)
    subst this; exact ⟨[], .refl _, trivial⟩
  | a :: L, R, h, nd, hlen => by
    obtain ⟨b, hb, h1, h2⟩ := h a (List.mem_cons_self ..)
    obtain ⟨s, t, rfl⟩ := mem_split' hb
    rw [List.map_cons, List.nodup_cons] at nd
    obtain ⟨R', hp, ha⟩ := align L (s ++ t) (fun a' ha' => by
      obtain ⟨b', hb', h1', h2'⟩ := h a' (List.mem_cons_of_mem _ ha')
      rw [List.mem_append, List.mem_cons] at hb'
      rcases hb' with hb' | rfl | hb'
      · exact ⟨b', List.mem_append.2 (.inl hb'), h1', h2'⟩
      · exfalso
        exact nd.1 (List.mem_map.2 ⟨a', ha', h1'.trans h1.symm⟩)
      · exact ⟨b', List.mem_append.2 (.inr hb'), h1', h2'⟩)
      nd.2 (by simp only [List.length_append, List.length_cons] at hlen ⊢; omega)
    exact ⟨b :: R', List.perm_middle.trans (hp.cons b), h1, h2, ha⟩

theorem nameLe_total (a b : Nat × APat) : nameLe a b = true ∨ nameLe b a = true := by
  simp only [nameLe, decide_eq_true_eq]; omega

theorem nameLe_trans (a b c : Nat × APat) (h1 : nameLe a b = true) (h2 : nameLe b c = true) :
    nameLe a c = true := by
  simp only [nameLe, decide_eq_true_eq] at *; omega

theorem nodup_fst_inj {x : List (Nat × APat)} (h : (x.map (·.1)).Nodup) {a b : Nat × APat} (ha : a ∈ x) (hb : b ∈ x)
    (e : a.1 = b.1) : a = b := by
  induction x with
  | nil => simp at ha
  | cons c x ih =>
    rw [List.map_cons, List.nodup_cons] at h
    rcases List.mem_cons.1 ha with ha1 | ha1 <;> rcases List.mem_cons.1 hb with hb1 | hb1
    · rw [ha1, hb1]
    · subst ha1; exact absurd (List.mem_map.2 ⟨b, hb1, e.symm⟩) h.1
    · subst hb1; exact absurd (List.mem_map.2 ⟨a, ha1, e⟩) h.1
    · exact ih h.2 ha1 hb1

theorem canonStruct_perm (c : Nat) (d : Bool) {x y : List (Nat × APat)} (h : x.Perm y) (nd : (x.map (·.1)).Nodup) :
    canonStruct c d x = canonStruct c d y := by
  have : sortBy nameLe x = sortBy nameLe y := by
    have hx := sortBy_sorted nameLe_total nameLe_trans x
    have hy := sortBy_sorted nameLe_total nameLe_trans y
    refine List.Perm.eq_of_pairwise ?_ hx hy ((sortBy_perm _ x).trans (h.trans (sortBy_perm _ y).symm))
    intro a b ha hb h1 h2
    have ha := (sortBy_perm _ x).mem_iff.1 ha
    have hb := h.mem_iff.2 ((sortBy_perm _ y).mem_iff.1 hb)
    simp only [nameLe, decide_eq_true_eq] at h1 h2
    exact nodup_fst_inj nd ha hb (Nat.le_antisymm h1 h2)
  rw [canonStruct, canonStruct, this]

/-- Two struct patterns with the same fields in some order stand for the same. -/
theorem fields_perm (c : Nat) (d : Bool) (L R : List (Nat × APat))
    (h : ∀ a ∈ L, ∃ b ∈ R, a.1 = b.1 ∧ (exp a.2).Perm (exp b.2)) (nd : (L.map (·.1)).Nodup)
    (hlen : R.length ≤ L.length) : (expFields L (canonStruct c d)).Perm (expFields R (canonStruct c d)) := by
  obtain ⟨R', hp, ha⟩ := align L R h nd hlen
  refine (expFields_aligned ha _).trans (expFields_perm hp.symm _ ?_)
  intro x y hxy hx
  have hn : R'.map (·.1) = L.map (·.1) := by
    clear h nd hlen hp hx
    induction L generalizing R' with
    | nil => cases R' with | nil => rfl | cons => exact ha.elim
    | cons a L ih => cases R' with
      | nil => exact ha.elim
      | cons b R' => simp only [List.map_cons, ha.1, ih R' ha.2.2]
  rw [hn] at hx
  exact canonStruct_perm c d hxy (hx.nodup_iff.2 nd)

theorem exp_struct (c : Nat) (fs : List (Nat × Bool)) (ps : List APat) (d : Bool) (h : fs.length = ps.length) :
    exp (.struct c fs ps d) = expFields ((fs.map (·.1)).zip ps) (canonStruct c d) := by
  have h1 : ((fs.map (·.1)).zip ps).map (·.2) = ps := List.map_snd_zip (by simp [h])
  have h2 : ((fs.map (·.1)).zip ps).map (·.1) = fs.map (·.1) := List.map_fst_zip (by simp [h])
  rw [exp, expFields, h1, h2]

end Verif.Unnest
