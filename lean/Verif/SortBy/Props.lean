import Verif.SortBy.Model

/-!
# C127: sorting by a key gives the order of the comparison that it replaces
-/

namespace Verif.SortBy

/-! ## Variables -/

theorem binds_names (I : Sem) (p : Pat) : ∀ c, (binds I p c).map Prod.fst = p.names := by
  induction p <;> intro c <;> simp_all [binds, Pat.names]

theorem look_mem {V : Type} {e : List (Nat × V)} {x : Nat} {v : V}
    (hd : (e.map Prod.fst).Nodup) (h : (x, v) ∈ e) : look e x = some v := by
  induction e with
  | nil => cases h
  | cons a e ih =>
    obtain ⟨y, u⟩ := a
    simp only [List.map_cons, List.nodup_cons] at hd
    rcases List.mem_cons.1 h with h | h
    · cases h
      simp [look]
    · have hne : x ≠ y := by
        intro hxy
        exact hd.1 (hxy ▸ List.mem_map_of_mem (f := Prod.fst) h)
      simp only [look, if_neg hne]
      exact ih hd.2 h

theorem look_none {V : Type} {e : List (Nat × V)} {x : Nat} (h : x ∉ e.map Prod.fst) :
    look e x = none := by
  induction e with
  | nil => rfl
  | cons a e ih =>
    obtain ⟨y, u⟩ := a
    simp only [List.map_cons, List.mem_cons, not_or] at h
    simp only [look, if_neg h.1]
    exact ih h.2

/-! ## The mirrored patterns -/

/-- Both patterns give the two names of the pair the same value when they are matched with the same
value. -/
def Agree (p q : Pat) (t : Pair) : Prop :=
  ∀ (I : Sem) (c : Nat → I.V), ∃ v, (t.l, v) ∈ binds I p c ∧ (t.r, v) ∈ binds I q c

theorem pairs_agree {n : Nat} {p q : Pat} {m m' : Map} (h : pairs n p q m = some m') :
    ∀ t ∈ m', t ∈ m ∨ Agree p q t := by
  fun_induction pairs n p q m generalizing m' with
  | case1 n d ps e qs m hc ih =>
    intro t ht
    rcases ih h t ht with h1 | h1
    · exact .inl h1
    · refine .inr fun I c => ?_
      obtain ⟨rfl, hn⟩ := hc
      simp only [binds, hn]
      exact h1 I _
  | case2 => cases h
  | case3 n x y m =>
    cases h
    intro t ht
    rcases List.mem_cons.1 ht with rfl | ht
    · exact .inr fun I c => ⟨c 0, by simp [binds], by simp [binds]⟩
    · exact .inl ht
  | case4 n x y m =>
    cases h
    intro t ht
    rcases List.mem_cons.1 ht with rfl | ht
    · exact .inr fun I c => ⟨c 0, by simp [binds], by simp [binds]⟩
    · exact .inl ht
  | case5 n x y m =>
    cases h
    intro t ht
    rcases List.mem_cons.1 ht with rfl | ht
    · exact .inr fun I c => ⟨c 0, by simp [binds], by simp [binds]⟩
    · exact .inl ht
  | case6 n x y m =>
    cases h
    intro t ht
    rcases List.mem_cons.1 ht with rfl | ht
    · exact .inr fun I c => ⟨c 0, by simp [binds], by simp [binds]⟩
    · exact .inl ht
  | case7 => cases h; exact fun t ht => .inl ht
  | case8 n _ d ps _ e qs m hc ih =>
    intro t ht
    rcases ih h t ht with h1 | h1
    · exact .inl h1
    · refine .inr fun I c => ?_
      obtain ⟨rfl, hn⟩ := hc
      simp only [binds, hn]
      exact h1 I _
  | case9 => cases h
  | case10 n _ d ps _ e qs m hc ih =>
    intro t ht
    rcases ih h t ht with h1 | h1
    · exact .inl h1
    · exact .inr fun I c => h1 I _
  | case11 => cases h
  | case12 n f p q m ih =>
    intro t ht
    rcases ih h t ht with h1 | h1
    · exact .inl h1
    · exact .inr fun I c => h1 I _
  | case13 => cases h
  | case14 n p q m ih =>
    intro t ht
    rcases ih h t ht with h1 | h1
    · exact .inl h1
    · exact .inr fun I c => h1 I _
  | case15 n a b c d m hc m1 h1 iha ihb =>
    intro t ht
    rcases ihb h t ht with h2 | h2
    · rcases iha h1 t h2 with h3 | h3
      · exact .inl h3
      · refine .inr fun I e => ?_
        obtain ⟨v, hv, hw⟩ := h3 I (fun i => I.front i (e 0))
        exact ⟨v, by simp only [binds, List.mem_append]; exact .inl hv,
          by simp only [binds, List.mem_append]; exact .inl hw⟩
    · refine .inr fun I e => ?_
      obtain ⟨v, hv, hw⟩ := h2 I (fun i => I.back b.count i (e 0))
      exact ⟨v, by simp only [binds, List.mem_append]; exact .inr hv,
        by simp only [binds, List.mem_append, ← hc.2]; exact .inr hw⟩
  | case16 => cases h
  | case17 => cases h
  | case18 => cases h; exact fun t ht => .inl ht
  | case19 n p ps q qs m m1 h1 ihp ihps =>
    intro t ht
    rcases ihps h t ht with h2 | h2
    · rcases ihp h1 t h2 with h3 | h3
      · exact .inl h3
      · refine .inr fun I e => ?_
        obtain ⟨v, hv, hw⟩ := h3 I (fun _ => e 0)
        exact ⟨v, by simp only [binds, List.mem_append]; exact .inl hv,
          by simp only [binds, List.mem_append]; exact .inl hw⟩
    · refine .inr fun I e => ?_
      obtain ⟨v, hv, hw⟩ := h2 I (fun i => e (i + 1))
      exact ⟨v, by simp only [binds, List.mem_append]; exact .inr hv,
        by simp only [binds, List.mem_append]; exact .inr hw⟩
  | case20 => cases h
  | case21 => cases h

/-- A pattern under `k` references. -/
def underRefs : Nat → Pat → Pat
  | 0, p => p
  | k + 1, p => .ref (underRefs k p)

/-- **C127.** The references above a name are counted (the type of the name has that many references less). -/
theorem refs_counted (k n : Nat) (x y) (m : Map) :
    pairs n (underRefs k (.bind x)) (underRefs k (.bind y)) m = some (⟨x, y, n + k⟩ :: m) := by
  induction k generalizing n with
  | zero => simp [underRefs, pairs]
  | succ k ih =>
    simp only [underRefs, pairs]
    rw [ih]
    simp only [Option.some.injEq, List.cons.injEq, and_true]
    congr 1
    omega

theorem pairs_mono {n : Nat} {p q : Pat} {m m' : Map} (h : pairs n p q m = some m') :
    ∀ t ∈ m, t ∈ m' := by
  fun_induction pairs n p q m generalizing m' <;> simp_all
  all_goals
    first
    | (cases h; intro t ht; exact List.mem_cons_of_mem _ ht)
    | skip

theorem pairs_cover {n : Nat} {p q : Pat} {m m' : Map} (h : pairs n p q m = some m')
    (hp : p.noSub = true) (hq : q.noSub = true) :
    (∀ x ∈ p.names, ∃ t ∈ m', t.l = x) ∧ (∀ x ∈ q.names, ∃ t ∈ m', t.r = x) := by
  fun_induction pairs n p q m generalizing m'
  case case15 n a b c d m hc m1 h1 ih1 ih2 =>
    simp only [Pat.noSub, Bool.and_eq_true] at hp hq
    have h2 := ih1 h1 hp.1 hq.1
    have h3 := ih2 h hp.2 hq.2
    have hmono := pairs_mono h
    constructor
    · intro x hx
      rcases List.mem_append.1 hx with hx | hx
      · obtain ⟨t, ht, hl⟩ := h2.1 x hx
        exact ⟨t, hmono t ht, hl⟩
      · exact h3.1 x hx
    · intro x hx
      rcases List.mem_append.1 hx with hx | hx
      · obtain ⟨t, ht, hl⟩ := h2.2 x hx
        exact ⟨t, hmono t ht, hl⟩
      · exact h3.2 x hx
  case case19 n p ps q qs m m1 h1 ih1 ih2 =>
    simp only [Pat.noSub, Bool.and_eq_true] at hp hq
    have h2 := ih1 h1 hp.1 hq.1
    have h3 := ih2 h hp.2 hq.2
    have hmono := pairs_mono h
    constructor
    · intro x hx
      rcases List.mem_append.1 hx with hx | hx
      · obtain ⟨t, ht, hl⟩ := h2.1 x hx
        exact ⟨t, hmono t ht, hl⟩
      · exact h3.1 x hx
    · intro x hx
      rcases List.mem_append.1 hx with hx | hx
      · obtain ⟨t, ht, hl⟩ := h2.2 x hx
        exact ⟨t, hmono t ht, hl⟩
      · exact h3.2 x hx
  all_goals simp_all [Pat.noSub, Pat.names]
  cases h
  exact ⟨⟨_, List.mem_cons_self, rfl⟩, _, List.mem_cons_self, rfl⟩

/-! ## The mirrored expressions -/

theorem sameNames_eq {s t : List Seg} (h : sameNames s t = true)
    (hk : s.map (fun x : Seg => (⟨0, x.gen⟩ : Seg)) = t.map (fun x : Seg => (⟨0, x.gen⟩ : Seg))) : s = t := by
  induction s generalizing t with
  | nil => cases t with
    | nil => rfl
    | cons b t => simp at hk
  | cons a s ih => cases t with
    | nil => simp at hk
    | cons b t =>
      simp only [sameNames, Bool.and_eq_true, beq_iff_eq] at h
      simp only [List.map_cons, List.cons.injEq, Seg.mk.injEq, true_and] at hk
      obtain ⟨n, g⟩ := a
      obtain ⟨n', g'⟩ := b
      simp only at h hk
      rw [ih h.2 hk.2, h.1, hk.1]

/-- Two environments that give mirrored names the same value. -/
structure Mirror {V : Type} (m : Map) (src : Source) (e f : List (Nat × V)) : Prop where
  same : ∀ x y, get m x src = some y → look e x = look f y ∧ (look e x).isSome = true
  free : ∀ x, bound m x = false → look e x = none ∧ look f x = none

theorem path_mirror (I : Sem) {m : Map} {src : Source} {e f : List (Nat × I.V)}
    (hm : Mirror m src e f) {s t : List Seg} (h : mirroredPath m src s t = true)
    (hk : skel (.path s) = skel (.path t)) (w : I.W) : evalPath I e s w = evalPath I f t w := by
  simp only [skel, Ex.path.injEq] at hk
  simp only [mirroredPath, Bool.or_eq_true, Bool.and_eq_true] at h
  rcases h with ⟨h1, h2⟩ | h
  · obtain rfl := sameNames_eq h1 hk
    unfold evalPath
    split
    · rename_i x
      have := hm.free x.name (by simpa using h2)
      rw [this.1, this.2]
    · rfl
  · unfold partners at h
    split at h
    · rename_i a b
      have := hm.same a.name b.name (by simpa using h)
      simp only [evalPath, ← this.1]
      obtain ⟨v, hv⟩ := Option.isSome_iff_exists.1 this.2
      rw [hv]
      rfl
    · cases h

theorem eval_mirror (I : Sem) {m : Map} {src : Source} {e f : List (Nat × I.V)}
    (hm : Mirror m src e f) {a b : Ex} (h : mirrored m src a b = true) (hk : skel a = skel b) :
    ∀ w, eval I e a w = eval I f b w := by
  fun_induction mirrored m src a b
  all_goals try simp only [skel, Ex.cons.injEq, Ex.arr.injEq, Ex.call.injEq, Ex.meth.injEq, Ex.tup.injEq,
    Ex.bin.injEq, Ex.un.injEq, Ex.cast.injEq, Ex.field.injEq, Ex.bor.injEq, Seg.mk.injEq, true_and,
    Bool.and_eq_true, beq_iff_eq] at h hk
  all_goals try simp_all [eval]
  case case1 b =>
    intro w
    cases b <;> simp_all [skel, eval]
  case case7 s r x t q y _ _ =>
    obtain ⟨n, g⟩ := s
    obtain ⟨n', g'⟩ := t
    simp_all
  case case14 s t => exact path_mirror I hm h (by simp only [skel, hk])
  case case15 k x j y ih =>
    intro w
    obtain ⟨rfl, _⟩ := hk
    cases k <;> simp_all [eval]
  case case16 x k y h1 h2 h3 _ =>
    cases x <;> simp_all [skel]
  case case17 k x y h3 _ =>
    cases y <;> simp_all [skel]

theorem bare_id {a : Ex} (h : ∀ k x, a ≠ .bor k x) : bare a = a := by
  cases a <;> simp_all [bare]

theorem bare_mirror {m : Map} {src : Source} {a b : Ex} (h : mirrored m src a b = true) :
    mirrored m src (bare a) (bare b) = true := by
  fun_induction mirrored m src a b
  case case15 k x j y ih =>
    simp only [Bool.and_eq_true, beq_iff_eq] at h
    obtain ⟨rfl, h⟩ := h
    cases k
    · exact ih h
    · simp only [bare]
      rw [mirrored]
      simp [h]
  case case16 x k y h1 h2 h3 ih =>
    cases k
    · exact ih h
    · rw [bare_id (fun k e he => h3 k e he)]
      simp only [bare]
      rw [mirrored] <;> assumption
  case case17 k x y h3 ih =>
    cases k
    · exact ih h
    · rw [bare_id (fun k e he => h3 k e he)]
      simp only [bare]
      rw [mirrored] <;> assumption
  case case18 => cases h
  case case1 => simp [bare, mirrored]
  case case4 => cases h
  case case3 => simp [bare, mirrored]
  all_goals
    simp only [bare]
    rw [mirrored]
    exact h

/-! ## References do not matter for a comparison -/

theorem eval_bare (I : Sem) (env : List (Nat × I.V)) (a : Ex) : ∀ w,
    (eval I env a w).2 = (eval I env (bare a) w).2 ∧
    (∀ v, I.cmp (eval I env a w).1 v = I.cmp (eval I env (bare a) w).1 v) ∧
    (∀ v, I.cmp v (eval I env a w).1 = I.cmp v (eval I env (bare a) w).1) := by
  intro w
  fun_induction bare a with
  | case1 e ih => simp only [eval, I.cmp_ref, I.ref_cmp]; exact ih
  | case2 e _ => exact ⟨rfl, fun _ => rfl, fun _ => rfl⟩

/-! ## Parameters -/

/-- The two parameters of a closure, in mirrored patterns without `@`, with different names. -/
structure Fits (p q : Pat) (m : Map) : Prop where
  map : mapping p q = some m
  names : (p.names ++ q.names).Nodup
  subl : p.noSub = true
  subr : q.noSub = true

theorem get_left {m : Map} {x y : Nat} (h : get m x .left = some y) : ∃ t ∈ m, t.l = x ∧ t.r = y := by
  simp only [get, Option.map_eq_some_iff] at h
  obtain ⟨t, ht, rfl⟩ := h
  exact ⟨t, List.mem_of_find?_eq_some ht, by simpa using List.find?_some ht, rfl⟩

theorem get_right {m : Map} {x y : Nat} (h : get m x .right = some y) : ∃ t ∈ m, t.r = x ∧ t.l = y := by
  simp only [get, Option.map_eq_some_iff] at h
  obtain ⟨t, ht, rfl⟩ := h
  exact ⟨t, List.mem_of_find?_eq_some ht, by simpa using List.find?_some ht, rfl⟩

theorem not_bound {p q : Pat} {m : Map} (hf : Fits p q m) {x : Nat} (h : bound m x = false) :
    x ∉ p.names ++ q.names := by
  intro hx
  have hc := pairs_cover hf.map hf.subl hf.subr
  simp only [bound, get, Bool.or_eq_false_iff, Option.isSome_map] at h
  rcases List.mem_append.1 hx with hx | hx
  · obtain ⟨t, ht, hl⟩ := hc.1 x hx
    have := List.find?_isSome (p := fun t : Pair => decide (t.l = x)) (xs := m) |>.2 ⟨t, ht, by simpa using hl⟩
    rw [this] at h
    exact absurd h.1 (by decide)
  · obtain ⟨t, ht, hl⟩ := hc.2 x hx
    have := List.find?_isSome (p := fun t : Pair => decide (t.r = x)) (xs := m) |>.2 ⟨t, ht, by simpa using hl⟩
    rw [this] at h
    exact absurd h.2 (by decide)

/-- An environment with the variables of the pattern, for this value. -/
def Has {I : Sem} (p : Pat) (v : I.V) (e : List (Nat × I.V)) : Prop :=
  ∀ x u, (x, u) ∈ param I p v → look e x = some u

/-- An environment without other variables. -/
def Only {I : Sem} (p q : Pat) (e : List (Nat × I.V)) : Prop :=
  ∀ x, x ∉ p.names ++ q.names → look e x = none

theorem mirror_left {I : Sem} {p q : Pat} {m : Map} (hf : Fits p q m) {v : I.V}
    {e f : List (Nat × I.V)} (he : Has p v e) (hg : Has q v f) (oe : Only p q e) (og : Only p q f) :
    Mirror m .left e f := by
  constructor
  · intro x y h
    obtain ⟨t, ht, rfl, rfl⟩ := get_left h
    rcases pairs_agree hf.map t ht with h1 | h1
    · cases h1
    · obtain ⟨u, h2, h3⟩ := h1 I (fun _ => v)
      rw [he _ u h2, hg _ u h3]
      exact ⟨rfl, rfl⟩
  · intro x h
    have := not_bound hf h
    exact ⟨oe x this, og x this⟩

theorem mirror_right {I : Sem} {p q : Pat} {m : Map} (hf : Fits p q m) {v : I.V}
    {e f : List (Nat × I.V)} (he : Has q v e) (hg : Has p v f) (oe : Only p q e) (og : Only p q f) :
    Mirror m .right e f := by
  constructor
  · intro x y h
    obtain ⟨t, ht, rfl, rfl⟩ := get_right h
    rcases pairs_agree hf.map t ht with h1 | h1
    · cases h1
    · obtain ⟨u, h2, h3⟩ := h1 I (fun _ => v)
      rw [he _ u h3, hg _ u h2]
      exact ⟨rfl, rfl⟩
  · intro x h
    have := not_bound hf h
    exact ⟨oe x this, og x this⟩

theorem param_names (I : Sem) (p : Pat) (v : I.V) : (param I p v).map Prod.fst = p.names :=
  binds_names I p _

variable {I : Sem} {p q : Pat}

theorem has_left (hn : (p.names ++ q.names).Nodup) (v : I.V) : Has p v (param I p v) := by
  intro x u h
  refine look_mem ?_ h
  rw [param_names]
  exact (List.nodup_append.1 hn).1

theorem has_right (hn : (p.names ++ q.names).Nodup) (v : I.V) : Has q v (param I q v) := by
  intro x u h
  refine look_mem ?_ h
  rw [param_names]
  exact (List.nodup_append.1 hn).2.1

theorem has_both (hn : (p.names ++ q.names).Nodup) (v u : I.V) :
    Has p v (param I p v ++ param I q u) ∧ Has q u (param I p v ++ param I q u) := by
  have hd : ((param I p v ++ param I q u).map Prod.fst).Nodup := by
    rw [List.map_append, param_names, param_names]
    exact hn
  exact ⟨fun x w h => look_mem hd (List.mem_append_left _ h),
    fun x w h => look_mem hd (List.mem_append_right _ h)⟩

theorem only_left (v : I.V) : Only p q (param I p v) := fun x h =>
  look_none (by rw [param_names]; exact fun hx => h (List.mem_append_left _ hx))

theorem only_right (v : I.V) : Only p q (param I q v) := fun x h =>
  look_none (by rw [param_names]; exact fun hx => h (List.mem_append_right _ hx))

theorem only_both (v u : I.V) : Only p q (param I p v ++ param I q u) := fun x h =>
  look_none (by rw [List.map_append, param_names, param_names]; exact h)

/-! ## The two sides, as keys -/

theorem left_key {m : Map} (hf : Fits p q m) {l r : Ex} (h : mirrored m .left l r = true)
    (hk : skel l = skel r) (a b : I.V) (w : I.W) :
    eval I (param I p a ++ param I q b) l w = eval I (param I p a) l w ∧
    eval I (param I p a ++ param I q b) r w = eval I (param I p b) l w := by
  have hb := has_both (I := I) hf.names a b
  constructor
  · rw [eval_mirror I (mirror_left hf hb.1 (has_right hf.names a) (only_both a b) (only_right a)) h hk,
      eval_mirror I (mirror_left hf (has_left hf.names a) (has_right hf.names a) (only_left a)
        (only_right a)) h hk]
  · rw [eval_mirror I (mirror_left hf (has_left hf.names b) hb.2 (only_left b) (only_both a b)) h hk]

theorem right_key {m : Map} (hf : Fits p q m) {l r : Ex} (h : mirrored m .right l r = true)
    (hk : skel l = skel r) (a b : I.V) (w : I.W) :
    eval I (param I p a ++ param I q b) l w = eval I (param I p b) r w ∧
    eval I (param I p a ++ param I q b) r w = eval I (param I p a) r w := by
  have hb := has_both (I := I) hf.names a b
  constructor
  · rw [eval_mirror I (mirror_right hf hb.2 (has_left hf.names b) (only_both a b) (only_left b)) h hk]
  · rw [← eval_mirror I (mirror_right hf (has_right hf.names a) hb.1 (only_right a) (only_both a b)) h hk,
      eval_mirror I (mirror_right hf (has_right hf.names a) (has_left hf.names a) (only_right a)
        (only_left a)) h hk]

theorem key_less {m : Map} (hf : Fits p q m) {l r : Ex} (h : mirrored m .left l r = true)
    (hk : skel (bare l) = skel (bare r)) (star : Bool) :
    less I (.by p q l r) = less I (.key p l star) := by
  funext a b w
  have hb := bare_mirror h
  have hl := fun w => (left_key (I := I) hf hb hk a b w).1
  have hr := fun w => (left_key (I := I) hf hb hk a b w).2
  simp only [less, keyOf]
  have e1 := fun env w => (eval_bare I env l w).1
  have e2 := fun env w => (eval_bare I env l w).2.1
  have e3 := fun env w => (eval_bare I env l w).2.2
  have f1 := fun env w => (eval_bare I env r w).1
  have f3 := fun env w => (eval_bare I env r w).2.2
  cases star
  · simp only [Bool.false_eq_true, if_false]
    rw [f3, f1, e2, e1, e2, e3, e1 (param I p b), e1 (param I p a), hl, hr]
  · simp only [if_true, I.cmp_deref, I.deref_cmp]
    rw [f3, f1, e2, e1, e2, e3, e1 (param I p b), e1 (param I p a), hl, hr]

theorem rev_less {m : Map} (hf : Fits p q m) (hp : Pure I) {l r e : Ex}
    (h : mirrored m .right l r = true) (hk : skel (bare l) = skel (bare r)) (he : bare e = bare r) :
    less I (.by p q l r) = less I (.rev p e) := by
  funext a b w
  have hb := bare_mirror h
  have hl := fun w => (right_key (I := I) hf hb hk a b w).1
  have hr := fun w => (right_key (I := I) hf hb hk a b w).2
  simp only [less, keyOf, Bool.false_eq_true, if_false]
  have w1 := fun env e w => hp env e w
  have e2 := fun env w => (eval_bare I env l w).2.1
  have f3 := fun env w => (eval_bare I env r w).2.2
  have g2 := fun env w => (eval_bare I env e w).2.1
  have g3 := fun env w => (eval_bare I env e w).2.2
  simp only [w1]
  rw [e2, f3, g2, g3, he, hl, hr]

/-! ## `sort` -/

theorem mirrored_name {m : Map} {src : Source} {s : Seg} {r : Ex}
    (h : mirrored m src (.path [s]) r = true) (hb : bound m s.name = true) (hr : ∀ e, bare r ≠ .bor true e) :
    ∃ t : Seg, bare r = .path [t] ∧ get m s.name src = some t.name := by
  have h1 := bare_mirror h
  simp only [bare] at h1
  cases he : bare r with
  | path t =>
    rw [he, mirrored] at h1
    simp only [mirroredPath, List.all_cons, hb, Bool.not_true, List.all_nil, Bool.false_and, Bool.and_false,
      Bool.false_or] at h1
    cases t with
    | nil => simp [partners] at h1
    | cons b t => cases t with
      | nil => exact ⟨b, rfl, by simpa [partners] using h1⟩
      | cons _ _ => simp [partners] at h1
  | bor k e =>
    cases k with
    | true => exact absurd he (hr e)
    | false =>
      exfalso
      clear h h1 hr hb
      induction r <;> simp_all [bare]
      rename_i k _ _
      cases k <;> simp_all [bare]
  | _ => rw [he] at h1; simp [mirrored] at h1

theorem sort_less {m : Map} (hm : mapping p q = some m) (hn : (p.names ++ q.names).Nodup)
    {src : Source} {s : Seg} {r : Ex} (hx : bindingName p = some s.name)
    (h : mirrored m src (.path [s]) r = true) (hr : ∀ e, bare r ≠ .bor true e) :
    src = .left ∧ less I (.by p q (.path [s]) r) = less I .plain := by
  obtain ⟨y, hm', hq⟩ : ∃ y, m = [⟨s.name, y, 0⟩] ∧ bindingName q = some y := by
    cases p <;> simp only [bindingName, Option.some.injEq, reduceCtorEq] at hx <;>
      cases q <;> simp_all [mapping, pairs, bindingName] 
  subst hm'
  have hpn : s.name ∈ p.names := by
    cases p <;> simp_all [bindingName, Pat.names]
  have hqn : y ∈ q.names := by
    cases q <;> simp_all [bindingName, Pat.names]
  have hne : s.name ≠ y := fun hxy => (List.nodup_append.1 hn).2.2 _ hpn _ hqn hxy
  obtain ⟨t, ht, hg⟩ := mirrored_name h (by simp [bound, get]) hr
  cases src with
  | right => simp [get, Ne.symm hne] at hg
  | left =>
    refine ⟨rfl, ?_⟩
    have hty : t.name = y := by simpa [get, eq_comm] using hg
    funext a b w
    have hb := has_both (I := I) hn a b
    have ha1 : look (param I p a ++ param I q b) s.name = some a :=
      hb.1 _ _ (by cases p <;> simp_all [bindingName, param, binds])
    have hb1 : look (param I p a ++ param I q b) y = some b :=
      hb.2 _ _ (by cases q <;> simp_all [bindingName, param, binds])
    simp only [less]
    rw [(eval_bare I _ r _).2.2, (eval_bare I _ r _).1, ht]
    simp only [eval, evalPath, ha1, hty, hb1, Option.getD_some]

/-! ## The suggestion -/

theorem same_of_less {h g : How} (e : less I h = less I g) : SameSort I h g :=
  fun _ algorithm => congrArg algorithm e

/-- **C127.** `sort()` sorts as the comparison does, in full: for all patterns with different names, all
expressions, all programs. (The argument of `cmp` is a reference, not a raw pointer.) -/
theorem sort_same {t : Tys} {l r : Ex} {g : Trigger} (h : detect t p q l r = some g) (hg : g.how = .plain)
    (hn : (p.names ++ q.names).Nodup) (hr : ∀ e, bare r ≠ .bor true e) : SameSort I (.by p q l r) .plain := by
  unfold detect at h
  split at h
  · cases h
  rename_i m hm
  split at h
  · cases h
  rename_i body rev hb
  have hgen : general t p l body rev ≠ some g := by
    intro hc
    unfold general at hc
    split at hc
    · cases hc
      cases rev <;> simp at hg
    · cases hc
  split at h
  · exact absurd h hgen
  rename_i x hx
  obtain ⟨s, rfl, rfl⟩ : ∃ s : Seg, l = .path [s] ∧ x = s.name := by
    unfold singleName at hx
    split at hx
    · cases hx
      exact ⟨_, rfl, rfl⟩
    · cases hx
  split at h
  · rename_i hc
    refine same_of_less ?_
    unfold keyBody at hb
    split at hb
    · rename_i h1
      exact (sort_less hm hn hc.1 h1 hr).2
    · split at hb
      · rename_i h1
        exact (sort_less hm hn hc.1 h1 hr).2
      · cases hb
  · split at h
    · cases h
      simp at hg
    · exact absurd h hgen

/-- **C127 (partial).** A suggestion that is machine-applicable sorts as the comparison does — every
question has the same answer and the same effects, in the same order. A reversed one does for keys without
effects. Missing: patterns with `@`, and sides that differ in generic arguments, types of casts, inner
borrows or the numbers of elements and segments (see the counterexamples). -/
theorem sorted_partial {t : Tys} {l r : Ex} {g : Trigger} (h : detect t p q l r = some g)
    (hn : (p.names ++ q.names).Nodup) (hp : p.noSub = true) (hq : q.noSub = true)
    (hk : skel (bare l) = skel (bare r)) (hr : ∀ e, bare r ≠ .bor true e) (he : g.machine = true ∨ Pure I) :
    SameSort I (.by p q l r) g.how := by
  by_cases hpl : g.how = .plain
  · rw [hpl]
    exact sort_same h hpl hn hr
  unfold detect at h
  split at h
  · cases h
  rename_i m hm
  have hf : Fits p q m := ⟨hm, hn, hp, hq⟩
  split at h
  · cases h
  rename_i body rev hb
  have hkey : rev = false → mirrored m .left l r = true ∧ body = l := by
    intro hv
    subst hv
    unfold keyBody at hb
    split at hb
    · rename_i h1
      cases hb
      exact ⟨h1, rfl⟩
    · split at hb <;> cases hb
  have hrev : rev = true → mirrored m .right l r = true ∧ bare body = bare r := by
    intro hv
    subst hv
    unfold keyBody at hb
    split at hb
    · cases hb
    · split at hb
      · rename_i h1
        refine ⟨h1, ?_⟩
        simp only [Option.some.injEq, Prod.mk.injEq, and_true] at hb
        rw [← hb]
        cases r with
        | bor k e =>
          cases k
          · rfl
          · exact absurd rfl (hr e)
        | borMut e =>
          have h2 := bare_mirror h1
          rw [show bare (.borMut e) = .borMut e from rfl] at h2 hk
          cases hbl : bare l <;> rw [hbl] at h2 hk <;> simp [skel, mirrored] at h2 hk
        | _ => rfl
      · cases hb
  have hgen : general t p l body rev = some g → SameSort I (.by p q l r) g.how := by
    intro hc
    unfold general at hc
    split at hc
    · cases hc
      cases rev with
      | false =>
        obtain ⟨h1, rfl⟩ := hkey rfl
        exact same_of_less (key_less hf h1 hk false)
      | true =>
        obtain ⟨h1, h2⟩ := hrev rfl
        rcases he with he | he
        · simp at he
        · exact same_of_less (rev_less hf he h1 hk h2)
    · cases hc
  split at h
  · exact hgen h
  split at h
  · cases h
    exact absurd rfl hpl
  · split at h
    · rename_i hc
      cases h
      obtain ⟨h1, rfl⟩ := hkey hc.1
      exact same_of_less (key_less hf h1 hk _)
    · exact hgen h

/-- A suggestion with `Reverse` is never machine-applicable. -/
theorem reversed_marked {t : Tys} {l r : Ex} {g : Trigger} {e : Ex} {p' : Pat}
    (h : detect t p q l r = some g) (hg : g.how = .rev p' e) : g.machine = false := by
  have hgen : ∀ body rev, general t p l body rev = some g → g.machine = false := by
    intro body rev hc
    unfold general at hc
    split at hc
    · cases hc
      cases rev <;> simp_all
    · cases hc
  unfold detect at h
  split at h
  · cases h
  split at h
  · cases h
  split at h
  · exact hgen _ _ h
  split at h
  · cases h
    simp at hg
  · split at h
    · cases h
      simp at hg
    · exact hgen _ _ h

theorem sameNames_self (s : List Seg) : sameNames s s = true := by
  induction s with
  | nil => rfl
  | cons a s ih => simp [sameNames, ih]

theorem ren_path {x y : Nat} (hxy : x ≠ y) {s : List Seg} (h : okPath x y s = true) :
    mirroredPath [⟨x, y, 0⟩] .left s (renPath x y s) = true ∧
      mirroredPath [⟨x, y, 0⟩] .right (renPath x y s) s = true := by
  simp only [okPath, Bool.or_eq_true, Bool.and_eq_true, beq_iff_eq] at h
  rcases h with ⟨h1, h2⟩ | h
  · match s, h1 with
    | [a], _ =>
      obtain ⟨n, g⟩ := a
      simp only [List.all_cons, List.all_nil, Bool.and_true, beq_iff_eq] at h2
      subst h2
      simp [renPath, mirroredPath, partners, get]
  · have hr : renPath x y s = s := by
      unfold renPath
      split
      · rename_i a
        have : a.name ≠ x := by simp_all
        rw [if_neg this]
      · rfl
    have hb : s.all (fun a => !bound [⟨x, y, 0⟩] a.name) = true := by
      rw [List.all_eq_true] at h ⊢
      intro a ha
      have := h a ha
      simp only [Bool.and_eq_true, bne_iff_ne, ne_eq] at this
      simp [bound, get, Ne.symm this.1, Ne.symm this.2]
    rw [hr]
    simp only [mirroredPath, sameNames_self, hb, Bool.and_self, Bool.true_or, and_self]

theorem ren_mirrored {x y : Nat} (hxy : x ≠ y) (e : Ex) (h : simple x y e = true) :
    mirrored [⟨x, y, 0⟩] .left e (ren x y e) = true ∧ mirrored [⟨x, y, 0⟩] .right (ren x y e) e = true := by
  induction e with
  | path s =>
    simp only [ren]
    rw [mirrored, mirrored]
    exact ren_path hxy h
  | _ => simp_all [ren, simple, mirrored]

/-- Every pair of mirrored simple expressions is reported: by `x`, with `y` in place of `x` on the other side,
unless the type of the key borrows or a field would be moved. -/
theorem mirrored_found {t : Tys} {x y : Nat} (hxy : x ≠ y) {e : Ex} (h : simple x y e = true)
    (h1 : t.borrows e = false) (h2 : isField e = true → t.copy e = true) (h3 : singleName e = none)
    (h4 : ∀ k a, e ≠ .bor k a) (h5 : ∀ a b, e ≠ .cons a b) :
    detect t (.bind x) (.bind y) e (.bor false (ren x y e)) = some ⟨.key (.bind x) e false, true⟩ := by
  have hm : mirrored [⟨x, y, 0⟩] .left e (.bor false (ren x y e)) = true := by
    have := (ren_mirrored hxy e h).1
    unfold mirrored
    split <;> simp_all [ren]
  have hc : (!t.borrows e && (!isField e || t.copy e)) = true := by
    cases hf : isField e <;> simp_all
  simp only [detect, mapping, pairs, keyBody, hm, if_true, h3, general, hc, Bool.false_eq_true, if_false, Bool.not_false]

/-- The suggested method keeps the order of equal elements if and only if the one that was used does. -/
theorem stability (g : How) :
    (method false g).stable = Method.sortBy.stable ∧ (method true g).stable = Method.sortUnstableBy.stable := by
  cases g <;> exact ⟨rfl, rfl⟩

/-! ## Examples and counterexamples -/

/-- A small language: a value is a number behind so many references; a call gives the sum of the function,
its arguments and the references of the first one; a method also adds the state, a counter, which grows by
`k`. -/
def demoBy (k : Nat) : Sem where
  V := Nat × Nat
  W := Nat
  lit n := (0, n)
  item s _ := (0, s.length + (s.map Seg.gen).sum)
  call f x w := ((0, f.2 + x.1 + x.2), w)
  meth _ r x w := ((0, r.2 + x.2 + w), w + k)
  tup v := v
  arr v := v
  skip _ _ := none
  bin _ a b w := ((0, a.2 + b.2), w)
  un _ v w := (v, w)
  cast t v := (0, v.2 % t)
  field _ v := v
  ref v := (v.1 + 1, v.2)
  raw v := v
  refMut v w := (v, w)
  other _ _ w := ((0, 0), w)
  nil := (0, 0)
  cons a b := (a.1, a.2 + b.2)
  part _ _ _ v := v
  front _ v := v
  back _ _ v := v
  deref v := (v.1 - 1, v.2)
  cmp a b w := (compare a.2 b.2, w)
  cmp_ref _ _ := rfl
  ref_cmp _ _ := rfl
  cmp_deref _ _ := rfl
  deref_cmp _ _ := rfl

/-- The language with effects. -/
abbrev demo : Sem := demoBy 1

/-- All types are `Copy` and `Ord`, none borrows. -/
def easy : Tys := ⟨fun _ => true, fun _ _ => true, fun _ => false, fun _ => true⟩

/-- A name. -/
def nm (x : Nat) : Ex := .path [⟨x, 0⟩]

theorem differ {h g : How} (a b : Nat × Nat) (w : Nat)
    (hd : ((less demo h a b w).1 == (less demo g a b w).1) = false) : ¬ SameSort demo h g := by
  intro hs
  rw [hs _ (fun f => (f a b w).1), beq_self_eq_true] at hd
  cases hd

/-- `|(_, k), (_, j)| k.len().cmp(&j.len())` becomes `|(_, k)| k.len()`. -/
example :
    let p := Pat.tup none (.cons .wild (.cons (.bind 0) .nil))
    let q := Pat.tup none (.cons .wild (.cons (.bind 1) .nil))
    let l := Ex.meth ⟨5, 0⟩ (nm 0) .nil
    let r := Ex.bor false (.meth ⟨5, 0⟩ (nm 1) .nil)
    detect easy p q l r = some ⟨.key p l false, true⟩ ∧ (p.names ++ q.names).Nodup ∧
      skel (bare l) = skel (bare r) := by
  refine ⟨?_, by decide, by decide⟩
  simp [detect, mapping, pairs, Pat.count, keyBody, mirrored, mirroredPath, sameNames, partners, nm, get, singleName,
    general, isField, easy, bound, nm]

/-- `|a, b| b.x.cmp(&a.x)` becomes `|a| Reverse(a.x)`. -/
example : detect easy (.bind 0) (.bind 1) (.field (nm 1) 7) (.bor false (.field (nm 0) 7)) =
    some ⟨.rev (.bind 0) (.field (nm 0) 7), false⟩ := by
  simp [detect, mapping, pairs, keyBody, mirrored, mirroredPath, sameNames, partners, nm, get, singleName,
    general, isField, easy, bound, peelOne]

/-- `|a, b| a.cmp(b)` becomes `sort()`. -/
example : detect easy (.bind 0) (.bind 1) (nm 0) (nm 1) = some ⟨.plain, true⟩ := by
  simp [detect, mapping, pairs, keyBody, mirrored, mirroredPath, sameNames, partners, nm, get, singleName,
    easy, bindingName]

/-- `|a, b| a.cmp(a)` is not reported. -/
example : detect easy (.bind 0) (.bind 1) (nm 0) (nm 0) = none := by
  simp [detect, mapping, pairs, keyBody, mirrored, mirroredPath, sameNames, partners, nm, get, bound]

/-- FINDING: the types of casts are not compared. `(a as u8 as u32).cmp(&(b as u16 as u32))` becomes the key
`a as u8 as u32` (machine-applicable). -/
theorem cast_lost :
    let l := Ex.cast (.cast (nm 0) 8) 32
    let r := Ex.bor false (.cast (.cast (nm 1) 16) 32)
    detect easy (.bind 0) (.bind 1) l r = some ⟨.key (.bind 0) l false, true⟩ ∧
      ¬ SameSort demo (.by (.bind 0) (.bind 1) l r) (.key (.bind 0) l false) := by
  refine ⟨?_, differ (0, 0) (0, 8) 0 (by decide)⟩
  simp [detect, mapping, pairs, keyBody, mirrored, mirroredPath, sameNames, partners, nm, get, singleName,
    general, isField, easy]

/-- FINDING: a borrow inside is dropped. `size_of_val(a).cmp(&size_of_val(&b))` becomes the key
`size_of_val(a)`, but the right side is the size of a reference. -/
theorem borrow_lost :
    let l := Ex.call (nm 9) (.cons (nm 0) .nil)
    let r := Ex.bor false (.call (nm 9) (.cons (.bor false (nm 1)) .nil))
    detect easy (.bind 0) (.bind 1) l r = some ⟨.key (.bind 0) l false, true⟩ ∧
      ¬ SameSort demo (.by (.bind 0) (.bind 1) l r) (.key (.bind 0) l false) := by
  refine ⟨?_, differ (0, 0) (0, 0) 0 (by decide)⟩
  simp [detect, mapping, pairs, keyBody, mirrored, mirroredPath, sameNames, partners, nm, get, singleName,
    general, isField, easy, bound]

/-- FINDING: generic arguments are not compared. `f::<A>(a).cmp(&f::<B>(b))` becomes the key `f::<A>(a)`. -/
theorem generics_lost :
    let l := Ex.call (.path [⟨9, 1⟩]) (.cons (nm 0) .nil)
    let r := Ex.bor false (.call (.path [⟨9, 2⟩]) (.cons (nm 1) .nil))
    detect easy (.bind 0) (.bind 1) l r = some ⟨.key (.bind 0) l false, true⟩ ∧
      ¬ SameSort demo (.by (.bind 0) (.bind 1) l r) (.key (.bind 0) l false) := by
  refine ⟨?_, differ (0, 0) (0, 0) 0 (by decide)⟩
  simp [detect, mapping, pairs, keyBody, mirrored, mirroredPath, sameNames, partners, nm, get, singleName,
    general, isField, easy, bound]

/-- FINDING: a path counts as equal to a longer one that begins with it. `m(a).cmp(&m::f(b))`, with a function
and a module of the same name, becomes the key `m(a)`. -/
theorem prefix_lost :
    let l := Ex.call (nm 9) (.cons (nm 0) .nil)
    let r := Ex.bor false (.call (.path [⟨9, 0⟩, ⟨10, 0⟩]) (.cons (nm 1) .nil))
    detect easy (.bind 0) (.bind 1) l r = some ⟨.key (.bind 0) l false, true⟩ ∧
      ¬ SameSort demo (.by (.bind 0) (.bind 1) l r) (.key (.bind 0) l false) := by
  refine ⟨?_, differ (0, 0) (0, 0) 0 (by decide)⟩
  simp [detect, mapping, pairs, keyBody, mirrored, mirroredPath, sameNames, partners, nm, get, singleName,
    general, isField, easy, bound]

/-- FINDING: the lengths of arrays (and tuples) are not compared. `sum([a]).cmp(&sum([b, 1]))` becomes the key
`sum([a])`. -/
theorem length_lost :
    let l := Ex.call (nm 9) (.cons (.arr (.cons (nm 0) .nil)) .nil)
    let r := Ex.bor false (.call (nm 9) (.cons (.arr (.cons (nm 1) (.cons (.lit 1) .nil))) .nil))
    detect easy (.bind 0) (.bind 1) l r = some ⟨.key (.bind 0) l false, true⟩ ∧
      ¬ SameSort demo (.by (.bind 0) (.bind 1) l r) (.key (.bind 0) l false) := by
  refine ⟨?_, differ (0, 0) (0, 0) 0 (by decide)⟩
  simp [detect, mapping, pairs, keyBody, mirrored, mirroredPath, sameNames, partners, nm, get, singleName,
    general, isField, easy, bound]

/-- FINDING: the variables behind `@` count as variables from outside. `|x @ &(k, _), y| k.abs().cmp(&k.abs())`
(always equal) becomes a sort by `k.abs()`. -/
theorem subpattern_lost :
    let p := Pat.sub 0 (.ref (.tup none (.cons (.bind 2) (.cons .wild .nil))))
    let l := Ex.meth ⟨5, 0⟩ (nm 2) .nil
    let r := Ex.bor false (.meth ⟨5, 0⟩ (nm 2) .nil)
    detect easy p (.bind 1) l r = some ⟨.key p l false, true⟩ ∧
      ¬ SameSort demo (.by p (.bind 1) l r) (.key p l false) := by
  refine ⟨?_, differ (0, 5) (0, 0) 0 (by decide)⟩
  simp [detect, mapping, pairs, keyBody, mirrored, mirroredPath, sameNames, partners, nm, get, singleName,
    general, isField, easy, bound]

/-- For keys with effects a reversed suggestion asks in the other order (it is not machine-applicable). -/
theorem reversed_effects :
    let l := Ex.meth ⟨5, 0⟩ (nm 1) .nil
    let r := Ex.bor false (.meth ⟨5, 0⟩ (nm 0) .nil)
    detect easy (.bind 0) (.bind 1) l r = some ⟨.rev (.bind 0) (.meth ⟨5, 0⟩ (nm 0) .nil), false⟩ ∧
      ¬ SameSort demo (.by (.bind 0) (.bind 1) l r) (.rev (.bind 0) (.meth ⟨5, 0⟩ (nm 0) .nil)) := by
  refine ⟨?_, differ (0, 0) (0, 0) 0 (by decide)⟩
  simp [detect, mapping, pairs, keyBody, mirrored, mirroredPath, sameNames, partners, nm, get, singleName,
    general, isField, easy, bound, peelOne]

theorem pure_of (I : Sem) (h1 : ∀ f x w, (I.call f x w).2 = w) (h2 : ∀ m f x w, (I.meth m f x w).2 = w)
    (h3 : ∀ o f x w, (I.bin o f x w).2 = w) (h4 : ∀ o x w, (I.un o x w).2 = w)
    (h5 : ∀ x w, (I.refMut x w).2 = w) (h6 : ∀ n e w, (I.other n e w).2 = w) : Pure I := by
  intro env e
  induction e with
  | bor k e ih => intro w; cases k <;> exact ih w
  | bin o a b iha ihb =>
    intro w
    simp only [eval]
    split
    · exact iha w
    · rw [h3, ihb, iha]
  | _ => intro w; simp_all [eval]

/-- There are languages without effects. -/
example : Pure (demoBy 0) ∧ (less (demoBy 0) (.by (.bind 0) (.bind 1) (nm 1) (nm 0)) (0, 1) (0, 0) (0 : Nat)).1 = true :=
  ⟨pure_of _ (fun _ _ _ => rfl) (fun _ _ _ _ => rfl) (fun _ _ _ _ => rfl) (fun _ _ _ => rfl) (fun _ _ => rfl)
    (fun _ _ _ => rfl), by decide⟩

end Verif.SortBy
