import Verif.StructOrd.Model

/-!
# Properties: fields of constructors in the order of the definition
-/

namespace Verif.StructOrd

theorem look_orderMap (defs : List Nat) (n : Nat) : ∀ i m, defs.Nodup → look n (orderMap i m defs) = if n ∈ defs then i + defs.idxOf n else look n m := by
  induction defs with
  | nil => intro i m _; simp [orderMap]
  | cons d defs ih =>
    intro i m h
    rw [List.nodup_cons] at h
    rw [orderMap, ih (i + 1) _ h.2]
    by_cases hd : d = n
    · have hn : n ∉ defs := by rw [← hd]; exact h.1
      rw [if_neg hn, if_pos (by rw [hd]; exact List.mem_cons_self), hd, List.idxOf_cons_self]
      simp [look]
    · by_cases hm : n ∈ defs
      · rw [if_pos hm, if_pos (List.mem_cons_of_mem _ hm), List.idxOf_cons]
        have hb : (d == n) = false := by simpa using hd
        rw [hb, cond_false]
        omega
      · rw [if_neg hm, if_neg]
        · simp [look, hd]
        · intro k
          rcases List.mem_cons.1 k with k | k
          · exact hd k.symm
          · exact hm k

/-- The map has the positions of the definition. -/
theorem look_idx (defs : List Nat) (n : Nat) (h : defs.Nodup) (hn : n ∈ defs) : look n (orderMap 0 [] defs) = defs.idxOf n := by
  rw [look_orderMap defs n 0 [] h, if_pos hn, Nat.zero_add]

theorem consistent_iff (m : List (Nat × Nat)) (l : List Field) : ∀ cur, isConsistent m cur l = true ↔
    (∀ f ∈ l, cur ≤ look f.name m) ∧ l.Pairwise fun f g => look f.name m ≤ look g.name m := by
  induction l with
  | nil => intro cur; simp [isConsistent]
  | cons f l ih =>
    intro cur
    rw [isConsistent, List.pairwise_cons]
    by_cases h : cur > look f.name m
    · rw [if_pos h]
      constructor
      · intro k; cases k
      · rintro ⟨k, _⟩
        have := k f List.mem_cons_self
        omega
    · rw [if_neg h, ih]
      constructor
      · rintro ⟨h1, h2⟩
        refine ⟨?_, h1, h2⟩
        intro g hg
        rcases List.mem_cons.1 hg with hg | hg
        · rw [hg]; omega
        · have := h1 g hg
          omega
      · rintro ⟨_, h1, h2⟩
        exact ⟨h1, h2⟩

theorem pairwise_map (defs : List Nat) (hd : defs.Nodup) (l : List Field) (h : ∀ f ∈ l, f.name ∈ defs) :
    (l.Pairwise fun f g => look f.name (orderMap 0 [] defs) ≤ look g.name (orderMap 0 [] defs)) ↔ InOrder defs l := by
  unfold InOrder
  induction l with
  | nil => simp
  | cons f l ih =>
    rw [List.pairwise_cons, List.pairwise_cons, ih (fun g hg => h g (List.mem_cons_of_mem _ hg))]
    have : (∀ g ∈ l, look f.name (orderMap 0 [] defs) ≤ look g.name (orderMap 0 [] defs)) ↔ ∀ g ∈ l, defs.idxOf f.name ≤ defs.idxOf g.name := by
      constructor
      · intro k g hg
        have := k g hg
        rwa [look_idx _ _ hd (h f List.mem_cons_self), look_idx _ _ hd (h g (List.mem_cons_of_mem _ hg))] at this
      · intro k g hg
        rw [look_idx _ _ hd (h f List.mem_cons_self), look_idx _ _ hd (h g (List.mem_cons_of_mem _ hg))]
        exact k g hg
    rw [this]

theorem isConsistent_iff (defs : List Nat) (hd : defs.Nodup) (l : List Field) (h : ∀ f ∈ l, f.name ∈ defs) :
    isConsistent (orderMap 0 [] defs) 0 l = true ↔ InOrder defs l := by
  rw [consistent_iff, pairwise_map defs hd l h]
  simp

theorem insert_perm (m : List (Nat × Nat)) (f : Field) (l : List Field) : (insert m f l).Perm (f :: l) := by
  induction l with
  | nil => exact List.Perm.refl _
  | cons g l ih =>
    rw [insert]
    split
    · exact List.Perm.refl _
    · exact (List.Perm.cons g ih).trans (List.Perm.swap f g l)

theorem sort_perm (m : List (Nat × Nat)) (l : List Field) : (sort m l).Perm l := by
  induction l with
  | nil => exact List.Perm.refl _
  | cons f l ih => exact (insert_perm m f _).trans (List.Perm.cons f ih)

theorem insert_sorted (m : List (Nat × Nat)) (f : Field) (l : List Field) (h : l.Pairwise fun f g => look f.name m ≤ look g.name m) :
    (insert m f l).Pairwise fun f g => look f.name m ≤ look g.name m := by
  induction l with
  | nil => rw [insert]; exact List.pairwise_singleton _ _
  | cons g l ih =>
    rw [List.pairwise_cons] at h
    rw [insert]
    by_cases hc : look f.name m ≤ look g.name m
    · rw [if_pos hc, List.pairwise_cons, List.pairwise_cons]
      refine ⟨?_, h⟩
      intro x hx
      rcases List.mem_cons.1 hx with hx | hx
      · rw [hx]; exact hc
      · have := h.1 x hx
        omega
    · rw [if_neg hc, List.pairwise_cons]
      refine ⟨?_, ih h.2⟩
      intro x hx
      rcases List.mem_cons.1 ((insert_perm m f l).mem_iff.1 hx) with hx | hx
      · rw [hx]; omega
      · exact h.1 x hx

theorem sort_sorted (m : List (Nat × Nat)) (l : List Field) : (sort m l).Pairwise fun f g => look f.name m ≤ look g.name m := by
  induction l with
  | nil => exact List.Pairwise.nil
  | cons f l ih => exact insert_sorted m f _ ih

theorem sort_inOrder (defs : List Nat) (hd : defs.Nodup) (l : List Field) (h : ∀ f ∈ l, f.name ∈ defs) : InOrder defs (sort (orderMap 0 [] defs) l) :=
  (pairwise_map defs hd _ (fun f hf => h f ((sort_perm _ l).mem_iff.1 hf))).1 (sort_sorted _ l)

/-- A constructor is reported exactly if it is not in order, and all fields are short or the configuration asks for it. -/
theorem reported_iff (config : Bool) (defs : List Nat) (hd : defs.Nodup) (l : List Field) (h : ∀ f ∈ l, f.name ∈ defs) (ws : List (List Char)) :
    (check config defs l ws).isSome = true ↔ ¬InOrder defs l ∧ (config = true ∨ ∀ f ∈ l, f.short = true) := by
  unfold check
  rw [← isConsistent_iff defs hd l h]
  by_cases h1 : (!l.all Field.short && !config) = true
  · rw [if_pos h1]
    rw [Bool.and_eq_true, Bool.not_eq_true', Bool.not_eq_true', List.all_eq_false] at h1
    obtain ⟨⟨f, hf, hs⟩, hc⟩ := h1
    constructor
    · intro k; cases k
    · rintro ⟨_, k | k⟩
      · rw [k] at hc; cases hc
      · exact absurd (k f hf) hs
  · rw [if_neg h1]
    have h2 : config = true ∨ ∀ f ∈ l, f.short = true := by
      cases config
      · right
        simpa using h1
      · exact Or.inl rfl
    cases hc : isConsistent (orderMap 0 [] defs) 0 l
    · simp [h2]
    · simp

theorem check_some (config : Bool) (defs : List Nat) (l : List Field) (ws : List (List Char)) (r : Report) (h : check config defs l ws = some r) :
    r.fields = sort (orderMap 0 [] defs) l ∧ r.text = join (r.fields.map Field.text) ws ∧ (r.machine = true ↔ ∀ f ∈ l, f.short = true) := by
  unfold check at h
  by_cases h1 : (!l.all Field.short && !config) = true
  · rw [if_pos h1] at h; cases h
  · rw [if_neg h1] at h
    by_cases h2 : isConsistent (orderMap 0 [] defs) 0 l = true
    · rw [if_pos h2] at h; cases h
    · rw [if_neg h2] at h
      injection h with h
      rw [← h]
      refine ⟨rfl, rfl, ?_⟩
      show l.all Field.short = true ↔ _
      rw [List.all_eq_true]

/-- The suggestion has the same fields, in the order of the definition, and is not reported again. -/
theorem settles (config : Bool) (defs : List Nat) (hd : defs.Nodup) (l : List Field) (h : ∀ f ∈ l, f.name ∈ defs) (ws : List (List Char)) (r : Report)
    (hr : check config defs l ws = some r) : r.fields.Perm l ∧ InOrder defs r.fields ∧ check config defs r.fields ws = none := by
  obtain ⟨e, _⟩ := check_some config defs l ws r hr
  have hp : r.fields.Perm l := by rw [e]; exact sort_perm _ l
  have ho : InOrder defs r.fields := by rw [e]; exact sort_inOrder defs hd l h
  refine ⟨hp, ho, ?_⟩
  cases hc : check config defs r.fields ws with
  | none => rfl
  | some x =>
    have := (reported_iff config defs hd r.fields (fun f hf => h f (hp.mem_iff.1 hf)) ws).1 (by rw [hc]; rfl)
    exact absurd ho this.1

theorem join_text (as : List (List Char)) : ∀ ws, as.length = ws.length + 1 → Text as ws (join as ws) := by
  induction as with
  | nil => intro ws h; simp at h
  | cons a as ih =>
    intro ws h
    cases ws with
    | nil =>
      have : as = [] := List.eq_nil_of_length_eq_zero (by simpa using h)
      rw [this, join, join, List.append_nil]
      exact .one a
    | cons w ws =>
      rw [join]
      exact .more a w as ws _ (ih ws (by simpa using h))

/-- The new text is the texts of the fields in their new order, with the old separators between them. -/
theorem new_text (config : Bool) (defs : List Nat) (l : List Field) (ws : List (List Char)) (hw : l.length = ws.length + 1) (r : Report)
    (hr : check config defs l ws = some r) : Text (r.fields.map Field.text) ws r.text := by
  obtain ⟨e, e2, _⟩ := check_some config defs l ws r hr
  rw [e2]
  apply join_text
  rw [List.length_map, e, (sort_perm _ l).length_eq, hw]

theorem make_reads (l : List Field) (h : ∀ f ∈ l, Reads f) : ∀ st, make l st = (l.map (fun f => (f.name, (f.eval st).1)), st) := by
  induction l with
  | nil => intro st; rfl
  | cons f l ih =>
    intro st
    rw [make, h f List.mem_cons_self st, ih (fun g hg => h g (List.mem_cons_of_mem _ hg)) st]
    rfl

theorem find_perm (v w : List (Nat × Nat)) (hp : v.Perm w) (hn : (v.map Prod.fst).Nodup) (n : Nat) : field v n = field w n := by
  have unique : ∀ (v : List (Nat × Nat)), (v.map Prod.fst).Nodup → ∀ a, field v n = some a ↔ (n, a) ∈ v := by
    intro v
    induction v with
    | nil => intro _ a; simp [field]
    | cons x v ih =>
      intro h a
      rw [List.map_cons, List.nodup_cons] at h
      unfold field
      by_cases hx : x.1 = n
      · rw [List.find?_cons_of_pos (by simpa using hx)]
        constructor
        · intro k
          have k' : x.2 = a := Option.some.inj k
          rw [← k', ← hx]
          exact List.mem_cons_self
        · intro k
          rcases List.mem_cons.1 k with k | k
          · rw [← k]; rfl
          · exact absurd (List.mem_map.2 ⟨(n, a), k, hx.symm⟩) h.1
      · rw [List.find?_cons_of_neg (by simpa using hx)]
        have := ih h.2 a
        unfold field at this
        rw [this, List.mem_cons]
        constructor
        · exact Or.inr
        · rintro (k | k)
          · rw [← k] at hx; exact absurd rfl hx
          · exact k
  have hw : (w.map Prod.fst).Nodup := (hp.map Prod.fst).nodup_iff.1 hn
  cases hv : field v n with
  | some a => exact ((unique w hw a).2 (hp.mem_iff.1 ((unique v hn a).1 hv))).symm
  | none =>
    cases hw2 : field w n with
    | none => rfl
    | some a =>
      have := (unique v hn a).2 (hp.mem_iff.2 ((unique w hw a).1 hw2))
      rw [hv] at this
      cases this

/-- A suggestion for machines makes the same value and changes nothing else: it is only given when all fields are short for variables. -/
theorem same_value (config : Bool) (defs : List Nat) (l : List Field) (ws : List (List Char)) (r : Report) (hr : check config defs l ws = some r) (hm : r.machine = true)
    (hs : ∀ f ∈ l, f.short = true → Reads f) (hn : (l.map Field.name).Nodup) (st : Nat) :
    (∀ n, field (make r.fields st).1 n = field (make l st).1 n) ∧ (make r.fields st).2 = (make l st).2 := by
  obtain ⟨e, _, h3⟩ := check_some config defs l ws r hr
  have hall : ∀ f ∈ l, Reads f := fun f hf => hs f hf (h3.1 hm f hf)
  have hp : r.fields.Perm l := by rw [e]; exact sort_perm _ l
  rw [make_reads l hall, make_reads r.fields (fun f hf => hall f (hp.mem_iff.1 hf))]
  refine ⟨fun n => ?_, rfl⟩
  refine find_perm _ _ (hp.map _) ?_ n
  have : (r.fields.map (fun f => (f.name, (f.eval st).1))).map Prod.fst = r.fields.map Field.name := by rw [List.map_map]; rfl
  show ((r.fields.map (fun f => (f.name, (f.eval st).1))).map Prod.fst).Nodup
  rw [this]
  exact (hp.map Field.name).nodup_iff.2 hn

/-- A variable that has the value 7, and one that has 8. -/
def vx : Field := ⟨1, ['x'], true, fun st => (7, st)⟩
/-- The other. -/
def vy : Field := ⟨2, ['y'], true, fun st => (8, st)⟩

example : (check false [1, 2, 3] [vy, vx] [[',', ' ']]).map (fun r => (r.text, r.machine)) = some (['x', ',', ' ', 'y'], true) ∧
    (check false [1, 2, 3] [vx, vy] [[',', ' ']]).isNone = true := by decide +kernel

example : Reads vx ∧ Reads vy ∧ ([vy, vx].map Field.name).Nodup ∧ ([1, 2, 3] : List Nat).Nodup := ⟨fun _ => rfl, fun _ => rfl, by decide, by decide⟩

/-- With fields that are not short the suggestion, not for machines, may change values: here each field takes the next number. -/
theorem order_matters : ∃ (a b : Field) (r : Report), check true [1, 2] [b, a] [[]] = some r ∧ r.machine = false ∧
    field (make [b, a] 0).1 1 = some 1 ∧ field (make r.fields 0).1 1 = some 0 := by
  refine ⟨⟨1, [], false, fun st => (st, st + 1)⟩, ⟨2, [], false, fun st => (st, st + 1)⟩, _, rfl, rfl, ?_, ?_⟩ <;> decide +kernel

end Verif.StructOrd
