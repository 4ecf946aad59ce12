import Verif.Pats.UnnestSpec

/-!
# A pattern matches what its or-free patterns match
-/

namespace Verif.Unnest

variable (S : Sem) (ρ : Nat → Option S.V)

theorem mem_choices {α : Type} {l : List α} {ls : List (List α)} {x : List α} :
    x ∈ choices (l :: ls) ↔ ∃ q ∈ l, ∃ qs ∈ choices ls, x = q :: qs := by
  simp only [choices, List.mem_flatMap, List.mem_map]
  constructor
  · rintro ⟨q, hq, qs, hqs, rfl⟩; exact ⟨q, hq, qs, hqs, rfl⟩
  · rintro ⟨q, hq, qs, hqs, rfl⟩; exact ⟨q, hq, qs, hqs, rfl⟩

theorem choices_length {ps : List APat} : ∀ {qs}, qs ∈ choices (expEach ps) → qs.length = ps.length := by
  induction ps with
  | nil => intro qs h; simp [expEach, choices] at h; simp [h]
  | cons p ps ih =>
    intro qs h
    obtain ⟨q, _, qs', h', rfl⟩ := mem_choices.1 h
    simp [ih h']

theorem MFields_iff (fs : List (Nat × Bool)) (ps : List APat) (g : Nat → Option S.V) :
    MFields S ρ fs ps g ↔ ∀ a ∈ (fs.map (·.1)).zip ps, ∃ v, g a.1 = some v ∧ M S ρ a.2 v := by
  induction fs generalizing ps with
  | nil => simp [MFields]
  | cons f fs ih =>
    cases ps with
    | nil => simp [MFields]
    | cons p ps =>
      rw [MFields, ih]
      simp

theorem zip_map_fst_snd (l : List (Nat × APat)) :
    ((l.map fun f => (f.1, false)).map (fun f : Nat × Bool => f.1)).zip (l.map (·.2)) = l := by
  induction l with
  | nil => rfl
  | cons a l ih => simp only [List.map_cons, List.zip_cons_cons, ih]

theorem M_canonStruct (c : Nat) (d : Bool) (fields : List (Nat × APat)) (v : S.V) :
    M S ρ (canonStruct c d fields) v ↔
      ∃ g, S.struct c v = some g ∧ ∀ a ∈ fields, ∃ v, g a.1 = some v ∧ M S ρ a.2 v := by
  unfold canonStruct
  rw [M]
  simp only [MFields_iff, zip_map_fst_snd, (sortBy_perm nameLe fields).mem_iff]

theorem exp_rest : exp .rest = [.rest] := by simp [exp]

mutual
theorem exp_not_rest : ∀ {p : APat}, WF p → ∀ q ∈ exp p, q.isRest = false
  | .wild, _, q, hq | .never, _, q, hq | .ident _ _, _, q, hq | .leaf _ _, _, q, hq => by
    simp [exp] at hq; subst hq; rfl
  | .rest, h, _, _ => by simp [WF] at h
  | .bind .., _, q, hq | .wrap .., _, q, hq | .slice _, _, q, hq | .tuple _, _, q, hq
  | .tupleStruct .., _, q, hq => by
    simp only [exp, List.mem_map] at hq
    obtain ⟨_, _, rfl⟩ := hq; rfl
  | .struct .., _, q, hq => by
    simp only [exp, List.mem_map] at hq
    obtain ⟨_, _, rfl⟩ := hq; rfl
  | .paren p, h, q, hq => exp_not_rest (p := p) (by simpa [WF] using h) q (by simpa [exp] using hq)
  | .or ps, h, q, hq => expAny_not_rest (ps := ps) (by simp [WF] at h; exact h.2) q (by simpa [exp] using hq)

theorem expAny_not_rest : ∀ {ps : List APat}, WFAll ps → ∀ q ∈ expAny ps, q.isRest = false
  | [], _, q, hq => by simp [expAny] at hq
  | p :: ps, h, q, hq => by
    rw [WFAll] at h
    rw [expAny, List.mem_append] at hq
    rcases hq with hq | hq
    · exact exp_not_rest h.1 q hq
    · exact expAny_not_rest h.2 q hq
end

theorem not_rest_of_wf {p : APat} (h : WF p) : p.isRest = false := by
  cases p <;> simp [WF] at h <;> rfl

theorem choices_ne {α : Type} : ∀ {ls : List (List α)}, (∀ l ∈ ls, l ≠ []) → choices ls ≠ []
  | [], _ => by simp [choices]
  | l :: ls, h => by
    obtain ⟨q, hq⟩ := List.exists_mem_of_ne_nil _ (h l (List.mem_cons_self ..))
    obtain ⟨qs, hqs⟩ := List.exists_mem_of_ne_nil _ (choices_ne (ls := ls) fun l' h' => h l' (List.mem_cons_of_mem _ h'))
    exact List.ne_nil_of_mem (mem_choices.2 ⟨q, hq, qs, hqs, rfl⟩)

mutual
/-- A well-formed pattern stands for at least one or-free pattern. -/
theorem exp_ne : ∀ p : APat, WF p → exp p ≠ []
  | .wild, _ | .never, _ | .ident _ _, _ | .leaf _ _, _ => by simp [exp]
  | .rest, _ => by simp [exp]
  | .bind _ _ p, h | .wrap _ p, h => by
    have := exp_ne p (by simpa [WF] using h); simpa [exp] using this
  | .paren p, h => by
    have := exp_ne p (by simpa [WF] using h); simpa [exp] using this
  | .slice ps, h | .tuple ps, h | .tupleStruct _ ps, h => by
    have := choices_ne (expElems_ne ps (by simpa [WF] using h)); simpa [exp] using this
  | .struct _ _ ps _, h => by
    have := choices_ne (expEach_ne ps (by simp [WF] at h; exact h.1)); simpa [exp] using this
  | .or ps, h => by
    rw [WF] at h
    have := expAny_ne ps h.1 h.2; simpa [exp] using this

theorem expElems_ne : ∀ ps : List APat, WFElems ps → ∀ l ∈ expEach ps, l ≠ []
  | [], _, _, hl => by simp [expEach] at hl
  | p :: ps, h, l, hl => by
    rw [WFElems] at h
    rw [expEach, List.mem_cons] at hl
    rcases hl with rfl | hl
    · rcases h.1 with rfl | hp
      · simp [exp]
      · exact exp_ne p hp
    · exact expElems_ne ps h.2 l hl

theorem expEach_ne : ∀ ps : List APat, WFAll ps → ∀ l ∈ expEach ps, l ≠ []
  | [], _, _, hl => by simp [expEach] at hl
  | p :: ps, h, l, hl => by
    rw [WFAll] at h
    rw [expEach, List.mem_cons] at hl
    rcases hl with rfl | hl
    · exact exp_ne p h.1
    · exact expEach_ne ps h.2 l hl

theorem expAny_ne : ∀ ps : List APat, ps ≠ [] → WFAll ps → expAny ps ≠ []
  | [], h, _ => absurd rfl h
  | p :: ps, _, h => by
    rw [WFAll] at h
    have := exp_ne p h.1
    simp [expAny, this]
end

mutual
/-- A pattern matches a value exactly when one of the or-free patterns it stands for does, with the same bindings. -/
theorem M_exp : ∀ {p : APat}, WF p → ∀ v, M S ρ p v ↔ ∃ q ∈ exp p, M S ρ q v
  | .wild, _, v | .never, _, v | .ident _ _, _, v | .leaf _ _, _, v => by simp [exp]
  | .rest, h, _ => by simp [WF] at h
  | .bind m x p, h, v => by
    have ih := M_exp (p := p) (by simpa [WF] using h) v
    simp only [exp, List.mem_map, M, ih]
    constructor
    · rintro ⟨h1, q, hq, h2⟩; exact ⟨_, ⟨q, hq, rfl⟩, by rw [M]; exact ⟨h1, h2⟩⟩
    · rintro ⟨_, ⟨q, hq, rfl⟩, h1⟩; rw [M] at h1; exact ⟨h1.1, q, hq, h1.2⟩
  | .paren p, h, v => by
    have ih := M_exp (p := p) (by simpa [WF] using h) v
    simp only [exp, M, ih]
  | .wrap w p, h, v => by
    have ih := M_exp (p := p) (by simpa [WF] using h)
    simp only [exp, List.mem_map, M, ih]
    constructor
    · rintro ⟨u, h1, q, hq, h2⟩; exact ⟨_, ⟨q, hq, rfl⟩, by rw [M]; exact ⟨u, h1, h2⟩⟩
    · rintro ⟨_, ⟨q, hq, rfl⟩, h1⟩; rw [M] at h1; obtain ⟨u, h1, h2⟩ := h1; exact ⟨u, h1, q, hq, h2⟩
  | .slice ps, h, v => by
    have ih := MList_exp (ps := ps) (by simpa [WF] using h)
    simp only [exp, List.mem_map, M, ih]
    constructor
    · rintro ⟨u, h1, q, hq, h2⟩; exact ⟨_, ⟨q, hq, rfl⟩, by rw [M]; exact ⟨u, h1, h2⟩⟩
    · rintro ⟨_, ⟨q, hq, rfl⟩, h1⟩; rw [M] at h1; obtain ⟨u, h1, h2⟩ := h1; exact ⟨u, h1, q, hq, h2⟩
  | .tuple ps, h, v => by
    have ih := MList_exp (ps := ps) (by simpa [WF] using h)
    simp only [exp, List.mem_map, M, ih]
    constructor
    · rintro ⟨u, h1, q, hq, h2⟩; exact ⟨_, ⟨q, hq, rfl⟩, by rw [M]; exact ⟨u, h1, h2⟩⟩
    · rintro ⟨_, ⟨q, hq, rfl⟩, h1⟩; rw [M] at h1; obtain ⟨u, h1, h2⟩ := h1; exact ⟨u, h1, q, hq, h2⟩
  | .tupleStruct c ps, h, v => by
    have ih := MList_exp (ps := ps) (by simpa [WF] using h)
    simp only [exp, List.mem_map, M, ih]
    constructor
    · rintro ⟨u, h1, q, hq, h2⟩; exact ⟨_, ⟨q, hq, rfl⟩, by rw [M]; exact ⟨u, h1, h2⟩⟩
    · rintro ⟨_, ⟨q, hq, rfl⟩, h1⟩; rw [M] at h1; obtain ⟨u, h1, h2⟩ := h1; exact ⟨u, h1, q, hq, h2⟩
  | .struct c fs ps d, h, v => by
    have ih := MFields_exp (ps := ps) (by simp [WF] at h; exact h.1)
    simp only [exp, List.mem_map, M, ih]
    constructor
    · rintro ⟨u, h1, q, hq, h2⟩
      exact ⟨_, ⟨q, hq, rfl⟩, (M_canonStruct ..).2 ⟨u, h1, (MFields_iff ..).1 h2⟩⟩
    · rintro ⟨_, ⟨q, hq, rfl⟩, h1⟩
      obtain ⟨u, h1, h2⟩ := (M_canonStruct ..).1 h1
      exact ⟨u, h1, q, hq, (MFields_iff ..).2 h2⟩
  | .or ps, h, v => by
    have ih := MAny_exp (ps := ps) (by simp [WF] at h; exact h.2) v
    simp only [exp, M, ih]

theorem MList_exp : ∀ {ps : List APat}, WFElems ps → ∀ vs,
    MList S ρ ps vs ↔ ∃ qs ∈ choices (expEach ps), MList S ρ qs vs
  | [], _, vs => by simp [expEach, choices]
  | p :: ps, h, vs => by
    rw [WFElems] at h
    have ih2 := MList_exp (ps := ps) h.2
    simp only [MList, expEach]
    rcases h.1 with rfl | hp
    · simp only [exp_rest, ih2]
      constructor
      · rintro (⟨_, mid, tl, rfl, qs, hqs, h1⟩ | ⟨v, tl, _, h1, _⟩)
        · refine ⟨.rest :: qs, mem_choices.2 ⟨_, List.mem_singleton.2 rfl, qs, hqs, rfl⟩, ?_⟩
          rw [MList]; exact .inl ⟨rfl, mid, tl, rfl, h1⟩
        · simp [M] at h1
      · rintro ⟨x, hx, h1⟩
        obtain ⟨q, hq, qs, hqs, rfl⟩ := mem_choices.1 hx
        rw [List.mem_singleton] at hq; subst hq
        rw [MList] at h1
        rcases h1 with ⟨_, mid, tl, rfl, h1⟩ | ⟨v, tl, _, h1, _⟩
        · exact .inl ⟨rfl, mid, tl, rfl, qs, hqs, h1⟩
        · simp [M] at h1
    · have ih1 := M_exp hp
      simp only [not_rest_of_wf hp, Bool.false_eq_true, false_and, false_or, ih2]
      constructor
      · rintro ⟨v, tl, rfl, h1, qs, hqs, h2⟩
        obtain ⟨q, hq, h1⟩ := (ih1 v).1 h1
        refine ⟨q :: qs, mem_choices.2 ⟨q, hq, qs, hqs, rfl⟩, ?_⟩
        rw [MList]; exact .inr ⟨v, tl, rfl, h1, h2⟩
      · rintro ⟨x, hx, h1⟩
        obtain ⟨q, hq, qs, hqs, rfl⟩ := mem_choices.1 hx
        rw [MList, exp_not_rest hp q hq] at h1
        rcases h1 with ⟨h, _⟩ | ⟨v, tl, rfl, h1, h2⟩
        · simp at h
        · exact ⟨v, tl, rfl, (ih1 v).2 ⟨q, hq, h1⟩, qs, hqs, h2⟩

theorem MFields_exp : ∀ {ps : List APat}, WFAll ps → ∀ (fs : List (Nat × Bool)) (g : Nat → Option S.V),
    MFields S ρ fs ps g ↔ ∃ qs ∈ choices (expEach ps), MFields S ρ fs qs g
  | [], _, fs, g => by cases fs <;> simp [expEach, choices, MFields]
  | p :: ps, h, [], g => by
    have ih2 := MFields_exp (ps := ps) (by rw [WFAll] at h; exact h.2) [] g
    have ih1 := exp_ne p (by rw [WFAll] at h; exact h.1)
    simp only [MFields, true_iff] at ih2 ⊢
    obtain ⟨qs, hqs, _⟩ := ih2
    obtain ⟨q, hq⟩ := List.exists_mem_of_ne_nil _ ih1
    exact ⟨q :: qs, by rw [expEach]; exact mem_choices.2 ⟨q, hq, qs, hqs, rfl⟩, trivial⟩
  | p :: ps, h, f :: fs, g => by
    rw [WFAll] at h
    have ih1 := M_exp (p := p) h.1
    have ih2 := MFields_exp (ps := ps) h.2 fs g
    simp only [MFields, expEach, ih2]
    constructor
    · rintro ⟨⟨v, h1, h2⟩, qs, hqs, h3⟩
      obtain ⟨q, hq, h2⟩ := (ih1 v).1 h2
      refine ⟨q :: qs, mem_choices.2 ⟨q, hq, qs, hqs, rfl⟩, ?_⟩
      rw [MFields]; exact ⟨⟨v, h1, h2⟩, h3⟩
    · rintro ⟨x, hx, h1⟩
      obtain ⟨q, hq, qs, hqs, rfl⟩ := mem_choices.1 hx
      rw [MFields] at h1
      obtain ⟨⟨v, h1, h2⟩, h3⟩ := h1
      exact ⟨⟨v, h1, (ih1 v).2 ⟨q, hq, h2⟩⟩, qs, hqs, h3⟩

theorem MAny_exp : ∀ {ps : List APat}, WFAll ps → ∀ v, MAny S ρ ps v ↔ ∃ q ∈ expAny ps, M S ρ q v
  | [], _, v => by simp [MAny, expAny]
  | p :: ps, h, v => by
    rw [WFAll] at h
    have ih1 := M_exp (p := p) h.1 v
    have ih2 := MAny_exp (ps := ps) h.2 v
    simp only [MAny, expAny, ih1, ih2, List.mem_append]
    constructor
    · rintro (⟨q, hq, h⟩ | ⟨q, hq, h⟩)
      · exact ⟨q, .inl hq, h⟩
      · exact ⟨q, .inr hq, h⟩
    · rintro ⟨q, hq | hq, h⟩
      · exact .inl ⟨q, hq, h⟩
      · exact .inr ⟨q, hq, h⟩
end

end Verif.Unnest
