import Verif.Empty.Model

/-!
# Properties: comparisons of lengths with zero and of sequences with empty ones
-/

namespace Verif.Empty

/-- Everything has a method `is_empty`. -/
def all : Info := ⟨false, fun _ => true, fun _ _ => true⟩
/-- Object 0 is empty, object `n` has `n` elements; methods give the elements back. -/
def lists : Sem := ⟨fun n => n, fun n => List.replicate n 7, fun n => n == 0, fun _ n => List.replicate n 7⟩

theorem lists_sane : Sane lists := ⟨fun x => by simp [lists], fun x => by cases x <;> simp [lists, List.replicate_succ]⟩

theorem before_nil (l : List Nat) : before l [] = false := by cases l <;> rfl

theorem nil_before (l : List Nat) : before [] l = !l.isEmpty := by cases l <;> rfl

theorem mem_checkEmpty (t : Info) (a b : Opd) (not : Bool) (s : Bool × Opd) (h : s ∈ checkEmpty t a b not) :
    s = (not, a) ∧ isEmptyLit b = true ∧ hasIsEmpty t a = true := by
  unfold checkEmpty at h
  by_cases hc : (isEmptyLit b && hasIsEmpty t a) = true
  · rw [if_pos hc] at h
    simp only [Bool.and_eq_true] at hc
    exact ⟨by simpa using h, hc.1, hc.2⟩
  · rw [if_neg hc] at h; cases h

theorem mem_checkCmp (t : Info) (a b : Opd) (not : Bool) (to : Nat) (s : Bool × Opd) (h : s ∈ checkCmp t a b not to) :
    (∃ x, a = .len x ∧ b = .int to ∧ s = (not, .obj x)) ∨ (s = (not, a) ∧ isEmptyLit b = true ∧ hasIsEmpty t a = true) := by
  unfold checkCmp at h
  split at h
  · by_cases hi : t.inEmpty = true
    · rw [if_pos hi] at h; cases h
    · rw [if_neg hi] at h
      rename_i x n
      unfold checkLen at h
      by_cases hn : n ≠ to
      · rw [if_pos hn] at h; cases h
      · rw [if_neg hn] at h
        have hn : n = to := by simpa using hn
        by_cases ho : t.objHas x = true
        · rw [if_pos ho] at h
          exact Or.inl ⟨x, rfl, by rw [hn], by simpa using h⟩
        · rw [if_neg ho] at h; cases h
  · cases h
  · cases h
  · cases h
  · exact Or.inr (mem_checkEmpty t _ _ not s h)

theorem emptyLit_eval (I : Sem) (b : Opd) (h : isEmptyLit b = true) : b.eval I = .seq [] := by
  cases b <;> simp_all [isEmptyLit, Opd.eval]

/-- The value of an operand that has `is_empty`. -/
theorem isEmpty_value (I : Sem) (hs : Sane I) (t : Info) (a : Opd) (not : Bool) (h : hasIsEmpty t a = true) :
    ∃ l, a.eval I = .seq l ∧ isEmpty I not a = some (not != l.isEmpty) := by
  cases a with
  | obj x =>
    refine ⟨I.elems x, rfl, ?_⟩
    have : I.empty x = (I.elems x).isEmpty := by
      have := hs.elems x
      cases h1 : I.empty x <;> cases h2 : I.elems x <;> simp_all
    simp [isEmpty, this]
  | meth k x => exact ⟨I.meth k x, rfl, rfl⟩
  | str l => exact ⟨l, rfl, rfl⟩
  | arr l => exact ⟨l, rfl, rfl⟩
  | len x => cases h
  | int n => cases h

theorem eq_nil (l : List Nat) : (l == []) = l.isEmpty := by cases l <;> rfl

theorem nil_eq (l : List Nat) : (([] : List Nat) == l) = l.isEmpty := by cases l <;> rfl

/-- One of the operands is the number the length is compared with. -/
def IsInt : Opd → Prop
  | .int _ => True
  | _ => False

/-- C134: a suggestion for a comparison of a length with a number has the value of the comparison, for every operator. -/
theorem length_same (I : Sem) (hs : Sane I) (t : Info) (o : Op) (a b : Opd) (hi : IsInt a ∨ IsInt b) (s : Bool × Opd)
    (h : s ∈ check t o a b) : compare I o a b = isEmpty I s.1 s.2 := by
  have hno : ∀ c d, (IsInt c ∨ IsInt d) → isEmptyLit d = true → hasIsEmpty t c = true → False := by
    intro c d hcd h1 h2
    cases c <;> cases d <;> simp_all [IsInt, isEmptyLit, hasIsEmpty]
  have hz : ∀ x, I.empty x = decide (I.len x = 0) := by
    intro x
    have := hs.len x
    cases h1 : I.empty x <;> simp_all
  have key : ∀ c d not to, (IsInt c ∨ IsInt d) → s ∈ checkCmp t c d not to →
      ∃ x, c = .len x ∧ d = .int to ∧ s = (not, .obj x) := by
    intro c d not to hcd hm
    rcases mem_checkCmp t c d not to s hm with h1 | ⟨_, h1, h2⟩
    · exact h1
    · exact absurd (hno c d hcd h1 h2) id
  cases o <;> simp only [check] at h
  all_goals try (rcases List.mem_append.1 h with h | h)
  all_goals try (cases h; done)
  all_goals
    first
    | obtain ⟨x, rfl, rfl, rfl⟩ := key _ _ _ _ hi h
    | obtain ⟨x, rfl, rfl, rfl⟩ := key _ _ _ _ hi.symm h
  all_goals
    simp only [compare, Opd.eval, ints, isEmpty, hz]
    cases hx : I.len x <;> simp <;> omega

example : check all .lt (.int 0) (.len 3) = [(true, .obj 3)] := by decide +kernel

/-- C134: so has one for `==` and `!=`, also of sequences with empty ones. -/
theorem equal_same (I : Sem) (hs : Sane I) (t : Info) (o : Op) (ho : o = .eq ∨ o = .ne) (a b : Opd) (s : Bool × Opd)
    (h : s ∈ check t o a b) : compare I o a b = isEmpty I s.1 s.2 := by
  have hz : ∀ x, I.empty x = decide (I.len x = 0) := by
    intro x
    have := hs.len x
    cases h1 : I.empty x <;> simp_all
  have key : ∀ c d not to, s ∈ checkCmp t c d not to →
      (∃ x, c = .len x ∧ d = .int to ∧ s = (not, .obj x)) ∨
        (∃ l, c.eval I = .seq l ∧ d.eval I = .seq [] ∧ isEmpty I s.1 s.2 = some (not != l.isEmpty)) := by
    intro c d not to hm
    rcases mem_checkCmp t c d not to s hm with h1 | ⟨rfl, h1, h2⟩
    · exact Or.inl h1
    · obtain ⟨l, e1, e2⟩ := isEmpty_value I hs t c not h2
      exact Or.inr ⟨l, e1, emptyLit_eval I d h1, e2⟩
  rcases ho with rfl | rfl <;> simp only [check] at h
  all_goals
    rcases List.mem_append.1 h with h | h
  all_goals
    rcases key _ _ _ _ h with ⟨x, rfl, rfl, rfl⟩ | ⟨l, e1, e2, e3⟩
  all_goals
    first
    | rw [e3]
      simp only [compare, e1, e2, seqs, eq_nil, nil_eq]
      cases l <;> rfl
    | simp only [compare, Opd.eval, ints, isEmpty, hz]
      cases hx : I.len x <;> simp

example : check all .eq (.obj 3) (.str []) = [(false, .obj 3)] := by decide +kernel

/-- Full claim: every suggestion has the value of the comparison. Proved for lengths, for `==` and `!=`, and for `x > ""` and
`"" < x`; the other order comparisons with empty sequences are wrong (`order_wrong`). -/
theorem suggested_partial (I : Sem) (hs : Sane I) (t : Info) (o : Op) (a b : Opd) (s : Bool × Opd) (h : s ∈ check t o a b)
    (hx : (IsInt a ∨ IsInt b) ∨ (o = .eq ∨ o = .ne) ∨ (o = .gt ∧ isEmptyLit a = false) ∨ (o = .lt ∧ isEmptyLit b = false)) :
    compare I o a b = isEmpty I s.1 s.2 := by
  rcases hx with hx | hx | ⟨rfl, hx⟩ | ⟨rfl, hx⟩
  · exact length_same I hs t o a b hx s h
  · exact equal_same I hs t o hx a b s h
  · simp only [check] at h
    rcases List.mem_append.1 h with h | h
    · rcases mem_checkCmp t a b true 0 s h with ⟨x, rfl, rfl, rfl⟩ | ⟨rfl, h1, h2⟩
      · exact length_same I hs t .gt (.len x) (.int _) (Or.inr True.intro) _ (List.mem_append.2 (Or.inl h))
      · obtain ⟨l, e1, e2⟩ := isEmpty_value I hs t a true h2
        rw [e2]
        simp only [compare, e1, emptyLit_eval I b h1, seqs, nil_before]
        cases l <;> rfl
    · rcases mem_checkCmp t b a false 1 s h with ⟨x, rfl, rfl, rfl⟩ | ⟨rfl, h1, h2⟩
      · exact length_same I hs t .gt (.int _) (.len x) (Or.inl True.intro) _ (List.mem_append.2 (Or.inr h))
      · rw [hx] at h1; cases h1
  · simp only [check] at h
    rcases List.mem_append.1 h with h | h
    · rcases mem_checkCmp t a b false 1 s h with ⟨x, rfl, rfl, rfl⟩ | ⟨rfl, h1, h2⟩
      · exact length_same I hs t .lt (.len x) (.int _) (Or.inr True.intro) _ (List.mem_append.2 (Or.inl h))
      · rw [hx] at h1; cases h1
    · rcases mem_checkCmp t b a true 0 s h with ⟨x, rfl, rfl, rfl⟩ | ⟨rfl, h1, h2⟩
      · exact length_same I hs t .lt (.int _) (.len x) (Or.inl True.intro) _ (List.mem_append.2 (Or.inr h))
      · obtain ⟨l, e1, e2⟩ := isEmpty_value I hs t b true h2
        rw [e2]
        simp only [compare, e1, emptyLit_eval I a h1, seqs, nil_before]
        cases l <;> rfl

example : check all .lt (.str []) (.obj 3) = [(true, .obj 3)] ∧ isEmptyLit (.obj 3) = false := by decide +kernel

/-- C134: `x.eq("")` and `x.ne("")` are replaced by what they mean, and so is `if let "" = x`. -/
theorem method_same (I : Sem) (hs : Sane I) (t : Info) (isNe : Bool) (a b : Opd) (s : Bool × Opd) (h : s ∈ checkMethod t isNe a b) :
    compare I (if isNe then .ne else .eq) a b = isEmpty I s.1 s.2 := by
  obtain ⟨rfl, h1, h2⟩ := mem_checkEmpty t a b isNe s h
  obtain ⟨l, e1, e2⟩ := isEmpty_value I hs t a isNe h2
  rw [e2]
  cases isNe <;> simp only [compare, e1, emptyLit_eval I b h1, seqs] <;> cases l <;> rfl

example : checkMethod all true (.obj 3) (.arr []) = [(true, .obj 3)] := by decide +kernel

/-- C134: the pattern of an empty slice or string matches exactly the empty ones. -/
theorem let_same (I : Sem) (hs : Sane I) (t : Info) (pat : Bool) (a : Opd) (s : Bool × Opd) (h : s ∈ checkLet t pat a) :
    pat = true ∧ compare I .eq a (.str []) = isEmpty I s.1 s.2 := by
  unfold checkLet at h
  by_cases hc : (pat && hasIsEmpty t a) = true
  · rw [if_pos hc] at h
    simp only [Bool.and_eq_true] at hc
    have : s = (false, a) := by simpa using h
    subst this
    obtain ⟨l, e1, e2⟩ := isEmpty_value I hs t a false hc.2
    refine ⟨hc.1, ?_⟩
    rw [e2]
    simp only [compare, e1, emptyLit_eval I (.str []) rfl, seqs]
    cases l <;> rfl
  · rw [if_neg hc] at h; cases h

example : checkLet all true (.obj 3) = [(false, .obj 3)] := by decide +kernel

/-- Full claim: every comparison of a length with a number that says whether it is zero is reported. Proved except for
`x.len() <= 0`. -/
theorem found_partial (t : Info) (o : Op) (n x : Nat) (neg : Bool) (ho : o ≠ .other) (ht : t.inEmpty = false) (hx : t.objHas x = true)
    (hm : ∀ k, ints o k n = (neg != decide (k = 0))) (hl : o ≠ .le) : (neg, Opd.obj x) ∈ check t o (.len x) (.int n) := by
  have h0 := hm 0
  have h1 := hm 1
  have h2 := hm 2
  have hn := hm n
  have hn1 := hm (n + 1)
  have e0 : ∀ not to, n = to → checkCmp t (.len x) (.int n) not to = [(not, .obj x)] := by
    intro not to hto
    simp [checkCmp, ht, checkLen, hto, hx]
  cases o with
  | other => exact absurd rfl ho
  | le => exact absurd rfl hl
  | eq =>
    have : n = 0 ∧ neg = false := by
      cases neg <;> simp [ints] at h0 h1 h2 hn hn1 <;> first | omega | exact ⟨by omega, rfl⟩
    obtain ⟨rfl, rfl⟩ := this
    simp [check, e0]
  | ne =>
    have : n = 0 ∧ neg = true := by
      cases neg <;> simp [ints] at h0 h1 h2 hn hn1 <;> first | omega | exact ⟨by omega, rfl⟩
    obtain ⟨rfl, rfl⟩ := this
    simp [check, e0]
  | gt =>
    have : n = 0 ∧ neg = true := by
      cases neg <;> simp [ints] at h0 h1 h2 hn hn1 <;> first | omega | exact ⟨by omega, rfl⟩
    obtain ⟨rfl, rfl⟩ := this
    simp [check, e0]
  | lt =>
    have : n = 1 ∧ neg = false := by
      cases neg <;> simp [ints] at h0 h1 h2 hn hn1 <;> first | omega | exact ⟨by omega, rfl⟩
    obtain ⟨rfl, rfl⟩ := this
    simp [check, e0]
  | ge =>
    have : n = 1 ∧ neg = true := by
      cases neg <;> simp [ints] at h0 h1 h2 hn hn1 <;> first | omega | exact ⟨by omega, rfl⟩
    obtain ⟨rfl, rfl⟩ := this
    simp [check, e0]

example : ∀ k, ints .ge k 1 = (true != decide (k = 0)) := by
  intro k
  cases k <;> simp [ints]

/-- Full claim: every comparison of a length with a number that says whether it is zero is reported. The same with the
number first, except for `0 >= x.len()`. -/
theorem found_swapped_partial (t : Info) (o : Op) (n x : Nat) (neg : Bool) (ho : o ≠ .other) (ht : t.inEmpty = false) (hx : t.objHas x = true)
    (hm : ∀ k, ints o n k = (neg != decide (k = 0))) (hl : o ≠ .ge) : (neg, Opd.obj x) ∈ check t o (.int n) (.len x) := by
  have h0 := hm 0
  have h1 := hm 1
  have h2 := hm 2
  have hn := hm n
  have hn1 := hm (n + 1)
  have e0 : ∀ not to, n = to → checkCmp t (.len x) (.int n) not to = [(not, .obj x)] := by
    intro not to hto
    simp [checkCmp, ht, checkLen, hto, hx]
  cases o with
  | other => exact absurd rfl ho
  | ge => exact absurd rfl hl
  | eq =>
    have : n = 0 ∧ neg = false := by
      cases neg <;> simp [ints] at h0 h1 h2 hn hn1 <;> first | omega | exact ⟨by omega, rfl⟩
    obtain ⟨rfl, rfl⟩ := this
    simp [check, e0]
  | ne =>
    have : n = 0 ∧ neg = true := by
      cases neg <;> simp [ints] at h0 h1 h2 hn hn1 <;> first | omega | exact ⟨by omega, rfl⟩
    obtain ⟨rfl, rfl⟩ := this
    simp [check, e0]
  | lt =>
    have : n = 0 ∧ neg = true := by
      cases neg <;> simp [ints] at h0 h1 h2 hn hn1 <;> first | omega | exact ⟨by omega, rfl⟩
    obtain ⟨rfl, rfl⟩ := this
    simp [check, e0]
  | gt =>
    have : n = 1 ∧ neg = false := by
      cases neg <;> simp [ints] at h0 h1 h2 hn hn1 <;> first | omega | exact ⟨by omega, rfl⟩
    obtain ⟨rfl, rfl⟩ := this
    simp [check, e0]
  | le =>
    have : n = 1 ∧ neg = true := by
      cases neg <;> simp [ints] at h0 h1 h2 hn hn1 <;> first | omega | exact ⟨by omega, rfl⟩
    obtain ⟨rfl, rfl⟩ := this
    simp [check, e0]

example : ∀ k, ints .le 1 k = (true != decide (k = 0)) := by
  intro k
  cases k <;> simp [ints]

/-- C134: `x == ""` and `x != []` are reported for every operand with `is_empty` that is no method call, on both sides. -/
theorem equal_found (t : Info) (x : Nat) (b : Opd) (hx : t.objHas x = true) (hb : b = .str [] ∨ b = .arr []) (isNe : Bool) :
    (isNe, Opd.obj x) ∈ check t (if isNe then .ne else .eq) (.obj x) b ∧ (isNe, Opd.obj x) ∈ check t (if isNe then .ne else .eq) b (.obj x) ∧
      (isNe, Opd.obj x) ∈ checkMethod t isNe (.obj x) b ∧ (false, Opd.obj x) ∈ checkLet t true (.obj x) := by
  rcases hb with rfl | rfl <;> cases isNe <;>
    simp [check, checkCmp, checkEmpty, checkMethod, checkLet, isEmptyLit, hasIsEmpty, hx]

example : all.objHas 3 = true := by decide

/-- C134: strings and arrays themselves have `is_empty`. -/
theorem literal_found (t : Info) (l : List Nat) (isNe : Bool) :
    (isNe, Opd.str l) ∈ check t (if isNe then .ne else .eq) (.str l) (.str []) ∧ (isNe, Opd.arr l) ∈ check t (if isNe then .ne else .eq) (.arr l) (.arr []) := by
  cases isNe <;> simp [check, checkCmp, checkEmpty, isEmptyLit, hasIsEmpty]

example : check all .eq (.str [5]) (.str []) = [(false, .str [5])] := by decide +kernel

/-- C134: a function `is_empty` that compares a length is left alone, so that it is not made to call itself. -/
theorem no_recursion (t : Info) (o : Op) (x n : Nat) (h : t.inEmpty = true) :
    check t o (.len x) (.int n) = [] ∧ check t o (.int n) (.len x) = [] := by
  cases o <;> simp [check, checkCmp, checkEmpty, isEmptyLit, h]

example : check ⟨true, fun _ => true, fun _ _ => true⟩ .eq (.len 3) (.int 0) = [] ∧ check all .eq (.len 3) (.int 0) ≠ [] := by decide +kernel

/-- C134: `is_empty` is only suggested for types that have it. -/
theorem method_exists (t : Info) (o : Op) (isNe pat : Bool) (a b : Opd) (s : Bool × Opd)
    (h : s ∈ check t o a b ∨ s ∈ checkMethod t isNe a b ∨ s ∈ checkLet t pat a) :
    (∀ x, s.2 = .obj x → t.objHas x = true) ∧ (∀ k x, s.2 = .meth k x → t.methHas k x = true) := by
  have he : ∀ c d n, s ∈ checkEmpty t c d n →
      (∀ x, s.2 = .obj x → t.objHas x = true) ∧ (∀ k x, s.2 = .meth k x → t.methHas k x = true) := by
    intro c d n hm
    obtain ⟨rfl, _, h2⟩ := mem_checkEmpty t c d n s hm
    exact ⟨fun x hx => by simp only at hx; subst hx; exact h2, fun k x hx => by simp only at hx; subst hx; exact h2⟩
  have hc : ∀ c d n to, s ∈ checkCmp t c d n to →
      (∀ x, s.2 = .obj x → t.objHas x = true) ∧ (∀ k x, s.2 = .meth k x → t.methHas k x = true) := by
    intro c d n to hm
    unfold checkCmp at hm
    split at hm
    · by_cases hi : t.inEmpty = true
      · rw [if_pos hi] at hm; cases hm
      · rw [if_neg hi] at hm
        rename_i x0 n0
        unfold checkLen at hm
        split at hm
        · cases hm
        · split at hm
          · rename_i ho
            have : s = (n, .obj x0) := by simpa using hm
            subst this
            exact ⟨fun x hx => by cases hx; exact ho, fun k x hx => by cases hx⟩
          · cases hm
    · cases hm
    · cases hm
    · cases hm
    · exact he _ _ n hm
  rcases h with h | h | h
  · cases o <;> simp only [check] at h
    all_goals try (rcases List.mem_append.1 h with h | h)
    all_goals first | exact hc _ _ _ _ h | (cases h; done)
  · exact he _ _ _ h
  · unfold checkLet at h
    by_cases hp : (pat && hasIsEmpty t a) = true
    · rw [if_pos hp] at h
      simp only [Bool.and_eq_true] at hp
      have : s = (false, a) := by simpa using h
      subst this
      exact ⟨fun x hx => by simp only at hx; subst hx; exact hp.2, fun k x hx => by simp only at hx; subst hx; exact hp.2⟩
    · rw [if_neg hp] at h; cases h

example : check ⟨false, fun x => x == 3, fun _ _ => true⟩ .eq (.obj 3) (.str []) = [(false, .obj 3)] ∧
    check ⟨false, fun x => x == 3, fun _ _ => true⟩ .eq (.obj 4) (.str []) = [] := by decide +kernel

/-! ## Findings -/

/-- `x < ""` (never true) becomes `x.is_empty()`, `x >= ""` (always true) becomes `!x.is_empty()`, and the same with the
operands swapped. -/
theorem order_wrong (I : Sem) (x : Nat) :
    (check all .lt (.obj x) (.str []) = [(false, .obj x)] ∧ compare I .lt (.obj x) (.str []) = some false) ∧
    (check all .ge (.obj x) (.str []) = [(true, .obj x)] ∧ compare I .ge (.obj x) (.str []) = some true) ∧
    (check all .gt (.str []) (.obj x) = [(false, .obj x)] ∧ compare I .gt (.str []) (.obj x) = some false) ∧
    (check all .le (.str []) (.obj x) = [(true, .obj x)] ∧ compare I .le (.str []) (.obj x) = some true) := by
  refine ⟨⟨rfl, ?_⟩, ⟨rfl, ?_⟩, ⟨rfl, ?_⟩, ⟨rfl, ?_⟩⟩ <;> simp [compare, Opd.eval, seqs, before_nil]

/-- Concretely, for the empty object 0 the suggestion for `x < ""` is true. -/
theorem order_wrong_value : compare lists .lt (.obj 0) (.str []) ≠ isEmpty lists false (.obj 0) := by decide +kernel

/-- `x.len() <= 0` and `0 >= x.len()` are not reported. -/
theorem at_most_zero_missed (x : Nat) : check all .le (.len x) (.int 0) = [] ∧ check all .ge (.int 0) (.len x) = [] := ⟨rfl, rfl⟩

/-- `x.trim() == ""` is not reported, because a method call and a literal are taken for a length and a number. -/
theorem method_missed (k x : Nat) : check all .eq (.meth k x) (.str []) = [] ∧ check all .eq (.meth k x) (.arr []) = [(false, .meth k x)] :=
  ⟨rfl, rfl⟩

end Verif.Empty
