import Verif.NumLit.Spec

/-!
# Helper lemmas about digit grouping and literal parsing
-/

namespace Verif.NumLit
open Verif

theorem digitsOf_append (a b : Str) : digitsOf (a ++ b) = digitsOf a ++ digitsOf b := by
  simp [digitsOf]

theorem digitsOf_idem (a : Str) : digitsOf (digitsOf a) = digitsOf a := by
  simp [digitsOf]

theorem digitsOf_eq_self {a : Str} (h : '_' ∉ a) : digitsOf a = a := by
  unfold digitsOf
  rw [List.filter_eq_self]
  intro c hc
  have : c ≠ '_' := fun e => h (e ▸ hc)
  simpa using this

theorem not_mem_digitsOf (a : Str) : '_' ∉ digitsOf a := by
  simp [digitsOf]

theorem cycleDigits_digits (size : Nat) (s : Str) (h : '_' ∉ s) : ∀ i,
    digitsOf (cycleDigits size i s) = s := by
  induction s with
  | nil => intro i; simp [cycleDigits, digitsOf]
  | cons c cs ih =>
    intro i
    have hc : c ≠ '_' := fun e => h (by simp [e])
    have := ih (fun e => h (by simp [e])) ((i + 1) % size)
    simp only [digitsOf] at this
    simp only [cycleDigits, digitsOf, List.filter_append, this]
    split <;> simp [hc]

theorem cycleDigits_mem (size : Nat) (s : Str) : ∀ i, ∀ c ∈ cycleDigits size i s, c ∈ s ∨ c = '_' := by
  induction s with
  | nil => intro i c h; simp [cycleDigits] at h
  | cons d ds ih =>
    intro i c h
    simp only [cycleDigits, List.mem_append] at h
    rcases h with h | h
    · split at h <;> simp at h
      · rcases h with h | h <;> simp [h]
      · simp [h]
    · rcases ih _ c h with h | h <;> simp [h]

/-- The grouped form of digits whose first group has `first` digits. -/
def grouped (size first : Nat) (ds : Str) : Str := ds.take first ++ cycleDigits size 0 (ds.drop first)

theorem grouped_digits (size first : Nat) (ds : Str) (h : '_' ∉ ds) :
    digitsOf (grouped size first ds) = ds := by
  unfold grouped
  rw [digitsOf_append, digitsOf_eq_self (fun e => h (List.mem_of_mem_take e)),
    cycleDigits_digits _ _ (fun e => h (List.mem_of_mem_drop e)), List.take_append_drop]

theorem grouped_mem (size first : Nat) (ds : Str) : ∀ c ∈ grouped size first ds, c ∈ ds ∨ c = '_' := by
  intro c h
  rcases List.mem_append.mp h with h | h
  · exact Or.inl (List.mem_of_mem_take h)
  · rcases cycleDigits_mem _ _ _ c h with h | h
    · exact Or.inl (List.mem_of_mem_drop h)
    · exact Or.inr h

theorem grouped_head (size first : Nat) (ds : Str) (hf : 0 < first) :
    (grouped size first ds).head? = ds.head? := by
  cases ds with
  | nil => simp [grouped, cycleDigits]
  | cons c cs =>
    obtain ⟨k, rfl⟩ : ∃ k, first = k + 1 := ⟨first - 1, by omega⟩
    simp [grouped]

/-- Size of the first group when the remainder comes first. -/
def firstSize (size n : Nat) : Nat := (n - 1) % size + 1

/-- What `group_digits` writes for digits without sign. -/
theorem groupDigits_unsigned (input : Str) (size : Nat) (p z : Bool)
    (hne : digitsOf input ≠ []) (hs : (digitsOf input).head? ≠ some '-') :
    groupDigits input size p z = some
      ((if p && z then List.replicate (size - firstSize size (digitsOf input).length) '0' else []) ++
        grouped size (if p then firstSize size (digitsOf input).length else size) (digitsOf input)) := by
  have hl : (digitsOf input).length ≠ 0 := by
    intro e; exact hne (List.length_eq_zero_iff.mp e)
  unfold digitsOf at *
  unfold groupDigits
  simp only [if_neg hs]
  cases p
  · simp [grouped]
  · simp only [if_true, if_neg hl, Bool.true_and, List.nil_append]
    cases z <;> simp [grouped, firstSize]

/-- What `group_digits` writes for digits after a minus sign. -/
theorem groupDigits_minus (input : Str) (size : Nat) (ds : Str) (z : Bool)
    (hin : digitsOf input = '-' :: ds) (hne : ds ≠ []) :
    groupDigits input size true z = some
      ('-' :: (if z then List.replicate (size - firstSize size ds.length) '0' else []) ++
        grouped size (firstSize size ds.length) ds) := by
  have hl : ds.length ≠ 0 := by intro e; exact hne (List.length_eq_zero_iff.mp e)
  unfold digitsOf at hin
  unfold groupDigits
  simp only [hin, List.head?_cons, if_true, List.tail_cons, if_neg hl]
  cases z <;> simp [grouped, firstSize]

theorem groupDigits_empty_frac (input : Str) (size : Nat) (z : Bool) (h : digitsOf input = []) :
    groupDigits input size false z = some [] := by
  unfold digitsOf at h
  unfold groupDigits
  simp [h, cycleDigits]

/-! ## Values -/

theorem natVal_append (b : Nat) (xs ys : Str) :
    natVal b (xs ++ ys) = natVal b xs * b ^ ys.length + natVal b ys := by
  unfold natVal
  rw [List.foldl_append]
  generalize xs.foldl (fun n c => n * b + digitVal c) 0 = n
  suffices ∀ n m : Nat, ys.foldl (fun n c => n * b + digitVal c) (n + m) =
      n * b ^ ys.length + ys.foldl (fun n c => n * b + digitVal c) m by
    simpa using this n 0
  induction ys with
  | nil => intro n m; simp
  | cons c cs ih =>
    intro n m
    simp only [List.foldl_cons, List.length_cons]
    rw [show (n + m) * b + digitVal c = n * b + (m * b + digitVal c) by rw [Nat.add_mul]; omega, ih,
      Nat.mul_assoc, Nat.pow_succ, Nat.mul_comm b]

theorem natVal_zeros (b k : Nat) : natVal b (List.replicate k '0') = 0 := by
  induction k with
  | zero => rfl
  | succ k ih => rw [List.replicate_succ', natVal_append, ih]; simp [natVal, digitVal]

theorem natVal_pad (b k : Nat) (ds : Str) : natVal b (List.replicate k '0' ++ ds) = natVal b ds := by
  rw [natVal_append, natVal_zeros]; simp

/-! ## Splitting into parts -/

/-- No character the splitting loop reacts to. -/
def Plain (s : Str) : Prop := '.' ∉ s ∧ 'e' ∉ s ∧ 'E' ∉ s

theorem splitGo_skip (digits w rest integer : Str) (fraction : Option Str) (h : Plain w) : ∀ i,
    splitGo digits i (w ++ rest) integer fraction = splitGo digits (i + w.length) rest integer fraction := by
  induction w with
  | nil => intro i; simp
  | cons c cs ih =>
    intro i
    have h1 : c ≠ '.' := fun e => h.1 (by simp [e])
    have h2 : ¬ (c = 'e' ∨ c = 'E') := by
      rintro (e | e)
      · exact h.2.1 (by simp [e])
      · exact h.2.2 (by simp [e])
    have hp : Plain cs := ⟨fun e => h.1 (by simp [e]), fun e => h.2.1 (by simp [e]),
      fun e => h.2.2 (by simp [e])⟩
    rw [List.cons_append, splitGo, if_neg h1, if_neg h2, ih hp, List.length_cons]
    congr 1; omega

/-- A digit text with at most one trailing underscore split off. -/
def cut (s : Str) : Str := if s.getLast? = some '_' then s.dropLast else s

theorem cut_spec (s : Str) : s = cut s ∨ s = cut s ++ ['_'] := by
  unfold cut
  split
  · rename_i h
    right
    have hne : s ≠ [] := by rintro rfl; simp at h
    have := List.dropLast_concat_getLast hne
    rw [List.getLast?_eq_some_getLast hne] at h
    simp at h
    rw [h] at this
    exact this.symm
  · exact Or.inl rfl

theorem cut_digits (s : Str) : digitsOf (cut s) = digitsOf s := by
  rcases cut_spec s with h | h
  · rw [← h]
  · conv => rhs; rw [h]
    simp [digitsOf]

theorem cut_prefix (s : Str) : cut s <+: s := by
  rcases cut_spec s with h | h
  · rw [← h]; exact List.prefix_refl _
  · exact ⟨['_'], h.symm⟩

/-- The exponent marker together with the underscore taken from the part before it. -/
def sepOf (s : Str) (m : Char) : Str := if s.getLast? = some '_' then ['_', m] else [m]

theorem cut_sep (s : Str) (m : Char) : cut s ++ sepOf s m = s ++ [m] := by
  unfold sepOf
  rcases cut_spec s with h | h
  · split
    · rename_i hl
      exfalso
      unfold cut at h
      rw [if_pos hl] at h
      have hlen := congrArg List.length h
      have hne : s ≠ [] := by rintro rfl; simp at hl
      have : s.length ≠ 0 := fun e => hne (List.length_eq_zero_iff.mp e)
      rw [List.length_dropLast] at hlen
      omega
    · rw [← h]
  · split
    · conv => rhs; rw [h]
      simp
    · rename_i hl
      exfalso
      apply hl
      rw [h]; simp

theorem split_int (int : Str) (hp : Plain int) :
    splitDigitParts int true = (int, none, none) := by
  unfold splitDigitParts
  have := splitGo_skip int int [] int none hp 0
  simp only [List.append_nil] at this
  simp [this, splitGo]

theorem split_frac (int f : Str) (hp : Plain int) (hf : Plain f) :
    splitDigitParts (int ++ '.' :: f) true = (int, some f, none) := by
  unfold splitDigitParts
  simp only [if_true]
  rw [splitGo_skip _ int _ _ _ hp, splitGo, if_pos rfl]
  have := splitGo_skip (int ++ '.' :: f) f [] ((int ++ '.' :: f).take (0 + int.length))
    (some ((int ++ '.' :: f).drop (0 + int.length + 1))) hf (0 + int.length + 1)
  simp only [List.append_nil] at this
  rw [this, splitGo]
  simp

theorem split_exp (int ex : Str) (m : Char) (hm : m = 'e' ∨ m = 'E') (hp : Plain int) :
    splitDigitParts (int ++ m :: ex) true = (cut int, none, some (sepOf int m, ex)) := by
  unfold splitDigitParts
  simp only [if_true]
  have hm' : m ≠ '.' := by rcases hm with rfl | rfl <;> decide
  rw [splitGo_skip _ int _ _ _ hp, splitGo, if_neg hm', if_pos hm]
  simp only [Nat.zero_add, List.take_left']
  by_cases hl : int.getLast? = some '_'
  · have hne : int ≠ [] := by rintro rfl; simp at hl
    have hlen : int.length ≠ 0 := fun e => hne (List.length_eq_zero_iff.mp e)
    simp only [hl, if_true]
    rw [if_pos (by simp; omega)]
    have e2 : int ++ m :: ex = int.dropLast ++ '_' :: m :: ex := by
      rcases cut_spec int with h | h
      · exfalso
        unfold cut at h
        rw [if_pos hl] at h
        have := congrArg List.length h
        simp at this
        omega
      · unfold cut at h
        rw [if_pos hl] at h
        conv => lhs; rw [h]
        simp
    have hdl : int.dropLast.length = int.length - 1 := by simp
    simp only [cut, sepOf, hl, if_true, Prod.mk.injEq, Option.some.injEq, true_and]
    refine ⟨?_, ?_, ?_⟩
    · rw [e2, ← hdl]; simp
    · rw [e2, ← hdl, show int.length + 1 = int.dropLast.length + 2 by omega,
        List.take_append, List.drop_append]
      simp
    · simp
  · simp only [hl, if_false]
    rw [if_pos (by simp)]
    simp only [cut, sepOf, hl, if_false, Prod.mk.injEq, Option.some.injEq, true_and]
    refine ⟨by simp, ?_, by simp⟩
    rw [List.take_append, List.drop_append]
    simp

theorem split_frac_exp (int f ex : Str) (m : Char) (hm : m = 'e' ∨ m = 'E') (hp : Plain int)
    (hf : Plain f) :
    splitDigitParts (int ++ '.' :: (f ++ m :: ex)) true = (int, some (cut f), some (sepOf f m, ex)) := by
  unfold splitDigitParts
  simp only [if_true]
  have hm' : m ≠ '.' := by rcases hm with rfl | rfl <;> decide
  rw [splitGo_skip _ int _ _ _ hp, splitGo, if_pos rfl, splitGo_skip _ f _ _ _ hf, splitGo, if_neg hm',
    if_pos hm]
  have e0 : int ++ '.' :: (f ++ m :: ex) = (int ++ '.' :: f) ++ m :: ex := by simp
  have hlen : 0 + int.length + 1 + f.length = (int ++ '.' :: f).length := by simp; omega
  rw [hlen, e0, List.take_left]
  have hint : ((int ++ '.' :: f) ++ m :: ex).take (0 + int.length) = int := by simp
  rw [hint]
  by_cases hl : f.getLast? = some '_'
  · have hne : f ≠ [] := by rintro rfl; simp at hl
    have hl' : (int ++ '.' :: f).getLast? = some '_' := by
      rw [List.getLast?_append, List.getLast?_cons, hl]; rfl
    simp only [hl', if_true]
    have hflen : f.length ≠ 0 := fun e => hne (List.length_eq_zero_iff.mp e)
    rw [if_neg (by simp)]
    have hfd : f = f.dropLast ++ ['_'] := by
      rcases cut_spec f with h | h
      · exfalso
        unfold cut at h
        rw [if_pos hl] at h
        have := congrArg List.length h
        simp at this
        omega
      · unfold cut at h
        rwa [if_pos hl] at h
    have e2 : (int ++ '.' :: f) ++ m :: ex = (int ++ '.' :: f.dropLast) ++ '_' :: m :: ex := by
      conv => lhs; rw [hfd]
      simp
    have hdl : (int ++ '.' :: f).length - 1 = (int ++ '.' :: f.dropLast).length := by
      simp; omega
    simp only [cut, sepOf, hl, if_true, Prod.mk.injEq, Option.some.injEq, true_and]
    refine ⟨?_, ?_, ?_⟩
    · rw [hdl, e2, List.take_left, List.drop_append]; simp
    · rw [show (int ++ '.' :: f).length + 1 = (int ++ '.' :: f.dropLast).length + 2 by
        simp; omega, hdl, e2, List.take_append, List.drop_append]
      simp
    · rw [List.drop_append]; simp
  · have hl' : (int ++ '.' :: f).getLast? ≠ some '_' := by
      rw [List.getLast?_append, List.getLast?_cons]
      cases hg : f.getLast? with
      | none => simp
      | some c => rw [hg] at hl; simpa using hl
    simp only [hl', if_false]
    rw [if_neg (by simp)]
    simp only [cut, sepOf, hl, if_false, Prod.mk.injEq, Option.some.injEq, true_and]
    refine ⟨?_, ?_, ?_⟩
    · rw [List.take_left, List.drop_append]; simp
    · rw [List.take_append, List.drop_append]; simp
    · rw [List.drop_append]; simp

end Verif.NumLit
