import Verif.NumLit.Parse

/-!
# What the printer makes of the parts of a literal
-/

namespace Verif.NumLit
open Verif

theorem digitsOf_text {r : Radix} {s : Str} (h : DigitText r s) : ∀ c ∈ digitsOf s, IsDigit r c := by
  intro c hc
  have hm : c ∈ s := (List.mem_filter.mp hc).1
  rcases h c hm with h | h
  · exact h
  · exact absurd (h ▸ hc) (not_mem_digitsOf s)

theorem digits_head_ne_minus {r : Radix} {s : Str} (h : DigitText r s) :
    (digitsOf s).head? ≠ some '-' := by
  intro e
  have hm : '-' ∈ digitsOf s := List.mem_of_head? e
  have := digitsOf_text h '-' hm
  have hb : r.base ≤ 16 := by cases r <;> simp [Radix.base]
  have h36 : digitVal '-' = 36 := by decide
  unfold IsDigit at this
  omega

theorem zero_digit (r : Radix) : IsDigit r '0' := by
  unfold IsDigit; cases r <;> decide

theorem firstSize_pos (size n : Nat) : 0 < firstSize size n := by unfold firstSize; omega

/-- The integer part as printed. -/
def printedInt (r : Radix) (ds : Str) : Str :=
  (if r = .hexadecimal then List.replicate (r.grouping - firstSize r.grouping ds.length) '0' else []) ++
    grouped r.grouping (firstSize r.grouping ds.length) ds

theorem grouped_text {r : Radix} {size first : Nat} {ds : Str} (h : ∀ c ∈ ds, IsDigit r c) :
    DigitText r (grouped size first ds) := by
  intro c hc
  rcases grouped_mem _ _ _ c hc with hc | hc
  · exact Or.inl (h c hc)
  · exact Or.inr hc

theorem printedInt_text {r : Radix} {ds : Str} (h : ∀ c ∈ ds, IsDigit r c) :
    DigitText r (printedInt r ds) := by
  intro c hc
  rcases List.mem_append.mp hc with hc | hc
  · split at hc
    · rw [List.eq_of_mem_replicate hc]; exact Or.inl (zero_digit r)
    · simp at hc
  · exact grouped_text h c hc

theorem printedInt_digits {r : Radix} {ds : Str} (h : '_' ∉ ds) :
    ∃ k, digitsOf (printedInt r ds) = List.replicate k '0' ++ ds := by
  refine ⟨if r = .hexadecimal then r.grouping - firstSize r.grouping ds.length else 0, ?_⟩
  unfold printedInt
  rw [digitsOf_append, grouped_digits _ _ _ h]
  split
  · rw [digitsOf_eq_self]
    intro e; exact absurd (List.eq_of_mem_replicate e) (by decide)
  · rfl

theorem printedInt_head {r : Radix} {ds : Str} (h : '_' ∉ ds) (hne : ds ≠ []) :
    ∃ c ∈ (printedInt r ds).head?, c ≠ '_' := by
  obtain ⟨c, cs, rfl⟩ := List.exists_cons_of_ne_nil hne
  have hc : c ≠ '_' := fun e => h (by simp [e])
  have hg : (grouped r.grouping (firstSize r.grouping (c :: cs).length) (c :: cs)).head? = some c := by
    rw [grouped_head _ _ _ (firstSize_pos _ _)]; rfl
  unfold printedInt
  rw [List.head?_append, hg]
  split
  · cases r.grouping - firstSize r.grouping (c :: cs).length with
    | zero => exact ⟨c, by simp, hc⟩
    | succ k => exact ⟨'0', by simp [List.replicate_succ], by decide⟩
  · exact ⟨c, by simp, hc⟩

theorem int_printed {l : Lit} (h : Input l) {n : Num} {suffix : Option Str} (hp : Parsed l suffix n) :
    groupDigits n.integer n.radix.grouping true (n.radix = .hexadecimal) =
      some (negText l.neg ++ printedInt l.radix (digitsOf l.int)) := by
  have hne := WF.int_digit h.wf
  have hint := hp.int
  rw [hp.radix]
  cases hn : l.neg with
  | false =>
    rw [hn] at hint
    simp only [negText, Bool.false_eq_true, if_false, List.nil_append] at hint ⊢
    rw [groupDigits_unsigned _ _ _ _ (by rw [hint]; exact hne)
      (by rw [hint]; exact digits_head_ne_minus (WF.int_text h.wf)), hint]
    simp [printedInt]
  | true =>
    rw [hn] at hint
    simp only [negText, if_true, List.cons_append, List.nil_append] at hint ⊢
    have hd := h.neg hn
    rw [groupDigits_minus _ _ _ _ hint hne]
    simp [printedInt, hd]

theorem frac_printed {f g : Str} (size : Nat) (hsize : 0 < size) (ht : DigitText .decimal f)
    (hg : digitsOf g = digitsOf f) :
    groupDigits g size false false = some (grouped size size (digitsOf f)) := by
  by_cases hne : digitsOf f = []
  · rw [groupDigits_empty_frac _ _ _ (hg.trans hne), hne]; simp [grouped, cycleDigits]
  · rw [groupDigits_unsigned _ _ _ _ (by rw [hg]; exact hne)
      (by rw [hg]; exact digits_head_ne_minus ht), hg]
    simp

theorem exp_printed {s : Sign} {d ex : Str} (size : Nat) (ht : DigitText .decimal d)
    (hne : digitsOf d ≠ []) (hex : digitsOf ex = s.text ++ digitsOf d) :
    ∃ E, groupDigits ex size true false = some (s.text ++ E) ∧ digitsOf E = digitsOf d ∧
      DigitText .decimal E := by
  have hall := digitsOf_text ht
  cases s with
  | none =>
    simp only [Sign.text, List.nil_append] at hex ⊢
    refine ⟨_, by rw [groupDigits_unsigned _ _ _ _ (by rw [hex]; exact hne)
      (by rw [hex]; exact digits_head_ne_minus ht), hex], ?_, ?_⟩
    · simp only [Bool.and_false, Bool.false_eq_true, if_false, if_true, List.nil_append]
      exact grouped_digits _ _ _ (not_mem_digitsOf d)
    · simp only [Bool.and_false, Bool.false_eq_true, if_false, if_true, List.nil_append]
      exact grouped_text hall
  | minus =>
    simp only [Sign.text, List.cons_append, List.nil_append] at hex ⊢
    refine ⟨_, by rw [groupDigits_minus _ _ _ _ hex hne]; simp; rfl, ?_, ?_⟩
    · exact grouped_digits _ _ _ (not_mem_digitsOf d)
    · exact grouped_text hall
  | plus =>
    simp only [Sign.text, List.cons_append, List.nil_append] at hex ⊢
    have hu : '_' ∉ '+' :: digitsOf d := by
      simp only [List.mem_cons, not_or]; exact ⟨by decide, not_mem_digitsOf d⟩
    have hgr := groupDigits_unsigned ex size true false (by rw [hex]; simp) (by rw [hex]; simp)
    rw [hex] at hgr
    simp only [Bool.and_false, Bool.false_eq_true, if_false, if_true, List.nil_append] at hgr
    generalize hfs : firstSize size ('+' :: digitsOf d).length = fs at hgr
    have hfs' : 0 < fs := by rw [← hfs]; exact firstSize_pos _ _
    have hhead := grouped_head size fs ('+' :: digitsOf d) hfs'
    have hdig := grouped_digits size fs ('+' :: digitsOf d) hu
    have hmem := grouped_mem size fs ('+' :: digitsOf d)
    cases hg : grouped size fs ('+' :: digitsOf d) with
    | nil => rw [hg] at hhead; simp at hhead
    | cons c E =>
      rw [hg] at hhead hdig hmem hgr
      simp at hhead
      subst hhead
      have hE : digitsOf E = digitsOf d := by
        simpa [digitsOf] using hdig
      refine ⟨E, hgr, hE, ?_⟩
      intro c hc
      by_cases hcu : c = '_'
      · exact Or.inr hcu
      · left
        apply hall
        rw [← hE]
        exact List.mem_filter.mpr ⟨hc, by simpa using hcu⟩

/-! ## Assembling a literal -/

/-- An optional underscore. -/
def us (b : Bool) : Str := if b then ['_'] else []

theorem us_digits (b : Bool) : digitsOf (us b) = [] := by cases b <;> rfl

theorem us_text (r : Radix) (b : Bool) {s : Str} (h : DigitText r s) : DigitText r (s ++ us b) := by
  intro c hc
  rcases List.mem_append.mp hc with hc | hc
  · exact h c hc
  · cases b <;> simp [us] at hc
    exact Or.inr hc

/-- A literal from printed parts, with underscores after some of them. -/
def assemble (l : Lit) (I : Str) (a1 : Bool) (F : Option Str) (a2 : Bool) (E : Option (Char × Sign × Str))
    (a3 : Bool) : Lit where
  neg := l.neg
  radix := l.radix
  int := I ++ us a1
  frac := F.map (· ++ us a2)
  exp := E.map fun e => (e.1, e.2.1, e.2.2 ++ us a3)

theorem assemble_ok {l : Lit} {I : Str} {a1 : Bool} {F : Option Str} {a2 : Bool}
    {E : Option (Char × Sign × Str)} {a3 : Bool}
    (hI : DigitText l.radix I) (hI' : ∃ c ∈ I.head?, c ≠ '_')
    (hdec : F.isSome ∨ E.isSome → l.radix = .decimal)
    (hF : ∀ f ∈ F, DigitText .decimal f ∧ ∃ c ∈ f.head?, c ≠ '_')
    (hE : ∀ e ∈ E, (e.1 = 'e' ∨ e.1 = 'E') ∧ DigitText .decimal e.2.2 ∧ digitsOf e.2.2 ≠ []) :
    (assemble l I a1 F a2 E a3).Suffixable := by
  obtain ⟨c, hc, hcu⟩ := hI'
  have hIcons : ∃ cs, I = c :: cs := by
    cases I with
    | nil => simp at hc
    | cons x xs => simp at hc; exact ⟨xs, by rw [hc]⟩
  obtain ⟨cs, rfl⟩ := hIcons
  refine ⟨us_text _ _ hI, ?_, ?_, ?_, ?_, ?_⟩
  · simp [assemble, digitsOf, hcu]
  · intro _ x hx
    simp [assemble] at hx
    rw [← hx]; exact hcu
  · intro hff
    apply hdec
    simpa [assemble, Lit.floatForm] using hff
  · intro f hf
    simp only [assemble, Option.mem_def, Option.map_eq_some_iff] at hf
    obtain ⟨f0, hf0, rfl⟩ := hf
    obtain ⟨h1, x, hx, hxu⟩ := hF f0 hf0
    refine ⟨us_text _ _ h1, x, ?_, hxu⟩
    cases f0 with
    | nil => simp at hx
    | cons y ys => simpa using hx
  · intro e he
    simp only [assemble, Option.mem_def, Option.map_eq_some_iff] at he
    obtain ⟨e0, he0, rfl⟩ := he
    obtain ⟨h1, h2, h3⟩ := hE e0 he0
    refine ⟨h1, us_text _ _ h2, ?_⟩
    simpa only [digitsOf_append, us_digits, List.append_nil] using h3

/-- The exponent of a literal, as a number. -/
def expVal (e : Option (Char × Sign × Str)) : Int :=
  match e with
  | some (_, s, d) => s.apply (natVal 10 (digitsOf d))
  | none => 0

theorem value_eq (l : Lit) : l.value = (if l.neg then -1 else 1) *
    (natVal l.radix.base (digitsOf l.int ++ digitsOf (l.frac.getD [])) : Rat) *
    (10 : Rat) ^ (expVal l.exp - ((digitsOf (l.frac.getD [])).length : Int)) := by
  unfold Lit.value expVal
  cases l.exp with
  | none => rfl
  | some e => rfl

theorem assemble_value {l : Lit} {I : Str} {a1 : Bool} {F : Option Str} {a2 : Bool}
    {E : Option (Char × Sign × Str)} {a3 : Bool} {k : Nat}
    (hI : digitsOf I = List.replicate k '0' ++ digitsOf l.int)
    (hF : digitsOf (F.getD []) = digitsOf (l.frac.getD []))
    (hE : expVal E = expVal l.exp) :
    (assemble l I a1 F a2 E a3).value = l.value := by
  rw [value_eq, value_eq]
  have h1 : digitsOf ((assemble l I a1 F a2 E a3).frac.getD []) = digitsOf (l.frac.getD []) := by
    rw [← hF]
    cases F with
    | none => rfl
    | some f => simp only [assemble, Option.map_some, Option.getD_some, digitsOf_append, us_digits,
        List.append_nil]
  have h2 : expVal (assemble l I a1 F a2 E a3).exp = expVal l.exp := by
    rw [← hE]
    cases E with
    | none => rfl
    | some e => simp only [assemble, expVal, Option.map_some, digitsOf_append, us_digits,
        List.append_nil]
  have h3 : digitsOf (assemble l I a1 F a2 E a3).int = List.replicate k '0' ++ digitsOf l.int := by
    simp only [assemble, digitsOf_append, us_digits, List.append_nil, hI]
  rw [h1, h2, h3, List.append_assoc, natVal_pad]
  rfl

/-- Appending `.0` to a decimal literal with neither fraction digits nor exponent keeps its value. -/
theorem assemble_value_zero {l : Lit} {I : Str} {a1 a2 a3 : Bool} {k : Nat}
    (hI : digitsOf I = List.replicate k '0' ++ digitsOf l.int) (hr : l.radix = .decimal)
    (hF : digitsOf (l.frac.getD []) = []) (hE : expVal l.exp = 0) :
    (assemble l I a1 (some ['0']) a2 none a3).value = l.value := by
  rw [value_eq, value_eq]
  have h1 : digitsOf ((assemble l I a1 (some ['0']) a2 none a3).frac.getD []) = ['0'] := by
    simp only [assemble, Option.map_some, Option.getD_some, digitsOf_append, us_digits,
        List.append_nil]
    rfl
  have h3 : digitsOf (assemble l I a1 (some ['0']) a2 none a3).int =
      List.replicate k '0' ++ digitsOf l.int := by
    simp only [assemble, digitsOf_append, us_digits, List.append_nil, hI]
  have h4 : expVal (assemble l I a1 (some ['0']) a2 none a3).exp = 0 := rfl
  rw [h1, h3, h4, hF, hE, List.append_assoc, natVal_pad]
  have hb : (assemble l I a1 (some ['0']) a2 none a3).radix.base = 10 := by
    show l.radix.base = 10
    rw [hr]; rfl
  have hn : (assemble l I a1 (some ['0']) a2 none a3).neg = l.neg := rfl
  have hb' : l.radix.base = 10 := by rw [hr]; rfl
  rw [hb, hb', hn, natVal_append, List.append_nil]
  have hz : natVal 10 ['0'] = 0 := by decide
  rw [hz]
  simp only [List.length_cons, List.length_nil, Nat.add_zero, Nat.zero_add, Nat.pow_one]
  have h10 : (10 : Rat) ^ ((0 : Int) - ((1 : Nat) : Int)) = (1 : Rat) / 10 := by decide +kernel
  have h00 : (10 : Rat) ^ ((0 : Int) - ((0 : Nat) : Int)) = 1 := by decide +kernel
  rw [h10, h00, Rat.mul_one]
  generalize natVal 10 (digitsOf l.int) = v
  generalize (if l.neg = true then -1 else 1 : Rat) = sg
  rw [Rat.mul_assoc]
  congr 1
  rw [Rat.natCast_mul, Rat.mul_assoc]
  have : ((10 : Nat) : Rat) * (1 / 10) = 1 := by decide +kernel
  rw [this, Rat.mul_one]

end Verif.NumLit
