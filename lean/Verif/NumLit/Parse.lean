import Verif.NumLit.Lemmas

/-!
# What the parser makes of a literal, and what the printer makes of the parts
-/

namespace Verif.NumLit
open Verif

/-- A leading minus sign. -/
def negText (neg : Bool) : Str := if neg then ['-'] else []

/-- The parsed form `n` has the parts of the literal `l` (up to underscores). -/
structure Parsed (l : Lit) (suffix : Option Str) (n : Num) : Prop where
  radix : n.radix = l.radix
  pre : n.pre.getD [] = l.radix.text
  suffix : n.suffix = suffix
  int : digitsOf n.integer = negText l.neg ++ digitsOf l.int
  frac : (l.frac = none ∧ n.fraction = none) ∨
    ∃ f g, l.frac = some f ∧ n.fraction = some g ∧ digitsOf g = digitsOf f
  exp : (l.exp = none ∧ n.exponent = none) ∨
    ∃ m s d sep ex, l.exp = some (m, s, d) ∧ n.exponent = some (sep, ex) ∧
      (sep = [m] ∨ sep = ['_', m]) ∧ digitsOf ex = s.text ++ digitsOf d

theorem digit_ne {r : Radix} {c x : Char} (h : IsDigit r c ∨ c = '_') (hx : 16 ≤ digitVal x)
    (hx' : x ≠ '_') : c ≠ x := by
  rintro rfl
  rcases h with h | h
  · have : r.base ≤ 16 := by cases r <;> simp [Radix.base]
    unfold IsDigit at h
    omega
  · exact hx' h

theorem digitText_plain {s : Str} (h : DigitText .decimal s) : Plain s := by
  refine ⟨fun e => ?_, fun e => ?_, fun e => ?_⟩
  · exact digit_ne (h _ e) (by decide) (by decide) rfl
  · rcases h _ e with h | h
    · exact absurd h (by unfold IsDigit; decide)
    · exact absurd h (by decide)
  · rcases h _ e with h | h
    · exact absurd h (by unfold IsDigit; decide)
    · exact absurd h (by decide)

theorem cut_append (a b : Str) (c : Char) (hc : c ≠ '_') : cut (a ++ c :: b) = a ++ c :: cut b := by
  have hlast : (a ++ c :: b).getLast? = some (b.getLast?.getD c) := by
    rw [List.getLast?_append, List.getLast?_cons]; rfl
  unfold cut
  cases hb : b.getLast? with
  | none =>
    have : b = [] := List.getLast?_eq_none_iff.mp hb
    subst this
    simp [hc]
  | some x =>
    have hne : b ≠ [] := by rintro rfl; simp at hb
    rw [hb] at hlast
    by_cases hx : (some x : Option Char) = some '_'
    · rw [if_pos (hlast.trans hx), if_pos hx]
      obtain ⟨y, ys, rfl⟩ := List.exists_cons_of_ne_nil hne
      rw [List.dropLast_append_of_ne_nil (by simp)]
      rfl
    · rw [if_neg (fun e => hx (hlast.symm.trans e)), if_neg hx]

/-- Trimming of the underscore before a suffix. -/
def trim (suffix : Option Str) (s : Str) : Str := if suffix.isSome then cut s else s

theorem trim_digits (suffix : Option Str) (s : Str) : digitsOf (trim suffix s) = digitsOf s := by
  unfold trim; split
  · exact cut_digits s
  · rfl

theorem trim_append (suffix : Option Str) (a b : Str) (c : Char) (hc : c ≠ '_') :
    trim suffix (a ++ c :: b) = a ++ c :: trim suffix b := by
  unfold trim; split
  · exact cut_append a b c hc
  · rfl

theorem trim_subset (suffix : Option Str) (s : Str) : ∀ c ∈ trim suffix s, c ∈ s := by
  unfold trim; split
  · exact fun c h => (cut_prefix s).subset h
  · exact fun c h => h

/-- What follows the integer part. -/
def tailText (l : Lit) : Str :=
  (match l.frac with | some f => '.' :: f | none => []) ++
  (match l.exp with | some (m, s, d) => m :: s.text ++ d | none => [])

theorem text_eq (l : Lit) : l.text = negText l.neg ++ (l.radix.text ++ (l.int ++ tailText l)) := by
  unfold Lit.text tailText negText
  cases l.frac <;> cases l.exp <;> simp only [List.append_assoc]

/-- Literals the parser is given: well-formed, and only decimal ones may have a sign. -/
structure Input (l : Lit) : Prop where
  wf : l.WF
  neg : l.neg = true → l.radix = .decimal

theorem WF.int_text {l : Lit} (h : l.WF) : DigitText l.radix l.int := by
  rcases h with h | ⟨_, _, h, _⟩
  · exact h.int_text
  · exact h.int_text

theorem WF.int_digit {l : Lit} (h : l.WF) : digitsOf l.int ≠ [] := by
  rcases h with h | ⟨_, _, h, _⟩
  · exact h.int_digit
  · exact h.int_digit

theorem WF.int_start {l : Lit} (h : l.WF) : l.radix = .decimal → ∀ c ∈ l.int.head?, c ≠ '_' := by
  rcases h with h | ⟨_, _, h, _⟩
  · exact h.int_start
  · exact h.int_start

theorem WF.decimal {l : Lit} (h : l.WF) (hf : l.floatForm = true) : l.radix = .decimal := by
  rcases h with h | ⟨_, _, _, h⟩
  · exact h.float_decimal hf
  · exact h

theorem WF.exp_text {l : Lit} (h : l.WF) : ∀ e ∈ l.exp, (e.1 = 'e' ∨ e.1 = 'E') ∧
    DigitText .decimal e.2.2 ∧ digitsOf e.2.2 ≠ [] := by
  rcases h with h | ⟨_, h, _⟩
  · exact h.exp_text
  · intro e he; rw [h] at he; simp at he

theorem WF.frac_text {l : Lit} (h : l.WF) : ∀ f ∈ l.frac, DigitText .decimal f ∧
    (f = [] ∧ l.exp = none ∨ ∃ c ∈ f.head?, c ≠ '_') := by
  rcases h with h | ⟨h1, h2, _⟩
  · intro f hf; exact ⟨(h.frac_text f hf).1, Or.inr (h.frac_text f hf).2⟩
  · intro f hf
    rw [h1] at hf
    simp at hf
    subst hf
    exact ⟨by intro c hc; simp at hc, Or.inl ⟨rfl, h2⟩⟩

theorem tail_head {l : Lit} (h : l.WF) : ∀ c ∈ (tailText l).head?, c = '.' ∨ c = 'e' ∨ c = 'E' := by
  intro c hc
  unfold tailText at hc
  cases hf : l.frac with
  | some f => rw [hf] at hc; simp at hc; exact Or.inl hc.symm
  | none =>
    rw [hf] at hc
    cases he : l.exp with
    | none => rw [he] at hc; simp at hc
    | some e =>
      obtain ⟨m, s, d⟩ := e
      rw [he] at hc
      simp at hc
      subst hc
      exact Or.inr (WF.exp_text h _ he).1

theorem radixOf_text {l : Lit} (h : Input l) : radixOf l.text = l.radix := by
  rw [text_eq]
  cases hr : l.radix with
  | decimal =>
    have hne : l.int ≠ [] := by intro e; exact WF.int_digit h.wf (by rw [e]; rfl)
    obtain ⟨c, cs, hint⟩ := List.exists_cons_of_ne_nil hne
    have hc : c ≠ '_' := WF.int_start h.wf hr c (by rw [hint]; rfl)
    have hctext : ∀ x ∈ l.int, IsDigit .decimal x ∨ x = '_' := by
      have := WF.int_text h.wf
      rw [hr] at this; exact this
    have hdrop : (negText l.neg ++ (Radix.decimal.text ++ (l.int ++ tailText l))).dropWhile (· == '-') =
        l.int ++ tailText l := by
      have hcm : (c == '-') = false := by
        have := digit_ne (x := '-') (hctext c (by rw [hint]; simp)) (by decide) (by decide)
        simpa using this
      rw [hint]
      cases l.neg <;> simp [negText, Radix.text, List.dropWhile_cons, hcm]
    have hsecond : ∀ x, x ≠ '.' → x ≠ 'e' → x ≠ 'E' → 10 ≤ digitVal x → x ≠ '_' →
        ['0', x].isPrefixOf (l.int ++ tailText l) = false := by
      intro x h1 h2 h3 h4 h5
      rw [Bool.eq_false_iff]
      intro hp
      rw [hint] at hp
      cases cs with
      | nil =>
        simp only [List.cons_append, List.nil_append, List.isPrefixOf, Bool.and_eq_true, beq_iff_eq] at hp
        cases ht : tailText l with
        | nil => rw [ht] at hp; simp [List.isPrefixOf] at hp
        | cons y ys =>
          rw [ht] at hp
          simp only [List.isPrefixOf, Bool.and_eq_true, beq_iff_eq] at hp
          have := tail_head h.wf y (by rw [ht]; rfl)
          rw [← hp.2.1] at this
          rcases this with e | e | e
          · exact h1 e
          · exact h2 e
          · exact h3 e
      | cons y ys =>
        simp only [List.cons_append, List.isPrefixOf, Bool.and_eq_true, beq_iff_eq] at hp
        have hy := hctext y (by rw [hint]; simp)
        rw [← hp.2.1] at hy
        rcases hy with hy | hy
        · have : digitVal x < 10 := hy
          omega
        · exact h5 hy
    unfold radixOf
    simp only [hdrop]
    rw [hsecond 'x' (by decide) (by decide) (by decide) (by decide) (by decide),
      hsecond 'b' (by decide) (by decide) (by decide) (by decide) (by decide),
      hsecond 'o' (by decide) (by decide) (by decide) (by decide) (by decide)]
    rfl
  | hexadecimal =>
    have hn : l.neg = false := by
      cases hn : l.neg with
      | false => rfl
      | true => exact absurd (h.neg hn) (by rw [hr]; decide)
    simp [radixOf, hn, negText, Radix.text, List.isPrefixOf]
  | binary =>
    have hn : l.neg = false := by
      cases hn : l.neg with
      | false => rfl
      | true => exact absurd (h.neg hn) (by rw [hr]; decide)
    simp [radixOf, hn, negText, Radix.text, List.isPrefixOf]
  | octal =>
    have hn : l.neg = false := by
      cases hn : l.neg with
      | false => rfl
      | true => exact absurd (h.neg hn) (by rw [hr]; decide)
    simp [radixOf, hn, negText, Radix.text, List.isPrefixOf]

/-- `parse` splits off the prefix, trims, and splits the rest. -/
theorem parse_eq {l : Lit} (h : Input l) (suffix : Option Str) (float : Bool) :
    parse l.text suffix float =
      let parts := splitDigitParts (trim suffix (negText l.neg ++ (l.int ++ tailText l))) float
      { radix := l.radix
        pre := if l.radix = .decimal then none else some l.radix.text
        integer := parts.1
        fraction := parts.2.1
        exponent := parts.2.2
        suffix } := by
  have hsans : (if l.radix = .decimal then l.text else l.text.drop 2) =
        negText l.neg ++ (l.int ++ tailText l) ∧
      (l.radix ≠ .decimal → l.text.take 2 = l.radix.text) := by
    rw [text_eq]
    cases hr : l.radix with
    | decimal => simp [Radix.text]
    | _ =>
      have hn : l.neg = false := by
        cases hn : l.neg with
        | false => rfl
        | true => exact absurd (h.neg hn) (by rw [hr]; decide)
      simp [hn, negText, Radix.text]
  unfold parse
  rw [radixOf_text h]
  by_cases hr : l.radix = .decimal
  · have e := hsans.1
    rw [if_pos hr] at e
    simp only [if_pos hr, e]
    congr 1 <;> · unfold trim cut; cases suffix <;> simp
  · have e := hsans.1
    rw [if_neg hr] at e
    simp only [if_neg hr, e, hsans.2 hr]
    congr 1 <;> · unfold trim cut; cases suffix <;> simp

theorem parse_parsed {l : Lit} (h : Input l) (suffix : Option Str) (float : Bool)
    (hfloat : l.floatForm = true → float = true) (hdec : float = true → l.radix = .decimal) :
    Parsed l suffix (parse l.text suffix float) := by
  rw [parse_eq h]
  have hneg0 : digitsOf (negText l.neg) = negText l.neg := by
    unfold negText; cases l.neg <;> rfl
  have hplain : l.radix = .decimal → Plain (negText l.neg ++ l.int) := by
    intro hr
    have ht := WF.int_text h.wf
    rw [hr] at ht
    have := digitText_plain ht
    unfold negText
    cases l.neg
    · simpa using this
    · simpa [Plain] using this
  have hpre : (if l.radix = .decimal then none else some l.radix.text : Option Str).getD [] =
      l.radix.text := by
    split
    · rename_i hr; rw [hr]; rfl
    · rfl
  cases hf : l.frac with
  | none =>
    cases he : l.exp with
    | none =>
      have ht : tailText l = [] := by simp [tailText, hf, he]
      have hsplit : splitDigitParts (trim suffix (negText l.neg ++ (l.int ++ tailText l))) float =
          (trim suffix (negText l.neg ++ l.int), none, none) := by
        rw [ht, List.append_nil]
        cases hfl : float with
        | false => rfl
        | true =>
          apply split_int
          have := hplain (hdec hfl)
          exact ⟨fun e => this.1 (trim_subset _ _ _ e), fun e => this.2.1 (trim_subset _ _ _ e),
            fun e => this.2.2 (trim_subset _ _ _ e)⟩
      simp only [hsplit]
      exact ⟨rfl, hpre, rfl, by rw [trim_digits, digitsOf_append, hneg0], Or.inl ⟨hf, rfl⟩,
        Or.inl ⟨he, rfl⟩⟩
    | some e =>
      obtain ⟨m, s, d⟩ := e
      have hfl : float = true := hfloat (by simp [Lit.floatForm, he])
      subst hfl
      have hm := (WF.exp_text h.wf _ he).1
      have hmu : m ≠ '_' := by
        rcases hm with e | e <;> (simp only at e; rw [e]; decide)
      have ht : tailText l = m :: (s.text ++ d) := by simp [tailText, hf, he]
      have hsplit : splitDigitParts (trim suffix (negText l.neg ++ (l.int ++ tailText l))) true =
          (cut (negText l.neg ++ l.int), none,
            some (sepOf (negText l.neg ++ l.int) m, trim suffix (s.text ++ d))) := by
        rw [ht, ← List.append_assoc, trim_append _ _ _ _ hmu]
        exact split_exp _ _ m hm (hplain (hdec rfl))
      have hsd : digitsOf (s.text ++ d) = s.text ++ digitsOf d := by
        rw [digitsOf_append]; cases s <;> rfl
      simp only [hsplit]
      exact ⟨rfl, hpre, rfl, by rw [cut_digits, digitsOf_append, hneg0], Or.inl ⟨hf, rfl⟩,
        Or.inr ⟨m, s, d, _, _, he, rfl, by unfold sepOf; split <;> simp, by rw [trim_digits, hsd]⟩⟩
  | some f =>
    have hfl : float = true := hfloat (by simp [Lit.floatForm, hf])
    subst hfl
    have hft := (WF.frac_text h.wf f hf).1
    have hfp := digitText_plain hft
    cases he : l.exp with
    | none =>
      have ht : tailText l = '.' :: f := by simp [tailText, hf, he]
      have hsplit : splitDigitParts (trim suffix (negText l.neg ++ (l.int ++ tailText l))) true =
          (negText l.neg ++ l.int, some (trim suffix f), none) := by
        rw [ht, ← List.append_assoc, trim_append _ _ _ _ (by decide)]
        exact split_frac _ _ (hplain (hdec rfl)) ⟨fun e => hfp.1 (trim_subset _ _ _ e),
          fun e => hfp.2.1 (trim_subset _ _ _ e), fun e => hfp.2.2 (trim_subset _ _ _ e)⟩
      simp only [hsplit]
      exact ⟨rfl, hpre, rfl, by rw [digitsOf_append, hneg0], Or.inr ⟨f, _, hf, rfl, trim_digits _ _⟩,
        Or.inl ⟨he, rfl⟩⟩
    | some e =>
      obtain ⟨m, s, d⟩ := e
      have hm := (WF.exp_text h.wf _ he).1
      have hmu : m ≠ '_' := by
        rcases hm with e | e <;> (simp only at e; rw [e]; decide)
      have ht : tailText l = '.' :: (f ++ m :: (s.text ++ d)) := by simp [tailText, hf, he]
      have hsplit : splitDigitParts (trim suffix (negText l.neg ++ (l.int ++ tailText l))) true =
          (negText l.neg ++ l.int, some (cut f), some (sepOf f m, trim suffix (s.text ++ d))) := by
        have e1 : negText l.neg ++ (l.int ++ '.' :: (f ++ m :: (s.text ++ d))) =
            (negText l.neg ++ l.int ++ '.' :: f) ++ m :: (s.text ++ d) := by simp
        rw [ht, e1, trim_append _ _ _ _ hmu]
        have e2 : (negText l.neg ++ l.int ++ '.' :: f) ++ m :: trim suffix (s.text ++ d) =
            (negText l.neg ++ l.int) ++ '.' :: (f ++ m :: trim suffix (s.text ++ d)) := by simp
        rw [e2]
        exact split_frac_exp _ _ _ m hm (hplain (hdec rfl)) hfp
      have hsd : digitsOf (s.text ++ d) = s.text ++ digitsOf d := by
        rw [digitsOf_append]; cases s <;> rfl
      simp only [hsplit]
      exact ⟨rfl, hpre, rfl, by rw [digitsOf_append, hneg0], Or.inr ⟨f, _, hf, rfl, cut_digits _⟩,
        Or.inr ⟨m, s, d, _, _, he, rfl, by unfold sepOf; split <;> simp, by rw [trim_digits, hsd]⟩⟩

end Verif.NumLit
