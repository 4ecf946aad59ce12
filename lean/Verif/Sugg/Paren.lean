import Verif.Sugg.ParenModel

/-!
# C17 — enclosing parentheses
-/

namespace Verif.Sugg
open Verif

/-! ## Specification -/

/-- Every closing parenthesis has its opening one before it, and none is left open. -/
def Balanced (s : Str) : Prop :=
  (∀ p, p <+: s → p.count ')' ≤ p.count '(') ∧ s.count ')' = s.count '('

/-- The first character is an opening parenthesis and its partner is the last character. -/
def Enclosed (s : Str) : Prop := ∃ inner, s = '(' :: inner ++ [')'] ∧ Balanced inner

/-- The first character is an opening parenthesis that is never closed. -/
def Unclosed (s : Str) : Prop := ∃ t, s = '(' :: t ∧ ∀ p, p <+: t → p.count ')' ≤ p.count '('

/-! ## Proofs -/

theorem charsAfter_spec (d : Nat) (hd : 0 < d) (t : Str) :
    charsAfter d t = [] ↔
      (∀ p, p <+: t → p.count ')' < p.count '(' + d) ∨
      (∃ inner, t = inner ++ [')'] ∧ (∀ p, p <+: inner → p.count ')' < p.count '(' + d) ∧
        inner.count ')' + 1 = inner.count '(' + d) := by
  induction t generalizing d with
  | nil =>
    simp only [charsAfter, true_iff]
    left
    intro p hp
    have : p = [] := by simpa using hp
    subst this
    simpa using hd
  | cons c cs ih =>
    have hpre : ∀ p, p <+: c :: cs ↔ p = [] ∨ ∃ q, p = c :: q ∧ q <+: cs := by
      intro p
      cases p with
      | nil => simp
      | cons x xs =>
        rw [List.cons_prefix_cons]
        constructor
        · rintro ⟨rfl, h⟩; exact Or.inr ⟨xs, rfl, h⟩
        · rintro (h | ⟨q, h, hq⟩)
          · simp at h
          · simp only [List.cons.injEq] at h
            obtain ⟨rfl, rfl⟩ := h
            exact ⟨rfl, hq⟩
    -- the effect of the first character
    have step : ∀ d' : Nat, 0 < d' →
        (∀ p : Str, ((c :: p).count ')' < (c :: p).count '(' + d ↔ p.count ')' < p.count '(' + d') ∧
          ((c :: p).count ')' + 1 = (c :: p).count '(' + d ↔ p.count ')' + 1 = p.count '(' + d')) →
        charsAfter d (c :: cs) = charsAfter d' cs →
        (charsAfter d (c :: cs) = [] ↔
          (∀ p, p <+: c :: cs → p.count ')' < p.count '(' + d) ∨
          (∃ inner, c :: cs = inner ++ [')'] ∧ (∀ p, p <+: inner → p.count ')' < p.count '(' + d) ∧
            inner.count ')' + 1 = inner.count '(' + d)) := by
      intro d' hd' hcount he
      rw [he, ih d' hd']
      constructor
      · rintro (h | ⟨inner, rfl, h1, h2⟩)
        · left
          intro p hp
          rcases (hpre p).mp hp with rfl | ⟨q, rfl, hq⟩
          · simpa using hd
          · exact (hcount q).1.mpr (h q hq)
        · right
          refine ⟨c :: inner, rfl, ?_, (hcount inner).2.mpr h2⟩
          intro p hp
          cases p with
          | nil => simpa using hd
          | cons x xs =>
            rw [List.cons_prefix_cons] at hp
            obtain ⟨rfl, hp⟩ := hp
            exact (hcount xs).1.mpr (h1 xs hp)
      · rintro (h | ⟨inner, he', h1, h2⟩)
        · left
          intro q hq
          exact (hcount q).1.mp (h (c :: q) ((hpre _).mpr (Or.inr ⟨q, rfl, hq⟩)))
        · cases inner with
          | nil =>
            simp only [List.nil_append, List.cons.injEq] at he'
            obtain ⟨rfl, rfl⟩ := he'
            left
            intro q hq
            have : q = [] := by simpa using hq
            subst this
            simpa using hd'
          | cons x xs =>
            simp only [List.cons_append, List.cons.injEq] at he'
            obtain ⟨rfl, rfl⟩ := he'
            right
            refine ⟨xs, rfl, ?_, (hcount xs).2.mp h2⟩
            intro q hq
            exact (hcount q).1.mp (h1 (c :: q) (by rw [List.cons_prefix_cons]; exact ⟨rfl, hq⟩))
    by_cases h1 : c = '('
    · subst h1
      apply step (d + 1) (by omega)
      · intro p
        simp only [List.count_cons]
        simp
        omega
      · have e : ((d : Int) + 1) ≠ 0 := by omega
        simp [charsAfter, e]
    · by_cases h2 : c = ')'
      · subst h2
        by_cases h3 : d = 1
        · subst h3
          have he : charsAfter (1 : Nat) (')' :: cs) = cs := by
            simp [charsAfter]
          rw [he]
          constructor
          · rintro rfl
            right
            exact ⟨[], rfl, by intro p hp; have : p = [] := by simpa using hp
                               subst this; simp, by simp⟩
          · rintro (h | ⟨inner, he', h1, h2⟩)
            · have := h [')'] (by simp)
              simp at this
            · cases inner with
              | nil => simpa using he'
              | cons x xs =>
                simp only [List.cons_append, List.cons.injEq] at he'
                obtain ⟨rfl, rfl⟩ := he'
                have := h1 [')'] (by simp)
                simp at this
        · apply step (d - 1) (by omega)
          · intro p
            simp only [List.count_cons]
            simp
            omega
          · have e : ((d : Int) - 1) ≠ 0 := by omega
            have e2 : ((d - 1 : Nat) : Int) = (d : Int) - 1 := by omega
            simp [charsAfter, e, e2]
      · apply step d hd
        · intro p
          simp [List.count_cons, h1, h2]
        · simp only [charsAfter]
          rw [if_neg h1, if_neg h2, if_neg (by omega)]

/-- **C17 (exact meaning), part.** A text counts as enclosed exactly if its first parenthesis is matched by
its last character — or is never matched at all. The second case is the missing part of the property (see
`unclosed_counts`). -/
theorem enclosed_iff_partial (s : Str) : enclosed s = true ↔ Enclosed s ∨ Unclosed s := by
  cases s with
  | nil => simp [enclosed, Enclosed, Unclosed]
  | cons c t =>
    by_cases hc : c = '('
    · subst hc
      have h := charsAfter_spec 1 (by omega) t
      simp only [enclosed, if_true, List.isEmpty_iff]
      have h' : charsAfter 1 t = charsAfter (1 : Nat) t := rfl
      rw [h', h]
      constructor
      · rintro (h | ⟨inner, rfl, h1, h2⟩)
        · exact Or.inr ⟨t, rfl, fun p hp => by have := h p hp; omega⟩
        · exact Or.inl ⟨inner, rfl, fun p hp => by have := h1 p hp; omega, by omega⟩
      · rintro (⟨inner, he, h1, h2⟩ | ⟨t', he, h1⟩)
        · simp only [List.cons_append, List.cons.injEq, true_and] at he
          exact Or.inr ⟨inner, he, fun p hp => by have := h1 p hp; omega, by omega⟩
        · simp only [List.cons.injEq, true_and] at he
          subst he
          exact Or.inl fun p hp => by have := h1 p hp; omega
    · simp [enclosed, Enclosed, Unclosed, hc]

/-- **C17 (balanced text).** In a balanced text, which every expression without parentheses inside literals
and comments is, only the first case occurs. -/
theorem enclosed_iff {s : Str} (hb : Balanced s) : enclosed s = true ↔ Enclosed s := by
  rw [enclosed_iff_partial]
  constructor
  · rintro (h | ⟨t, rfl, h⟩)
    · exact h
    · have h1 := h t (List.prefix_refl _)
      have h2 := hb.2
      simp at h2
      omega
  · exact Or.inl

/-- **C17 (adding and stripping).** Parentheses around balanced text are recognised and stripped again;
a text without enclosing parentheses is left alone. -/
theorem strip_spec {s : Str} (hb : Balanced s) (borrowed : Bool) :
    stripEnclosing borrowed ('(' :: s ++ [')']) = some s ∧
      (¬ Enclosed s → stripEnclosing borrowed s = some s) := by
  refine ⟨?_, ?_⟩
  · have he : enclosed ('(' :: s ++ [')']) = true := (enclosed_iff_partial _).mpr (Or.inl ⟨s, rfl, hb⟩)
    unfold stripEnclosing
    rw [if_pos he]
    obtain ⟨x, xs, hx⟩ : ∃ x xs, s ++ [')'] = x :: xs := by
      cases s with
      | nil => exact ⟨_, _, rfl⟩
      | cons a b => exact ⟨_, _, rfl⟩
    have hd : ('(' :: s ++ [')']).drop 1 = s ++ [')'] := rfl
    rw [hd]
    have hm : (match s ++ [')'] with
        | [] => none
        | rest => if (borrowed && rest.getLast?.any fun c => c.utf8Size ≠ 1) = true then none
            else some rest.dropLast) = some s := by
      rw [hx]
      show (if _ then _ else _) = _
      rw [← hx]
      simp
      exact fun _ => by decide
    exact hm
  · intro hn
    unfold stripEnclosing
    rw [if_neg]
    rw [enclosed_iff hb]
    exact hn

/-- **C17 (no second pair).** Parenthesising is idempotent on balanced text and always gives enclosed
text. -/
theorem parenthesize_spec {s : Str} (hb : Balanced s) :
    Enclosed (parenthesize s) ∧ parenthesize (parenthesize s) = parenthesize s ∧
      (Enclosed s → parenthesize s = s) := by
  by_cases he : enclosed s = true
  · have hp : parenthesize s = s := by unfold parenthesize; rw [if_pos he]
    rw [hp, hp]
    exact ⟨(enclosed_iff hb).mp he, rfl, fun _ => rfl⟩
  · have hp : parenthesize s = '(' :: s ++ [')'] := by unfold parenthesize; rw [if_neg he]
    have h1 : Enclosed ('(' :: s ++ [')']) := ⟨s, rfl, hb⟩
    have h2 : enclosed ('(' :: s ++ [')']) = true := (enclosed_iff_partial _).mpr (Or.inl h1)
    rw [hp]
    refine ⟨h1, ?_, fun h => absurd ((enclosed_iff hb).mpr h) he⟩
    unfold parenthesize
    rw [if_pos h2]

/-- Text with an unmatched parenthesis counts as enclosed. This happens for code with a parenthesis in a
literal: `('(', 1).0` loses its first and last character. -/
theorem unclosed_counts :
    enclosed (str!"('(', 1).0") = true ∧
      stripEnclosing true (str!"('(', 1).0") = some (str!"'(', 1).") ∧
      stripEnclosing false (str!"(") = none ∧
      enclosed (str!"(\"(\").f(\")\")") = true := by decide

example : Balanced (str!"f(a) + (b)") ∧ parenthesize (str!"f(a) + (b)") = str!"(f(a) + (b))" ∧
    parenthesize (str!"(a) + (b)") = str!"((a) + (b))" := by
  refine ⟨⟨?_, by decide⟩, by decide, by decide⟩
  intro p hp
  have hl : p.length < 11 := Nat.lt_succ_of_le hp.length_le
  rw [List.prefix_iff_eq_take.mp hp]
  generalize p.length = n at hl
  revert n
  decide

end Verif.Sugg
