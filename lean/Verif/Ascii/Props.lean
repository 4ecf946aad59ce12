import Verif.Ascii.Model

/-!
# Tests of ASCII ranges (C115)
-/

namespace Verif.Ascii

variable {K : Nat → Nat} {O : Nat → Nat → Prop} {N : Nat → Prop} {c : Nat}

/-- What a recognised range is. -/
def Model.CharRange.Is (c : Nat) (p : Prop) : Model.CharRange → Prop
  | .lowerChar => p ↔ 97 ≤ c ∧ c ≤ 122
  | .upperChar => p ↔ 65 ≤ c ∧ c ≤ 90
  | .fullChar => p ↔ (65 ≤ c ∧ c ≤ 90) ∨ (97 ≤ c ∧ c ≤ 122)
  | .digit => p ↔ 48 ≤ c ∧ c ≤ 57
  | .lowerHexLetter => p ↔ 97 ≤ c ∧ c ≤ 102
  | .upperHexLetter => p ↔ 65 ≤ c ∧ c ≤ 70
  | .hexDigit => p ↔ (48 ≤ c ∧ c ≤ 57) ∨ (65 ≤ c ∧ c ≤ 70) ∨ (97 ≤ c ∧ c ≤ 102)
  | .otherwise => True

theorem lits_is (lo hi : Lit) : (Model.checkLitRange lo hi).Is c (lo.val K ≤ c ∧ c ≤ hi.val K) := by
  unfold Model.checkLitRange
  split <;> simp [Model.CharRange.Is, Lit.val]

/-- All patterns are what is recognised. -/
def AllAre (K : Nat → Nat) (O : Nat → Nat → Prop) (N : Nat → Prop) (c : Nat) : List Pat → Prop
  | [] => True
  | p :: ps => (Model.checkPat p).Is c (p.Matches K O N c) ∧ AllAre K O N c ps

theorem two {r s : Model.CharRange} {a b : Model.CharRange} (h1 : a ∈ [r, s]) (h2 : b ∈ [r, s]) (hne : a ≠ b) :
    (r = a ∧ s = b) ∨ (r = b ∧ s = a) := by
  simp only [List.mem_cons, List.not_mem_nil, or_false] at h1 h2
  rcases h1 with rfl | rfl <;> rcases h2 with rfl | rfl <;> simp_all

theorem three {r s t : Model.CharRange} {a b d : Model.CharRange} (h1 : a ∈ [r, s, t]) (h2 : b ∈ [r, s, t]) (h3 : d ∈ [r, s, t])
    (hab : a ≠ b) (had : a ≠ d) (hbd : b ≠ d) :
    ((r = a ∧ s = b ∧ t = d) ∨ (r = a ∧ s = d ∧ t = b)) ∨ ((r = b ∧ s = a ∧ t = d) ∨ (r = b ∧ s = d ∧ t = a)) ∨
      (r = d ∧ s = a ∧ t = b) ∨ (r = d ∧ s = b ∧ t = a) := by
  simp only [List.mem_cons, List.not_mem_nil, or_false] at h1 h2 h3
  rcases h1 with rfl | rfl | rfl <;> rcases h2 with rfl | rfl | rfl <;> rcases h3 with rfl | rfl | rfl <;> simp_all

mutual
theorem pat_is : ∀ p : Pat, (Model.checkPat p).Is c (p.Matches K O N c)
  | .alts ps => by
    have hps := pats_is ps
    simp only [Model.checkPat, Pat.Matches, Model.combine]
    split
    · rename_i h
      simp only [Bool.and_eq_true, decide_eq_true_eq, List.contains_eq_mem] at h
      obtain ⟨⟨hl, hu⟩, hlo⟩ := h
      match ps, hps, hl, hu, hlo with
      | [p, q], hps, _, hu, hlo =>
        simp only [Model.checkPats] at hps hu hlo
        simp only [Pat.AnyMatches, Model.CharRange.Is, or_false]
        rcases two hu hlo (by decide) with ⟨h1, h2⟩ | ⟨h1, h2⟩
        · have a := hps.1; have b := hps.2.1
          rw [h1] at a; rw [h2] at b
          simp only [Model.CharRange.Is] at a b
          rw [a, b]
        · have a := hps.1; have b := hps.2.1
          rw [h1] at a; rw [h2] at b
          simp only [Model.CharRange.Is] at a b
          rw [a, b, or_comm]
    · split
      · rename_i h
        simp only [Bool.and_eq_true, decide_eq_true_eq, List.contains_eq_mem] at h
        obtain ⟨⟨⟨hl, hd⟩, hlo⟩, hu⟩ := h
        match ps, hps, hl, hd, hlo, hu with
        | [p, q, r], hps, _, hd, hlo, hu =>
          simp only [Model.checkPats] at hps hd hlo hu
          simp only [Pat.AnyMatches, Model.CharRange.Is, or_false]
          have a := hps.1; have b := hps.2.1; have d := hps.2.2.1
          rcases three hd hlo hu (by decide) (by decide) (by decide) with
            (⟨h1, h2, h3⟩ | ⟨h1, h2, h3⟩) | (⟨h1, h2, h3⟩ | ⟨h1, h2, h3⟩) | ⟨h1, h2, h3⟩ | ⟨h1, h2, h3⟩ <;>
          · rw [h1] at a; rw [h2] at b; rw [h3] at d
            simp only [Model.CharRange.Is] at a b d
            rw [a, b, d]
            try omega
      · trivial
  | .range false lo false hi => by
    simp only [Model.checkPat, Pat.Matches]
    exact lits_is lo hi
  | .range true _ _ _ => trivial
  | .range false _ true _ => trivial
  | .half _ _ => trivial
  | .other _ => trivial
theorem pats_is : ∀ ps : List Pat, AllAre K O N c ps
  | [] => trivial
  | p :: ps => ⟨pat_is p, pats_is ps⟩
end

theorem suggestion_is {r : Model.CharRange} {m : Method} {p : Prop} (hs : Model.suggestion r = some m) (h : r.Is c p) : p ↔ m.Holds c := by
  cases r <;> cases hs <;> exact h

/-- A suggested method has the value of the test, for every character and every byte. Missing: `matches!` with a guard, which is not looked at;
see `guard_missed`. -/
theorem same_partial {t : Test} {m : Method} (h : Model.check t = some m) (hg : ∀ p g, t ≠ .matches p (some g)) {G : Nat → Bool} :
    t.Holds K O N G c ↔ m.Holds c := by
  cases t with
  | «matches» pat guard =>
    cases guard with
    | some g => exact absurd rfl (hg pat g)
    | none => exact suggestion_is h (pat_is pat)
  | contains closed lo hi =>
    cases closed with
    | true => exact suggestion_is h (lits_is lo hi)
    | false => cases h

/-- With a guard, the suggested method holds wherever the test does. -/
theorem guarded {pat : Pat} {g : Nat} {m : Method} (h : Model.check (.matches pat (some g)) = some m) {G : Nat → Bool}
    (ht : (Test.matches pat (some g)).Holds K O N G c) : m.Holds c :=
  (suggestion_is h (pat_is pat)).mp ht.1

/-- The guard is dropped: `matches!(c, 'a'..='z' if false)` becomes `c.is_ascii_lowercase()`. -/
theorem guard_missed : ∃ t m, Model.check t = some m ∧ ∃ c, m.Holds c ∧ ∀ K O N, ¬ t.Holds K O N (fun _ => false) c :=
  ⟨.matches (.range false (.char 97) false (.char 122)) (some 0), .isAsciiLowercase, by decide +kernel, 100, by simp [Method.Holds],
    by simp [Test.Holds]⟩

/-- All ways to write the test for hexadecimal digits with characters, and with the letters, are found. -/
theorem found : (∀ ps : List Pat, ps.Perm [.range false (.char 48) false (.char 57), .range false (.char 97) false (.char 102),
      .range false (.char 65) false (.char 70)] → Model.check (.matches (.alts ps) none) = some .isAsciiHexdigit) ∧
    ∀ ps : List Pat, ps.Perm [.range false (.char 97) false (.char 122), .range false (.char 65) false (.char 90)] →
      Model.check (.matches (.alts ps) none) = some .isAsciiAlphabetic := by
  have hm : ∀ ps : List Pat, Model.checkPats ps = ps.map Model.checkPat := by
    intro ps
    induction ps with
    | nil => rfl
    | cons p ps ih => rw [Model.checkPats, ih]; rfl
  constructor
  · intro ps hp
    have hq := hp.map Model.checkPat
    simp only [Model.check, Model.checkPat, Model.combine, hm, hq.length_eq, List.contains_eq_mem, hq.mem_iff]
    decide +kernel
  · intro ps hp
    have hq := hp.map Model.checkPat
    simp only [Model.check, Model.checkPat, Model.combine, hm, hq.length_eq, List.contains_eq_mem, hq.mem_iff]
    decide +kernel

example : Model.check (.contains true (.byte 48) (.byte 57)) = some .isAsciiDigit := by decide +kernel

end Verif.Ascii
