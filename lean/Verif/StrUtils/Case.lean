import Verif.StrUtils.Model

/-!
# C14 — conversion between snake case and camel case
-/

namespace Verif.StrUtils
open Verif

/-! ## Specification -/

/-- `c` is a lower-case letter with the upper-case form `C`, and back. -/
def CasePair (k : Casing) (c C : Char) : Prop :=
  k.upper c = false ∧ c ≠ '_' ∧ k.upper C = true ∧ k.toUpper c = [C] ∧ k.toLower C = [c]

/-- Characters that may follow the first letter of a word: not upper case, no underscore. -/
def Rest (k : Casing) (cs : Str) : Prop := ∀ x ∈ cs, k.upper x = false ∧ x ≠ '_'

/-- `w` is the word written in snake case and `W` the same word in camel case. -/
def WordPair (k : Casing) (w W : Str) : Prop :=
  ∃ c C cs, w = c :: cs ∧ W = C :: cs ∧ CasePair k c C ∧ Rest k cs

/-- Words joined by underscores. -/
def joinUs : List Str → Str
  | [] => []
  | [w] => w
  | w :: ws => w ++ '_' :: joinUs ws

/-- A list of words written in both ways. -/
inductive WordPairs (k : Casing) : List Str → List Str → Prop
  | nil : WordPairs k [] []
  | cons {w W ws Ws} : WordPair k w W → WordPairs k ws Ws → WordPairs k (w :: ws) (W :: Ws)

/-! ## Lemmas -/

theorem camelGo_rest (k : Casing) (cs t : Str) (h : Rest k cs) :
    camelGo k false (cs ++ t) = (camelGo k false t).map (cs ++ ·) := by
  induction cs with
  | nil => cases h : camelGo k false t <;> simp [h]
  | cons c cs ih =>
    obtain ⟨h1, h2⟩ := h c (by simp)
    rw [List.cons_append, camelGo, ih (fun x hx => h x (by simp [hx]))]
    simp only [h1, h2, Bool.false_eq_true, if_false]
    cases camelGo k false t <;> simp

theorem camelGo_words (k : Casing) (hus : k.upper '_' = false) {ws Ws : List Str}
    (h : WordPairs k ws Ws) : camelGo k true (joinUs ws) = some Ws.flatten := by
  have hnil : camelGo k false [] = some [] := rfl
  induction h with
  | nil => rfl
  | @cons w W ws Ws hw hws ih =>
    obtain ⟨c, C, cs, rfl, rfl, ⟨h1, h2, h3, h4, h5⟩, hr⟩ := hw
    have key : ∀ t T, camelGo k false t = some T →
        camelGo k true ((c :: cs) ++ t) = some ((C :: cs) ++ T) := by
      intro t T ht
      rw [List.cons_append, camelGo, camelGo_rest k cs t hr, ht]
      simp [h1, h2, h4]
    cases hws with
    | nil => simpa [joinUs] using key [] [] hnil
    | @cons w' W' ws' Ws' hw' hws' =>
      rw [joinUs]
      · rw [key ('_' :: joinUs (w' :: ws')) _ ?_, List.flatten_cons]
        rw [camelGo]
        simp only [hus, Bool.false_eq_true, if_false, if_true]
        exact ih
      · simp

theorem snakeGo_rest (k : Casing) (cs t : Str) (h : Rest k cs) : ∀ i,
    snakeGo k i (cs ++ t) = cs ++ snakeGo k (i + cs.length) t := by
  induction cs with
  | nil => intro i; rfl
  | cons c cs ih =>
    intro i
    rw [List.cons_append, snakeGo, ih (fun x hx => h x (by simp [hx]))]
    simp [(h c (by simp)).1, Nat.add_comm, Nat.add_left_comm]

theorem snakeGo_words (k : Casing) {ws Ws : List Str} (h : WordPairs k ws Ws) : ∀ i,
    snakeGo k i Ws.flatten = (if i ≠ 0 ∧ ws ≠ [] then ['_'] else []) ++ joinUs ws := by
  induction h with
  | nil => intro i; simp [snakeGo, joinUs]
  | @cons w W ws Ws hw hws ih =>
    intro i
    obtain ⟨c, C, cs, rfl, rfl, ⟨h1, h2, h3, h4, h5⟩, hr⟩ := hw
    rw [List.flatten_cons, List.cons_append, snakeGo, snakeGo_rest k cs _ hr, ih, h3]
    cases hws with
    | nil => by_cases hi : i = 0 <;> simp [joinUs, h5, hi]
    | cons hw' hws' => by_cases hi : i = 0 <;> simp [joinUs, h5, hi]

/-! ## The property -/

/-- **C14 (snake → camel).** A name made of words joined by underscores becomes the same words, each
starting with its capital letter. -/
theorem toCamel_words (k : Casing) (hus : k.upper '_' = false) {ws Ws : List Str}
    (h : WordPairs k ws Ws) : toCamelCase k (joinUs ws) = Ws.flatten := by
  simp [toCamelCase, camelGo_words k hus h]

/-- **C14 (camel → snake).** And the other way round. -/
theorem toSnake_words (k : Casing) {ws Ws : List Str} (h : WordPairs k ws Ws) :
    toSnakeCase k Ws.flatten = joinUs ws := by
  simp [toSnakeCase, snakeGo_words k h]

/-- **C14 (round trips).** So both round trips give back the name. -/
theorem case_round_trip (k : Casing) (hus : k.upper '_' = false) {ws Ws : List Str}
    (h : WordPairs k ws Ws) :
    toSnakeCase k (toCamelCase k (joinUs ws)) = joinUs ws ∧
    toCamelCase k (toSnakeCase k Ws.flatten) = Ws.flatten := by
  rw [toCamel_words k hus h, toSnake_words k h, toCamel_words k hus h]
  exact ⟨rfl, rfl⟩

/-- A name that contains an upper-case letter is not converted to camel case at all. -/
theorem toCamel_upper (k : Casing) (s : Str) (h : ∃ c ∈ s, k.upper c = true) : toCamelCase k s = s := by
  have : ∀ up, camelGo k up s = none := by
    induction s with
    | nil => simp at h
    | cons c cs ih =>
      intro up
      rw [camelGo]
      by_cases hc : k.upper c = true
      · rw [if_pos hc]
      · have h' : ∃ c ∈ cs, k.upper c = true := by
          obtain ⟨x, hx, hu⟩ := h
          rcases List.mem_cons.mp hx with rfl | hx
          · exact absurd hu hc
          · exact ⟨x, hx, hu⟩
        rw [if_neg hc]
        split
        · exact ih h' _
        · simp [ih h']
  simp [toCamelCase, this]

/-- **C14 (snake case keeps the letters).** Converting to snake case only inserts underscores and lowers
letters: without underscores, the result is the lower-case form of the name without underscores. The two
hypotheses say that lower-casing changes only upper-case characters and yields no underscore. -/
theorem toSnake_letters (k : Casing) (s : Str) (h1 : ∀ c ∈ s, k.upper c = false → k.toLower c = [c])
    (h2 : ∀ c ∈ s, k.upper c = true → '_' ∉ k.toLower c) (hus : k.upper '_' = false) :
    (toSnakeCase k s).filter (· != '_') = (s.filter (· != '_')).flatMap k.toLower := by
  unfold toSnakeCase
  generalize 0 = i
  induction s generalizing i with
  | nil => rfl
  | cons c cs ih =>
    have ih := ih (fun x hx => h1 x (by simp [hx])) (fun x hx => h2 x (by simp [hx]))
    rw [snakeGo, List.filter_append, ih]
    by_cases hc : k.upper c = true
    · have hne : c ≠ '_' := by rintro rfl; rw [hus] at hc; simp at hc
      have hlow := h2 c (by simp) hc
      have : (k.toLower c).filter (· != '_') = k.toLower c := by
        rw [List.filter_eq_self]
        intro x hx
        have : x ≠ '_' := by rintro rfl; exact hlow hx
        simpa using this
      by_cases hi : i = 0 <;> simp [hc, hi, hne, this]
    · have hc : k.upper c = false := by simpa using hc
      by_cases hu : c = '_'
      · subst hu; simp [hc]
      · simp [hc, hu, h1 c (by simp) hc]

/-- No underscore is lost: every underscore of the name is still there, and there is one more for each
upper-case letter but a leading one. -/
theorem toSnake_underscores (k : Casing) (c : Char) (s : Str)
    (h2 : ∀ x ∈ c :: s, k.upper x = true → '_' ∉ k.toLower x) (hus : k.upper '_' = false) :
    (toSnakeCase k (c :: s)).count '_' = (c :: s).count '_' + s.countP k.upper := by
  have hcount : ∀ x ∈ c :: s, k.upper x = true → (k.toLower x).count '_' = 0 ∧ x ≠ '_' := by
    intro x hx hu
    refine ⟨List.count_eq_zero.mpr (h2 x hx hu), ?_⟩
    rintro rfl
    rw [hus] at hu; simp at hu
  have key : ∀ (t : Str), (∀ x ∈ t, x ∈ c :: s) → ∀ i, i ≠ 0 →
      (snakeGo k i t).count '_' = t.count '_' + t.countP k.upper := by
    intro t
    induction t with
    | nil => intro _ i _; rfl
    | cons x xs ih =>
      intro hm i hi
      rw [snakeGo, List.count_append, ih (fun y hy => hm y (by simp [hy])) (i + 1) (by omega)]
      by_cases hx : k.upper x = true
      · obtain ⟨h0, hne⟩ := hcount x (hm x (by simp)) hx
        simp [hx, hi, h0, hne, List.count_cons]
        omega
      · by_cases hu : x = '_'
        · subst hu; simp [hus]; omega
        · simp [hx, hu]
  unfold toSnakeCase
  rw [snakeGo, List.count_append, key s (fun x hx => by simp [hx]) _ (by omega)]
  by_cases hx : k.upper c = true
  · obtain ⟨h0, hne⟩ := hcount c (by simp) hx
    simp [hx, h0, hne]
  · by_cases hu : c = '_'
    · subst hu; simp [hus]; omega
    · simp [hx, hu]

/-! Non-vacuity: ASCII letters. -/

theorem ascii_pair : CasePair ascii 'a' 'A' ∧ CasePair ascii 'd' 'D' := by
  refine ⟨⟨?_, ?_, ?_, ?_, ?_⟩, ⟨?_, ?_, ?_, ?_, ?_⟩⟩ <;> decide

example : WordPairs ascii [str!"abc1", str!"d"] [str!"Abc1", str!"D"] := by
  refine .cons ⟨'a', 'A', str!"bc1", rfl, rfl, ascii_pair.1, ?_⟩
    (.cons ⟨'d', 'D', [], rfl, rfl, ascii_pair.2, ?_⟩ .nil)
  · intro x hx; simp at hx; rcases hx with rfl | rfl | rfl <;> exact ⟨by decide, by decide⟩
  · intro x hx; simp at hx

example : toCamelCase ascii (str!"abc1_d_d") = str!"Abc1DD" ∧
    toSnakeCase ascii (str!"Abc1DD") = str!"abc1_d_d" := by decide

/-- The round trip does need words that start with a letter: `abc_1` becomes `Abc1` and then `abc1`. -/
example : toSnakeCase ascii (toCamelCase ascii (str!"abc_1")) = str!"abc1" := by decide

end Verif.StrUtils
