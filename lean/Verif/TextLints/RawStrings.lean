import Verif.TextLints.Model

/-!
# C11 — removing raw-string hashes keeps the string
-/

namespace Verif.TextLints
open Verif

/-! ## Specification: how Rust lexes the inside of string literals -/

/-- What closes a raw string opened with `k` hashes. -/
def closer (k : Nat) : Str := '"' :: List.replicate k '#'

/-- Lexing the text after the opening quote of a raw string with `k` hashes: the contents extend to
the first closing delimiter. Returns the contents and what follows the literal. -/
def lexRaw (k : Nat) : Str → Option (Str × Str)
  | [] => none
  | c :: cs =>
      if closer k <+: c :: cs then some ([], (c :: cs).drop (k + 1))
      else (lexRaw k cs).map fun (body, rest) => (c :: body, rest)

/-- Lexing the text after the opening quote of a plain string literal without escapes: contents up
to the first quote; `none` if a backslash comes first (an escape, whose value is not its text). -/
def lexPlain : Str → Option (Str × Str)
  | [] => none
  | c :: cs =>
      if c = '"' then some ([], cs)
      else if c = '\\' then none
      else (lexPlain cs).map fun (body, rest) => (c :: body, rest)

/-- Number of quotes in the run of quotes and hashes that ends a text. -/
def quotesAtEnd (s : Str) : Nat :=
  (s.reverse.takeWhile fun c => c == '"' || c == '#').countP (· == '"')

/-! ## Helper lemmas -/

theorem lexRaw_append (k : Nat) (body rest : Str)
    (h : ∀ p q, body = p ++ q → q ≠ [] → ¬ closer k <+: q ++ closer k ++ rest) :
    lexRaw k (body ++ closer k ++ rest) = some (body, rest) := by
  induction body with
  | nil =>
    have : closer k <+: '"' :: (List.replicate k '#' ++ rest) := ⟨rest, by simp [closer]⟩
    simp [closer, lexRaw] at this ⊢
  | cons c cs ih =>
    have h0 := h [] (c :: cs) rfl (by simp)
    simp only [List.cons_append] at h0 ⊢
    rw [lexRaw, if_neg h0, ih]
    · rfl
    · intro p q hq hne
      exact h (c :: p) q (by simp [hq]) hne

/-- Value of `following_quote` after reading a text. -/
def fqAfter (fq : Bool) (p : Str) : Bool :=
  p.foldl (fun fq c => if c = '"' then !fq else if c = '#' then fq else false) fq

theorem fqAfter_even (p : Str) (h : quotesAtEnd p % 2 = 0) : fqAfter false p = false := by
  suffices ∀ q : Str, fqAfter false q.reverse =
      decide ((q.takeWhile fun c => c == '"' || c == '#').countP (· == '"') % 2 = 1) by
    have := this p.reverse
    rw [List.reverse_reverse] at this
    rw [this]
    unfold quotesAtEnd at h
    simp [h]
  intro q
  induction q with
  | nil => simp [fqAfter]
  | cons c cs ih =>
    simp only [fqAfter, List.reverse_cons, List.foldl_append, List.foldl_cons, List.foldl_nil] at ih ⊢
    rw [ih]
    by_cases h1 : c = '"'
    · subst h1
      simp
      by_cases hh : (cs.takeWhile fun c => c == '"' || c == '#').countP (· == '"') % 2 = 1
      · simp [hh]; omega
      · simp [hh]; omega
    · by_cases h2 : c = '#'
      · subst h2; simp
      · simp [h1, h2]

theorem scan_acc_le (max : Nat) (s : Str) : ∀ (fq : Bool) (req acc : Nat),
    scan max fq req acc s < max → acc ≤ scan max fq req acc s := by
  induction s with
  | nil => intros; simp [scan]
  | cons b bs ih =>
    intro fq req acc h
    unfold scan at h ⊢
    by_cases h1 : b = '"' ∧ fq = false
    · rw [if_pos h1] at h ⊢; exact ih _ _ _ h
    · rw [if_neg h1] at h ⊢
      by_cases h2 : b = '#'
      · rw [if_pos h2] at h ⊢; exact ih _ _ _ h
      · rw [if_neg h2] at h ⊢
        by_cases h3 : fq = true
        · rw [if_pos h3] at h ⊢
          by_cases h4 : req = max
          · rw [if_pos h4] at h; omega
          · rw [if_neg h4] at h ⊢
            have := ih _ _ _ h
            exact Nat.le_trans (Nat.le_max_left _ _) this
        · rw [if_neg h3] at h ⊢; exact ih _ _ _ h

theorem scan_following (max : Nat) (n : Nat) : ∀ (req acc : Nat) (c : Char) (q : Str), c ≠ '#' →
    scan max true req acc (List.replicate n '#' ++ c :: q) < max →
    req + n ≤ scan max true req acc (List.replicate n '#' ++ c :: q) := by
  induction n with
  | zero =>
    intro req acc c q hc h
    simp only [List.replicate_zero, List.nil_append] at h ⊢
    unfold scan at h ⊢
    simp only [Bool.true_eq_false, and_false, if_false, hc, if_true] at h ⊢
    by_cases h4 : req = max
    · rw [if_pos h4] at h; omega
    · rw [if_neg h4] at h ⊢
      exact Nat.le_trans (Nat.le_max_right _ _) (scan_acc_le _ _ _ _ _ h)
  | succ n ih =>
    intro req acc c q hc h
    simp only [List.replicate_succ, List.cons_append] at h ⊢
    unfold scan at h ⊢
    simp only [Bool.true_eq_false, and_false, if_false, if_true] at h ⊢
    have := ih (req + 1) acc c q hc h
    omega

theorem scan_counts (max : Nat) (p : Str) : ∀ (fq : Bool) (req acc n : Nat) (c : Char) (q : Str),
    c ≠ '#' → fqAfter fq p = false →
    scan max fq req acc (p ++ '"' :: (List.replicate n '#' ++ c :: q)) < max →
    n + 1 ≤ scan max fq req acc (p ++ '"' :: (List.replicate n '#' ++ c :: q)) := by
  induction p with
  | nil =>
    intro fq req acc n c q hc hf h
    simp only [fqAfter, List.foldl_nil] at hf
    subst hf
    simp only [List.nil_append] at h ⊢
    unfold scan at h ⊢
    rw [if_pos ⟨rfl, rfl⟩] at h ⊢
    have := scan_following max n 1 acc c q hc h
    omega
  | cons b bs ih =>
    intro fq req acc n c q hc hf h
    simp only [fqAfter, List.foldl_cons] at hf
    simp only [List.cons_append] at h ⊢
    unfold scan at h ⊢
    by_cases h1 : b = '"' ∧ fq = false
    · rw [if_pos h1] at h ⊢
      exact ih _ _ _ _ _ _ hc (by simpa [h1.1, h1.2, fqAfter] using hf) h
    · rw [if_neg h1] at h ⊢
      by_cases h2 : b = '#'
      · rw [if_pos h2] at h ⊢
        exact ih _ _ _ _ _ _ hc (by simpa [h2, fqAfter] using hf) h
      · rw [if_neg h2] at h ⊢
        by_cases h3 : fq = true
        · rw [if_pos h3] at h ⊢
          by_cases h4 : req = max
          · rw [if_pos h4] at h; omega
          · rw [if_neg h4] at h ⊢
            exact ih _ _ _ _ _ _ hc (by simpa [h3, h2, fqAfter] using hf) h
        · rw [if_neg h3] at h ⊢
          have h3' : fq = false := by simpa using h3
          have h1' : b ≠ '"' := fun e => h1 ⟨e, h3'⟩
          exact ih _ _ _ _ _ _ hc (by simpa [h3', h1', h2, fqAfter] using hf) h

/-- A non-empty text splits after its leading hashes. -/
theorem hashes_split (s : Str) (hs : ∀ x ∈ s.getLast?, x ≠ '#') (hne : s ≠ []) :
    ∃ n c q, c ≠ '#' ∧ s = List.replicate n '#' ++ c :: q := by
  induction s with
  | nil => exact absurd rfl hne
  | cons a as ih =>
    by_cases ha : a = '#'
    · cases as with
      | nil => subst ha; simp at hs
      | cons b bs =>
        obtain ⟨n, c, q, hc, h⟩ := ih (by simpa using hs) (by simp)
        exact ⟨n + 1, c, q, hc, by rw [h, ha]; simp [List.replicate_succ]⟩
    · exact ⟨0, a, as, ha, by simp⟩

theorem replicate_prefix (k n : Nat) (c : Char) (q : Str) (hc : c ≠ '#')
    (h : List.replicate k '#' <+: List.replicate n '#' ++ c :: q) : k ≤ n := by
  induction n generalizing k with
  | zero =>
    cases k with
    | zero => omega
    | succ k =>
      simp only [List.replicate_succ, List.replicate_zero, List.nil_append,
        List.cons_prefix_cons] at h
      exact absurd h.1.symm hc
  | succ n ih =>
    cases k with
    | zero => omega
    | succ k =>
      simp only [List.replicate_succ, List.cons_append, List.cons_prefix_cons] at h
      have := ih k h.2
      omega

theorem hash_prefix (k : Nat) (q : Str) (c : Char) (r : Str) (hc : c ≠ '#')
    (h : List.replicate k '#' <+: q ++ c :: r) : List.replicate k '#' <+: q := by
  induction q generalizing k with
  | nil =>
    have := replicate_prefix k 0 c r hc (by simpa using h)
    have hk : k = 0 := by omega
    subst hk; exact List.nil_prefix
  | cons a as ih =>
    cases k with
    | zero => exact List.nil_prefix
    | succ k =>
      simp only [List.replicate_succ, List.cons_append, List.cons_prefix_cons] at h ⊢
      exact ⟨h.1, ih k h.2⟩

/-- A quote the scan starts counting at, followed by `k` hashes, makes the result exceed `k`. -/
theorem scan_counted (max k : Nat) (s p q : Str) (hs : s = p ++ '"' :: q)
    (hf : fqAfter false p = false) (hk : List.replicate k '#' <+: q)
    (hlt : scan max false 0 0 (s ++ ['\x00']) < max) :
    k + 1 ≤ scan max false 0 0 (s ++ ['\x00']) := by
  obtain ⟨n, c, t, hc, ht⟩ := hashes_split (q ++ ['\x00']) (by simp) (by simp)
  have hkn : k ≤ n := by
    refine replicate_prefix k n c t hc ?_
    rw [← ht]; exact hk.trans (List.prefix_append _ _)
  have e : s ++ ['\x00'] = p ++ '"' :: (List.replicate n '#' ++ c :: t) := by
    rw [hs, ← ht]; simp
  rw [e] at hlt ⊢
  have := scan_counts max p false 0 0 n c t hc hf hlt
  omega

theorem first_quote (s : Str) (h : '"' ∈ s) : ∃ p q, s = p ++ '"' :: q ∧ quotesAtEnd p = 0 := by
  obtain ⟨p, q, hs, hp⟩ := List.eq_append_cons_of_mem h
  refine ⟨p, q, hs, ?_⟩
  unfold quotesAtEnd
  rw [List.countP_eq_zero]
  intro x hx
  have : x ∈ p := by
    have := (List.takeWhile_prefix _).subset hx
    simpa using this
  intro e
  have : x = '"' := by simpa using e
  subst this
  exact hp ‹_›

/-! ## The property -/

/-- **C11 (partial).** If clippy says that a raw string with contents `s` and `max` hashes needs only
`k`, then `k` is smaller than `max` and the text `r#…#"s"#…#` with `k` hashes lexes, whatever follows
it, to the contents `s`.

Missing: contents in which a quote directly followed by a hash comes after an odd number of quotes in
the same run of quotes and hashes, such as `""#` — the lint is wrong there, see
`raw_hashes_violated`. -/
theorem raw_hashes_partial (allowOne : Bool) (max k : Nat) (s rest : Str)
    (hrun : ∀ p q, s = p ++ '"' :: '#' :: q → quotesAtEnd p % 2 = 0)
    (h : hashSuggestion allowOne max s = some k) :
    k < max ∧ lexRaw k (s ++ closer k ++ rest) = some (s, rest) := by
  simp only [hashSuggestion] at h
  split at h
  · rename_i hlt
    have hk : requiredHashes allowOne max s = k := by simpa using h
    rw [hk] at hlt
    refine ⟨hlt, lexRaw_append k s rest ?_⟩
    have hr : scan max false 0 0 (s ++ ['\x00']) ≤ k := by
      rw [← hk]; unfold requiredHashes
      cases allowOne
      · simp
      · exact Nat.le_max_left _ _
    have hr' : scan max false 0 0 (s ++ ['\x00']) < max := by omega
    intro p q hs hne hcl
    -- the text `q` starts with a quote followed by `k` hashes
    cases q with
    | nil => exact hne rfl
    | cons a q' =>
      simp only [closer, List.cons_append, List.cons_prefix_cons, List.append_assoc] at hcl
      obtain ⟨rfl, hcl⟩ := hcl
      have hpre := hash_prefix k q' '"' _ (by decide) hcl
      cases k with
      | zero =>
        obtain ⟨p0, q0, hs0, hq0⟩ := first_quote s (by rw [hs]; simp)
        have := scan_counted max 0 s p0 q0 hs0 (fqAfter_even p0 (by omega)) List.nil_prefix hr'
        omega
      | succ k =>
        have hp : quotesAtEnd p % 2 = 0 := by
          cases q' with
          | nil => simp [List.replicate_succ] at hpre
          | cons b q'' =>
            simp only [List.replicate_succ, List.cons_prefix_cons] at hpre
            exact hrun p q'' (by rw [hs, ← hpre.1])
        have := scan_counted max (k + 1) s p q' hs (fqAfter_even p hp) hpre hr'
        omega
  · exact absurd h (by simp)

/-- Non-vacuity: `r###"a"#b"""###` needs only two hashes, and its quotes are of the supported kind. -/
example : hashSuggestion false 3 (str!"a\"#b\"\"") = some 2 ∧
    lexRaw 2 (str!"a\"#b\"\"\"##;") = some (str!"a\"#b\"\"", str!";") := by decide

example : ∀ p q, str!"a\"#b" = p ++ '"' :: '#' :: q → quotesAtEnd p % 2 = 0 := by
  intro p q h
  match p, h with
  | [], h => simp at h
  | [x], h => simp at h; obtain ⟨rfl, _⟩ := h; decide
  | [x, y], h => simp at h
  | x :: y :: z :: t, h =>
    simp at h
    obtain ⟨_, _, _, h⟩ := h
    cases t <;> simp at h

/-- **C11 is violated**: for the literal `r##"""#"##` (contents `""#`) clippy says one hash is enough,
but with one hash the literal ends after `"`, so the fix does not preserve the string. -/
theorem raw_hashes_violated : ∃ (max k : Nat) (s rest : Str),
    lexRaw max (s ++ closer max ++ rest) = some (s, rest) ∧
    hashSuggestion false max s = some k ∧
    lexRaw k (s ++ closer k ++ rest) ≠ some (s, rest) :=
  ⟨2, 1, str!"\"\"#", str!";", by decide, by decide, by decide⟩

/-- The same happens when hashes separate the quotes: contents `"#"##` in `r###"…"###`. -/
theorem raw_hashes_violated_separated : ∃ (max k : Nat) (s rest : Str),
    lexRaw max (s ++ closer max ++ rest) = some (s, rest) ∧
    hashSuggestion false max s = some k ∧
    lexRaw k (s ++ closer k ++ rest) ≠ some (s, rest) :=
  ⟨3, 2, str!"\"#\"##", str!";", by decide, by decide, by decide⟩

/-- **C11, plain literals.** If clippy says that a raw string does not need to be raw, then the plain
literal with the same text lexes, whatever follows it, to the same contents. -/
theorem plain_literal (s rest : Str) (h : plainSuggested s = true) :
    lexPlain (s ++ '"' :: rest) = some (s, rest) := by
  induction s with
  | nil => simp [lexPlain]
  | cons c cs ih =>
    simp only [plainSuggested, List.any_cons, Bool.not_or, Bool.and_eq_true] at h
    obtain ⟨hc, h⟩ := h
    have hc1 : c ≠ '\\' := by rintro rfl; simp at hc
    have hc2 : c ≠ '"' := by rintro rfl; simp at hc
    simp only [List.cons_append, lexPlain, if_neg hc1, if_neg hc2]
    rw [ih (by simpa [plainSuggested] using h)]
    rfl

example : plainSuggested (str!"a#b") = true := by decide

/-- Conversely, a raw string that could not be a plain literal with the same text is never flagged. -/
theorem plain_literal_complete (s rest : Str) (h : lexPlain (s ++ '"' :: rest) = some (s, rest)) :
    plainSuggested s = true := by
  induction s with
  | nil => rfl
  | cons c cs ih =>
    simp only [List.cons_append, lexPlain] at h
    split at h
    · simp at h
    · rename_i h1
      split at h
      · simp at h
      · rename_i h2
        cases hl : lexPlain (cs ++ '"' :: rest) with
        | none => rw [hl] at h; simp at h
        | some r =>
          rw [hl] at h
          simp at h
          have := ih (by rw [hl, ← h.1, ← h.2])
          simpa [plainSuggested, h1, h2] using this

end Verif.TextLints
