import Verif.Common.StrOrd

/-!
# Decimal text of natural numbers
-/

namespace Verif

/-- A decimal digit. -/
def digitChar (d : Nat) : Char := Char.ofNat (48 + d)

/-- Loop of `natStr`; the first number bounds the steps. -/
def natStrGo : Nat → Nat → Str
  | 0, _ => []
  | f + 1, n => if n < 10 then [digitChar n] else natStrGo f (n / 10) ++ [digitChar (n % 10)]

/-- `Display` of an unsigned integer. -/
def natStr (n : Nat) : Str := natStrGo (n + 1) n

/-- `c.is_ascii_digit()`. -/
def isDecDigit (c : Char) : Bool := decide (48 ≤ c.toNat) && decide (c.toNat ≤ 57)

/-- The number written by some digits. -/
def decVal (s : Str) : Nat := s.foldl (fun n c => n * 10 + (c.toNat - 48)) 0

/-- `str::parse` for an unsigned integer type with the given maximum; a leading `+` isn't modelled. -/
def parseDec (max : Nat) (s : Str) : Option Nat :=
  if s.isEmpty || !s.all isDecDigit then none
  else if decVal s ≤ max then some (decVal s) else none

theorem digitChar_toNat {d : Nat} (h : d < 10) : (digitChar d).toNat = 48 + d := by
  have : ∀ d : Fin 10, (digitChar d.val).toNat = 48 + d.val := by decide
  exact this ⟨d, h⟩

theorem isDecDigit_digitChar {d : Nat} (h : d < 10) : isDecDigit (digitChar d) = true := by
  simp [isDecDigit, digitChar_toNat h]; omega

theorem decVal_snoc (s : Str) (c : Char) : decVal (s ++ [c]) = decVal s * 10 + (c.toNat - 48) := by
  simp [decVal, List.foldl_append]

theorem natStrGo_spec : ∀ (f n : Nat), n < f → natStrGo f n ≠ [] ∧ (∀ c ∈ natStrGo f n, isDecDigit c = true) ∧ decVal (natStrGo f n) = n
  | 0, n, h => by omega
  | f + 1, n, h => by
    unfold natStrGo
    split
    · next hn =>
      refine ⟨by simp, ?_, ?_⟩
      · intro c hc
        simp only [List.mem_cons, List.not_mem_nil, or_false] at hc
        rw [hc]; exact isDecDigit_digitChar hn
      · simp [decVal, digitChar_toNat hn]
    · next hn =>
      obtain ⟨_, h2, h3⟩ := natStrGo_spec f (n / 10) (by omega)
      refine ⟨by simp, ?_, ?_⟩
      · intro c hc
        simp only [List.mem_append, List.mem_cons, List.not_mem_nil, or_false] at hc
        rcases hc with hc | hc
        · exact h2 c hc
        · rw [hc]; exact isDecDigit_digitChar (by omega)
      · rw [decVal_snoc, h3, digitChar_toNat (by omega)]; omega

theorem natStr_ne_nil (n : Nat) : natStr n ≠ [] := (natStrGo_spec _ n (Nat.lt_succ_self n)).1

theorem natStr_digits (n : Nat) : ∀ c ∈ natStr n, isDecDigit c = true := (natStrGo_spec _ n (Nat.lt_succ_self n)).2.1

theorem decVal_natStr (n : Nat) : decVal (natStr n) = n := (natStrGo_spec _ n (Nat.lt_succ_self n)).2.2

theorem parseDec_natStr {max n : Nat} (h : n ≤ max) : parseDec max (natStr n) = some n := by
  have h1 : (natStr n).isEmpty = false := by simp [natStr_ne_nil]
  have h2 : (natStr n).all isDecDigit = true := List.all_eq_true.2 (natStr_digits n)
  simp [parseDec, h1, h2, decVal_natStr, h]

theorem natStr_inj {m n : Nat} (h : natStr m = natStr n) : m = n := by
  rw [← decVal_natStr m, h, decVal_natStr]

/-- With no digits to spare there is none. -/
theorem natStrGo_length : ∀ (f n k : Nat), n < f → n < 10 ^ (k + 1) → (natStrGo f n).length ≤ k + 1
  | 0, n, k, h, _ => by omega
  | f + 1, n, k, h, hk => by
    unfold natStrGo
    split
    · simp
    · next hn =>
      cases k with
      | zero => simp at hk; omega
      | succ k =>
        have : n / 10 < 10 ^ (k + 1) := by
          rw [Nat.div_lt_iff_lt_mul (by omega)]
          rw [Nat.pow_succ] at hk; exact hk
        have := natStrGo_length f (n / 10) k (by omega) this
        simp; omega

theorem natStr_length {n k : Nat} (h : n < 10 ^ (k + 1)) : (natStr n).length ≤ k + 1 := natStrGo_length _ n k (Nat.lt_succ_self n) h

/-- `{:0>k}`, and `{:>k}` with another filler. -/
def padLeft (c : Char) (k : Nat) (s : Str) : Str := List.replicate (k - s.length) c ++ s

/-- `{:<k}`. -/
def padRight (c : Char) (k : Nat) (s : Str) : Str := s ++ List.replicate (k - s.length) c

/-- Leading zeros don't change the number. -/
theorem decVal_zeros (k : Nat) (s : Str) : decVal (List.replicate k '0' ++ s) = decVal s := by
  have : decVal (List.replicate k '0') = 0 := by
    induction k with
    | zero => rfl
    | succ k ih => rw [List.replicate_succ', decVal_snoc, ih]; rfl
  simp only [decVal, List.foldl_append] at *
  rw [this]

/-- The first digit has the most weight. -/
theorem decVal_cons (c : Char) (s : Str) : decVal (c :: s) = (c.toNat - 48) * 10 ^ s.length + decVal s := by
  have key : ∀ (s : Str) (n : Nat), s.foldl (fun n c => n * 10 + (c.toNat - 48)) n = n * 10 ^ s.length + decVal s := by
    intro s
    induction s with
    | nil => intro n; simp [decVal]
    | cons d s ih =>
      intro n
      simp only [List.foldl_cons, List.length_cons]
      rw [ih, show decVal (d :: s) = (0 * 10 + (d.toNat - 48)) * 10 ^ s.length + decVal s from ih _, Nat.pow_succ]
      rw [Nat.add_mul, Nat.mul_assoc, Nat.mul_comm 10]
      simp only [Nat.zero_mul, Nat.zero_add]
      rw [Nat.add_assoc]
  have := key s (0 * 10 + (c.toNat - 48))
  simp only [Nat.zero_mul, Nat.zero_add] at this
  simpa [decVal] using this

theorem decVal_lt {s : Str} (h : ∀ c ∈ s, isDecDigit c = true) : decVal s < 10 ^ s.length := by
  induction s with
  | nil => simp [decVal]
  | cons c s ih =>
    have hc := h c (by simp)
    have ih := ih fun x hx => h x (List.mem_cons_of_mem _ hx)
    simp only [isDecDigit, Bool.and_eq_true, decide_eq_true_eq] at hc
    rw [decVal_cons, List.length_cons, Nat.pow_succ]
    have : (c.toNat - 48) * 10 ^ s.length ≤ 9 * 10 ^ s.length := Nat.mul_le_mul_right _ (by omega)
    omega

/-- Digit texts of the same length are ordered like their numbers, whatever follows. -/
theorem strLe_digits : ∀ {s t : Str} (x y : Str), s.length = t.length → (∀ c ∈ s, isDecDigit c = true) → (∀ c ∈ t, isDecDigit c = true) →
    (strLe (s ++ x) (t ++ y) = true ↔ decVal s < decVal t ∨ (s = t ∧ strLe x y = true))
  | [], [], x, y, _, _, _ => by simp [decVal]
  | [], _ :: _, _, _, h, _, _ => by simp at h
  | _ :: _, [], _, _, h, _, _ => by simp at h
  | c :: s, d :: t, x, y, h, hs, ht => by
    have hl : s.length = t.length := by simpa using h
    have hs' : ∀ c ∈ s, isDecDigit c = true := fun z hz => hs z (List.mem_cons_of_mem _ hz)
    have ht' : ∀ c ∈ t, isDecDigit c = true := fun z hz => ht z (List.mem_cons_of_mem _ hz)
    have ih := strLe_digits x y hl hs' ht'
    have h1 := decVal_lt hs'
    have h2 := decVal_lt ht'
    have hc := hs c (by simp)
    have hd := ht d (by simp)
    simp only [isDecDigit, Bool.and_eq_true, decide_eq_true_eq] at hc hd
    rw [decVal_cons, decVal_cons, hl]
    rw [hl] at h1
    simp only [List.cons_append, strLe]
    generalize hp : 10 ^ t.length = p at *
    rcases Nat.lt_trichotomy c.toNat d.toNat with hlt | heq | hgt
    · rw [if_pos hlt]
      simp only [true_iff]
      left
      have : (c.toNat - 48 + 1) * p ≤ (d.toNat - 48) * p := Nat.mul_le_mul_right _ (by omega)
      rw [Nat.add_mul] at this; omega
    · rw [if_neg (by omega), if_neg (by omega), ih, heq, Char.toNat_inj.1 heq]
      simp
    · rw [if_neg (by omega), if_pos hgt]
      have : (d.toNat - 48 + 1) * p ≤ (c.toNat - 48) * p := Nat.mul_le_mul_right _ (by omega)
      rw [Nat.add_mul] at this
      constructor
      · intro h; simp at h
      · rintro (h | ⟨h, _⟩)
        · omega
        · simp only [List.cons.injEq] at h
          rw [h.1] at hgt; omega

end Verif
