import Verif.CStrLit.Model

/-!
# Properties: byte strings that end with NUL
-/

namespace Verif.CStrLit

open Verif.ByteStr

/-- The ways to write NUL. -/
def Nul (u : List Char) : Prop := u = [Char.ofNat 0] ∨ u = ['\\', 'x', '0', '0'] ∨ u = ['\\', '0']

theorem hexDigit_zero (c : Char) (h : hexDigit c = some 0) : c = '0' := by
  have e0 : ('0' : Char).toNat = 48 := rfl
  have ea : ('a' : Char).toNat = 97 := rfl
  have eA : ('A' : Char).toNat = 65 := rfl
  unfold hexDigit at h
  by_cases h1 : '0' ≤ c ∧ c ≤ '9'
  · rw [if_pos h1] at h
    injection h with h
    have : ('0' : Char).toNat ≤ c.toNat := h1.1
    have e : c.toNat = ('0' : Char).toNat := by omega
    exact Char.toNat_inj.1 e
  · rw [if_neg h1] at h
    by_cases h2 : 'a' ≤ c ∧ c ≤ 'f'
    · rw [if_pos h2] at h
      injection h with h
      have : ('a' : Char).toNat ≤ c.toNat := h2.1
      omega
    · rw [if_neg h2] at h
      by_cases h3 : 'A' ≤ c ∧ c ≤ 'F'
      · rw [if_pos h3] at h
        injection h with h
        have : ('A' : Char).toNat ≤ c.toNat := h3.1
        omega
      · rw [if_neg h3] at h; cases h

theorem hexByte_zero (a b : Char) (h : hexByte a b = some 0) : a = '0' ∧ b = '0' := by
  unfold hexByte at h
  cases ha : hexDigit a with
  | none => rw [ha] at h; cases h
  | some x =>
    cases hb : hexDigit b with
    | none => rw [ha, hb] at h; cases h
    | some y =>
      rw [ha, hb] at h
      have h' : 16 * x + y = 0 := Option.some.inj h
      have hx : x = 0 := by omega
      have hy : y = 0 := by omega
      rw [hx] at ha
      rw [hy] at hb
      exact ⟨hexDigit_zero a ha, hexDigit_zero b hb⟩

theorem escape_zero (c : Char) (h : escape c = some 0) : c = '0' := by
  unfold escape at h
  repeat' split at h
  all_goals first | assumption | (exact absurd h (by decide)) | cases h

/-- The rest of a text that is read, and what is read of the end. -/
theorem last_nul (t : List Char) : ∀ ws, byteString t = some (ws ++ [0]) → ∃ t' u, t = t' ++ u ∧ Nul u ∧ byteString t' = some ws := by
  have unit : ∀ (u r : List Char) (v : Nat) (ws : List Nat), (∀ s, byteString (u ++ s) = (byteString s).map (v :: ·)) →
      (v = 0 → Nul u) → (∀ ws, byteString r = some (ws ++ [0]) → ∃ t' u, r = t' ++ u ∧ Nul u ∧ byteString t' = some ws) →
      (∀ r', byteString r = some r' → r' = [] → r = []) →
      byteString (u ++ r) = some (ws ++ [0]) → ∃ t' u', u ++ r = t' ++ u' ∧ Nul u' ∧ byteString t' = some ws := by
    intro u r v ws hu hz ih hnil h
    rw [hu, Option.map_eq_some_iff] at h
    obtain ⟨l, hl, e⟩ := h
    cases ws with
    | nil =>
      rw [List.nil_append] at e
      injection e with e1 e2
      rw [e2] at hl
      have := hnil [] hl rfl
      exact ⟨[], u, by rw [this]; simp, hz e1, rfl⟩
    | cons w ws =>
      rw [List.cons_append] at e
      injection e with e1 e2
      rw [e2] at hl
      obtain ⟨t', u', e3, h3, h4⟩ := ih ws hl
      exact ⟨u ++ t', u', by rw [e3, List.append_assoc], h3, by rw [hu, h4, e1]; rfl⟩
  have nil : ∀ t : List Char, byteString t = some [] → t = [] := by
    intro t h
    unfold byteString at h
    split at h
    · rfl
    · rename_i a b r
      cases ha : hexByte a b with
      | none => rw [ha] at h; cases h
      | some v =>
        rw [ha] at h
        obtain ⟨_, _, e⟩ := Option.map_eq_some_iff.1 h
        cases e
    · rename_i c r _
      cases ha : escape c with
      | none => rw [ha] at h; cases h
      | some v =>
        rw [ha] at h
        obtain ⟨_, _, e⟩ := Option.map_eq_some_iff.1 h
        cases e
    · cases h
    · split at h
      · cases h
      · obtain ⟨_, _, e⟩ := Option.map_eq_some_iff.1 h
        cases e
  induction t using byteString.induct with
  | case1 => intro ws h; cases ws <;> cases h
  | case2 a b r ih =>
    intro ws h
    cases ha : hexByte a b with
    | none => rw [byteString, ha] at h; cases h
    | some v =>
      refine unit ['\\', 'x', a, b] r v ws ?_ ?_ ih (fun r' h1 h2 => nil r (by rw [h1, h2])) h
      · intro s
        show byteString ('\\' :: 'x' :: a :: b :: s) = _
        rw [byteString, ha]; rfl
      · intro hv
        rw [hv] at ha
        obtain ⟨h1, h2⟩ := hexByte_zero a b ha
        rw [h1, h2]
        exact Or.inr (Or.inl rfl)
  | case3 c r hx ih =>
    intro ws h
    cases ha : escape c with
    | none =>
      rw [byteString] at h
      · rw [ha] at h; cases h
      · exact hx
    | some v =>
      have hc : c ≠ 'x' := by
        intro e
        have hn : escape 'x' = none := by decide
        rw [e, hn] at ha
        cases ha
      refine unit ['\\', c] r v ws ?_ ?_ ih (fun r' h1 h2 => nil r (by rw [h1, h2])) h
      · intro s
        show byteString ('\\' :: c :: s) = _
        rw [byteString]
        · rw [ha]; rfl
        · intro a b r' e
          exact absurd e hc
      · intro hv
        rw [hv] at ha
        rw [escape_zero c ha]
        exact Or.inr (Or.inr rfl)
  | case4 r => intro ws h; rw [byteString] at h; cases h
  | case5 c r h1 h2 h3 h4 =>
    intro ws h
    rw [byteString] at h
    · rw [if_pos h4] at h; cases h
    · exact h1
    · exact h2
    · exact h3
  | case6 c r h1 h2 h3 h4 ih =>
    intro ws h
    have hb : c ≠ '\\' := fun e => h4 (Or.inl e)
    refine unit [c] r c.toNat ws ?_ ?_ ih (fun r' k1 k2 => nil r (by rw [k1, k2])) h
    · intro s
      show byteString (c :: s) = _
      rw [byteString]
      · rw [if_neg h4]
      · intro a b r' e _
        exact absurd e hb
      · intro c' r' e _
        exact absurd e hb
      · exact h3
    · intro hv
      left
      have : c = Char.ofNat 0 := Char.toNat_inj.1 (by rw [hv]; rfl)
      rw [this]

theorem endsWith_append (a u : List Char) : endsWith (a ++ u) u = true := by simp [endsWith]

theorem cut_append (a u : List Char) (n : Nat) (h : u.length = n) : cut n (a ++ u) = a := by
  unfold cut
  rw [List.length_append, h]
  simp

theorem endsWith_last (a : List Char) (c d : Char) (h : c ≠ d) : endsWith (a ++ [c]) [d] = false := by
  unfold endsWith
  simp [h]

/-- Any way of writing NUL at the end is removed. -/
theorem dropNul_append (a u : List Char) (h : Nul u) : dropNul (a ++ u) = some a := by
  unfold dropNul
  rcases h with h | h | h
  · rw [h, endsWith_append, if_pos rfl, cut_append a _ 1 rfl]
  · have e : a ++ u = (a ++ ['\\', 'x', '0']) ++ ['0'] := by rw [h]; simp
    have e1 : endsWith (a ++ u) [Char.ofNat 0] = false := by rw [e]; exact endsWith_last _ _ _ (by decide)
    rw [e1, if_neg (by simp), h, endsWith_append, if_pos rfl, cut_append a _ 4 rfl]
  · have e : a ++ u = (a ++ ['\\']) ++ ['0'] := by rw [h]; simp
    have e1 : endsWith (a ++ u) [Char.ofNat 0] = false := by rw [e]; exact endsWith_last _ _ _ (by decide)
    have e2 : endsWith (a ++ u) ['\\', 'x', '0', '0'] = false := by
      unfold endsWith
      rw [h, beq_eq_false_iff_ne]
      intro k
      have h1 : (['\\', 'x', '0', '0'] : List Char) <:+ a ++ ['\\', '0'] := by rw [← k]; exact List.drop_suffix _ _
      obtain ⟨b, hb⟩ := h1
      have e3 : b ++ ['\\', 'x', '0', '0'] = (b ++ ['\\', 'x']) ++ ['0', '0'] := by simp
      rw [e3] at hb
      have := (List.append_inj' hb rfl).2
      exact absurd this (by decide)
    rw [e1, if_neg (by simp), e2, if_neg (by simp), h, endsWith_append, if_pos rfl, cut_append a _ 2 rfl]

theorem splitQuote_append (a : List Char) : splitQuote (a ++ ['"']) = some (a, ['"']) := by
  induction a with
  | nil => rfl
  | cons c a ih => rw [List.cons_append, splitQuote, ih]

/-- The text of `b"…"` becomes that of `c"…"`. -/
theorem rewrite_eq (t : List Char) (vs : List Nat) (ht : byteString t = some vs) (s : List Char) :
    rewriteAsCStr ('b' :: '"' :: (t ++ ['"'])) vs = some s ↔ ∃ t' ws, vs = ws ++ [0] ∧ s = 'c' :: '"' :: (t' ++ ['"']) ∧ byteString t' = some ws ∧ dropNul t = some t' := by
  have hpre : 'c' :: trimStart 'b' ('b' :: '"' :: (t ++ ['"'])) = 'c' :: '"' :: (t ++ ['"']) := by
    simp [trimStart]
  have hsp : splitQuote ('c' :: '"' :: (t ++ ['"'])) = some ('c' :: '"' :: t, ['"']) := splitQuote_append ('c' :: '"' :: t)
  unfold rewriteAsCStr
  rw [hpre, hsp]
  constructor
  · intro h
    by_cases hz : isNulTerminated vs = true
    · rw [hz] at h
      simp only [Bool.not_true, Bool.false_eq_true, if_false] at h
      unfold isNulTerminated at hz
      rw [beq_iff_eq] at hz
      obtain ⟨ws, hws⟩ := List.getLast?_eq_some_iff.1 hz
      rw [hws] at ht
      obtain ⟨t', u, e, hu, ht'⟩ := last_nul t ws ht
      have e2 : 'c' :: '"' :: t = ('c' :: '"' :: t') ++ u := by rw [e]; rfl
      rw [e2, dropNul_append _ _ hu] at h
      refine ⟨t', ws, hws, ?_, ht', by rw [e, dropNul_append _ _ hu]⟩
      injection h with h
      exact h.symm
    · rw [Bool.not_eq_true] at hz
      rw [hz] at h
      cases h
  · rintro ⟨t', ws, hws, hs, ht', _⟩
    have hz : isNulTerminated vs = true := by rw [hws]; simp [isNulTerminated]
    rw [hz]
    simp only [Bool.not_true, Bool.false_eq_true, if_false]
    rw [hws] at ht
    obtain ⟨t2, u, e, hu, ht2⟩ := last_nul t ws ht
    have e2 : 'c' :: '"' :: t = ('c' :: '"' :: t2) ++ u := by rw [e]; rfl
    rw [e2, dropNul_append _ _ hu, hs]
    have : dropNul t = some t2 := by rw [e, dropNul_append _ _ hu]
    rename_i h0
    rw [this] at h0
    injection h0 with h0
    rw [← h0]
    rfl

/-- A byte string is rewritten exactly if it ends with NUL. -/
theorem rewritten_iff (t : List Char) (vs : List Nat) (ht : byteString t = some vs) :
    (rewriteAsCStr ('b' :: '"' :: (t ++ ['"'])) vs).isSome = true ↔ ∃ ws, vs = ws ++ [0] := by
  constructor
  · intro h
    obtain ⟨s, hs⟩ := Option.isSome_iff_exists.1 h
    obtain ⟨_, ws, h1, _⟩ := (rewrite_eq t vs ht s).1 hs
    exact ⟨ws, h1⟩
  · rintro ⟨ws, hws⟩
    rw [hws] at ht
    obtain ⟨t', u, e, hu, ht'⟩ := last_nul t ws ht
    have := (rewrite_eq t vs (by rw [hws]; exact ht) ('c' :: '"' :: (t' ++ ['"']))).2 ⟨t', ws, hws, rfl, ht', by rw [e, dropNul_append _ _ hu]⟩
    rw [this]
    rfl

theorem endsWith_split (s u : List Char) (h : endsWith s u = true) : s = cut u.length s ++ u := by
  unfold endsWith at h
  rw [beq_iff_eq] at h
  have := List.take_append_drop (s.length - u.length) s
  rw [h] at this
  exact this.symm

theorem dropNul_split (s a : List Char) (h : dropNul s = some a) : ∃ u, Nul u ∧ s = a ++ u := by
  unfold dropNul at h
  by_cases h1 : endsWith s [Char.ofNat 0] = true
  · rw [if_pos h1] at h
    injection h with h
    exact ⟨_, Or.inl rfl, by rw [← h]; exact endsWith_split _ _ h1⟩
  · rw [if_neg h1] at h
    by_cases h2 : endsWith s ['\\', 'x', '0', '0'] = true
    · rw [if_pos h2] at h
      injection h with h
      exact ⟨_, Or.inr (Or.inl rfl), by rw [← h]; exact endsWith_split _ _ h2⟩
    · rw [if_neg h2] at h
      by_cases h3 : endsWith s ['\\', '0'] = true
      · rw [if_pos h3] at h
        injection h with h
        exact ⟨_, Or.inr (Or.inr rfl), by rw [← h]; exact endsWith_split _ _ h3⟩
      · rw [if_neg h3] at h; cases h

/-- Whatever the text between the quotes is, also one that is not read here: only a way of writing NUL right before the closing quote is removed, and else nothing is
suggested. -/
theorem only_nul (t : List Char) (vs : List Nat) (s : List Char) (h : rewriteAsCStr ('b' :: '"' :: (t ++ ['"'])) vs = some s) :
    ∃ a u, Nul u ∧ 'c' :: '"' :: t = a ++ u ∧ s = a ++ ['"'] := by
  have hpre : 'c' :: trimStart 'b' ('b' :: '"' :: (t ++ ['"'])) = 'c' :: '"' :: (t ++ ['"']) := by
    simp [trimStart]
  have hsp : splitQuote ('c' :: '"' :: (t ++ ['"'])) = some ('c' :: '"' :: t, ['"']) := splitQuote_append ('c' :: '"' :: t)
  unfold rewriteAsCStr at h
  rw [hpre, hsp] at h
  by_cases hz : (!isNulTerminated vs) = true
  · rw [if_pos hz] at h; cases h
  · rw [if_neg hz] at h
    obtain ⟨a, ha, e⟩ := Option.map_eq_some_iff.1 h
    obtain ⟨u, hu, e2⟩ := dropNul_split _ _ ha
    exact ⟨a, u, hu, e2, e.symm⟩

/-- With a continuation line at the end nothing is suggested. -/
example : rewriteAsCStr ['b', '"', 'a', '\\', '0', '\\', '\n', '"'] [97, 0] = none := by decide +kernel

/-- The suggestion is a C string literal with the same bytes. Partial: there is no other NUL; see `inner_nul`. -/
theorem same_bytes_partial (t : List Char) (ws : List Nat) (ht : byteString t = some (ws ++ [0])) (h0 : 0 ∉ ws) (s : List Char)
    (h : rewriteAsCStr ('b' :: '"' :: (t ++ ['"'])) (ws ++ [0]) = some s) : ∃ t', s = 'c' :: '"' :: (t' ++ ['"']) ∧ cString t' = some ws := by
  obtain ⟨t', ws', h1, h2, h3, _⟩ := (rewrite_eq t (ws ++ [0]) ht s).1 h
  have e : ws' = ws := (List.append_cancel_right h1).symm
  rw [e] at h3
  exact ⟨t', h2, by rw [cString, h3]; simp [h0]⟩

example : rewriteAsCStr ['b', '"', 'a', '\\', 'x', '0', '0', '"'] [97, 0] = some ['c', '"', 'a', '"'] ∧
    rewriteAsCStr ['b', '"', 'a', '\\', '0', '"'] [97, 0] = some ['c', '"', 'a', '"'] ∧
    rewriteAsCStr ['b', '"', 'a', '\\', '\\', '0', '"'] [97, 92, 48] = none := by decide +kernel

example : byteString ['a', '\\', '0'] = some ([97] ++ [0]) := by decide +kernel

/-- With another NUL inside the suggestion is not a literal: `b"a\0b\0"` becomes `c"a\0b"`. -/
theorem inner_nul : rewriteAsCStr ['b', '"', 'a', '\\', '0', 'b', '\\', '0', '"'] [97, 0, 98, 0] = some ['c', '"', 'a', '\\', '0', 'b', '"'] ∧
    byteString ['a', '\\', '0', 'b', '\\', '0'] = some [97, 0, 98, 0] ∧ cString ['a', '\\', '0', 'b'] = none := by decide +kernel

end Verif.CStrLit
