import Verif.StrUtils.Model

/-!
# C15 — splitting camel-case names, common prefixes and suffixes
-/

namespace Verif.StrUtils
open Verif

/-! ## Specification -/

/-- A character with a case. -/
def Cased (k : Casing) (c : Char) : Prop := k.upper c = true ∨ k.lower c = true

/-- The name is cut before its character number `p`: that character is upper case, only letters with a
case follow, and the last one is lower case. -/
def CamelCut (k : Casing) (s : Str) (p : Nat) : Prop :=
  ∃ pre c post l, s = pre ++ c :: post ∧ pre.length = p ∧ k.upper c = true ∧ (∀ x ∈ post, Cased k x) ∧
    post.getLast? = some l ∧ k.lower l = true

/-! ## Byte positions -/

theorem utf8Size_pos (c : Char) : 0 < c.utf8Size := Char.utf8Size_pos c

theorem byteLen_nil : byteLen [] = 0 := rfl

theorem byteLen_cons (c : Char) (s : Str) : byteLen (c :: s) = c.utf8Size + byteLen s := by
  simp [byteLen]

theorem byteLen_append (s t : Str) : byteLen (s ++ t) = byteLen s + byteLen t := by
  simp [byteLen]

theorem byteLen_reverse (s : Str) : byteLen s.reverse = byteLen s := by
  simp [byteLen]

/-- The characters of a reversed string with their positions. -/
def ann : Str → List (Nat × Nat × Char)
  | [] => []
  | c :: rp => (rp.length, byteLen rp, c) :: ann rp

theorem charIndices_append (s : Str) (c : Char) : ∀ ci bi,
    charIndices ci bi (s ++ [c]) = charIndices ci bi s ++ [(ci + s.length, bi + byteLen s, c)] := by
  induction s with
  | nil => intro ci bi; simp [charIndices, byteLen_nil]
  | cons x xs ih =>
    intro ci bi
    simp only [List.cons_append, charIndices, ih, byteLen_cons, List.length_cons]
    rw [show ci + 1 + xs.length = ci + (xs.length + 1) by omega, Nat.add_assoc]

theorem charIndices_reverse (r : Str) : (charIndices 0 0 r.reverse).reverse = ann r := by
  induction r with
  | nil => rfl
  | cons c r ih =>
    rw [List.reverse_cons, charIndices_append, List.reverse_append, ih]
    simp [ann, byteLen_reverse]

/-! ## Where the next cut is -/

/-- `startLoop` without the flag, which makes no difference if no character has both cases. -/
def simpleLoop (k : Casing) (start : Nat) : StrIndex → Str → StrIndex
  | last, [] => last
  | last, c :: rp =>
      if byteLen rp < start then last
      else if k.upper c then simpleLoop k start (rp.length, byteLen rp) rp
      else if k.lower c then simpleLoop k start last rp
      else last

theorem startLoop_eq (k : Casing) (hd : ∀ c, ¬ (k.upper c = true ∧ k.lower c = true)) (start : Nat)
    (r : Str) : ∀ down last, startLoop k start down last (ann r) = simpleLoop k start last r := by
  induction r with
  | nil => intro down last; rfl
  | cons c r ih =>
    intro down last
    simp only [ann, startLoop, simpleLoop]
    by_cases hb : byteLen r < start
    · simp [hb]
    · have := hd c
      cases down <;> cases hu : k.upper c <;> cases hl : k.lower c <;> simp_all

/-- `r` is the first cut at or after the byte position `start`, among those from character `lo` on; or
the end of the string. -/
def Best (k : Casing) (s : Str) (start lo : Nat) (r : StrIndex) : Prop :=
  (r = (s.length, byteLen s) ∧ ∀ q, lo ≤ q → CamelCut k s q → byteLen (s.take q) < start) ∨
  (∃ p, lo ≤ p ∧ CamelCut k s p ∧ r = (p, byteLen (s.take p)) ∧ start ≤ byteLen (s.take p) ∧
    ∀ q, lo ≤ q → q < p → CamelCut k s q → byteLen (s.take q) < start)

theorem byteLen_take_mono (s : Str) {p q : Nat} (h : p ≤ q) :
    byteLen (s.take p) ≤ byteLen (s.take q) := by
  have : s.take p = (s.take q).take p := by rw [List.take_take, Nat.min_eq_left h]
  rw [this]
  have := byteLen_append ((s.take q).take p) ((s.take q).drop p)
  rw [List.take_append_drop] at this
  omega

theorem simpleLoop_best (k : Casing) (s : Str) (start : Nat) : ∀ (r suf : Str) (last : StrIndex) (l : Char),
    s = r.reverse ++ suf → (∀ x ∈ suf, Cased k x) → suf.getLast? = some l → k.lower l = true →
    Best k s start r.length last → Best k s start 0 (simpleLoop k start last r) := by
  intro r
  induction r with
  | nil => intro suf last l _ _ _ _ hb; simpa [simpleLoop] using hb
  | cons c r ih =>
    intro suf last l hs hcased hlast hlow hb
    have hs' : s = r.reverse ++ c :: suf := by simpa using hs
    have htake : s.take r.length = r.reverse := by rw [hs']; simp
    have hlen : byteLen (s.take r.length) = byteLen r := by rw [htake, byteLen_reverse]
    have hsuf : suf ≠ [] := by rintro rfl; simp at hlast
    -- a cut at this character
    have hcut : CamelCut k s r.length ↔ k.upper c = true := by
      constructor
      · rintro ⟨pre, c', post, l', he, hp, hu, _⟩
        rw [hs'] at he
        have := List.append_inj he (by simpa using hp.symm)
        simp only [List.cons.injEq] at this
        rw [this.2.1]; exact hu
      · intro hu
        exact ⟨r.reverse, c, suf, l, hs', by simp, hu, hcased, hlast, hlow⟩
    rw [simpleLoop]
    have weaken : ∀ {P : Prop}, (¬ CamelCut k s r.length ∨ byteLen (s.take r.length) < start) →
        (P → Best k s start r.length last) → P → Best k s start r.length last := fun _ h hp => h hp
    by_cases hbi : byteLen r < start
    · rw [if_pos hbi]
      have hsmall : ∀ q, q ≤ r.length → byteLen (s.take q) < start := by
        intro q hq
        have := byteLen_take_mono s hq
        omega
      rcases hb with ⟨he, hq⟩ | ⟨p, hp, hc, he, hst, hq⟩
      · refine Or.inl ⟨he, fun q _ hc => ?_⟩
        by_cases h : q ≤ r.length
        · exact hsmall q h
        · exact hq q (by simp; omega) hc
      · refine Or.inr ⟨p, Nat.zero_le _, hc, he, hst, fun q _ hlt hcq => ?_⟩
        by_cases h : q ≤ r.length
        · exact hsmall q h
        · exact hq q (by simp; omega) hlt hcq
    · rw [if_neg hbi]
      by_cases hu : k.upper c = true
      · rw [if_pos hu]
        refine ih (c :: suf) _ l hs' ?_ ?_ hlow ?_
        · intro x hx
          rcases List.mem_cons.mp hx with rfl | hx
          · exact Or.inl hu
          · exact hcased x hx
        · rw [List.getLast?_cons]; simp [hlast]
        · refine Or.inr ⟨r.length, Nat.le_refl _, hcut.mpr hu, by rw [hlen], by omega, ?_⟩
          intro q h1 h2; omega
      · rw [if_neg hu]
        have hnc : ¬ CamelCut k s r.length := fun h => hu (hcut.mp h)
        have hb' : Best k s start r.length last := by
          rcases hb with ⟨he, hq⟩ | ⟨p, hp, hc, he, hst, hq⟩
          · refine Or.inl ⟨he, fun q h1 hc => ?_⟩
            by_cases h : q = r.length
            · rw [h] at hc; exact absurd hc hnc
            · exact hq q (by simp; omega) hc
          · refine Or.inr ⟨p, by simp at hp; omega, hc, he, hst, fun q h1 hlt hcq => ?_⟩
            by_cases h : q = r.length
            · rw [h] at hcq; exact absurd hcq hnc
            · exact hq q (by simp; omega) hlt hcq
        by_cases hl : k.lower c = true
        · rw [if_pos hl]
          refine ih (c :: suf) _ l hs' ?_ ?_ hlow hb'
          · intro x hx
            rcases List.mem_cons.mp hx with rfl | hx
            · exact Or.inr hl
            · exact hcased x hx
          · rw [List.getLast?_cons]; simp [hlast]
        · rw [if_neg hl]
          -- no cut before a character without case
          have hno : ∀ q, q < r.length → ¬ CamelCut k s q := by
            rintro q hq ⟨pre, c', post, l', he, hp, _, hall, _⟩
            have hmem : c ∈ post := by
              have h1 : s[r.length]? = some c := by rw [hs']; simp
              rw [he, List.getElem?_append_right (by omega)] at h1
              obtain ⟨n, hn⟩ : ∃ n, r.length - pre.length = n + 1 := ⟨r.length - pre.length - 1, by omega⟩
              rw [hn, List.getElem?_cons_succ] at h1
              exact List.mem_of_getElem? h1
            rcases hall c hmem with h | h
            · exact hu h
            · exact hl h
          rcases hb' with ⟨he, hq⟩ | ⟨p, hp, hc, he, hst, hq⟩
          · refine Or.inl ⟨he, fun q _ hc => ?_⟩
            by_cases h : q < r.length
            · exact absurd hc (hno q h)
            · exact hq q (by omega) hc
          · refine Or.inr ⟨p, Nat.zero_le _, hc, he, hst, fun q _ hlt hcq => ?_⟩
            by_cases h : q < r.length
            · exact absurd hcq (hno q h)
            · exact hq q (by omega) hlt hcq

/-- The function finds the first cut at or after a byte position. -/
theorem startFromIdx_best (k : Casing) (hd : ∀ c, ¬ (k.upper c = true ∧ k.lower c = true)) (s : Str)
    (start : Nat) : Best k s start 0 (camelCaseStartFromIdx k s start) := by
  unfold camelCaseStartFromIdx
  have hrev : (charIndices 0 0 s).reverse = ann s.reverse := by
    rw [← charIndices_reverse, List.reverse_reverse]
  rw [hrev]
  cases hr : s.reverse with
  | nil =>
    refine Or.inl ⟨rfl, ?_⟩
    rintro q _ ⟨pre, c, post, l, he, _⟩
    have : s = [] := by simpa using hr
    rw [this] at he; simp at he
  | cons c r =>
    have hs : s = r.reverse ++ [c] := by
      have := congrArg List.reverse hr
      simpa using this
    simp only [ann]
    by_cases hl : k.lower c = true
    · simp only [hl, Bool.not_true, Bool.false_eq_true, if_false]
      rw [startLoop_eq k hd]
      refine simpleLoop_best k s start r [c] _ c hs ?_ rfl hl ?_
      · intro x hx; simp at hx; subst hx; exact Or.inr hl
      · refine Or.inl ⟨rfl, ?_⟩
        rintro q hq ⟨pre, c', post, l', he, hp, hu, _, hlast, _⟩
        have h1 : s.length = r.length + 1 := by rw [hs]; simp
        have h2 : s.length = pre.length + (post.length + 1) := by rw [he]; simp
        have : post = [] := List.length_eq_zero_iff.mp (by omega)
        rw [this] at hlast; simp at hlast
    · simp only [Bool.not_eq_true] at hl
      simp only [hl, Bool.not_false, if_true]
      refine Or.inl ⟨rfl, ?_⟩
      rintro q _ ⟨pre, c', post, l', he, _, _, _, hlast, hlow⟩
      have h1 : s.getLast? = some c := by rw [hs]; simp
      rw [he, List.getLast?_append, List.getLast?_cons, hlast] at h1
      simp at h1
      rw [h1, hl] at hlow; simp at hlow

theorem cut_lt {k : Casing} {s : Str} {p : Nat} (h : CamelCut k s p) :
    p < s.length ∧ byteLen (s.take p) < byteLen s := by
  obtain ⟨pre, c, post, l, he, hp, _⟩ := h
  subst he; subst hp
  refine ⟨by simp, ?_⟩
  have := utf8Size_pos c
  simp only [List.take_left, byteLen_append, byteLen_cons]
  omega

theorem byteLen_take_lt {s : Str} {p q : Nat} (h : p < q) (hp : p < s.length) :
    byteLen (s.take p) < byteLen (s.take q) := by
  have h1 := byteLen_take_mono s (show p + 1 ≤ q by omega)
  have h2 : s.take (p + 1) = s.take p ++ [s[p]] := by rw [List.take_succ_eq_append_getElem hp]
  have h3 := utf8Size_pos s[p]
  rw [h2, byteLen_append, byteLen_cons, byteLen_nil] at h1
  omega

/-- The indices are all the cuts from a position on, and the end. -/
theorem indicesLoop_spec (k : Casing) (hd : ∀ c, ¬ (k.upper c = true ∧ k.lower c = true)) (s : Str) :
    ∀ (fuel start : Nat) (idx : StrIndex), byteLen s - start ≤ fuel → Best k s start 0 idx →
      ∃ ps : List Nat, indicesLoop k s fuel idx =
          (ps.map fun p => (p, byteLen (s.take p))) ++ [(s.length, byteLen s)] ∧
        ps.Pairwise (· < ·) ∧ ∀ p, p ∈ ps ↔ CamelCut k s p ∧ start ≤ byteLen (s.take p) := by
  intro fuel
  induction fuel with
  | zero =>
    intro start idx hf hb
    have hsmall : ∀ q, CamelCut k s q → byteLen (s.take q) < start := by
      intro q hq
      have := (cut_lt hq).2
      omega
    refine ⟨[], ?_, .nil, fun p => ?_⟩
    · rcases hb with ⟨he, _⟩ | ⟨p, _, hc, _, hst, _⟩
      · simp [indicesLoop, he]
      · have := hsmall p hc; omega
    · simp only [List.not_mem_nil, false_iff, not_and]
      intro hc; have := hsmall p hc; omega
  | succ fuel ih =>
    intro start idx hf hb
    rw [indicesLoop]
    rcases hb with ⟨he, hq⟩ | ⟨p, _, hc, he, hst, hq⟩
    · subst he
      refine ⟨[], by simp, .nil, fun p => ?_⟩
      simp only [List.not_mem_nil, false_iff, not_and]
      intro hc; have := hq p (Nat.zero_le _) hc; omega
    · subst he
      have hlt := (cut_lt hc).2
      simp only [if_pos hlt]
      obtain ⟨ps, h1, h2, h3⟩ := ih (byteLen (s.take p) + 1) _ (by omega)
        (startFromIdx_best k hd s (byteLen (s.take p) + 1))
      refine ⟨p :: ps, by rw [h1]; simp, ?_, ?_⟩
      · refine List.Pairwise.cons (fun q hq' => ?_) h2
        have := ((h3 q).mp hq').2
        by_cases h : p < q
        · exact h
        · have := byteLen_take_mono s (show q ≤ p by omega); omega
      · intro q
        rw [List.mem_cons, h3]
        constructor
        · rintro (rfl | ⟨h, h'⟩)
          · exact ⟨hc, hst⟩
          · exact ⟨h, by omega⟩
        · rintro ⟨h, h'⟩
          by_cases hpq : q = p
          · exact Or.inl hpq
          · refine Or.inr ⟨h, ?_⟩
            by_cases hlt' : q < p
            · have := hq q (Nat.zero_le _) hlt' h; omega
            · have := byteLen_take_lt (s := s) (show p < q by omega) (cut_lt hc).1
              omega

/-- **C15 (indices).** `camel_case_indices` lists exactly the cuts of the name in increasing order, each
with its byte position, and then the end of the name. -/
theorem indices_spec (k : Casing) (hd : ∀ c, ¬ (k.upper c = true ∧ k.lower c = true)) (s : Str) :
    ∃ ps : List Nat, camelCaseIndices k s =
        (ps.map fun p => (p, byteLen (s.take p))) ++ [(s.length, byteLen s)] ∧
      ps.Pairwise (· < ·) ∧ ∀ p, p ∈ ps ↔ CamelCut k s p := by
  obtain ⟨ps, h1, h2, h3⟩ := indicesLoop_spec k hd s (byteLen s) 0 _ (by omega) (startFromIdx_best k hd s 0)
  exact ⟨ps, h1, h2, fun p => by rw [h3]; simp⟩

/-! ## Slicing -/

theorem dropBytes_append (s t : Str) : dropBytes (s ++ t) (byteLen s) = some t := by
  induction s with
  | nil => cases t <;> rfl
  | cons c s ih =>
    have hp := utf8Size_pos c
    rw [List.cons_append, byteLen_cons]
    obtain ⟨n, hn⟩ : ∃ n, c.utf8Size + byteLen s = n + 1 := ⟨c.utf8Size + byteLen s - 1, by omega⟩
    rw [hn, dropBytes, if_pos (by omega), show n + 1 - c.utf8Size = byteLen s by omega]
    exact ih

theorem takeBytes_append (s t : Str) : takeBytes (s ++ t) (byteLen s) = some s := by
  induction s with
  | nil => cases t <;> rfl
  | cons c s ih =>
    have hp := utf8Size_pos c
    rw [List.cons_append, byteLen_cons]
    obtain ⟨n, hn⟩ : ∃ n, c.utf8Size + byteLen s = n + 1 := ⟨c.utf8Size + byteLen s - 1, by omega⟩
    rw [hn, takeBytes, if_pos (by omega), show n + 1 - c.utf8Size = byteLen s by omega, ih]
    rfl

theorem slice_eq (s : Str) {a b : Nat} (h : a ≤ b) :
    slice s (byteLen (s.take a)) (byteLen (s.take b)) = some ((s.take b).drop a) := by
  have hmono := byteLen_take_mono s h
  unfold slice
  rw [if_pos hmono]
  have h1 : dropBytes s (byteLen (s.take a)) = some (s.drop a) := by
    have := dropBytes_append (s.take a) (s.drop a)
    rwa [List.take_append_drop] at this
  have hsplit : s.take b = s.take a ++ (s.take b).drop a := by
    have := (List.take_append_drop a (s.take b)).symm
    rwa [List.take_take, Nat.min_eq_left h] at this
  have hlen : byteLen (s.take b) - byteLen (s.take a) = byteLen ((s.take b).drop a) := by
    have := congrArg byteLen hsplit
    rw [byteLen_append] at this
    omega
  rw [h1, hlen]
  have h2 : s.drop a = (s.take b).drop a ++ s.drop b := by
    have h3 : (s.take b ++ s.drop b).drop a = s.drop a := by rw [List.take_append_drop]
    rw [← h3]
    by_cases hb : a ≤ (s.take b).length
    · rw [List.drop_append_of_le_length hb]
    · have hbl : s.length ≤ b := by simp at hb; omega
      have hal : s.length ≤ a := by simp at hb; omega
      rw [List.drop_eq_nil_of_le hbl]; simp
  rw [h2]
  exact takeBytes_append _ _

/-- Consecutive pieces of a string between character positions. -/
def windows (s : Str) : List Nat → List Str
  | a :: b :: rest => (s.take b).drop a :: windows s (b :: rest)
  | _ => []

theorem pieces_eq (s : Str) : ∀ qs : List Nat, qs.Pairwise (· < ·) →
    pieces s (qs.map fun q => byteLen (s.take q)) = some (windows s qs)
  | [], _ => rfl
  | [_], _ => rfl
  | a :: b :: rest, h => by
      have hab : a < b := (List.pairwise_cons.mp h).1 b (by simp)
      have ih := pieces_eq s (b :: rest) (List.pairwise_cons.mp h).2
      simp only [List.map_cons] at ih ⊢
      rw [pieces, slice_eq s (Nat.le_of_lt hab), ih]
      rfl

/-- The first words, joined, are the string up to a position. -/
theorem windows_take (s : Str) : ∀ (qs : List Nat) (q0 : Nat) (n : Nat) (q : Nat),
    (q0 :: qs).Pairwise (· < ·) → (q0 :: qs)[n]? = some q →
    ((windows s (q0 :: qs)).take n).flatten = (s.take q).drop q0
  | qs, q0, 0, q, _, hq => by
      simp at hq; subst hq
      simp
  | [], q0, n + 1, q, _, hq => by simp at hq
  | b :: rest, q0, n + 1, q, h, hq => by
      have h2 := List.pairwise_cons.mp h
      have hab : q0 < b := h2.1 b (by simp)
      simp only [List.getElem?_cons_succ] at hq
      have ih := windows_take s rest b n q h2.2 hq
      have hbq : b ≤ q := by
        cases n with
        | zero => simp at hq; omega
        | succ n =>
          simp only [List.getElem?_cons_succ] at hq
          exact Nat.le_of_lt ((List.pairwise_cons.mp h2.2).1 q (List.mem_of_getElem? hq))
      rw [windows, List.take_succ_cons, List.flatten_cons, ih]
      have h3 : s.take b = (s.take q).take b := by rw [List.take_take, Nat.min_eq_left hbq]
      rw [h3]
      generalize s.take q = t
      rw [List.drop_take]
      have : t.drop b = (t.drop q0).drop (b - q0) := by
        rw [List.drop_drop]; congr 1; omega
      rw [this, List.take_append_drop]

theorem windows_ne (s : Str) : ∀ (qs : List Nat), qs.Pairwise (· < ·) → (∀ q ∈ qs, q ≤ s.length) →
    ∀ w ∈ windows s qs, w ≠ []
  | [], _, _, w, hw => by simp [windows] at hw
  | [_], _, _, w, hw => by simp [windows] at hw
  | a :: b :: rest, h, hl, w, hw => by
      have h2 := List.pairwise_cons.mp h
      have hab : a < b := h2.1 b (by simp)
      rw [windows] at hw
      rcases List.mem_cons.mp hw with rfl | hw
      · intro e
        have := congrArg List.length e
        have hb := hl b (by simp)
        simp at this
        omega
      · exact windows_ne s (b :: rest) h2.2 (fun q hq => hl q (by simp [hq])) w hw

theorem windows_length (s : Str) : ∀ (qs : List Nat) (q0 : Nat), (windows s (q0 :: qs)).length = qs.length
  | [], _ => rfl
  | b :: rest, q0 => by rw [windows, List.length_cons, windows_length s rest b, List.length_cons]

/-! ## The property -/

/-- **C15 (splitting).** Splitting a name never panics; the words are not empty, joined they give the
name, and the places between words are exactly its cuts. -/
theorem split_spec (k : Casing) (hd : ∀ c, ¬ (k.upper c = true ∧ k.lower c = true)) (s : Str) :
    ∃ ws, camelCaseSplit k s = some ws ∧ ws.flatten = s ∧ (∀ w ∈ ws, w ≠ []) ∧
      ∀ p, 0 < p → p < s.length → ((∃ n, (ws.take n).flatten.length = p) ↔ CamelCut k s p) := by
  obtain ⟨ps, h1, h2, h3⟩ := indices_spec k hd s
  -- the positions of all words
  obtain ⟨qs, hq1, hq2, hq3, hq4⟩ : ∃ qs : List Nat,
      camelCaseSplit k s = pieces s ((0 :: qs).map fun q => byteLen (s.take q)) ∧
      (0 :: qs).Pairwise (· < ·) ∧ (0 :: qs).getLast? = some s.length ∧
      (∀ p, 0 < p → p < s.length → (p ∈ qs ↔ CamelCut k s p)) := by
    unfold camelCaseSplit
    rw [h1]
    simp only [List.map_append, List.map_map, List.map_cons, List.map_nil]
    have hfun : ((fun x : StrIndex => x.2) ∘ fun p => (p, byteLen (s.take p))) =
        fun p => byteLen (s.take p) := rfl
    rw [hfun]
    have hend : byteLen s = byteLen (s.take s.length) := by rw [List.take_length]
    have hlt : ∀ p ∈ ps, p < s.length := fun p hp => (cut_lt ((h3 p).mp hp)).1
    cases ps with
    | nil =>
      by_cases hs : s = []
      · subst hs
        refine ⟨[], by simp [byteLen_nil, pieces], by simp, by simp, ?_⟩
        intro p _ hp; simp at hp
      · have hpos : 0 < s.length := List.length_pos_iff.mpr hs
        have hb : byteLen s ≠ 0 := by
          obtain ⟨c, cs, rfl⟩ := List.exists_cons_of_ne_nil hs
          have := utf8Size_pos c
          rw [byteLen_cons]; omega
        refine ⟨[s.length], ?_, by simpa using hpos, by simp, ?_⟩
        · simp [hb, byteLen_nil]
        · intro p _ hp
          have := h3 p
          simp only [List.not_mem_nil, false_iff] at this
          simp [this]; omega
    | cons p0 ps' =>
      have hp0 := hlt p0 (by simp)
      have hpw := List.pairwise_cons.mp h2
      by_cases h0 : p0 = 0
      · subst h0
        refine ⟨ps' ++ [s.length], ?_, ?_, ?_, ?_⟩
        · simp [byteLen_nil]
        · refine List.Pairwise.cons ?_ (List.pairwise_append.mpr ⟨hpw.2, by simp, ?_⟩)
          · intro q hq
            rcases List.mem_append.mp hq with hq | hq
            · exact hpw.1 q hq
            · simp at hq; omega
          · intro a ha b hb
            simp at hb; subst hb
            exact hlt a (by simp [ha])
        · rw [List.getLast?_cons, List.getLast?_append]; simp
        · intro p hp0' hpl
          have e1 : p ≠ 0 := by omega
          have e2 : p ≠ s.length := by omega
          rw [← h3]
          simp [e1, e2]
      · have hb0 : byteLen (s.take p0) ≠ 0 := by
          have := byteLen_take_lt (s := s) (show 0 < p0 by omega) (by omega)
          omega
        refine ⟨(p0 :: ps') ++ [s.length], ?_, ?_, ?_, ?_⟩
        · simp [byteLen_nil, hb0]
        · refine List.Pairwise.cons ?_ (List.pairwise_append.mpr ⟨h2, by simp, ?_⟩)
          · intro q hq
            rcases List.mem_append.mp hq with hq | hq
            · rcases List.mem_cons.mp hq with rfl | hq
              · omega
              · have := hpw.1 q hq; omega
            · simp at hq; omega
          · intro a ha b hb
            simp at hb; subst hb
            exact hlt a ha
        · rw [List.getLast?_cons, List.getLast?_append]; simp
        · intro p hp0' hpl
          have e2 : p ≠ s.length := by omega
          rw [← h3]
          simp [e2]
  have hle : ∀ q ∈ 0 :: qs, q ≤ s.length := by
    intro q hq
    have hne : (0 :: qs) ≠ [] := by simp
    obtain ⟨ys, hys⟩ := List.getLast?_eq_some_iff.mp hq3
    rw [hys] at hq hq2
    rcases List.mem_append.mp hq with hq | hq
    · exact Nat.le_of_lt ((List.pairwise_append.mp hq2).2.2 q hq _ (by simp))
    · simp at hq; omega
  refine ⟨windows s (0 :: qs), by rw [hq1, pieces_eq s _ hq2], ?_, windows_ne s _ hq2 hle, ?_⟩
  · have hlast : (0 :: qs)[qs.length]? = some s.length := by
      rw [List.getLast?_eq_getElem?] at hq3
      simpa using hq3
    have := windows_take s qs 0 qs.length s.length hq2 hlast
    rw [List.take_of_length_le (by rw [windows_length]; omega)] at this
    simpa using this
  · intro p hp0 hpl
    rw [← hq4 p hp0 hpl]
    constructor
    · rintro ⟨n, hn⟩
      by_cases hnl : n ≤ qs.length
      · obtain ⟨q, hq⟩ : ∃ q, (0 :: qs)[n]? = some q := by
          exact ⟨(0 :: qs)[n]'(by simp; omega), List.getElem?_eq_getElem _⟩
        rw [windows_take s qs 0 n q hq2 hq] at hn
        have hqm := List.mem_of_getElem? hq
        have hql := hle q hqm
        simp only [List.drop_zero, List.length_take, Nat.min_eq_left hql] at hn
        subst hn
        rcases List.mem_cons.mp hqm with h | h
        · omega
        · exact h
      · have hlast : (0 :: qs)[qs.length]? = some s.length := by
          rw [List.getLast?_eq_getElem?] at hq3
          simpa using hq3
        have := windows_take s qs 0 qs.length s.length hq2 hlast
        rw [List.take_of_length_le (by rw [windows_length]; omega)] at this hn
        rw [this] at hn
        simp at hn
        omega
    · intro hm
      obtain ⟨n, hn⟩ := List.mem_iff_getElem?.mp hm
      refine ⟨n + 1, ?_⟩
      rw [windows_take s qs 0 (n + 1) p hq2 (by simpa using hn)]
      simp
      omega

/-- Non-vacuity: the cuts and words of `ööAabABcd`, with a casing that knows ASCII letters and `ö`. -/
def sampleCasing : Casing := { ascii with lower := fun c => ascii.lower c || c == 'ö' }

example : camelCaseSplit sampleCasing ['ö', 'ö', 'A', 'a', 'b', 'A', 'B', 'c', 'd'] =
    some [['ö', 'ö'], str!"Aab", str!"A", str!"Bcd"] := by decide +kernel

example : ∀ c, ¬ (sampleCasing.upper c = true ∧ sampleCasing.lower c = true) := by
  intro c
  simp [sampleCasing, ascii]
  intro h1 h2
  constructor
  · intro h3
    exact absurd (Char.le_trans h3 h2) (by decide)
  · rintro rfl
    exact absurd h2 (by decide)

/-! ## Common prefixes and suffixes -/

/-- `p` is the longest common prefix of two strings. -/
def LongestCommonPrefix (s1 s2 p : Str) : Prop :=
  p <+: s1 ∧ p <+: s2 ∧ ∀ q, q <+: s1 → q <+: s2 → q <+: p

/-- `p` is the longest common suffix of two strings. -/
def LongestCommonSuffix (s1 s2 p : Str) : Prop :=
  p <:+ s1 ∧ p <:+ s2 ∧ ∀ q, q <:+ s1 → q <:+ s2 → q <:+ p

/-- The longest common prefix, computed. -/
def lcp : Str → Str → Str
  | a :: as, b :: bs => if a = b then a :: lcp as bs else []
  | _, _ => []

theorem lcp_longest : ∀ (s1 s2 : Str), LongestCommonPrefix s1 s2 (lcp s1 s2)
  | [], s2 => by simp [lcp, LongestCommonPrefix]
  | _ :: _, [] => by simp [lcp, LongestCommonPrefix]
  | a :: as, b :: bs => by
      obtain ⟨h1, h2, h3⟩ := lcp_longest as bs
      by_cases hab : a = b
      · subst hab
        rw [lcp, if_pos rfl]
        refine ⟨by simpa using h1, by simpa using h2, ?_⟩
        intro q hq1 hq2
        cases q with
        | nil => simp
        | cons x xs =>
          rw [List.cons_prefix_cons] at hq1 hq2 ⊢
          exact ⟨hq1.1, h3 xs hq1.2 hq2.2⟩
      · rw [lcp, if_neg hab]
        refine ⟨by simp, by simp, ?_⟩
        intro q hq1 hq2
        cases q with
        | nil => simp
        | cons x xs =>
          rw [List.cons_prefix_cons] at hq1 hq2
          exact absurd (hq1.1.symm.trans hq2.1) hab

theorem matchStart_gen : ∀ (s1 s2 : Str) (ci bi b1 c2 : Nat),
    (match ((((charIndices ci b1 s1).map fun x => (x.1, x.2.2)).zip
        ((charIndices c2 bi s2).map fun x => (x.2.1, x.2.2))).takeWhile
          fun p => p.1.2 == p.2.2).getLast? with
      | none => (ci, bi)
      | some ((ci, _), (bi, c)) => (ci + 1, bi + c.utf8Size)) =
    (ci + (lcp s1 s2).length, bi + byteLen (lcp s1 s2))
  | [], s2, ci, bi, b1, c2 => by simp [charIndices, lcp, byteLen_nil]
  | a :: as, [], ci, bi, b1, c2 => by simp [charIndices, lcp, byteLen_nil]
  | a :: as, b :: bs, ci, bi, b1, c2 => by
      by_cases hab : a = b
      · subst hab
        have ih := matchStart_gen as bs (ci + 1) (bi + a.utf8Size) (b1 + a.utf8Size) (c2 + 1)
        simp only [charIndices, List.map_cons, List.zip_cons_cons, List.takeWhile_cons, beq_self_eq_true,
          if_true, List.getLast?_cons, lcp]
        cases hl : ((((charIndices (ci + 1) (b1 + a.utf8Size) as).map fun x => (x.1, x.2.2)).zip
            ((charIndices (c2 + 1) (bi + a.utf8Size) bs).map fun x => (x.2.1, x.2.2))).takeWhile
              fun p => p.1.2 == p.2.2).getLast? with
        | none =>
          rw [hl] at ih
          simp only [Option.getD_none, List.length_cons, byteLen_cons, Prod.mk.injEq] at ih ⊢
          omega
        | some x =>
          rw [hl] at ih
          simp only [Option.getD_some, List.length_cons, byteLen_cons, Prod.mk.injEq] at ih ⊢
          omega
      · simp [charIndices, List.takeWhile_cons, hab, lcp, byteLen_nil]

/-- **C15 (prefixes).** The counts are those of the longest common prefix. -/
theorem countMatchStart_spec (s1 s2 : Str) :
    ∃ p, LongestCommonPrefix s1 s2 p ∧ countMatchStart s1 s2 = (p.length, byteLen p) := by
  refine ⟨lcp s1 s2, lcp_longest s1 s2, ?_⟩
  have := matchStart_gen s1 s2 0 0 0 0
  unfold countMatchStart
  simp only
  simp only [Nat.zero_add] at this
  rw [← this]
  cases ((((charIndices 0 0 s1).map fun x => (x.1, x.2.2)).zip
      ((charIndices 0 0 s2).map fun x => (x.2.1, x.2.2))).takeWhile
        fun p => p.1.2 == p.2.2).getLast? <;> rfl

theorem matchEnd_gen : ∀ (r1 r2 : Str), 
    (match ((((ann r1).map fun x => (x.1, x.2.2)).zip ((ann r2).map fun x => (x.2.1, x.2.2))).takeWhile
          fun p => p.1.2 == p.2.2).getLast? with
      | none => (r1.length, byteLen r2)
      | some ((ci, _), (bi, _)) => (ci, bi)) =
    (r1.length - (lcp r1 r2).length, byteLen r2 - byteLen (lcp r1 r2))
  | [], r2 => by simp [ann, lcp, byteLen_nil]
  | a :: as, [] => by simp [ann, lcp, byteLen_nil]
  | a :: as, b :: bs => by
      by_cases hab : a = b
      · subst hab
        have ih := matchEnd_gen as bs
        simp only [ann, List.map_cons, List.zip_cons_cons, List.takeWhile_cons, beq_self_eq_true,
          if_true, List.getLast?_cons, lcp]
        cases hl : ((((ann as).map fun x => (x.1, x.2.2)).zip
            ((ann bs).map fun x => (x.2.1, x.2.2))).takeWhile fun p => p.1.2 == p.2.2).getLast? with
        | none =>
          rw [hl] at ih
          simp only [Option.getD_none, List.length_cons, byteLen_cons, Prod.mk.injEq] at ih ⊢
          omega
        | some x =>
          rw [hl] at ih
          simp only [Option.getD_some, List.length_cons, byteLen_cons, Prod.mk.injEq] at ih ⊢
          omega
      · simp [ann, List.takeWhile_cons, hab, lcp, byteLen_nil]

theorem byteLen_prefix {s t : Str} (h : s <+: t) : byteLen s ≤ byteLen t := by
  obtain ⟨r, rfl⟩ := h
  rw [byteLen_append]; omega

/-- **C15 (suffixes).** The counts are those of the longest common suffix. -/
theorem countMatchEnd_spec (s1 s2 : Str) :
    ∃ p, LongestCommonSuffix s1 s2 p ∧ countMatchEnd s1 s2 = (p.length, byteLen p) := by
  obtain ⟨h1, h2, h3⟩ := lcp_longest s1.reverse s2.reverse
  refine ⟨(lcp s1.reverse s2.reverse).reverse, ⟨?_, ?_, ?_⟩, ?_⟩
  · rw [← List.reverse_prefix, List.reverse_reverse]; exact h1
  · rw [← List.reverse_prefix, List.reverse_reverse]; exact h2
  · intro q hq1 hq2
    rw [← List.reverse_prefix, List.reverse_reverse]
    exact h3 _ (List.reverse_prefix.mpr hq1) (List.reverse_prefix.mpr hq2)
  · unfold countMatchEnd
    by_cases h0 : s1.length = 0
    · have : s1 = [] := List.length_eq_zero_iff.mp h0
      subst this
      simp [lcp, byteLen_nil]
    · rw [if_neg h0]
      have hr : ∀ s : Str, (charIndices 0 0 s).reverse = ann s.reverse := by
        intro s; rw [← charIndices_reverse, List.reverse_reverse]
      have := matchEnd_gen s1.reverse s2.reverse
      simp only [hr, List.length_reverse, byteLen_reverse] at this ⊢
      have hle1 := h1.length_le
      have hle2 := byteLen_prefix h2
      rw [List.length_reverse] at hle1
      rw [byteLen_reverse] at hle2
      cases hl : ((((ann s1.reverse).map fun x => (x.1, x.2.2)).zip
            ((ann s2.reverse).map fun x => (x.2.1, x.2.2))).takeWhile fun p => p.1.2 == p.2.2).getLast? with
      | none =>
        rw [hl] at this
        simp only [Prod.mk.injEq] at this ⊢
        omega
      | some x =>
        rw [hl] at this
        simp only [Prod.mk.injEq] at this ⊢
        omega

/-- Non-vacuity. -/
example : countMatchStart (str!"hello_mouse") (str!"hello_penguin") = (6, 6) ∧
    countMatchEnd ['M', 'y', 'T', 'ö', 'f', 'f'] ['Y', 'o', 'u', 'r', 'T', 'ö', 'f', 'f'] = (4, 5) := by
  decide +kernel

end Verif.StrUtils
