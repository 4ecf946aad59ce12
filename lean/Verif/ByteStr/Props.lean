import Verif.ByteStr.Model

/-!
# Properties: arrays of byte literals
-/

namespace Verif.ByteStr

theorem piece_snippet (t : List Char) : piece ('b' :: '\'' :: (t ++ ['\''])) = if t = ['"'] then ['\\', '"'] else if t = ['\\', '\''] then ['\''] else t := by
  unfold piece
  have : (('b' :: '\'' :: (t ++ ['\''])).drop 2).dropLast = t := by simp
  rw [this]

theorem byteString_hex (a b : Char) (r : List Char) : byteString ('\\' :: 'x' :: a :: b :: r) = (hexByte a b).bind fun v => (byteString r).map (v :: ·) := by
  rw [byteString]

theorem byteString_escape (c : Char) (v : Nat) (h : escape c = some v) (r : List Char) : byteString ('\\' :: c :: r) = (byteString r).map (v :: ·) := by
  have hx : c ≠ 'x' := by
    intro e
    have hn : escape 'x' = none := by decide
    rw [e, hn] at h
    cases h
  rw [byteString]
  · rw [h]; rfl
  · intro a b r' e
    exact absurd e hx

theorem byteString_plain (c : Char) (h1 : c ≠ '\\') (h2 : c ≠ '"') (h3 : c ≠ '\r') (h4 : ¬128 ≤ c.toNat) (r : List Char) :
    byteString (c :: r) = (byteString r).map (c.toNat :: ·) := by
  rw [byteString]
  · rw [if_neg (by simp only [h1, h3, h4, or_self, not_false_eq_true])]
  · intro a b r' e _
    exact absurd e h1
  · intro c' r' e _
    exact absurd e h1
  · exact h2

/-- A byte literal, as it is written in the string, is read as its byte. -/
theorem read_piece (t : List Char) (v : Nat) (h : byteLit t = some v) (r : List Char) :
    byteString (piece ('b' :: '\'' :: (t ++ ['\''])) ++ r) = (byteString r).map (v :: ·) := by
  rw [piece_snippet]
  unfold byteLit at h
  split at h
  · rename_i a b
    rw [if_neg (by simp), if_neg (by simp)]
    show byteString ('\\' :: 'x' :: a :: b :: r) = _
    rw [byteString_hex, h]
    rfl
  · rename_i c
    rw [if_neg (by simp)]
    by_cases hc : c = '\''
    · subst hc
      have hv : v = 39 := by
        have : escape '\'' = some 39 := by decide
        rw [this] at h
        injection h with h
        exact h.symm
      rw [if_pos rfl, hv]
      exact byteString_plain '\'' (by decide) (by decide) (by decide) (by decide) r
    · rw [if_neg (by simpa using hc)]
      exact byteString_escape c v h r
  · rename_i c
    by_cases hx : c = '\\' ∨ c = '\'' ∨ c = '\n' ∨ c = '\r' ∨ c = '\t' ∨ 128 ≤ c.toNat
    · rw [if_pos hx] at h; cases h
    · rw [if_neg hx] at h
      injection h with h
      rw [← h]
      have h1 : c ≠ '\\' := fun e => hx (Or.inl e)
      have h3 : c ≠ '\r' := fun e => hx (Or.inr (Or.inr (Or.inr (Or.inl e))))
      have h4 : ¬128 ≤ c.toNat := fun e => hx (Or.inr (Or.inr (Or.inr (Or.inr (Or.inr e)))))
      by_cases hq : c = '"'
      · subst hq
        rw [if_pos rfl]
        exact byteString_escape '"' 34 (by decide) r
      · rw [if_neg (by simpa using hq), if_neg (by simp)]
        exact byteString_plain c h1 hq h3 h4 r
  · cases h

theorem build_append (l : List (List Char)) : ∀ acc, build acc l = acc ++ build [] l := by
  induction l with
  | nil => intro acc; rw [build, build, List.append_nil]
  | cons s l ih => intro acc; rw [build, build, ih (acc ++ piece s), ih ([] ++ piece s), List.append_assoc, List.nil_append]

/-- The bytes of an array of byte literals. -/
def Bytes : List Elem → List Nat → Prop
  | [], [] => True
  | .byte t _ :: r, v :: vs => byteLit t = some v ∧ Bytes r vs
  | _, _ => False

theorem members_read (es : List Elem) : ∀ (vs : List Nat) (l : List (List Char)), Bytes es vs → members es = some l → byteString (build [] l) = some vs := by
  induction es with
  | nil =>
    intro vs l hb hl
    cases hl
    cases vs with
    | nil => rfl
    | cons v vs => exact absurd hb (fun k => k)
  | cons e es ih =>
    intro vs l hb hl
    cases e with
    | other => cases hl
    | byte t same =>
      cases vs with
      | nil => exact absurd hb (fun k => k)
      | cons v vs =>
        rw [members] at hl
        cases same with
        | false => cases hl
        | true =>
          rw [if_pos rfl, Option.map_eq_some_iff] at hl
          obtain ⟨l', h1, h2⟩ := hl
          subst h2
          rw [build, build_append, List.nil_append, read_piece t v hb.1, ih vs l' hb.2 h1]
          rfl

/-- The suggested string has the bytes of the array. -/
theorem same_bytes (site : Site) (es : List Elem) (vs : List Nat) (hb : Bytes es vs) (d : Bool) (t : List Char) (h : check site es = some (d, t)) :
    byteString t = some vs := by
  unfold check isByteCharSlices at h
  by_cases hc : (!es.isEmpty && !site.remarks) = true
  · rw [if_pos hc] at h
    cases hm : members es with
    | none => rw [hm] at h; cases h
    | some l =>
      rw [hm] at h
      cases h
      exact members_read es vs l hb hm
  · rw [if_neg hc] at h; cases h

/-- The suggestion is an array, not a reference to one, exactly if the array is neither borrowed nor used as a slice. -/
theorem dereferenced (site : Site) (es : List Elem) (d : Bool) (t : List Char) (h : check site es = some (d, t)) :
    d = true ↔ site.borrowed = false ∧ site.slice = false := by
  unfold check isByteCharSlices at h
  by_cases hc : (!es.isEmpty && !site.remarks) = true
  · rw [if_pos hc] at h
    cases hm : members es with
    | none => rw [hm] at h; cases h
    | some l =>
      rw [hm] at h
      cases h
      simp
  · rw [if_neg hc] at h; cases h

/-- Exactly arrays with elements, all of them byte literals written there, and without remarks are reported. -/
theorem reported_iff (site : Site) (es : List Elem) :
    (check site es).isSome = true ↔ es ≠ [] ∧ site.remarks = false ∧ ∀ e ∈ es, ∃ t, e = .byte t true := by
  have hm : ∀ es : List Elem, (members es).isSome = true ↔ ∀ e ∈ es, ∃ t, e = .byte t true := by
    intro es
    induction es with
    | nil => simp [members]
    | cons e es ih =>
      cases e with
      | other => simp [members]
      | byte t same =>
        cases same with
        | false => simp [members]
        | true => simp [members, ih]
  have key : (check site es).isSome = (!es.isEmpty && !site.remarks && (members es).isSome) := by
    unfold check isByteCharSlices
    by_cases hc : (!es.isEmpty && !site.remarks) = true
    · rw [if_pos hc, hc]
      cases members es <;> rfl
    · rw [if_neg hc]
      rw [Bool.not_eq_true] at hc
      rw [hc]
      rfl
  rw [key, Bool.and_eq_true, Bool.and_eq_true, hm]
  simp [and_assoc]

example : check ⟨true, false, false⟩ [.byte ['a'] true, .byte ['"'] true, .byte ['\\', '\''] true, .byte ['\\', 'x', '4', 'F'] true] =
      some (false, ['a', '\\', '"', '\'', '\\', 'x', '4', 'F']) ∧
    byteString ['a', '\\', '"', '\'', '\\', 'x', '4', 'F'] = some [97, 34, 39, 79] ∧
    check ⟨false, false, false⟩ [.byte ['a'] true] = some (true, ['a']) ∧ check ⟨false, false, false⟩ [.byte ['a'] true, .other] = none := by decide +kernel

example : Bytes [.byte ['a'] true, .byte ['\\', 'x', '4', 'F'] true] [97, 79] := ⟨by decide +kernel, by decide +kernel, trivial⟩

end Verif.ByteStr
