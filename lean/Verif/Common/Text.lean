import Lean.Elab.Command

/-!
# Text helpers

Text is a list of characters. The functions here transcribe the parts of Rust's `str` API the
modelled code calls (`split`, `splitn(2, _)`, `strip_prefix`, `contains`).
-/

namespace Verif

/-- Rust `str`/`String`, as the list of its characters. -/
abbrev Str := List Char

open Lean in
/-- `str!"abc"` is the character list `['a', 'b', 'c']` (expanded at parse time). -/
macro:max "str!" s:str : term => do
  let cs : Array (TSyntax `term) :=
    (s.getString.toList.map fun c => (⟨Syntax.mkCharLit c⟩ : TSyntax `term)).toArray
  `(([$cs,*] : List Char))

namespace Text

/-- Loop of `split`. `skip` counts characters of a separator that is being skipped, `cur` is the
current piece, reversed. -/
def splitGo (sep : Str) : Nat → Str → Str → List Str
  | _, cur, [] => [cur.reverse]
  | 0, cur, c :: cs =>
      if sep.isPrefixOf (c :: cs) then cur.reverse :: splitGo sep (sep.length - 1) [] cs
      else splitGo sep 0 (c :: cur) cs
  | k + 1, cur, _ :: cs => splitGo sep k cur cs

/-- Rust `str::split(sep)` for a non-empty string separator: leftmost, non-overlapping matches;
there is always at least one piece. -/
def split (sep : Str) (s : Str) : List Str := splitGo sep 0 [] s

/-- Rust `s.splitn(2, c)`: the part before the first `c`, and the part after it if there is one. -/
def splitOnce (c : Char) : Str → Str × Option Str
  | [] => ([], none)
  | x :: xs =>
      if x = c then ([], some xs)
      else let (a, b) := splitOnce c xs; (x :: a, b)

/-- Rust `s.contains(pat)` for a string pattern. -/
def contains (pat : Str) : Str → Bool
  | [] => pat.isEmpty
  | c :: cs => pat.isPrefixOf (c :: cs) || contains pat cs

/-- Rust `s.strip_prefix(p)`. -/
def stripPrefix? : (p s : Str) → Option Str
  | [], s => some s
  | _ :: _, [] => none
  | p :: ps, c :: cs => if p = c then stripPrefix? ps cs else none

theorem contains_iff (pat s : Str) : contains pat s = true ↔ pat <:+: s := by
  induction s with
  | nil => simp [contains, List.isEmpty_iff]
  | cons c cs ih =>
    simp only [contains, Bool.or_eq_true, ih, List.isPrefixOf_iff_prefix]
    exact List.infix_cons_iff.symm

theorem stripPrefix?_eq_some {p s r : Str} : stripPrefix? p s = some r ↔ s = p ++ r := by
  induction p generalizing s with
  | nil => simp [stripPrefix?]
  | cons a p ih =>
    cases s with
    | nil => simp [stripPrefix?]
    | cons c cs =>
      simp only [stripPrefix?]
      split
      · next h => subst h; simp [ih]
      · next h => simp [eq_comm]; intro h'; exact absurd h' h

theorem splitGo_skip (sep : Str) (k : Nat) (cur a rest : Str) (h : a.length = k) :
    splitGo sep k cur (a ++ rest) = splitGo sep 0 cur rest := by
  induction a generalizing k with
  | nil => simp at h; subst h; rfl
  | cons x a ih =>
    cases k with
    | zero => simp at h
    | succ k => simpa [splitGo] using ih k (by simpa using h)

/-- If in `w ++ sep` the separator only occurs at the very end, then splitting
`w ++ sep ++ rest` yields the piece `w` first. -/
theorem splitGo_piece (sep : Str) (hsep : sep ≠ []) (w rest cur : Str)
    (h : ∀ i, i < w.length → ¬ sep <+: (w ++ sep).drop i) :
    splitGo sep 0 cur (w ++ (sep ++ rest)) = (cur.reverse ++ w) :: split sep rest := by
  induction w generalizing cur with
  | nil =>
    obtain ⟨c, cs, rfl⟩ := List.exists_cons_of_ne_nil hsep
    have : (c :: cs).isPrefixOf (c :: (cs ++ rest)) = true := by
      rw [List.isPrefixOf_iff_prefix]; exact ⟨rest, by simp⟩
    simp only [List.nil_append, List.cons_append, splitGo, this, if_true, List.length_cons,
      Nat.add_sub_cancel, List.append_nil]
    rw [splitGo_skip _ _ _ _ _ rfl]; rfl
  | cons x w ih =>
    have h0 : ¬ sep <+: (x :: w) ++ sep := by simpa using h 0 (by simp)
    have hn : sep.isPrefixOf (x :: (w ++ (sep ++ rest))) = false := by
      cases hb : sep.isPrefixOf (x :: (w ++ (sep ++ rest))) with
      | false => rfl
      | true =>
        rw [List.isPrefixOf_iff_prefix] at hb
        exfalso; apply h0
        refine List.prefix_of_prefix_length_le hb ⟨rest, by simp⟩ (by simp; omega)
    simp only [List.cons_append, splitGo, hn, Bool.false_eq_true, if_false]
    rw [ih (x :: cur)]
    · simp
    · intro i hi
      have := h (i + 1) (by simpa using hi)
      simpa using this

theorem split_piece (sep : Str) (hsep : sep ≠ []) (w rest : Str)
    (h : ∀ i, i < w.length → ¬ sep <+: (w ++ sep).drop i) :
    split sep (w ++ (sep ++ rest)) = w :: split sep rest := by
  simpa [split] using splitGo_piece sep hsep w rest [] h

theorem splitGo_char (c : Char) (w rest cur : Str) (h : c ∉ w) :
    splitGo [c] 0 cur (w ++ c :: rest) = (cur.reverse ++ w) :: split [c] rest := by
  induction w generalizing cur with
  | nil => simp [splitGo, split, List.isPrefixOf]
  | cons x w ih =>
    have hx : (c == x) = false := by
      have : c ≠ x := fun e => h (by simp [e])
      simpa using this
    simp only [List.cons_append, splitGo, List.isPrefixOf, hx, Bool.false_and, Bool.false_eq_true,
      if_false]
    rw [ih (x :: cur) (fun e => h (by simp [e]))]
    simp

theorem split_char (c : Char) (w rest : Str) (h : c ∉ w) :
    split [c] (w ++ c :: rest) = w :: split [c] rest := by
  simpa [split] using splitGo_char c w rest [] h

theorem splitGo_char_none (c : Char) (w cur : Str) (h : c ∉ w) :
    splitGo [c] 0 cur w = [cur.reverse ++ w] := by
  induction w generalizing cur with
  | nil => simp [splitGo]
  | cons x w ih =>
    have hx : (c == x) = false := by
      have : c ≠ x := fun e => h (by simp [e])
      simpa using this
    simp only [splitGo, List.isPrefixOf, hx, Bool.false_and, Bool.false_eq_true, if_false]
    rw [ih (x :: cur) (fun e => h (by simp [e]))]
    simp

theorem split_char_none (c : Char) (w : Str) (h : c ∉ w) : split [c] w = [w] := by
  simpa [split] using splitGo_char_none c w [] h

end Text
end Verif
