import Verif.DocEnd.Spec

/-!
# Paragraphs of documentation without punctuation at their end: the linter
-/

namespace Verif.DocEnd

/-- The symbols of `trim_trailing_symbols`; clippy_lints/src/doc/doc_paragraphs_missing_punctuation.rs:135-144. -/
def isSymbol (n : Nat) : Bool :=
  (0x1F300 ≤ n && n ≤ 0x1F5FF) || (0x1F600 ≤ n && n ≤ 0x1F64F) || (0x1F900 ≤ n && n ≤ 0x1F9FF) || (0x2700 ≤ n && n ≤ 0x27BF) ||
    (0x1FA70 ≤ n && n ≤ 0x1FAFF) || (0x1F680 ≤ n && n ≤ 0x1F6FF) || (0x2600 ≤ n && n ≤ 0x26FF) || (0xFE00 ≤ n && n ≤ 0xFE0F)

/-- `trim_trailing_symbols`; clippy_lints/src/doc/doc_paragraphs_missing_punctuation.rs:132-145. `ws` is `char::is_whitespace`. -/
def trimEnd (ws : Char → Bool) (s : List Char) : List Char := (s.reverse.dropWhile fun c => isSymbol c.toNat || ws c).reverse

/-- `ends_with(TERMINAL_PUNCTUATION_MARKS)`; clippy_lints/src/doc/doc_paragraphs_missing_punctuation.rs:51 and 102. -/
def endsWithMark (s : List Char) : Bool :=
  match s.getLast? with
  | some c => c == '.' || c == '?' || c == '!' || c == '…' || c == ':'
  | none => false

/-- `strip_suffix(|c| c == ')' || c == '"')`; clippy_lints/src/doc/doc_paragraphs_missing_punctuation.rs:114. -/
def stripClosing (s : List Char) : Option (List Char) :=
  match s.getLast? with
  | some c => if c == ')' || c == '"' then some s.dropLast else none
  | none => none

/-- The variables of `is_missing_punctuation`; clippy_lints/src/doc/doc_paragraphs_missing_punctuation.rs:53-57. -/
structure St where
  depth : Int
  out : List Missing
  cur : Option Missing
  isMissing : Bool
  isImage : Bool
deriving DecidableEq

/-- The arm for text; clippy_lints/src/doc/doc_paragraphs_missing_punctuation.rs:111-123. -/
def ofText (ws : Char → Bool) (doc : List Char) (hi : Nat) : Option Missing :=
  if endsWithMark (trimEnd ws (doc.take hi)) then none
  else match stripClosing (trimEnd ws (doc.take hi)) with
    | some t => if endsWithMark t then none else some (.unfixable hi)
    | none => some (.fixable hi)

/-- The arm for code and links; clippy_lints/src/doc/doc_paragraphs_missing_punctuation.rs:102-108. -/
def ofSpan (ws : Char → Bool) (doc : List Char) (lastImage : Bool) (hi : Nat) : Option Missing :=
  if endsWithMark (trimEnd ws (doc.take hi)) || lastImage then none else some (.fixable hi)

/-- The end of a paragraph; clippy_lints/src/doc/doc_paragraphs_missing_punctuation.rs:93-98. `current_paragraph` stays what it is. -/
def endPara (st : St) : St :=
  match st.cur with
  | some mp => { st with out := st.out ++ [mp], isMissing := true, isImage := false }
  | none => { st with isMissing := false, isImage := false }

/-- What happens for inline events; clippy_lints/src/doc/doc_paragraphs_missing_punctuation.rs:86-92 and 99-125. -/
def inline (ws : Char → Bool) (doc : List Char) (st : St) (e : Inline) : St :=
  match e with
  | .html => { st with cur := none, isMissing := false, isImage := false }
  | .startImage => { st with cur := none, isMissing := false, isImage := false }
  | .endImage => { st with cur := none, isMissing := false, isImage := true }
  | .span lo hi =>
    if st.depth = 0 ∧ lo < hi then { st with cur := ofSpan ws doc st.isImage hi, isMissing := false, isImage := false }
    else { st with isMissing := false, isImage := false }
  | .text lo hi =>
    if st.depth = 0 ∧ lo < hi then { st with cur := ofText ws doc hi, isMissing := false, isImage := false }
    else { st with isMissing := false, isImage := false }
  | .other => { st with isMissing := false, isImage := false }

/-- One round of the loop; clippy_lints/src/doc/doc_paragraphs_missing_punctuation.rs:61-126. -/
def step (ws : Char → Bool) (doc : List Char) (st : St) (e : Ev) : St :=
  match e with
  | .startAside => { st with depth := st.depth + 1, isMissing := false, isImage := false }
  | .startListing =>
    { st with depth := st.depth + 1, out := if st.isMissing then st.out.dropLast else st.out, isMissing := false, isImage := false }
  | .endFootnote => { st with depth := st.depth - 1, isMissing := false, isImage := false }
  | .endBlock => { st with depth := st.depth - 1, cur := none, isMissing := false, isImage := false }
  | .endPara => endPara st
  | .inline e => inline ws doc st e

/-- `is_missing_punctuation`, from the events of the parser; clippy_lints/src/doc/doc_paragraphs_missing_punctuation.rs:48-130. -/
def isMissingPunctuation (ws : Char → Bool) (doc : List Char) (evs : List Ev) : List Missing :=
  (evs.foldl (step ws doc) ⟨0, [], none, false, false⟩).out

end Verif.DocEnd
