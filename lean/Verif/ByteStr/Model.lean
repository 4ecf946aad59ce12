import Verif.ByteStr.Spec

/-!
# Arrays of byte literals: the linter
-/

namespace Verif.ByteStr

/-- The texts of the elements, from `is_byte_char_slices`; clippy_lints/src/byte_char_slices.rs:92-104. A text is that of the literal: `b'`, the part between the
quotes and `'`. -/
def members : List Elem → Option (List (List Char))
  | [] => some []
  | .byte t same :: r => if same then (members r).map (('b' :: '\'' :: (t ++ ['\''])) :: ·) else none
  | .other :: _ => none

/-- `is_byte_char_slices` without the test for a borrowed parent; clippy_lints/src/byte_char_slices.rs:76-108. -/
def isByteCharSlices (site : Site) (es : List Elem) : Option (Bool × List (List Char)) :=
  if !es.isEmpty && !site.remarks then (members es).map fun s => (site.borrowed, s) else none

/-- `&snippet[2..snippet.len() - 1]` and the replacement of quotes; clippy_lints/src/byte_char_slices.rs:54-58. -/
def piece (snippet : List Char) : List Char :=
  if (snippet.drop 2).dropLast = ['"'] then ['\\', '"']
  else if (snippet.drop 2).dropLast = ['\\', '\''] then ['\'']
  else (snippet.drop 2).dropLast

/-- The text between the quotes of the suggestion; clippy_lints/src/byte_char_slices.rs:52-62. -/
def build (acc : List Char) : List (List Char) → List Char
  | [] => acc
  | s :: r => build (acc ++ piece s) r

/-- The suggestion: whether it is dereferenced, and the text between `b"` and `"`; clippy_lints/src/byte_char_slices.rs:40-68. -/
def check (site : Site) (es : List Elem) : Option (Bool × List Char) :=
  match isByteCharSlices site es with
  | some (hasRef, slice) => some (!hasRef && !site.slice, build [] slice)
  | none => none

end Verif.ByteStr
