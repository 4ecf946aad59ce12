/-!
# Links of documentation that are broken across lines: what is meant
-/

namespace Verif.DocLink

/-- A text from the opening bracket of a link on: the label, `](`, the destination up to the end of the line, and the rest. -/
def Broken (raw label dest rest : List Char) : Prop :=
  raw = label ++ ']' :: '(' :: (dest ++ '\n' :: rest) ∧ ']' ∉ label ∧ ')' ∉ dest ∧ '\n' ∉ dest

/-- A text from the opening bracket of a link on whose destination is closed on the same line. -/
def Whole (raw : List Char) : Prop :=
  ∃ label dest rest, raw = label ++ ']' :: '(' :: (dest ++ ')' :: rest) ∧ ']' ∉ label ∧ '\n' ∉ dest

/-- A destination on the web. -/
def Url (dest : List Char) : Prop := ['h', 't', 't', 'p'] <+: dest

/-- Bytes of a text. -/
def bytes (t : List Char) : Nat := (t.map Char.utf8Size).sum

end Verif.DocLink
