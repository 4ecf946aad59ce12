/-!
# Strings that look like formatting arguments: what is meant

Texts are lists of characters; places are counted in bytes, as in the program.
-/

namespace Verif.FmtLit

/-- The number of bytes of a text. -/
def size : List Char → Nat
  | [] => 0
  | c :: r => c.utf8Size + size r

/-- A placeholder in a text: `before{name}after` or `before{name:spec}after`. -/
structure Holder where
  before : List Char
  name : List Char
  spec : Option (List Char)
  after : List Char

/-- What is between the braces. -/
def Holder.inside (p : Holder) : List Char :=
  match p.spec with
  | none => p.name
  | some s => p.name ++ ':' :: s

/-- The text. -/
def Holder.text (p : Holder) : List Char := p.before ++ '{' :: (p.inside ++ '}' :: p.after)

/-- The parts do not contain what separates them; the text before does not end with `\u`, and the braces do not contain just white space. -/
structure Holder.Ok (ws : Char → Bool) (p : Holder) : Prop where
  name : ':' ∉ p.name ∧ '{' ∉ p.name ∧ '}' ∉ p.name
  spec : '}' ∉ p.inside
  escape : ∀ b, p.before ≠ b ++ ['\\', 'u']
  blank : ∃ c ∈ p.inside, ws c = false
  brace : ws '}' = false

/-- What is found: the place of the placeholder, and the name that must be that of a variable for a report, if any. -/
structure Found where
  lo : Nat
  hi : Nat
  name : Option (List Char)
deriving DecidableEq, Repr

/-- What should be found: a placeholder with a name is one for that name, one with only a format (`{:?}`) is one for any, others are none. -/
def Holder.expected (isIdent : List Char → Bool) (p : Holder) : Option Found :=
  if isIdent p.name = true ∧ p.name ≠ [] then some ⟨size p.before, size p.before + size p.inside + 2, some p.name⟩
  else if p.spec.isSome then some ⟨size p.before, size p.before + size p.inside + 2, none⟩
  else none

end Verif.FmtLit
