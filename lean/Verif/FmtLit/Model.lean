import Verif.FmtLit.Spec

/-!
# Strings that look like formatting arguments: the linter
-/

namespace Verif.FmtLit

/-- The slice `s[n..]`, `none` if `n` is not at the boundary of a character (a panic); clippy_lints/src/literal_string_with_formatting_args.rs:142, 147. -/
def dropB : Nat → List Char → Option (List Char)
  | 0, s => some s
  | _ + 1, [] => none
  | n + 1, c :: s => if c.utf8Size ≤ n + 1 then dropB (n + 1 - c.utf8Size) s else none

/-- The slice `s[..n]`; clippy_lints/src/literal_string_with_formatting_args.rs:136, 138. -/
def takeB : Nat → List Char → Option (List Char)
  | 0, _ => some []
  | _ + 1, [] => none
  | n + 1, c :: s => if c.utf8Size ≤ n + 1 then (takeB (n + 1 - c.utf8Size) s).map (c :: ·) else none

/-- The slice `s[a..b]` for `a ≤ b`; clippy_lints/src/literal_string_with_formatting_args.rs:152, 156. -/
def sliceB (a b : Nat) (s : List Char) : Option (List Char) := (dropB a s).bind (takeB (b - a))

/-- `str::find` of a character; clippy_lints/src/literal_string_with_formatting_args.rs:147-148 and 152. -/
def find (ch : Char) : List Char → Option Nat
  | [] => none
  | c :: s => if c == ch then some 0 else (find ch s).map (· + c.utf8Size)

/-- `str::rfind` of a character; clippy_lints/src/literal_string_with_formatting_args.rs:136. -/
def rfind (ch : Char) (s : List Char) : Option Nat :=
  match s with
  | [] => none
  | c :: s =>
    match rfind ch s with
    | some i => some (i + c.utf8Size)
    | none => if c == ch then some 0 else none

/-- `ends_with("\\u")`; clippy_lints/src/literal_string_with_formatting_args.rs:138. -/
def endsWithEscape (s : List Char) : Bool :=
  match s.reverse with
  | 'u' :: '\\' :: _ => true
  | _ => false

/-- `trim_start().starts_with('}')`; clippy_lints/src/literal_string_with_formatting_args.rs:142. -/
def blankThenBrace (ws : Char → Bool) (s : List Char) : Bool :=
  match s.dropWhile ws with
  | c :: _ => c == '}'
  | [] => false

/-- What happens for an argument; clippy_lints/src/literal_string_with_formatting_args.rs:127-171. -/
inductive Outcome
  | skip
  | found (f : Found)
  | panic
deriving DecidableEq, Repr

/-- The end of the identifier, `colon_pos.unwrap_or(end - 1)`; clippy_lints/src/literal_string_with_formatting_args.rs:152-153. The position of the colon is relative
to the start of the identifier. -/
def identEnd (colon : Option Nat) (stop : Nat) : Nat := colon.getD (stop - 1)

/-- The name and the entry; clippy_lints/src/literal_string_with_formatting_args.rs:151-170. Places are without the opening of the literal (`add`). -/
def entry (isIdent : List Char → Bool) (fmt : List Char) (start stop : Nat) : Outcome :=
  match sliceB (start + 1) stop fmt with
  | none => .panic
  | some inner =>
    if start + 1 < identEnd (find ':' inner) stop then
      match sliceB (start + 1) (identEnd (find ':' inner) stop) fmt with
      | none => .panic
      | some arg =>
        if !arg.isEmpty && isIdent arg then .found ⟨start, stop, some arg⟩
        else if (find ':' inner).isNone then .skip else .found ⟨start, stop, none⟩
    else if (find ':' inner).isNone then .skip else .found ⟨start, stop, none⟩

/-- The end of the placeholder; clippy_lints/src/literal_string_with_formatting_args.rs:147-150. -/
def stopOf (rest : List Char) (start posEnd : Nat) : Nat :=
  (match find '}' rest with
    | some found => start + 1 + found
    | none => posEnd) + 1

/-- From the place of the brace on; clippy_lints/src/literal_string_with_formatting_args.rs:137-170. -/
def fromBrace (ws : Char → Bool) (isIdent : List Char → Bool) (fmt : List Char) (start posEnd : Nat) : Outcome :=
  match takeB start fmt, dropB (start + 1) fmt with
  | some pre, some rest =>
    if decide (start > 1) && endsWithEscape pre then .skip
    else if blankThenBrace ws rest then .skip
    else entry isIdent fmt start (stopOf rest start posEnd)
  | _, _ => .panic

/-- What happens for an argument whose position in the text is given by the parser; clippy_lints/src/literal_string_with_formatting_args.rs:127-171. The loop that moves to
the boundary of a character is left out: the position is one. -/
def piece (ws : Char → Bool) (isIdent : List Char → Bool) (fmt : List Char) (posStart posEnd : Nat) : Outcome :=
  match takeB posStart fmt with
  | none => .panic
  | some pre => fromBrace ws isIdent fmt ((rfind '{' pre).getD posStart) posEnd

/-- `emit_lint`: the entries that are reported; clippy_lints/src/literal_string_with_formatting_args.rs:43-82. -/
def emit (locals : List (List Char)) (l : List Found) : List Found :=
  l.filter fun f => match f.name with
    | some n => locals.contains n
    | none => true

end Verif.FmtLit
