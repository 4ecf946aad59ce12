import Verif.DocLink.Spec

/-!
# Links of documentation that are broken across lines: the linter
-/

namespace Verif.DocLink

/-- `str::split_once` for a character; clippy_lints/src/doc/broken_link.rs:28, 36. -/
def splitOnce (c : Char) : List Char → Option (List Char × List Char)
  | [] => none
  | d :: r => if d == c then some ([], r) else (splitOnce c r).map fun x => (d :: x.1, x.2)

/-- `str::len`; clippy_lints/src/doc/broken_link.rs:31, 43. -/
def len : List Char → Nat
  | [] => 0
  | c :: r => c.utf8Size + len r

/-- The loop over the destination; clippy_lints/src/doc/broken_link.rs:54-68. The flag says whether the range of the link has a place in the source. -/
def scan (mapped : Bool) (n : Nat) : List Char → Option Nat
  | [] => none
  | c :: r => if c == ')' then none else if c == '\n' && mapped then some n else scan mapped (n + 1) r

/-- The part after the label; clippy_lints/src/doc/broken_link.rs:36-68. -/
def afterLabel (mapped : Bool) (n : Nat) (raw : List Char) : Option Nat :=
  match splitOnce '(' raw with
  | none => none
  | some (pre, suf) =>
    if !pre.isEmpty then none
    else if ['(', 'h', 't', 't', 'p'].isPrefixOf suf then none
    else scan mapped (n + (len pre + 1)) suf

/-- `warn_if_broken_link` on the text from the start of the link on: the length of the reported range; clippy_lints/src/doc/broken_link.rs:21-69, 71-83. -/
def warn (mapped : Bool) (raw : List Char) : Option Nat :=
  match splitOnce ']' raw with
  | none => none
  | some (pre, suf) => afterLabel mapped (len pre + 1) suf

end Verif.DocLink
