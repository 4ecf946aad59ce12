import Verif.LitFmt.Syntax

/-!
# Model: `print_literal` and `write_literal`

`clippy_lints/src/write/literal.rs`.  The edits of the source text are modelled by what becomes of the pieces and
the arguments.  Not modelled: macros, spans.
-/

namespace Verif.LitFmt

/-- `trim_matches('#')` (clippy_lints/src/write/literal.rs:200). -/
def trimHashes (s : List Char) : List Char :=
  ((s.dropWhile (· == '#')).reverse.dropWhile (· == '#')).reverse

/-- `strip_prefix` and `strip_suffix` of a quote (clippy_lints/src/write/literal.rs:62, 204). -/
def stripQuotes (q : Char) (s : List Char) : Option (List Char) :=
  match s with
  | [] => none
  | c :: cs => if c == q && cs.getLast? == some q then some cs.dropLast else none

/-- `extract_str_literal` (clippy_lints/src/write/literal.rs:198-205). -/
def extractStr (text : List Char) : Option (List Char × Bool) :=
  match text with
  | 'r' :: s => (stripQuotes '"' (trimHashes s)).map (·, true)
  | s => (stripQuotes '"' s).map (·, false)

/-- `Result<String, UnescapeErr>` (clippy_lints/src/write/literal.rs:207-220). -/
inductive Unescaped where
  | ok (s : List Char)
  | lint
  | ignore
  deriving DecidableEq, Repr

/-- One more character (clippy_lints/src/write/literal.rs:236). -/
def Unescaped.push (c : Char) : Unescaped → Unescaped
  | .ok s => .ok (c :: s)
  | r => r

/-- The flag `err` is set (clippy_lints/src/write/literal.rs:230, 233, 240). -/
def Unescaped.fail : Unescaped → Unescaped
  | .ignore => .ignore
  | _ => .lint

/-- `conservative_unescape` (clippy_lints/src/write/literal.rs:223-241). -/
def conservativeUnescape : List Char → Unescaped
  | [] => .ok []
  | [c] => if c == '\\' then .ignore else if c == '#' then .lint else .ok [c]
  | c :: d :: cs =>
    if c == '#' then (conservativeUnescape (d :: cs)).fail
    else if c == '\\' then
      if d == '\\' then (conservativeUnescape cs).push '\\'
      else if d == '"' then (conservativeUnescape cs).fail
      else .ignore
    else (conservativeUnescape (d :: cs)).push c

/-- The states of `escape_braces` (clippy_lints/src/write/literal.rs:248-252). -/
inductive State where
  | normal
  | backslash
  | unicode
  deriving DecidableEq, Repr

/-- `escape_braces` (clippy_lints/src/write/literal.rs:246-285). -/
def escapeBraces (preserve : Bool) : State → List Char → List Char
  | _, [] => []
  | .normal, c :: cs =>
    if c == '{' || c == '}' then c :: c :: escapeBraces preserve .normal cs
    else if c == '\\' && preserve then c :: escapeBraces preserve .backslash cs
    else c :: escapeBraces preserve .normal cs
  | .backslash, c :: cs =>
    c :: escapeBraces preserve (if c == 'u' then .unicode else .normal) cs
  | .unicode, c :: cs =>
    c :: escapeBraces preserve (if c == '}' then .normal else .unicode) cs

/-- What is written for a literal, and whether it is raw (clippy_lints/src/write/literal.rs:53-72). -/
def written : Lit → Option (List Char × Bool)
  | .str b => extractStr (Lit.str b).source
  | .raw n b => extractStr (Lit.raw n b).source
  | .chr b =>
    if b == ['"'] then some (['\\', '"'], false)
    else if b == ['\\', '\''] then some (['\''], false)
    else (stripQuotes '\'' (Lit.chr b).source).map (·, false)
  | .bool b => some (boolText b, false)

/-- `.replace('\\', "\\\\").replace('"', "\\\"")` (clippy_lints/src/write/literal.rs:81). -/
def escapeRaw (s : List Char) : List Char :=
  (s.flatMap fun c => if c == '\\' then ['\\', '\\'] else [c]).flatMap fun c => if c == '"' then ['\\', '"'] else [c]

/-- What to do with a literal: nothing, report it, or replace it as well (clippy_lints/src/write/literal.rs:79-110). -/
inductive Verdict where
  | pass
  | lint
  | edit (s : List Char)
  deriving DecidableEq, Repr

/-- The replacement before braces are doubled (clippy_lints/src/write/literal.rs:79-94). -/
def replacement (fmtRaw : Bool) (s : List Char) (litRaw : Bool) : Verdict :=
  match fmtRaw, litRaw with
  | false, false => .edit s
  | false, true => .edit (escapeRaw s)
  | true, false =>
    match conservativeUnescape s with
    | .ok u => .edit u
    | .lint => .lint
    | .ignore => .pass
  | true, true => if s.contains '#' || s.contains '"' then .lint else .edit s

/-- The replacement for a literal (clippy_lints/src/write/literal.rs:53-94, 107). -/
def verdict (fmtRaw : Bool) (l : Lit) : Verdict :=
  match written l with
  | none => .pass
  | some (s, litRaw) =>
    match replacement fmtRaw s litRaw with
    | .edit r => .edit (escapeBraces (!fmtRaw && !litRaw) .normal r)
    | v => v

/-- The references to arguments of the placeholders (clippy_lints/src/write/literal.rs:25-29). -/
def targets : List RPiece → List Target
  | [] => []
  | .text _ :: ps => targets ps
  | .hole h :: ps => h.arg.target :: targets ps

/-- What to do about a placeholder (clippy_lints/src/write/literal.rs:39-94). -/
def holeVerdict (fmtRaw : Bool) (args : List Arg) (ts : List Target) (h : RHole) : Verdict :=
  if h.display && h.spec == 0 && h.width == none && h.prec == none && ts.count h.arg.target == 1 then
    match h.arg.target with
    | .arg i =>
      match args[i]? with
      | some ⟨_, .lit l⟩ => verdict fmtRaw l
      | _ => .pass
    | .captured _ => .pass
  else .pass

/-- `replaced_position` (clippy_lints/src/write/literal.rs:98-100): also of those that are not replaced. -/
def replaced (fmtRaw : Bool) (args : List Arg) (ts : List Target) : List RPiece → List Nat
  | [] => []
  | .text _ :: ps => replaced fmtRaw args ts ps
  | .hole h :: ps =>
    match holeVerdict fmtRaw args ts h, h.arg.target with
    | .pass, _ => replaced fmtRaw args ts ps
    | _, .arg i => i :: replaced fmtRaw args ts ps
    | _, .captured _ => replaced fmtRaw args ts ps

/-- The arguments that are removed (clippy_lints/src/write/literal.rs:102-110). -/
def removed (fmtRaw : Bool) (args : List Arg) (ts : List Target) : List RPiece → List Nat
  | [] => []
  | .text _ :: ps => removed fmtRaw args ts ps
  | .hole h :: ps =>
    match holeVerdict fmtRaw args ts h, h.arg.target with
    | .edit _, .arg i => i :: removed fmtRaw args ts ps
    | _, _ => removed fmtRaw args ts ps

/-- `decremented_index` (clippy_lints/src/write/literal.rs:166-169). -/
def decremented (positions : List Nat) (i : Nat) : Nat := i - (positions.filter (· < i)).length

/-- A number in a placeholder (clippy_lints/src/write/literal.rs:171-188). -/
def newPos (positions : List Nat) : Pos → Pos
  | .number i => .number (decremented positions i)
  | p => p

/-- `relocalize_format_args_indexes` (clippy_lints/src/write/literal.rs:143-191). -/
def newHole (positions : List Nat) (h : RHole) : Hole :=
  match h.arg.pos with
  | .number i =>
    { arg := .number (decremented positions i), width := h.width.map fun r => newPos positions r.pos,
      prec := h.prec.map fun r => newPos positions r.pos, display := h.display, spec := h.spec }
  | p =>
    { arg := p, width := h.width.map Ref.pos, prec := h.prec.map Ref.pos, display := h.display, spec := h.spec }

/-- The format string after the edits (clippy_lints/src/write/literal.rs:107-119). -/
def newPieces (fmtRaw : Bool) (args : List Arg) (ts : List Target) (positions : List Nat) : List RPiece → List Piece
  | [] => []
  | .text s :: ps => .text s :: newPieces fmtRaw args ts positions ps
  | .hole h :: ps =>
    match holeVerdict fmtRaw args ts h with
    | .edit r => .text r :: newPieces fmtRaw args ts positions ps
    | _ => .hole (newHole positions h) :: newPieces fmtRaw args ts positions ps

/-- The arguments from index `k` on after the edits (clippy_utils/src/macros.rs:534-546). -/
def keepFrom (gone : List Nat) : Nat → List Arg → List Arg
  | _, [] => []
  | k, a :: as => if gone.contains k then keepFrom gone (k + 1) as else a :: keepFrom gone (k + 1) as

/-- The call after the edits, for a call that compiles (clippy_lints/src/write/literal.rs:16-128). -/
def check (c : Call) : Option Call :=
  match lower c.args c.pieces with
  | none => none
  | some rs =>
    let ts := targets rs
    let gone := removed c.raw.isSome c.args ts rs
    if gone.isEmpty then none
    else some { c with pieces := newPieces c.raw.isSome c.args ts (replaced c.raw.isSome c.args ts rs) rs,
                       args := keepFrom gone 0 c.args }

end Verif.LitFmt
