import Verif.LitFmt.Syntax

/-!
# Specification: what literals mean, and what a call prints
-/

namespace Verif.LitFmt

/-- Where the lexer is in a string. -/
inductive LexState where
  | normal
  /-- after a backslash -/
  | esc
  /-- after `\x`, and after one digit more -/
  | hex
  | hex2 (d : Nat)
  /-- after `\u`, and after the brace with the digits so far -/
  | uniOpen
  | uni (v : Option Nat)
  /-- after a backslash at the end of a line: blanks are skipped -/
  | skip
  /-- in a raw string, after a quote and so many hashes -/
  | quote (k : Nat)
  deriving DecidableEq, Repr

def hexDigit (c : Char) : Option Nat :=
  if '0' ≤ c ∧ c ≤ '9' then some (c.toNat - '0'.toNat)
  else if 'a' ≤ c ∧ c ≤ 'f' then some (c.toNat - 'a'.toNat + 10)
  else if 'A' ≤ c ∧ c ≤ 'F' then some (c.toNat - 'A'.toNat + 10)
  else none

/-- A character outside of escapes. -/
def stepNormal (c : Char) : Option (LexState × List Char) :=
  if c = '\\' then some (.esc, []) else if c = '"' then none else some (.normal, [c])

/-- A character after a backslash. -/
def stepEsc (c : Char) : Option (LexState × List Char) :=
  if c = 'n' then some (.normal, ['\n'])
  else if c = 'r' then some (.normal, ['\r'])
  else if c = 't' then some (.normal, ['\t'])
  else if c = '0' then some (.normal, ['\x00'])
  else if c = '\\' ∨ c = '\'' ∨ c = '"' then some (.normal, [c])
  else if c = 'x' then some (.hex, [])
  else if c = 'u' then some (.uniOpen, [])
  else if c = '\n' then some (.skip, [])
  else none

/-- The lexer in a string that is not raw: the next state and what the character adds to the value. -/
def step : LexState → Char → Option (LexState × List Char)
  | .normal, c => stepNormal c
  | .esc, c => stepEsc c
  | .hex, c => (hexDigit c).bind fun d => if d < 8 then some (.hex2 d, []) else none
  | .hex2 d, c => (hexDigit c).map fun e => (.normal, [Char.ofNat (16 * d + e)])
  | .uniOpen, c => if c = '{' then some (.uni none, []) else none
  | .uni v, c =>
    if c = '}' then v.bind fun n => if n.isValidChar then some (.normal, [Char.ofNat n]) else none
    else if c = '_' then some (.uni v, [])
    else (hexDigit c).map fun d => (.uni (some (16 * v.getD 0 + d)), [])
  | .skip, c => if c = ' ' ∨ c = '\t' ∨ c = '\n' ∨ c = '\r' then some (.skip, []) else stepNormal c
  | .quote _, _ => none

/-- The lexer in a raw string with `n` hashes; `none` if the string ends. -/
def stepRaw (n : Nat) : LexState → Char → Option (LexState × List Char)
  | .quote k, c =>
    if c = '#' then (if k + 1 = n then none else some (.quote (k + 1), [c]))
    else if c = '"' then some (.quote 0, [c])
    else some (.normal, [c])
  | .normal, c => if c = '"' then (if n = 0 then none else some (.quote 0, [c])) else some (.normal, [c])
  | _, _ => none

def stepOf : Option Nat → LexState → Char → Option (LexState × List Char)
  | none => step
  | some n => stepRaw n

/-- The lexer for a piece of a string. -/
def lex (raw : Option Nat) : LexState → List Char → Option (LexState × List Char)
  | s, [] => some (s, [])
  | s, c :: cs => (stepOf raw s c).bind fun r => (lex raw r.1 cs).map fun q => (q.1, r.2 ++ q.2)

/-- The string may end here, or a placeholder begin. -/
def LexState.done : LexState → Bool
  | .normal | .skip | .quote _ => true
  | _ => false

/-- What a piece of a format string without placeholders prints; `none` if a brace is not doubled. -/
def plain : List Char → Option (List Char)
  | [] => some []
  | [c] => if c = '{' ∨ c = '}' then none else some [c]
  | c :: d :: cs =>
    if c = '{' ∨ c = '}' then (if d = c then (plain cs).map (c :: ·) else none) else (plain (d :: cs)).map (c :: ·)

/-- The value of a literal as it is printed; `none` if the literal is malformed. -/
def Lit.value : Lit → Option (List Char)
  | .str b => (lex none .normal b).bind fun r => if r.1.done then some r.2 else none
  | .raw _ b => some b
  | .chr b =>
    match b with
    | ['"'] => some ['"']
    | _ =>
      (lex none .normal b).bind fun r =>
        if r.1 = .normal ∧ r.2.length = 1 ∧ b ≠ ['\''] then some r.2 else none
  | .bool b => some (boolText b)

section
variable {V : Type}

/-- A value: of an expression, or a text. -/
inductive Shown (V : Type) where
  | val (v : V)
  | text (cs : List Char)
  deriving DecidableEq, Repr

/-- What is printed: a character, or a value in a certain way. -/
inductive Out (V : Type) where
  | chr (c : Char)
  | value (v : Shown V) (width prec : Option V) (display : Bool) (spec : Nat)
  deriving DecidableEq, Repr

variable (vars : Name → V) (exprs : Nat → V)

def Val.eval : Val → Option (Shown V)
  | .lit l => l.value.map .text
  | .expr e => some (.val (exprs e))

/-- The value that a reference stands for. -/
def Target.eval (args : List Arg) : Target → Option (Shown V)
  | .arg i => (args[i]?).bind (fun a => a.val.eval exprs)
  | .captured x => some (.val (vars x))

/-- A width or precision: it is not a text. -/
def count (args : List Arg) : Option Ref → Option (Option V)
  | none => some none
  | some r =>
    match r.target.eval vars exprs args with
    | some (.val v) => some (some v)
    | _ => none

/-- Printing a value; a text that is printed by a mere `{}` gives its characters. -/
def shown (v : Shown V) (w p : Option V) (display : Bool) (spec : Nat) : List (Out V) :=
  match v, w, p, display, spec with
  | .text cs, none, none, true, 0 => cs.map .chr
  | v, w, p, d, s => [.value v w p d s]

def RHole.eval (args : List Arg) (h : RHole) : Option (List (Out V)) :=
  (h.arg.target.eval vars exprs args).bind fun v =>
    (count vars exprs args h.width).bind fun w =>
      (count vars exprs args h.prec).map fun p => shown v w p h.display h.spec

/-- What the pieces print, from a state of the lexer. -/
def render (raw : Option Nat) (args : List Arg) : LexState → List RPiece → Option (List (Out V))
  | s, [] => if s.done then some [] else none
  | s, .text src :: ps =>
    (lex raw s src).bind fun r =>
      (plain r.2).bind fun cs => (render raw args r.1 ps).map fun o => cs.map .chr ++ o
  | s, .hole h :: ps =>
    if s.done then (h.eval vars exprs args).bind fun a => (render raw args .normal ps).map fun o => a ++ o
    else none

/-- What a call prints; `none` is an error. -/
def prints (c : Call) : Option (List (Out V)) :=
  (lower c.args c.pieces).bind (render vars exprs c.raw c.args .normal)

end

/-! ### Conditions -/

/-- No brace is written as an escape. -/
def noBraceEscape : LexState → List Char → Bool
  | _, [] => true
  | s, c :: cs =>
    match step s c with
    | none => true
    | some (s', out) =>
      (s == .normal || s == .skip || (!out.contains '{' && !out.contains '}')) && noBraceEscape s' cs

/-- Lexing ends outside of escapes, and not in the blanks that a backslash at the end of a line skips. -/
def settles (raw : Option Nat) (src : List Char) : Bool :=
  match lex raw .normal src with
  | some (.normal, _) => true
  | _ => false

/-- No brace is written as an escape, and nothing is skipped at the end. -/
def Lit.tame : Lit → Bool
  | .str b => noBraceEscape .normal b && settles none b
  | .chr b => noBraceEscape .normal b
  | .raw _ _ | .bool _ => true

/-- A width or precision by number occurs only together with an argument by number. -/
def Hole.even (h : Hole) : Bool :=
  match h.arg with
  | .number _ => true
  | _ =>
    (match h.width with
      | some (.number _) => false
      | _ => true) &&
    match h.prec with
    | some (.number _) => false
    | _ => true

/-- The text before a placeholder ends outside of escapes and skipped blanks, and in a raw string not with a quote
that hashes could follow, unless every literal has characters. -/
def Call.settled (c : Call) : Prop :=
  (∀ src, .text src ∈ c.pieces → settles c.raw src = true) ∨
    (c.raw.isSome = true ∧ ∀ a ∈ c.args, ∀ l, a.val = .lit l → l.value ≠ some [])

/-- Neither quotes nor hashes. -/
def Lit.harmless (l : Lit) : Bool :=
  match l.value with
  | some v => !v.contains '"' && !v.contains '#'
  | none => true

end Verif.LitFmt
