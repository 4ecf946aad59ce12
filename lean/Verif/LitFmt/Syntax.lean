/-!
# Syntax: calls of formatting macros with literals among the arguments

The first half are literals and format strings as they are written, the second half is what the compiler finds
the references of a format string to mean.
-/

namespace Verif.LitFmt

abbrev Name := Nat

/-- A literal, by what is written between its quotes. -/
inductive Lit where
  | str (body : List Char)
  /-- `r#"body"#` with a number of hashes -/
  | raw (n : Nat) (body : List Char)
  | chr (body : List Char)
  | bool (b : Bool)
  deriving DecidableEq, Repr

def boolText (b : Bool) : List Char := if b then ['t', 'r', 'u', 'e'] else ['f', 'a', 'l', 's', 'e']

/-- How it is written. -/
def Lit.source : Lit → List Char
  | .str b => '"' :: (b ++ ['"'])
  | .raw n b => 'r' :: (List.replicate n '#' ++ ('"' :: (b ++ '"' :: List.replicate n '#')))
  | .chr b => '\'' :: (b ++ ['\''])
  | .bool b => boolText b

inductive Val where
  | lit (l : Lit)
  /-- any other expression -/
  | expr (e : Nat)
  deriving DecidableEq, Repr

/-- An argument, `e` or `x = e`. -/
structure Arg where
  name : Option Name
  val : Val
  deriving DecidableEq, Repr

/-- How a format string refers to an argument. -/
inductive Pos where
  /-- `{}`, or the precision `.*` -/
  | implicit
  /-- `{0}`, `1$` -/
  | number (i : Nat)
  /-- `{x}`, `x$` -/
  | named (x : Name)
  deriving DecidableEq, Repr

/-- A placeholder with the arguments it refers to. -/
structure Hole where
  arg : Pos
  width : Option Pos
  prec : Option Pos
  /-- `Display` rather than another trait -/
  display : Bool
  /-- everything else of it; 0 if there is nothing else -/
  spec : Nat
  deriving DecidableEq, Repr

/-- A piece of a format string, as it is written. -/
inductive Piece where
  | text (src : List Char)
  | hole (h : Hole)
  deriving DecidableEq, Repr

/-- A call; `raw` is the number of hashes if the format string is raw. -/
structure Call where
  raw : Option Nat
  pieces : List Piece
  args : List Arg
  deriving DecidableEq, Repr

/-- What the compiler finds a reference to mean. -/
inductive Target where
  /-- the argument at this index -/
  | arg (i : Nat)
  /-- the variable of this name -/
  | captured (x : Name)
  deriving DecidableEq, Repr

/-- A reference and what it means: `FormatArgPosition`. -/
structure Ref where
  pos : Pos
  target : Target
  deriving DecidableEq, Repr

/-- A placeholder after that: `FormatPlaceholder`. -/
structure RHole where
  arg : Ref
  width : Option Ref
  prec : Option Ref
  display : Bool
  spec : Nat
  deriving DecidableEq, Repr

/-- `FormatArgsPiece` -/
inductive RPiece where
  | text (src : List Char)
  | hole (h : RHole)
  deriving DecidableEq, Repr

/-- The index of the argument of a name. -/
def nameIdx (x : Name) : List Arg → Option Nat
  | [] => none
  | a :: as => if a.name = some x then some 0 else (nameIdx x as).map (· + 1)

/-- The compiler: what a reference means, if `n` references without a number or name come before it, and how many
there are after it.  `none` is an error. -/
def locate (args : List Arg) (n : Nat) : Pos → Option (Ref × Nat)
  | .implicit => if n < args.length then some (⟨.implicit, .arg n⟩, n + 1) else none
  | .number i => if i < args.length then some (⟨.number i, .arg i⟩, n) else none
  | .named x =>
    match nameIdx x args with
    | some i => some (⟨.named x, .arg i⟩, n)
    | none => some (⟨.named x, .captured x⟩, n)

/-- The same for something optional. -/
def locateOpt (args : List Arg) (n : Nat) : Option Pos → Option (Option Ref × Nat)
  | none => some (none, n)
  | some p => (locate args n p).map (fun r => (some r.1, r.2))

/-- The compiler: `.*` takes its argument before the placeholder does. -/
def lowerHole (args : List Arg) (n : Nat) (h : Hole) : Option (RHole × Nat) :=
  (locateOpt args n h.prec).bind fun p =>
    (locate args p.2 h.arg).bind fun a =>
      (locateOpt args a.2 h.width).map fun w => (⟨a.1, w.1, p.1, h.display, h.spec⟩, w.2)

/-- The compiler: the whole string. -/
def lowerFrom (args : List Arg) : Nat → List Piece → Option (List RPiece)
  | _, [] => some []
  | n, .text s :: ps => (lowerFrom args n ps).map (.text s :: ·)
  | n, .hole h :: ps => (lowerHole args n h).bind fun r => (lowerFrom args r.2 ps).map (.hole r.1 :: ·)

/-- The references of a placeholder. -/
def RHole.refs (h : RHole) : List Ref := h.arg :: (h.width.toList ++ h.prec.toList)

/-- The references of a string. -/
def refs : List RPiece → List Ref
  | [] => []
  | .text _ :: ps => refs ps
  | .hole h :: ps => h.refs ++ refs ps

/-- What the compiler makes of a call: an argument that is not used is an error. -/
def lower (args : List Arg) (ps : List Piece) : Option (List RPiece) :=
  (lowerFrom args 0 ps).bind fun rs =>
    if (List.range args.length).all (fun i => (refs rs).any (fun r => r.target == .arg i)) then some rs else none

end Verif.LitFmt
