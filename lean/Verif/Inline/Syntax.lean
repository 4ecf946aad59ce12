/-!
# Syntax: format strings and their arguments
-/

namespace Verif.Inline

abbrev Name := Nat

/-- How a format string refers to an argument. -/
inductive Pos where
  /-- `{}`, or the precision `.*` -/
  | implicit
  /-- `{0}`, `1$` -/
  | number (i : Nat)
  /-- `{x}`, `x$` -/
  | named (x : Name)
  deriving DecidableEq, Repr

/-- A placeholder with the arguments it refers to. -/
structure Hole where
  arg : Pos
  width : Option Pos
  prec : Option Pos
  /-- everything else of it -/
  spec : Nat
  deriving DecidableEq, Repr

/-- A piece of a format string. -/
inductive Piece where
  | lit (s : Nat)
  | hole (h : Hole)
  deriving DecidableEq, Repr

/-- An argument. -/
inductive Val where
  /-- a name, without path or generic arguments -/
  | var (x : Name)
  /-- any other expression -/
  | expr (e : Nat)
  deriving DecidableEq, Repr

/-- An argument, `e` or `x = e`. -/
structure Arg where
  name : Option Name
  val : Val
  deriving DecidableEq, Repr

/-- What the compiler finds a reference to mean. -/
inductive Target where
  /-- the argument at this index -/
  | arg (i : Nat)
  /-- the variable of this name -/
  | captured (x : Name)
  deriving DecidableEq, Repr

/-- A reference and what it means: `FormatArgPosition`. -/
structure Ref where
  pos : Pos
  target : Target
  deriving DecidableEq, Repr

/-- A placeholder after that: `FormatPlaceholder`. -/
structure RHole where
  arg : Ref
  width : Option Ref
  prec : Option Ref
  spec : Nat
  deriving DecidableEq, Repr

/-- `FormatArgsPiece` -/
inductive RPiece where
  | lit (s : Nat)
  | hole (h : RHole)
  deriving DecidableEq, Repr

/-- The index of the argument of a name. -/
def nameIdx (x : Name) : List Arg → Option Nat
  | [] => none
  | a :: as => if a.name = some x then some 0 else (nameIdx x as).map (· + 1)

/-- The compiler: what a reference means, if `n` references without a number or name come before
it, and how many there are after it.  `none` is an error. -/
def locate (args : List Arg) (n : Nat) : Pos → Option (Ref × Nat)
  | .implicit => if n < args.length then some (⟨.implicit, .arg n⟩, n + 1) else none
  | .number i => if i < args.length then some (⟨.number i, .arg i⟩, n) else none
  | .named x =>
    match nameIdx x args with
    | some i => some (⟨.named x, .arg i⟩, n)
    | none => some (⟨.named x, .captured x⟩, n)

/-- The same for something optional. -/
def locateOpt (args : List Arg) (n : Nat) : Option Pos → Option (Option Ref × Nat)
  | none => some (none, n)
  | some p => (locate args n p).map (fun r => (some r.1, r.2))

/-- The compiler: `.*` takes its argument before the placeholder does; there is no such width. -/
def lowerHole (args : List Arg) (n : Nat) (h : Hole) : Option (RHole × Nat) :=
  match locateOpt args n h.prec with
  | none => none
  | some (p, n1) =>
    match locate args n1 h.arg with
    | none => none
    | some (a, n2) =>
      if h.width = some .implicit then none
      else
        match locateOpt args n2 h.width with
        | none => none
        | some (w, n3) => some (⟨a, w, p, h.spec⟩, n3)

/-- The compiler: the whole string. -/
def lowerFrom (args : List Arg) : Nat → List Piece → Option (List RPiece)
  | _, [] => some []
  | n, .lit s :: ps => (lowerFrom args n ps).map (.lit s :: ·)
  | n, .hole h :: ps =>
    match lowerHole args n h with
    | none => none
    | some (r, n') => (lowerFrom args n' ps).map (.hole r :: ·)

/-- The references of a placeholder. -/
def RHole.refs (h : RHole) : List Ref := h.arg :: (h.width.toList ++ h.prec.toList)

/-- The references of a string. -/
def refs : List RPiece → List Ref
  | [] => []
  | .lit _ :: ps => refs ps
  | .hole h :: ps => h.refs ++ refs ps

/-- What the compiler makes of a call: an argument that is not used is an error, and so are two of
the same name. -/
def lower (args : List Arg) (ps : List Piece) : Option (List RPiece) :=
  match lowerFrom args 0 ps with
  | none => none
  | some rs =>
    if (List.range args.length).all (fun i => (refs rs).any (fun r => r.target == .arg i)) &&
        decide ((args.filterMap Arg.name).Nodup) then some rs
    else none

end Verif.Inline
