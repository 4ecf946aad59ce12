/-!
# Suggestions and parentheses

Model of `Sugg` (clippy_utils/src/sugg.rs). Suggestion texts are lists of tokens, so that text inside
string literals and comments plays no role; `hasEnclosingParen` on characters is modelled separately in
`Verif.Sugg.Paren`. An `atom` stands for any expression text that needs no parentheses (a path, literal,
call, ...), a `ty` for the text of a type, and `lam` for the beginning of an expression that extends as
far to the right as possible (`|x|`, `return`, `break`).
-/

namespace Verif.Sugg

/-- `ast::BinOpKind`. -/
inductive BinOp
  | add | sub | mul | div | rem | and | or | bitXor | bitAnd | bitOr | shl | shr
  | eq | lt | le | ne | ge | gt
  deriving DecidableEq, Repr

/-- `AssocOp` — rustc_ast::util::parser. -/
inductive AssocOp
  | binary (o : BinOp)
  | assign
  | assignOp (o : BinOp)
  | cast
  | range (closed : Bool)
  deriving DecidableEq, Repr

/-- Prefix operators: `!`, `-`, `*`, `&` and `&mut`. -/
inductive UnOp
  | not | neg | deref | addr | addrMut
  deriving DecidableEq, Repr

inductive Tok
  | atom (n : Nat)
  | ty (n : Nat)
  | lpar
  | rpar
  | un (u : UnOp)
  | op (o : AssocOp)
  | lam (n : Nat)
  deriving DecidableEq, Repr

/-- `Sugg` — sugg.rs:22-37. -/
inductive Sugg
  | nonParen (text : List Tok)
  | maybeParen (text : List Tok)
  | binOp (op : AssocOp) (lhs rhs : List Tok)
  | unOp (op : UnOp) (inner : Sugg)
  deriving DecidableEq, Repr

/-- `AssocOp::precedence` with the levels of `ExprPrecedence` as numbers — rustc_ast. -/
def AssocOp.prec : AssocOp → Nat
  | .assign | .assignOp _ => 1
  | .range _ => 2
  | .binary .or => 3
  | .binary .and => 4
  | .binary .eq | .binary .lt | .binary .le | .binary .ne | .binary .ge | .binary .gt => 5
  | .binary .bitOr => 6
  | .binary .bitXor => 7
  | .binary .bitAnd => 8
  | .binary .shl | .binary .shr => 9
  | .binary .add | .binary .sub => 10
  | .binary .mul | .binary .div | .binary .rem => 11
  | .cast => 12

/-- `Associativity` — sugg.rs:646-657. -/
inductive Assoc
  | both | left | none | right
  deriving DecidableEq, Repr

/-- `associativity` — sugg.rs:659-677. -/
def associativity : AssocOp → Assoc
  | .assign | .assignOp _ => .right
  | .binary .add | .binary .bitAnd | .binary .bitOr | .binary .bitXor | .binary .and | .binary .or | .binary .mul | .cast => .both
  | .binary .div | .binary .eq | .binary .gt | .binary .ge | .binary .lt | .binary .le | .binary .rem | .binary .ne | .binary .shl | .binary .shr | .binary .sub => .left
  | .range _ => .none

/-- `is_shift` — sugg.rs:594-596. -/
def isShift : AssocOp → Bool
  | .binary .shl | .binary .shr => true
  | _ => false

/-- `is_arith` — sugg.rs:600-611. -/
def isArith : AssocOp → Bool
  | .binary .add | .binary .sub | .binary .mul | .binary .div | .binary .rem => true
  | _ => false

/-- `needs_paren` — sugg.rs:615-622. -/
def needsParen (op other : AssocOp) (dir : Assoc) : Bool :=
  decide (other.prec < op.prec)
    || (other.prec == op.prec &&
        ((op != other && associativity op != dir) || (op == other && associativity op != .both)))
    || (isShift op && isArith other)
    || (isShift other && isArith op)

/-- `binop_to_string` — sugg.rs:423-431. -/
def binopText (op : AssocOp) (lhs rhs : List Tok) : List Tok := lhs ++ .op op :: rhs

/-- The `for` loop of `has_enclosing_paren` on tokens — sugg.rs:438-447: what remains after the matching
parenthesis. -/
def afterMatch : (depth : Nat) → List Tok → List Tok
  | _, [] => []
  | depth, t :: ts =>
      let depth := if t = .lpar then depth + 1 else if t = .rpar then depth - 1 else depth
      if depth = 0 then ts else afterMatch depth ts

/-- `has_enclosing_paren` on tokens — sugg.rs:434-452. -/
def hasEnclosingParen : List Tok → Bool
  | .lpar :: ts => (afterMatch 1 ts).isEmpty
  | _ => false

def paren (ts : List Tok) : List Tok := .lpar :: ts ++ [.rpar]

/-- `starts_with_unary_op` — sugg.rs:403-409. -/
def Sugg.startsWithUnary : Sugg → Bool
  | .unOp .. => true
  | .binOp .. => false
  | .maybeParen s | .nonParen s => match s with | .un _ :: _ => true | _ => false

/-- `Display` — sugg.rs:46-54, with `maybe_inner_paren` and `maybe_paren` (sugg.rs:361-378, 413-419)
inlined for the inner suggestion of a unary operator. -/
def Sugg.text : Sugg → List Tok
  | .nonParen s | .maybeParen s => s
  | .binOp op l r => binopText op l r
  | .unOp op inner => .un op ::
      (if inner.startsWithUnary then inner.text
       else match inner with
         | .nonParen s => s
         | .maybeParen s => if hasEnclosingParen s then s else paren s
         | .binOp o l r => paren (binopText o l r)
         | .unOp .. => inner.text)

/-- `Sugg::maybe_paren` — sugg.rs:361-378. -/
def Sugg.maybeParenthesize : Sugg → Sugg
  | .nonParen s => .nonParen s
  | .maybeParen s => if hasEnclosingParen s then .maybeParen s else .nonParen (paren s)
  | .binOp op l r => .nonParen (paren (binopText op l r))
  | .unOp op inner => .nonParen (paren (Sugg.unOp op inner).text)

/-- `Sugg::maybe_inner_paren` — sugg.rs:413-419. -/
def Sugg.maybeInnerParen (s : Sugg) : Sugg := if s.startsWithUnary then s else s.maybeParenthesize

/-- `make_unop` — sugg.rs:581-585. -/
def makeUnop (u : UnOp) (s : Sugg) : Sugg := .maybeParen (.un u :: s.maybeInnerParen.text)

/-- `lhs_paren`, `rhs_paren` — sugg.rs:624-637. -/
def parenOperand (op : AssocOp) (s : Sugg) (dir : Assoc) : List Tok :=
  match s with
  | .binOp o l r => if needsParen op o dir then paren (binopText o l r) else binopText o l r
  | s => s.text

/-- `make_assoc` — sugg.rs:592-639. -/
def makeAssoc (op : AssocOp) (lhs rhs : Sugg) : Sugg :=
  .binOp op (parenOperand op lhs .left) (parenOperand op rhs .right)

/-- `make_binop` — sugg.rs:642-644. -/
def makeBinop (op : BinOp) (lhs rhs : Sugg) : Sugg := makeAssoc (.binary op) lhs rhs

/-- `Sugg::as_ty` — sugg.rs:296-298. -/
def asTy (s : Sugg) (t : Nat) : Sugg := makeAssoc .cast s (.nonParen [.ty t])

/-- `Neg for Sugg` — sugg.rs:516-525. -/
def negate : Sugg → Sugg
  | .unOp .neg s => s
  | .binOp .cast l r => .maybeParen (.un .neg :: paren (binopText .cast l r))
  | s => makeUnop .neg s

/-- The operator table of `Not for Sugg` — sugg.rs:535-543. -/
def flipCmp : BinOp → Option BinOp
  | .eq => some .ne
  | .ne => some .eq
  | .lt => some .ge
  | .ge => some .lt
  | .gt => some .le
  | .le => some .gt
  | _ => none

/-- `Not for Sugg` — sugg.rs:527-550. -/
def logicalNot : Sugg → Sugg
  | .binOp op l r =>
      match op with
      | .binary o =>
          match flipCmp o with
          | some o' => .binOp (.binary o') l r
          | none => makeUnop .not (.binOp op l r)
      | _ => makeUnop .not (.binOp op l r)
  | .unOp .not s => s
  | s => makeUnop .not s

end Verif.Sugg
