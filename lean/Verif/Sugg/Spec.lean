import Verif.Sugg.Model

/-!
# How Rust reads an operator expression

A precedence-climbing parser after `parse_expr_assoc_rest_with` of rustc_parse, with rustc's precedences and
fixities, and the value of the tree it returns. Only the token type and the precedence numbers are shared
with the model.
-/

namespace Verif.Sugg

/-- Expression trees; parentheses in the text are kept. -/
inductive Expr
  | atom (n : Nat)
  | paren (e : Expr)
  | un (u : UnOp) (e : Expr)
  | bin (o : AssocOp) (l r : Expr)
  | cast (e : Expr) (ty : Nat)
  | lam (n : Nat) (e : Expr)
  deriving DecidableEq, Repr

/-- The operator joins its operands without another of its precedence on either side. -/
def nonAssoc (o : AssocOp) : Bool := o.prec == 2 || o.prec == 5

/-- The weakest precedence allowed for the right operand. -/
def rightLevel (o : AssocOp) : Nat := if o.prec = 1 then 1 else o.prec + 1

/-- The weakest precedence allowed for the left operand: a range cannot be assigned to. -/
def leftLevel (o : AssocOp) : Nat :=
  if o.prec = 1 then 3 else if nonAssoc o then o.prec + 1 else o.prec

/-- The text of the expression ends with the type of a cast. -/
def endsInType : Expr → Bool
  | .cast .. => true
  | .bin _ _ r => endsInType r
  | .un _ e => endsInType e
  | .lam _ e => endsInType e
  | .atom _ | .paren _ => false

/-- After the type of a cast, `<` and `<<` begin generic arguments. -/
def startsGenerics (o : AssocOp) : Bool := o == .binary .lt || o == .binary .shl

/-- `l o` is rejected: chained comparison, operator after a range, or `<` after a cast. -/
def rejected (l : Expr) (o : AssocOp) : Bool :=
  (match l with | .bin o' _ _ => nonAssoc o' && (o'.prec == o.prec || o'.prec == 2) | _ => false)
    || (startsGenerics o && endsInType l)

/-- The type of a cast. -/
def parseType : List Tok → Option (Nat × List Tok)
  | .ty n :: ts => some (n, ts)
  | _ => none

mutual
/-- An operand: prefix operators, parentheses, or a single token. -/
def parsePrefix : (fuel : Nat) → List Tok → Option (Expr × List Tok)
  | 0, _ => none
  | f + 1, .un u :: ts => do
      let (e, rest) ← parsePrefix f ts
      pure (.un u e, rest)
  | _ + 1, .atom n :: ts => some (.atom n, ts)
  | f + 1, .lpar :: ts => do
      let (e, rest) ← parseFrom f 0 ts
      match rest with
      | .rpar :: rest => some (.paren e, rest)
      | _ => none
  | f + 1, .lam n :: ts => do
      let (e, rest) ← parseFrom f 0 ts
      pure (.lam n e, rest)
  | _ + 1, _ => none
/-- An expression whose operators have at least precedence `p`. -/
def parseFrom : (fuel : Nat) → (p : Nat) → List Tok → Option (Expr × List Tok)
  | 0, _, _ => none
  | f + 1, p, ts => do
      let (l, rest) ← parsePrefix f ts
      parseRest f p l rest
/-- The operators after the left operand `l`. -/
def parseRest : (fuel : Nat) → (p : Nat) → (l : Expr) → List Tok → Option (Expr × List Tok)
  | 0, _, _, _ => none
  | f + 1, p, l, .op o :: ts =>
      if o.prec < p then some (l, .op o :: ts)
      else if rejected l o then none
      else if o = .cast then do
        let (n, rest) ← parseType ts
        parseRest f p (.cast l n) rest
      else do
        let (r, rest) ← parseFrom f (rightLevel o) ts
        parseRest f p (.bin o l r) rest
  | _ + 1, _, l, ts => some (l, ts)
end

/-- The text is read as the expression. -/
def Parses (ts : List Tok) (e : Expr) : Prop := ∃ fuel, parseFrom fuel 0 ts = some (e, [])

/-- Meaning of the operators on some type of values. -/
structure Interp where
  V : Type
  atom : Nat → V
  un : UnOp → V → V
  bin : AssocOp → V → V → V
  cast : V → Nat → V
  lam : Nat → V → V

def eval (I : Interp) : Expr → I.V
  | .atom n => I.atom n
  | .paren e => eval I e
  | .un u e => I.un u (eval I e)
  | .bin o l r => I.bin o (eval I l) (eval I r)
  | .cast e t => I.cast (eval I e) t
  | .lam n e => I.lam n (eval I e)

/-- The laws that `+ * & | ^ && ||` have for exact integers and booleans. -/
structure Interp.Lawful (I : Interp) : Prop where
  assoc : ∀ o : BinOp, o ∈ [.add, .mul, .bitAnd, .bitOr, .bitXor, .and, .or] →
    ∀ a b c, I.bin (.binary o) (I.bin (.binary o) a b) c = I.bin (.binary o) a (I.bin (.binary o) b c)
  addSub : ∀ a b c, I.bin (.binary .sub) (I.bin (.binary .add) a b) c
    = I.bin (.binary .add) a (I.bin (.binary .sub) b c)

end Verif.Sugg
