import Verif.Sugg.Model
import Verif.Sugg.Spec

/-!
# Boolean simplification

Model of `clippy_lints/src/booleans.rs`.

Source expressions are the trees of `Verif.Sugg.Spec` (operators, casts, parentheses, atoms). As in HIR
the parentheses around an expression do not hide its kind (`peel`) but belong to its text. A macro call is
an atom, so the tests `span.from_expansion()` are left out; text of spans is always available
(`get_text` never fails). A method call is an atom too; `negAtom` gives the call of the opposite method
(`METHODS_WITH_NEGATION`, booleans.rs:84-88), closures included.

The simplifier of the crate `quine-mc_cluskey` is a parameter.
-/

namespace Verif.Booleans

open Verif.Sugg

/-- What the lint asks the compiler. -/
structure Ctx where
  /-- boolean literals -/
  lit : Nat → Option Bool
  /-- the tokens pushed for `true` and `false` -/
  ttAtom : Nat
  ffAtom : Nat
  /-- the operand's type implements `Ord` (`implements_ord`, booleans.rs:675-680) -/
  ord : Expr → Bool
  /-- the type is `!` -/
  never : Expr → Bool
  /-- the type is `bool` -/
  boolTy : Expr → Bool
  /-- `eq_expr_value` -/
  same : Expr → Expr → Bool
  /-- the text `simplify_not` gives for a method call (booleans.rs:436-467) -/
  negAtom : Nat → Option Nat

/-- The expression without the parentheses around it. -/
def peel : Expr → Expr
  | .paren e => peel e
  | e => e

/-- The text of an expression. -/
def text : Expr → List Tok
  | .atom n => [.atom n]
  | .paren e => paren (text e)
  | .un u e => .un u :: text e
  | .bin o l r => text l ++ .op o :: text r
  | .cast e n => text e ++ [.op .cast, .ty n]
  | .lam n e => .lam n :: text e

/-- `quine_mc_cluskey::Bool`. -/
inductive B where
  | tt
  | ff
  | term (n : Nat)
  | not (b : B)
  | and (l : List B)
  | or (l : List B)
  deriving Repr

mutual
def B.beq : B → B → Bool
  | .tt, .tt | .ff, .ff => true
  | .term n, .term m => n == m
  | .not a, .not b => a.beq b
  | .and l, .and k | .or l, .or k => B.beqList l k
  | _, _ => false
def B.beqList : List B → List B → Bool
  | [], [] => true
  | a :: l, b :: k => a.beq b && B.beqList l k
  | _, _ => false
end

/-- `negate` inside `run` (booleans.rs:263-273). -/
def negateOp : BinOp → Option BinOp
  | .eq => some .ne
  | .ne => some .eq
  | .gt => some .le
  | .ge => some .lt
  | .lt => some .ge
  | .le => some .gt
  | _ => none

/-- The second test of the loop in `run` (booleans.rs:309-317): `e` is the negated comparison `t`. -/
def isNegated (C : Ctx) (e t : Expr) : Bool :=
  match peel e, peel t with
  | .bin (.binary o) l r, .bin (.binary o') l' r' =>
    C.ord l && negateOp o == some o' && C.same l l' && C.same r r'
  | _, _ => false

/-- The loop over the terminals (booleans.rs:302-318). -/
def findTerm (C : Ctx) (e : Expr) : (n : Nat) → List Expr → Option B
  | _, [] => none
  | n, t :: ts =>
    if C.same e t then some (.term n)
    else if isNegated C e t then some (.not (.term n))
    else findTerm C e (n + 1) ts

/-- The end of `run`: an expression that is not an operator (booleans.rs:297-327). `none` is `Err`. -/
def terminal (C : Ctx) (e : Expr) (T : List Expr) : Option (List B × List Expr) :=
  if C.never e then none
  else match findTerm C e 0 T with
    | some b => some ([b], T)
    | none => if T.length < 32 then some ([.term T.length], T ++ [e]) else none

/-- Which operator `extract` is flattening. -/
inductive Mode | single | and | or
  deriving DecidableEq, Repr

/-- `Hir2Qmm::run` (`single`) and `Hir2Qmm::extract` (booleans.rs:249-327). `e` is the expression, `orig`
the same with its parentheses, `T` the terminals so far. The result is the list `extract` appends;
`run` gives one element. -/
def conv (C : Ctx) : Mode → (orig e : Expr) → List Expr → Option (List B × List Expr)
  | m, orig, .paren e, T => conv C m orig e T
  | _, _, .un .not e, T =>
    match conv C .single e e T with
    | some (bs, T') => some (bs.map .not, T')
    | none => none
  | m, _, .bin (.binary .and) l r, T =>
    match conv C .and l l T with
    | some (b1, T1) =>
      match conv C .and r r T1 with
      | some (b2, T2) => some (if m = .and then b1 ++ b2 else [.and (b1 ++ b2)], T2)
      | none => none
    | none => none
  | m, _, .bin (.binary .or) l r, T =>
    match conv C .or l l T with
    | some (b1, T1) =>
      match conv C .or r r T1 with
      | some (b2, T2) => some (if m = .or then b1 ++ b2 else [.or (b1 ++ b2)], T2)
      | none => none
    | none => none
  | _, orig, .atom n, T =>
    match C.lit n with
    | some true => some ([.tt], T)
    | some false => some ([.ff], T)
    | none => terminal C orig T
  | _, orig, _, T => terminal C orig T

/-- `h2q.run(e)` with no terminals (booleans.rs:538-543). -/
def run (C : Ctx) (e : Expr) : Option (B × List Expr) :=
  match conv C .single e e [] with
  | some ([b], T) => some (b, T)
  | _ => none

mutual
/-- `simple_negate` (booleans.rs:482-502). -/
def simpleNegate : B → B
  | .tt => .ff
  | .ff => .tt
  | .term n => .not (.term n)
  | .and l => .or (simpleNegateList l)
  | .or l => .and (simpleNegateList l)
  | .not b => b
def simpleNegateList : List B → List B
  | [] => []
  | b :: l => simpleNegate b :: simpleNegateList l
end

/-- `Bool::Not(_) | Bool::True | Bool::False` (booleans.rs:553). -/
def isNotOrConst : B → Bool
  | .not _ | .tt | .ff => true
  | _ => false

/-- The loop building `simplified` (booleans.rs:551-561). -/
def pushNegations : List B → List B → List B
  | acc, [] => acc
  | acc, simple :: rest =>
    let acc := if isNotOrConst simple then acc else acc ++ [.not simple]
    let acc := if acc.any (fun b => b.beq (simpleNegate simple)) then acc
      else acc ++ [simpleNegate simple]
    pushNegations acc rest

/-- `simplified` (booleans.rs:550-561). -/
def candidates (simplify : B → List B) (b : B) : List B :=
  pushNegations (simplify b) (simplify (.not b))

mutual
/-- `stats.terminals[n]` (booleans.rs:511-535). -/
def count (n : Nat) : B → Nat
  | .tt | .ff => 0
  | .term m => if m = n then 1 else 0
  | .not b => count n b
  | .and l | .or l => countList n l
def countList (n : Nat) : List B → Nat
  | [] => 0
  | b :: l => count n b + countList n l
end

/-- `And(_) | Or(_)`. -/
def isAndOr : B → Bool
  | .and _ | .or _ => true
  | _ => false

mutual
/-- `stats.negations` (booleans.rs:511-535). -/
def negations : B → Nat
  | .tt | .ff | .term _ => 0
  | .not b => (if isAndOr b then 0 else 1) + negations b
  | .and l | .or l => negationsList l
def negationsList : List B → Nat
  | [] => 0
  | b :: l => negations b + negationsList l
end

mutual
/-- `stats.ops` (booleans.rs:511-535). -/
def ops : B → Nat
  | .tt | .ff => 1
  | .term _ => 0
  | .not b => (if isAndOr b then 1 else 0) + ops b
  | .and l | .or l => l.length - 1 + opsList l
def opsList : List B → Nat
  | [] => 0
  | b :: l => ops b + opsList l
end

/-- What the inner loop over `0..32` decides for one suggestion (booleans.rs:563-607). -/
inductive Verdict
  /-- `continue 'simplified` -/
  | worse
  /-- the terminal can be optimised out -/
  | drops (i : Nat)
  /-- went through, `improvement` or not -/
  | done (improvement : Bool)
  deriving DecidableEq, Repr

/-- The loop over the indices (booleans.rs:566-603). -/
def judge (b s : B) : (is : List Nat) → (improvement : Bool) → Verdict
  | [], imp => .done imp
  | i :: is, imp =>
    if count i b < count i s then .worse
    else if count i b ≠ 0 && count i s = 0 then .drops i
    else judge b s is (imp || decide (count i b > count i s)
      || (decide (negations b > negations s) && ops b == ops s)
      || (decide (ops b > ops s) && negations b == negations s))

/-- What is reported. -/
inductive Report
  /-- `OVERLY_COMPLEX_BOOL_EXPR`: terminal `i` can be removed -/
  | overlyComplex (i : Nat) (s : B)
  /-- `NONMINIMAL_BOOL` with its suggestions; empty: `check_simplify_not` is tried -/
  | nonminimal (ss : List B)

/-- The loop over the suggestions (booleans.rs:562-607 and 635-644). -/
def select (b : B) : (improvements : List B) → List B → Report
  | acc, [] => .nonminimal acc
  | acc, s :: rest =>
    match judge b s (List.range 32) false with
    | .worse => select b acc rest
    | .drops i => .overlyComplex i s
    | .done imp => select b (if imp then acc ++ [s] else acc) rest

/-- `bool_expr` up to printing (booleans.rs:538-646). -/
def boolExpr (C : Ctx) (simplify : B → List B) (e : Expr) : Option (B × List Expr × Report) :=
  match run C e with
  | some (b, T) => if ops b > 7 then none else some (b, T, select b [] (candidates simplify b))
  | none => none

/-- The comparison `simplify_not` prints (booleans.rs:411-419). -/
def notOp : BinOp → Option BinOp
  | .eq => some .ne
  | .ne => some .eq
  | .lt => some .ge
  | .gt => some .le
  | .le => some .gt
  | .ge => some .lt
  | _ => none

/-- The text starts with `(` and ends with `)`. -/
def looksParenthesized (ts : List Tok) : Bool := ts.head? == some .lpar && ts.getLast? == some .rpar

/-- The kind of the expression is a cast. -/
def isCast (e : Expr) : Bool :=
  match peel e with
  | .cast _ _ => true
  | _ => false

/-- The text of the left operand (booleans.rs:425-433). -/
def lhsText (o : BinOp) (l : Expr) : List Tok :=
  if !looksParenthesized (text l) && isCast l && o == .ge then paren (text l) else text l

/-- `simplify_not` (booleans.rs:404-469). -/
def simplifyNot (C : Ctx) (e : Expr) : Option (List Tok) :=
  match peel e with
  | .bin (.binary o) l r =>
    if C.ord l then (notOp o).map fun o' => lhsText o l ++ .op (.binary o') :: text r else none
  | .atom n => (C.negAtom n).map fun m => [.atom m]
  | .un .not i => some (text i)
  | _ => none

/-- `Sugg::hir` of a terminal (clippy_utils/src/sugg.rs:130-194; the `UnOp` case of `hir_with_context`,
sugg.rs:107-116, cannot occur for terminals). -/
def hirSugg (e : Expr) : Sugg :=
  match peel e with
  | .bin o l r => .binOp o (text l) (text r)
  | .cast i n => .binOp .cast (text i) [.ty n]
  | .un _ _ => .maybeParen (text e)
  | .lam _ _ => .maybeParen (text e)
  | _ => .nonParen (text e)

/-- `Not(Term(n))` in `recurse` (booleans.rs:354-367). -/
def notTerm (C : Ctx) (e : Expr) : List Tok :=
  match simplifyNot C e with
  | some ts => ts
  | none => (logicalNot (hirSugg e)).text

/-- The texts joined by an operator (booleans.rs:373-394). -/
def join (o : BinOp) : List (List Tok) → List Tok
  | [] => []
  | t :: ts => t ++ ts.flatMap fun u => .op (.binary o) :: u

/-- The kind test `Or(_)`. -/
def isOr : B → Bool
  | .or _ => true
  | _ => false

/-- The terminal with the given number; the index panics when there is none. -/
def termAt (T : List Expr) (n : Nat) : Expr := T.getD n (.atom 0)

mutual
/-- `SuggestContext::recurse` (booleans.rs:338-401). -/
def printB (C : Ctx) (T : List Expr) : B → List Tok
  | .tt => [.atom C.ttAtom]
  | .ff => [.atom C.ffAtom]
  | .term n => text (termAt T n)
  | .not (.and l) => .un .not :: paren (join .and (printAnd C T l))
  | .not (.or l) => .un .not :: paren (join .or (printOr C T l).reverse)
  | .not (.term n) => notTerm C (termAt T n)
  | .not b => .un .not :: printB C T b
  | .and l => join .and (printAnd C T l)
  | .or l => join .or (printOr C T l).reverse
/-- The operands of `&&`. -/
def printAnd (C : Ctx) (T : List Expr) : List B → List (List Tok)
  | [] => []
  | b :: l => (if isOr b then paren (printB C T b) else printB C T b) :: printAnd C T l
/-- The operands of `||`. -/
def printOr (C : Ctx) (T : List Expr) : List B → List (List Tok)
  | [] => []
  | b :: l => printB C T b :: printOr C T l
end

/-- `maybe_par` (booleans.rs:211-219). -/
def maybePar (inner : Expr) : Bool :=
  match hirSugg inner with
  | .binOp .. => true
  | .maybeParen s => !hasEnclosingParen s
  | _ => false

/-- The replacement of `check_simplify_not` (booleans.rs:203-235). -/
def checkSimplifyNot (C : Ctx) (e : Expr) : Option (List Tok) :=
  match peel e with
  | .un .not inner =>
    match simplifyNot C inner with
    | some ts => some (if maybePar inner then paren ts else ts)
    | none => none
  | _ => none

/-- The operand of `!`. -/
def notOperand (e : Expr) : Option Expr :=
  match peel e with
  | .un .not i => some i
  | _ => none

/-- `inverted_bin_op_eq_str` (booleans.rs:129-135). -/
def invertedEq : BinOp → Option BinOp
  | .eq => some .ne
  | .ne => some .eq
  | _ => none

/-- `bin_op_eq_str` (booleans.rs:137-143). -/
def plainEq : BinOp → Option BinOp
  | .eq => some .eq
  | .ne => some .ne
  | _ => none

/-- `check_inverted_bool_in_condition` (booleans.rs:145-201): the replacement of `left op right`. -/
def invertedBool (C : Ctx) (o : BinOp) (left right : Expr) : Option (List Tok) :=
  if C.boolTy left && C.boolTy right then
    match notOperand left, notOperand right with
    | some l, some r => (plainEq o).map fun o' => text l ++ .op (.binary o') :: text r
    | some l, none => (invertedEq o).map fun o' => text l ++ .op (.binary o') :: text right
    | none, some r => (invertedEq o).map fun o' => text left ++ .op (.binary o') :: text r
    | none, none => none
  else none

end Verif.Booleans
