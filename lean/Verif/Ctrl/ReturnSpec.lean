import Verif.Ctrl.Spec
import Verif.Ctrl.Return

/-!
# Specification: needless `return`

What calling a function does, how many `return`s a body has, and how much of an expression the
compiler reads when a statement begins with it.  Of the model only the tree of `Src` is used.
-/

namespace Verif.Ctrl.Return
open Verif.Ctrl
variable {S : Sem}

/-- What calling a function with this body gives: `return` ends it with its value. -/
def call (m : M S S.V) : M S S.V := fun w =>
  match m w with
  | (.error (.ret v), w') => (.ok v, w')
  | r => r

/-- The values belong to one type, which is that of `()` or does not have `()` in it. -/
def OneType (unit : S.V) (T : S.V → Prop) : Prop := (∀ v, T v → v = unit) ∨ ¬T unit

/-- All values of the computation are in `T`. -/
def Gives (T : S.V → Prop) (m : M S S.V) : Prop := ∀ w v w', m w = (.ok v, w') → T v

mutual

/-- How many `return`s an expression has. -/
def retsE : Expr → Nat
  | .var _ => 0
  | .prim _ _ as => retsL as
  | .assign _ l r => retsE l + retsE r
  | .lzy _ a b => retsE a + retsE b
  | .ite c t e => retsC c + retsE t + retsE e
  | .ifn c t => retsC c + retsE t
  | .mtch e arms => retsE e + retsA arms
  | .block _ b => retsS b
  | .lp _ _ b => retsS b
  | .whl _ _ c b => retsC c + retsS b
  | .forE _ _ _ _ it b => retsE it + retsS b
  | .cont _ _ => 0
  | .brk _ _ es => retsL es
  | .ret es => 1 + retsL es

def retsC : Cond → Nat
  | .test e => retsE e
  | .letP _ _ e => retsE e
  | .nextP _ _ e => retsE e
  | .and a b => retsC a + retsC b

def retsL : Exprs → Nat
  | .nil => 0
  | .cons e es => retsE e + retsL es

def retsA : Arms → Nat
  | .nil => 0
  | .arm _ _ b r => retsE b + retsA r
  | .armIf _ _ g b r => retsC g + retsE b + retsA r

def retsS : Stmts → Nat
  | .done => 0
  | .tail e => retsE e
  | .semi e r => retsE e + retsS r
  | .expr e r => retsE e + retsS r
  | .letS _ _ e r => retsE e + retsS r
  | .letElse _ _ e els r => retsE e + retsS els + retsS r
  | .item _ _ r => retsS r

end

/-- What may follow an operand. -/
inductive Suffix where
  | dot | quest | args | brackets | op
  deriving DecidableEq

/-- An expression as it is written: is its first operand like a block, and what follows. -/
def Src.tokens : Src → Bool × List Suffix
  | .blockLike => (true, [])
  | .other => (false, [])
  | .binary l => (l.tokens.1, l.tokens.2 ++ [.op])
  | .cast l => (l.tokens.1, l.tokens.2 ++ [.op])
  | .method l => (l.tokens.1, l.tokens.2 ++ [.dot])
  | .field l => (l.tokens.1, l.tokens.2 ++ [.dot])
  | .quest l => (l.tokens.1, l.tokens.2 ++ [.quest])
  | .call l => (l.tokens.1, l.tokens.2 ++ [.args])
  | .index l => (l.tokens.1, l.tokens.2 ++ [.brackets])
  | .range l => (l.tokens.1, l.tokens.2 ++ [.op])
  | .assign l => (l.tokens.1, l.tokens.2 ++ [.op])

/-- What the compiler leaves over when it reads a statement: after an operand like a block only
`.` and `?` go on with the same expression. -/
def leftOver : Bool × List Suffix → List Suffix
  | (false, _) => []
  | (true, []) => []
  | (true, .dot :: _) => []
  | (true, .quest :: _) => []
  | (true, s :: r) => s :: r

/-- The statement is read as one expression. -/
def Whole (e : Src) : Prop := leftOver e.tokens = []

end Verif.Ctrl.Return
