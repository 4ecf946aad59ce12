import Verif.Ctrl.Spec

/-!
# Names that a program mentions and declares
-/

namespace Verif.Ctrl

mutual

/-- The variables an expression mentions. -/
def namesE : Expr → List Name
  | .var x => [x]
  | .prim _ us as => us ++ namesL as
  | .assign _ l r => namesE l ++ namesE r
  | .lzy _ a b => namesE a ++ namesE b
  | .ite c t e => namesC c ++ namesE t ++ namesE e
  | .ifn c t => namesC c ++ namesE t
  | .mtch e as => namesE e ++ namesA as
  | .block _ b => namesS b
  | .lp _ _ b => namesS b
  | .whl _ _ c b => namesC c ++ namesS b
  | .forE _ _ _ _ it b => namesE it ++ namesS b
  | .cont _ _ => []
  | .brk _ _ e => namesL e
  | .ret e => namesL e

def namesC : Cond → List Name
  | .test e => namesE e
  | .letP _ _ e => namesE e
  | .nextP _ _ e => namesE e
  | .and a b => namesC a ++ namesC b

def namesL : Exprs → List Name
  | .nil => []
  | .cons e es => namesE e ++ namesL es

def namesA : Arms → List Name
  | .nil => []
  | .arm _ _ body rest => namesE body ++ namesA rest
  | .armIf _ _ g body rest => namesC g ++ namesE body ++ namesA rest

def namesS : Stmts → List Name
  | .done => []
  | .tail e => namesE e
  | .semi e r => namesE e ++ namesS r
  | .expr e r => namesE e ++ namesS r
  | .letS _ _ e r => namesE e ++ namesS r
  | .letElse _ _ e els r => namesE e ++ namesS els ++ namesS r
  | .item _ _ r => namesS r

end

/-- The variables and items a block declares. -/
def declares : Stmts → List Name
  | .done => []
  | .tail _ => []
  | .semi _ r => declares r
  | .expr _ r => declares r
  | .letS _ xs _ r => xs ++ declares r
  | .letElse _ xs _ _ r => xs ++ declares r
  | .item x _ r => x :: declares r

/-- The items a block declares. -/
def items : Stmts → List Name
  | .done => []
  | .tail _ => []
  | .semi _ r => items r
  | .expr _ r => items r
  | .letS _ _ _ r => items r
  | .letElse _ _ _ _ r => items r
  | .item x _ r => x :: items r

/-- The statements of a block from number `i` on, after the one with that number. -/
def after : Stmts → Nat → Stmts
  | .semi _ r, 0 => r
  | .expr _ r, 0 => r
  | .semi _ r, i + 1 => after r i
  | .expr _ r, i + 1 => after r i
  | .letS _ _ _ r, i + 1 => after r i
  | .letElse _ _ _ _ r, i + 1 => after r i
  | .item _ _ r, i + 1 => after r i
  | _, _ => .done

/-- The expression of the statement with a number. -/
def stmtAt : Stmts → Nat → Option Expr
  | .semi e _, 0 => some e
  | .expr e _, 0 => some e
  | .tail e, 0 => some e
  | .semi _ r, i + 1 => stmtAt r i
  | .expr _ r, i + 1 => stmtAt r i
  | .letS _ _ _ r, i + 1 => stmtAt r i
  | .letElse _ _ _ _ r, i + 1 => stmtAt r i
  | .item _ _ r, i + 1 => stmtAt r i
  | _, _ => none

/-- The names that the statements before number `i` mention. -/
def before : Stmts → Nat → List Name
  | .semi e r, i + 1 => namesE e ++ before r i
  | .expr e r, i + 1 => namesE e ++ before r i
  | .letS _ _ e r, i + 1 => namesE e ++ before r i
  | .letElse _ _ e els r, i + 1 => namesE e ++ namesS els ++ before r i
  | .item _ _ r, i + 1 => before r i
  | _, _ => []

/-- The block at the end of a chain of `if … else if … else`. -/
def lastElse : Expr → Option Stmts
  | .ite _ _ e => lastElse e
  | .block none b => some b
  | _ => none

/-- The names that a chain mentions outside the last `else`. -/
def namesIf : Expr → List Name
  | .ite c t e => namesC c ++ namesE t ++ namesIf e
  | _ => []

/-- What is asked for when the last `else` of statement number `i` moves out: its items have names
that the block around does not know, and what follows does not mention what it declares. -/
def MovableOut (b : Stmts) (i : Nat) : Prop :=
  ∀ e B, stmtAt b i = some e → lastElse e = some B →
    (∀ x ∈ items B, x ∉ before b i ∧ x ∉ namesIf e ∧ x ∉ declares b) ∧
    ∀ x ∈ namesS (after b i), x ∉ declares B

/-- An `else` whose first statement is `continue`. -/
def StartsContinue (e : Expr) : Prop :=
  (∃ l u t r, e = .block l (.semi (.cont u t) r)) ∨ (∃ l u t r, e = .block l (.expr (.cont u t) r)) ∨
    ∃ u t, e = .cont u t

/-- What is asked for when the statements after an `if` move into its first branch. -/
def Movable (b : Stmts) (i : Nat) : Prop :=
  ∀ q l B els, stmtAt b i = some (.ite q (.block l B) els) → StartsContinue els →
    items (after b i) = [] ∧ ∀ x ∈ namesS (after b i), x ∉ declares B

/-- The block of a loop. -/
def Expr.body : Expr → Stmts
  | .lp _ _ b => b
  | .whl _ _ _ b => b
  | .forE _ _ _ _ _ b => b
  | _ => .done

end Verif.Ctrl
