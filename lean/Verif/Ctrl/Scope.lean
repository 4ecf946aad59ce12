import Verif.Ctrl.NeverSpec

/-!
# Labels and what they mean

A `break` or `continue` without a label leaves the innermost loop, one with a label leaves the
innermost loop or block of that label.  Every loop and labelled block has a number of its own.
-/

namespace Verif.Ctrl

/-- A loop or a labelled block around. -/
structure Around where
  lab : Option Name
  id : Id
  isLoop : Bool

/-- What a label, or no label, refers to. -/
def resolve : List Around → Option Name → Option Id
  | [], _ => none
  | a :: c, none => if a.isLoop then some a.id else resolve c none
  | a :: c, some l => if a.lab = some l then some a.id else resolve c (some l)

/-- What a `continue` with a label, or without, refers to: labels of blocks are not allowed. -/
def resolveC : List Around → Option Name → Option Id
  | [], _ => none
  | a :: c, none => if a.isLoop then some a.id else resolveC c none
  | a :: c, some l =>
    if a.lab = some l then (if a.isLoop then some a.id else none) else resolveC c (some l)

/-- The number is not taken. -/
def Fresh (t : Id) (c : List Around) : Prop := ∀ a ∈ c, a.id ≠ t

mutual

/-- The jumps in the expression are resolved. -/
def scopedE : List Around → Expr → Prop
  | _, .var _ => True
  | c, .prim _ _ as => scopedL c as
  | c, .assign _ l r => scopedE c l ∧ scopedE c r
  | c, .lzy _ a b => scopedE c a ∧ scopedE c b
  | c, .ite q t e => scopedC c q ∧ scopedE c t ∧ scopedE c e
  | c, .ifn q t => scopedC c q ∧ scopedE c t
  | c, .mtch e as => scopedE c e ∧ scopedA c as
  | c, .block none b => scopedS c b
  | c, .block (some (l, t)) b => Fresh t c ∧ scopedS (⟨some l, t, false⟩ :: c) b
  | c, .lp lab t b => Fresh t c ∧ scopedS (⟨lab, t, true⟩ :: c) b
  | c, .whl lab t q b => Fresh t c ∧ scopedC (⟨lab, t, true⟩ :: c) q ∧ scopedS (⟨lab, t, true⟩ :: c) b
  | c, .forE lab t _ _ it b => Fresh t c ∧ scopedE c it ∧ scopedS (⟨lab, t, true⟩ :: c) b
  | c, .cont lab t => resolveC c lab = some t
  | c, .brk lab t e => resolve c lab = some t ∧ scopedL c e
  | c, .ret e => scopedL c e

def scopedC : List Around → Cond → Prop
  | c, .test e => scopedE c e
  | c, .letP _ _ e => scopedE c e
  | c, .nextP _ _ e => scopedE c e
  | c, .and a b => scopedC c a ∧ scopedC c b

def scopedL : List Around → Exprs → Prop
  | _, .nil => True
  | c, .cons e es => scopedE c e ∧ scopedL c es

def scopedA : List Around → Arms → Prop
  | _, .nil => True
  | c, .arm _ _ body rest => scopedE c body ∧ scopedA c rest
  | c, .armIf _ _ g body rest => scopedC c g ∧ scopedE c body ∧ scopedA c rest

def scopedS : List Around → Stmts → Prop
  | _, .done => True
  | c, .tail e => scopedE c e
  | c, .semi e r => scopedE c e ∧ scopedS c r
  | c, .expr e r => scopedE c e ∧ scopedS c r
  | c, .letS _ _ e r => scopedE c e ∧ scopedS c r
  | c, .letElse _ _ e els r => scopedE c e ∧ scopedS c els ∧ scopedS c r
  | c, .item _ _ r => scopedS c r

end

end Verif.Ctrl
