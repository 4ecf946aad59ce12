import Verif.Order.Syntax

/-!
# Orders of evaluation

Operands of operations are evaluated in some order; everything else is sequenced.
-/

namespace Verif.Order

/-- The read `r` of `x` is in the code, where it is evaluated with it: not behind `&` and not in closures. -/
def Reads (x r : Nat) : Code → Prop
  | .lit _ | .addr _ | .closure _ _ | .nil => False
  | .read r' y => y = x ∧ r' = r
  | .assign _ _ e => Reads x r e
  | .assignOp r' _ y e => (y = x ∧ r' = r) ∨ Reads x r e
  | .op _ a => Reads x r a
  | .seq a b | .while_ a b | .letElse a b | .cons a b => Reads x r a ∨ Reads x r b
  | .ite a b c => Reads x r a ∨ Reads x r b ∨ Reads x r c

/-- The write `w` of `x` is in the code, not in closures. -/
def Writes (x w : Nat) : Code → Prop
  | .lit _ | .closure _ _ | .nil | .read _ _ => False
  | .assign w' y e | .assignOp _ w' y e => (y = x ∧ w' = w) ∨ Writes x w e
  | .op _ a | .addr a => Writes x w a
  | .seq a b | .while_ a b | .letElse a b | .cons a b => Writes x w a ∨ Writes x w b
  | .ite a b c => Writes x w a ∨ Writes x w b ∨ Writes x w c

/-- The read `r` and the write `w` of one local are in different operands of one operation. -/
def Clash (r w : Nat) : Code → Prop
  | .lit _ | .nil | .read _ _ => False
  | .assign _ _ e | .op _ e | .addr e | .closure _ e => Clash r w e
  | .assignOp r' _ x e => (r' = r ∧ Writes x w e) ∨ Clash r w e
  | .seq a b | .while_ a b | .letElse a b => Clash r w a ∨ Clash r w b
  | .ite a b c => Clash r w a ∨ Clash r w b ∨ Clash r w c
  | .cons a b =>
    (∃ x, Reads x r a ∧ Writes x w b) ∨ (∃ x, Writes x w a ∧ Reads x r b) ∨ Clash r w a ∨ Clash r w b

/-- An operation or an assignment. -/
def IsOp : Code → Prop
  | .op _ _ | .assign _ _ _ | .assignOp _ _ _ _ => True
  | _ => False

/-- The read is in an operation which is the initialiser of a `let … else`, the write in its `else`. -/
def ElseClash (r w : Nat) : Code → Prop
  | .lit _ | .nil | .read _ _ => False
  | .assign _ _ e | .op _ e | .addr e | .closure _ e | .assignOp _ _ _ e => ElseClash r w e
  | .seq a b | .while_ a b | .cons a b => ElseClash r w a ∨ ElseClash r w b
  | .ite a b c => ElseClash r w a ∨ ElseClash r w b ∨ ElseClash r w c
  | .letElse a b => (∃ x, Writes x w b ∧ Reads x r a ∧ IsOp a) ∨ ElseClash r w a ∨ ElseClash r w b

/-- Operands are lists, and what is matched by a `let … else` isn't a closure. -/
def Typed : Code → Prop
  | .lit _ | .nil | .read _ _ => True
  | .assign _ _ e | .addr e | .closure _ e | .assignOp _ _ _ e => Typed e
  | .op _ a => Typed a
  | .seq a b | .while_ a b => Typed a ∧ Typed b
  | .letElse a b => Typed a ∧ Typed b ∧ ∀ x c, a ≠ .closure x c
  | .ite a b c => Typed a ∧ Typed b ∧ Typed c
  | .cons a b => Typed a ∧ Typed b ∧ (b = .nil ∨ ∃ c d, b = .cons c d)

/-- The code can change the local. -/
def Stores (x : Nat) (c : Code) : Prop := ∃ w, Writes x w c

/-- The code can read or change the local. -/
def Mentions (x : Nat) : Code → Prop
  | .lit _ | .nil => False
  | .read _ y => y = x
  | .assign _ y e | .assignOp _ _ y e => y = x ∨ Mentions x e
  | .op _ a | .addr a => Mentions x a
  | .closure y _ => y = x
  | .seq a b | .while_ a b | .letElse a b | .cons a b => Mentions x a ∨ Mentions x b
  | .ite a b c => Mentions x a ∨ Mentions x b ∨ Mentions x c

/-- No local is written by two operands of one operation. -/
def NoTwice : Code → Prop
  | .lit _ | .nil | .read _ _ | .closure _ _ => True
  | .assign _ _ e | .op _ e | .addr e | .assignOp _ _ _ e => NoTwice e
  | .seq a b | .while_ a b | .letElse a b => NoTwice a ∧ NoTwice b
  | .ite a b c => NoTwice a ∧ NoTwice b ∧ NoTwice c
  | .cons a b => (∀ x, ¬ (Stores x a ∧ Stores x b)) ∧ NoTwice a ∧ NoTwice b

/-- No references and no closures. -/
def Open : Code → Prop
  | .lit _ | .nil | .read _ _ => True
  | .closure _ _ | .addr _ => False
  | .assign _ _ e | .op _ e | .assignOp _ _ _ e => Open e
  | .seq a b | .while_ a b | .letElse a b | .cons a b => Open a ∧ Open b
  | .ite a b c => Open a ∧ Open b ∧ Open c

/-! ## Evaluation -/

abbrev St := Nat → Nat

def St.put (σ : St) (x n : Nat) : St := fun y => if y = x then n else σ y

/-- Operands with their positions. -/
def operands : Nat → Code → List (Nat × Code)
  | n, .cons e es => (n, e) :: operands (n + 1) es
  | _, _ => []

/-- The value at a position. -/
def valueOf : List (Nat × Nat) → Nat → Option Nat
  | [], _ => none
  | (j, n) :: vs, i => if j = i then some n else valueOf vs i

/-- One expression, or operands in the order in which they are evaluated. -/
inductive Job
  | one (e : Code)
  | all (l : List (Nat × Code))

/-- Evaluation, with the values of the operands by position (one expression has the position 0). `ok l l'` says that the operands `l` may be
evaluated in the order `l'`; `F` are the operations. The value of a closure is what it has captured. -/
inductive Run (F : Nat → (Nat → Option Nat) → Nat) (ok : List (Nat × Code) → List (Nat × Code) → Prop) :
    St → Job → St → List (Nat × Nat) → Prop
  | lit {σ n} : Run F ok σ (.one (.lit n)) σ [(0, n)]
  | read {σ r x} : Run F ok σ (.one (.read r x)) σ [(0, σ x)]
  | assign {σ σ₁ w x e n} : Run F ok σ (.one e) σ₁ [(0, n)] → Run F ok σ (.one (.assign w x e)) (σ₁.put x n) [(0, 0)]
  | assignOp {σ σ₁ r w x e l vs} : ok [(0, .read r x), (1, e)] l → Run F ok σ (.all l) σ₁ vs →
      Run F ok σ (.one (.assignOp r w x e)) (σ₁.put x (F 0 (valueOf vs))) [(0, 0)]
  | op {σ σ₁ k args l vs} : ok (operands 0 args) l → Run F ok σ (.all l) σ₁ vs →
      Run F ok σ (.one (.op k args)) σ₁ [(0, F k (valueOf vs))]
  | seq {σ σ₁ σ₂ a b vs ws} : Run F ok σ (.one a) σ₁ vs → Run F ok σ₁ (.one b) σ₂ ws → Run F ok σ (.one (.seq a b)) σ₂ ws
  | iteThen {σ σ₁ σ₂ c t e n vs} : Run F ok σ (.one c) σ₁ [(0, n + 1)] → Run F ok σ₁ (.one t) σ₂ vs →
      Run F ok σ (.one (.ite c t e)) σ₂ vs
  | iteElse {σ σ₁ σ₂ c t e vs} : Run F ok σ (.one c) σ₁ [(0, 0)] → Run F ok σ₁ (.one e) σ₂ vs →
      Run F ok σ (.one (.ite c t e)) σ₂ vs
  | whileEnd {σ σ₁ c b} : Run F ok σ (.one c) σ₁ [(0, 0)] → Run F ok σ (.one (.while_ c b)) σ₁ [(0, 0)]
  | whileNext {σ σ₁ σ₂ σ₃ c b n vs ws} : Run F ok σ (.one c) σ₁ [(0, n + 1)] → Run F ok σ₁ (.one b) σ₂ vs →
      Run F ok σ₂ (.one (.while_ c b)) σ₃ ws → Run F ok σ (.one (.while_ c b)) σ₃ ws
  | addr {σ σ₁ e vs} : Run F ok σ (.one e) σ₁ vs → Run F ok σ (.one (.addr e)) σ₁ vs
  | closure {σ x b} : Run F ok σ (.one (.closure x b)) σ [(0, σ x)]
  | letElse {σ σ₁ σ₂ i e vs} : Run F ok σ (.one i) σ₁ [(0, 0)] → Run F ok σ₁ (.one e) σ₂ vs →
      Run F ok σ (.one (.letElse i e)) σ₂ vs
  | letMatch {σ σ₁ i e n} : Run F ok σ (.one i) σ₁ [(0, n + 1)] → Run F ok σ (.one (.letElse i e)) σ₁ [(0, 0)]
  | allNil {σ} : Run F ok σ (.all []) σ []
  | allCons {σ σ₁ σ₂ i e l n vs} : Run F ok σ (.one e) σ₁ [(0, n)] → Run F ok σ₁ (.all l) σ₂ vs →
      Run F ok σ (.all ((i, e) :: l)) σ₂ ((i, n) :: vs)

/-- Operands may be evaluated in any order. -/
def AnyOrder (l l' : List (Nat × Code)) : Prop := l'.Perm l

/-- Operands are evaluated from left to right. -/
def LeftToRight (l l' : List (Nat × Code)) : Prop := l' = l

end Verif.Order
