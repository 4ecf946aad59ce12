/-!
# Specification: how expressions with boolean operators are read, and what they mean
-/

namespace Verif.BoolText

inductive Op | lor | land | eq | ne | lt | gt | le | ge | bor | xor | band
  deriving DecidableEq, Repr

/-- How loosely an operator binds. -/
def lvl : Op → Nat
  | .band => 1
  | .xor => 2
  | .bor => 3
  | .eq | .ne | .lt | .gt | .le | .ge => 4
  | .land => 5
  | .lor => 6

/-- Expressions; `par` is a pair of parentheses, `neg` is `!`. -/
inductive Tr
  | leaf (n : Nat)
  | lit (b : Bool)
  | par (t : Tr)
  | neg (t : Tr)
  | node (o : Op) (l r : Tr)
  deriving DecidableEq, Repr

/-- Values: booleans, and floating-point numbers (`none` is NaN). -/
inductive Val
  | b (x : Bool)
  | f (x : Option Int)
  deriving DecidableEq, Repr

def floats : Op → Option Int → Option Int → Bool
  | .ne, none, _ => true
  | .ne, _, none => true
  | _, none, _ => false
  | _, _, none => false
  | .eq, some x, some y => x == y
  | .ne, some x, some y => x != y
  | .lt, some x, some y => decide (x < y)
  | .gt, some x, some y => decide (y < x)
  | .le, some x, some y => decide (x ≤ y)
  | .ge, some x, some y => decide (y ≤ x)
  | _, _, _ => false

def bools : Op → Bool → Bool → Bool
  | .lor, x, y => x || y
  | .bor, x, y => x || y
  | .land, x, y => x && y
  | .band, x, y => x && y
  | .xor, x, y => x != y
  | .ne, x, y => x != y
  | .eq, x, y => x == y
  | .lt, x, y => !x && y
  | .gt, x, y => x && !y
  | .le, x, y => !x || y
  | .ge, x, y => x || !y

def opv (o : Op) : Val → Val → Val
  | .b x, .b y => .b (bools o x y)
  | .f x, .f y => .b (floats o x y)
  | _, _ => .b false

def notv : Val → Val
  | .b x => .b (!x)
  | .f _ => .b false

/-- The value of a tree. -/
def Tr.eval (ρ : Nat → Val) : Tr → Val
  | .leaf n => ρ n
  | .lit x => .b x
  | .par t => t.eval ρ
  | .neg t => notv (t.eval ρ)
  | .node o l r => opv o (l.eval ρ) (r.eval ρ)

/-- A text: operands (parentheses and `!` belong to the operand) with operators between them. -/
abbrev Text := Tr × List (Op × Tr)

/-- The text of a tree. -/
def text : Tr → Text
  | .node o l r => ((text l).1, (text l).2 ++ (o, (text r).1) :: (text r).2)
  | t => (t, [])

/-- A text is split at operators. -/
def split (p : Op → Bool) : Tr → List (Op × Tr) → Text × List (Op × Text)
  | a, [] => ((a, []), [])
  | a, (o, c) :: l =>
      if p o then ((a, []), (o, (split p c l).1) :: (split p c l).2)
      else ((a, (o, (split p c l).1.1) :: (split p c l).1.2), (split p c l).2)

/-- How the compiler reads a text: operators that bind loosely come last, from left to right. -/
def read (ρ : Nat → Val) : Nat → Text → Val
  | 0, c => c.1.eval ρ
  | k + 1, c =>
      let r := split (fun o => lvl o == k + 1) c.1 c.2
      r.2.foldl (fun x q => opv q.1 x (read ρ k q.2)) (read ρ k r.1)

/-- What a text means. -/
def meaning (ρ : Nat → Val) (c : Text) : Val := read ρ 6 c

/-- The operators in a text. -/
def ops : Tr → List Op
  | .node o l r => ops l ++ o :: ops r
  | _ => []

def Simple : Tr → Prop
  | .node _ _ _ => False
  | _ => True

/-- The tree can be written without further parentheses. -/
def Fits : Tr → Prop
  | .leaf _ => True
  | .lit _ => True
  | .par t => Fits t
  | .neg t => Fits t ∧ Simple t
  | .node o l r => Fits l ∧ Fits r ∧ (∀ p ∈ ops l, lvl p ≤ lvl o ∧ (lvl o = 4 → lvl p < 4)) ∧ ∀ p ∈ ops r, lvl p < lvl o

/-- What is around an expression. -/
inductive Ctx
  | hole
  | par (c : Ctx)
  | neg (c : Ctx)
  | left (o : Op) (c : Ctx) (r : Tr)
  | right (o : Op) (l : Tr) (c : Ctx)
  deriving DecidableEq, Repr

def Ctx.fill : Ctx → Tr → Tr
  | .hole, t => t
  | .par c, t => .par (c.fill t)
  | .neg c, t => .neg (c.fill t)
  | .left o c r, t => .node o (c.fill t) r
  | .right o l c, t => .node o l (c.fill t)

def IsBool (ρ : Nat → Val) (t : Tr) : Prop := ∃ x, t.eval ρ = .b x

/-- Without parentheses around it. -/
def bare : Tr → Tr
  | .par t => bare t
  | t => t

/-- The expression (parentheses aside) is no comparison of floating-point numbers. -/
def NoFloats (ρ : Nat → Val) : Tr → Prop
  | .par t => NoFloats ρ t
  | .neg t => IsBool ρ t
  | .node _ l r => IsBool ρ l ∧ IsBool ρ r
  | _ => True

/-- Without its parentheses, and without a `!` and the parentheses below, the expression is not one with `&&` or `||`. -/
def Tight (t : Tr) : Prop :=
  (∀ p ∈ ops (bare t), lvl p ≤ 4) ∧ ∀ s, bare t = .neg s → ∀ p ∈ ops (bare s), lvl p ≤ 4

end Verif.BoolText
