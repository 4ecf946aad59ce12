import Verif.Memcpy.Model

/-!
# What the loop and the suggestion do

Memory is a list of elements for every place; different places don't overlap. Arithmetic is on `usize`: whatever isn't between `0` and `W`
panics (`none`).
-/

namespace Verif.Memcpy

/-- A place: a variable, or an expression with the values of the variables it mentions. -/
inductive Loc
  | loc (x : Nat)
  | other (k : Nat) (vals : List Nat)
deriving DecidableEq, Repr

/-- Variables, memory, and what else has been done. -/
structure St (α : Type) where
  vars : Nat → Nat
  mem : Loc → List α
  log : List Nat

/-- The largest `usize`, the values of constants and of other expressions. -/
structure Env where
  W : Nat
  const : Nat → Nat
  atom : Nat → Nat

/-- The place of a base. -/
def Base.at {α : Type} (σ : St α) : Base → Loc
  | .loc x => .loc x
  | .other k xs => .other k (xs.map σ.vars)

/-- The value of an expression. -/
def A.eval {α : Type} (E : Env) (σ : St α) : A → Option Nat
  | .lit n => some n
  | .var x => some (σ.vars x)
  | .const k => some (E.const k)
  | .len b => some (σ.mem (b.at σ)).length
  | .atom k => some (E.atom k)
  | .add a b => do
    let x ← a.eval E σ
    let y ← b.eval E σ
    if x + y ≤ E.W then some (x + y) else none
  | .sub a b => do
    let x ← a.eval E σ
    let y ← b.eval E σ
    if y ≤ x then some (x - y) else none
  | .neg _ => none

/-- The memory with another content at a place. -/
def setMem {α : Type} (mem : Loc → List α) (l : Loc) (xs : List α) : Loc → List α := fun l' => if l' = l then xs else mem l'

/-- A statement. -/
def Stmt.run {α : Type} (E : Env) (σ : St α) : Stmt → Option (St α)
  | .assign (.index bl il) (.index br ir) => do
    let r ← ir.eval E σ
    let v ← (σ.mem (br.at σ))[r]?
    let l ← il.eval E σ
    if l < (σ.mem (bl.at σ)).length then some { σ with mem := setMem σ.mem (bl.at σ) ((σ.mem (bl.at σ)).set l v) } else none
  | .assign _ _ => none
  | .incr x => if σ.vars x + 1 ≤ E.W then some { σ with vars := fun y => if y = x then σ.vars x + 1 else σ.vars y } else none
  | .letS k | .opPlace k | .other k => some { σ with log := σ.log ++ [k] }
  | .opLocal _ => none

/-- Statements. -/
def runBody {α : Type} (E : Env) : List Stmt → St α → Option (St α)
  | [], σ => some σ
  | s :: ss, σ => do
    let σ1 ← s.run E σ
    runBody E ss σ1

/-- `n` rounds of the loop from `i` on. -/
def Loop.rounds {α : Type} (L : Loop) (E : Env) : Nat → Nat → St α → Option (St α)
  | 0, _, σ => some σ
  | n + 1, i, σ => do
    let σ1 ← runBody E L.body { σ with vars := fun y => if y = L.var then i else σ.vars y }
    L.rounds E n (i + 1) σ1

/-- The loop. -/
def Loop.run {α : Type} (L : Loop) (E : Env) (σ : St α) : Option (St α) := do
  let s ← L.start.eval E σ
  let e ← L.stop.eval E σ
  L.rounds E (if L.closed then e + 1 - s else e - s) s σ

/-- The value of a bound of a range. -/
def boundVal {α : Type} (E : Env) (σ : St α) (dflt : Nat) : Option A → Option Nat
  | some a => a.eval E σ
  | none => some dflt

/-- A range of a list: first and one past the last. -/
def slice {α : Type} (E : Env) (σ : St α) (xs : List α) : Option (Option A × Option A) → Option (Nat × Nat)
  | none => some (0, xs.length)
  | some (lo, hi) => do
    let l ← boundVal E σ 0 lo
    let h ← boundVal E σ xs.length hi
    if l ≤ h ∧ h ≤ xs.length then some (l, h) else none

/-- `copy_from_slice`. -/
def Copy.run {α : Type} (E : Env) (c : Copy) (σ : St α) : Option (St α) := do
  let d := σ.mem (c.dst.at σ)
  let s := σ.mem (c.src.at σ)
  let (dl, dh) ← slice E σ d c.dstRange
  let (sl, sh) ← slice E σ s c.srcRange
  if dh - dl = sh - sl then
    some { σ with mem := setMem σ.mem (c.dst.at σ) (d.take dl ++ (s.drop sl).take (sh - sl) ++ d.drop dh) }
  else none

/-- All suggested calls. -/
def runCopies {α : Type} (E : Env) : List Copy → St α → Option (St α)
  | [], σ => some σ
  | c :: cs, σ => do
    let σ1 ← c.run E σ
    runCopies E cs σ1

/-- Only assignments and `x += 1`. -/
def Loop.OnlyCopies (L : Loop) : Prop := ∀ s ∈ L.body, (∃ l r, s = .assign l r) ∨ ∃ x, s = .incr x

/-- The destinations and sources of the assignments. -/
def Stmt.sides : Stmt → List (Base × Base)
  | .assign (.index bl _) (.index br _) => [(bl, br)]
  | _ => []

/-- No destination is used by another assignment. -/
def Loop.Independent {α : Type} (L : Loop) (σ : St α) : Prop :=
  (L.body.flatMap Stmt.sides).Pairwise fun p q => p.1.at σ ≠ q.1.at σ ∧ p.1.at σ ≠ q.2.at σ ∧ p.2.at σ ≠ q.1.at σ

/-- What is indexed doesn't change in the loop: no base mentions a variable which is incremented. -/
def Loop.FixedBases (L : Loop) : Prop :=
  ∀ s ∈ L.body, ∀ p ∈ s.sides, ∀ x, .incr x ∈ L.body → x ∉ p.1.vars ∧ x ∉ p.2.vars

/-- The counters have their initial values, lengths of arrays are right, and the variable of the loop isn't a counter. -/
structure Loop.Right {α : Type} (L : Loop) (E : Env) (σ : St α) : Prop where
  init : ∀ x a, L.init x = some a → a.eval E σ = some (σ.vars x)
  var : L.init L.var = none
  arr : ∀ b n, L.arrLen b = some n → (σ.mem (b.at σ)).length = n
  lit : ∀ n, L.start = .lit n ∨ L.stop = .lit n → n ≤ E.W
  max : ∀ l, (σ.mem l).length ≤ E.W
  word : E.W < 2 ^ 64

/-- The bounds of a range can be computed: nothing is subtracted from a `0` that is written down, `x.len()` as the end of the loop is the length of
`x` if `x` is indexed, and with a counter that starts at `c`, for an offset `o` and the end `e`, neither `e + o + c` nor `e - o` overflows. -/
structure Loop.Calm {α : Type} (L : Loop) (E : Env) (σ : St α) (i : Idx) (s e : Nat) : Prop where
  zero : i.offset.neg = true → i.offset.value ≠ .lit 0 → L.stop ≠ .lit 0 ∧
    match i.start with
    | .range => L.start ≠ .lit 0
    | .counter _ c => c ≠ .lit 0
  len : ∀ b, L.stop = .len b → b.resLocal = i.base.resLocal → b = i.base ∧ L.closed = false
  counter : ∀ x c o, i.start = .counter x c → i.offset.value.eval E σ = some o →
    if i.offset.neg then o ≤ e ∧ e - o + σ.vars x ≤ E.W else e + o + σ.vars x ≤ E.W
  start : ∀ x c, i.start = .counter x c → L.closed = true → L.start = .lit 0 ∨ s ≠ 0

end Verif.Memcpy
