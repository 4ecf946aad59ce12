import Verif.Share.Syntax

/-!
# Spec: what a program does
-/

namespace Verif.Share

/-- Code ends with a value or leaves the program. -/
inductive Flow (V : Type) where
  | val (v : V)
  | exit (n : Nat)

/-- Variables live in places; `next` is the next free place. -/
structure World (ρ V : Type) where
  next : Nat
  mem : Nat → V
  rest : ρ

/-- What code does to the places it mentions and to everything else. -/
structure Sys (ρ V : Type) where
  exec : Nat → List Nat → (Nat → V) → ρ → (Nat → V) × ρ × Flow V
  truth : V → Bool
  /-- The value of a variable of a pattern. -/
  part : Nat → V → Nat → V
  unit : V

/-- The place a name stands for. -/
abbrev Env := Name → Nat

section
variable {ρ V : Type} (S : Sys ρ V)

def runCode (c : TCode) (E : Env) (w : World ρ V) : World ρ V × Flow V :=
  let r := S.exec c.op (c.uses.map E) w.mem w.rest
  (⟨w.next, r.1, r.2.1⟩, r.2.2)

/-- The variables of a pattern get new places. -/
def bindAll (p : Nat) (v : V) : List Name → Nat → Env → World ρ V → Env × World ρ V
  | [], _, E, w => (E, w)
  | x :: xs, i, E, w =>
    bindAll p v xs (i + 1) (fun y => if y = x then w.next else E y)
      ⟨w.next + 1, fun l => if l = w.next then S.part p v i else w.mem l, w.rest⟩

/-- One statement: a new environment, or the program is left. -/
def runStmt (s : TStmt) (E : Env) (w : World ρ V) : World ρ V × Except Nat Env :=
  match s with
  | .let_ p xs c =>
    let r := runCode S c E w
    match r.2 with
    | .val v => let q := bindAll S p v xs 0 E r.1; (q.2, .ok q.1)
    | .exit n => (r.1, .error n)
  | .expr c =>
    let r := runCode S c E w
    match r.2 with
    | .val _ => (r.1, .ok E)
    | .exit n => (r.1, .error n)

def runStmts : List TStmt → Env → World ρ V → World ρ V × Except Nat Env
  | [], E, w => (w, .ok E)
  | s :: ss, E, w =>
    let r := runStmt S s E w
    match r.2 with
    | .ok E' => runStmts ss E' r.1
    | .error n => (r.1, .error n)

def runTail (t : Option TCode) (E : Env) (w : World ρ V) : World ρ V × Flow V :=
  match t with
  | none => (w, .val S.unit)
  | some c => runCode S c E w

def runBlock (b : TBlock) (E : Env) (w : World ρ V) : World ρ V × Flow V :=
  let r := runStmts S b.stmts E w
  match r.2 with
  | .ok E' => runTail S b.tail E' r.1
  | .error n => (r.1, .exit n)

/-- Which block is chosen? -/
def choose : List TCode → Env → World ρ V → World ρ V × Except Nat Nat
  | [], _, w => (w, .ok 0)
  | c :: cs, E, w =>
    let r := runCode S c E w
    match r.2 with
    | .exit n => (r.1, .error n)
    | .val v =>
      if S.truth v then (r.1, .ok 0)
      else
        let q := choose cs E r.1
        (q.1, q.2.map (· + 1))

/-- What follows the `if`. -/
def runAfter (a : Option TBlock) (E : Env) (r : World ρ V × Flow V) : World ρ V × Flow V :=
  match a, r.2 with
  | some b, .val _ => runBlock S b E r.1
  | _, _ => r

/-- The whole program.  Variables of a block are gone after it. -/
def Prog.run (p : Prog) (E : Env) (w : World ρ V) : World ρ V × Flow V :=
  let r := runStmts S p.before E w
  match r.2 with
  | .error n => (r.1, .exit n)
  | .ok E' =>
    let q := choose S p.conds E' r.1
    match q.2 with
    | .error n => (q.1, .exit n)
    | .ok i =>
      match p.blocks[i]? with
      | some b => runAfter S p.after E' (runBlock S b E' q.1)
      | none => (q.1, .exit 0)

/-- The conditions have no effects, and only read their variables. -/
def Quiet (conds : List TCode) : Prop :=
  ∀ c ∈ conds, ∃ f : List V → V, ∀ ls mem rest, S.exec c.op ls mem rest = (mem, rest, .val (f (ls.map mem)))

/-- Code changes a variable only if it mentions it, and not as a shared reference. -/
def Frame (imm : Nat → Nat → Bool) : Prop :=
  ∀ op ls mem rest l, (∀ i, ls[i]? = some l → imm op i = true) → (S.exec op ls mem rest).1 l = mem l

/-- These names stand for places of their own. -/
def Sep (X : Name → Prop) (E : Env) (w : World ρ V) : Prop := ∀ x, X x → E x < w.next ∧ ∀ y, E y = E x → y = x
end

section
variable (nm : Id → Name) (out : Name → Id)

/-- The names in the conditions. -/
def CondName (conds : List Code) (x : Name) : Prop := ∃ c ∈ conds, ∃ u ∈ c.uses, nm u = x

/-- The statements in front of this one do not declare a name that is used in the conditions. -/
def NoShadow (conds : List Code) (b : Block) (n : Nat) : Prop :=
  ∀ (a : Nat) (s : Stmt) x, a < n → b.stmts[a]? = some s → CondName nm conds x → x ∉ s.binders.map nm

/-- In front of the statement number `p` of a block, the variable is the last one declared with its name, or there is
none and it is the one outside of the block. -/
def Resolves (ss : List Stmt) (p : Nat) (u : Id) : Prop :=
  (∃ a s, a < p ∧ ss[a]? = some s ∧ u ∈ s.binders ∧
    ∀ a' s', a < a' → a' < p → ss[a']? = some s' → nm u ∉ s'.binders.map nm) ∨
  (u = out (nm u) ∧ ∀ a' s', a' < p → ss[a']? = some s' → nm u ∉ s'.binders.map nm)

/-- All variables are resolved correctly. -/
def Resolved (b : Block) : Prop :=
  (∀ p s u, b.stmts[p]? = some s → u ∈ s.code.uses → Resolves nm out b.stmts p u) ∧
  ∀ c u, b.tail = some c → u ∈ c.uses → Resolves nm out b.stmts b.stmts.length u

/-- All variables that are declared in blocks are different from each other and from those outside. -/
structure Distinct (bs : List Block) : Prop where
  outer : ∀ (j : Nat) (b : Block) (a : Nat) (s : Stmt) u x, bs[j]? = some b → b.stmts[a]? = some s → u ∈ s.binders → out x ≠ u
  same : ∀ (j j' : Nat) (b b' : Block) (a a' : Nat) (s s' : Stmt) u, bs[j]? = some b → bs[j']? = some b' → b.stmts[a]? = some s → b'.stmts[a']? = some s' →
    u ∈ s.binders → u ∈ s'.binders → j = j' ∧ a = a'

/-- No two statements of a block come from the same macro call. -/
def Plain (b : Block) : Prop :=
  ∀ (a a' : Nat) (s s' : Stmt), b.stmts[a]? = some s → b.stmts[a']? = some s' → s.site = s'.site → a = a'

/-- An `if` chain that the compiler accepts, without macros. -/
structure Valid (conds : List Code) (first : Block) (others : List Block) : Prop where
  count : others.length = conds.length
  chain : conds ≠ []
  distinct : Distinct out (first :: others)
  resolved : ∀ b ∈ first :: others, Resolved nm out b
  conds : ∀ c ∈ conds, ∀ u ∈ c.uses, u = out (nm u)
  plain : Plain first
end

end Verif.Share
