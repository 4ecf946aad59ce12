import Verif.LetElse.Syntax

/-!
# What patterns match and which variables they declare
-/

namespace Verif.LetElse

/-- Where a value is: in the matched value, below fields, or in a new variable. -/
inductive Loc where
  | at (path : List Nat)
  | temp

def Loc.field : Loc → Nat → Loc
  | .at p, k => .at (k :: p)
  | .temp, _ => .temp

/-- Values.  `peel` goes through references: the default binding mode, the place and the value below. -/
structure Sem where
  V : Type
  isLit : Nat → V → Bool
  /-- The constructor. -/
  isCtor : Nat → V → Bool
  arity : V → Nat
  field : V → Nat → V
  mkRef : Bool → Loc → V → V
  deref : V → Option (Loc × V)
  peel : Option Bool → Loc → V → Option Bool × Loc × V
  tuple : List V → V
  array : List V → V

/-- Two shared or mutable references, one through the other. -/
def comb : Option Bool → Bool → Bool
  | none, m => m
  | some m', m => m' && m

/-- What is known about values. -/
structure Laws (S : Sem) : Prop where
  peel_ref : ∀ dm l m l' v, S.peel dm l (S.mkRef m l' v) = S.peel (some (comb dm m)) l' v
  /-- A value that is no reference stays where it is, and below a reference it doesn't matter where that was. -/
  peel_cases : ∀ v, (∀ l, S.peel none l v = (none, l, v)) ∨ (∀ l l', S.peel none l v = S.peel none l' v)
  peel_tuple : ∀ l vs, S.peel none l (S.tuple vs) = (none, l, S.tuple vs)
  peel_array : ∀ l vs, S.peel none l (S.array vs) = (none, l, S.array vs)
  arity_tuple : ∀ vs, S.arity (S.tuple vs) = vs.length
  arity_array : ∀ vs, S.arity (S.array vs) = vs.length
  field_tuple : ∀ vs i v, vs[i]? = some v → S.field (S.tuple vs) i = v
  field_array : ∀ vs i v, vs[i]? = some v → S.field (S.array vs) i = v

/-- The variables with their values. -/
abbrev Binds (S : Sem) := List (Name × S.V)

/-- The number of patterns. -/
def Pats.length : Pats → Nat
  | .nil => 0
  | .cons _ ps => ps.length + 1

/-- The field of argument `i` of `len`, with `..` at `rest`, of `n` fields. -/
def index (rest : Option Nat) (len n i : Nat) : Nat :=
  match rest with
  | none => i
  | some k => if i < k then i else n - (len - i)

section
variable (S : Sem)

/-- The value of a variable: `mut` stops the default binding mode. -/
def bindVal (m : Mode) (dm : Option Bool) (l : Loc) (v : S.V) : S.V :=
  match m.ref, m.mt, dm with
  | some r, _, _ => S.mkRef r l v
  | none, false, some r => S.mkRef r l v
  | none, false, none => v
  | none, true, _ => v

/-- Both match. -/
def both (a b : Option (Binds S)) : Option (Binds S) := a.bind fun x => b.map fun y => x ++ y

mutual
/-- Match a value. -/
def mtch (dm : Option Bool) (l : Loc) (v : S.V) : Pat → Option (Binds S)
  | .wild => some []
  | .bind m x => some [(x, bindVal S m dm l v)]
  | .bindAt m x p => both S (some [(x, bindVal S m dm l v)]) (mtch dm l v p)
  | .lit n => if S.isLit n (S.peel dm l v).2.2 then some [] else none
  | .path c => if S.isCtor c (S.peel dm l v).2.2 then some [] else none
  | .tuple r ps => mtchL (S.peel dm l v) r ps.length 0 ps
  | .ts c r ps =>
    if S.isCtor c (S.peel dm l v).2.2 then mtchL (S.peel dm l v) r ps.length 0 ps else none
  | .strct c _ fs => if S.isCtor c (S.peel dm l v).2.2 then mtchF (S.peel dm l v) fs else none
  | .or ps => mtchOr dm l v ps
  | .slice ps =>
    if S.arity (S.peel dm l v).2.2 = ps.length then mtchL (S.peel dm l v) none ps.length 0 ps else none
  | .ref p => match S.deref v with
    | some r => mtch none r.1 r.2 p
    | none => none
/-- The arguments. -/
def mtchL (q : Option Bool × Loc × S.V) (r : Option Nat) (len : Nat) (i : Nat) : Pats → Option (Binds S)
  | .nil => some []
  | .cons p ps =>
    both S (mtch q.1 (q.2.1.field (index r len (S.arity q.2.2) i))
        (S.field q.2.2 (index r len (S.arity q.2.2) i)) p)
      (mtchL q r len (i + 1) ps)
/-- The fields. -/
def mtchF (q : Option Bool × Loc × S.V) : Fields → Option (Binds S)
  | .nil => some []
  | .cons f p fs => both S (mtch q.1 (q.2.1.field f) (S.field q.2.2 f) p) (mtchF q fs)
/-- The first alternative that matches. -/
def mtchOr (dm : Option Bool) (l : Loc) (v : S.V) : Pats → Option (Binds S)
  | .nil => none
  | .cons p ps => (mtch dm l v p).or (mtchOr dm l v ps)
end

/-- The value of a variable in a branch, or outside of it. -/
def lookup (out : Name → S.V) (x : Name) : Binds S → S.V
  | [] => out x
  | (y, v) :: bs => if y = x then v else lookup out x bs

/-- Other expressions have any value. -/
def element (out : Name → S.V) (bs : Binds S) (other : S.V) : Option Name → S.V
  | some x => lookup S out x bs
  | none => other

/-- The value of a branch. -/
def value (out : Name → S.V) (bs : Binds S) (other : S.V) : Ex → S.V
  | .path x => lookup S out x bs
  | .tuple es => S.tuple (es.map (element S out bs other))
  | .array es => S.array (es.map (element S out bs other))
  | .blk e => value out bs other e
  | .other _ => other

/-- What comes of `let P = …;`: the variables declared afterwards; the body that leaves, with the variables of its
pattern; or nothing (the code is not accepted, or no arm matches). -/
inductive Res where
  | vars (bs : Binds S)
  | leave (bs : Binds S) (e : Ex)
  | stuck

/-- The variables of the new `let`, for the value of the branch. -/
def declare (loc : Pat) (v : S.V) : Res S :=
  match mtch S none .temp v loc with
  | some bs => .vars bs
  | none => .stuck

/-- `if let` in a `let`; the second branch leaves. -/
def runIfLet (out : Name → S.V) (other : S.V) (loc p : Pat) (t e : Ex) (v : S.V) : Res S :=
  match mtch S none (.at []) v p with
  | some bs => declare S loc (value S out bs other t)
  | none => .leave [] e

/-- An arm without guard in a `let`; `leaves`: its body does. -/
def runArms (out : Name → S.V) (other : S.V) (leaves : Ex → Bool) (loc : Pat) (v : S.V) : List Arm → Res S
  | [] => .stuck
  | a :: as =>
    match mtch S none (.at []) v a.pat with
    | some bs => if leaves a.body then .leave bs a.body else declare S loc (value S out bs other a.body)
    | none => runArms out other leaves loc v as

/-- `let p = s else { e };` -/
def runLetElse (e : Edit) (v : S.V) : Res S :=
  match e.pat with
  | some p => match mtch S none (.at []) v p with
    | some bs => .vars bs
    | none => .leave [] e.els
  | none => .stuck
end

/-- The same outcome: the same variables with the same values, apart from those in `extra`. -/
inductive Same {S : Sem} (extra : Name → Prop) : Res S → Res S → Prop where
  | vars (a b : Binds S) : (∀ x v, ¬ extra x → ((x, v) ∈ a ↔ (x, v) ∈ b)) → Same extra (.vars a) (.vars b)
  | leave (bs : Binds S) (e : Ex) : Same extra (.leave bs e) (.leave bs e)

/-! ## Conditions on patterns -/

/-- A variable of a pattern, in any alternative. -/
inductive Occ (m : Mode) (x : Name) : Pat → Prop where
  | bind : Occ m x (.bind m x)
  | here (p : Pat) : Occ m x (.bindAt m x p)
  | bindAt (m' : Mode) (y : Name) {p : Pat} : Occ m x p → Occ m x (.bindAt m' y p)
  | tuple (r : Option Nat) {ps : Pats} {p : Pat} : p ∈ ps.toList → Occ m x p → Occ m x (.tuple r ps)
  | ts (c : Nat) (r : Option Nat) {ps : Pats} {p : Pat} : p ∈ ps.toList → Occ m x p → Occ m x (.ts c r ps)
  | strct (c : Nat) (d : Bool) {fs : Fields} {p : Pat} : p ∈ fs.toList → Occ m x p → Occ m x (.strct c d fs)
  | or {ps : Pats} {p : Pat} : p ∈ ps.toList → Occ m x p → Occ m x (.or ps)
  | slice {ps : Pats} {p : Pat} : p ∈ ps.toList → Occ m x p → Occ m x (.slice ps)
  | ref {p : Pat} : Occ m x p → Occ m x (.ref p)

/-- All alternatives have the same variables. -/
inductive Alt : Pat → Prop where
  | wild : Alt .wild
  | lit (n : Nat) : Alt (.lit n)
  | path (c : Nat) : Alt (.path c)
  | bind (m : Mode) (x : Name) : Alt (.bind m x)
  | bindAt (m : Mode) (x : Name) {p : Pat} : Alt p → Alt (.bindAt m x p)
  | tuple (r : Option Nat) {ps : Pats} : (∀ p ∈ ps.toList, Alt p) → Alt (.tuple r ps)
  | ts (c : Nat) (r : Option Nat) {ps : Pats} : (∀ p ∈ ps.toList, Alt p) → Alt (.ts c r ps)
  | strct (c : Nat) (d : Bool) {fs : Fields} : (∀ p ∈ fs.toList, Alt p) → Alt (.strct c d fs)
  | or {ps : Pats} : (∀ p ∈ ps.toList, Alt p) →
    (∀ p ∈ ps.toList, ∀ q ∈ ps.toList, ∀ m x, Occ m x p → Occ m x q) → Alt (.or ps)
  | slice {ps : Pats} : (∀ p ∈ ps.toList, Alt p) → Alt (.slice ps)
  | ref {p : Pat} : Alt p → Alt (.ref p)

/-- The language asks for this: all variables of a pattern are bound once, with the same prefix in all
alternatives. -/
structure WellFormed (S : Sem) (p : Pat) : Prop where
  once : ∀ dm l v bs, mtch S dm l v p = some bs → (bs.map (·.1)).Nodup
  all : ∀ dm l v bs, mtch S dm l v p = some bs → ∀ m x, Occ m x p → ∃ u, (x, u) ∈ bs
  mode : ∀ m m' x, Occ m x p → Occ m' x p → m = m'

/-- The pairs of a variable of a branch and the pattern it goes to. -/
def pairs (loc : Pat) : Ex → List (Name × Pat)
  | .blk e => pairs loc e
  | .path x => [(x, loc)]
  | .tuple es => match loc with
    | .tuple _ ps => (es.zip ps.toList).filterMap fun q => q.1.map fun x => (x, q.2)
    | _ => []
  | .array es => match loc with
    | .slice ps => (es.zip ps.toList).filterMap fun q => q.1.map fun x => (x, q.2)
    | _ => []
  | .other _ => []

/-- A variable of the branch. -/
def Used (prs : List (Name × Pat)) (x : Name) : Prop := ∃ p, (x, p) ∈ prs

/-- A variable that is declared by the statement. -/
def Declared (prs : List (Name × Pat)) (y : Name) : Prop := ∃ x p m, (x, p) ∈ prs ∧ Occ m y p

/-- … and is the whole of its pattern. -/
def Whole (prs : List (Name × Pat)) (y : Name) : Prop :=
  ∃ x p m, (x, p) ∈ prs ∧ (p = .bind m y ∨ ∃ q, p = .bindAt m y q)

/-- No variable of the branch, and no name that is declared, occurs. -/
def Free (prs : List (Name × Pat)) (p : Pat) : Prop := ∀ m x, Occ m x p → ¬ Used prs x ∧ ¬ Declared prs x

def NotOr : Pat → Prop
  | .or _ => False
  | _ => True

/-- Where variables can be replaced: not below `&`, in slices, below the fields of structs, or in tuples of one;
`|` does not follow `@`; and other variables have other names than those which are declared. -/
inductive Reached (prs : List (Name × Pat)) : Pat → Prop where
  | wild : Reached prs .wild
  | lit (n : Nat) : Reached prs (.lit n)
  | path (c : Nat) : Reached prs (.path c)
  | bind (m : Mode) (x : Name) : (¬ Used prs x → ¬ Declared prs x) → Reached prs (.bind m x)
  | bindAt (m : Mode) (x : Name) {p : Pat} : Reached prs p → NotOr p →
    (¬ Used prs x → Declared prs x → Whole prs x) → Reached prs (.bindAt m x p)
  | tuple (r : Option Nat) {ps : Pats} : (∀ p ∈ ps.toList, Reached prs p) → (r = none → ps.length ≠ 1) →
    Reached prs (.tuple r ps)
  | ts (c : Nat) (r : Option Nat) {ps : Pats} : (∀ p ∈ ps.toList, Reached prs p) → Reached prs (.ts c r ps)
  | strct (c : Nat) (d : Bool) {fs : Fields} :
    (∀ p ∈ fs.toList, Free prs p ∨ ∃ m x, p = .bind m x ∧ (¬ Used prs x → ¬ Declared prs x)) →
    Reached prs (.strct c d fs)
  | or {ps : Pats} : (∀ p ∈ ps.toList, Reached prs p) → Reached prs (.or ps)
  | slice {ps : Pats} : Free prs (.slice ps) → Reached prs (.slice ps)
  | ref {p : Pat} : Free prs (.ref p) → Reached prs (.ref p)

/-- A pattern without `ref`, `&` and `|`. -/
inductive Simple : Pat → Prop where
  | wild : Simple .wild
  | path (c : Nat) : Simple (.path c)
  | bind (mt : Bool) (x : Name) : Simple (.bind ⟨none, mt⟩ x)
  | bindAt (mt : Bool) (x : Name) {p : Pat} : Simple p → Simple (.bindAt ⟨none, mt⟩ x p)
  | tuple (r : Option Nat) {ps : Pats} : (∀ p ∈ ps.toList, Simple p) → Simple (.tuple r ps)
  | ts (c : Nat) (r : Option Nat) {ps : Pats} : (∀ p ∈ ps.toList, Simple p) → Simple (.ts c r ps)
  | strct (c : Nat) (d : Bool) {fs : Fields} : (∀ p ∈ fs.toList, Simple p) → Simple (.strct c d fs)

/-- No variable for the whole value is `mut`. -/
def NotMut : Pat → Prop
  | .bind m _ => m.mt = false
  | .bindAt m _ p => m.mt = false ∧ NotMut p
  | _ => True

/-- It always matches. -/
def Irref (S : Sem) (p : Pat) : Prop := ∀ dm l v, (mtch S dm l v p).isSome = true

/-- There are no references in a value. -/
def Owned (S : Sem) (v : S.V) : Prop :=
  ∃ C : S.V → Prop, C v ∧ ∀ u, C u → (∀ l, S.peel none l u = (none, l, u)) ∧ ∀ k, C (S.field u k)

/-- What the theorems ask of the patterns of the `let`. -/
structure LetOk (S : Sem) (prs : List (Name × Pat)) (p : Pat) (v : S.V) : Prop where
  simple : ∀ x q, (x, q) ∈ prs → Simple q
  irref : ∀ x q, (x, q) ∈ prs → Irref S q
  /-- A prefix and a pattern do not meet. -/
  prefix_ : ∀ x q m, (x, q) ∈ prs → Occ m x p → m = .plain ∨ ∃ y, q = .bind .plain y
  mut_ : (∀ x q, (x, q) ∈ prs → NotMut q) ∨ Owned S v

/-- Variables of the old pattern which the new code declares in addition. -/
def Extra (prs : List (Name × Pat)) (p : Pat) (x : Name) : Prop :=
  (∃ m, Occ m x p) ∧ ¬ Used prs x ∧ ¬ Declared prs x

/-- A body that has a value. -/
inductive IsValue : Ex → Prop where
  | path (x : Name) : IsValue (.path x)
  | tuple (es : List (Option Name)) : IsValue (.tuple es)
  | array (es : List (Option Name)) : IsValue (.array es)
  | blk {e : Ex} : IsValue e → IsValue (.blk e)

/-- The constructor of a pattern. -/
def ctorOf : Pat → Option Nat
  | .path c => some c
  | .ts c _ _ => some c
  | .strct c _ _ => some c
  | _ => none

end Verif.LetElse
