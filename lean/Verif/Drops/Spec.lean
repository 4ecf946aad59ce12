/-!
# Specification: when values are dropped

Which `Drop` implementations run when a value goes away, which temporaries an expression leaves behind
for the end of its statement, and when variables, temporaries and values are dropped in the editions of
the language.
-/

namespace Verif.Drops

/-! ## Types -/

/-- How a type is made. -/
inductive Kind
  /-- Numbers, references, pointers, …: nothing to drop. -/
  | plain
  /-- Tuples and arrays. -/
  | parts (l : List Nat)
  /-- Structures and enumerations with the types of their fields; `drop`: there is an `impl Drop`. -/
  | adt (drop : Bool) (fields : List Nat)
  /-- Containers of the standard library whose own `Drop` only frees memory, with their arguments. -/
  | container (args : List Nat)
  /-- A type whose values may do anything when they are dropped: `dyn Trait`, a type parameter. -/
  | anything
  deriving DecidableEq, Repr

/-- The types of a program. -/
abbrev Types := Nat → Kind

/-- Dropping a value of the first type may run the code for the drop of the second. -/
inductive Glue (tab : Types) : Nat → Nat → Prop
  | own {t f} : tab t = .adt true f → Glue tab t t
  | any {t} : tab t = .anything → Glue tab t t
  | field {t d f c u} : tab t = .adt d f → c ∈ f → Glue tab c u → Glue tab t u
  | part {t l c u} : tab t = .parts l → c ∈ l → Glue tab c u → Glue tab t u
  | content {t l c u} : tab t = .container l → c ∈ l → Glue tab c u → Glue tab t u

/-- No code of the program runs when a value of the type is dropped. -/
def Silent (tab : Types) (t : Nat) : Prop := ∀ u, ¬ Glue tab t u

/-! ## Expressions -/

/-- Expressions, lists of arguments and statements. Numbers stand for types (`d`), variables (`x`) and the
effects and decisions of the program (`k`); type `0` is `()`. -/
inductive E
  /-- A variable that is read, a static. -/
  | loc (x : Nat)
  /-- A variable that is moved, if its value is taken over. -/
  | mv (x d : Nat)
  /-- A constructor without fields, written with its own name or as `Self`. -/
  | unit (d : Nat) (self : Bool)
  /-- A constant. -/
  | cst (d : Nat)
  | lit
  /-- A call; `bor`: the result of the signature mentions a lifetime other than `'static`. -/
  | call (k d : Nat) (bor : Bool) (args : E)
  | ref (e : E)
  | deref (e : E)
  | field (e : E)
  | index (a i : E)
  /-- An operand that is borrowed automatically. -/
  | auto (e : E)
  /-- `[e; n]` -/
  | rep (d : Nat) (e : E)
  /-- Tuples, arrays, structures. -/
  | tup (d : Nat) (args : E)
  | bin (k d : Nat) (a b : E)
  /-- A block with its tail; `lit` for none. -/
  | blk (d : Nat) (s e : E)
  | mtch (k d : Nat) (s arms : E)
  | ite (k d : Nat) (c a b : E)
  /-- The condition of a plain `if` or `while`. -/
  | dropTemps (d : Nat) (e : E)
  | anil
  | acons (e rest : E)
  | snil
  | slet (x : Nat) (e rest : E)
  | ssemi (e rest : E)
  deriving DecidableEq, Repr

/-- What is to be dropped: a variable, or a temporary of a type. -/
inductive Item
  | var (x : Nat)
  | tmp (d : Nat)
  deriving DecidableEq, Repr

/-- A program around the expression. -/
structure Sem where
  W : Type
  act : Nat → W → W
  move : Nat → W → W
  choose : Nat → W → Nat
  drop : Item → W → W
  /-- A variable that was moved is not dropped. -/
  moved : ∀ x w, drop (.var x) (move x w) = w
  /-- `()` is dropped without effect. -/
  nothing : ∀ w, drop (.tmp 0) w = w

/-- Drop in the order of the list. -/
def dropAll (I : Sem) : List Item → I.W → I.W
  | [], w => w
  | i :: is, w => dropAll I is (I.drop i w)

/-- The edition decides about the temporaries of the tail of a block. -/
inductive Edition
  | e2021
  | e2024
  deriving DecidableEq, Repr

/-- The value that has no owner becomes a temporary, to be dropped before the older ones. -/
def settle {W : Type} (own : Bool) (r : Nat × List Item × W) : Nat × List Item × W :=
  if own then r else (0, .tmp r.1 :: r.2.1, r.2.2)

mutual
/-- Evaluate: the type of the value, what is left to be dropped (first things first) and the world. `own`:
the value is taken over, otherwise it is only looked at. Statements leave their variables. -/
def ev (I : Sem) (ed : Edition) : Bool → E → I.W → Nat × List Item × I.W
  | _, .loc _, w => (0, [], w)
  | own, .mv x d, w => if own then (d, [], I.move x w) else (0, [], w)
  | own, .unit d _, w => settle own (d, [], w)
  | own, .cst d, w => settle own (d, [], w)
  | own, .lit, w => settle own (0, [], w)
  | own, .call k d _ args, w =>
    let r := ev I ed true args w
    settle own (d, r.2.1, I.act k r.2.2)
  | own, .ref e, w =>
    let r := ev I ed false e w
    settle own (0, r.2.1, r.2.2)
  | _, .deref e, w =>
    let r := ev I ed false e w
    (0, r.2.1, r.2.2)
  | _, .field e, w =>
    let r := ev I ed false e w
    (0, r.2.1, r.2.2)
  | _, .index a i, w =>
    let r := ev I ed false a w
    let q := ev I ed true i r.2.2
    (0, q.2.1 ++ r.2.1, q.2.2)
  | own, .auto e, w =>
    let r := ev I ed false e w
    settle own (0, r.2.1, r.2.2)
  | own, .rep d e, w =>
    let r := ev I ed true e w
    settle own (d, r.2.1, r.2.2)
  | own, .tup d args, w =>
    let r := ev I ed true args w
    settle own (d, r.2.1, r.2.2)
  | own, .bin k d a b, w =>
    let r := ev I ed true a w
    let q := ev I ed true b r.2.2
    settle own (d, q.2.1 ++ r.2.1, I.act k q.2.2)
  | own, .blk d s e, w =>
    let l := ev I ed true s w
    let r := ev I ed true e l.2.2
    match ed with
    | .e2021 => settle own (d, r.2.1, dropAll I l.2.1 r.2.2)
    | .e2024 => settle own (d, [], dropAll I l.2.1 (dropAll I r.2.1 r.2.2))
  | own, .mtch k d s arms, w =>
    let r := ev I ed false s w
    settle own (d, r.2.1, evArm I ed arms (I.choose k r.2.2) r.2.2)
  | own, .ite k d c a b, w =>
    let r := ev I ed true c w
    let q := if I.choose k r.2.2 = 0 then ev I ed true a r.2.2 else ev I ed true b r.2.2
    settle own (d, r.2.1, dropAll I q.2.1 q.2.2)
  | own, .dropTemps d e, w =>
    let r := ev I ed true e w
    settle own (d, [], dropAll I r.2.1 r.2.2)
  | _, .anil, w => (0, [], w)
  | _, .acons e rest, w =>
    let r := ev I ed true e w
    let q := ev I ed true rest r.2.2
    (0, q.2.1 ++ r.2.1, q.2.2)
  | _, .snil, w => (0, [], w)
  | _, .slet x e rest, w =>
    let r := ev I ed true e w
    let q := ev I ed true rest (dropAll I r.2.1 r.2.2)
    (0, q.2.1 ++ [.var x], q.2.2)
  | _, .ssemi e rest, w =>
    let r := ev I ed true e w
    ev I ed true rest (dropAll I (.tmp r.1 :: r.2.1) r.2.2)

/-- An arm: its temporaries are dropped at its end. -/
def evArm (I : Sem) (ed : Edition) : E → Nat → I.W → I.W
  | .acons e _, 0, w =>
    let r := ev I ed true e w
    dropAll I r.2.1 r.2.2
  | .acons _ rest, n + 1, w => evArm I ed rest n w
  | _, _, w => w
end

/-- The type of the value; reading a place copies something without drop. -/
def tyOf : E → Nat
  | .mv _ d => d
  | .unit d _ => d
  | .cst d => d
  | .call _ d _ _ => d
  | .rep d _ => d
  | .tup d _ => d
  | .bin _ d _ _ => d
  | .blk d _ _ => d
  | .mtch _ d _ _ => d
  | .ite _ d _ _ _ => d
  | .dropTemps d _ => d
  | _ => 0

/-- Dropping such a value changes nothing. -/
def Inert (I : Sem) (d : Nat) : Prop := ∀ w, I.drop (.tmp d) w = w

/-- Only values whose drop runs code of the program have an effect when they are dropped. -/
def Obeys (I : Sem) (tab : Types) : Prop := ∀ d, Silent tab d → Inert I d

/-- Where the temporaries of an expression are made; other parts (arms, branches, statements, closures)
drop their own. -/
def Made (q : E → Prop) : E → Prop
  | e@(.call _ _ _ a) => q e ∨ Made q a
  | e@(.ref a) => q e ∨ Made q a
  | e@(.deref a) => q e ∨ Made q a
  | e@(.field a) => q e ∨ Made q a
  | e@(.index a b) => q e ∨ Made q a ∨ Made q b
  | e@(.auto a) => q e ∨ Made q a
  | e@(.rep _ a) => q e ∨ Made q a
  | e@(.tup _ a) => q e ∨ Made q a
  | e@(.bin _ _ a b) => q e ∨ Made q a ∨ Made q b
  | e@(.blk _ _ a) => q e ∨ Made q a
  | e@(.mtch _ _ s _) => q e ∨ Made q s
  | e@(.ite _ _ c _ _) => q e ∨ Made q c
  | e@(.acons a b) => q e ∨ Made q a ∨ Made q b
  | e => q e

/-- `[e; n]`, a constant or `Self` as a value; and statements, which are no expressions. -/
def IsSpecial : E → Prop
  | .rep _ _ => True
  | .cst _ => True
  | .unit _ self => self = true
  | .slet _ _ _ => True
  | .ssemi _ _ => True
  | _ => False

/-- Nothing of this kind. -/
def Common (e : E) : Prop := ¬ Made IsSpecial e

/-! ## Statements and blocks -/

/-- Add a statement at the end. -/
def snoc : E → (E → E) → E
  | .slet x e rest, f => .slet x e (snoc rest f)
  | .ssemi e rest, f => .ssemi e (snoc rest f)
  | _, f => f .snil

/-- Statements, one after the other. -/
def Stmts : E → Prop
  | .snil => True
  | .slet _ _ rest => Stmts rest
  | .ssemi _ rest => Stmts rest
  | _ => False

/-- No variable is declared. -/
def NoLet : E → Prop
  | .slet _ _ _ => False
  | .ssemi _ rest => NoLet rest
  | _ => True

/-- A block whose label is the target of a `break` without a value needs a tail of type `()`. -/
def WellTyped (unitBreak : Bool) (tail : Nat) : Prop := unitBreak = true → tail = 0

/-- How a loop tests its pattern. -/
inductive Form
  /-- `loop { if let p = e { first } else { break } rest }` -/
  | ifLet
  /-- `loop { let p = e else { break }; first; rest }` -/
  | letElse
  /-- `while let p = e { first; rest }` -/
  | whileLet
  deriving DecidableEq, Repr

/-- The body after the pattern matched: `left` is what the expression left, `binds` what the pattern bound. -/
def bodyOf (I : Sem) (left binds : List Item) (first rest : I.W → I.W) : Form → I.W → I.W
  | .ifLet, w => rest (dropAll I left (dropAll I binds (first w)))
  | .letElse, w => dropAll I binds (rest (first (dropAll I left w)))
  | .whileLet, w => dropAll I left (dropAll I binds (rest (first w)))

/-- The loop looks at `e`, stops if the pattern does not match, and runs its body otherwise; `none`: not
finished after so many rounds. -/
def looped (I : Sem) (ed : Edition) (f : Form) (e : E) (k : Nat) (binds : List Item) (first rest : I.W → I.W) :
    Nat → I.W → Option I.W
  | 0, _ => none
  | n + 1, w =>
    let r := ev I ed false e w
    if I.choose k r.2.2 = 0 then looped I ed f e k binds first rest n (bodyOf I r.2.1 binds first rest f r.2.2)
    else some (dropAll I r.2.1 r.2.2)

end Verif.Drops
