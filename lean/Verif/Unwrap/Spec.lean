import Verif.Unwrap.Model

/-!
# What the code does

All executions of an expression, with an event for each call of `unwrap`. What isn't known (calls, literals, what is written through a mutable
reference) is arbitrary. A mutable borrow changes the place at once: the borrow checker keeps the place from being read before the last change
through the reference. A dereferenced reference is the value behind it.
-/

namespace Verif.Unwrap

/-- Values: `variant` is an `Option` or `Result`, `true` for `Some` and `Ok`. -/
inductive V
  | bool (b : Bool)
  | variant (good : Bool) (payload : Nat)
  | struct (fields : List V)
  | other (n : Nat)

/-- The value at some fields. -/
def V.get : List Nat → V → Option V
  | [], v => some v
  | i :: p, .struct fs => (fs[i]?).bind (V.get p)
  | _ :: _, _ => none

/-- A value is written at some fields. -/
def V.put (w : V) : List Nat → V → V
  | [], _ => w
  | i :: p, .struct fs => match fs[i]? with
    | some v => .struct (fs.set i (V.put w p v))
    | none => .struct fs
  | _ :: _, v => v

/-- The variables. -/
abbrev Store := Nat → V

/-- The value at a place. -/
def Store.get (σ : Store) (p : Base × List Nat) : Option V := (σ p.1.id).get p.2

/-- A value is written at a place. -/
def Store.put (σ : Store) (p : Base × List Nat) (w : V) : Store := fun x => if x = p.1.id then w.put p.2 (σ x) else σ x

/-- A call of `unwrap`: which one, and whether it returned; otherwise it panicked. -/
structure Ev where
  id : Nat
  ok : Bool
deriving DecidableEq, Repr

/-- How an evaluation ends: with a value, with a jump, or not normally (panic, or cut off at some depth). -/
inductive Out
  | val (v : V) | jump | halt

/-- The possible outcomes of a computation. -/
abbrev M := Store → Out → Store → List Ev → Prop

/-- A result, nothing else. -/
def ret (v : V) : M := fun σ o σ' t => o = .val v ∧ σ' = σ ∧ t = []

/-- An arbitrary result. -/
def any : M := fun σ o σ' t => (∃ v, o = .val v) ∧ σ' = σ ∧ t = []

/-- One computation after the other. -/
def andThen (m : M) (f : V → M) : M := fun σ o σ' t =>
  (∃ v σ1 t1 t2, m σ (.val v) σ1 t1 ∧ f v σ1 o σ' t2 ∧ t = t1 ++ t2) ∨ ((∀ v, o ≠ .val v) ∧ m σ o σ' t)

/-- An arbitrary value at a place. -/
def havoc (p : Base × List Nat) : M := fun σ o σ' t => (∃ v, o = .val v) ∧ (∃ w, σ' = σ.put p w) ∧ t = []

/-- Arbitrary values at several places. -/
def havocs : List (Base × List Nat) → M
  | [] => any
  | p :: ps => andThen (havoc p) (fun _ => havocs ps)

/-- `as_mut` of `Option` and `Result` on a place: the payload may change. -/
def havocPayload (p : Base × List Nat) : M := fun σ o σ' t =>
  ∃ g n n', σ.get p = some (.variant g n) ∧ σ' = σ.put p (.variant g n') ∧ o = .val (.variant g n') ∧ t = []

/-- Whether a method wants `Some` or `Ok`, or else `Err`. -/
def Meth.wants : Meth → Bool
  | .unwrap => true
  | .expect => true
  | .unwrapErr => false

/-- All executions up to a depth. -/
def eval : Nat → E → M
  | 0, _ => fun σ o σ' t => o = .halt ∧ σ' = σ ∧ t = []
  | n + 1, e => match e with
    | .blank => any
    | .var b => fun σ o σ' t => ret (σ b.id) σ o σ' t
    | .field e i => andThen (eval n e) fun v => match v.get [i] with
      | some w => ret w
      | none => fun _ _ _ _ => False
    | .check _ pos e => andThen (eval n e) fun v => match v with
      | .variant g _ => ret (.bool (g == pos))
      | _ => fun _ _ _ _ => False
    | .unwrap id m e a => andThen (eval n e) fun v => andThen (eval n a) fun _ => match v with
      | .variant g _ => fun σ o σ' t => σ' = σ ∧ t = [⟨id, g == m.wants⟩] ∧ (if g = m.wants then ∃ w, o = .val w else o = .halt)
      | _ => fun _ _ _ _ => False
    | .asRef e => eval n e
    | .asMut std e => match placeOf e with
      | some p => if std then havocPayload p else havoc p
      | none => andThen (eval n e) fun v => if std then ret v else any
    | .borrowMut e => match placeOf e with
      | some p => havoc p
      | none => andThen (eval n e) fun _ => any
    | .assign l r => match placeOf l with
      | some p => andThen (eval n r) fun v => fun σ o σ' t => (∃ w, o = .val w) ∧ σ' = σ.put p v ∧ t = []
      | none => andThen (eval n r) fun _ => andThen (eval n l) fun _ => any
    | .not e => andThen (eval n e) fun v => match v with
      | .bool b => ret (.bool (!b))
      | _ => fun _ _ _ _ => False
    | .bin op a b => andThen (eval n a) fun v => match op, v with
      | .and, .bool x => if x then eval n b else ret (.bool false)
      | .or, .bool x => if x then ret (.bool true) else eval n b
      | .bitAnd true, .bool x => andThen (eval n b) fun w => match w with
        | .bool y => ret (.bool (x && y))
        | _ => fun _ _ _ _ => False
      | .bitOr true, .bool x => andThen (eval n b) fun w => match w with
        | .bool y => ret (.bool (x || y))
        | _ => fun _ _ _ _ => False
      | .other, _ | .bitAnd false, _ | .bitOr false, _ => andThen (eval n b) fun _ => any
      | _, _ => fun _ _ _ _ => False
    | .ite c t e => andThen (eval n c) fun v => match v with
      | .bool b => if b then eval n t else eval n e
      | _ => fun _ _ _ _ => False
    | .seq a b => andThen (eval n a) fun _ => eval n b
    | .alt a b => fun σ o σ' t => eval n a σ o σ' t ∨ eval n b σ o σ' t
    | .loop b => fun σ o σ' t =>
      andThen (eval n b) (fun _ => eval n (.loop b)) σ o σ' t ∨
      ∃ σ1 t1, eval n b σ .jump σ1 t1 ∧ (
        (o = .jump ∧ σ' = σ1 ∧ t = t1) ∨ ((∃ v, o = .val v) ∧ σ' = σ1 ∧ t = t1) ∨
        ∃ t2, eval n (.loop b) σ1 o σ' t2 ∧ t = t1 ++ t2)
    | .jump => fun σ o σ' t => o = .jump ∧ σ' = σ ∧ t = []
    | .closure ms => havocs ms

/-- The calls of `unwrap` in an expression. -/
def E.ids : E → List Nat
  | .blank | .var _ | .jump | .closure _ => []
  | .field e _ | .check _ _ e | .asRef e | .not e | .loop e | .asMut _ e | .borrowMut e => e.ids
  | .unwrap id _ a b => id :: a.ids ++ b.ids
  | .bin _ a b | .seq a b | .alt a b | .assign a b => a.ids ++ b.ids
  | .ite c t e => c.ids ++ t.ids ++ e.ids

/-- Whether an operator isn't overloaded. -/
def Op.std : Op → Bool
  | .bitAnd s | .bitOr s => s
  | _ => true

/-- All calls of `as_mut` are those of `Option` and `Result`, and `&` and `|` are those of `bool`, as far as they look so. -/
def E.std : E → Bool
  | .blank | .var _ | .jump | .closure _ => true
  | .field e _ | .check _ _ e | .asRef e | .not e | .loop e | .borrowMut e => e.std
  | .asMut s e => s && e.std
  | .bin op a b => op.std && a.std && b.std
  | .unwrap _ _ a b | .seq a b | .alt a b | .assign a b => a.std && b.std
  | .ite c t e => c.std && t.std && e.std

/-- Whether `if let pat = x` takes the first branch for a value of `x`. -/
def Pat.matches (p : Pat) : V → Bool
  | .variant g _ => g == p.success
  | _ => false

/-- Whether the check returns `true` for a value. -/
def Info.checkOn (u : Info) : V → Bool
  | .variant g _ => g == u.pos
  | _ => false

end Verif.Unwrap
