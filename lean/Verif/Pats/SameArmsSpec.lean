import Verif.Pats.SameArmsModel
import Verif.Pats.RangeProps

/-!
# What a `match` does

Specification for C38, independent of the lint: which bindings a pattern gives for a value, and which arm runs.
-/

namespace Verif.Pats

/-- Values. Integers, bytes and characters are `int`; the fields of a tuple struct have the names 0, 1, .. -/
inductive Val
  | int (x : Int)
  | bool (b : Bool)
  | str (s : Nat)
  | float (f : Nat)
  | slice (vs : List Val)
  | tuple (vs : List Val)
  | adt (c : Con) (fs : List (Nat × Val))

/-- A value without fields. -/
def Val.Scalar : Val → Prop
  | .tuple _ | .adt _ _ => False
  | _ => True

/-- The bindings made by a pattern. -/
abbrev Env := List (Nat × Val)

/-- Bindings of two patterns together. -/
def cross (l r : List Env) : List Env := l.flatMap fun e => r.map fun e' => e ++ e'

/-- One empty binding if `b` holds. -/
def when (b : Bool) : List Env := if b then [[]] else []

/-- A literal pattern. -/
def litMatches : Lit → Bool → Val → Bool
  | .int n, neg, .int x | .char n, neg, .int x | .byte n, neg, .int x => x == if neg then -(n : Int) else n
  | .str s, false, .str s' => s == s'
  | .bytes bs, false, .slice vs => vs.length == bs.length && (vs.zip bs).all fun
    | (.int x, b) => x == b
    | _ => false
  | .bool b, false, .bool b' => b == b'
  | .float f, _, .float f' => f == f'
  | _, _, _ => false

/-- A range pattern (every integer, byte and character is at most `u128::MAX`). -/
def rangeMatches (l r : Option PExpr) (incl : Bool) : Val → Bool
  | .int x => decide (x ≤ u128Max) &&
    (match l with | none => true | some e => decide (e.value ≤ x)) &&
    (match r with | none => true | some e => if incl then decide (x ≤ e.value) else decide (x < e.value))
  | _ => false

mutual
/-- All ways in which a pattern matches a value, in the order they are tried. -/
def binds : SPat → Val → List Env
  | .wild, _ => [[]]
  | .bind x p, v => (binds p v).map fun e => (x, v) :: e
  | .wrap p, v => binds p v
  | .never, _ => []
  | .struct _ c names pats, v => match v with
    | .adt c' fs => if c = c' then bindsFields names pats fs else []
    | _ => []
  | .tupleStruct _ _ c n front rest back, v => match v with
    | .adt c' fs =>
      if c = c' ∧ fs.length = n then
        (if rest then
          if front.length + back.length ≤ n then
            cross (bindsAll front ((fs.map (·.2)).take front.length))
              (bindsAll back ((fs.map (·.2)).drop (n - back.length)))
          else []
        else cross (bindsAll front (fs.map (·.2))) (bindsAll back []))
      else []
    | _ => []
  | .or ps, v => bindsAny ps v
  | .path _ c, v => match v with
    | .adt c' fs => when (decide (c = c') && fs.isEmpty)
    | _ => []
  | .constPath _ p, v => binds p v
  | .tuple n front rest back, v => match v with
    | .tuple vs =>
      if vs.length = n then
        (if rest then
          if front.length + back.length ≤ n then
            cross (bindsAll front (vs.take front.length)) (bindsAll back (vs.drop (n - back.length)))
          else []
        else cross (bindsAll front vs) (bindsAll back []))
      else []
    | _ => []
  | .lit l negated, v => when (litMatches l negated v)
  | .range l r incl, v => when (rangeMatches l r incl v)
  | .slice front rest back, v => match v with
    | .slice vs =>
      (match rest with
      | none => cross (bindsAll front vs) (bindsAll back [])
      | some b =>
        if front.length + back.length ≤ vs.length then
          cross (bindsAll front (vs.take front.length))
            (cross [match b with
                | some x => [(x, .slice ((vs.drop front.length).take (vs.length - back.length - front.length)))]
                | none => []]
              (bindsAll back (vs.drop (vs.length - back.length))))
        else [])
    | _ => []

def bindsAll : List SPat → List Val → List Env
  | [], [] => [[]]
  | p :: ps, v :: vs => cross (binds p v) (bindsAll ps vs)
  | _, _ => []

def bindsAny : List SPat → Val → List Env
  | [], _ => []
  | p :: ps, v => binds p v ++ bindsAny ps v

def bindsFields : List Nat → List SPat → List (Nat × Val) → List Env
  | n :: ns, p :: ps, fs => match fs.lookup n with
    | some v => cross (binds p v) (bindsFields ns ps fs)
    | none => []
  | [], [], _ => [[]]
  | _, _, _ => []
end

/-- The pattern matches the value. -/
def Matches (p : SPat) (v : Val) : Prop := binds p v ≠ []

/-- What an arm gives for a value: its body and the bindings, unless it does not match or its guard fails for
all bindings. `G` is the meaning of the guards. -/
def fire (G : Nat → Env → Bool) (a : Arm) (v : Val) : Option (Nat × Env) :=
  ((binds a.pat v).find? fun e => match a.guard with | some g => G g e | none => true).map fun e => (a.body, e)

/-- What the match gives: the first arm that gives something. -/
def runMatch (G : Nat → Env → Bool) (arms : List Arm) (v : Val) : Option (Nat × Env) :=
  arms.findSome? fun a => fire G a v

/-- Not `..0`. -/
def PlainRange : Option PExpr → Option PExpr → Bool → Prop
  | none, some (.lit n false), false => n ≠ 0
  | _, _, _ => True

mutual
/-- `F` and `K` name the constructors and scalar constants in a match, and every pattern uses those names:
no constructor or constant has two names, struct patterns are only used for structs and variants with named
fields, and constants are scalars. Further, no range is `..0`, and the alternatives of an or-pattern bind the
same names. -/
def Plain (F : Con → Option Nat) (K : Val → Option Nat) : SPat → Prop
  | .wild | .never | .lit _ _ => True
  | .range l r incl => PlainRange l r incl
  | .bind _ p => Plain F K p
  | .wrap p => Plain F K p
  | .struct res c _ pats => c.shape = .record ∧ F c = res ∧ PlainAll F K pats
  | .tupleStruct adt res c _ front _ back => c.shape = .tuple ∧ (adt = some true → F c = res) ∧
      (adt = some false → F c = none) ∧ PlainAll F K front ∧ PlainAll F K back
  | .or ps => (∀ p ∈ ps, ∀ x, x ∈ names p ↔ x ∈ namesFirst ps) ∧ PlainAll F K ps
  | .path res c => c.shape = .unit ∧ F c = res
  | .constPath res p => ∀ v, ∀ e ∈ binds p v, e = [] ∧ v.Scalar ∧ K v = res
  | .tuple _ front _ back => PlainAll F K front ∧ PlainAll F K back
  | .slice front _ back => PlainAll F K front ∧ PlainAll F K back

def PlainAll (F : Con → Option Nat) (K : Val → Option Nat) : List SPat → Prop
  | [] => True
  | p :: ps => Plain F K p ∧ PlainAll F K ps
end

end Verif.Pats
