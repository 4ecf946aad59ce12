/-!
# `manual_range_patterns`

Model of `clippy_lints/src/manual_range_patterns.rs`. Only the values of the alternatives matter, so a
span is represented by the value of the literal it covers. The test for external macros is left out.
-/

namespace Verif.Pats

def i128Max : Int := 2 ^ 127 - 1
def i128Min : Int := -2 ^ 127

/-- An expression in a pattern: an integer literal, or anything else (say, a constant), with its value. -/
inductive PExpr
  | lit (n : Nat) (negated : Bool)
  | other (v : Int)
  deriving DecidableEq, Repr

/-- One alternative of an or-pattern. `other` is any other pattern, given by the values it matches. -/
inductive Alt
  | expr (e : PExpr)
  | range (l r : Option PExpr) (incl : Bool)
  | other (m : Int → Bool)

/-- `expr_as_i128` (manual_range_patterns.rs:41-51). -/
def exprAsI128 : PExpr → Option Int
  | .lit n negated => if (n : Int) ≤ i128Max then some (if negated then -n else n) else none
  | .other _ => none

/-- `Num` (manual_range_patterns.rs:53-57); `lit` is the value of the literal at `span`, `none` for
`DUMMY_SP`. -/
structure Num where
  val : Int
  lit : Option Int
  deriving DecidableEq, Repr

/-- `Num::new` (manual_range_patterns.rs:60-65). -/
def Num.new (e : PExpr) : Option Num := (exprAsI128 e).map fun v => ⟨v, some v⟩

/-- `Num::dummy` (manual_range_patterns.rs:67-69). -/
def Num.dummy (v : Int) : Num := ⟨v, none⟩

/-- `Num::min` (manual_range_patterns.rs:71-73). -/
def Num.min (a b : Num) : Num := if a.val < b.val then a else b

/-- The local variables of `check_pat` (manual_range_patterns.rs:85-89). -/
structure St where
  min : Num
  max : Num
  incl : Bool
  numbers : List Int
  ranges : List (Int × Int)
  deriving DecidableEq, Repr

/-- Their initial values (manual_range_patterns.rs:85-89). -/
def St.init : St := ⟨.dummy i128Max, .dummy i128Min, true, [], []⟩

/-- A single number (manual_range_patterns.rs:95-101). -/
def St.addNum (s : St) (n : Num) : St :=
  { min := s.min.min n
    max := if n.val ≥ s.max.val then n else s.max
    incl := if n.val ≥ s.max.val then true else s.incl
    numbers := n.val :: s.numbers
    ranges := s.ranges }

/-- A range (manual_range_patterns.rs:106-115). The subtraction cannot overflow: `right.val` is at least
`-i128::MAX`. -/
def St.addRange (s : St) (l r : Num) (incl : Bool) : St :=
  let r := if incl then r else { r with val := r.val - 1 }
  { min := s.min.min l
    max := if r.val > s.max.val then r else s.max
    incl := if r.val > s.max.val then incl else s.incl
    numbers := s.numbers
    ranges := s.ranges ++ [(l.val, r.val)] }

/-- The body of the first loop (manual_range_patterns.rs:91-119); `none` is `return`. -/
def St.step (s : St) : Alt → Option St
  | .expr e => (Num.new e).map s.addNum
  | .range (some l) (some r) incl =>
    match Num.new l, Num.new r with
    | some l, some r => some (s.addRange l r incl)
    | _, _ => none
  | _ => none

/-- The first loop. -/
def collect : St → List Alt → Option St
  | s, [] => some s
  | s, a :: as => match s.step a with
    | some s' => collect s' as
    | none => none

/-- What the lint does. -/
inductive Outcome
  /-- suggests `lo..hi` or `lo..=hi` -/
  | lint (lo hi : Option Int) (incl : Bool)
  | silent
  /-- `num + 1` overflows an `i128`: a panic if clippy is built with overflow checks; otherwise the loop
  goes on at `i128::MIN`, which no literal or range contains, and the lint stays silent -/
  | overflow
  deriving DecidableEq, Repr

/-- `ranges_found.iter().filter(contains num).max_by_key(end)`, its end (manual_range_patterns.rs:129-132). -/
def bestEnd (ranges : List (Int × Int)) (num : Int) : Option Int :=
  ranges.foldl (fun best r =>
    if r.1 ≤ num ∧ num ≤ r.2 then
      match best with
      | some b => some (if b ≤ r.2 then r.2 else b)
      | none => some r.2
    else best) none

/-- The second loop (manual_range_patterns.rs:121-138). -/
def scan (s : St) : (fuel : Nat) → (num : Int) → Outcome
  | fuel, num =>
    if s.max.val < num then .lint s.min.lit s.max.lit s.incl
    else match fuel with
      | 0 => .silent
      | fuel + 1 =>
        if s.numbers.contains num then
          if num = i128Max then .overflow else scan s fuel (num + 1)
        else match bestEnd s.ranges num with
          | some e => if e = i128Max then .overflow else scan s fuel (e + 1)
          | none => .silent

/-- `matches!(p.kind, PatKind::Range(..))`. -/
def Alt.isRange : Alt → Bool
  | .range .. => true
  | _ => false

/-- `check_pat` on the alternatives of an or-pattern (manual_range_patterns.rs:77-161). The number of steps
of the second loop is at most `max - min + 1`. -/
def checkAlts (alts : List Alt) : Outcome :=
  if alts.length ≥ 3 || (decide (alts.length > 1) && alts.any Alt.isRange) then
    match collect .init alts with
    | some s => scan s (s.max.val - s.min.val + 1).toNat s.min.val
    | none => .silent
  else .silent

end Verif.Pats
