import Verif.Common.Sort
import Verif.Pats.RangeModel

/-!
# `match_same_arms`

Model of `clippy_lints/src/matches/match_same_arms.rs` and of `search_same` in `clippy_utils/src/lib.rs`.
Names, symbols and definitions are numbers. Guard patterns and patterns in error are left out. That two bodies
(or guards) are equal up to spans and the bindings of their arms is represented by equal numbers.
-/

namespace Verif.Pats

/-- The kind of a constructor. -/
inductive Shape | unit | tuple | record
  deriving DecidableEq, Repr

/-- A struct, or a variant of an enum. -/
structure Con where
  id : Nat
  shape : Shape
  deriving DecidableEq, Repr

/-- Literals in patterns (`LitKind`). -/
inductive Lit
  | int (n : Nat)
  | char (n : Nat)
  | byte (n : Nat)
  | str (s : Nat)
  | bytes (bs : List Nat)
  | bool (b : Bool)
  | float (f : Nat)

/-- Patterns (`PatKind`). `bind x p` is `x @ p`, and `x` if `p` is a wildcard; `wrap` is a box, deref or
reference pattern. The patterns before and after `..` are separate lists. Where a path is resolved, both the
definition the lint sees (`res`) and the constructor meant are given. -/
inductive SPat
  | wild
  | bind (x : Nat) (p : SPat)
  | wrap (p : SPat)
  | never
  | struct (res : Option Nat) (c : Con) (names : List Nat) (pats : List SPat)
  /-- `adt`: whether the type is an ADT and, if so, an enum; `n`: the number of fields. -/
  | tupleStruct (adt : Option Bool) (res : Option Nat) (c : Con) (n : Nat) (front : List SPat) (rest : Bool)
      (back : List SPat)
  | or (ps : List SPat)
  | path (res : Option Nat) (c : Con)
  /-- A path to a constant; `p` is the pattern that the value of the constant stands for. -/
  | constPath (res : Option Nat) (p : SPat)
  | tuple (n : Nat) (front : List SPat) (rest : Bool) (back : List SPat)
  | lit (l : Lit) (negated : Bool)
  | range (l r : Option PExpr) (incl : Bool)
  /-- `rest`: `..`, possibly bound to a name. -/
  | slice (front : List SPat) (rest : Option (Option Nat)) (back : List SPat)

/-- `NormalizedPat` (match_same_arms.rs:184-204). The two forms of slices are separate. -/
inductive NPat
  | wild
  | never
  | struct (res : Option Nat) (names : List Nat) (pats : List NPat)
  | tuple (res : Option Nat) (pats : List NPat)
  | or (ps : List NPat)
  | path (res : Option Nat)
  | litStr (s : Nat)
  | litBytes (bs : List Nat)
  | litInt (n : Nat)
  | litBool (b : Bool)
  | range (start fin : Nat) (incl : Bool)
  | slice (ps : List NPat)
  | sliceRest (front back : List NPat)

def u128Max : Nat := 2 ^ 128 - 1

/-- `PatRange::contains` (match_same_arms.rs:213-219). -/
def rangeContains (start fin : Nat) (incl : Bool) (x : Nat) : Bool :=
  decide (x ≥ start) && (if incl then decide (x ≤ fin) else decide (x < fin))

/-- `PatRange::overlaps` (match_same_arms.rs:221-231). -/
def rangeOverlaps (s1 e1 : Nat) (i1 : Bool) (s2 e2 : Nat) (i2 : Bool) : Bool :=
  (if i1 then decide (e1 ≥ s2) else decide (e1 > s2)) && (if i2 then decide (s1 ≤ e2) else decide (s1 < e2))

/-- The literals that `from_pat` understands (match_same_arms.rs:328-341). -/
def normLit : Lit → Bool → NPat
  | .str s, false => .litStr s
  | .bytes bs, false => .litBytes bs
  | .int n, false | .char n, false | .byte n, false => .litInt n
  | .bool b, false => .litBool b
  | _, _ => .wild

/-- The ranges that `from_pat` understands (match_same_arms.rs:342-369). -/
def normRange (l r : Option PExpr) (incl : Bool) : NPat :=
  match l, r with
  | none, none => .range 0 u128Max true
  | some (.lit s false), none => .range s u128Max true
  | none, some (.lit e false) => .range 0 e incl
  | some (.lit s false), some (.lit e false) => .range s e incl
  | _, _ => .wild

/-- `sort_by_key` on the fields (match_same_arms.rs:276). -/
def sortFields (names : List Nat) (pats : List NPat) : List (Nat × NPat) :=
  sortBy (fun a b => decide (a.1 ≤ b.1)) (names.zip pats)

/-- The patterns of a tuple, `..` expanded (match_same_arms.rs:291-301, 315-325). -/
def expand (n : Nat) (front back : List NPat) : List NPat :=
  front ++ List.replicate (n - (front.length + back.length)) .wild ++ back

mutual
/-- `NormalizedPat::from_pat` (match_same_arms.rs:263-376). -/
def norm : SPat → NPat
  | .wild => .wild
  | .bind _ p => norm p
  | .wrap p => norm p
  | .never => .never
  | .struct res _ names pats =>
    .struct res ((sortFields names (normAll pats)).map (·.1)) ((sortFields names (normAll pats)).map (·.2))
  | .tupleStruct adt res _ n front _ back =>
    match adt, res with
    | none, _ => .wild
    | some true, none => .wild
    | some true, some x => .tuple (some x) (expand n (normAll front) (normAll back))
    | some false, _ => .tuple none (expand n (normAll front) (normAll back))
  | .or ps => .or (normAll ps)
  | .path res _ => .path res
  | .constPath res _ => .path res
  | .tuple n front _ back => .tuple none (expand n (normAll front) (normAll back))
  | .lit l negated => normLit l negated
  | .range l r incl => normRange l r incl
  | .slice front none _ => .slice (normAll front)
  | .slice front (some _) back => .sliceRest (normAll front) (normAll back)

def normAll : List SPat → List NPat
  | [] => []
  | p :: ps => norm p :: normAll ps
end

/-- `iter_matching_struct_fields` (match_same_arms.rs:235-259); the first argument bounds the steps. -/
def fieldPairs : Nat → List (Nat × NPat) → List (Nat × NPat) → List (NPat × NPat)
  | 0, _, _ => []
  | fuel + 1, (a, p) :: l, (b, q) :: r =>
    if a = b then (p, q) :: fieldPairs fuel l r
    else if a < b then fieldPairs fuel l ((b, q) :: r)
    else fieldPairs fuel ((a, p) :: l) r
  | _, _, _ => []

/-- `has_overlapping_values` (match_same_arms.rs:380-436); the first argument bounds the depth. -/
def overlapsN : Nat → NPat → NPat → Bool
  | 0, _, _ => false
  | fuel + 1, a, b =>
    match a, b with
    | .wild, _ | _, .wild | .never, .never => true
    | .or ps, q => ps.any fun p => overlapsN fuel p q
    | q, .or ps => ps.any fun p => overlapsN fuel p q
    | .struct lres lns lps, .struct rres rns rps =>
      if lres ≠ rres then false
      else (fieldPairs (lns.length + rns.length) (lns.zip lps) (rns.zip rps)).all
        fun pq => overlapsN fuel pq.1 pq.2
    | .tuple lres lps, .tuple rres rps =>
      if lres ≠ rres then false else (lps.zip rps).all fun pq => overlapsN fuel pq.1 pq.2
    | .path x, .path y => x == y
    | .litStr x, .litStr y => x == y
    | .litBytes x, .litBytes y => x == y
    | .litInt x, .litInt y => x == y
    | .litBool x, .litBool y => x == y
    | .range s1 e1 i1, .range s2 e2 i2 => rangeOverlaps s1 e1 i1 s2 e2 i2
    | .range s e i, .litInt x => rangeContains s e i x
    | .litInt x, .range s e i => rangeContains s e i x
    | .slice lps, .slice rps => lps.length == rps.length && (lps.zip rps).all fun pq => overlapsN fuel pq.1 pq.2
    | .slice ps, .sliceRest front back =>
      if ps.length < front.length + back.length then false
      else ((ps.take front.length).zip front ++ (ps.drop (ps.length - back.length)).zip back).all
        fun pq => overlapsN fuel pq.1 pq.2
    | .sliceRest front back, .slice ps =>
      if ps.length < front.length + back.length then false
      else ((ps.take front.length).zip front ++ (ps.drop (ps.length - back.length)).zip back).all
        fun pq => overlapsN fuel pq.1 pq.2
    | .sliceRest lf lb, .sliceRest rf rb =>
      (lf.zip rf ++ lb.reverse.zip rb.reverse).all fun pq => overlapsN fuel pq.1 pq.2
    | .path _, .tuple _ _ | .path _, .struct _ _ _ | .tuple _ _, .path _ | .struct _ _ _, .path _ => false
    | .tuple x _, .struct y _ _ => x == y
    | .struct x _ _, .tuple y _ => x == y
    | _, _ => true

mutual
/-- The size of a pattern. -/
def NPat.size : NPat → Nat
  | .struct _ _ pats => 1 + sizeAll pats
  | .tuple _ pats => 1 + sizeAll pats
  | .or ps => 1 + sizeAll ps
  | .slice ps => 1 + sizeAll ps
  | .sliceRest front back => 1 + sizeAll front + sizeAll back
  | _ => 1

def sizeAll : List NPat → Nat
  | [] => 0
  | p :: ps => p.size + sizeAll ps
end

/-- `has_overlapping_values`, with depth enough. -/
def overlaps (a b : NPat) : Bool := overlapsN (a.size + b.size + 1) a b

/-! ## Arms -/

mutual
/-- The names bound by a pattern, of the first alternative in an or-pattern (`each_binding_or_first`, used at
match_same_arms.rs:449-454). -/
def names : SPat → List Nat
  | .bind x p => x :: names p
  | .wrap p => names p
  | .struct _ _ _ pats => namesAll pats
  | .tupleStruct _ _ _ _ front _ back => namesAll front ++ namesAll back
  | .or ps => namesFirst ps
  | .tuple _ front _ back => namesAll front ++ namesAll back
  | .slice front rest back =>
    namesAll front ++ (match rest with | some (some x) => [x] | _ => []) ++ namesAll back
  | _ => []

def namesAll : List SPat → List Nat
  | [] => []
  | p :: ps => names p ++ namesAll ps

def namesFirst : List SPat → List Nat
  | [] => []
  | p :: _ => names p
end

/-- An arm; `allowed`: the lint is allowed or expected on it. -/
structure Arm where
  pat : SPat
  guard : Option Nat
  body : Nat
  allowed : Bool

/-- `forwards_blocking_idxs[i]` (match_same_arms.rs:30-39). -/
def fwdBlock (ps : List NPat) (i : Nat) : Nat :=
  match (ps.drop (i + 1)).findIdx? (fun q => overlaps (ps.getD i .wild) q) with
  | some j => i + 1 + j
  | none => ps.length

/-- `backwards_blocking_idxs[i]` (match_same_arms.rs:41-56). -/
def backBlock (ps : List NPat) (i : Nat) : Nat :=
  (((List.range i).reverse.dropWhile (fun j => decide (fwdBlock ps j > i))).find?
    (fun j => fwdBlock ps j == i || overlaps (ps.getD i .wild) (ps.getD j .wild))).getD 0

/-- The same guard, the same body, and the same bindings (match_same_arms.rs:62-102). -/
def sameArm (a b : Arm) : Bool :=
  a.guard == b.guard && a.body == b.body && (names a.pat).all (fun x => (names b.pat).contains x) &&
    (names b.pat).all (fun x => (names a.pat).contains x)

/-- `eq` (match_same_arms.rs:58-109). -/
def eqArms (arms : List Arm) (l r : Nat) : Bool :=
  let ps := arms.map fun a => norm a.pat
  !(decide (backBlock ps (max l r) > min l r) && decide (fwdBlock ps (min l r) < max l r)) &&
    match arms[l]?, arms[r]? with
    | some a, some b => sameArm a b
    | _, _ => false

/-- One step of the loop in `search_same` (clippy_utils/src/lib.rs:2203-2216). As equal elements have equal
hashes, the buckets make no difference but for the order of the groups. -/
def addToGroup (eq : Nat → Nat → Bool) (x : Nat) : List (List Nat) → List (List Nat)
  | [] => [[x]]
  | [] :: gs => [] :: addToGroup eq x gs
  | (h :: t) :: gs => if eq x h then (h :: t ++ [x]) :: gs else (h :: t) :: addToGroup eq x gs

/-- `search_same` (clippy_utils/src/lib.rs:2190-2223) on the indices of the arms. -/
def searchSame (eq : Nat → Nat → Bool) (n : Nat) : List (List Nat) :=
  if n = 2 ∧ eq 0 1 = true then [[0, 1]]
  else if n ≤ 2 then []
  else ((List.range n).foldl (fun gs x => addToGroup eq x gs) []).filter (fun g => decide (g.length > 1))

/-- `is_wildcard_arm` (match_same_arms.rs:456-462). -/
def isWildcardArm : SPat → Bool
  | .wild => true
  | .or ps => match ps.getLast? with
    | some .wild => true
    | _ => false
  | _ => false

/-- The suggestions. -/
inductive ArmSugg
  | remove (idxs : List Nat)
  | merge (dest : Nat) (srcs group : List Nat)
  deriving DecidableEq, Repr

/-- The lint is neither allowed nor expected on an arm (match_same_arms.rs:114). -/
def isReported (arms : List Arm) (i : Nat) : Bool := match arms[i]? with
  | some a => !a.allowed
  | none => false

def isWildcardAt (arms : List Arm) (i : Nat) : Bool := match arms[i]? with
  | some a => isWildcardArm a.pat
  | none => false

/-- The suggestion for a group (match_same_arms.rs:114-172). `omittedAllowed`: whether
`non_exhaustive_omitted_patterns` is allowed. -/
def suggestGroup (omittedAllowed : Bool) (arms : List Arm) (group : List Nat) : Option ArmSugg :=
  let ps := arms.map fun a => norm a.pat
  let group := group.filter (isReported arms)
  match group.head?, group.getLast? with
  | some first, some last =>
    if group.length < 2 then none
    else if isWildcardAt arms last && omittedAllowed then
      some (.remove group.dropLast)
    else if backBlock ps last < first ∨ (backBlock ps last = 0 ∧ fwdBlock ps first ≤ last) then
      some (.merge first group.tail group)
    else some (.merge last group.dropLast group)
  | _, _ => none

/-- `check` (match_same_arms.rs:21-174): the suggestions for a match. -/
def checkSameArms (omittedAllowed : Bool) (arms : List Arm) : List ArmSugg :=
  (searchSame (eqArms arms) arms.length).filterMap (suggestGroup omittedAllowed arms)

/-- The joined patterns of a group (match_same_arms.rs:152-161). -/
def mergedPat (arms : List Arm) (group : List Nat) : SPat := .or (group.filterMap fun j => arms[j]?.map Arm.pat)

/-- What becomes of the `i`th arm (match_same_arms.rs:135-138, 158-162). -/
def applyAt (arms : List Arm) : ArmSugg → Arm × Nat → Option Arm
  | .remove idxs, (a, i) => if i ∈ idxs then none else some a
  | .merge dest srcs group, (a, i) =>
    if i ∈ srcs then none else if i = dest then some { a with pat := mergedPat arms group } else some a

/-- The match after a suggestion has been applied. -/
def applySugg (arms : List Arm) (s : ArmSugg) : List Arm := arms.zipIdx.filterMap (applyAt arms s)

end Verif.Pats
