import Verif.HirEq.Spec

/-!
# Values of expressions

A specification, independent of the comparison: the value of an expression without side effects. The values and the operations on them are
arbitrary (`Interp`). `none` means that the expression has no value: it panics, jumps away, doesn't terminate, or contains something which isn't
covered here (calls, assignments, loops, closures, struct expressions, `return`, slice patterns, generic arguments, items in blocks other than
constants, `let` in a longer condition; constants as patterns and type aliases in casts).

The types the type checker infers are assumed not to matter beyond the syntax.
-/

namespace Verif.HirEq

/-- What a pattern other than `_` and a binding tests. -/
inductive PatHead
  | lit (l : Nat) (neg : Bool)
  | path (p : List Nat)
  | tuple (dots : Option Nat) (n : Nat)
  | tupleStruct (p : List Nat) (dots : Option Nat) (n : Nat)
  | struct (p : List Nat) (fields : List Nat)
  | ref (pinned mutbl : Bool)
  | box
deriving DecidableEq, Repr

/-- Values and operations. -/
structure Interp (α : Type) where
  /-- literals -/
  lit : Nat → Option α
  /-- what isn't a variable, constant, static or function, such as a unit variant, given by the names of the path -/
  item : List Nat → Option α
  /-- the kind of the constant, static, function, … some names denote -/
  kind : List Nat → Option DefKind
  un : Nat → α → Option α
  /-- binary operators which evaluate both operands -/
  bin : BinOp → α → α → Option α
  ref : Nat → Bool → α → Option α
  tup : List α → Option α
  array : List α → Option α
  field : Nat → α → Option α
  index : α → α → Option α
  cast : List Nat → α → Option α
  asBool : α → Option Bool
  ofBool : Bool → α
  /-- what a binding of the given mode (`ref`, `mut`, …) holds -/
  bindAs : Nat → α → Option α
  /-- the test of a pattern: `some none` if it fails, otherwise the values for the patterns inside -/
  split : PatHead → α → Option (Option (List α))
  /-- the value of a constant of a type -/
  cval : Nat → Nat → α

/-- A variable, or a constant, static or function. -/
inductive Key
  | var (x : Nat)
  | item (x : Nat)
deriving DecidableEq, Repr

/-- The values of variables and items. -/
abbrev Env (α : Type) := List (Key × α)

/-- Whether a node holds no generic arguments. -/
def noArgs : N → Bool
  | .mk (.gargs _) [.mk .list [], .mk .list []] => true
  | _ => false

/-- The constant, static, function, alias or module a path denotes. -/
def Res.item : Res → Option (DefKind × Nat)
  | .defn k x =>
    match k with
    | .const | .static | .fn | .tyAlias | .use | .mod => some (k, x)
    | _ => none
  | _ => none

/-- What a path denotes: a variable or an item. -/
def Res.key : Res → Option Key
  | .locl x => some (.var x)
  | r => r.item.map (fun p => .item p.2)

/-- The names of a path without generic arguments which is neither a variable nor one of these items. -/
def pathKey : N → Option (List Nat)
  | .mk .qResolved [.mk .optNone [], .mk (.path res segs) cs] =>
    if res.key = none then
      if cs.all noArgs then some (segs.map Seg.name) else none
    else none
  | _ => none

/-- The variable or item a path without generic arguments denotes. -/
def localOf : N → Option Key
  | .mk .qResolved [.mk .optNone [], .mk (.path res _) cs] => if cs.all noArgs then res.key else none
  | _ => none

/-- The type of a cast, if it is a path. -/
def castTarget : N → Option (List Nat)
  | .mk .tPath [q] => pathKey q
  | _ => none

/-- The name and the pattern of a field pattern. -/
def fieldPat : N → Option (Nat × N)
  | .mk (.pField n) [p] => some (n, p)
  | _ => none

/-- All results of a partial function. -/
def allSome {α β : Type} (f : α → Option β) : List α → Option (List β)
  | [] => some []
  | x :: xs => do
    let y ← f x
    let ys ← allSome f xs
    some (y :: ys)

/-- The test of a pattern, and the patterns inside. -/
def patHead : N → Option (PatHead × List N)
  | .mk .pExpr [.mk (.pLit l neg) []] => some (.lit l neg, [])
  | .mk .pExpr [.mk .pPath [q]] => (pathKey q).map (fun p => (.path p, []))
  | .mk (.pTuple d) ps => some (.tuple d ps.length, ps)
  | .mk (.pTupleStruct d) (q :: ps) => (pathKey q).map (fun p => (.tupleStruct p d ps.length, ps))
  | .mk (.pStruct _) (q :: fs) => do
    let p ← pathKey q
    let ps ← allSome fieldPat fs
    some (.struct p (ps.map Prod.fst), ps.map Prod.snd)
  | .mk (.pRef a b) [p] => some (.ref a b, [p])
  | .mk .pBox [p] => some (.box, [p])
  | _ => none

/-- Patterns against values, one by one. -/
def matchAll {α : Type} (m : N → α → Option (Option (Env α))) : List N → List α → Option (Option (Env α))
  | [], [] => some (some [])
  | p :: ps, v :: vs => do
    let r ← m p v
    match r with
    | none => some none
    | some bs => do
      let rs ← matchAll m ps vs
      some (rs.map (bs ++ ·))
  | _, _ => none

/-- A pattern against a value: `some none` if it doesn't match, otherwise what the bindings hold. -/
def matchPat {α : Type} (I : Interp α) : Nat → N → α → Option (Option (Env α))
  | 0, _, _ => none
  | n + 1, p, v =>
    match p with
    | .mk .pWild _ => some (some [])
    | .mk (.pBinding mode id) [.mk .optNone []] => do
      let u ← I.bindAs mode v
      some (some [(.var id, u)])
    | .mk (.pBinding mode id) [.mk .optSome [q]] => do
      let u ← I.bindAs mode v
      let r ← matchPat I n q v
      some (r.map ((.var id, u) :: ·))
    | p => do
      let h ← patHead p
      let r ← I.split h.1 v
      match r with
      | none => some none
      | some vs => matchAll (matchPat I n) h.2 vs

/-- A condition: an expression, or `let pat = init`, which adds variables if it holds. -/
def cond {α : Type} (I : Interp α) (n : Nat) (ev : Env α → N → Option α) (ρ : Env α) : N → Option (Bool × Env α)
  | .mk (.expr _ .letE) [p, _, i] => do
    let v ← ev ρ i
    let r ← matchPat I n p v
    match r with
    | none => some (false, ρ)
    | some bs => some (true, bs ++ ρ)
  | c => do
    let v ← ev ρ c
    let b ← I.asBool v
    some (b, ρ)

/-- The variables after some statements. A refuted `let` has no value here: the `else` block jumps away. -/
def evalStmts {α : Type} (I : Interp α) (n : Nat) (ev : Env α → N → Option α) : Env α → List N → Option (Env α)
  | ρ, [] => some ρ
  | ρ, .mk (.letS _) [.mk .optSome [i], _, _, p] :: ss => do
    let v ← ev ρ i
    let r ← matchPat I n p v
    match r with
    | none => none
    | some bs => evalStmts I n ev (bs ++ ρ) ss
  | ρ, .mk .exprS [e] :: ss => do
    let _ ← ev ρ e
    evalStmts I n ev ρ ss
  | ρ, .mk .semiS [e] :: ss => do
    let _ ← ev ρ e
    evalStmts I n ev ρ ss
  | ρ, .mk (.constItem _ x) [_, b] :: ss => do
    let v ← ev ρ b
    evalStmts I n ev ((.item x, v) :: ρ) ss
  | _, _ => none

/-- The arms of a `match` on a value. -/
def evalArms {α : Type} (I : Interp α) (n : Nat) (ev : Env α → N → Option α) (ρ : Env α) (v : α) : List N → Option α
  | .mk .arm [p, g, b] :: arms => do
    let r ← matchPat I n p v
    match r with
    | none => evalArms I n ev ρ v arms
    | some bs =>
      match g with
      | .mk .optNone [] => ev (bs ++ ρ) b
      | .mk .optSome [g] => do
        let c ← cond I n ev (bs ++ ρ) g
        if c.1 then ev c.2 b else evalArms I n ev ρ v arms
      | _ => none
  | _ => none

/-- Expressions whose value is an operation on the values of all subexpressions. -/
def strictOp {α : Type} (I : Interp α) : EK → List α → Option α
  | .unary op, [v] => I.un op v
  | .addrOf k m, [v] => I.ref k m v
  | .field f, [v] => I.field f v
  | .index, [a, i] => I.index a i
  | .dropTemps, [v] => some v
  | .tup, vs => I.tup vs
  | .array, vs => I.array vs
  | _, _ => none

/-- The value of a binary operation; `&&` and `||` evaluate the right operand only if it matters. -/
def evalBin {α : Type} (I : Interp α) (ev : N → Option α) (op : BinOp) (a b : N) : Option α :=
  match op with
  | .and => do
    let x ← (← ev a) |> I.asBool
    if x then do
      let y ← (← ev b) |> I.asBool
      some (I.ofBool y)
    else some (I.ofBool false)
  | .or => do
    let x ← (← ev a) |> I.asBool
    if x then some (I.ofBool true)
    else do
      let y ← (← ev b) |> I.asBool
      some (I.ofBool y)
  | op => do
    let v ← ev a
    let w ← ev b
    I.bin op v w

/-- The value of an expression. The first argument bounds the depth. -/
def eval {α : Type} (I : Interp α) : Nat → Env α → N → Option α
  | 0, _, _ => none
  | n + 1, ρ, e =>
    match e with
    | .mk (.expr _ (.lit l)) [] => I.lit l
    | .mk (.expr _ .path) [q] =>
      match localOf q with
      | some x => look ρ x
      | none => (pathKey q).bind I.item
    | .mk (.expr _ (.binary op)) [a, b] => evalBin I (eval I n ρ) op a b
    | .mk (.expr _ .cast) [e, t] => do
      let v ← eval I n ρ e
      let p ← castTarget t
      I.cast p v
    | .mk (.expr _ (.block _)) [.mk (.blk _ _ _) [.mk .list ss, .mk .optNone []]] => do
      let _ ← evalStmts I n (eval I n) ρ ss
      I.tup []
    | .mk (.expr _ (.block _)) [.mk (.blk _ _ _) [.mk .list ss, .mk .optSome [e]]] => do
      let ρ' ← evalStmts I n (eval I n) ρ ss
      eval I n ρ' e
    | .mk (.expr _ .ifte) [c, t, o] => do
      let x ← cond I n (eval I n) ρ c
      if x.1 then eval I n x.2 t
      else match o with
        | .mk .optNone [] => I.tup []
        | .mk .optSome [e] => eval I n ρ e
        | _ => none
    | .mk (.expr _ (.matchE _)) (s :: arms) => do
      let v ← eval I n ρ s
      evalArms I n (eval I n) ρ v arms
    | .mk (.expr _ k) cs => do
      let vs ← allSome (eval I n ρ) cs
      strictOp I k vs
    | _ => none

/-- What a node declares. -/
def K.binder : K → List Key
  | .pBinding _ x => [.var x]
  | .constItem _ x => [.item x]
  | _ => []

mutual
/-- The variables and constants declared in a piece of syntax. -/
def binders : N → List Key
  | .mk k cs => k.binder ++ bindersL cs
/-- The variables and constants declared in several pieces. -/
def bindersL : List N → List Key
  | [] => []
  | n :: ns => binders n ++ bindersL ns
end

/-- Comparisons are symmetric: `a == b` is `b == a`, `a != b` is `b != a`, `a < b` is `b > a` and `a <= b` is `b >= a`. -/
def Lawful {α : Type} (I : Interp α) : Prop :=
  ∀ a b, I.bin .eq a b = I.bin .eq b a ∧ I.bin .ne a b = I.bin .ne b a ∧ I.bin .lt a b = I.bin .gt b a ∧ I.bin .le a b = I.bin .ge b a

/-- What is known about an expression is right: its constant is its value, no constant is known about `let pat = init`, and if the type of the
left operand of `+`, `*`, `&`, `^` or `|` is primitive, the operands may be exchanged. Names which are written the same way denote things of
the same kind. -/
def okHere {α : Type} (I : Interp α) : N → Prop
  | .mk (.expr i k) cs =>
    (∀ c, i.cst = some c → ∀ n ρ v, eval I n ρ (.mk (.expr i k) cs) = some v → v = I.cval i.ty c) ∧
    (k = .letE → i.cst = none) ∧
    (∀ op a b, k = .binary op → cs = [a, b] → a.prim = true → op ∈ [.add, .mul, .bitAnd, .bitXor, .bitOr] →
      ∀ n m ρ ρ' v w, eval I n ρ a = some v → eval I m ρ' b = some w → I.bin op v w = I.bin op w v)
  | .mk (.path res segs) _ => (∀ x, res ≠ .locl x) → res.item.map Prod.fst = I.kind (segs.map Seg.name)
  | _ => True

/-- What is known about all subexpressions is right. -/
def Ok {α : Type} (I : Interp α) (e : N) : Prop := ∀ s ∈ subs e, okHere I s

/-- Variables and constants are declared once, not in both expressions, and have no value before. -/
structure Fresh {α : Type} (ρ ρ' : Env α) (ls rs : List N) : Prop where
  left : (bindersL ls).Nodup
  right : (bindersL rs).Nodup
  both : ∀ x ∈ bindersL ls, x ∉ bindersL rs
  leftNew : ∀ x ∈ bindersL ls, look ρ x = none ∧ look ρ' x = none
  rightNew : ∀ x ∈ bindersL rs, look ρ x = none ∧ look ρ' x = none

end Verif.HirEq
