/-!
# Equality and hash of syntax trees

Model of `SpanlessEq` and `SpanlessHash`, /repo/clippy_utils/src/hir_utils.rs, and of `search_same`, /repo/clippy_utils/src/lib.rs:2190-2223.

A piece of HIR of any category (expression, pattern, type, path, …) is a tree `N`: a kind `K`, which holds the data which isn't a tree, and the
subtrees in the order in which `SpanlessEq` compares them. An optional subtree is a node `optNone` or `optSome`, a list of subtrees next to
other ones a node `list`.

Not modelled: macros (every node is written in the context the two sides are viewed from, so that `check_ctxt`, hir_utils.rs:924-988, answers
`None`), hence `should_ignore`; the callback `expr_fallback`; items in blocks other than constants; inline assembly beyond its never being equal.
-/

namespace Verif.HirEq

/-- Binary operators (`BinOpKind`). -/
inductive BinOp
  | add | sub | mul | div | rem | and | or | bitXor | bitAnd | bitOr | shl | shr | eq | lt | le | ne | ge | gt
deriving DecidableEq, Repr

/-- The kinds of definitions which `eq_path` and `generic_path_segments` tell apart (hir_utils.rs:842-847, 1116). -/
inductive DefKind
  | const | static | fn | tyAlias | use | mod | assocConst | assocFn | assocTy | other (n : Nat)
deriving DecidableEq, Repr

/-- What a path or a segment resolves to. -/
inductive Res
  | locl (id : Nat) | defn (kind : DefKind) (id : Nat) | err | other (n : Nat)
deriving DecidableEq, Repr

/-- A segment of a path, without its generic arguments. -/
structure Seg where
  name : Nat
  res : Res
deriving DecidableEq, Repr

/-- What the type checker and the constant evaluator know about an expression: its type, whether the type is primitive (adjusted and with
references removed, hir_utils.rs:1014-1017), and the constant `eval_local` finds, if any (hir_utils.rs:502-507, 1177-1179). -/
structure Info where
  ty : Nat
  prim : Bool
  cst : Option Nat
deriving DecidableEq, Repr

/-- Where a `match` comes from; `tryDesugar` holds the id of the scrutinee. -/
inductive MatchSrc | normal | tryDesugar (id : Nat) | other (n : Nat)
deriving DecidableEq, Repr

/-- The text of a block (hir_utils.rs:1034, 1036-1049): an empty span, only braces and comments, or anything else. -/
inductive BlockText | empty | bare | other
deriving DecidableEq, Repr

/-- The kinds of struct tails (`S { .., ..base }`, `S { .., .. }`). -/
inductive Tail | none | base | defaults
deriving DecidableEq, Repr

/-- A lifetime: its name, and its `LifetimeKind` (with the id of the parameter). -/
structure Lt where
  name : Nat
  kind : Nat
deriving DecidableEq, Repr

/-- The kinds of expressions. Labels, names and literals are numbers. -/
inductive EK
  | addrOf (kind : Nat) (mutbl : Bool)          -- [e]
  | array                                       -- es
  | assign                                      -- [l, r]
  | assignOp (op : Nat)                         -- [l, r]
  | block (label : Option Nat)                  -- [blk]
  | binary (op : BinOp)                         -- [l, r]
  | brk (label : Option Nat)                    -- [opt e]
  | call                                        -- f :: args
  | cast                                        -- [e, ty]
  | closure (capture : Nat)                     -- [body]
  | constBlock                                  -- [body]
  | cont (label : Option Nat)                   -- []
  | dropTemps                                   -- [e]
  | field (name : Nat)                          -- [e]
  | index                                       -- [a, i]
  | ifte                                        -- [c, t, opt e]
  | letE                                        -- [pat, opt ty, init]
  | lit (l : Nat)                               -- []
  | loop (label : Option Nat) (src : Nat)       -- [blk]
  | matchE (src : MatchSrc)                     -- scrutinee :: arms
  | methodCall (seg : Seg)                      -- gargs :: receiver :: args
  | unsafeBinderCast (kind : Nat)               -- [e, opt ty]
  | offsetOf (fields : List Nat)                -- [ty]
  | path                                        -- [qpath]
  | repeatE                                     -- [e, const arg]
  | ret                                         -- [opt e]
  | struct (tail : Tail)                        -- qpath :: opt base :: fields
  | tup                                         -- es
  | use                                         -- [e]
  | typeE                                       -- [e, ty]
  | unary (op : Nat)                            -- [e]
  | yield (src : Nat)                           -- [e]
  | become                                      -- [e]
  | asm                                         -- es
  | err                                         -- []
deriving DecidableEq, Repr

/-- The kinds of nodes. -/
inductive K
  | expr (i : Info) (k : EK)
  | optNone | optSome | list
  -- blocks: [list stmts, opt e]; `gaps` are the tokens between the statements
  | blk (isUnsafe : Bool) (text : BlockText) (gaps : List Nat)
  -- arms: [pat, opt guard, body]; fields of struct expressions: [e]
  | arm | efield (name : Nat)
  -- statements: `let` [opt init, opt ty, opt els, pat] with the type of the pattern, expressions [e], constants [ty, body]
  | letS (patTy : Nat) | exprS | semiS | constItem (name : Nat) (id : Nat) | otherItem
  -- patterns
  | pBox                                        -- [p]
  | pStruct (rest : Bool)                       -- qpath :: fields
  | pField (name : Nat)                         -- [p]
  | pTupleStruct (dots : Option Nat)            -- qpath :: ps
  | pBinding (mode : Nat) (id : Nat)            -- [opt p]
  | pExpr                                       -- [pLit or pPath]
  | pTuple (dots : Option Nat)                  -- ps
  | pRange (incl : Bool)                        -- [opt, opt]
  | pRef (pinned : Bool) (mutbl : Bool)         -- [p]
  | pSlice                                      -- [list before, list after, opt middle]
  | pWild
  | pOther (n : Nat)                            -- or-patterns, guards, `deref!`, never patterns
  | pLit (l : Nat) (neg : Bool)
  | pPath                                       -- [qpath]
  -- paths: [opt ty, path], [ty, gargs], and one gargs for each segment
  | qResolved | qTypeRel (seg : Seg) | path (res : Res) (segs : List Seg)
  -- generic arguments: [list args, list constraints]
  | gargs (paren : Nat)
  | gConst | gLifetime (l : Lt) | gType | gInfer
  | constraint (name : Nat) (which : Nat)       -- [ty] (0), [const] (1), bounds (2)
  -- types
  | tSlice | tArray | tPtr (mutbl : Bool) | tRef (l : Lt) (mutbl : Bool) | tPath | tTup | tInfer | tOther (n : Nat)
  -- arguments of const parameters: cStruct and cTupleCall are qpath :: args
  | cTup | cPath | cAnon | cInfer | cStruct (names : List Nat) | cTupleCall | cLit (l : Nat) (neg : Bool) | cArray | cError
deriving DecidableEq, Repr

/-- A piece of syntax. -/
inductive N
  | mk (k : K) (cs : List N)
deriving Repr

/-- The kind of a node. -/
def N.kind : N → K | .mk k _ => k
/-- The subtrees of a node. -/
def N.kids : N → List N | .mk _ cs => cs

/-- The configuration: `allow_side_effects` (hir_utils.rs:63) and `PathCheck::Resolution` (hir_utils.rs:33-52). -/
structure Cfg where
  effects : Bool
  byRes : Bool
deriving DecidableEq, Repr

/-- `SpanlessEq::new` (hir_utils.rs:70-78). -/
def Cfg.default : Cfg := ⟨true, false⟩
/-- The configuration of `eq_expr_value` (hir_utils.rs:1107-1109). -/
def Cfg.value : Cfg := ⟨false, false⟩

/-- The maps `locals` and `local_items` (hir_utils.rs:165-166); the latest entry comes first. -/
structure St where
  locals : List (Nat × Nat)
  items : List (Nat × Nat)
deriving DecidableEq, Repr

/-- `inter_expr` starts with empty maps (hir_utils.rs:111-120). -/
def St.init : St := ⟨[], []⟩

/-- The entry of a map. -/
def look {κ α : Type} [BEq κ] (m : List (κ × α)) (x : κ) : Option α := (m.find? (fun p => p.1 == x)).map Prod.snd

/-- The kind of an expression without what `eq_expr` ignores: the label of a block (hir_utils.rs:532), the ids of two `?` (hir_utils.rs:587);
the span of `yield`. The segment of a method is compared by `segEq`. -/
def EK.erase : EK → EK
  | .block _ => .block none
  | .matchE (.tryDesugar _) => .matchE (.tryDesugar 0)
  | .methodCall _ => .methodCall ⟨0, .err⟩
  | .yield _ => .yield 0
  | k => k

/-- The kind of a node without what `SpanlessEq` ignores: the facts about an expression, `unsafe` of a block (`eq_block` looks at statements,
the last expression and the tokens in between, hir_utils.rs:387-462), the id of a constant, the final `..` of a struct pattern
(hir_utils.rs:792), the names of bindings and their ids (hir_utils.rs:798-804), the name of a lifetime (hir_utils.rs:762-764), the lifetime of
a reference type (hir_utils.rs:903). The segment of a type-relative path is compared by `segEq`. -/
def K.erase : K → K
  | .expr _ k => .expr ⟨0, false, none⟩ k.erase
  | .blk _ _ g => .blk false .other g
  | .constItem n _ => .constItem n 0
  | .pStruct _ => .pStruct false
  | .pBinding m _ => .pBinding m 0
  | .qTypeRel _ => .qTypeRel ⟨0, .err⟩
  | .gLifetime l => .gLifetime ⟨0, l.kind⟩
  | .tRef _ m => .tRef ⟨0, 0⟩ m
  | k => k

/-- Kinds of expressions which are never equal: with side effects denied, assignments and calls (hir_utils.rs:526-531, 546-548, 597-600);
`become`, closures, inline assembly and errors (hir_utils.rs:549, 636-668). -/
def EK.comparable (c : Cfg) : EK → Bool
  | .assign | .assignOp _ | .call | .methodCall _ => c.effects
  | .closure _ | .become | .asm | .err => false
  | _ => true

/-- Kinds of nodes which are never equal: other items (hir_utils.rs:265), or-patterns and the like (hir_utils.rs:819), bounds
(hir_utils.rs:918-919), other types (hir_utils.rs:909), errors (hir_utils.rs:746-758). -/
def K.comparable (c : Cfg) : K → Bool
  | .expr _ k => k.comparable c
  | .otherItem | .pOther _ | .constraint _ 2 | .tOther _ | .cError => false
  | _ => true

/-- The comparison of names or resolutions in `eq_path_segment` (hir_utils.rs:886-895). -/
def segEq (c : Cfg) (l r : Seg) : Bool :=
  if c.byRes && l.res != .err && r.res != .err then l.res == r.res else l.name == r.name

/-- The comparison of the segment a kind holds, if it holds one (hir_utils.rs:598, 829). -/
def segOf : K → Option Seg
  | .expr _ (.methodCall s) => some s
  | .qTypeRel s => some s
  | _ => none

/-- Everything but the subtrees of two nodes is equal. -/
def headEq (c : Cfg) (l r : K) : Bool :=
  l.comparable c && l.erase == r.erase &&
    (match segOf l, segOf r with
     | some a, some b => segEq c a b
     | _, _ => true)

/-- `over` on subtrees (hir_utils.rs:1088-1090), with the maps threaded through. -/
def eqAll (rec : St → N → N → Bool × St) : St → List N → List N → Bool × St
  | st, [], [] => (true, st)
  | st, l :: ls, r :: rs => if (rec st l r).1 then eqAll rec (rec st l r).2 ls rs else (false, (rec st l r).2)
  | st, _, _ => (false, st)

/-- `zip(..).all(..)` without a comparison of the lengths (hir_utils.rs:712-716, 720-724). -/
def eqZip (rec : St → N → N → Bool × St) : St → List N → List N → Bool × St
  | st, l :: ls, r :: rs => if (rec st l r).1 then eqZip rec (rec st l r).2 ls rs else (false, (rec st l r).2)
  | st, _, _ => (true, st)

/-- How many segments `generic_path_segments` keeps (hir_utils.rs:1114-1125). -/
def genericTail (segs : List Seg) : Option Nat :=
  match segs.getLast? with
  | none => none
  | some s =>
    match s.res with
    | .defn .assocConst _ | .defn .assocFn _ | .defn .assocTy _ => if segs.length < 2 then none else some 2
    | .err => none
    | _ => some 1

/-- The last `k` elements. -/
def lastN {α : Type} (k : Nat) (l : List α) : List α := l.drop (l.length - k)

/-- `over` on the names or resolutions of segments. -/
def segsEq (c : Cfg) : List Seg → List Seg → Bool
  | [], [] => true
  | l :: ls, r :: rs => segEq c l r && segsEq c ls rs
  | _, _ => false

/-- `eq_path_segments` (hir_utils.rs:863-879). Names are compared before the arguments, which only matters for the entries a failed
comparison leaves in the maps. -/
def eqSegs (c : Cfg) (rec : St → N → N → Bool × St) (st : St) (ls : List Seg) (lcs : List N) (rs : List Seg) (rcs : List N) : Bool × St :=
  match c.byRes, genericTail ls, genericTail rs with
  | true, some k, some j =>
    if segsEq c (lastN k ls) (lastN j rs) then eqAll rec st (lastN k lcs) (lastN j rcs) else (false, st)
  | _, _, _ => if segsEq c ls rs then eqAll rec st lcs rcs else (false, st)

/-- The definitions whose ids are compared (hir_utils.rs:842-847). -/
def DefKind.checked : DefKind → Bool
  | .const | .static | .fn | .tyAlias | .use | .mod => true
  | _ => false

/-- Whether `eq_path` goes on to the segments of paths which aren't local variables (hir_utils.rs:839-851). -/
def resOk (st : St) : Res → Res → Bool
  | .locl _, _ | _, .locl _ => false
  | .defn lk l, .defn rk r => if lk == rk && lk.checked then l == r || look st.items l == some r else true
  | _, _ => true

/-- `eq_path` (hir_utils.rs:835-852). -/
def eqPath (c : Cfg) (rec : St → N → N → Bool × St) (st : St) (lres rres : Res) (ls : List Seg) (lcs : List N) (rs : List Seg)
    (rcs : List N) : Bool × St :=
  match lres, rres with
  | .locl l, .locl r => (l == r || look st.locals l == some r, st)
  | _, _ => if resOk st lres rres then eqSegs c rec st ls lcs rs rcs else (false, st)

/-- `swap_binop` (hir_utils.rs:990-1021): the operator with its operands exchanged; `prim` is whether the type of the left operand is
primitive. -/
def swapOp (prim : Bool) : BinOp → Option BinOp
  | .eq => some .eq
  | .ne => some .ne
  | .lt => some .gt
  | .le => some .ge
  | .ge => some .le
  | .gt => some .lt
  | .shl | .shr | .rem | .sub | .div => none
  | op => if prim then some op else none

/-- Whether the type of an expression is primitive. -/
def N.prim : N → Bool
  | .mk (.expr i _) _ => i.prim
  | _ => false

/-- `reduce_exprkind` (hir_utils.rs:1026-1072): `{}` is `()`, and `{ return .. }` is `return ..`. -/
def reduce : N → N
  | .mk (.expr i (.block lbl)) [.mk (.blk u t g) [.mk .list [], .mk .optNone []]] =>
    if t = .other then .mk (.expr i (.block lbl)) [.mk (.blk u t g) [.mk .list [], .mk .optNone []]] else .mk (.expr i .tup) []
  | .mk (.expr i (.block _)) [.mk (.blk _ _ _) [.mk .list [], .mk .optSome [.mk (.expr _ .ret) cs]]] => .mk (.expr i .ret) cs
  | .mk (.expr i (.block _)) [.mk (.blk _ _ _) [.mk .list [.mk .exprS [.mk (.expr _ .ret) cs]], .mk .optNone []]] => .mk (.expr i .ret) cs
  | .mk (.expr i (.block _)) [.mk (.blk _ _ _) [.mk .list [.mk .semiS [.mk (.expr _ .ret) cs]], .mk .optNone []]] => .mk (.expr i .ret) cs
  | e => e

/-- The two expressions have the same type and are the same constant (hir_utils.rs:500-510). -/
def sameConst : N → N → Bool
  | .mk (.expr l _) _, .mk (.expr r _) _ => l.ty == r.ty && l.cst.isSome && l.cst == r.cst
  | _, _ => false

/-- The operands of a binary operation. -/
def binOf : N → Option (BinOp × N × N)
  | .mk (.expr _ (.binary op)) [l, r] => some (op, l, r)
  | _ => none

/-- The resolution and the segments of a path. -/
def pathOf : N → Option (Res × List Seg × List N)
  | .mk (.path res segs) cs => some (res, segs, cs)
  | _ => none

/-- The arms of `eq_const_arg` which compare a zipped list (hir_utils.rs:710-724): the kind, the path and the arguments. -/
def zipOf : N → Option (Bool × N × List N)
  | .mk (.cStruct _) (q :: cs) => some (true, q, cs)
  | .mk .cTupleCall (q :: cs) => some (false, q, cs)
  | _ => none

/-- The binding a pattern declares, or the constant a statement declares: the maps after two such nodes have been found equal
(hir_utils.rs:800-802, 267-269). -/
def declare (st : St) : K → K → St
  | .pBinding _ l, .pBinding _ r => { st with locals := (l, r) :: st.locals }
  | .constItem _ l, .constItem _ r => { st with items := (l, r) :: st.items }
  | _, _ => st

/-- The comparison of nodes which are neither binary operations, paths nor zipped lists: equal data, then equal subtrees. -/
def eqPlain (c : Cfg) (rec : St → N → N → Bool × St) (st : St) (l r : N) : Bool × St :=
  if headEq c l.kind r.kind then
    if (eqAll rec st l.kids r.kids).1 then (true, declare (eqAll rec st l.kids r.kids).2 l.kind r.kind)
    else (false, (eqAll rec st l.kids r.kids).2)
  else (false, st)

/-- Binary operations (hir_utils.rs:533-538). -/
def eqBin (rec : St → N → N → Bool × St) (st : St) (lo : BinOp) (ll lr : N) (ro : BinOp) (rl rr : N) : Bool × St :=
  let a := if lo = ro then eqAll rec st [ll, lr] [rl, rr] else (false, st)
  if a.1 then a else
    if swapOp ll.prim lo = some ro then eqAll rec a.2 [lr, ll] [rl, rr] else a

/-- One step of the comparison, with `rec` for the subtrees. -/
def eqNode (c : Cfg) (rec : St → N → N → Bool × St) (st : St) (l r : N) : Bool × St :=
  match binOf l, binOf r with
  | some (lo, ll, lr), some (ro, rl, rr) => eqBin rec st lo ll lr ro rl rr
  | _, _ =>
    match pathOf l, pathOf r with
    | some (lres, ls, lcs), some (rres, rs, rcs) => eqPath c rec st lres rres ls lcs rs rcs
    | _, _ =>
      match zipOf l, zipOf r with
      | some (lb, lq, lcs), some (rb, rq, rcs) =>
        if lb = rb then
          if (rec st lq rq).1 then eqZip rec (rec st lq rq).2 lcs rcs else (false, (rec st lq rq).2)
        else (false, st)
      | _, _ => eqPlain c rec st l r

/-- `eq_expr` (hir_utils.rs:497-682), `eq_stmt` (177-205), `eq_item` (207-271), `eq_block` (387-462), `eq_pat` (789-821), `eq_qpath` (823-833),
`eq_path` (835-852), `eq_ty` (898-911), `eq_const_arg` (702-760), `eq_generic_arg` (692-700) and the other comparisons. The first argument
bounds the depth; every answer `true` is one of the program. -/
def eqN (c : Cfg) : Nat → St → N → N → Bool × St
  | 0, st, _, _ => (false, st)
  | n + 1, st, l, r =>
    if sameConst l r then (true, st) else eqNode c (eqN c n) st (reduce l) (reduce r)

/-- The two pieces are equal. -/
def Equal (c : Cfg) (l r : N) : Prop := ∃ n, (eqN c n St.init l r).1 = true

/-- What is fed to the hasher. -/
inductive Tok
  | cst (c : Option Nat) | disc (n : Nat) | name (n : Nat) | num (n : Nat) | flag (b : Bool) | res (r : Res) | opt (o : Option Nat)
deriving DecidableEq, Repr

/-- The discriminants of the kinds of expressions. -/
def EK.tag : EK → Nat
  | .addrOf .. => 0 | .array => 1 | .assign => 2 | .assignOp _ => 3 | .block _ => 4 | .binary _ => 5 | .brk _ => 6 | .call => 7 | .cast => 8
  | .closure _ => 9 | .constBlock => 10 | .cont _ => 11 | .dropTemps => 12 | .field _ => 13 | .index => 14 | .ifte => 15 | .letE => 16
  | .lit _ => 17 | .loop .. => 18 | .matchE _ => 19 | .methodCall _ => 20 | .unsafeBinderCast _ => 21 | .offsetOf _ => 22 | .path => 23
  | .repeatE => 24 | .ret => 25 | .struct _ => 26 | .tup => 27 | .use => 28 | .typeE => 29 | .unary _ => 30 | .yield _ => 31 | .become => 32
  | .asm => 33 | .err => 34

/-- The discriminants of binary operators. -/
def BinOp.tag : BinOp → Nat
  | .add => 0 | .sub => 1 | .mul => 2 | .div => 3 | .rem => 4 | .and => 5 | .or => 6 | .bitXor => 7 | .bitAnd => 8 | .bitOr => 9 | .shl => 10
  | .shr => 11 | .eq => 12 | .lt => 13 | .le => 14 | .ne => 15 | .ge => 16 | .gt => 17

/-- The hash of an optional label (hir_utils.rs:1195-1197, 1223-1225, 1313-1315). -/
def labelToks : Option Nat → List Tok
  | none => []
  | some n => [.name n]

/-- The arms of `hash_expr` (hir_utils.rs:1189-1405); `hs` are the hashes of the subtrees. -/
def hashE (k : EK) (hs : List (List Tok)) : List Tok :=
  match k with
  | .addrOf kind m => [.num kind, .flag m] ++ hs.flatten
  | .cont l => labelToks l
  | .assignOp op => .num op :: hs.flatten
  | .binary op => .num op.tag :: hs.flatten
  | .brk l => labelToks l ++ hs.flatten
  | .closure cl => .num cl :: hs.flatten
  | .field n => hs.flatten ++ [.name n]
  | .letE => match hs with
    | [p, t, i] => i ++ t ++ p
    | _ => []
  | .lit l => [.num l]
  | .loop l _ => hs.flatten ++ labelToks l
  | .methodCall s => .name s.name :: (hs.drop 1).flatten
  | .offsetOf fs => hs.flatten ++ fs.map .name
  | .struct _ => match hs with
    | q :: b :: fs => q ++ fs.flatten ++ b
    | _ => []
  | .unary op => .num op :: hs.flatten
  | .unsafeBinderCast k => .num k :: hs.flatten
  | _ => hs.flatten

/-- The hash of the segments of a path: names and arguments alternate (hir_utils.rs:1548-1551). -/
def hashSegs : List Seg → List (List Tok) → List Tok
  | s :: ss, h :: hs => .name s.name :: h ++ hashSegs ss hs
  | _, _ => []

/-- `hash_path` (hir_utils.rs:1532-1555). -/
def hashPath (c : Cfg) (res : Res) (segs : List Seg) (hs : List (List Tok)) : List Tok :=
  match res with
  | .locl _ => [.num 1]
  | _ =>
    match c.byRes, genericTail segs, segs.getLast? with
    | true, some k, some s => (lastN k hs).flatten ++ [.res s.res]
    | _, _, _ => hashSegs segs hs

/-- `hash_lifetime` (hir_utils.rs:1583-1589). -/
def hashLt (l : Lt) : List Tok := [.name l.name, .num l.kind]

/-- What a node feeds to the hasher, given the hashes of its subtrees: `hash_expr` (hir_utils.rs:1176-1406), `hash_block` (1163-1173),
`hash_stmt` (1563-1581), `hash_qpath` (1418-1427), `hash_pat_expr` (1429-1438), `hash_pat` (1456-1530), `hash_ty` (1591-1663),
`hash_const_arg` (1672-1704), `hash_generic_args` (1706-1715). -/
def hashK (c : Cfg) (k : K) (hs : List (List Tok)) : List Tok :=
  match k with
  | .expr i k => .cst i.cst :: (if i.cst.isSome then [] else .disc k.tag :: hashE k hs)
  | .blk u _ _ => hs.flatten ++ [.flag u]
  | .efield n => .name n :: hs.flatten
  | .letS _ => match hs with
    | [i, _, e, p] => .disc 0 :: (p ++ i ++ e)
    | _ => []
  | .exprS => .disc 1 :: hs.flatten
  | .semiS => .disc 2 :: hs.flatten
  | .constItem _ _ | .otherItem => [.disc 3]
  | .pBox => .disc 10 :: hs.flatten
  | .pStruct rest => .disc 11 :: hs.flatten ++ [.flag rest]
  | .pField n => .name n :: hs.flatten
  | .pTupleStruct d => .disc 12 :: hs.flatten ++ [.opt d]
  | .pBinding m _ => .disc 13 :: .num m :: hs.flatten
  | .pExpr => .disc 14 :: hs.flatten
  | .pTuple d => .disc 15 :: hs.flatten ++ [.opt d]
  | .pRange i => .disc 16 :: hs.flatten ++ [.flag i]
  | .pRef p m => .disc 17 :: hs.flatten ++ [.flag p, .flag m]
  | .pSlice => match hs with
    | [b, a, m] => .disc 18 :: (b ++ m ++ a)
    | _ => []
  | .pWild => [.disc 19]
  | .pOther n => .disc (20 + n) :: hs.flatten
  | .pLit l n => [.disc 0, .num l, .flag n]
  | .pPath => .disc 1 :: hs.flatten
  | .qResolved => match hs with
    | [_, p] => p
    | _ => []
  | .qTypeRel s => [.name s.name]
  | .path res segs => hashPath c res segs hs
  | .gargs _ => match hs with
    | [a, _] => a
    | _ => []
  | .gLifetime l => hashLt l
  | .gInfer => [.disc 36]
  | .tSlice => .disc 30 :: hs.flatten
  | .tArray => .disc 31 :: hs.flatten
  | .tPtr m => .disc 32 :: hs.flatten ++ [.flag m]
  | .tRef l m => .disc 33 :: hashLt l ++ hs.flatten ++ [.flag m]
  | .tPath => .disc 34 :: hs.flatten
  | .tTup => .disc 35 :: hs.flatten
  | .tInfer => [.disc 36]
  | .tOther n => .disc (37 + n) :: hs.flatten
  | .cLit l n => [.num l, .flag n]
  | _ => hs.flatten

mutual
/-- Everything `hash_expr` and the other methods feed to the hasher. -/
def hashN (c : Cfg) : N → List Tok
  | .mk k cs => hashK c k (hashL c cs)
/-- The hashes of subtrees. -/
def hashL (c : Cfg) : List N → List (List Tok)
  | [] => []
  | n :: ns => hashN c n :: hashL c ns
end

/-! ### `search_same` -/

/-- The place where an expression goes (lib.rs:2206-2210): the first group of its bucket whose first element equals it, or a new group. -/
def intoBucket {α : Type} (eq : α → α → Bool) (e : α) : List (List α) → List (List α)
  | [] => [[e]]
  | g :: gs => if g.head?.any (eq e) then (g ++ [e]) :: gs else g :: intoBucket eq e gs

/-- The entry of an expression in the buckets (lib.rs:2204-2215). -/
def insertBucket {α : Type} (hash : α → Nat) (eq : α → α → Bool) (e : α) : List (Nat × List (List α)) → List (Nat × List (List α))
  | [] => [(hash e, [[e]])]
  | (h, b) :: bs => if h = hash e then (h, intoBucket eq e b) :: bs else (h, b) :: insertBucket hash eq e bs

/-- `search_same` (/repo/clippy_utils/src/lib.rs:2190-2223). The buckets are kept in the order of their creation; the order in which the
program walks through them isn't specified. -/
def searchSame {α : Type} (hash : α → Nat) (eq : α → α → Bool) (es : List α) : List (List α) :=
  match es with
  | [] | [_] => []
  | [a, b] => if eq a b then [[a, b]] else []
  | es => ((es.foldl (fun bs e => insertBucket hash eq e bs) []).flatMap Prod.snd).filter (fun g => g.length > 1)

end Verif.HirEq
