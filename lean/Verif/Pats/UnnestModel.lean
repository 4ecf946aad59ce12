/-!
# `unnested_or_patterns`

Model of `/repo/clippy_lints/src/unnested_or_patterns.rs` and of `eq_pat` in
`/repo/clippy_utils/src/ast_utils/mod.rs`.
-/

namespace Verif.Unnest

/-- Patterns without sub-patterns that are compared by their text: expressions, paths, macro calls, ranges with
both ends or only an upper end, and ranges `a..` without an upper end. -/
inductive Leaf
  | expr | path | mac | range | rangeFrom
deriving DecidableEq, Repr

/-- `box p`, `deref!(p)`, `&p` and `&mut p`. -/
inductive Wrap
  | box | deref | ref | refMut
deriving DecidableEq, Repr

/-- `ast::PatKind`. Names, paths and the text of leaves are numbers. Pinned references (`&pin mut p`) and guard
patterns are left out; `Missing` and `Err` do not reach the lint. A binding mode is a number, `BindingMode::MUT`
is 1. A struct pattern has a list of (field name, `is_shorthand`) and a list of patterns of the same length;
`dots` says whether it ends with `..`. -/
inductive APat
  | wild
  | rest
  | never
  | ident (mode x : Nat)
  | leaf (k : Leaf) (id : Nat)
  | bind (mode x : Nat) (p : APat)
  | paren (p : APat)
  | wrap (w : Wrap) (p : APat)
  | slice (ps : List APat)
  | tuple (ps : List APat)
  | tupleStruct (path : Nat) (ps : List APat)
  | struct (path : Nat) (fs : List (Nat × Bool)) (pats : List APat) (dots : Bool)
  | or (ps : List APat)
deriving Repr

/-- A pattern without the parentheses around it. -/
def APat.strip : APat → APat
  | .paren p => p.strip
  | p => p

/-- `Pat::is_rest` of the compiler, used at unnested_or_patterns.rs:451. -/
def APat.isRest : APat → Bool
  | .rest => true
  | _ => false

mutual
/-- `eq_pat`, ast_utils/mod.rs:34-67. `Never` and `Deref` are not equal to anything. The parentheses of the right
pattern are removed before it is looked at (lines 38-39). -/
def eqPat : APat → APat → Bool
  | .paren l, r => eqPat l r
  | .wild, r => match r.strip with
    | .wild => true
    | _ => false
  | .rest, r => match r.strip with
    | .rest => true
    | _ => false
  | .never, _ => false
  | .ident m x, r => match r.strip with
    | .ident m' x' => m == m' && x == x'
    | _ => false
  | .leaf k i, r => match r.strip with
    | .leaf k' i' => k == k' && i == i'
    | _ => false
  | .bind m x l, r => match r.strip with
    | .bind m' x' r => m == m' && x == x' && eqPat l r
    | _ => false
  | .wrap w l, r => match r.strip with
    | .wrap w' r => w == w' && w != .deref && eqPat l r
    | _ => false
  | .slice ls, r => match r.strip with
    | .slice rs => eqAll ls rs
    | _ => false
  | .tuple ls, r => match r.strip with
    | .tuple rs => eqAll ls rs
    | _ => false
  | .tupleStruct p ls, r => match r.strip with
    | .tupleStruct p' rs => p == p' && eqAll ls rs
    | _ => false
  | .struct p lf ls d, r => match r.strip with
    | .struct p' rf rs d' => d == d' && p == p' && lf.length == rf.length && eqFields lf ls rf rs
    | _ => false
  | .or ls, r => match r.strip with
    | .or rs => ls.length == rs.length && eqCover ls rs
    | _ => false
termination_by structural l => l

/-- `over(l, r, eq_pat)`, clippy_utils/src/hir_utils.rs:1088-1090. -/
def eqAll : List APat → List APat → Bool
  | [], [] => true
  | l :: ls, r :: rs => eqPat l r && eqAll ls rs
  | _, _ => false

/-- The second half of `unordered_over(l, r, eq_pat)`, ast_utils/mod.rs:26-28. -/
def eqCover : List APat → List APat → Bool
  | [], _ => true
  | l :: ls, rs => rs.any (fun r => eqPat l r) && eqCover ls rs

/-- The second half of `unordered_over(l, r, eq_field_pat)`, ast_utils/mod.rs:26-28 and 79-84; placeholders and attributes
are left out. -/
def eqFields : List (Nat × Bool) → List APat → List (Nat × Bool) → List APat → Bool
  | f :: fs, l :: ls, rf, rs =>
    ((rf.map (·.1)).zip rs).any (fun b => f.1 == b.1 && eqPat l b.2) && eqFields fs ls rf rs
  | _, _, _, _ => true
end

/-- `eq_pre_post`, unnested_or_patterns.rs:449-454. -/
def eqPrePost (ps1 ps2 : List APat) (idx : Nat) : Bool :=
  ps1.length == ps2.length &&
  (ps1.getD idx .wild).isRest == (ps2.getD idx .wild).isRest &&
  eqAll (ps1.take idx) (ps2.take idx) && eqAll (ps1.drop (idx + 1)) (ps2.drop (idx + 1))

/-- The target in `extend_with_tail_or` when the tail is not empty, unnested_or_patterns.rs:395-414. -/
def extendTarget (t : APat) (tail : List APat) : APat :=
  match t with
  | .or ps => .or (ps ++ tail)
  | t => .or (t :: tail)

/-- `drain_matching` restricted to `alternatives[start..]`, unnested_or_patterns.rs:418-436: the alternatives that
stay and the patterns extracted from the others. -/
def drain (extract : APat → Option APat) (after : List APat) : List APat × List APat :=
  (after.filter (fun q => (extract q).isNone), after.filterMap extract)

/-- The loop `(0..targets.len()).any(..)` of `extend_with_matching_product` (unnested_or_patterns.rs:364-380) and
of `extend_with_struct_pat` (:317-357): the first index with something to extract. -/
def extendProduct (extract : Nat → APat → Option APat) (ps after : List APat) : Option (List APat × List APat) :=
  match (List.range ps.length).find? (fun idx => !(drain (extract idx) after).2.isEmpty) with
  | some idx =>
    some (ps.set idx (extendTarget (ps.getD idx .wild) (drain (extract idx) after).2), (drain (extract idx) after).1)
  | none => none

/-- `Deref`, `Box` and `&mut`, unnested_or_patterns.rs:251-272: the sub-pattern of a pattern with the same head. -/
def extractWrap (w : Wrap) : APat → Option APat
  | .wrap w' p => if w = w' then some p else none
  | _ => none

/-- `b @ p`, unnested_or_patterns.rs:273-279. -/
def extractBind (m x : Nat) : APat → Option APat
  | .bind m' x' p => if m = m' ∧ x = x' then some p else none
  | _ => none

/-- `[..]`, unnested_or_patterns.rs:280-285. -/
def extractSlice (ps1 : List APat) (idx : Nat) : APat → Option APat
  | .slice ps2 => if eqPrePost ps1 ps2 idx then ps2[idx]? else none
  | _ => none

/-- `(..)`, unnested_or_patterns.rs:286-291. -/
def extractTuple (ps1 : List APat) (idx : Nat) : APat → Option APat
  | .tuple ps2 => if eqPrePost ps1 ps2 idx then ps2[idx]? else none
  | _ => none

/-- `S(..)`, unnested_or_patterns.rs:292-302. -/
def extractTupleStruct (path1 : Nat) (ps1 : List APat) (idx : Nat) : APat → Option APat
  | .tupleStruct path2 ps2 => if path1 = path2 ∧ eqPrePost ps1 ps2 idx = true then ps2[idx]? else none
  | _ => none

/-- The position of the field in the other pattern, unnested_or_patterns.rs:340-344. -/
def fieldPos (f1 : Nat × Bool) (fs2 : List (Nat × Bool)) : Option Nat :=
  fs2.findIdx? (fun f2 => !(f1.2 && f2.2) && f1.1 == f2.1)

/-- The fields other than `idx` occur in the other pattern, unnested_or_patterns.rs:348. -/
def otherFields (fs1 : List (Nat × Bool)) (ps1 : List APat) (idx : Nat) (fs2 : List (Nat × Bool))
    (ps2 : List APat) : Bool :=
  eqFields (fs1.take idx) (ps1.take idx) fs2 ps2 && eqFields (fs1.drop (idx + 1)) (ps1.drop (idx + 1)) fs2 ps2

/-- `S { .. }`, the predicate and the extraction in `extend_with_struct_pat`, unnested_or_patterns.rs:330-353. -/
def extractStruct (path1 : Nat) (fs1 : List (Nat × Bool)) (ps1 : List APat) (dots1 : Bool) (idx : Nat) :
    APat → Option APat
  | .struct path2 fs2 ps2 dots2 =>
    if dots1 = dots2 ∧ path1 = path2 ∧ fs1.length = fs2.length ∧ otherFields fs1 ps1 idx fs2 ps2 = true then
      match fieldPos (fs1.getD idx (0, false)) fs2 with
      | some pos => ps2[pos]?
      | none => none
    else none
  | _ => none

/-- A focus with one sub-pattern: `extend_with_matching`, unnested_or_patterns.rs:438-446. -/
def extendSingle (mk : APat → APat) (t : APat) (extract : APat → Option APat) (after : List APat) :
    APat × List APat × Bool :=
  if (drain extract after).2.isEmpty then (mk t, after, false)
  else (mk (extendTarget t (drain extract after).2), (drain extract after).1, true)

/-- A focus with several sub-patterns. -/
def extendMany (mk : List APat → APat) (ps : List APat) (extract : Nat → APat → Option APat) (after : List APat) :
    APat × List APat × Bool :=
  match extendProduct extract ps after with
  | some (ps', kept) => (mk ps', kept, true)
  | none => (mk ps, after, false)

/-- `transform_with_focus_on_idx`, unnested_or_patterns.rs:230-311, given the focus and the alternatives after it:
the new focus, the remaining alternatives after it and whether something changed. -/
def transform (focus : APat) (after : List APat) : APat × List APat × Bool :=
  match focus with
  | .wrap .deref t => extendSingle (.wrap .deref) t (extractWrap .deref) after
  | .wrap .box t => extendSingle (.wrap .box) t (extractWrap .box) after
  | .wrap .refMut t => extendSingle (.wrap .refMut) t (extractWrap .refMut) after
  | .bind m x t => extendSingle (.bind m x) t (extractBind m x) after
  | .slice ps => extendMany .slice ps (extractSlice ps) after
  | .tuple ps => extendMany .tuple ps (extractTuple ps) after
  | .tupleStruct path ps => extendMany (.tupleStruct path) ps (extractTupleStruct path ps) after
  | .struct path fs ps dots =>
    extendMany (fun ps => .struct path fs ps dots) ps (extractStruct path fs ps dots) after
  | p => (p, after, false)

/-- The loop over `focus_idx`, unnested_or_patterns.rs:197-201. The number bounds the alternatives left. -/
def focusLoop : Nat → List APat → List APat × Bool
  | n + 1, focus :: after =>
    let t := transform focus after
    let r := focusLoop n t.2.1
    (t.1 :: r.1, t.2.2 || r.2)
  | _, alts => (alts, false)

mutual
/-- The alternatives that replace one alternative, unnested_or_patterns.rs:182-194: nested or-patterns are spliced in
and looked at again. -/
def flat : APat → List APat
  | .or ps => flatAll ps
  | p => [p]

/-- The loop over the alternatives. -/
def flatAll : List APat → List APat
  | [] => []
  | p :: ps => flat p ++ flatAll ps
end

/-- An or-pattern. -/
def APat.isOr : APat → Bool
  | .or _ => true
  | _ => false

/-- `walk_pat` of the compiler: visits the sub-patterns. -/
def walk (f : APat → APat × Bool) : APat → APat × Bool
  | .bind m x p => (.bind m x (f p).1, (f p).2)
  | .paren p => (.paren (f p).1, (f p).2)
  | .wrap w p => (.wrap w (f p).1, (f p).2)
  | .slice ps => (.slice (ps.map fun p => (f p).1), ps.any fun p => (f p).2)
  | .tuple ps => (.tuple (ps.map fun p => (f p).1), ps.any fun p => (f p).2)
  | .tupleStruct q ps => (.tupleStruct q (ps.map fun p => (f p).1), ps.any fun p => (f p).2)
  | .struct q fs ps d => (.struct q fs (ps.map fun p => (f p).1) d, ps.any fun p => (f p).2)
  | .or ps => (.or (ps.map fun p => (f p).1), ps.any fun p => (f p).2)
  | p => (p, false)

/-- One level of `visit_pat` on the alternatives of an or-pattern, unnested_or_patterns.rs:182-202. -/
def level (alts : List APat) : List APat × Bool :=
  let r := focusLoop (flatAll alts).length (flatAll alts)
  (r.1, alts.any APat.isOr || r.2)

/-- `visit_pat` of `unnest_or_patterns`, unnested_or_patterns.rs:175-207, with a bound on the depth of the recursion.
The second component is what is added to `changed`. -/
def visit : Nat → APat → APat × Bool
  | 0, p => (p, false)
  | n + 1, p =>
    let w := walk (visit n) p
    match w.1 with
    | .or alts =>
      let l := level alts
      if l.2 then
        let w2 := walk (visit n) (.or l.1)
        (w2.1, true)
      else (.or l.1, w.2)
    | q => (q, w.2)

mutual
/-- The number of nodes of a pattern. -/
def APat.size : APat → Nat
  | .bind _ _ p | .paren p | .wrap _ p => p.size + 1
  | .slice ps | .tuple ps | .tupleStruct _ ps | .struct _ _ ps _ | .or ps => sizeAll ps + 1
  | _ => 1

/-- The nodes of all patterns of a list. -/
def sizeAll : List APat → Nat
  | [] => 0
  | p :: ps => p.size + sizeAll ps
end

mutual
/-- `remove_all_parens` below the top, unnested_or_patterns.rs:121-141. -/
def removeParens : APat → APat
  | .paren p => removeParens p
  | .bind m x p => .bind m x (removeParens p)
  | .wrap w p => .wrap w (removeParens p)
  | .slice ps => .slice (removeParensAll ps)
  | .tuple ps => .tuple (removeParensAll ps)
  | .tupleStruct q ps => .tupleStruct q (removeParensAll ps)
  | .struct q fs ps d => .struct q fs (removeParensAll ps) d
  | .or ps => .or (removeParensAll ps)
  | p => p

/-- The same for the elements of a list. -/
def removeParensAll : List APat → List APat
  | [] => []
  | p :: ps => removeParens p :: removeParensAll ps
end

/-- `remove_all_parens`: the outermost parentheses stay, unnested_or_patterns.rs:124-126. -/
def removeAllParens : APat → APat
  | .paren p => .paren (removeParens p)
  | p => removeParens p

/-- The parentheses put around the operand of `i @`, `box`, `&` and `&mut`, unnested_or_patterns.rs:151-157. -/
def parenOr : APat → APat
  | .or ps => if 1 < ps.length then .paren (.or ps) else .or ps
  | p => p

/-- The parentheses put around the operand of `&`, unnested_or_patterns.rs:151-159: also `&(mut x)`. -/
def parenRef : APat → APat
  | .ident 1 x => .paren (.ident 1 x)
  | .bind 1 x p => .paren (.bind 1 x p)
  | p => parenOr p

/-- The operand of `box`, `deref!`, `&` or `&mut`. -/
def parenWrap : Wrap → APat → APat
  | .box, p => parenOr p
  | .deref, p => p
  | .ref, p => parenRef p
  | .refMut, p => parenOr p

mutual
/-- `insert_necessary_parens`, unnested_or_patterns.rs:144-166. -/
def insertParens : APat → APat
  | .paren p => .paren (insertParens p)
  | .bind m x p => .bind m x (parenOr (insertParens p))
  | .wrap w p => .wrap w (parenWrap w (insertParens p))
  | .slice ps => .slice (insertParensAll ps)
  | .tuple ps => .tuple (insertParensAll ps)
  | .tupleStruct q ps => .tupleStruct q (insertParensAll ps)
  | .struct q fs ps d => .struct q fs (insertParensAll ps) d
  | .or ps => .or (insertParensAll ps)
  | p => p

/-- The same for the elements of a list. -/
def insertParensAll : List APat → List APat
  | [] => []
  | p :: ps => insertParens p :: insertParensAll ps
end

/-- `lint_unnested_or_patterns`, unnested_or_patterns.rs:93-118: the suggested pattern, if the lint fires. The early
return for leaf patterns (lines 94-97) changes nothing, because nothing is changed in them. -/
def suggest (p : APat) : Option APat :=
  let q := removeAllParens p
  let r := visit q.size q
  if r.2 then some (insertParens r.1) else none

end Verif.Unnest
