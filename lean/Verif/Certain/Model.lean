import Verif.Certain.Syntax

/-!
# Model: `expr_type_is_certain`

`/repo/clippy_utils/src/ty/type_certainty/mod.rs` and `certainty.rs`.
-/

namespace Verif.Certain

/-- What the analysis asks the compiler. -/
structure Facts where
  /-- `adt_def_id(expr_ty(e))`. -/
  adt : Ex → Option Nat
  /-- `adt_def_id(self_ty(method))`. -/
  selfAdt : Nat → Option Nat
  /-- What a type alias stands for, if the definition is one: `Some(adt_def_id(type_of))`. -/
  alias : Nat → Option (Option Nat)
  /-- `lookup_path(ns, def_path(p) + name)` finds one definition; simplified to whether it finds the one that is meant,
  finding another one is not modelled. -/
  finds : Nat → Nat → Bool → Bool

/-- `Certainty`, `/repo/clippy_utils/src/ty/type_certainty/certainty.rs:5-16`. -/
inductive Cert where
  | uncertain
  | certain (d : Option Nat)
  | contradiction
  deriving DecidableEq

/-- `Option::<DefId>::meet`, `/repo/clippy_utils/src/ty/type_certainty/certainty.rs:26-33`. -/
def meetId : Option Nat → Option Nat → Option Nat
  | some a, some b => if a = b then some a else none
  | _, _ => none

/-- `try_join`, `/repo/clippy_utils/src/ty/type_certainty/certainty.rs:35-43`. -/
def tryJoin : Option Nat → Option Nat → Option (Option Nat)
  | some a, some b => if a = b then some (some a) else none
  | some a, none => some (some a)
  | none, some b => some (some b)
  | none, none => some none

/-- `Certainty::meet`, `/repo/clippy_utils/src/ty/type_certainty/certainty.rs:45-54`. -/
def Cert.meet : Cert → Cert → Cert
  | .uncertain, _ => .uncertain
  | .certain _, .uncertain => .uncertain
  | .certain a, .certain b => .certain (meetId a b)
  | .certain a, .contradiction => .certain a
  | .contradiction, .uncertain => .uncertain
  | .contradiction, .certain b => .certain b
  | .contradiction, .contradiction => .contradiction

/-- `try_join` or `Contradiction`. -/
def joinId (a b : Option Nat) : Cert :=
  match tryJoin a b with
  | some i => .certain i
  | none => .contradiction

/-- `Certainty::join`, `/repo/clippy_utils/src/ty/type_certainty/certainty.rs:60-77`. -/
def Cert.join : Cert → Cert → Cert
  | .contradiction, _ => .contradiction
  | .uncertain, c => c
  | .certain _, .contradiction => .contradiction
  | .certain a, .certain b => joinId a b
  | .certain a, .uncertain => .certain a

/-- `clear_def_id`, `/repo/clippy_utils/src/ty/type_certainty/certainty.rs:86-92`. -/
def Cert.clear : Cert → Cert
  | .certain _ => .certain none
  | c => c

/-- `with_def_id`, `/repo/clippy_utils/src/ty/type_certainty/certainty.rs:94-100`. -/
def Cert.withId (d : Nat) : Cert → Cert
  | .certain _ => .certain (some d)
  | c => c

/-- `if let Some(def_id) = .. { c.with_def_id(def_id) } else { .. }`, with the other one given. -/
def Cert.withOpt (d : Option Nat) (c els : Cert) : Cert :=
  match d with
  | some d => c.withId d
  | none => els

/-- `join_clearing_def_ids`, `/repo/clippy_utils/src/ty/type_certainty/certainty.rs:82-84`. -/
def Cert.joinClearing (a b : Cert) : Cert := a.clear.join b.clear

/-- `to_def_id`, `/repo/clippy_utils/src/ty/type_certainty/certainty.rs:102-107`. -/
def Cert.toId : Cert → Option Nat
  | .certain d => d
  | _ => none

/-- `is_certain`, `/repo/clippy_utils/src/ty/type_certainty/certainty.rs:109-111`. -/
def Cert.isCertain : Cert → Bool
  | .certain _ => true
  | _ => false

/-- `update_res` for a segment left to the type checker, `/repo/clippy_utils/src/ty/type_certainty/mod.rs:299-317`, and
the branch taken then: `res_generics_def_id` is asked about the old resolution, which is `Res::Err`,
`/repo/clippy_utils/src/ty/type_certainty/mod.rs:236` and `259-261`. -/
def errCert (fa : Facts) (p : Cert) (d : Nat) (toType : Bool) : Cert :=
  match p.toId with
  | some q => if fa.finds q d toType then .certain none else .uncertain
  | none => .uncertain

/-- `lhs`, `/repo/clippy_utils/src/ty/type_certainty/mod.rs:239-244`. -/
def ownCert (D : Nat → Def) (p : Cert) (d : Nat) : Cert :=
  if (p.isCertain || (D d).parents == 0) && ((D d).own == 0 && (D d).lifetimes == 0) then .certain none
  else .uncertain

/-- `with_def_id`, `/repo/clippy_utils/src/ty/type_certainty/mod.rs:250-256`. -/
def typeId (fa : Facts) (d : Nat) (c : Cert) : Cert :=
  match fa.alias d with
  | some t => c.withOpt t c
  | none => c.withId d

/-- `Res::Def`, `/repo/clippy_utils/src/ty/type_certainty/mod.rs:234-258`. -/
def defCert (D : Nat → Def) (fa : Facts) (p : Cert) (d : Nat) (args : Cert) (toType : Bool) : Cert :=
  if toType then typeId fa d ((ownCert D p d).joinClearing args)
  else (ownCert D p d).joinClearing args

mutual
/-- `type_certainty`, `/repo/clippy_utils/src/ty/type_certainty/mod.rs:157-172`. -/
def tyCert (D : Nat → Def) (fa : Facts) : HTy → Cert
  | .path s segs => segsCert D fa true (startCert D fa s) segs
  | .infer => .uncertain
  | .app _ args => visitAll D fa args (.certain none)
/-- `ty.map_or(Certainty::Uncertain, |ty| type_certainty(cx, ty))`. -/
def startCert (D : Nat → Def) (fa : Facts) : Start → Cert
  | .none => .uncertain
  | .ty h => tyCert D fa h
/-- `qpath_certainty` and `path_segment_certainty`, `/repo/clippy_utils/src/ty/type_certainty/mod.rs:185-203` and
`219-295`, without variables. -/
def segsCert (D : Nat → Def) (fa : Facts) (toType : Bool) (p : Cert) : Segs → Cert
  | .nil => p
  | .modl rest => segsCert D fa toType (.certain none) rest
  | .fixed _ rest => segsCert D fa toType (.certain none) rest
  | .unknown rest => segsCert D fa toType .uncertain rest
  | .defn err d args rest =>
    segsCert D fa toType
      (if err then errCert fa p d (!rest.isNil || toType)
       else defCert D fa p d (argsCert D fa args) (!rest.isNil || toType)) rest
/-- `args.map_or(Certainty::Uncertain, |args| generic_args_certainty(cx, args))`,
`/repo/clippy_utils/src/ty/type_certainty/mod.rs:245-247` and `174-178`. -/
def argsCert (D : Nat → Def) (fa : Facts) : Args → Cert
  | .absent => .uncertain
  | .given hs => visitAll D fa hs (.certain none)
/-- `CertaintyVisitor`, `/repo/clippy_utils/src/ty/type_certainty/mod.rs:138-155`. -/
def visit (D : Nat → Def) (fa : Facts) : HTy → Cert → Cert
  | .infer, _ => .uncertain
  | .path s segs, c =>
    if c.meet (segsCert D fa true (startCert D fa s) segs) = .uncertain then .uncertain
    else visitSegs D fa segs (visitStart D fa s (c.meet (segsCert D fa true (startCert D fa s) segs)))
  | .app _ args, c => visitAll D fa args c
/-- The type in front of a path. -/
def visitStart (D : Nat → Def) (fa : Facts) : Start → Cert → Cert
  | .none, c => c
  | .ty h, c => visit D fa h c
/-- The arguments of the segments. -/
def visitSegs (D : Nat → Def) (fa : Facts) : Segs → Cert → Cert
  | .nil, c => c
  | .modl rest, c => visitSegs D fa rest c
  | .fixed _ rest, c => visitSegs D fa rest c
  | .unknown rest, c => visitSegs D fa rest c
  | .defn _ _ args rest, c => visitSegs D fa rest (visitArgs D fa args c)
/-- The arguments of one segment. -/
def visitArgs (D : Nat → Def) (fa : Facts) : Args → Cert → Cert
  | .absent, c => c
  | .given hs, c => visitAll D fa hs c
/-- One type after the other; nothing is visited once the result is `Uncertain`. -/
def visitAll (D : Nat → Def) (fa : Facts) : HTys → Cert → Cert
  | .nil, c => c
  | .cons h hs, c => if c = .uncertain then .uncertain else visitAll D fa hs (visit D fa h c)
end

mutual
/-- `contains_param`, `/repo/clippy_utils/src/ty/type_certainty/mod.rs:356-359`. -/
def mentions (i : Nat) : Sch → Bool
  | .var j => i == j
  | .con _ ss => mentionsAny i ss
  | .proj _ s => mentions i s
/-- `inputs().iter().any(..)`, `/repo/clippy_utils/src/ty/type_certainty/mod.rs:341-344`. -/
def mentionsAny (i : Nat) : List Sch → Bool
  | [] => false
  | s :: ss => mentions i s || mentionsAny i ss
end

/-- `type_is_inferable_from_arguments`, `/repo/clippy_utils/src/ty/type_certainty/mod.rs:336-345`.  A lifetime parameter
is never found among the types; simplified to that. -/
def inferable (D : Nat → Def) (d : Nat) : Bool :=
  (D d).lifetimes == 0 && (List.range ((D d).parents + (D d).own)).all fun i => mentionsAny i (D d).inputs

/-- The binary operators, `/repo/clippy_utils/src/ty/type_certainty/mod.rs:79-87`. -/
def binCert : Cert → Cert → Cert
  | .uncertain, .certain _ => .certain none
  | .certain _, .uncertain => .certain none
  | l, r => l.meet r

/-- The definition of a call can be inferred from the arguments. -/
def inferableCall (D : Nat → Def) : Option Nat → Bool
  | some d => inferable D d
  | none => false

/-- `expr_ty` is used at the end, `/repo/clippy_utils/src/ty/type_certainty/mod.rs:116-121`. -/
def finish (fa : Facts) (e : Ex) (c : Cert) : Cert := c.withOpt (fa.adt e) c.clear

mutual
/-- `expr_type_certainty`, `/repo/clippy_utils/src/ty/type_certainty/mod.rs:33-122`; for variables `219-295`. -/
def cert (D : Nat → Def) (fa : Facts) (inArg : Bool) : Ex → Cert
  | .un op e => finish fa (.un op e) (cert D fa inArg e)
  | .field e f => finish fa (.field e f) (cert D fa inArg e)
  | .idx a i => finish fa (.idx a i) (cert D fa inArg a)
  | .addr e => finish fa (.addr e) (cert D fa inArg e)
  | .arr es => finish fa (.arr es) (joinAll D fa inArg es .uncertain)
  | .call d f es =>
    finish fa (.call d f es) ((cert D fa false f).joinClearing
      (if inferableCall D d then meetAll D fa true es (.certain none) else .uncertain))
  | .method r d args es =>
    finish fa (.method r d args es)
      ((errCert fa ((cert D fa false r).withOpt (fa.selfAdt d) (cert D fa false r)) d false).join
        (if inferable D d then
          meetAll D fa true es (Cert.meet (.certain none)
            ((cert D fa false r).withOpt (fa.selfAdt d) (cert D fa false r)))
         else .uncertain))
  | .tup es => finish fa (.tup es) (meetAll D fa inArg es (.certain none))
  | .bin op l r => finish fa (.bin op l r) (binCert (cert D fa inArg l) (cert D fa inArg r))
  | .num => finish fa .num (if inArg then .certain none else .uncertain)
  | .lit t => finish fa (.lit t) (.certain none)
  | .cast e h => finish fa (.cast e h) (tyCert D fa h)
  | .ifElse c t e => finish fa (.ifElse c t e) ((cert D fa inArg t).join (cert D fa inArg e))
  | .loc ann init => finish fa (.loc ann init) ((startCert D fa ann).join (initCert D fa init)).clear
  | .param ann => finish fa (.param ann) (startCert D fa ann).clear
  | .path s segs => finish fa (.path s segs) (segsCert D fa false (startCert D fa s) segs)
  | .strct s segs => finish fa (.strct s segs) (segsCert D fa true (startCert D fa s) segs)
  | .other => finish fa .other .uncertain
/-- The initial value of a variable, `/repo/clippy_utils/src/ty/type_certainty/mod.rs:278-280`. -/
def initCert (D : Nat → Def) (fa : Facts) : Init → Cert
  | .none => .uncertain
  | .some e => cert D fa false e
/-- `meet`, `/repo/clippy_utils/src/ty/type_certainty/certainty.rs:115-117`. -/
def meetAll (D : Nat → Def) (fa : Facts) (inArg : Bool) : Exs → Cert → Cert
  | .nil, c => c
  | .cons e es, c => meetAll D fa inArg es (c.meet (cert D fa inArg e))
/-- `join`, `/repo/clippy_utils/src/ty/type_certainty/certainty.rs:120-122`. -/
def joinAll (D : Nat → Def) (fa : Facts) (inArg : Bool) : Exs → Cert → Cert
  | .nil, c => c
  | .cons e es, c => joinAll D fa inArg es (c.join (cert D fa inArg e))
end

/-- `expr_type_is_certain`, `/repo/clippy_utils/src/ty/type_certainty/mod.rs:27-29`. -/
def isCertain (D : Nat → Def) (fa : Facts) (e : Ex) : Bool := (cert D fa false e).isCertain

end Verif.Certain
