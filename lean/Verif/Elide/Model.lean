import Verif.Elide.Syntax

/-!
# Model: the lifetimes that could be elided

`clippy_lints/src/lifetimes.rs`.  Bodies are the lifetimes they mention, spans of parameters are
positions in the list of parameters and commas.  Not modelled: macros (`eq_ctxt`,
`is_from_proc_macro`), the message, `async` functions (which get no suggestion), the lints about
lifetimes that are not used and about lifetimes of `impl` blocks, except for the deletion of their
parameters.
-/

namespace Verif.Elide

/-- The visitor (clippy_lints/src/lifetimes.rs:461-466). -/
structure V where
  lts : List Lt
  nested : List Lt
  flag : Bool
  deriving DecidableEq, Repr

/-- clippy_lints/src/lifetimes.rs:469-476 -/
def V.new : V := ⟨[], [], false⟩

/-- clippy_lints/src/lifetimes.rs:478-484 -/
def V.all (v : V) : List Lt := v.lts ++ v.nested

/-- `visit_lifetime`, `visit_poly_trait_ref` and `visit_ty`
(clippy_lints/src/lifetimes.rs:491-530): a function pointer and an `Fn` bound are visited by a
visitor of their own, of which only the lifetimes are kept; the lifetime of a trait object is not
visited. -/
def visit : Ty Lt → V → V
  | .con _, v => v
  | .lt l, v => { v with lts := v.lts ++ [l] }
  | .ref l t, v => visit t { v with lts := v.lts ++ [l] }
  | .app t u, v => visit u (visit t v)
  | .site t, v => { v with nested := v.nested ++ (visit t V.new).all }
  | .dyn l t, v => visit t { v with flag := v.flag || l.isSome }

/-- `walk_unambig_ty` with the visitor, which does not use its `visit_ty` for the outermost type
(as called in clippy_lints/src/lifetimes.rs:542). -/
def walk : Ty Lt → V → V
  | .site t, v => visit t v
  | .dyn l t, v => visit t { v with lts := v.lts ++ [l.getD .anon] }
  | .con _, v => v
  | .lt l, v => { v with lts := v.lts ++ [l] }
  | .ref l t, v => visit t { v with lts := v.lts ++ [l] }
  | .app t u, v => visit u (visit t v)

/-- `named_lifetime` (clippy_lints/src/lifetimes.rs:454-459). -/
def named : Lt → Option Id
  | .named a => some a
  | _ => none

/-- `matches!(lt.kind, LifetimeKind::Param(_))`, which is also what a lifetime that is not written
is lowered to (clippy_lints/src/lifetimes.rs:243). -/
def isParam : Lt → Bool
  | .static => false
  | _ => true

/-- One step of `has_where_lifetimes` (clippy_lints/src/lifetimes.rs:536-561). -/
def whereLt : Pred → Bool
  | .region _ _ => true
  | .bound t binders b _ =>
    let v := walk t V.new
    !v.all.isEmpty ||
      (visit b v).all.any (fun l => match named l with
        | some a => !binders.contains a
        | none => false)

/-- The bounds behind a type parameter (clippy_lints/src/lifetimes.rs:234-267).  The lifetimes that
are arguments of the trait are among those that the visitor has seen. -/
def boundLt : Pred → Bool
  | .region _ _ => false
  | .bound _ _ b clause => !clause && (visit b V.new).lts.any isParam

/-- One lifetime more in the table (clippy_lints/src/lifetimes.rs:441-448). -/
def count (a : Id) : List (Id × Nat) → List (Id × Nat)
  | [] => [(a, 1)]
  | (b, n) :: ps => if b == a then (b, n + 1) :: ps else (b, n) :: count a ps

/-- `named_lifetime_occurrences` (clippy_lints/src/lifetimes.rs:437-452). -/
def occurrences (ls : List Lt) : List (Id × Nat) :=
  ls.foldl (fun os l => match named l with
    | some a => count a os
    | none => os) []

/-- `non_elidable_self_type` (clippy_lints/src/lifetimes.rs:418-432). -/
def oldReceiver (s : Sig) : Bool :=
  match s.inputs with
  | [] => false
  | t :: _ => s.oldSelf && !(visit t V.new).all.isEmpty

/-- The lifetimes that occur once and whose elision leaves no doubt
(clippy_lints/src/lifetimes.rs:382-393). -/
def pick (ins outs : List Lt) : List Id :=
  (occurrences ins).filterMap (fun p =>
    if p.2 == 1 && (ins.length == 1 || !outs.any (fun l => named l == some p.1)) then some p.1 else none)

/-- `could_use_elision` (clippy_lints/src/lifetimes.rs:294-402). -/
def couldElide (s : Sig) : Option (List Id) :=
  let iv := s.inputs.foldl (fun v t => visit t v) V.new
  let ov := visit s.output V.new
  if iv.flag || ov.flag then none
  else if oldReceiver s then none
  else if s.body.any (fun l => (named l).isSome) then none
  else if (iv.lts ++ ov.lts).any (fun l => match named l with
      | some a => !s.params.contains a
      | none => false) then none
  else if (iv.nested ++ ov.nested).any (fun l => match named l with
      | some a => s.params.contains a
      | none => false) then none
  else
    let es := pick iv.lts ov.lts
    if es.isEmpty then none else some es

/-- `check_fn_inner` (clippy_lints/src/lifetimes.rs:220-278). -/
def check (s : Sig) : Option (List Id) :=
  if s.preds.any whereLt then none
  else if s.preds.any boundLt then none
  else couldElide s

/-- A lifetime that was visited and is one of those to be elided is removed or becomes `'_`
(clippy_lints/src/lifetimes.rs:849-858, 955-969). -/
def newLt (es : List Id) (l : Lt) : Lt :=
  match named l with
  | some a => if es.contains a then .anon else l
  | none => l

/-- The type after the replacements: only lifetimes that the visitor has kept are replaced
(clippy_lints/src/lifetimes.rs:399, 849-858). -/
def newTy (es : List Id) : Ty Lt → Ty Lt
  | .con c => .con c
  | .lt l => .lt (newLt es l)
  | .ref l t => .ref (newLt es l) (newTy es t)
  | .app t u => .app (newTy es t) (newTy es u)
  | .site t => .site t
  | .dyn l t => .dyn l (newTy es t)

/-- The function after the suggestion (clippy_lints/src/lifetimes.rs:898-972). -/
def elide (es : List Id) (s : Sig) : Sig :=
  { s with
    params := s.params.filter (fun a => !es.contains a)
    inputs := s.inputs.map (newTy es)
    output := newTy es s.output }

/-! ## The deletion of the parameters -/

/-- `find_position` (clippy_lints/src/lifetimes.rs:927). -/
def position (a : Id) : List Id → Option Nat
  | [] => none
  | p :: ps => if p == a then some 0 else (position a ps).map (· + 1)

/-- The span for one parameter, and the new value of `end`
(clippy_lints/src/lifetimes.rs:927-950).  The parameter `i` is at position `2 * i`, the comma
behind it at `2 * i + 1`. -/
def cutOne (params : List Id) (last : Option Id) (a : Id) : Option ((Nat × Nat) × Option Id) :=
  match position a params with
  | none => none
  | some i =>
    match params[i + 1]? with
    | some next =>
      if last == some next then back i else some ((2 * i, 2 * (i + 1)), last)
    | none => back i
where
  /-- clippy_lints/src/lifetimes.rs:940-947 -/
  back (i : Nat) : Option ((Nat × Nat) × Option Id) :=
    match i with
    | 0 => none
    | j + 1 => some ((2 * j + 1, 2 * (j + 1) + 1), some a)

/-- The iteration (clippy_lints/src/lifetimes.rs:922-952), over a list that is reversed already. -/
def cutAll (params : List Id) : Option Id → List Id → Option (List (Nat × Nat))
  | _, [] => some []
  | last, a :: as =>
    match cutOne params last a with
    | none => none
    | some (c, last') => (cutAll params last' as).map (c :: ·)

/-- The deletions in the list of parameters; `none` stands for no suggestion, and `inl ()` for the
deletion of the whole list (clippy_lints/src/lifetimes.rs:910-953). -/
def cuts (params es : List Id) : Option (Unit ⊕ List (Nat × Nat)) :=
  if es.length == params.length then some (.inl ())
  else (cutAll params none es.reverse).map .inr

end Verif.Elide
