import Verif.Drops.Spec

/-!
# Model: `needs_ordered_drop`, `for_each_unconsumed_temporary`, semicolon_block.rs, returns/let_and_return.rs,
loops/while_let_loop.rs
-/

namespace Verif.Drops

/-! ## Types -/

mutual
/-- `needs_ordered_drop_inner` — clippy_utils/src/ty/mod.rs:466-506: the answer and the types seen. `sig` is
`has_significant_drop` of the compiler (line 470). `none`: not finished with this number of nested calls. -/
def needsOrdered (sig : Nat → Bool) (tab : Types) : Nat → Nat → List Nat → Option (Bool × List Nat)
  | 0, _, _ => none
  | n + 1, t, seen =>
    if t ∈ seen then some (false, seen)
    else if sig t = false then some (false, t :: seen)
    else match tab t with
      | .container l => anyOrdered sig tab n l (t :: seen)
      | .parts l => anyOrdered sig tab n l (t :: seen)
      | .adt false l => anyOrdered sig tab n l (t :: seen)
      | .adt true _ => some (true, t :: seen)
      | .plain => some (true, t :: seen)
      | .anything => some (true, t :: seen)

/-- `any` on the arguments, fields or components — clippy_utils/src/ty/mod.rs:482, 495-500. -/
def anyOrdered (sig : Nat → Bool) (tab : Types) : Nat → List Nat → List Nat → Option (Bool × List Nat)
  | 0, _, _ => none
  | _ + 1, [], seen => some (false, seen)
  | n + 1, c :: l, seen =>
    match needsOrdered sig tab n c seen with
    | none => none
    | some (true, s) => some (true, s)
    | some (false, s) => anyOrdered sig tab n l s
end

/-! ## Temporaries -/

/-- `f` is called for the type — clippy_utils/src/visitors.rs:682-701: the value is not consumed and the
expression is not a place. -/
def call (consume : Bool) (d : Nat) : List Nat := if consume then [] else [d]

/-- `helper` of `for_each_unconsumed_temporary` — clippy_utils/src/visitors.rs:676-781: the types `f` is called
with. Arguments (lines 712-728) are lists here. `Assign` and the base of a structure are left out. -/
def visited : Bool → E → List Nat
  | c, .unit d self => if self then [] else call c d
  | c, .lit => call c 0
  | c, .call _ d _ args => call c d ++ visited true args
  | _, .ref e => visited false e
  | _, .deref e => visited false e
  | _, .field e => visited false e
  | _, .index a i => visited false a ++ visited true i
  | _, .auto e => visited false e
  | c, .rep d _ => call c d
  | c, .tup d args => call c d ++ visited true args
  | c, .bin _ d a b => call c d ++ visited true a ++ visited true b
  | c, .blk d _ e => call c d ++ visited true e
  | c, .mtch _ d s _ => call c d ++ visited false s
  | c, .ite _ d x a b => call c d ++ visited true x ++ visited true a ++ visited true b
  | c, .dropTemps d _ => call c d
  | _, .acons e rest => visited true e ++ visited true rest
  | _, _ => []

/-- `any_temporaries_need_ordered_drop` — clippy_utils/src/visitors.rs:785-794. -/
def anyTemporaries (ord : Nat → Bool) (e : E) : Bool := (visited true e).any ord

/-! ## Semicolons -/

/-- The suggestion of `semicolon_inside_block` — semicolon_block.rs:84-118, 170-182: `{ s; e };` becomes
`{ s; e; }`. `targeted`: the label of the block is used; `paren`: there is a `)` before the `;`; `oneLine`:
the option and the lines. -/
def inside (targeted paren oneLine : Bool) (s e : E) : Option E :=
  if targeted then none else if e = .lit then none else if paren then none else if oneLine then none
  else some (.blk 0 (snoc s (.ssemi e)) .lit)

/-- The last statement is `e;` — semicolon_block.rs:163-165: the statements before it and `e`. -/
def lastSemi : E → Option (E × E)
  | .ssemi e .snil => some (.snil, e)
  | .ssemi e rest => match lastSemi rest with
    | some (s, l) => some (.ssemi e s, l)
    | none => none
  | .slet x e rest => match lastSemi rest with
    | some (s, l) => some (.slet x e s, l)
    | none => none
  | _ => none

/-- The suggestion of `semicolon_outside_block` — semicolon_block.rs:120-153, 159-169: `{ s; e; }` becomes
`{ s; e };`. `targeted` is not asked; `multiLine`: the option and the lines. -/
def outside (_targeted multiLine : Bool) (s : E) : Option E :=
  if multiLine then none else
  match lastSemi s with
  | some (s', e) => some (.blk (tyOf e) s' e)
  | none => none

/-! ## `let` and return -/

/-- `last_statement_borrows` — returns/let_and_return.rs:69-88: a call somewhere in the expression. -/
def borrows : E → Bool
  | .call _ _ b a => b || borrows a
  | .ref a => borrows a
  | .deref a => borrows a
  | .field a => borrows a
  | .index a b => borrows a || borrows b
  | .auto a => borrows a
  | .rep _ a => borrows a
  | .tup _ a => borrows a
  | .bin _ _ a b => borrows a || borrows b
  | .blk _ s a => borrows s || borrows a
  | .mtch _ _ s a => borrows s || borrows a
  | .ite _ _ c a b => borrows c || (borrows a || borrows b)
  | .dropTemps _ a => borrows a
  | .acons a b => borrows a || borrows b
  | .slet _ e r => borrows e || borrows r
  | .ssemi e r => borrows e || borrows r
  | _ => false

/-- The last statement is `let x = e;` — returns/let_and_return.rs:18-24. -/
def lastLet : E → Option (E × Nat × E)
  | .slet x e .snil => some (.snil, x, e)
  | .slet x e rest => match lastLet rest with
    | some (s, l) => some (.slet x e s, l)
    | none => none
  | .ssemi e rest => match lastLet rest with
    | some (s, l) => some (.ssemi e s, l)
    | none => none
  | _ => none

/-- The block after the suggestion of `let_and_return` — returns/let_and_return.rs:16-68. Attributes, macros
and comments are left out. -/
def letAndReturn (ed : Edition) : E → Option E
  | .blk d s (.mv x _) => match lastLet s with
    | some (s', y, e) => if x = y ∧ (ed = .e2024 ∨ borrows e = false) then some (.blk d s' e) else none
    | none => none
  | _ => none

/-! ## `while let` -/

/-- `could_be_while_let` gives a suggestion — loops/while_let_loop.rs:84-99. -/
def couldBeWhileLet (ord : Nat → Bool) (trailing : Bool) (d : Nat) (e : E) : Bool :=
  !(trailing && (ord d || anyTemporaries ord e))

end Verif.Drops
