import Verif.LateInit.Syntax

/-!
# Model: `needless_late_init`

`/repo/clippy_lints/src/needless_late_init.rs`.  Not modelled: macros and `if let` (the lint ignores both).  A variable
of the model is used if it is mentioned (`is_local_used`).
-/

namespace Verif.LateInit

/-- What the lint asks the compiler: `needs_ordered_drop` for the type of a variable. -/
structure Facts where
  ordered : Id → Bool
  /-- The declaration has a type. -/
  annotated : Id → Bool
  /-- The option `check-grouped-late-init`. -/
  grouped : Bool

/-- `stmt_needs_ordered_drop`, `/repo/clippy_lints/src/needless_late_init.rs:200-211`: bindings with subpatterns are not
looked at. -/
def orderedStmt (fa : Facts) : Item → Bool
  | .simple (.decl x) => fa.ordered x
  | .simple (.init x sub _) => !sub && fa.ordered x
  | .letChoice xs _ _ => xs.any fa.ordered
  | _ => false

/-- The statements up to the first usage, `/repo/clippy_lints/src/needless_late_init.rs:255-274`; the outer `Option`:
there is one; the inner one: it is an expression. -/
def scan (fa : Facts) (x : Id) : List Item → Nat → Option (Option Place)
  | [], _ => none
  | s :: ss, i =>
    if fa.ordered x && orderedStmt fa s then none
    else if s.mentions.contains x then
      match s with
      | .simple (.decl _) => some none
      | .simple (.init _ _ _) => some none
      | .letChoice _ _ _ => some none
      | _ => some (some (.stmt i))
    else scan fa x ss (i + 1)

/-- The usage at the end of the block, `/repo/clippy_lints/src/needless_late_init.rs:275-284`. -/
def atEnd (x : Id) (b : Block) : Option Place :=
  match b.tail with
  | some t => if t.mentions.contains x then some .tail else none
  | none => none

/-- `first_usage`, `/repo/clippy_lints/src/needless_late_init.rs:247-285`, for the declaration at an index. -/
def firstUsage (fa : Facts) (x : Id) (b : Block) (i : Nat) : Option Place :=
  match scan fa x (b.stmts.drop (i + 1)) (i + 1) with
  | some (some p) => some p
  | _ => atEnd x b

/-- `LocalAssign::new`, `/repo/clippy_lints/src/needless_late_init.rs:221-237`. -/
def asAssign : Stmt → Option (Id × Code)
  | .assign x c => some (x, c)
  | _ => none

/-- The assignments at the end of a block, in reversed order, `/repo/clippy_lints/src/needless_late_init.rs:316-336`. -/
def collect : List Stmt → List Id → List (Id × Code)
  | [], _ => []
  | s :: ss, used =>
    match asAssign s with
    | some (x, c) => if used.contains x then [] else (x, c) :: collect ss (x :: (c.uses ++ used))
    | none => []

/-- `LocalAssignGroup::new`, `/repo/clippy_lints/src/needless_late_init.rs:307-347`: the assignments in reversed order. -/
def group (b : Branch) : Option (List (Id × Code)) :=
  match b.tail with
  | some t => (asAssign t).map fun a => [a]
  | none => match collect b.stmts.reverse [] with
    | [] => none
    | as => some as

/-- The groups of all branches, `/repo/clippy_lints/src/needless_late_init.rs:91-112`: the same variables in the same
order (`is_parallel`), branches that never end are skipped. -/
def groups (last : Option (List Id)) : List Branch → Option (List (Option (List (Id × Code))))
  | [] => some []
  | b :: bs =>
    match b.ty with
    | .never => (groups last bs).map (none :: ·)
    | .other => none
    | .unit =>
      match group b with
      | none => none
      | some g =>
        if last.isNone || last == some (g.map (·.1)) then
          (groups (some (g.map (·.1))) bs).map (some g :: ·)
        else none

/-- The variables of the first group, in the order of the statements. -/
def groupVars : List (Option (List (Id × Code))) → Option (List Id)
  | [] => none
  | none :: gs => groupVars gs
  | some g :: _ => some (g.map (·.1)).reverse

/-- The new branch: the assignments are replaced by their values, `/repo/clippy_lints/src/needless_late_init.rs:144-161`
and `476-495`. -/
def valueBranch (b : Branch) (g : Option (List (Id × Code))) : VBranch :=
  match g, b.tail with
  | none, t => ⟨b.stmts, t, []⟩
  | some g, some _ => ⟨b.stmts, none, (g.map (·.2)).reverse⟩
  | some g, none => ⟨b.stmts.take (b.stmts.length - g.length), none, (g.map (·.2)).reverse⟩

/-- Two lists side by side. -/
def valueBranches : List Branch → List (Option (List (Id × Code))) → List VBranch
  | b :: bs, g :: gs => valueBranch b g :: valueBranches bs gs
  | _, _ => []

/-- The variables that get their values here, and the new statement: `check_local`,
`/repo/clippy_lints/src/needless_late_init.rs:390-443`. -/
def newItem : Item → Option (List Id × Item)
  | .simple (.assign x c) => some ([x], .simple (.init x false c))
  | .choice sel bs =>
    match groups none bs with
    | none => none
    | some gs => match groupVars gs with
      | none => none
      | some xs => some (xs, .letChoice xs sel (valueBranches bs gs))
  | _ => none

/-- The index of the declaration of a variable. -/
def declAt (x : Id) : List Item → Nat → Option Nat
  | [], _ => none
  | .simple (.decl y) :: ss, i => if y = x then some i else declAt x ss (i + 1)
  | _ :: ss, i => declAt x ss (i + 1)

/-- The declaration without initialiser whose first usage is at the place. -/
def declaredFor (fa : Facts) (b : Block) (p : Place) (x : Id) : Bool :=
  match declAt x b.stmts 0 with
  | some i => firstUsage fa x b i == some p
  | none => false

/-- The declarations of these variables are removed. -/
def removeDecls (xs : List Id) : List Item → List Item
  | [] => []
  | .simple (.decl y) :: ss => if xs.contains y then removeDecls xs ss else .simple (.decl y) :: removeDecls xs ss
  | s :: ss => s :: removeDecls xs ss

/-- The block with the new statement, `/repo/clippy_lints/src/needless_late_init.rs:163-169`, `456-467` and `503-506`: a
semicolon is added at the end; but not for a plain assignment (`415-420`): then the new text is not a block. -/
def rewrite (b : Block) (p : Place) (xs : List Id) (new : Item) : Option Block :=
  match p, new with
  | .stmt i, _ => some ⟨removeDecls xs (b.stmts.take i) ++ new :: b.stmts.drop (i + 1), b.tail⟩
  | .tail, .simple _ => none
  | .tail, _ => some ⟨removeDecls xs b.stmts ++ [new], none⟩

/-- Groups of several variables, `/repo/clippy_lints/src/needless_late_init.rs:118-134` and `461`. -/
def groupOk (fa : Facts) (xs : List Id) : Bool :=
  xs.length ≤ 1 || (fa.grouped && xs.all fun x => !fa.annotated x)

/-- `check_local` and `check_block_post`, `/repo/clippy_lints/src/needless_late_init.rs:365-521`, for one place: all
variables that get their values there must have been declared for it.  The inner `none`: the new text is not a block. -/
def check (fa : Facts) (b : Block) (p : Place) : Option (Option Block) :=
  match b.at p with
  | none => none
  | some item => match newItem item with
    | none => none
    | some (xs, new) =>
      if groupOk fa xs && xs.all (declaredFor fa b p) then some (rewrite b p xs new) else none

end Verif.LateInit
