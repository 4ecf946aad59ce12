import Verif.LetIf.Syntax

/-!
# Model: `useless_let_if_seq`

`/repo/clippy_lints/src/let_if_seq.rs`.  Macros are not modelled.  The suggestion has placeholders `..;` for the other
statements of the branches; the model puts the statements there.
-/

namespace Verif.LetIf

open LateInit

/-- What the lint asks the compiler: whether the type of the variable has no interior mutability. -/
structure Facts where
  freeze : Id → Bool

/-- `check_assign`, `/repo/clippy_lints/src/let_if_seq.rs:147-171`: the other statements, and the value. -/
def checkAssign (x : Id) (b : Branch) : Option (List Stmt × Code) :=
  match b.tail, b.stmts.reverse with
  | none, .assign y c :: ss =>
    if y = x then if ss.any fun s => s.mentions.contains x then none else some (ss.reverse, c) else none
  | _, _ => none

/-- The statements and the value for the `else` branch, `/repo/clippy_lints/src/let_if_seq.rs:94-110`. -/
def default (s : Seq) : Option VBranch :=
  match s.els with
  | .none => s.init.map fun d => ⟨[], none, [d]⟩
  | .other => none
  | .block b => match checkAssign s.x b with
    | some (ss, d) => some ⟨ss, none, [d]⟩
    | none => s.init.map fun d => ⟨b.stmts, b.tail, [d]⟩

/-- `check_block_inner`, `/repo/clippy_lints/src/let_if_seq.rs:75-145`. -/
def check (fa : Facts) (s : Seq) : Option Item :=
  if s.cond.uses.contains s.x then none
  else match checkAssign s.x s.then_ with
    | none => none
    | some (ss, v) =>
      if v.uses.contains s.x then none
      else if !fa.freeze s.x then none
      else (default s).map fun e => .letChoice [s.x] s.cond [⟨ss, none, [v]⟩, e]

end Verif.LetIf
