import Verif.Borrow.Syntax

/-! A call that clones a value. -/

namespace Verif.Clones

open Verif.Mir (Local Place Elem)
open Verif.Borrow (Instr)

/-- A call with one argument, a reference to something that is not `Copy`. -/
structure Call where
  arg : Local
  ret : Local
  deriving DecidableEq, Repr

/-- A call of a function that clones its argument, at the end of a block. -/
structure Site where
  block : Nat
  call : Call
  /-- the statements of the block -/
  stmts : List Instr
  /-- `clone`, `to_owned`, or `to_string` of a string, rather than `to_path_buf` or `to_os_string` -/
  direct : Bool
  /-- the only predecessor, if it ends with a call of `deref` for a `PathBuf` or an `OsString` -/
  pred : Option (Call × List Instr)

/-- What the types of places say. -/
structure PlaceTypes where
  hasDrop : Place → Bool
  copy : Place → Bool

end Verif.Clones
