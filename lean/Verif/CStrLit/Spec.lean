import Verif.ByteStr.Spec

/-!
# Byte strings that end with NUL, and C string literals: what is meant

How byte strings are read is `ByteStr.byteString`.
-/

namespace Verif.CStrLit

open Verif.ByteStr

/-- The bytes of `c"…"` without the NUL that is added; a C string must not contain NUL. (Characters beyond ASCII are left out.) -/
def cString (t : List Char) : Option (List Nat) :=
  match byteString t with
  | some vs => if 0 ∈ vs then none else some vs
  | none => none

end Verif.CStrLit
