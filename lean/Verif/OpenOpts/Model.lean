import Verif.OpenOpts.Spec

/-!
# Options for opening files: the linter
-/

namespace Verif.OpenOpts

/-- What the linter sees of a call in the chain; clippy_lints/src/methods/open_options.rs:66-123. -/
inductive Call where
  /-- One of the six methods. -/
  | set (s : Set)
  /-- A method of the type with a literal that is not a boolean, or another inherent method. -/
  | skip
  /-- A method of a trait, or one without arguments. -/
  | bad
  deriving DecidableEq, Repr

/-- `get_open_options`: the calls from the last to the first, with those collected so far; clippy_lints/src/methods/open_options.rs:61-139. `known` says whether the
chain begins with a known constructor. -/
def getOpenOptions (known : Bool) (acc : List Set) : List Call → Option (List Set)
  | [] => if known then some acc else none
  | .set s :: r => getOpenOptions known (acc ++ [s]) r
  | .skip :: r => getOpenOptions known acc r
  | .bad :: _ => none

/-- A map from options to arguments and places; `FxHashMap::get`; clippy_lints/src/methods/open_options.rs:155-180. -/
def get (m : List (Opt × Arg × Nat)) (o : Opt) : Option (Arg × Nat) :=
  match m with
  | [] => none
  | (k, v) :: r => if k = o then some v else get r o

/-- The loop that fills the map: the places reported as called more than once, and the map; clippy_lints/src/methods/open_options.rs:143-153. -/
def fill (m : List (Opt × Arg × Nat)) (dups : List Nat) : List Set → List Nat × List (Opt × Arg × Nat)
  | [] => (dups, m)
  | s :: r =>
    match get m s.opt with
    | some (_, prev) => fill ((s.opt, s.arg, s.span) :: m) (dups ++ [prev]) r
    | none => fill ((s.opt, s.arg, s.span) :: m) dups r

/-- `Some((Argument::Set(true), _))`; clippy_lints/src/methods/open_options.rs:155-156, 167-168, 178. -/
def isOn : Option (Arg × Nat) → Bool
  | some (.lit true, _) => true
  | _ => false

/-- `None | Some((Argument::Set(false), _))`; clippy_lints/src/methods/open_options.rs:157, 180. -/
def isOff : Option (Arg × Nat) → Bool
  | none => true
  | some (.lit false, _) => true
  | _ => false

/-- The reports of `check_open_options`: places of repeated calls, truncate and read, append and truncate, create without truncate; clippy_lints/src/methods/open_options.rs:141-202. -/
structure Reports where
  dups : List Nat
  truncateRead : Bool
  appendTruncate : Bool
  create : Bool
  deriving DecidableEq, Repr

/-- `check_open_options`; clippy_lints/src/methods/open_options.rs:141-202. -/
def checkOpenOptions (settings : List Set) : Reports :=
  { dups := (fill [] [] settings).1
    truncateRead := isOn (get (fill [] [] settings).2 .read) && isOn (get (fill [] [] settings).2 .truncate) && isOff (get (fill [] [] settings).2 .write)
    appendTruncate := isOn (get (fill [] [] settings).2 .append) && isOn (get (fill [] [] settings).2 .truncate)
    create := isOn (get (fill [] [] settings).2 .create) && (get (fill [] [] settings).2 .truncate).isNone && isOff (get (fill [] [] settings).2 .append) }

/-- `check` on a chain in the order of the program: the receiver is taken apart from its last call on; clippy_lints/src/methods/open_options.rs:18-28. -/
def check (known : Bool) (chain : List Call) : Option Reports :=
  (getOpenOptions known [] chain.reverse).map checkOpenOptions

end Verif.OpenOpts
