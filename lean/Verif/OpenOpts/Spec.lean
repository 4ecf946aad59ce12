/-!
# Options for opening files: what is meant

A chain of calls sets options of a record, one after the other; then the file is opened.
-/

namespace Verif.OpenOpts

inductive Opt where
  | append | create | createNew | read | truncate | write
  deriving DecidableEq, Repr

/-- The argument of a call: a literal, or something known only at run time. -/
inductive Arg where
  | lit (b : Bool)
  | unknown
  deriving DecidableEq, Repr

/-- A call that sets an option, with its place. -/
structure Set where
  opt : Opt
  arg : Arg
  span : Nat
  deriving DecidableEq, Repr

/-- The value of the argument, where `env` gives what is known only at run time. -/
def Set.value (env : Nat → Bool) (s : Set) : Bool :=
  match s.arg with
  | .lit b => b
  | .unknown => env s.span

/-- The options after a chain of calls in the order of the program; all are off at first. -/
def run (env : Nat → Bool) : (Opt → Bool) → List Set → Opt → Bool
  | st, [] => st
  | st, s :: r => run env (fun o => if o = s.opt then s.value env else st o) r

/-- All off. -/
def off : Opt → Bool := fun _ => false

/-- Opening fails whatever the file system: the rules of the standard library for creation (those for the way of access are left out). -/
def Invalid (st : Opt → Bool) : Prop :=
  (st .write = false ∧ st .append = false ∧ (st .truncate = true ∨ st .create = true ∨ st .createNew = true)) ∨
  (st .append = true ∧ st .truncate = true ∧ st .createNew = false)

/-- The old content of an existing file is written over from its start without being removed. -/
def KeepsOld (st : Opt → Bool) : Prop := st .createNew = false ∧ st .truncate = false ∧ st .append = false

/-- No option is set twice. -/
def Once (l : List Set) : Prop := (l.map Set.opt).Nodup

end Verif.OpenOpts
