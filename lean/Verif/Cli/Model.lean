import Verif.Common.Text

/-!
# Command line: `cargo clippy` front end and `clippy-driver`
-/

namespace Verif.Cli
open Verif Verif.Text

/-! The words the code compares with. -/

def kFix : Str := str!"--fix"
def kNoDeps : Str := str!"--no-deps"
def kDashes : Str := str!"--"
def kSubFix : Str := str!"fix"
def kSubCheck : Str := str!"check"
def kCapLints : Str := str!"--cap-lints"
def kForceWarn : Str := str!"--force-warn"
def kClippyPath : Str := str!"clippy::"
def kPrint : Str := str!"--print"
def kRootLevels : Str := str!"crate-root-lint-levels"
def kVV : Str := str!"-vV"
def kRustcFlag : Str := str!"--rustc"
def kRustc : Str := str!"rustc"
def kVersion : Str := str!"--version"
def kV : Str := str!"-V"
def kHelp : Str := str!"--help"
def kH : Str := str!"-h"
def kSysroot : Str := str!"--sysroot"
def kCfg : Str := str!"--cfg"
def kClippy : Str := str!"clippy"
def kAllow : Str := str!"allow"

/-- `struct ClippyCmd` — src/main.rs:55-59. -/
structure ClippyCmd where
  cargoSubcommand : Str
  args : List Str
  clippyArgs : List Str
deriving Repr, DecidableEq

/-- State of the loop in `ClippyCmd::new` — src/main.rs:66-85. Returns the three accumulators and
the words left in the iterator after the loop (`old_args` is iterated by reference). -/
def newLoop : Str → List Str → List Str → List Str → Str × List Str × List Str × List Str
  | sub, args, clippy, [] => (sub, args, clippy, [])
  | sub, args, clippy, arg :: rest =>
      if arg = kFix then newLoop (kSubFix) args clippy rest
      else if arg = kNoDeps then newLoop sub args (clippy ++ [kNoDeps]) rest
      else if arg = kDashes then (sub, args, clippy, rest)
      else newLoop sub (args ++ [arg]) clippy rest

/-- `ClippyCmd::new` — src/main.rs:62-97. -/
def ClippyCmd.new (oldArgs : List Str) : ClippyCmd :=
  let (sub, args, clippy, rest) := newLoop (kSubCheck) [] [] oldArgs
  let clippy := clippy ++ rest
  let clippy :=
    if sub = kSubFix && !clippy.any (· == kNoDeps) then clippy ++ [kNoDeps]
    else clippy
  ⟨sub, args, clippy⟩

/-- The in-band separator — src/main.rs:116, src/driver.rs:280. -/
def marker : Str := str!"__CLIPPY_HACKERY__"

/-- Value of `CLIPPY_ARGS` — `into_std_cmd`, src/main.rs:113-119. -/
def ClippyCmd.envValue (c : ClippyCmd) : Str :=
  c.clippyArgs.foldl (fun s arg => s ++ arg ++ marker) []

/-- Words of the cargo invocation — `into_std_cmd`, src/main.rs:120-121. -/
def ClippyCmd.cargoWords (c : ClippyCmd) : List Str := c.cargoSubcommand :: c.args

/-- The driver's `filter_map` over the pieces, with the `no_deps` flag it sets —
src/driver.rs:275-288. -/
def decodePieces : Bool → List Str → Bool × List Str
  | noDeps, [] => (noDeps, [])
  | noDeps, s :: rest =>
      if s = [] then decodePieces noDeps rest
      else if s = kNoDeps then decodePieces true rest
      else let (nd, r) := decodePieces noDeps rest; (nd, s :: r)

/-- Decoding of `CLIPPY_ARGS` — src/driver.rs:275-290 (before the `--cfg clippy` chain). An unset
variable is the empty string (`unwrap_or_default`). -/
def decodeEnv (v : Option Str) : Bool × List Str :=
  decodePieces false (split marker (v.getD []))

/-- `arg_value` — src/driver.rs:33-47. The iterator is the list of remaining words. -/
def argValue (findArg : Str) (pred : Str → Bool) : List Str → Bool
  | [] => false
  | arg :: rest =>
      let (key, val) := splitOnce '=' arg
      if key = findArg then
        match val with
        | some v => if pred v then true else argValue findArg pred rest
        | none =>
            match rest with
            | [] => false
            | v :: rest' => if pred v then true else argValue findArg pred rest'
      else argValue findArg pred rest

/-- `is_arg` — src/driver.rs:50-54. -/
def isArg (argument key : Str) : Bool :=
  match stripPrefix? key argument with
  | none => false
  | some s => s.isEmpty || ['='].isPrefixOf s

/-- What the driver reads from outside its argument vector. `argFile p` is the list of lines of
the file `p`, if readable. -/
structure Env where
  sysroot : Option Str
  clippyArgs : Option Str
  primaryPackage : Bool
  argFile : Str → Option (List Str)

/-- `has_sysroot_arg` — src/driver.rs:210-223. -/
def hasSysrootArg (env : Env) (args : List Str) : Bool :=
  args.any fun arg =>
    match arg with
    | '@' :: path =>
        match env.argFile path with
        | some lines => lines.any (isArg · (kSysroot))
        | none => isArg arg (kSysroot)
    | _ => isArg arg (kSysroot)

/-- `pass_sysroot_env_if_given` — src/driver.rs:228-234. -/
def passSysroot (env : Env) (args : List Str) : List Str :=
  match env.sysroot with
  | some s => if !hasSysrootArg env args then args ++ [kSysroot, s] else args
  | none => args

/-- `Path::file_stem` of a Unix path: text after the last `/`, up to its last `.` unless that dot is
the first character. Simplification: no trailing `/`, and `..` is not special. -/
def fileStem (p : Str) : Str :=
  let name := (p.reverse.takeWhile (· ≠ '/')).reverse
  let ext := name.reverse.takeWhile (· ≠ '.')
  let stem := name.take (name.length - ext.length - 1)
  if stem.isEmpty then name else stem

/-- What `main` of clippy-driver ends up doing. -/
inductive Plan where
  /-- index out of bounds: the program panics -/
  | panic
  | rustc (args : List Str)
  | version
  | help
  /-- compile with clippy's lints registered -/
  | lint (args : List Str)
  /-- compile without them -/
  | plain (args : List Str)
deriving Repr, DecidableEq

/-- Words after the wrapper `rustc` word has been dropped — src/driver.rs:261-266. -/
def wrapperMode (origArgs : List Str) : Bool :=
  match origArgs with
  | _ :: a :: _ => fileStem a = kRustc
  | _ => false

/-- `clippy_enabled` — src/driver.rs:293-304; `args` is `origArgs` with the sysroot appended. -/
def clippyEnabled (env : Env) (noDeps : Bool) (origArgs args : List Str) : Bool :=
  let capLintsAllow :=
    argValue (kCapLints) (· == kAllow) origArgs
      && !argValue (kForceWarn) (contains (kClippyPath)) origArgs
  let relevantPackage := !noDeps || env.primaryPackage
  let infoQuery :=
    args.any (· == kVV)
      || argValue (kPrint) (· != kRootLevels) origArgs
  !capLintsAllow && relevantPackage && !infoQuery

/-- `main` of the driver — src/driver.rs:196-313. `raw_args` is the parameter. -/
def driver (env : Env) (rawArgs : List Str) : Plan :=
  match rawArgs.findIdx? (· == kRustcFlag) with
  | some pos =>
      match rawArgs.eraseIdx pos with
      | [] => .panic
      | _ :: rest => .rustc (passSysroot env (kRustc :: rest))
  | none =>
    if rawArgs.any (fun a => a == kVersion || a == kV) then .version
    else
      let wrapper := wrapperMode rawArgs
      let origArgs := if wrapper then rawArgs.eraseIdx 1 else rawArgs
      if !wrapper && (origArgs.any (fun a => a == kHelp || a == kH)
          || origArgs.length == 1) then .help
      else
        let args := passSysroot env origArgs
        let (noDeps, decoded) := decodeEnv env.clippyArgs
        let clippyArgs := decoded ++ [kCfg, kClippy]
        if clippyEnabled env noDeps origArgs args then .lint (args ++ clippyArgs)
        else .plain args

end Verif.Cli
