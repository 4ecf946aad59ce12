/-! The data which lintcheck's recursive mode deals with. -/

namespace Verif.Server

/-- Text, as a list of characters. -/
abbrev Text := List Char

/-- `DriverInfo`: which package a run of the compiler is for
(`lintcheck/src/recursive.rs:20-24`). -/
structure Info where
  package : Text
  version : Text
  deriving DecidableEq, Repr

/-- A place in a file (`cargo_metadata`'s `DiagnosticSpan`, used by `lintcheck/src/output.rs:74-92`);
`line` is the line number written in decimal. -/
structure Span where
  primary : Bool
  file : Text
  line : Text
  deriving DecidableEq, Repr

/-- A diagnostic of the compiler (`cargo_metadata`'s `Diagnostic`, used by
`lintcheck/src/output.rs:62-100`). -/
structure Diag where
  code : Option Text
  message : Text
  rendered : Option Text
  spans : List Span
  deriving DecidableEq, Repr

/-- A warning in lintcheck's results (`lintcheck/src/output.rs:51-59`). -/
structure Warning where
  name : Text
  krate : Text
  diag : Diag
  url : Text
  deriving DecidableEq, Repr

/-- A line of the output of Clippy: a diagnostic in JSON, or anything else. -/
inductive Line
  | diag (d : Diag)
  | other
  deriving DecidableEq, Repr

/-- Which program an invocation of the wrapper runs. -/
inductive Tool
  | clippy
  | rustc
  deriving DecidableEq, Repr

/-- One invocation of the wrapper by cargo: the package it is for (none if cargo only asks for the
version), what Clippy would write about it and how both programs would end.
`utf8` says that the output of Clippy is text. -/
structure Job where
  info : Option Info
  lines : List Line
  utf8 : Bool
  clippyCode : Nat
  rustcCode : Nat
  deriving DecidableEq, Repr

end Verif.Server
