import Verif.Server.Syntax

/-! What the recursive mode of lintcheck is for: every package below the listed ones is checked
once, unless it is ignored, and all warnings about it are in the results. -/

namespace Verif.Server.Spec

open Verif.Server

/-- A diagnostic is about Clippy if the name of its lint, or its message, says so; the note that
Cargo's metadata can't be read is not wanted. -/
def Wanted (d : Diag) : Prop :=
  ∃ name, d.code = some name ∧
    ("clippy".toList <:+: name ∨ "clippy".toList <:+: d.message) ∧
    ¬ "could not read cargo metadata".toList <:+: d.message

/-- A diagnostic which can be shown: it has a rendered form and a place. -/
def Shown (d : Diag) : Prop := d.rendered ≠ none ∧ d.spans ≠ []

/-- The place of a diagnostic: the first primary one, or else the first. -/
def Place (d : Diag) (s : Span) : Prop :=
  (∃ a b, d.spans = a ++ s :: b ∧ s.primary = true ∧ ∀ x ∈ a, x.primary = false) ∨
  ((∀ x ∈ d.spans, x.primary = false) ∧ ∃ b, d.spans = s :: b)

/-- The link of a place: to the file on docs.rs, if the place is below a directory `src`, or
just the name of the file. -/
def Link (i : Info) (s : Span) (url : Text) : Prop :=
  (∃ dir file, s.file = dir ++ "/src/".toList ++ file ∧
      (∀ a b, s.file = a ++ "/src/".toList ++ b → dir.length ≤ a.length) ∧
      url = "https://docs.rs/crate/".toList ++ i.package ++ "/".toList ++ i.version ++
        "/source/src/".toList ++ file ++ "#".toList ++ s.line) ∨
  (¬ "/src/".toList <:+: s.file ∧ url = s.file)

/-- A warning made of a diagnostic, apart from its link. -/
def Reports (i : Info) (d : Diag) (w : Warning) : Prop :=
  d.code = some w.name ∧ w.krate = i.package ∧ w.diag = d

/-- The warnings made of the lines which Clippy writes: one for every diagnostic about Clippy,
in order. -/
inductive Warns (i : Info) : List Line → List Warning → Prop
  | nil : Warns i [] []
  | other {ls ws} : Warns i ls ws → Warns i (.other :: ls) ws
  | skip {d ls ws} : ¬ Wanted d → Warns i ls ws → Warns i (.diag d :: ls) ws
  | take {d w ls ws} : Wanted d → Reports i d w → Warns i ls ws → Warns i (.diag d :: ls) (w :: ws)

/-- The output of Clippy can be taken over completely: it is text, and every diagnostic about
Clippy can be shown. -/
def Clean (j : Job) : Prop :=
  j.utf8 = true ∧ ∀ d, Line.diag d ∈ j.lines → Wanted d → Shown d

/-- The packages which have to be checked: those for which the compiler is called, without the
ignored ones. -/
def ToCheck (jobs : List Job) (ignore : List Text) (i : Info) : Prop :=
  some i ∈ jobs.map Job.info ∧ i.package ∉ ignore

/-- The warnings of some invocations, one after another. -/
inductive All : List Job → List Warning → Prop
  | nil : All [] []
  | cons {j js i ws vs} : j.info = some i → Warns i j.lines ws → All js vs → All (j :: js) (ws ++ vs)

/-- The results of a run over some invocations of the compiler: the invocations with Clippy are
some of all (`picked`), exactly one for every package which has to be checked, and the results are
the warnings of all these in some order. -/
def Results (jobs : List Job) (ignore : List Text) (r : List Warning) : Prop :=
  ∃ picked, picked.Sublist jobs ∧ (picked.map Job.info).Nodup ∧
    (∀ i, some i ∈ picked.map Job.info ↔ ToCheck jobs ignore i) ∧
    ∃ ws, All picked ws ∧ r.Perm ws

/-- The arguments for the compiler without the options that silence lints, each written in one
or in two words. -/
inductive Uncapped : List Text → List Text → Prop
  | nil : Uncapped [] []
  | one {as bs} : Uncapped as bs → Uncapped ("--cap-lints=allow".toList :: as) bs
  | two {v as bs} : v ≠ "--cap-lints".toList → v ≠ "--cap-lints=allow".toList →
      Uncapped as bs → Uncapped ("--cap-lints".toList :: v :: as) bs
  | keep {a as bs} : a ≠ "--cap-lints".toList → a ≠ "--cap-lints=allow".toList →
      Uncapped as bs → Uncapped (a :: as) (a :: bs)

end Verif.Server.Spec
