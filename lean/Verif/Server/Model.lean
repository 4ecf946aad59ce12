import Verif.Server.Syntax

/-! Model of lintcheck's recursive mode (`lintcheck/src/recursive.rs`, `driver.rs` and the parts of
`main.rs` and `output.rs` which it uses) as a system of processes and threads: cargo starts an
invocation of the wrapper for every run of the compiler, the server accepts their connections and
starts a thread for each, and the main thread collects the warnings at the end.  The schedule is a
list of actions; every interleaving of the steps of the processes is such a list. -/

namespace Verif.Server.Model

open Verif.Server

/-- `str::contains`. -/
def contains (needle : Text) : Text → Bool
  | [] => needle.isEmpty
  | c :: cs => needle.isPrefixOf (c :: cs) || contains needle cs

/-- `str::find` followed by the part after the match: the text behind the first occurrence
(`lintcheck/src/output.rs:83-86`). -/
def afterFirst (needle : Text) : Text → Option Text
  | [] => if needle.isEmpty then some [] else none
  | c :: cs =>
    if needle.isPrefixOf (c :: cs) then some ((c :: cs).drop needle.length) else afterFirst needle cs

/-- `str::replace` for a non-empty pattern; `fuel` is the length of the text. -/
def replaceGo (pat new : Text) : Nat → Text → Text
  | 0, s => s
  | _ + 1, [] => []
  | n + 1, c :: cs =>
    if pat.isPrefixOf (c :: cs) then new ++ replaceGo pat new n ((c :: cs).drop pat.length)
    else c :: replaceGo pat new n cs

/-- `str::replace` (`lintcheck/src/output.rs:89`). -/
def replace (s pat new : Text) : Text := replaceGo pat new s.length s

/-- The link with holes for the file and the line (`lintcheck/src/recursive.rs:68-71`). -/
def baseUrl (i : Info) : Text :=
  "https://docs.rs/crate/".toList ++ i.package ++ "/".toList ++ i.version ++
    "/source/src/{file}#{line}".toList

/-- What becomes of a line of Clippy's output: nothing, a warning, or a panic of the thread. -/
inductive Item
  | skip
  | warn (w : Warning)
  | panic
  deriving DecidableEq, Repr

/-- The span whose file is linked (`lintcheck/src/output.rs:76-81`). -/
def pickSpan (ss : List Span) : Option Span :=
  (ss.find? (·.primary)).or ss.head?

/-- The link of a warning (`lintcheck/src/output.rs:82-92`). -/
def url (base : Text) (s : Span) : Text :=
  match afterFirst "/src/".toList s.file with
  | some file => replace (replace base "{file}".toList file) "{line}".toList s.line
  | none => s.file

/-- `ClippyWarning::new` (`lintcheck/src/output.rs:62-100`); stripping the colours from the rendered
text is left out. -/
def newWarning (d : Diag) (base krate : Text) : Item :=
  match d.code with
  | none => .skip
  | some name =>
    if !(contains "clippy".toList name || contains "clippy".toList d.message)
        || contains "could not read cargo metadata".toList d.message then .skip
    else
      match d.rendered, pickSpan d.spans with
      | some _, some s => .warn ⟨name, krate, d, url base s⟩
      | _, _ => .panic

/-- The two `filter_map`s over a line (`lintcheck/src/recursive.rs:72-75`). -/
def item (i : Info) : Line → Item
  | .other => .skip
  | .diag d => newWarning d (baseUrl i) i.package

/-- What an invocation of the wrapper is doing (`lintcheck/src/driver.rs:11-66`). -/
inductive Drv
  /-- not yet started, or before line 17 -/
  | idle
  /-- connected to the server, before line 19 -/
  | connected
  /-- waits for the answer in line 21 -/
  | asking
  /-- before running Clippy in line 37 -/
  | running
  /-- has written Clippy's output in line 45, before exiting -/
  | wrote
  /-- before running the compiler in line 59 -/
  | compile
  /-- ended with this code -/
  | exited (code : Nat)
  deriving DecidableEq, Repr

/-- What the server's thread for a connection is doing (`lintcheck/src/recursive.rs:46-80`). -/
inductive Hnd
  /-- there is no connection -/
  | none
  /-- the connection waits to be accepted (line 106) -/
  | queued
  /-- the thread has been started and waits for the line in line 54 -/
  | spawned
  /-- before the answer in line 60 -/
  | decided
  /-- reads until the connection is closed in line 63 -/
  | replied
  /-- the lines which are still to be looked at in lines 72-79 -/
  | sending (ms : List Item)
  /-- the thread has got past the loop, or has panicked in it -/
  | done
  /-- the thread has panicked before the loop -/
  | died
  deriving DecidableEq, Repr

/-- An invocation and its connection. `verdict` is the answer the server decided on, `asked` says
that the line with the package has been sent, `closed` that the wrapper has closed the connection,
`written` is what it has sent of Clippy's output, and `ran` are the programs it has run. -/
structure Conn where
  job : Job
  drv : Drv
  hnd : Hnd
  verdict : Option Bool
  asked : Bool
  closed : Bool
  written : List Line
  ran : List Tool
  deriving DecidableEq, Repr

/-- What the main thread is doing (`lintcheck/src/main.rs:405-422`). -/
inductive Main
  /-- waits for the runs of cargo -/
  | working
  /-- has dropped its sender and reads from the channel (`lintcheck/src/recursive.rs:123-128`) -/
  | collecting
  /-- the channel has ended -/
  | finished
  /-- a run of cargo has failed (`lintcheck/src/main.rs:169`) -/
  | failed
  deriving DecidableEq, Repr

/-- The whole system. `seen` is the set of packages asked for, `chan` the channel, `collected` what
the main thread has read from it, and `stuck` says that the accepting thread has panicked. -/
structure State where
  conns : List Conn
  seen : List Info
  chan : List Warning
  collected : List Warning
  main : Main
  stuck : Bool
  deriving DecidableEq, Repr

/-- An invocation before it starts. -/
def Conn.start (j : Job) : Conn :=
  { job := j, drv := .idle, hnd := .none, verdict := .none, asked := false, closed := false,
    written := [], ran := [] }

/-- The state after `LintcheckServer::spawn` (`lintcheck/src/recursive.rs:89-121`). -/
def init (jobs : List Job) : State :=
  { conns := jobs.map Conn.start, seen := [], chan := [], collected := [], main := .working,
    stuck := false }

/-- A thread which holds a strong reference to the sender (`lintcheck/src/recursive.rs:107-110`). -/
def Hnd.live : Hnd → Bool
  | .spawned | .decided | .replied | .sending _ => true
  | .none | .queued | .done | .died => false

/-- Whether the channel is still connected: `sender_weak.upgrade()` succeeds
(`lintcheck/src/recursive.rs:94-97`, `107`, `125`). -/
def State.connected (s : State) : Bool :=
  (match s.main with
   | .working => true
   | _ => false) || s.conns.any (·.hnd.live)

/-- The next step of an invocation (`lintcheck/src/driver.rs:11-66`).  Lines 12-17: without the
variables the compiler is run directly; line 19: the package is sent; lines 21-24: with the answer
no, the connection is closed and the compiler is run; lines 37-46: Clippy is run and its output
is sent; lines 48-54 and 58: the process ends, which closes the connection. -/
def drive (c : Conn) : Option Conn :=
  match c.drv with
  | .idle =>
    match c.job.info with
    | .none => some { c with drv := .compile }
    | .some _ => some { c with drv := .connected, hnd := .queued }
  | .connected => some { c with drv := .asking, asked := true }
  | .asking =>
    match c.hnd, c.verdict with
    | .replied, .some true => some { c with drv := .running }
    | .replied, .some false => some { c with drv := .compile, closed := true }
    | _, _ => none
  | .running => some { c with drv := .wrote, written := c.job.lines, ran := c.ran ++ [.clippy] }
  | .wrote => some { c with drv := .exited c.job.clippyCode, closed := true }
  | .compile => some { c with drv := .exited c.job.rustcCode, ran := c.ran ++ [.rustc] }
  | .exited _ => none

/-- The invocation is killed from outside, while up to `n` lines of Clippy's output may have been
sent (`lintcheck/src/driver.rs:45`); cargo sees a failure.  This is not code: it is a fault. -/
def kill (n : Nat) (c : Conn) : Option Conn :=
  match c.drv with
  | .exited _ => none
  | .running => some { c with drv := .exited 137, closed := true, written := c.job.lines.take n }
  | _ => some { c with drv := .exited 137, closed := true }

/-- `seen.insert(…)` and `options.ignore.contains(…)` (`lintcheck/src/recursive.rs:56-58`). -/
def shouldRun (seen : List Info) (ignore : List Text) (i : Info) : Bool :=
  !seen.contains i && !ignore.contains i.package

/-- The next step of the thread for a connection, with what it adds to the set of packages and to
the channel (`lintcheck/src/recursive.rs:52-80`).  Line 54 panics if the connection is closed
before the line is sent; line 60 is taken to panic if the connection is closed; line 63 panics if
the output is not text. -/
def handle (seen : List Info) (ignore : List Text) (c : Conn) :
    Option (Conn × List Info × List Warning) :=
  match c.hnd with
  | .spawned =>
    match c.asked, c.job.info with
    | true, .some i =>
      some ({ c with hnd := .decided, verdict := .some (shouldRun seen ignore i) }, [i], [])
    | _, _ => if c.closed then some ({ c with hnd := .died }, [], []) else none
  | .decided =>
    if c.closed then some ({ c with hnd := .died }, [], []) else some ({ c with hnd := .replied }, [], [])
  | .replied =>
    if c.closed then
      match c.job.info with
      | .some i =>
        if c.written.isEmpty || c.job.utf8 then
          some ({ c with hnd := .sending (c.written.map (item i)) }, [], [])
        else some ({ c with hnd := .died }, [], [])
      | .none => none
    else none
  | .sending [] => some ({ c with hnd := .done }, [], [])
  | .sending (.skip :: ms) => some ({ c with hnd := .sending ms }, [], [])
  | .sending (.warn w :: ms) => some ({ c with hnd := .sending ms }, [], [w])
  | .sending (.panic :: _) => some ({ c with hnd := .done }, [], [])
  | .none | .queued | .done | .died => none

/-- Which process or thread takes the next step. -/
inductive Action
  /-- invocation number `n` takes its next step -/
  | drive (n : Nat)
  /-- invocation number `n` is killed after sending `k` lines -/
  | kill (n k : Nat)
  /-- connection number `n` is accepted -/
  | accept (n : Nat)
  /-- the thread of connection number `n` takes its next step -/
  | handle (n : Nat)
  /-- all runs of cargo have ended well, and the main thread drops its sender -/
  | join
  /-- a run of cargo has failed -/
  | fail
  /-- the main thread takes a warning from the channel -/
  | recv
  /-- the main thread sees the end of the channel -/
  | finish
  deriving DecidableEq, Repr

/-- Whether the invocation has ended well. -/
def Conn.ok (c : Conn) : Bool :=
  match c.drv with
  | .exited 0 => true
  | _ => false

/-- Whether the invocation has failed. -/
def Conn.bad (c : Conn) : Bool :=
  match c.drv with
  | .exited (_ + 1) => true
  | _ => false

/-- Accepting a connection (`lintcheck/src/recursive.rs:106-111`): panics if the sender is gone. -/
def accept (s : State) (n : Nat) (c : Conn) : Option State :=
  if c.hnd = .queued ∧ s.stuck = false then
    if s.connected then some { s with conns := s.conns.set n { c with hnd := .spawned } }
    else some { s with stuck := true }
  else none

/-- The end of the work: cargo ends well if all it has started have (`lintcheck/src/main.rs:405-417`
and `169`), and then the sender is dropped (`lintcheck/src/recursive.rs:125`). -/
def join (s : State) : Option State :=
  if s.main = .working ∧ s.conns.all Conn.ok = true then some { s with main := .collecting } else none

/-- Cargo fails if something it has started fails (`lintcheck/src/main.rs:169`). -/
def fail (s : State) : Option State :=
  if s.main = .working ∧ s.conns.any Conn.bad = true then some { s with main := .failed } else none

/-- Reading from the channel (`lintcheck/src/recursive.rs:127`, `lintcheck/src/main.rs:419-422`). -/
def recv (s : State) : Option State :=
  match s.main, s.chan with
  | .collecting, w :: ws => some { s with chan := ws, collected := s.collected ++ [w] }
  | _, _ => none

/-- The iterator ends when the channel is empty and disconnected
(`lintcheck/src/recursive.rs:124-127`). -/
def finish (s : State) : Option State :=
  if s.main = .collecting ∧ s.chan = [] ∧ s.connected = false then some { s with main := .finished }
  else none

/-- Whether the process of lintcheck still runs. -/
def State.active (s : State) : Bool :=
  match s.main with
  | .working | .collecting => true
  | .finished | .failed => false

/-- One step of the system (`lintcheck/src/main.rs:399-422`); nothing is looked at after the main
thread has ended. -/
def step (ignore : List Text) (s : State) (a : Action) : Option State :=
  if s.active then
    match a with
    | .drive n => do
      let c ← s.conns[n]?
      let c' ← drive c
      some { s with conns := s.conns.set n c' }
    | .kill n k => do
      let c ← s.conns[n]?
      let c' ← kill k c
      some { s with conns := s.conns.set n c' }
    | .accept n => do
      let c ← s.conns[n]?
      accept s n c
    | .handle n => do
      let c ← s.conns[n]?
      let (c', i, w) ← handle s.seen ignore c
      some { s with conns := s.conns.set n c', seen := s.seen ++ i, chan := s.chan ++ w }
    | .join => join s
    | .fail => fail s
    | .recv => recv s
    | .finish => finish s
  else none

/-- A schedule: the steps one after another. -/
def run (ignore : List Text) (s : State) : List Action → Option State
  | [] => some s
  | a :: as => (step ignore s a).bind fun t => run ignore t as

/-- The arguments for Clippy (`lintcheck/src/driver.rs:26-35`): `keep` is `include_next`. -/
def uncap : Bool → List Text → List Text
  | _, [] => []
  | keep, a :: as =>
    if a = "--cap-lints=allow".toList then uncap keep as
    else if a = "--cap-lints".toList then uncap false as
    else if keep then a :: uncap true as
    else uncap true as

end Verif.Server.Model
