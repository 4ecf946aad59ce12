import Verif.Sources.Syntax

/-! Model of lintcheck's `read_crates` and `download_and_prepare` (`lintcheck/src/input.rs`).  The
steps on the disk are made explicit, so that a run can be interrupted after any of them. -/

namespace Verif.Sources.Model

open Verif.Sources

/-- The name of the directory below `lintcheck/sources` (`lintcheck/src/input.rs:216`, `243`,
`290`). -/
def dirOf : Source → String
  | .cratesIo n v => n ++ "-" ++ v
  | .git n _ _ => n ++ "-git"
  | .path n _ => n

/-- A step on the disk. -/
inductive Op
  /-- `fs::File::create` of the archive (`lintcheck/src/input.rs:218`) -/
  | create (d : String)
  /-- `io::copy` into the archive (`lintcheck/src/input.rs:219-221`); that part of the archive may
  have been written makes no difference, as it is only looked at whether the file exists -/
  | fetch (d : String)
  /-- one file of `archive.unpack` (`lintcheck/src/input.rs:223-227`) -/
  | extract (d f : String) (x : Nat)
  /-- `git clone` (`lintcheck/src/input.rs:249-259`) -/
  | clone (d url : String)
  /-- `git checkout` (`lintcheck/src/input.rs:261-271`) -/
  | checkout (d commit : String)
  /-- `fs::remove_dir_all` (`lintcheck/src/input.rs:293`) -/
  | rmdir (d : String)
  /-- `fs::create_dir` of the directory itself (`lintcheck/src/input.rs:305-306`) -/
  | mkdir (d : String)
  /-- `fs::copy` of one file (`lintcheck/src/input.rs:307-308`) -/
  | copy (d f : String) (x : Nat)
  /-- `fs::remove_file` (`lintcheck/src/input.rs:173-174`) -/
  | rm (d f : String)
  deriving DecidableEq, Repr

/-- A function with one value changed: an entry of a directory is written or removed
(`lintcheck/src/input.rs:218-227`). -/
def put {β : Type} (g : String → β) (k : String) (v : β) : String → β :=
  fun x => if x = k then v else g x

/-- The files of a list, later ones replacing earlier ones, as when they are unpacked or copied in
this order (`lintcheck/src/input.rs:223-227`, `lintcheck/src/input.rs:300-310`). -/
def filesOf (l : List (String × Nat)) : Files :=
  l.foldl (fun g p => put g p.1 (some p.2)) fun _ => none

/-- A file is written into a directory, which is made if it isn't there
(`lintcheck/src/input.rs:223-227`, `lintcheck/src/input.rs:307-308`). -/
def writeFile (s : Disk) (d f : String) (x : Nat) : Disk :=
  match s.dir d with
  | some e => { s with dir := put s.dir d (some { e with files := put e.files f (some x) }) }
  | none => { s with dir := put s.dir d (some ⟨none, put (fun _ => none) f (some x)⟩) }

/-- `git checkout` in a directory: nothing happens (but a message) if the commit is unknown
(`lintcheck/src/input.rs:261-271`).  That files unknown to git are kept is left out. -/
def gitCheckout (w : World) (s : Disk) (d commit : String) : Disk :=
  match s.dir d with
  | some ⟨some url, fs⟩ =>
    match w.repo url commit with
    | some l => { s with dir := put s.dir d (some ⟨some url, filesOf l⟩) }
    | none => { s with dir := put s.dir d (some ⟨some url, fs⟩) }
  | _ => s

/-- A file is removed, if it is there (`lintcheck/src/input.rs:173-174`). -/
def rmFile (s : Disk) (d f : String) : Disk :=
  match s.dir d with
  | some e => { s with dir := put s.dir d (some { e with files := put e.files f none }) }
  | none => s

/-- The effect of a step (`lintcheck/src/input.rs:165-320`). -/
def apply (w : World) (s : Disk) : Op → Disk
  | .create d => { s with arch := put s.arch d true }
  | .fetch _ => s
  | .extract d f x => writeFile s d f x
  | .clone d url => { s with dir := put s.dir d (some ⟨some url, filesOf (w.head url)⟩) }
  | .checkout d commit => gitCheckout w s d commit
  | .rmdir d => { s with dir := put s.dir d none }
  | .mkdir d => { s with dir := put s.dir d (some ⟨none, fun _ => none⟩) }
  | .copy d f x => writeFile s d f x
  | .rm d f => rmFile s d f

/-- Steps one after another (`lintcheck/src/input.rs:164-177`). -/
def applyAll (w : World) (s : Disk) (os : List Op) : Disk := os.foldl (apply w) s

/-- The steps of `download_and_extract` (`lintcheck/src/input.rs:182-320`). -/
def extractOps (w : World) (s : Disk) : Source → List Op
  | .cratesIo n v =>
    let d := n ++ "-" ++ v
    if !s.arch d || (s.dir d).isNone then
      .create d :: .fetch d :: (w.crate n v).map fun p => .extract d p.1 p.2
    else []
  | .git n url commit =>
    let d := n ++ "-git"
    if (s.dir d).isNone then [.clone d url, .checkout d commit] else [.checkout d commit]
  | .path n p =>
    let d := n
    (if (s.dir d).isSome then [.rmdir d] else []) ++
      .mkdir d :: (w.localDir p).map fun q => .copy d q.1 q.2

/-- The steps of `download_and_prepare` (`lintcheck/src/input.rs:164-177`). -/
def prepOps (w : World) (s : Disk) (src : Source) : List Op :=
  extractOps w s src ++ [.rm (dirOf src) "rust-toolchain", .rm (dirOf src) "rust-toolchain.toml"]

/-- A run of lintcheck prepares all sources before Clippy is run on any of them
(`lintcheck/src/main.rs:369-379`); it is interrupted after `k` steps.  The result is the disk, and
where it was interrupted: between which two steps. -/
def prepare (w : World) (k : Nat) (s : Disk) : List Source → Disk × Option (List Op × List Op)
  | [] => (s, none)
  | src :: rest =>
    if (prepOps w s src).length ≤ k then
      prepare w (k - (prepOps w s src).length) (applyAll w s (prepOps w s src)) rest
    else
      (applyAll w s ((prepOps w s src).take k),
        some ((prepOps w s src).take k, (prepOps w s src).drop k))

/-- Runs one after another, each with its list of sources and its number of steps
(`lintcheck/src/main.rs:369-379`, executed again and again). -/
def history (w : World) (s : Disk) : List (List Source × Nat) → Disk
  | [] => s
  | (srcs, k) :: rest => history w (prepare w k s srcs).1 rest

/-- Nothing is there before the first run (the directories are made by
`lintcheck/src/input.rs:329-340`). -/
def empty : Disk := ⟨fun _ => false, fun _ => none⟩

/-- The source of an entry (`lintcheck/src/input.rs:106-155`); nothing stands for a panic. -/
def readEntry (e : Entry) : Option Source :=
  let src :=
    match e.path with
    | some p => some (.path e.name p)
    | none =>
      match e.version with
      | some v => some (.cratesIo e.name v)
      | none =>
        match e.gitUrl, e.gitHash with
        | some u, some h => some (.git e.name u h)
        | _, _ => none
  if (e.version.isSome && (e.gitUrl.isSome || e.gitHash.isSome))
      || e.gitHash.isSome != e.gitUrl.isSome then none
  else src

/-- `get` (`lintcheck/src/input.rs:184-198`), on the results of the attempts; the list has to be long
enough. -/
def get (retries : Nat) : List Attempt → Bool
  | [] => false
  | .ok :: _ => true
  | a :: as =>
    if retries ≥ 4 then false
    else
      match a with
      | .transport => get (retries + 1) as
      | _ => false

end Verif.Sources.Model
