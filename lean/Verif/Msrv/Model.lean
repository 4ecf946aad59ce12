/-!
# The MSRV in force

Model of clippy_utils/src/msrvs.rs. Attributes are what `parse_attrs` can see of them; parsing a version
text (`rustc_attr_parsing::parse_version`) is a parameter.
-/

namespace Verif.Msrv

/-- `RustcVersion`, ordered lexicographically by the derived `Ord`. -/
structure Version where
  major : Nat
  minor : Nat
  patch : Nat
  deriving DecidableEq, Repr

/-- The derived `Ord` of `RustcVersion`. -/
def Version.le (a b : Version) : Bool :=
  if a.major ≠ b.major then a.major < b.major
  else if a.minor ≠ b.minor then a.minor < b.minor
  else a.patch ≤ b.patch

/-- An attribute: whether its path is `clippy::msrv`, and its value text if it has the form
`path = "value"`. -/
structure Attr where
  isMsrv : Bool
  value : Option String
  deriving DecidableEq, Repr

/-- `parse_attrs` — msrvs.rs:257-263. -/
def parseAttrs (parse : String → Option Version) (attrs : List Attr) : Option Version := do
  let a ← attrs.find? (·.isMsrv)
  let v ← a.value
  parse v

/-- `MsrvStack::from` — msrvs.rs:225-232. The head of the list is the top of the stack. -/
def stackFrom (conf : Option Version) : List Version := conf.toList

/-- `MsrvStack::current` — msrvs.rs:235-237. -/
def stackCurrent (st : List Version) : Option Version := st.head?

/-- `MsrvStack::check_attributes`, with the flag `SEEN_MSRV_ATTR` — msrvs.rs:243-248. -/
def checkAttributes (parse : String → Option Version) (attrs : List Attr) (st : List Version × Bool) :
    List Version × Bool :=
  match parseAttrs parse attrs with
  | some v => (v :: st.1, true)
  | none => st

/-- `MsrvStack::check_attributes_post` — msrvs.rs:250-254. -/
def checkAttributesPost (parse : String → Option Version) (attrs : List Attr) (st : List Version × Bool) :
    List Version × Bool :=
  if (parseAttrs parse attrs).isSome then (st.1.tail, st.2) else st

/-- `MsrvStack::meets` and `Msrv::meets`, given the version in force — msrvs.rs:149-158, 239-241. -/
def meets (current : Option Version) (required : Version) : Bool :=
  match current with
  | none => true
  | some v => required.le v

/-- A syntax tree: a name for the node, its attributes, its children. -/
inductive Tree where
  | node (id : Nat) (attrs : List Attr) (children : List Tree)

/-- What a lint pass can ask at a node: the version in force while the node is visited. -/
abbrev Observation := Nat × Option Version

mutual
/-- The early lint walk: the compiler calls `check_attributes` before a node, visits it and its children,
then calls `check_attributes_post` (macro `extract_msrv_attr!`, clippy_utils/src/lib.rs:134-146). The
version observed at each node is recorded. -/
def walk (parse : String → Option Version) (st : List Version × Bool) : Tree →
    List Observation × (List Version × Bool)
  | .node id attrs children =>
      let st1 := checkAttributes parse attrs st
      let (obs, st2) := walkList parse st1 children
      ((id, stackCurrent st1.1) :: obs, checkAttributesPost parse attrs st2)
/-- The children of a node, in order. -/
def walkList (parse : String → Option Version) (st : List Version × Bool) : List Tree →
    List Observation × (List Version × Bool)
  | [] => ([], st)
  | t :: ts =>
      let (obs, st1) := walk parse st t
      let (obs', st2) := walkList parse st1 ts
      (obs ++ obs', st2)
end

/-- `Msrv::for_attrs` — msrvs.rs:138-143; `chain` lists the attributes of the node and of its parents,
innermost first. -/
def forAttrs (parse : String → Option Version) (conf : Option Version) (chain : List (List Attr)) :
    Option Version :=
  (chain.findSome? (parseAttrs parse)).or conf

/-- `Msrv::at` and `Msrv::current` — msrvs.rs:118-136. -/
def lateAt (parse : String → Option Version) (conf : Option Version) (seen : Bool)
    (chain : List (List Attr)) : Option Version :=
  if seen then forAttrs parse conf chain else conf

/-- Stability of a library item — `StabilityLevel`, `StableSince` of the compiler. -/
inductive Stability where
  | unstable
  | since (v : Version)
  | sinceCurrent
  | sinceErr
  deriving DecidableEq, Repr

/-- `Msrv::stability_met` — msrvs.rs:198-215; `rustc` is `RustcVersion::CURRENT`. -/
def stabilityMet (rustc : Version) (current : Option Version) (level : Option Stability) : Bool :=
  match level with
  | none => true
  | some .unstable => false
  | some (.since v) => meets current v
  | some .sinceCurrent => meets current rustc
  | some .sinceErr => false

end Verif.Msrv
