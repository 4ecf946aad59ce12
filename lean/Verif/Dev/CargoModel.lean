import Verif.Common.Text

/-!
# Bumping the version

Model of `parse_cargo_package` in `/repo/clippy_dev/src/utils.rs` and of `/repo/clippy_dev/src/release.rs`. Positions
count characters instead of bytes.
-/

namespace Verif.Dev

/-- `char::is_whitespace`. -/
def isWs (c : Char) : Bool :=
  let n := c.toNat
  (9 ≤ n && n ≤ 13) || n == 0x20 || n == 0x85 || n == 0xA0 || n == 0x1680 || (0x2000 ≤ n && n ≤ 0x200A) ||
    n == 0x2028 || n == 0x2029 || n == 0x202F || n == 0x205F || n == 0x3000

/-- `str::trim_start`. -/
def trimStart (s : Str) : Str := s.dropWhile isWs

/-- `str::trim_end`. -/
def trimEnd (s : Str) : Str := (s.reverse.dropWhile isWs).reverse

/-- `str::trim`. -/
def trim (s : Str) : Str := trimEnd (trimStart s)

/-- `TomlPart`, utils.rs:195-198. -/
inductive TomlPart
  | table (name : Str)
  | value (key value : Str)
deriving DecidableEq, Repr

/-- The first character of a key, utils.rs:211. -/
def isKeyStart (c : Char) : Bool :=
  (97 ≤ c.toNat && c.toNat ≤ 122) || (65 ≤ c.toNat && c.toNat ≤ 90) || (48 ≤ c.toNat && c.toNat ≤ 57) || c == '_'

/-- The closure of `filter_map` in `toml_iter`, utils.rs:208-216. -/
def tomlPart (line : Str) : Option TomlPart :=
  match line with
  | [] => none
  | c :: cs =>
    if c = '[' then
      match Text.splitOnce ']' cs with
      | (name, some _) => some (.table name)
      | (_, none) => none
    else if isKeyStart c then
      match Text.splitOnce '=' (c :: cs) with
      | (key, some value) => some (.value key value)
      | (_, none) => none
    else none

/-- The local variables of `parse_cargo_package`, utils.rs:227-231. -/
structure CargoState where
  inPackage : Bool
  inPlatform : Bool
  name : Str
  vstart : Nat
  vend : Nat
  pstart : Nat
  pend : Nat
deriving DecidableEq, Repr

/-- The body of the loop, utils.rs:233-259. -/
def cargoStep (st : CargoState) (offset : Nat) : TomlPart → CargoState
  | .table name =>
    let st := if st.inPlatform then { st with pend := offset } else st
    let st := { st with inPackage := false, inPlatform := false }
    if trim name = str!"package" then { st with inPackage := true }
    else if trim name = str!"target.'cfg(NOT_A_PLATFORM)'.dependencies" then
      { st with inPlatform := true, pstart := offset }
    else st
  | .value key value =>
    if st.inPackage then
      if trimEnd key = str!"name" then { st with name := trim value }
      else if trimEnd key = str!"version" then
        { st with
          vstart := offset + (value.length - (trim value).length) + key.length + 1
          vend := offset + key.length + (trimEnd value).length + 1 }
      else st
    else st

/-- The loop over `toml_iter`, utils.rs:200-207 and 232-260; `pos` is the position of the line. -/
def cargoLoop : Nat → CargoState → List Str → CargoState
  | _, st, [] => st
  | pos, st, l :: ls =>
    cargoLoop (pos + (l.length + 1)) (match tomlPart l with
      | some p => cargoStep st pos p
      | none => st) ls

/-- `parse_cargo_package`, utils.rs:226-266. -/
def parseCargo (s : Str) : CargoState := cargoLoop 0 ⟨false, false, [], 0, 0, 0, 0⟩ (Text.split ['\n'] s)

/-- `s.get(a..b)`, none if the range is not inside the text. -/
def getRange (s : Str) (a b : Nat) : Option Str :=
  if a ≤ b ∧ b ≤ s.length then some ((s.drop a).take (b - a)) else none

/-- The closure in `bump_version`, release.rs:17-28: the new text and whether it is reported as changed; `new` is the
quoted version. -/
def bumpFile (new src : Str) : Str × Bool :=
  let p := parseCargo src
  if p.vend ≤ p.vstart then (src, false)
  else
    let dst := src.take p.vstart ++ new ++ src.drop p.vend
    (dst, decide (getRange src p.vstart p.vend ≠ getRange dst p.vstart p.vend))

end Verif.Dev
