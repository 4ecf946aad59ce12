import Verif.StrUtils.Model

/-!
# Repetitions in names

Model of the checks of clippy_lints/src/item_name_repetitions.rs on the names alone (thresholds,
visibility, macros and field types are not modelled).
-/

namespace Verif.StrUtils
open Verif

/-- `a.iter().zip(b).take_while(|(a, b)| a == b).map(|e| e.0)` — item_name_repetitions.rs:260-265. -/
def common (a b : List Str) : List Str := ((a.zip b).takeWhile fun p => p.1 == p.2).map (·.1)

/-- The loop over all names with `pre` and `post` — item_name_repetitions.rs:252-272, 318-336. `none` is
the early return. -/
def affixLoop : (pre post : List Str) → List (List Str) → Option (List Str × List Str)
  | pre, post, [] => some (pre, post)
  | pre, post, ws :: rest =>
      if ws.length = 1 then none
      else affixLoop (common pre ws) (common post ws.reverse) rest

/-- What is reported. -/
inductive Affix
  | pre (value : Str)
  | post (value : Str)
  deriving DecidableEq, Repr

/-- `have_no_extra_prefix` — item_name_repetitions.rs:206-209. -/
def noExtraPrefix (ws : List Str) : Bool := ws.all fun p => p == [] || p == ['_']

/-- The final `match` — item_name_repetitions.rs:273-280, 344-351. -/
def pickAffix : (noPre noPost : Bool) → (pre post : Str) → Option Affix
  | true, true, _, _ => none
  | false, _, pre, _ => some (.pre pre)
  | true, false, _, post => some (.post post)

/-- `check_enum_common_affix` on the words of the variant names — item_name_repetitions.rs:244-292. -/
def enumAffix (splits : List (List Str)) : Option Affix := do
  let first ← splits.head?
  let (pre, post) ← affixLoop first first.reverse splits
  pickAffix (noExtraPrefix pre) post.isEmpty pre.flatten post.reverse.flatten

/-- The same on the names; the outer `none` is a panic. -/
def enumAffixOf (k : Casing) (names : List Str) : Option (Option Affix) :=
  (names.mapM (camelCaseSplit k)).map enumAffix

/-- `join("_")`. -/
def joinUnderscore : List Str → Str
  | [] => []
  | [w] => w
  | w :: ws => w ++ '_' :: joinUnderscore ws

/-- The text of the postfix — item_name_repetitions.rs:339-342. -/
def postfixText (post : List Str) : Str :=
  match post.getLast? with
  | some [] => joinUnderscore post ++ ['_']
  | _ => joinUnderscore post

/-- `check_struct_common_affix` on the field names — item_name_repetitions.rs:294-365, for fields that are
not all of type `bool`. -/
def fieldAffix (names : List Str) : Option Affix := do
  let splits := names.map (Text.split ['_'])
  let first ← splits.head?
  let (pre, post) ← affixLoop first first.reverse splits
  let pfx := joinUnderscore pre
  let pfix := postfixText post.reverse
  if names.length > 1 then pickAffix (pfx.all (· == '_')) pfix.isEmpty pfx pfix else none

/-- `check_enum_start` without the exception for tuple variants — item_name_repetitions.rs:414-431.
`numeric` is `char::is_numeric`. -/
def enumStart (k : Casing) (numeric : Char → Bool) (item name : Str) : Bool :=
  (countMatchStart item name).1 == item.length
    && (match name[item.length]? with | some c => !k.lower c | none => false)
    && (match name[item.length + 1]? with | some c => !numeric c | none => false)

/-- `check_enum_end` without the exception for tuple variants — item_name_repetitions.rs:433-448. -/
def enumEnd (item name : Str) : Bool := (countMatchEnd item name).1 == item.length

/-- "field name starts with the struct's name" — item_name_repetitions.rs:367-411. -/
def fieldStart (k : Casing) (struct field : Str) : Bool :=
  let item := Text.split ['_'] (toSnakeCase k struct)
  let fw := Text.split ['_'] field
  fw.length ≥ item.length && (fw.zip item).all fun p => p.1 == p.2

/-- "field name ends with the struct's name" — item_name_repetitions.rs:367-411. -/
def fieldEnd (k : Casing) (struct field : Str) : Bool :=
  let item := Text.split ['_'] (toSnakeCase k struct)
  let fw := Text.split ['_'] field
  fw.length > item.length && (fw.reverse.zip item.reverse).all fun p => p.1 == p.2

end Verif.StrUtils
