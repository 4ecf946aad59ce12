/-!
# Configuration: file lookup, key table, list options, item-order groupings
-/

namespace Verif.Config

/-! ## Finding the configuration file -/

/-- What happens when the file `dir/name` is looked at: `absent` — `canonicalize` fails;
`notAFile` — `load_file` fails with `NotFound`, `IsADirectory` or `NotADirectory`; `error` — it
fails otherwise; `file src` — it loads. -/
inductive Probe (σ : Type) where
  | absent
  | notAFile
  | error
  | file (src : σ)
deriving Repr, DecidableEq

/-- The candidate file names — clippy_config/src/conf.rs:865. -/
inductive ConfName where
  | dotClippy
  | clippy
deriving Repr, DecidableEq

/-- Diagnostics of the search. -/
inductive LookupDiag where
  | ignored        -- "using config file .., .. will be ignored"
  | readError      -- "error reading .."
deriving Repr, DecidableEq

/-- The body of the `for config_file_name in CONFIG_FILE_NAMES` loop over the remaining names —
conf.rs:890-917. `none` for the search result means `return None` after an error. The metadata
check of an already loaded file (conf.rs:893) is taken to succeed. -/
def probeDir {σ : Type} (look : ConfName → Probe σ) :
    List ConfName → Option σ → List LookupDiag → Option (Option σ) × List LookupDiag
  | [], loaded, ds => (some loaded, ds)
  | n :: ns, loaded, ds =>
      match look n with
      | .absent => probeDir look ns loaded ds
      | p =>
        match loaded with
        | some _ => probeDir look ns loaded (ds ++ [.ignored])
        | none =>
          match p with
          | .file src => probeDir look ns (some src) ds
          | .error => (none, ds ++ [.readError])
          | _ => probeDir look ns none ds

/-- The outer `loop` over the start directory and its ancestors — conf.rs:889-928. `dirs` is the
canonicalised start directory followed by its ancestors up to the root. -/
def loadConf {δ σ : Type} (fs : δ → ConfName → Probe σ) : List δ → Option σ × List LookupDiag
  | [] => (none, [])
  | d :: ds =>
      match probeDir (fs d) [.dotClippy, .clippy] none [] with
      | (none, diags) => (none, diags)
      | (some (some src), diags) => (some src, diags)
      | (some none, diags) =>
          let (r, diags') := loadConf fs ds
          (r, diags ++ diags')

/-- The start directory: `CLIPPY_CONF_DIR`, else `CARGO_MANIFEST_DIR`, else `.` — conf.rs:869-879. -/
def startDir {π : Type} (clippyConfDir cargoManifestDir : Option π) (dot : π) : π :=
  ([clippyConfDir, cargoManifestDir].findSome? id).getD dot

/-- Merging of the configured and the cargo MSRV — conf.rs:958-971; the flag says whether the
"differ" warning is emitted. -/
def mergeMsrv {ν : Type} [DecidableEq ν] (conf cargo : Option ν) : Option ν × Bool :=
  match conf, cargo with
  | none, some c => (some c, false)
  | some v, some c => (some v, v != c)
  | v, none => (v, false)

/-! ## The key table -/

/-- One entry of `define_Conf!` — conf.rs:74-84: its toml name, the target of `#[rename = ..]` if any,
and whether a type is given. -/
structure FieldDecl where
  name : String
  renamedTo : Option String
  typed : Bool
deriving Repr, DecidableEq

abbrev Schema := List FieldDecl

/-- `ConfField::parse` — conf.rs:104-110 (string patterns are tried in order). -/
def Schema.parse (s : Schema) (key : String) : Option FieldDecl :=
  s.find? (fun d => d.name == key)

inductive KeyDiag where
  | unknownField (key : String)
  | deprecatedField (key new : String)
  | duplicateKey (key new : String)
deriving Repr, DecidableEq

/-- What one table entry does: assign a field, or nothing. `diverges` stands for an endless inner
`loop` (a rename cycle). -/
inductive Action where
  | assign (field : String)
  | nothing
  | diverges
deriving Repr, DecidableEq

/-- The inner `loop` — conf.rs:158-196, started with field `cur`. `present k` is
`table.get_key_value(k).is_some()`. An entry whose `ConfField` has no type falls into the `_` arm;
its new field is the `#[rename]` target (`FIELDS`, conf.rs:93), or itself if there is none. The
fuel bounds the number of renames followed. -/
def resolve (s : Schema) (present : String → Bool) (key : String) :
    Nat → String → Action × List KeyDiag
  | 0, _ => (.diverges, [])
  | fuel + 1, cur =>
      if cur = "third-party" then (.nothing, [])
      else
        match s.parse cur with
        | none => (.nothing, [])   -- not reachable: `cur` is always a `ConfField`
        | some d =>
          if d.typed then (.assign cur, [])
          else
            let new := d.renamedTo.getD cur
            if present new then (.nothing, [.deprecatedField key new, .duplicateKey key new])
            else
              let (a, ds) := resolve s present key fuel new
              (a, .deprecatedField key new :: ds)

/-- The treatment of one `(key, value)` entry — conf.rs:147-197. -/
def entryAction (s : Schema) (present : String → Bool) (key : String) : Action × List KeyDiag :=
  if (s.parse key).isNone ∧ key ≠ "third-party" then (.nothing, [.unknownField key])
  else resolve s present key (s.length + 1) key

/-- `Conf::deserialize` — conf.rs:144-204. `deser f v` is the typed field's
`deserialize_or_default`; fields are collected in a partial map. -/
def deserialize {V T : Type} (s : Schema) (deser : String → V → T) (table : List (String × V)) :
    (String → Option T) × List KeyDiag :=
  table.foldl
    (fun (st : (String → Option T) × List KeyDiag) (kv : String × V) =>
      let (a, ds) := entryAction s (fun k => table.any (fun e => e.1 == k)) kv.1
      let vals := match a with
        | .assign f => fun g => if g = f then some (deser f kv.2) else st.1 g
        | _ => st.1
      (vals, st.2 ++ ds))
    (fun _ => none, [])

/-- The final field value — conf.rs:199-203. -/
def fieldValue {V T : Type} (s : Schema) (deser : String → V → T) (default : String → T)
    (table : List (String × V)) (f : String) : T :=
  ((deserialize s deser table).1 f).getD (default f)

/-! ## List options -/

/-- State of the `filter` closure and the collected values in `deserialize_array` —
clippy_config/src/de.rs:492-507. `isDots` recognises the string `..`; `deser` is `T::deserialize`.
Returns the collected values, `has_default`, and the number of "duplicate `..`" warnings. -/
def arrayLoop {V T : Type} (isDots : V → Bool) (deser : V → Option T) :
    List V → Bool → List T × Bool × Nat
  | [], has => ([], has, 0)
  | v :: vs, has =>
      if isDots v then
        let (r, h, w) := arrayLoop isDots deser vs true
        (r, h, if has then w + 1 else w)
      else
        let (r, h, w) := arrayLoop isDots deser vs has
        match deser v with
        | some t => (t :: r, h, w)
        | none => (r, h, w)

/-- `deserialize_array` into a `Vec` — de.rs:484-516; `values = none` means the toml value is not an
array (an error is reported and the default used). The flag reports that error. -/
def deserializeArray {V T : Type} (isDots : V → Bool) (deser : V → Option T) (default : List T)
    (values : Option (List V)) : List T × Bool :=
  match values with
  | none => (default, true)
  | some vs =>
      let (res, has, _) := arrayLoop isDots deser vs false
      (if has then res ++ default else res, false)

/-! ## Item-order groupings -/

/-- `SourceItemOrderingModuleItemKind` — clippy_config/src/types.rs:445-462. -/
inductive Kind where
  | externCrate | mod | foreignMod | use | macro | globalAsm | static | const | tyAlias | enum
  | struct | union | trait | traitAlias | impl | fn
deriving Repr, DecidableEq

/-- `all_variants` — types.rs:466-487. -/
def allVariants : List Kind :=
  [.externCrate, .mod, .foreignMod, .use, .macro, .globalAsm, .static, .const, .tyAlias, .enum,
   .struct, .union, .trait, .traitAlias, .impl, .fn]

abbrev Groups := List (String × List Kind)

/-- Inner loop of `build_lut` — types.rs:513-515. -/
def lutGroup (idx : Nat) (items : List Kind) (lut : Kind → Option Nat) : Kind → Option Nat :=
  items.foldl (fun l it => fun k => if k = it then some idx else l k) lut

/-- Outer loop of `build_lut` with the index of the next group — types.rs:512-517. -/
def lutLoop : Nat → Groups → (Kind → Option Nat) → (Kind → Option Nat)
  | _, [], lut => lut
  | i, g :: gs, lut => lutLoop (i + 1) gs (lutGroup i g.2 lut)

/-- `build_lut` — types.rs:508-518. -/
def buildLut (groups : Groups) : Kind → Option Nat := lutLoop 0 groups (fun _ => none)

inductive GroupError where
  | internal | useNotAlone | wrongCount | missing
deriving Repr, DecidableEq

/-- Checks of `SourceItemOrderingModuleItemGroupings::deserialize` on the parsed groups —
types.rs:570-616. On success the groups and the table behind `module_level_order_of` are returned. -/
def checkGroups (groups : Groups) : Except GroupError (Groups × (Kind → Option Nat)) :=
  let itemsTotal := (groups.map (fun g => g.2.length)).sum
  let lut := buildLut groups
  let expected := allVariants.filter (fun i => (lut i).isNone)
  if expected.isEmpty && itemsTotal == allVariants.length then
    match lut .use with
    | none => .error .internal
    | some i =>
      match groups[i]? with
      | none => .error .internal
      | some (_, items) =>
          if items.length > 1 then .error .useNotAlone else .ok (groups, lut)
  else if itemsTotal ≠ allVariants.length then .error .wrongCount
  else .error .missing

end Verif.Config
