import Verif.Local.Syntax

/-!
# Model: constants and where they come from

`ConstEvalCtxt` of `/repo/clippy_utils/src/consts.rs` with `ConstantSource`.  The arithmetic is modelled in
`Verif.Consts`; here it is a parameter.
-/

namespace Verif.Local

/-- What does not depend on other definitions: the standard library, and the arithmetic. -/
structure Lib where
  /-- The constants listed in `fetch_path`, `/repo/clippy_utils/src/consts.rs:777-873`. -/
  known : Nat → Bool
  std : Nat → Option Const
  /-- `i8::max_value` and so on, `/repo/clippy_utils/src/consts.rs:660-667`. -/
  call : Nat → Option Const
  not : Nat → Const → Option Const
  neg : Nat → Const → Option Const
  /-- All of `binop` but `&&` and `||`. -/
  bin : Nat → Nat → Const → Const → Option Const
  /-- `field_of_struct`. -/
  hasField : Nat → Nat → Bool
  field : Nat → Nat → Option Const
  nan : Nat → Nat → Bool

/-- The other definitions. -/
structure World where
  /-- The path names a constant. -/
  isConst : Nat → Bool
  value : Nat → Option Const
  /-- The length of `[_; N]`. -/
  len : Nat → Option Nat

/-- A result, and whether `source` was set to `NonLocal`. -/
abbrev Res := Option Const × Bool

/-- `fetch_path` and `qpath`, `/repo/clippy_utils/src/consts.rs:616-619` and `772-905`. -/
def fetch (lib : Lib) (w : World) (c : Ctxt) (segs : List Ctxt) (p : Nat) : Res :=
  if lib.known p && segs.all (· == c) then (lib.std p, false)
  else if w.isConst p then (w.value p, true)
  else (none, false)

/-- The length, `n.try_to_target_usize`, `/repo/clippy_utils/src/consts.rs:638-642`. -/
def length (w : World) : Len → Option Nat
  | .num n => some n
  | .named n => w.len n

/-- Unary operators, `/repo/clippy_utils/src/consts.rs:645-649`. -/
def unary (lib : Lib) (ty : Nat) (o : Const) : UnOp → Option Const
  | .not => lib.not ty o
  | .neg => lib.neg ty o
  | .deref => match o with
    | .ref r => some r
    | _ => some o

/-- The end of `binop`, `/repo/clippy_utils/src/consts.rs:1088-1098`. -/
def binop (lib : Lib) (op : BinOp) (ty : Nat) (l : Const) (r : Option Const) : Option Const :=
  match op, l, r with
  | .and, .bool false, _ => some (.bool false)
  | .or, .bool true, _ => some (.bool true)
  | .and, .bool true, some r => some r
  | .or, .bool false, some r => some r
  | .other o, l, some r => lib.bin o ty l r
  | _, _, _ => none

/-- Only floating point numbers are taken out of arrays, `/repo/clippy_utils/src/consts.rs:912-918`. -/
def onlyFloat : Option Const → Option Const
  | some (.float w b) => some (.float w b)
  | _ => none

/-- `Constant::eq`, `/repo/clippy_utils/src/consts.rs:128-149`, for `f32` and `f64`; other widths are never equal. -/
def floatEq (lib : Lib) (c : Const) (w b : Nat) : Bool :=
  match c with
  | .float w' b' => w' == w && (w == 32 || w == 64) && b' == b && !lib.nan w' b'
  | _ => false

/-- An index that is not known, `/repo/clippy_utils/src/consts.rs:919-931`. -/
def anyIndex (lib : Lib) : List Const → Option Const
  | .float w b :: cs => if (Const.float w b :: cs).all fun x => floatEq lib x w b then some (.float w b) else none
  | _ => none

/-- The two cases of an array, on a machine with 64 bits. -/
def indexIn (lib : Lib) (cs : List Const) : Option Const → Option Const
  | some (.int n) => onlyFloat cs[n % 2 ^ 64]?
  | _ => anyIndex lib cs

/-- `index`, `/repo/clippy_utils/src/consts.rs:911-933`. -/
def index (lib : Lib) (a i : Option Const) : Option Const :=
  match a with
  | some (.vec cs) => indexIn lib cs i
  | _ => none

/-- The tokens which are left out, `/repo/clippy_utils/src/consts.rs:953`. -/
def blank : Tok → Bool
  | .whitespace => true
  | .lineComment => true
  | .blockComment => true
  | .semi => true
  | _ => false

/-- Is code hidden in front of the final expression?  `/repo/clippy_utils/src/consts.rs:942-962`. -/
def hides (c : Ctxt) (text : Option (List Tok)) : Bool :=
  if c = 0 then
    match text with
    | some ts => ts.filter (fun t => !blank t) != [.openBrace]
    | none => true
  else false

/-- `check_ctxt`, `/repo/clippy_utils/src/consts.rs:610-614`. -/
def mark (b : Bool) (r : Res) : Res := (r.1, b || r.2)

/-- `Field`, `/repo/clippy_utils/src/consts.rs:674-688`. -/
def fieldOf (lib : Lib) (c fc : Ctxt) (f : Nat) (base : Res) : Res :=
  match base.1 with
  | some (.adt a) => if lib.hasField a f then (lib.field a f, (fc != c) || base.2) else (none, base.2)
  | _ => (none, base.2)

/-- `ifthenelse`, `/repo/clippy_utils/src/consts.rs:970-980`. -/
def choose (c t e : Res) : Res :=
  match c.1 with
  | some (.bool true) => mark c.2 t
  | some (.bool false) => mark c.2 e
  | _ => (none, c.2)

/-- `let l = self.expr(left)?; let r = self.expr(right);`, `/repo/clippy_utils/src/consts.rs:984-986`. -/
def both (l r : Res) (k : Const → Option Const → Option Const) : Res :=
  match l.1 with
  | some a => (k a r.1, l.2 || r.2)
  | none => (none, l.2)

mutual
/-- `expr`, `/repo/clippy_utils/src/consts.rs:622-691`. -/
def expr (lib : Lib) (w : World) (c : Ctxt) : Ex → Res
  | .mk ec k => mark (ec != c) (kind lib w c k)
/-- The cases of `expr`; `block`, `/repo/clippy_utils/src/consts.rs:937-968`. -/
def kind (lib : Lib) (w : World) (c : Ctxt) : Kind → Res
  | .constBlock e => expr lib w c e
  | .temps e => expr lib w c e
  | .path segs p => fetch lib w c segs p
  | .block bc text stmts e =>
    if stmts then (none, bc != c) else mark ((bc != c) || hides bc text) (expr lib w c e)
  | .unitBlock bc => (none, bc != c)
  | .lit lc v => (some v, lc != c)
  | .arr es => ((multi lib w c es).1.map .vec, (multi lib w c es).2)
  | .tup es => ((multi lib w c es).1.map .tuple, (multi lib w c es).2)
  | .rep e n =>
    match length w n with
    | some n => ((expr lib w c e).1.map fun v => .rep v n, (expr lib w c e).2)
    | none => (none, false)
  | .un op ty e => ((expr lib w c e).1.bind fun o => unary lib ty o op, (expr lib w c e).2)
  | .ifThen co t => choose (expr lib w c co) (expr lib w c t) (none, false)
  | .ifElse co t e => choose (expr lib w c co) (expr lib w c t) (expr lib w c e)
  | .bin op ty l r => both (expr lib w c l) (expr lib w c r) (binop lib op ty)
  | .call _ f => (lib.call f, false)
  | .idx a i => (index lib (expr lib w c a).1 (expr lib w c i).1, (expr lib w c a).2 || (expr lib w c i).2)
  | .ref e => ((expr lib w c e).1.map .ref, (expr lib w c e).2)
  | .field e fc plain f => if plain then fieldOf lib c fc f (expr lib w c e) else (none, false)
  | .other => (none, false)
/-- `multi`, `/repo/clippy_utils/src/consts.rs:766-768`: stops at the first element that is not constant. -/
def multi (lib : Lib) (w : World) (c : Ctxt) : Elems → Option (List Const) × Bool
  | .nil => (some [], false)
  | .cons _ e es =>
    match (expr lib w c e).1 with
    | some v => ((multi lib w c es).1.map (v :: ·), (expr lib w c e).2 || (multi lib w c es).2)
    | none => (none, (expr lib w c e).2)
end

/-- `eval`, `/repo/clippy_utils/src/consts.rs:565-567`. -/
def eval (lib : Lib) (w : World) (c : Ctxt) (e : Ex) : Option Const := (expr lib w c e).1

/-- `eval_with_source` and `eval_local`, `/repo/clippy_utils/src/consts.rs:558-580`. -/
def evalLocal (lib : Lib) (w : World) (c : Ctxt) (e : Ex) : Option Const :=
  if (expr lib w c e).2 then none else (expr lib w c e).1

end Verif.Local
