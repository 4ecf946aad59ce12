import Verif.Chars.Spec

/-! Models of `collapsible_str_replace.rs`, `no_effect_replace.rs`, `needless_character_iteration.rs`, `chars_cmp.rs`, `chars_cmp_with_unwrap.rs`,
`manual_str_repeat.rs` and `string_lit_chars_any.rs` in `clippy_lints/src/methods`, and of `str_literal_to_char_literal`. -/

namespace Verif.Chars.Model

open Verif.Chars

/-- `collect_replace_calls` (`clippy_lints/src/methods/collapsible_str_replace.rs:41-65`): the characters, and the receiver of the earliest call
that has been collected. The visitor goes on below other methods and ends at another replacement. Calls in arguments are not modelled, and
equal arguments (`eq_expr_value`) have the same number. -/
def collect (to : Nat) : Expr → Option (List Char × Expr)
  | .base _ => none
  | .method _ e => collect to e
  | .replace e (.char c) t =>
    if t = to then
      match collect to e with
      | none => some ([c], e)
      | some (cs, r) => some (cs ++ [c], r)
    else none
  | .replace _ (.any _) _ => none
  | .replace _ (.other _) _ => none

/-- Is the expression a call of `replace` (`clippy_lints/src/methods/mod.rs:5765-5768`)? -/
def isReplace : Expr → Bool
  | .replace _ _ _ => true
  | .base _ => false
  | .method _ _ => false

/-- The parent replaces the same kind of thing by the same text (`clippy_lints/src/methods/collapsible_str_replace.rs:24-30`). -/
def sameParent (p : Pat) (to : Nat) : Option (Pat × Nat) → Bool
  | none => false
  | some (q, t) =>
    t == to &&
      match p, q with
      | .char _, .char _ => true
      | .any _, .any _ => true
      | .other _, .other _ => true
      | _, _ => false

/-- `collapsible_str_replace::check` (`clippy_lints/src/methods/collapsible_str_replace.rs:13-34`, `:68-96`), called for a receiver that is a
replacement (`clippy_lints/src/methods/mod.rs:5765-5770`). `parent` is what the parent replaces. -/
def collapse (parent : Option (Pat × Nat)) : Expr → Option Expr
  | .replace e p to =>
    if isReplace e then
      match collect to (.replace e p to) with
      | none => none
      | some (cs, r) => if 1 < cs.length ∧ sameParent p to parent = false then some (.replace r (.any cs) to) else none
    else none
  | .base _ => none
  | .method _ _ => none

/-- `lit_string_value` (`clippy_lints/src/methods/no_effect_replace.rs:37-43`). -/
def litStringValue : Arg → Option Text
  | .char c => some [c]
  | .str t => some t
  | .code _ => none

/-- `no_effect_replace::check` (`clippy_lints/src/methods/no_effect_replace.rs:11-35`). Equal syntax (`SpanlessEq`) is equality. -/
def noEffect (a b : Arg) : Bool :=
  match litStringValue a, b with
  | some s, .str t => s == t || a == b
  | _, _ => a == b

/-- `get_last_chain_binding_hir_id` (`clippy_lints/src/methods/utils.rs:142-156`). -/
def lastBinding (x : Nat) : List Stmt → Option Nat
  | [] => some x
  | .rename y z :: ss => if z = x then lastBinding y ss else none
  | .bind _ _ :: _ => none
  | .other _ :: _ => none

/-- A `let` (`clippy_lints/src/methods/needless_character_iteration.rs:53-56`). -/
def isLet : Stmt → Bool
  | .rename _ _ => true
  | .bind _ _ => true
  | .other _ => false

/-- `handle_expr` (`clippy_lints/src/methods/needless_character_iteration.rs:21-96`): is the suggestion negated? -/
def handle (isAll : Bool) : Body → Nat → Bool → Option Bool
  | .method x, p, revert => if revert ≠ isAll ∧ x = p then some revert else none
  | .call x, p, revert => if revert ≠ isAll ∧ x = p then some revert else none
  | .not b, p, revert => handle isAll b p (!revert)
  | .block ss b, p, revert =>
    if ss.any (fun s => !isLet s) then none
    else
      match lastBinding p ss with
      | none => none
      | some q => handle isAll b q revert
  | .other _, _, _ => none

/-- `needless_character_iteration::check` (`clippy_lints/src/methods/needless_character_iteration.rs:98-123`); outer blocks are left to `handle`. -/
def checkAscii (isAll : Bool) (x : Nat) (b : Body) : Option Bool := handle isAll b x false

/-- The comparisons of `chars_next_cmp.rs:7-9`, `chars_last_cmp.rs:8-14`, `chars_next_cmp_with_unwrap.rs:7-15` and
`chars_last_cmp_with_unwrap.rs:8-26` with `chars_cmp::check` (`clippy_lints/src/methods/chars_cmp.rs:12-50`) and
`chars_cmp_with_unwrap::check` (`clippy_lints/src/methods/chars_cmp_with_unwrap.rs:11-42`): `starts_with` or `ends_with`, negated or not. -/
def charsCmp (d : End) (eq : Bool) : Bool × Bool :=
  (match d with | .next => true | .last => false | .nextBack => false, !eq)

/-- How a string literal is written (`StrStyle`): `"body"` or `r##"body"##` with a number of hashes
(used in `clippy_utils/src/source.rs:799-806`). -/
inductive Style
  | cooked
  | raw (hashes : Nat)
deriving DecidableEq, Repr

/-- `&snip[from..to]` (`clippy_utils/src/source.rs:799-806`), in characters instead of bytes: what is cut off are ASCII characters. -/
def slice (snip : Text) (start stop : Nat) : Text := (snip.take stop).drop start

/-- What is cut out of the snippet (`clippy_utils/src/source.rs:799-806`). -/
def inner (style : Style) (snip : Text) : Text :=
  match style with
  | .raw nhash => slice snip (nhash + 2) (snip.length - 1 - nhash)
  | .cooked => slice snip 1 (snip.length - 1)

/-- The replaced escapes (`clippy_utils/src/source.rs:808-816`). -/
def hint (ch : Text) : Text :=
  if ch = ['\''] then ['\\', '\'']
  else if ch = ['\\'] then ['\\', '\\']
  else if ch = ['\\', '"'] then ['"']
  else ch

/-- The bytes of a text (`clippy_utils/src/source.rs:791-795`). -/
def byteLen (value : Text) : Nat := (value.map Char.utf8Size).sum

/-- `str_literal_to_char_literal` (`clippy_utils/src/source.rs:782-822`): the text between the quotes of the character literal. -/
def strToChar (style : Style) (snip value : Text) (asciiOnly : Bool) : Option Text :=
  let len := if asciiOnly then byteLen value else value.length
  if len = 1 then some (hint (inner style snip)) else none

/-- The string literal for a repeated character (`clippy_lints/src/methods/manual_str_repeat.rs:74-81`): the text between its quotes, from the
value and the text between the quotes of the character literal. -/
def repeatText (c : Char) (src : Text) : Text :=
  if c = '\'' then ['\'']
  else if c = '"' then ['\\', '"']
  else src

/-- Hexadecimal digits, as `char::escape_unicode` writes them (used by `{c:?}` in `clippy_lints/src/methods/string_lit_chars_any.rs:42`). -/
def digit (n : Nat) : Char := if n < 10 then Char.ofNat (48 + n) else Char.ofNat (87 + n)

/-- The digits of a number (used by `{c:?}` in `clippy_lints/src/methods/string_lit_chars_any.rs:42`). -/
def hexText (n : Nat) : Text := if n < 16 then [digit n] else hexText (n / 16) ++ [digit (n % 16)]

/-- `format!("{c:?}")` without the quotes (`clippy_lints/src/methods/string_lit_chars_any.rs:42`); which characters are printable is a parameter. -/
def debugChar (printable : Char → Bool) (c : Char) : Text :=
  if c = Char.ofNat 0 then ['\\', '0']
  else if c = '\t' then ['\\', 't']
  else if c = '\r' then ['\\', 'r']
  else if c = '\n' then ['\\', 'n']
  else if c = '\\' then ['\\', '\\']
  else if c = '\'' then ['\\', '\'']
  else if printable c then [c]
  else '\\' :: 'u' :: '{' :: hexText c.toNat ++ ['}']

/-- The alternatives of the pattern in `string_lit_chars_any::check` (`clippy_lints/src/methods/string_lit_chars_any.rs:40-42`): the texts between
the quotes. -/
def litPattern (printable : Char → Bool) (lit : Text) : List Text := lit.map (debugChar printable)

end Verif.Chars.Model
