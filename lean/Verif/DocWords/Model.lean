import Verif.DocWords.Spec

/-!
# Model: doc/markdown.rs
-/

namespace Verif.DocWords

/-- The settings — clippy_lints/src/doc/markdown.rs:12-20, 129-132: known identifiers, what is an address, and whether this is in code or in a quote. -/
structure Cfg where
  valid : List Word
  url : Word → Bool
  code : Bool
  quote : Bool

/-- `str::len` in bytes — clippy_lints/src/doc/markdown.rs:35, 51, 62. -/
def bytes : Word → Nat
  | [] => 0
  | c :: r => c.utf8Size + bytes r

/-- The first `n` bytes, if they end between characters — clippy_lints/src/doc/markdown.rs:29, 62 (`str::get`). -/
def splitBytes : Nat → Word → Option (Word × Word)
  | n, [] => if n = 0 then some ([], []) else none
  | n, c :: r =>
    if n = 0 then some ([], c :: r)
    else if n < c.utf8Size then none
    else match splitBytes (n - c.utf8Size) r with
      | some (a, b) => some (c :: a, b)
      | none => none

/-- `s.get(a..b)` — clippy_lints/src/doc/markdown.rs:29, 62. -/
def get (s : Slice) (a b : Nat) : Option Slice :=
  match splitBytes a s.w with
  | none => none
  | some (x, y) =>
    match splitBytes (b - a) y with
    | none => none
    | some (w, z) => some ⟨s.l ++ x, w, z ++ s.r⟩

/-- `trim_start_matches` — clippy_lints/src/doc/markdown.rs:36, 40. -/
def trimStart (p : Char → Bool) (s : Slice) : Slice := ⟨s.l ++ s.w.takeWhile p, s.w.dropWhile p, s.r⟩

/-- `trim_end_matches` — clippy_lints/src/doc/markdown.rs:26, 43. -/
def trimEnd (p : Char → Bool) (s : Slice) : Slice :=
  ⟨s.l, (s.w.reverse.dropWhile p).reverse, (s.w.reverse.takeWhile p).reverse ++ s.r⟩

/-- The words between white space and apostrophes — clippy_lints/src/doc/markdown.rs:21; `l` is the text before, `cur` the word so far. -/
def split (k : Cls) (l cur : Word) : Word → List Slice
  | [] => [⟨l, cur, []⟩]
  | c :: r => if k.space c || c == '\'' then ⟨l, cur, c :: r⟩ :: split k (l ++ cur ++ [c]) [] r else split k l (cur ++ [c]) r

/-- `trim_pattern` — clippy_lints/src/doc/markdown.rs:25. -/
def pattern (k : Cls) (c : Char) : Bool := !k.alnum c && c != ':'

/-- `()` is taken back — clippy_lints/src/doc/markdown.rs:28-33. -/
def claw (orig w : Slice) : Slice :=
  match get orig 0 (bytes w.w + 2) with
  | some t => if ['(', ')'].isSuffixOf t.w then t else w
  | none => w

/-- A single colon in front — clippy_lints/src/doc/markdown.rs:39-41. -/
def uncolonStart (w : Slice) : Slice :=
  if [':'].isPrefixOf w.w && ![':', ':'].isPrefixOf w.w then trimStart (· == ':') w else w

/-- A single colon at the end — clippy_lints/src/doc/markdown.rs:42-44. -/
def uncolonEnd (w : Slice) : Slice :=
  if [':'].isSuffixOf w.w && ![':', ':'].isSuffixOf w.w then trimEnd (· == ':') w else w

/-- Taking in closing parentheses — clippy_lints/src/doc/markdown.rs:61-67; the number is that of those still missing. -/
def extend (orig : Slice) (diff : Nat) : Nat → Slice → Slice
  | 0, w => w
  | n + 1, w =>
    match get orig diff (bytes w.w + diff + 1) with
    | some t => if [')'].isSuffixOf t.w then extend orig diff n t else w
    | none => w

/-- The parentheses that are missing — clippy_lints/src/doc/markdown.rs:52-60. -/
def missing (w : Word) : Nat := w.countP (· == '(') - w.countP (· == ')')

/-- The word without punctuation — clippy_lints/src/doc/markdown.rs:25-36. -/
def trimmed (k : Cls) (orig : Slice) : Slice := claw orig (trimEnd (pattern k) orig)

/-- The word without single colons — clippy_lints/src/doc/markdown.rs:36-44. -/
def core (k : Cls) (orig : Slice) : Slice := uncolonEnd (uncolonStart (trimStart (pattern k) (trimmed k orig)))

/-- One word of `check` — clippy_lints/src/doc/markdown.rs:21-70. -/
def process (k : Cls) (g : Cfg) (orig : Slice) : Option Slice :=
  let w := core k orig
  if g.valid.contains w.w || w.w.all (· == ':') then none
  else some (extend orig (bytes (trimmed k orig).w - bytes w.w) (missing w.w) w)

/-- `contains` for a text — clippy_lints/src/doc/markdown.rs:122, 162. -/
def has (x : Word) : Word → Bool
  | [] => x.isEmpty
  | c :: r => x.isPrefixOf (c :: r) || has x r

/-- `has_underscore` — clippy_lints/src/doc/markdown.rs:121-123. -/
def hasUnderscore (w : Word) : Bool := w != ['_'] && !has ['\\', '_'] w && w.contains '_'

/-- `has_hyphen` — clippy_lints/src/doc/markdown.rs:125-127. -/
def hasHyphen (w : Word) : Bool := w != ['-'] && w.contains '-'

/-- `strip_suffix` — clippy_lints/src/doc/markdown.rs:103-113. -/
def stripSuffix (x w : Word) : Option Word :=
  if x.isSuffixOf w then some (w.take (w.length - x.length)) else none

/-- `matches!(prefix.chars().last(), Some('S' | 'X'))` — clippy_lints/src/doc/markdown.rs:105. -/
def lastSX (p : Word) : Bool :=
  match p.getLast? with
  | some c => c == 'S' || c == 'X'
  | none => false

/-- `s` without its ending — clippy_lints/src/doc/markdown.rs:103-114. -/
def stem (w : Word) : Word :=
  match (stripSuffix ['e', 's'] w).filter (fun p => p.all Char.isUpper && lastSX p) with
  | some p => p
  | none =>
    match (stripSuffix ['i', 'f', 'i', 'e', 'd'] w).filter (fun p => p.all Char.isUpper) with
    | some p => p
    | none => (stripSuffix ['s'] w).getD w

/-- The first character is a digit or a small letter — clippy_lints/src/doc/markdown.rs:99. -/
def startsLow : Word → Bool
  | c :: _ => c.isDigit || c.isLower
  | [] => false

/-- `is_camel_case` — clippy_lints/src/doc/markdown.rs:98-119. -/
def isCamel (k : Cls) (w : Word) : Bool :=
  if startsLow w then false
  else (stem w).all k.alnum && decide (1 < (((stem w).filter k.upper).take 2).length) && decide (0 < (((stem w).filter k.lower).take 1).length)

/-- `check_word` — clippy_lints/src/doc/markdown.rs:85-186. -/
def checkWord (k : Cls) (g : Cfg) (w : Word) : Option Kind :=
  if g.url w then some .url
  else if g.code || g.quote || (hasUnderscore w && hasHyphen w) then none
  else if hasUnderscore w || has [':', ':'] w || isCamel k w || ['(', ')'].isSuffixOf w then some .ticks
  else none

/-- What is reported for one word — clippy_lints/src/doc/markdown.rs:21-82. -/
def report (k : Cls) (g : Cfg) (orig : Slice) : Option (Slice × Kind) :=
  match process k g orig with
  | none => none
  | some w =>
    match checkWord k g w.w with
    | none => none
    | some kind => some (w, kind)

/-- `check` — clippy_lints/src/doc/markdown.rs:12-83. -/
def check (k : Cls) (g : Cfg) (text : Word) : List (Slice × Kind) := (split k [] [] text).filterMap (report k g)

end Verif.DocWords
