/-!
# Operations on texts and characters

Texts are lists of characters.
-/

namespace Verif.Chars

/-- Texts. -/
abbrev Text := List Char

/-! ## Replacing -/

/-- `s.replace(c, t)` for a character. -/
def replaceChar (c : Char) (t s : Text) : Text := s.flatMap fun x => if x = c then t else [x]

/-- `s.replace([c1, c2, ..], t)`. -/
def replaceAny (cs : List Char) (t s : Text) : Text := s.flatMap fun x => if x ∈ cs then t else [x]

/-- `s.replace(p, t)` for a text `p` that isn't empty, where `k` characters have still to be left out. -/
def replaceFrom (p t : Text) : Nat → Text → Text
  | _, [] => []
  | k + 1, _ :: xs => replaceFrom p t k xs
  | 0, x :: xs => if p.isPrefixOf (x :: xs) then t ++ replaceFrom p t (p.length - 1) xs else x :: replaceFrom p t 0 xs

/-- `s.replace(p, t)` for texts: an empty `p` is found before each character and at the end. -/
def replaceText (p t s : Text) : Text :=
  match p with
  | [] => t ++ s.flatMap fun x => x :: t
  | p => replaceFrom p t 0 s

/-- Patterns: a character, an array of characters, something else. -/
inductive Pat
  | char (c : Char)
  | any (cs : List Char)
  | other (k : Nat)
deriving DecidableEq, Repr

/-- Expressions for texts: a variable or the like, `e.replace(p, to)`, where the expression `to` has a number, and `e.method()`. -/
inductive Expr
  | base (k : Nat)
  | replace (e : Expr) (p : Pat) (to : Nat)
  | method (k : Nat) (e : Expr)
deriving DecidableEq, Repr

/-- What parts of expressions mean. -/
structure Sem where
  base : Nat → Text
  to : Nat → Text
  other : Nat → Text → Text → Text
  method : Nat → Text → Text

/-- The value. -/
def Expr.eval (M : Sem) : Expr → Text
  | .base k => M.base k
  | .replace e (.char c) t => replaceChar c (M.to t) (e.eval M)
  | .replace e (.any cs) t => replaceAny cs (M.to t) (e.eval M)
  | .replace e (.other k) t => M.other k (M.to t) (e.eval M)
  | .method k e => M.method k (e.eval M)

/-- `r.replace(c1, to).replace(c2, to)..`. -/
def chain (to : Nat) (cs : List Char) (r : Expr) : Expr := cs.foldl (fun e c => .replace e (.char c) to) r

/-- Arguments of `replace`: literals, and other code with effects. -/
inductive Arg
  | char (c : Char)
  | str (t : Text)
  | code (k : Nat)
deriving DecidableEq, Repr

/-- The value of an argument, as a text. -/
def Arg.eval {W : Type} (code : Nat → W → Text × W) : Arg → W → Text × W
  | .char c, w => ([c], w)
  | .str t, w => (t, w)
  | .code k, w => code k w

/-! ## Is it ASCII? -/

/-- Values of variables. -/
abbrev Env := Nat → Char

/-- The variable gets a value. -/
def Env.set (e : Env) (x : Nat) (c : Char) : Env := fun y => if y = x then c else e y

/-- Statements: `let y = x;`, `let y = code;`, others. -/
inductive Stmt
  | rename (y x : Nat)
  | bind (y k : Nat)
  | other (k : Nat)
deriving DecidableEq, Repr

/-- Bodies of closures: `x.is_ascii()`, `char::is_ascii(&x)`, `!b`, `{ statements; b }`, others. -/
inductive Body
  | method (x : Nat)
  | call (x : Nat)
  | not (b : Body)
  | block (ss : List Stmt) (b : Body)
  | other (k : Nat)
deriving Repr

/-- What other code does. -/
structure Code where
  value : Nat → Env → Char
  stmt : Nat → Env → Env
  bool : Nat → Env → Bool

/-- Is the character an ASCII one? -/
def asciiChar (c : Char) : Bool := decide (c.toNat < 128)

/-- Statements change the variables. -/
def Stmt.run (M : Code) (e : Env) : Stmt → Env
  | .rename y x => e.set y (e x)
  | .bind y k => e.set y (M.value k e)
  | .other k => M.stmt k e

/-- The value of a body. -/
def Body.eval (M : Code) : Body → Env → Bool
  | .method x, e => asciiChar (e x)
  | .call x, e => asciiChar (e x)
  | .not b, e => !b.eval M e
  | .block ss b, e => b.eval M (ss.foldl (Stmt.run M) e)
  | .other k, e => M.bool k e

/-- `s.chars().all(|x| b)` or `s.chars().any(|x| b)`. -/
def iterate (M : Code) (isAll : Bool) (x : Nat) (b : Body) (e : Env) (s : Text) : Bool :=
  if isAll then s.all fun c => b.eval M (e.set x c) else s.any fun c => b.eval M (e.set x c)

/-- The value of `s.is_ascii()` or `!s.is_ascii()`. -/
def asciiText (neg : Bool) (s : Text) : Bool := neg != s.all asciiChar

/-- The value of `s.is_ascii().m()` or `!s.is_ascii().m()`: the negation comes last. -/
def asciiThen (m : Bool → Bool) (neg : Bool) (s : Text) : Bool := neg != m (s.all asciiChar)

/-! ## The first and the last character -/

/-- `s.chars().next()`, `s.chars().last()`, `s.chars().next_back()`. -/
inductive End
  | next | last | nextBack
deriving DecidableEq, Repr

/-- The character, if there is one. -/
def End.get (s : Text) : End → Option Char
  | .next => s.head?
  | .last => s.getLast?
  | .nextBack => s.getLast?

/-- `chain == Some(c)`, `chain.unwrap() == c` and the same with `!=`; nothing if it panics. -/
def compare (d : End) (unwrap eq : Bool) (c : Char) (s : Text) : Option Bool :=
  if unwrap then (d.get s).map fun x => decide (x = c) == eq else some (decide (d.get s = some c) == eq)

/-- `s.starts_with(c)` or `s.ends_with(c)`, perhaps negated. -/
def startsOrEnds (starts neg : Bool) (c : Char) (s : Text) : Bool :=
  neg != if starts then [c].isPrefixOf s else [c].isSuffixOf s

/-! ## Literals -/

/-- The values of hexadecimal digits. -/
def hexDigit (c : Char) : Option Nat :=
  if '0' ≤ c ∧ c ≤ '9' then some (c.toNat - 48)
  else if 'a' ≤ c ∧ c ≤ 'f' then some (c.toNat - 87)
  else if 'A' ≤ c ∧ c ≤ 'F' then some (c.toNat - 55)
  else none

/-- The value of hexadecimal digits with underscores. -/
def hexValue : Text → Nat → Option Nat
  | [], n => some n
  | '_' :: ds, n => hexValue ds n
  | d :: ds, n => (hexDigit d).bind fun k => hexValue ds (16 * n + k)

/-- What follows a backslash, and the character it stands for. -/
inductive Escape : Text → Char → Prop
  | n : Escape ['n'] '\n'
  | r : Escape ['r'] '\r'
  | t : Escape ['t'] '\t'
  | zero : Escape ['0'] (Char.ofNat 0)
  | backslash : Escape ['\\'] '\\'
  | quote : Escape ['\''] '\''
  | double : Escape ['"'] '"'
  | x (a b : Char) (i j : Nat) : hexDigit a = some i → hexDigit b = some j → i < 8 → Escape ['x', a, b] (Char.ofNat (16 * i + j))
  | u (ds : Text) (v : Nat) : hexValue ds 0 = some v → ds ≠ [] → v.isValidChar → Escape ('u' :: '{' :: ds ++ ['}']) (Char.ofNat v)

/-- The text between the quotes of a character literal means this character. -/
inductive CharLit : Text → Char → Prop
  | plain (c : Char) : c ≠ '\'' → c ≠ '\\' → c ≠ '\n' → c ≠ '\r' → c ≠ '\t' → CharLit [c] c
  | escape (e : Text) (c : Char) : Escape e c → CharLit ('\\' :: e) c

/-- Blanks that are left out after a backslash at the end of a line. -/
def blank (c : Char) : Bool := c == ' ' || c == '\n' || c == '\t' || c == '\r'

/-- The text between the quotes of a string literal means this text. -/
inductive StrLit : Text → Text → Prop
  | nil : StrLit [] []
  | plain (c : Char) (b v : Text) : c ≠ '"' → c ≠ '\\' → c ≠ '\r' → StrLit b v → StrLit (c :: b) (c :: v)
  | escape (e : Text) (c : Char) (b v : Text) : Escape e c → StrLit b v → StrLit ('\\' :: e ++ b) (c :: v)
  | skip (ws b v : Text) : (∀ c ∈ ws, blank c = true) → (∀ c ∈ b.head?, blank c = false) → StrLit b v →
      StrLit ('\\' :: '\n' :: ws ++ b) v

/-- `"lit".chars().any(|c| c == x)`. -/
def anyOf (lit : Text) (x : Char) : Bool := lit.any fun c => c == x

/-- The value of `matches!(x, 'p1' | 'p2' | ..)`, where the texts between the quotes are given; a pattern needs an alternative. -/
def MatchesAny (ps : List Text) (x : Char) (v : Bool) : Prop :=
  ps ≠ [] ∧ ∃ cs : List Char, cs.length = ps.length ∧ (∀ q ∈ cs.zip ps, CharLit q.2 q.1) ∧ v = cs.any fun c => c == x

end Verif.Chars
