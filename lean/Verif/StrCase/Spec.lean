/-!
# Matches on strings in another case: what is meant

Strings are lists of characters. The tables of Unicode and the values of other code are parameters.
-/

namespace Verif.StrCase

/-- The methods that change the case of a string. -/
inductive Method
  | lower | asciiLower | upper | asciiUpper
deriving DecidableEq, Repr

/-- Unicode: the small and large forms of a character, and whether a sigma between two texts ends a word. -/
structure Unicode where
  lower : Char → List Char
  upper : Char → List Char
  final : List Char → List Char → Bool

/-- What is true of the tables: the forms do not change again, a form that starts with the character itself is the
character alone, and the small forms of the sigma. -/
structure Unicode.Sound (U : Unicode) : Prop where
  lower_lower : ∀ c d, d ∈ U.lower c → U.lower d = [d]
  upper_upper : ∀ c d, d ∈ U.upper c → U.upper d = [d]
  lower_self : ∀ c, (U.lower c).head? = some c → U.lower c = [c]
  upper_self : ∀ c, (U.upper c).head? = some c → U.upper c = [c]
  sigma : U.lower 'Σ' = ['σ']
  sigma_small : U.lower 'σ' = ['σ']
  sigma_end : U.lower 'ς' = ['ς']

/-- `str::to_lowercase`: every character gets its small form, a sigma depending on what is around. -/
def lowerFrom (U : Unicode) (before : List Char) : List Char → List Char
  | [] => []
  | c :: r =>
    (if c = 'Σ' then (if U.final before r then ['ς'] else ['σ']) else U.lower c) ++ lowerFrom U (before ++ [c]) r

/-- The small form of a letter of ASCII; others stay. -/
def asciiSmall (c : Char) : Char := if 'A' ≤ c ∧ c ≤ 'Z' then Char.ofNat (c.toNat + 32) else c

/-- The large form of a letter of ASCII; others stay. -/
def asciiLarge (c : Char) : Char := if 'a' ≤ c ∧ c ≤ 'z' then Char.ofNat (c.toNat - 32) else c

/-- What the methods return. -/
def Method.run (U : Unicode) : Method → List Char → List Char
  | .lower, s => lowerFrom U [] s
  | .asciiLower, s => s.map asciiSmall
  | .upper, s => s.flatMap U.upper
  | .asciiUpper, s => s.map asciiLarge

/-- What is matched on: a variable, one of the methods on a string (`isStr`) or on something else with a method of that
name, code that passes a string on (a reference to it, `as_str` and so on), other code with two parts. -/
inductive Scr
  | var (k : Nat)
  | meth (m : Method) (isStr : Bool) (e : Scr)
  | same (e : Scr)
  | other (k : Nat) (a b : Scr)

/-- The values of variables and what other code does. -/
structure Env where
  var : Nat → List Char
  meth : Method → List Char → List Char
  other : Nat → List Char → List Char → List Char

/-- The value. -/
def Scr.value (U : Unicode) (v : Env) : Scr → List Char
  | .var k => v.var k
  | .meth m true e => m.run U (e.value U v)
  | .meth m false e => v.meth m (e.value U v)
  | .same e => e.value U v
  | .other k a b => v.other k (a.value U v) (b.value U v)

/-- The value is what one of the methods returns. -/
inductive Direct (m : Method) : Scr → Prop
  | meth (e : Scr) : Direct m (.meth m true e)
  | same (e : Scr) : Direct m e → Direct m (.same e)

/-- None of the methods is called on a string in the expression. -/
inductive Plain : Scr → Prop
  | var (k : Nat) : Plain (.var k)
  | meth (m : Method) (e : Scr) : Plain e → Plain (.meth m false e)
  | same (e : Scr) : Plain e → Plain (.same e)
  | other (k : Nat) (a b : Scr) : Plain a → Plain b → Plain (.other k a b)

/-- Patterns: a text, or another pattern. -/
inductive Pat
  | text (t : List Char)
  | other (k : Nat)
deriving DecidableEq, Repr

/-- Does the pattern match the string? `O` says which strings other patterns (with their guards) match. -/
def Pat.matches (O : Nat → List Char → Bool) : Pat → List Char → Bool
  | .text t, s => s == t
  | .other k, s => O k s

/-- The number of the arm that is taken. -/
def taken (O : Nat → List Char → Bool) (s : List Char) : List Pat → Option Nat
  | [] => none
  | p :: r => if p.matches O s then some 0 else (taken O s r).map (· + 1)

/-- Reading a literal after its first quote: the text, and what follows the last quote. Escapes other than those of one letter are
not read. -/
def readFrom : List Char → Option (List Char × List Char)
  | [] => none
  | '"' :: r => some ([], r)
  | '\\' :: 'n' :: r => (readFrom r).map fun p => ('\n' :: p.1, p.2)
  | '\\' :: 't' :: r => (readFrom r).map fun p => ('\t' :: p.1, p.2)
  | '\\' :: '"' :: r => (readFrom r).map fun p => ('"' :: p.1, p.2)
  | '\\' :: '\\' :: r => (readFrom r).map fun p => ('\\' :: p.1, p.2)
  | '\\' :: _ => none
  | c :: r => (readFrom r).map fun p => (c :: p.1, p.2)

/-- The text of a literal that is all of a piece of source code. -/
def readLit : List Char → Option (List Char)
  | '"' :: r => match readFrom r with
    | some (t, []) => some t
    | _ => none
  | _ => none

end Verif.StrCase
