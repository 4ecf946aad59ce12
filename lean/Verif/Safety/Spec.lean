/-!
# Specification: safety comments before a line
-/

namespace Verif.Safety

abbrev Word := List Char

/-- Length in bytes. -/
def size (w : Word) : Nat := (w.map Char.utf8Size).sum

/-- White space, for the standard library and for the lexer. -/
structure Cls where
  sp : Char → Bool
  lex : Char → Bool

/-- What is assumed about them. -/
structure Sane (k : Cls) : Prop where
  tick : k.sp '`' = false
  bracket : k.sp ']' = false
  s1 : k.sp 's' = false
  s2 : k.sp 'S' = false

/-- `SAFETY:` in any case. -/
def Says (w : Word) : Prop := w.map Char.toUpper = "SAFETY:".toList

/-- `SAFETY:` is first found after `pre`. -/
def FirstSafety (w pre : Word) : Prop :=
  (∃ b post, w = pre ++ b ++ post ∧ Says b) ∧ ∀ pre' b post, w = pre' ++ b ++ post → Says b → pre.length ≤ pre'.length

/-- A line without the white space in front, and the text before it. -/
structure Line where
  before : Word
  text : Word

/-- A line that is not looked at: it is empty or, if they are accepted, an attribute. -/
def Skipped (k : Cls) (acc : Bool) (t : Word) : Prop :=
  t = [] ∨ (acc = true ∧ (['#', '['] <+: t ∨ ['#', '!', '['] <+: t) ∧ ∃ a w, t = a ++ ']' :: w ∧ ∀ c ∈ w, k.sp c = true)

/-- The lines of a text that are looked at, the last first. -/
inductive Relevant (k : Cls) (acc : Bool) : Word → List Word → List Line → Prop
  | nil {before : Word} : Relevant k acc before [] []
  | skip {before lead t : Word} {ls : List Word} {near : List Line} : (∀ c ∈ lead, k.sp c = true) → (∀ c q, t = c :: q → k.sp c = false) →
      Skipped k acc t → Relevant k acc (before ++ (lead ++ t)) ls near → Relevant k acc before ((lead ++ t) :: ls) near
  | keep {before lead t : Word} {ls : List Word} {near : List Line} : (∀ c ∈ lead, k.sp c = true) → (∀ c q, t = c :: q → k.sp c = false) →
      ¬ Skipped k acc t → Relevant k acc (before ++ (lead ++ t)) ls near →
      Relevant k acc before ((lead ++ t) :: ls) (near ++ [⟨before ++ lead, t⟩])

/-- A line comment. -/
def Slash (t : Word) : Prop := ['/', '/'] <+: t

/-- The beginning or end of code in documentation. -/
def Fence (k : Cls) (t : Word) : Prop :=
  ∃ w r, (∀ c ∈ w, k.sp c = true) ∧ (t = ['/', '/', '/'] ++ w ++ ['`', '`', '`'] ++ r ∨ t = ['/', '/', '!'] ++ w ++ ['`', '`', '`'] ++ r)

/-- Whether the number of fences is odd. -/
inductive Odd (k : Cls) : List Line → Bool → Prop
  | nil : Odd k [] false
  | fence {l : Line} {r : List Line} {b : Bool} : Fence k l.text → Odd k r b → Odd k (l :: r) (!b)
  | other {l : Line} {r : List Line} {b : Bool} : ¬ Fence k l.text → Odd k r b → Odd k (l :: r) b

/-- The comment of `l` after code, at `p`: the first `//` or `/*`, white space, and `SAFETY:`. -/
def Trailing (k : Cls) (l : Line) (p : Nat) : Prop :=
  ∃ pre mk w b post, l.text = pre ++ mk ++ w ++ b ++ post ∧ (mk = ['/', '/'] ∨ mk = ['/', '*']) ∧
    (∀ pre' post', l.text = pre' ++ ['/', '/'] ++ post' ∨ l.text = pre' ++ ['/', '*'] ++ post' → pre.length ≤ pre'.length) ∧
    (∀ c ∈ w, k.sp c = true) ∧ Says b ∧ p = size (l.before ++ pre ++ mk ++ w)

/-- The rest of a block comment, inside of `d` of them, and what is after it. -/
inductive Closes : Nat → Word → Word → Prop
  | last {r : Word} : Closes 0 ['*', '/'] r
  | close {d : Nat} {w r : Word} : Closes d w r → Closes (d + 1) ('*' :: '/' :: w) r
  | opening {d : Nat} {w r : Word} : Closes (d + 1) w r → Closes d ('/' :: '*' :: w) r
  | other {d : Nat} {c : Char} {w r : Word} : ¬ ['*', '/'] <+: c :: (w ++ r) → ¬ ['/', '*'] <+: c :: (w ++ r) → Closes d w r → Closes d (c :: w) r
  | unclosed {d : Nat} : Closes d [] []

/-- A text has a safety comment at `p`; `near` are its lines, the last first. -/
inductive Documented (k : Cls) (total : Word) (near : List Line) (p : Nat) (doc : Bool) : Prop
  /-- In line comments right before the end, outside of code. -/
  | lines (run rest : List Line) (l : Line) (pre : Word) : near = run ++ l :: rest → (∀ m ∈ run, Slash m.text) → Slash l.text → Odd k (run ++ [l]) false →
      FirstSafety l.text pre → (∀ x m y, run = x ++ m :: y → Odd k (x ++ [m]) false → ¬ ∃ q, FirstSafety m.text q) →
      p = size (l.before ++ pre) → (doc = true ↔ ['/', '/', '/'] <+: l.text) → Documented k total near p doc
  /-- After code in the last line. -/
  | trailing (rest : List Line) (l : Line) : near = l :: rest → ¬ Slash l.text → Trailing k l p → doc = false → Documented k total near p doc
  /-- In a block comment right before the end. -/
  | block (run rest : List Line) (l : Line) (c r pre : Word) : near = run ++ l :: rest → (∀ m xs, near = m :: xs → ¬ Slash m.text ∧ ¬ ∃ q, Trailing k m q) →
      (∀ m ∈ run, ¬ ['/', '*'] <+: m.text) → ['/', '*'] <+: l.text → total = l.before ++ ('/' :: '*' :: c) ++ r → Closes 0 c r → (∀ d ∈ r, k.lex d = true) →
      FirstSafety ('/' :: '*' :: c) pre → p = size (l.before ++ pre) → (doc = true ↔ ['/', '*', '*'] <+: l.text) → Documented k total near p doc

end Verif.Safety
