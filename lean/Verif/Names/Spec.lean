/-!
# Specification: names that are too similar
-/

namespace Verif.Names

abbrev Name := List Char

/-- Characters that count as the same: equal ones, and digits (`num`) among each other. -/
def Alike (num : Char → Bool) (c d : Char) : Prop := c = d ∨ (num c = true ∧ num d = true)

instance (num : Char → Bool) (c d : Char) : Decidable (Alike num c d) := by unfold Alike; infer_instance

/-- The number of positions with different characters. -/
def diffs (num : Char → Bool) : Name → Name → Nat
  | c :: r, d :: s => (if Alike num c d then 0 else 1) + diffs num r s
  | _, _ => 0

/-- Names of the same length that differ at one place, which is not set apart by an underscore, as in `x_foo` or `foo_x`. -/
structure OneOff (num : Char → Bool) (a b : Name) : Prop where
  length : a.length = b.length
  one : diffs num a b = 1
  front : ∀ c d r s, a = c :: '_' :: r → b = d :: s → Alike num c d
  back : ∀ c d r s, a = r ++ ['_', c] → b = s ++ [d] → Alike num c d

/-- `b` is `a` with a character more, but not just at its end. -/
def Inserted (a b : Name) : Prop := (∃ p c q, a = p ++ q ∧ b = p ++ c :: q) ∧ ¬ a <+: b

/-- Pairs of first characters that look alike. -/
def looks : List (Char × Char) := [('l', 'i'), ('l', '1'), ('i', '1'), ('u', 'v')]

/-- Names start with characters that look alike. -/
def SameStart (a b : Name) : Prop :=
  ∃ c d r s, a = c :: r ∧ b = d :: s ∧ (c = d ∨ (c, d) ∈ looks ∨ (d, c) ∈ looks)

/-- Too similar. -/
def Similar (num : Char → Bool) (a b : Name) : Prop :=
  SameStart a b ∧ ¬ (a.length = 3 ∧ b.length = 3) ∧ (OneOff num a b ∨ Inserted a b ∨ Inserted b a)

/-- A name belongs to a list of names that may be similar if it starts or ends with one of them. -/
def Belongs (n : Name) (l : List Name) : Prop := ∃ x ∈ l, x <+: n ∨ x <:+ n

/-- The older name `e` belongs to a list, to no list before it, and `n` belongs to it too. -/
def Exempt (tbl : List (List Name)) (n e : Name) : Prop :=
  ∃ pre l post, tbl = pre ++ l :: post ∧ (∀ k ∈ pre, ¬ Belongs e k) ∧ Belongs e l ∧ Belongs n l

/-- The new name `n` is reported because of `e`. -/
def Bad (num : Char → Bool) (tbl : List (List Name)) (n e : Name) : Prop := Similar num n e ∧ ¬ Exempt tbl n e

/-- The bindings of a function: names, and blocks with bindings. -/
inductive Blk
  | nil
  | bind (n : Name) (rest : Blk)
  | block (b rest : Blk)
  deriving DecidableEq, Repr

inductive Rep
  /-- Nothing but digits and underscores. -/
  | digits (n : Name)
  | similar (n e : Name)
  /-- So many names with one character are visible. -/
  | many (k : Nat)
  deriving DecidableEq, Repr

/-- The kinds of characters and the settings. -/
structure Cfg where
  num : Char → Bool
  upper : Char → Bool
  tbl : List (List Name)
  threshold : Nat

/-- A name of only digits and underscores. -/
def Digits (n : Name) : Prop := ∀ c ∈ n, c.isDigit = true ∨ c = '_'

/-- Names that are not looked at. -/
def Ignored (g : Cfg) (n : Name) : Prop :=
  n = [] ∨ (∃ c ∈ n, g.upper c = true) ∨ (¬ Digits n ∧ (['_'] <+: n ∨ n.length = 2))

/-- A name that is looked at as a word. -/
def Word (g : Cfg) (n : Name) : Prop := ¬ Ignored g n ∧ ¬ Digits n ∧ 3 ≤ n.length

/-- A name of one character. -/
def Single (g : Cfg) (n : Name) : Prop := ¬ Ignored g n ∧ ¬ Digits n ∧ n.length = 1

/-- At the end of a block: the report if it has names of one character itself and too many are visible. -/
def manyOf (g : Cfg) (outer own : List Name) : List Rep :=
  if own ≠ [] ∧ g.threshold < outer.length + own.length then [.many (outer.length + own.length)] else []

/-- The bindings of a block, from the visible longer names `env`, the visible names of one character `outer` of the blocks around it and those
of its own: the reports, and what is visible at its end. -/
inductive Walk (g : Cfg) : List Name → List Name → List Name → Blk → List Rep → List Name → List Name → Prop
  | nil (env outer own : List Name) : Walk g env outer own .nil [] env own
  | ignored {env outer own env' own' : List Name} {n : Name} {r : Blk} {o : List Rep} : Ignored g n →
      Walk g env outer own r o env' own' → Walk g env outer own (.bind n r) o env' own'
  | digits {env outer own env' own' : List Name} {n : Name} {r : Blk} {o : List Rep} : ¬ Ignored g n → Digits n →
      Walk g env outer own r o env' own' → Walk g env outer own (.bind n r) (.digits n :: o) env' own'
  | shadow {env outer own env' own' : List Name} {n : Name} {r : Blk} {o : List Rep} : Single g n → n ∈ outer ++ own →
      Walk g env outer own r o env' own' → Walk g env outer own (.bind n r) o env' own'
  | single {env outer own env' own' : List Name} {n : Name} {r : Blk} {o : List Rep} : Single g n → n ∉ outer ++ own →
      Walk g env outer (own ++ [n]) r o env' own' → Walk g env outer own (.bind n r) o env' own'
  | similar {env pre post outer own env' own' : List Name} {n e : Name} {r : Blk} {o : List Rep} : Word g n → env = pre ++ e :: post →
      (∀ x ∈ pre, ¬ Bad g.num g.tbl n x) → Bad g.num g.tbl n e → Walk g env outer own r o env' own' →
      Walk g env outer own (.bind n r) (.similar n e :: o) env' own'
  | fresh {env outer own env' own' : List Name} {n : Name} {r : Blk} {o : List Rep} : Word g n → (∀ x ∈ env, ¬ Bad g.num g.tbl n x) →
      Walk g (env ++ [n]) outer own r o env' own' → Walk g env outer own (.bind n r) o env' own'
  | block {env outer own env' own' env1 own1 : List Name} {b r : Blk} {o o1 : List Rep} : Walk g env (outer ++ own) [] b o1 env1 own1 →
      Walk g env outer own r o env' own' →
      Walk g env outer own (.block b r) (o1 ++ manyOf g (outer ++ own) own1 ++ o) env' own'

end Verif.Names
