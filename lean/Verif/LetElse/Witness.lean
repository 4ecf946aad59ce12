import Verif.LetElse.Props

/-!
# Examples, and what goes wrong

Variables: 0 is `x`, 1 is `y`, 10 is `v`, 11 is `w`.  Constructors: 1 is `Some`, 2 is `None`, 3 is `P` with two
fields, 4 is `S` with named fields.
-/

namespace Verif.LetElse.Witness

/-- Values: numbers, tuples and constructors, references. -/
inductive V where
  | num (n : Nat)
  | node (c : Option Nat) (n : Nat) (f : Nat → V)
  | ref (m : Bool) (l : Loc) (v : V)

def V.peel (dm : Option Bool) (l : Loc) : V → Option Bool × Loc × V
  | .ref m l' v => v.peel (some (comb dm m)) l'
  | v => (dm, l, v)

def V.isNum (n : Nat) : V → Bool
  | .num m => n == m
  | _ => false

def V.isCtor (c : Nat) : V → Bool
  | .node (some c') _ _ => c == c'
  | _ => false

def V.arity : V → Nat
  | .node _ n _ => n
  | _ => 0

def V.field : V → Nat → V
  | .node _ _ f, k => f k
  | v, _ => v

def V.deref : V → Option (Loc × V)
  | .ref _ l v => some (l, v)
  | _ => none

def ofList (c : Option Nat) (vs : List V) : V := .node c vs.length fun i => vs.getD i (.num 0)

def sem : Sem where
  V := V
  isLit := V.isNum
  isCtor := V.isCtor
  arity := V.arity
  field := V.field
  mkRef := V.ref
  deref := V.deref
  peel := fun dm l v => V.peel dm l v
  tuple := ofList none
  array := ofList none

theorem laws : Laws sem where
  peel_ref := fun _ _ _ _ _ => rfl
  peel_cases := fun v => by
    cases v with
    | ref m l v => exact .inr fun _ _ => rfl
    | _ => exact .inl fun _ => rfl
  peel_tuple := fun _ _ => rfl
  peel_array := fun _ _ => rfl
  arity_tuple := fun _ => rfl
  arity_array := fun _ => rfl
  field_tuple := fun vs i v h => by
    show (vs[i]?).getD (V.num 0) = v
    exact (congrArg (Option.getD · (V.num 0)) h).trans rfl
  field_array := fun vs i v h => by
    show (vs[i]?).getD (V.num 0) = v
    exact (congrArg (Option.getD · (V.num 0)) h).trans rfl

def out : Name → V := fun _ => .num 99

/-- Everything is known. -/
def fa : Facts where
  never := fun e => match e with
    | .other _ => true
    | _ => false
  known := fun _ => true
  isVariant := fun _ => true

def one (p : Pat) : Pats := .cons p .nil
def two (p q : Pat) : Pats := .cons p (.cons q .nil)
def x : Pat := .bind .plain 0
def y : Pat := .bind .plain 1
def v : Pat := .bind .plain 10
def w : Pat := .bind .plain 11
def mutV : Pat := .bind ⟨none, true⟩ 10
def some_ (p : Pat) : Pat := .ts 1 none (one p)
def p_ (p q : Pat) : Pat := .ts 3 none (two p q)
def ret : Ex := .other 0
def someV (u : V) : V := ofList (some 1) [u]
def pV (u u' : V) : V := ofList (some 3) [u, u']

/-! ## The theorems apply -/

theorem some_wf (q : Pat) (m : Mode) (z : Name) (hq : q = .bind m z) : WellFormed sem (some_ q) := by
  subst hq
  refine ⟨fun dm l u bs h => ?_, fun dm l u bs h m' z' ho => ?_, fun m1 m2 z' h1 h2 => ?_⟩
  · simp only [some_, one, mtch, mtchL, both] at h
    split at h
    · cases h; simp
    · cases h
  · simp only [some_, one, mtch, mtchL, both] at h
    cases ho with
    | ts _ _ hp ho =>
      simp only [one, Pats.toList, List.mem_singleton] at hp
      subst hp
      cases ho
      split at h
      · cases h; exact ⟨_, List.mem_cons_self⟩
      · cases h
  · cases h1 with
    | ts _ _ hp ho =>
      simp only [one, Pats.toList, List.mem_singleton] at hp
      subst hp
      cases ho
      cases h2 with
      | ts _ _ hp ho =>
        simp only [one, Pats.toList, List.mem_singleton] at hp
        subst hp
        cases ho
        rfl

theorem v_ok (u : V) : LetOk sem [(0, v)] (some_ x) u where
  simple := fun a q h => by
    simp only [List.mem_singleton, Prod.mk.injEq] at h
    rw [h.2]; exact .bind false 10
  irref := fun a q h => by
    simp only [List.mem_singleton, Prod.mk.injEq] at h
    rw [h.2]; intro _ _ _; rfl
  prefix_ := fun a q m h _ => by
    simp only [List.mem_singleton, Prod.mk.injEq] at h
    exact .inr ⟨10, h.2⟩
  mut_ := .inl fun a q h => by
    simp only [List.mem_singleton, Prod.mk.injEq] at h
    rw [h.2]; rfl

theorem x_reached : Reached [(0, v)] (some_ x) := by
  refine .ts 1 none fun p hp => ?_
  simp only [one, Pats.toList, List.mem_singleton] at hp
  subst hp
  exact .bind _ _ fun h => absurd ⟨v, List.mem_singleton.2 rfl⟩ h

/-- `let v = if let Some(x) = o { x } else { return };` -/
example (u : V) : Same (S := sem) (Extra [(0, v)] (some_ x)) (runIfLet sem out (.num 0) v (some_ x) (.path 0) ret u)
    (runLetElse sem ⟨some (some_ v), ret⟩ u) := by
  obtain ⟨e, he, h⟩ := if_let_same_partial (fa := fa) (S := sem) laws (loc := v) (p := some_ x) (t := .path 0)
    (e := some ret) (ed := ⟨some (some_ v), ret⟩) rfl rfl (some_wf x _ _ rfl) (v := u) x_reached (v_ok u) out (.num 0)
  cases he
  exact h

/-- … and it does declare `v`. -/
example : runIfLet sem out (.num 0) v (some_ x) (.path 0) ret (someV (.num 7)) = .vars [(10, .num 7)] := rfl
example : runIfLet sem out (.num 0) v (some_ x) (.path 0) ret (.node (some 2) 0 fun _ => .num 0) = .leave [] ret := rfl

/-- `let v = match o { None => return, Some(x) => x };` -/
example (u : V) (hu : u.isCtor 1 = true ∨ u.isCtor 2 = true) (hr : ∀ m l u', u ≠ .ref m l u') :
    ∃ a ∈ ([⟨.path 2, false, ret⟩, ⟨some_ x, false, .path 0⟩] : List Arm), a.body = .path 0 ∧
    Same (S := sem) (Extra (pairs v a.body) a.pat)
      (runArms sem out (.num 0) fa.never v u [⟨.path 2, false, ret⟩, ⟨some_ x, false, .path 0⟩])
      (runLetElse sem ⟨some (some_ v), ret⟩ u) := by
  obtain ⟨a, ha, hl, _, h⟩ := match_same_partial (fa := fa) (S := sem) laws (loc := v)
    (as := [⟨.path 2, false, ret⟩, ⟨some_ x, false, .path 0⟩]) (ed := ⟨some (some_ v), ret⟩) (p' := some_ v)
    (by rfl) rfl (leaves := fa.never) (fun _ h => h) (fun e h => by cases h <;> rfl)
    (fun u c c' h1 h2 => by
      cases u with
      | node k n f =>
        cases k with
        | none => cases h1
        | some k =>
          simp only [sem, V.isCtor, beq_iff_eq] at h1 h2
          rw [h1, h2]
      | num _ => cases h1
      | ref _ _ _ => cases h1)
    (fun a b h _ => by cases h; decide)
    (fun a ha => by
      simp only [List.mem_cons, List.not_mem_nil, or_false] at ha
      rcases ha with rfl | rfl
      · refine ⟨fun dm l u bs h => ?_, fun dm l u bs h m z ho => (by cases ho),
          fun _ _ _ ho => (by cases ho)⟩
        simp only [mtch] at h
        split at h
        · cases h; simp
        · cases h
      · exact some_wf x _ _ rfl)
    (fun a ha => by
      simp only [List.mem_cons, List.not_mem_nil, or_false] at ha
      rcases ha with rfl | rfl
      · exact .path 2
      · refine .ts 1 none fun p hp => ?_
        simp only [one, Pats.toList, List.mem_singleton] at hp
        subst hp
        exact .bind _ _)
    (v := u)
    (fun a ha hl => by
      simp only [List.mem_cons, List.not_mem_nil, or_false] at ha
      rcases ha with rfl | rfl
      · cases hl
      · exact x_reached)
    (fun a ha hl => by
      simp only [List.mem_cons, List.not_mem_nil, or_false] at ha
      rcases ha with rfl | rfl
      · cases hl
      · exact v_ok u)
    (by
      have hp : ∀ l, V.peel none l u = (none, l, u) := by
        intro l
        cases u with
        | ref m l' u' => exact absurd rfl (hr m l' u')
        | _ => rfl
      rcases hu with hu | hu
      · refine ⟨_, List.mem_cons_of_mem _ List.mem_cons_self, ?_⟩
        simp [some_, one, mtch, mtchL, both, sem, hp, hu, x]
      · refine ⟨_, List.mem_cons_self, ?_⟩
        simp [mtch, sem, hp, hu])
    out (.num 0)
  refine ⟨a, ha, ?_, h⟩
  simp only [List.mem_cons, List.not_mem_nil, or_false] at ha
  rcases ha with rfl | rfl
  · cases hl
  · rfl

/-! ## What goes wrong -/

theorem not_same {extra : Name → Prop} {a b : Binds sem} (z : Name) (u : V) (he : ¬ extra z) (ha : (z, u) ∈ a)
    (hb : (z, u) ∉ b) : ¬ Same (S := sem) extra (.vars a) (.vars b) := by
  intro h
  cases h with
  | vars _ _ h => exact hb ((h z u he).1 ha)

/-- `let v = if let S { f: Some(x) } = s { x } else { return };`: the variable isn't replaced, `v` isn't declared. -/
theorem nested_field : ∃ u : V,
    check fa v (.ifLet (.strct 4 false (.cons 0 (some_ x) .nil)) (.path 0) (some ret)) =
      some ⟨some (.strct 4 false (.cons 0 (some_ x) .nil)), ret⟩ ∧
    ¬ Same (S := sem) (· ≠ 10) (runIfLet sem out (.num 0) v (.strct 4 false (.cons 0 (some_ x) .nil)) (.path 0) ret u)
      (runLetElse sem ⟨some (.strct 4 false (.cons 0 (some_ x) .nil)), ret⟩ u) :=
  ⟨ofList (some 4) [someV (.num 7)], rfl,
    not_same (a := [(10, .num 7)]) (b := [(0, .num 7)]) 10 (.num 7) (fun h => h rfl) List.mem_cons_self
      (by intro h; cases h with | tail _ h => cases h)⟩

/-- The same for slices. -/
theorem in_slice : ∃ u : V,
    check fa v (.ifLet (.slice (one x)) (.path 0) (some ret)) = some ⟨some (.slice (one x)), ret⟩ ∧
    ¬ Same (S := sem) (· ≠ 10) (runIfLet sem out (.num 0) v (.slice (one x)) (.path 0) ret u)
      (runLetElse sem ⟨some (.slice (one x)), ret⟩ u) :=
  ⟨ofList none [.num 7], rfl,
    not_same (a := [(10, .num 7)]) (b := [(0, .num 7)]) 10 (.num 7) (fun h => h rfl) List.mem_cons_self
      (by intro h; cases h with | tail _ h => cases h)⟩

/-- … and below `&`. -/
theorem below_ref : ∃ u : V,
    check fa v (.ifLet (some_ (.ref x)) (.path 0) (some ret)) = some ⟨some (some_ (.ref x)), ret⟩ ∧
    ¬ Same (S := sem) (· ≠ 10) (runIfLet sem out (.num 0) v (some_ (.ref x)) (.path 0) ret u)
      (runLetElse sem ⟨some (some_ (.ref x)), ret⟩ u) :=
  ⟨someV (.ref false .temp (.num 7)), rfl,
    not_same (a := [(10, .num 7)]) (b := [(0, .num 7)]) 10 (.num 7) (fun h => h rfl) List.mem_cons_self
      (by intro h; cases h with | tail _ h => cases h)⟩

/-- `let v = if let P(x, y) = o { x } else { return };` becomes `let P(v, y) = o else { return };`: a `y` from
before is no longer visible. -/
theorem more_variables : ∃ u : V,
    check fa v (.ifLet (p_ x y) (.path 0) (some ret)) = some ⟨some (p_ v y), ret⟩ ∧
    runIfLet sem out (.num 0) v (p_ x y) (.path 0) ret u = .vars [(10, .num 7)] ∧
    runLetElse sem ⟨some (p_ v y), ret⟩ u = .vars [(10, .num 7), (1, .num 8)] :=
  ⟨pV (.num 7) (.num 8), rfl, rfl, rfl⟩

/-- `let mut v = if let Some(ref x) = o { x } else { return };` becomes `let Some(ref mut v) = o`. -/
theorem ref_mut : ∃ u : V,
    check fa mutV (.ifLet (some_ (.bind ⟨some false, false⟩ 0)) (.path 0) (some ret)) =
      some ⟨some (some_ (.bind ⟨some true, false⟩ 10)), ret⟩ ∧
    runIfLet sem out (.num 0) mutV (some_ (.bind ⟨some false, false⟩ 0)) (.path 0) ret u =
      .vars [(10, .ref false (.at [0]) (.num 7))] ∧
    runLetElse sem ⟨some (some_ (.bind ⟨some true, false⟩ 10)), ret⟩ u =
      .vars [(10, .ref true (.at [0]) (.num 7))] :=
  ⟨someV (.num 7), rfl, rfl, rfl⟩

/-- `let mut v = if let Some(mut x) = o { x } else { return };` becomes `let Some(mut mut v) = o`. -/
theorem mut_mut : check fa mutV (.ifLet (some_ (.bind ⟨none, true⟩ 0)) (.path 0) (some ret)) = some ⟨none, ret⟩ := rfl

/-- `let (v, w) = if let Some(ref x) = o { x } else { return };` becomes `let Some(ref (v, w)) = o`. -/
theorem ref_tuple : check fa (.tuple none (two v w))
    (.ifLet (some_ (.bind ⟨some false, false⟩ 0)) (.path 0) (some ret)) = some ⟨none, ret⟩ := rfl

/-- `let mut v = if let Some(x) = &o { x } else { return };` becomes `let Some(mut v) = &o`, which copies. -/
theorem mut_copies : ∃ u : V,
    check fa mutV (.ifLet (some_ x) (.path 0) (some ret)) = some ⟨some (some_ mutV), ret⟩ ∧
    runIfLet sem out (.num 0) mutV (some_ x) (.path 0) ret u = .vars [(10, .ref false (.at [0]) (.num 7))] ∧
    runLetElse sem ⟨some (some_ mutV), ret⟩ u = .vars [(10, .num 7)] :=
  ⟨.ref false (.at []) (someV (.num 7)), rfl, rfl, rfl⟩

/-- `let ref mut v = if let Some(x) = o { x } else { return };` becomes `let Some(ref mut v) = o`: a change goes to
`o`, not to a copy. -/
theorem ref_in_place : ∃ u : V,
    check fa (.bind ⟨some true, false⟩ 10) (.ifLet (some_ x) (.path 0) (some ret)) =
      some ⟨some (some_ (.bind ⟨some true, false⟩ 10)), ret⟩ ∧
    runIfLet sem out (.num 0) (.bind ⟨some true, false⟩ 10) (some_ x) (.path 0) ret u =
      .vars [(10, .ref true .temp (.num 7))] ∧
    runLetElse sem ⟨some (some_ (.bind ⟨some true, false⟩ 10)), ret⟩ u =
      .vars [(10, .ref true (.at [0]) (.num 7))] :=
  ⟨someV (.num 7), rfl, rfl, rfl⟩

/-- `let v = if let Some(x @ (1 | 2)) = o { x } else { return };` becomes `let Some(v @ 1 | 2) = o`: the second
alternative does not declare `v`. -/
theorem at_or : ∃ u : V,
    check fa v (.ifLet (some_ (.bindAt .plain 0 (.or (two (.lit 1) (.lit 2))))) (.path 0) (some ret)) =
      some ⟨some (some_ (.or (two (.bindAt .plain 10 (.lit 1)) (.lit 2)))), ret⟩ ∧
    runIfLet sem out (.num 0) v (some_ (.bindAt .plain 0 (.or (two (.lit 1) (.lit 2))))) (.path 0) ret u =
      .vars [(10, .num 2)] ∧
    runLetElse sem ⟨some (some_ (.or (two (.bindAt .plain 10 (.lit 1)) (.lit 2)))), ret⟩ u = .vars [] :=
  ⟨someV (.num 2), rfl, rfl, rfl⟩

/-- `let v = if let Some((x,)) = o { x } else { return };` becomes `let Some((v)) = o`: all of the tuple. -/
theorem one_tuple : ∃ u : V,
    check fa v (.ifLet (some_ (.tuple none (one x))) (.path 0) (some ret)) = some ⟨some (some_ v), ret⟩ ∧
    runIfLet sem out (.num 0) v (some_ (.tuple none (one x))) (.path 0) ret u = .vars [(10, .num 7)] ∧
    runLetElse sem ⟨some (some_ v), ret⟩ u = .vars [(10, ofList none [.num 7])] :=
  ⟨someV (ofList none [.num 7]), rfl, rfl, rfl⟩

/-- `let v = if let P(x, S { .. }) = o { x } else { return };` becomes `let P(v, S { , .. }) = o`. -/
theorem only_dots : check fa v (.ifLet (p_ x (.strct 4 true .nil)) (.path 0) (some ret)) = some ⟨none, ret⟩ := rfl

/-- `let v = match o { Some(_) => return, Some(x) => x };` (of a type with one variant) becomes
`let Some(v) = o else { return };`, which does not return. -/
theorem same_variant : ∃ u : V,
    check fa v (.mtch [⟨some_ .wild, false, ret⟩, ⟨some_ x, false, .path 0⟩]) = some ⟨some (some_ v), ret⟩ ∧
    runArms sem out (.num 0) fa.never v u [⟨some_ .wild, false, ret⟩, ⟨some_ x, false, .path 0⟩] = .leave [] ret ∧
    runLetElse sem ⟨some (some_ v), ret⟩ u = .vars [(10, .num 7)] :=
  ⟨someV (.num 7), rfl, rfl, rfl⟩

end Verif.LetElse.Witness
