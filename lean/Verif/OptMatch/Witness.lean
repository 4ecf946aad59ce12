import Verif.OptMatch.Props

/-!
# Examples: where the edits keep the meaning, and where they don't
-/

namespace Verif.OptMatch.Witness
open Ctrl (Name Expr Exprs Cond Stmts)

/-- The number at the end of a chain of at most two references to temporaries, and how long the chain
is. -/
def deref : Val → Option (Nat × Nat)
  | .atom n => some (n, 0)
  | .ref _ (.temp (.atom n) []) => some (n, 1)
  | .ref _ (.temp (.ref _ (.temp (.atom n) [])) []) => some (n, 2)
  | .ref _ (.mem 0 [.inner]) => some (4, 1)
  | _ => none

/-- The world is a counter.  Operation 0 takes the number below references, 1 is for numbers only, 2
counts, 3 is for references only; 4 is the constant 0. -/
def demo : Sem where
  W := Nat
  truth v := match v with | .atom n => n != 0 | _ => false
  prim n _ vs w :=
    match n, vs with
    | 0, [v] => ((deref v).map fun r => .atom r.1, w)
    | 1, [.atom n] => (some (.atom (n + 1)), w)
    | 2, [] => (some (.atom 7), w + 1)
    | 3, [.ref m p] => (some (.ref m p), w)
    | 4, [] => (some (.atom 0), w)
    | _, _ => (none, w)
  pat n v := match n, v with | 0, .atom 0 => some [] | _, _ => none
  next _ w := (none, w)
  item _ := .unit
  call f v w :=
    match f, deref v with
    | .atom 7, some (n, 0) => (some (.atom (n + 10)), w)
    | .atom 8, some (n, _) => (some (.atom (n % 2)), w)
    | _, _ => (none, w)
  mem _ n :=
    match n with
    | 0 => some (.some (.atom 4))
    | 1 => some .none
    | 2 => some (.some (.ref false (.temp (.atom 4) [])))
    | 3 => some (.some (.atom 5))
    | _ => none

/-- Variables 0 to 3 are the four `Option`s, 7 and 8 are functions. -/
def ρ : Env := fun x => if x < 4 then .ref true (.mem x []) else .atom x

/-- The result as numbers. -/
def code (r : Except (Ctrl.Exit Val) Val × Nat) : Nat × Nat :=
  match r with
  | (.ok .none, w) => (0, w)
  | (.ok (.some (.atom n)), w) => (n + 1, w)
  | (.ok (.some (.ref _ _)), w) => (900, w)
  | (.ok _, w) => (800, w)
  | (.error _, w) => (1000, w)

def un (n : Nat) (e : Expr) : Expr := .prim n [] (.cons e .nil)
def v (x : Name) : Expr := .var x
def x : Pat := .bind .plain 20
def facts (copy : Bool) : Facts := ⟨true, false, false, false, true, copy⟩

/-- `opt` or `&opt` or `&mut opt`, the variable with this number. -/
def on (addrs : List Bool) (n : Name) (t : Ty := .atom) : Scrut := ⟨addrs, v n, true, .opt t⟩

def old (s : Scrut) (f : Form) : Nat × Nat := code (evalForm (S := demo) 9 ρ s f (0 : Nat))
def newMap (d : Option Edit) : Option (Nat × Nat) := d.map fun d => code (evalMap (S := demo) 9 ρ d (0 : Nat))
def newFilter (d : Option Edit) : Option (Nat × Nat) :=
  d.map fun d => code (evalFilter (S := demo) 9 ρ d (0 : Nat))

/-! ## `map` -/

/-- `match opt { Some(x) => Some(x + 1), None => None }` becomes `opt.map(|x| x + 1)`. -/
def plus : Form := .mtch [⟨.some x, none, .block false (.some (.plain (un 1 (v 20))))⟩, ⟨.none, none, .none⟩]

example : newMap (checkMap (facts false) (on [] 0) plus) = some (6, 0) ∧ old (on [] 0) plus = (6, 0) ∧
    newMap (checkMap (facts false) (on [] 1) plus) = some (0, 0) ∧ old (on [] 1) plus = (0, 0) := by
  decide +kernel

theorem place_var {k : Nat} {n : Name} (hn : n < 4) (w : demo.W) :
    evalPlace (S := demo) k ρ (v n) true w = (.ok (.mem n []), w) := by
  simp [evalPlace, Ctrl.eval, Ctrl.M.bind, Ctrl.M.pure, v, ρ, hn]
  rfl

/-- The hypotheses of `map_same_partial` can be met. -/
example (k : Nat) : ∃ d, checkMap (facts false) (on [] 0) plus = some d ∧
    evalMap (S := demo) k ρ d = evalForm k ρ (on [] 0) plus := by
  refine ⟨_, rfl, map_same_partial k ρ (facts false) (on [] 0) plus _ rfl ?_ rfl ?_ ?_ ?_⟩
  · intro w p w' h
    have h0 := place_var (k := k) (n := 0) (by decide) w
    rw [show evalPlace (S := demo) k ρ (on [] 0).base (on [] 0).isPlace w = _ from h0] at h
    cases h
    rfl
  · intro q neg c h hne
    exact absurd rfl hne
  · intro g h; cases h
  · intro _; exact .inl rfl

/-- With `as_ref`. -/
example : newMap (checkMap (facts false) (on [false] 0) (.ifLet (.some x) (.block false (.some (.plain (un 0 (v 20)))))
    (.block false .none))) = some (5, 0) := by decide +kernel

/-- `match opt { _ => None, Some(x) => Some(x + 1) }` becomes `opt.map(|x| x + 1)`. -/
theorem wild_first_changes : ∃ f d, checkMap (facts false) (on [] 0) f = some d ∧ f.firstWild = true ∧
    evalMap (S := demo) 9 ρ d ≠ evalForm 9 ρ (on [] 0) f := by
  refine ⟨.mtch [⟨.wild, none, .none⟩, ⟨.some x, none, .some (.plain (un 1 (v 20)))⟩], _, rfl, rfl, ?_⟩
  intro h
  have := congrArg (fun m => code (m (0 : Nat))) h
  revert this
  decide +kernel

/-- `match opt { Some(x) => Some(get()(x)), None => None }` becomes `opt.map(get())`, and `get` is
called for `None`. -/
theorem function_called_changes : ∃ f d, checkMap (facts false) (on [] 1) f = some d ∧
    evalMap (S := demo) 9 ρ d ≠ evalForm 9 ρ (on [] 1) f := by
  refine ⟨.mtch [⟨.some x, none, .some (.call (.prim 2 [] .nil) (v 20) false false)⟩, ⟨.none, none, .none⟩],
    _, rfl, ?_⟩
  intro h
  have := congrArg (fun m => code (m (0 : Nat))) h
  revert this
  decide +kernel

/-- `match opt { Some(x) => Some((x.f)(x)), None => None }` becomes `opt.map(x.f)`, and there is no
`x`. -/
theorem function_of_variable : ∃ f d g, checkMap (facts false) (on [] 0) f = some d ∧ d.fn = .func g ∧
    g = un 0 (v 20) ∧ ∀ a ∈ f.arms.take 1, a.pat.binds 20 = true := by
  refine ⟨.mtch [⟨.some x, none, .some (.call (un 0 (v 20)) (v 20) false false)⟩, ⟨.none, none, .none⟩],
    _, _, rfl, rfl, rfl, ?_⟩
  intro a ha
  simp only [Form.arms, List.take_succ_cons, List.take_zero, List.mem_cons, List.not_mem_nil, or_false] at ha
  subst ha
  rfl

/-- `match &opt { Some(&x) => Some(x + 1), None => None }` for `Option<&u32>` becomes
`opt.as_ref().map(|&x| x + 1)`, and `x` is a reference now. -/
theorem amp_changes : ∃ f d, checkMap (facts false) (on [false] 2 (.ref false .atom)) f = some d ∧
    f.firstWild = false ∧ d.adaptor = .asRef ∧
    evalMap (S := demo) 9 ρ d ≠ evalForm 9 ρ (on [false] 2 (.ref false .atom)) f := by
  refine ⟨.mtch [⟨.some (.ref false x), none, .some (.plain (un 1 (v 20)))⟩, ⟨.none, none, .none⟩], _, rfl, rfl, rfl, ?_⟩
  intro h
  have := congrArg (fun m => code (m (0 : Nat))) h
  revert this
  decide +kernel

/-! ## `filter` -/

def someX : Body := .block false (.some (.plain (v 20)))
def noneB : Body := .block false .none

/-- `match opt { Some(x) => if C { Some(x) } else { None }, None => None }`. -/
def keep (c : Test) (p : Pat := x) : Form := .mtch [⟨.some p, none, .ite c someX noneB⟩, ⟨.none, none, .none⟩]

/-- The same with the branches exchanged. -/
def drop (c : Test) : Form := .mtch [⟨.some x, none, .ite c noneB someX⟩, ⟨.none, none, .none⟩]

/-- The condition `*x` for a reference, or `x`. -/
def nonzero : Test := .cond (.test (un 0 (v 20)))

example : newFilter (checkFilter (facts true) (on [] 0) (keep nonzero)) = some (5, 0) ∧
    newFilter (checkFilter (facts true) (on [] 0) (drop nonzero)) = some (0, 0) ∧
    newFilter (checkFilter (facts false) (on [] 0) (keep nonzero)) = some (5, 0) ∧
    old (on [] 0) (keep nonzero) = (5, 0) ∧ old (on [] 0) (drop nonzero) = (0, 0) := by
  decide +kernel

/-- The hypotheses of `filter_same_partial` can be met, -/
example (k : Nat) : ∃ d, checkFilter (facts true) (on [] 0) (drop nonzero) = some d ∧
    evalFilter (S := demo) k ρ d = evalForm k ρ (on [] 0) (drop nonzero) := by
  refine ⟨_, rfl, filter_same_partial k ρ (facts true) (on [] 0) (drop nonzero) _ rfl ?_ rfl
    (m := false) (x := 20) rfl rfl (fun _ => ⟨rfl, fun h => by cases h⟩) (fun h => by cases h)⟩
  intro w p w' h
  have h0 := place_var (k := k) (n := 0) (by decide) w
  rw [show evalPlace (S := demo) k ρ (on [] 0).base (on [] 0).isPlace w = _ from h0] at h
  cases h
  rfl

/-- also if the value is not `Copy`: this condition does not look at it. -/
example (k : Nat) : ∃ d, checkFilter (facts false) (on [] 0) (keep (.arg (.plain (v 5)))) = some d ∧
    evalFilter (S := demo) k ρ d = evalForm k ρ (on [] 0) (keep (.arg (.plain (v 5)))) := by
  refine ⟨_, rfl, filter_same_partial k ρ (facts false) (on [] 0) (keep (.arg (.plain (v 5)))) _ rfl ?_ rfl
    (m := false) (x := 20) rfl rfl (fun h => by cases h) (fun _ => ?_)⟩
  · intro w p w' h
    have h0 := place_var (k := k) (n := 0) (by decide) w
    rw [show evalPlace (S := demo) k ρ (on [] 0).base (on [] 0).isPlace w = _ from h0] at h
    cases h
    rfl
  · intro ρ u
    funext w
    simp only [closureB, evalTest, evalArg, v, Ctrl.eval, Ctrl.M.bind, Ctrl.M.pure, upd]
    have h5 : (5 : Nat) ≠ 20 := by decide
    simp only [if_neg h5]
    cases demo.truth (ρ 5) <;> rfl

/-- `if odd(x) { Some(x) } else { None }` becomes `.filter(o&dd)`. -/
theorem function_garbage : ∃ d, checkFilter (facts true) (on [] 0)
    (keep (.arg (.call (v 8) (v 20) false false))) = some d ∧ d.fn = .garbage := ⟨_, rfl, rfl⟩

/-- `if odd(x) { None } else { Some(x) }` becomes `.filter(odd)` if the type is not `Copy`. -/
theorem negation_lost : ∃ d, checkFilter (facts false) (on [] 3)
    (drop (.arg (.call (v 8) (v 20) false false))) = some d ∧
    evalFilter (S := demo) 9 ρ d ≠ evalForm 9 ρ (on [] 3) (drop (.arg (.call (v 8) (v 20) false false))) := by
  refine ⟨_, rfl, ?_⟩
  intro h
  have := congrArg (fun m => code (m (0 : Nat))) h
  revert this
  decide +kernel

/-- `if let 0 = y { Some(x) } else { None }` becomes `.filter(|&x| let 0 = y)`, which is no closure. -/
theorem let_condition : ∃ d p c, checkFilter (facts true) (on [] 0) (keep (.cond (.letP 0 [] (v 9)))) = some d ∧
    d.fn = .closure p false c ∧ isExpr c = false := ⟨_, _, _, rfl, rfl, rfl⟩

/-- `Some(mut x)` becomes `|&mut x|`, a pattern which does not fit. -/
theorem mut_changes : ∃ f d, checkFilter (facts true) (on [] 0) f = some d ∧
    evalFilter (S := demo) 9 ρ d ≠ evalForm 9 ρ (on [] 0) f := by
  refine ⟨keep nonzero (.bind ⟨none, true⟩ 20), _, rfl, ?_⟩
  intro h
  have := congrArg (fun m => code (m (0 : Nat))) h
  revert this
  decide +kernel

/-- `match &mut opt { Some(x) => if *x != 0 { Some(x) } else { None }, None => None }` becomes
`opt.as_mut().filter(|&x| *x != 0)`: the mutable reference would be moved out of a shared one. -/
theorem as_mut_changes : ∃ d, checkFilter (facts true) (on [true] 0) (keep nonzero) = some d ∧
    evalFilter (S := demo) 9 ρ d ≠ evalForm 9 ρ (on [true] 0) (keep nonzero) := by
  refine ⟨_, rfl, ?_⟩
  intro h
  have := congrArg (fun m => code (m (0 : Nat))) h
  revert this
  decide +kernel

/-- A condition for values only, as in `if is_ok(x.clone())`: the closure has a reference. -/
theorem borrowed_changes : ∃ d, checkFilter (facts false) (on [] 0) (keep (.cond (.test (un 1 (v 20))))) = some d ∧
    evalFilter (S := demo) 9 ρ d ≠ evalForm 9 ρ (on [] 0) (keep (.cond (.test (un 1 (v 20))))) := by
  refine ⟨_, rfl, ?_⟩
  intro h
  have := congrArg (fun m => code (m (0 : Nat))) h
  revert this
  decide +kernel

/-- The hypotheses of `and_then_same_partial` can be met. -/
example (k : Nat) : ∃ d, checkAndThen (facts true) (on [] 0) x (.ite nonzero someX noneB) = some d ∧
    evalFilter (S := demo) k ρ d = evalAndThen k ρ (on [] 0) x (.ite nonzero someX noneB) := by
  refine ⟨_, rfl, and_then_same_partial k ρ (facts true) (on [] 0) x (.ite nonzero someX noneB) _ rfl
    (m := false) (x := 20) rfl rfl ?_ (fun _ => rfl) (fun h => by cases h)⟩
  intro ρ w u w' h
  exact nomatch safe_test (c := nonzero) rfl k ρ w _ w' h

/-- `opt.and_then(|x| if x == g()? { Some(x) } else { None })`: the `return` inside of the condition
leaves a closure with another type. -/
theorem return_changes : ∃ d, checkAndThen (facts true) (on [] 0) x
      (.ite (.cond (.test (.ret (.cons (v 9) .nil)))) someX noneB) = some d ∧
    evalFilter (S := demo) 9 ρ d ≠
      evalAndThen 9 ρ (on [] 0) x (.ite (.cond (.test (.ret (.cons (v 9) .nil)))) someX noneB) := by
  refine ⟨_, rfl, ?_⟩
  intro h
  have := congrArg (fun m => code (m (0 : Nat))) h
  revert this
  decide +kernel

end Verif.OptMatch.Witness
