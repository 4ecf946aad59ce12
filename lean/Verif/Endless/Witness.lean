import Verif.Endless.Props

/-!
# C79: calls that are reported and return, and calls that are not reported and never end
-/

namespace Verif.Endless.Witness

/-- `count`. -/
def counter : User := ⟨Nat, 0, fun k _ => .more (k + 1), fun k => .num k⟩

theorem counter_folds : counter.Folds := fun _ _ _ h => by cases h

/-- `v.iter().cycle().count()`. -/
def cycleCount (std : Bool) : Ex :=
  .call .count true false .number (.call .cycle std false .other (.leaf 0) .nil) .nil

/-- It is reported, but returns `0` if `v` is empty. -/
theorem empty_cycle : check (cycleCount true) = some .infiniteIter ∧
    Returns (fun _ I => I = ofList []) (cycleCount true) (.num 0) :=
  ⟨by decide +kernel, .folds counter (n := 3) rfl counter_folds (.cycle (.any rfl rfl)) rfl⟩

/-- `x.cycle().count()`, where `cycle` is a method of the user's that returns an iterator with one
item: reported, and returns `1`. -/
theorem user_cycle : check (cycleCount false) = some .infiniteIter ∧
    Returns (fun _ I => I = ofList [.num 7]) (cycleCount false) (.num 1) :=
  ⟨by decide +kernel, .folds counter (n := 3) rfl counter_folds (.any rfl rfl) rfl⟩

/-- `sum` of `Option`s: the first `None` is the result. -/
def sumOption : User where
  κ := Int
  k0 := 0
  take k
    | .just (.num n) => .more (k + n)
    | .nothing => .ret .nothing
    | _ => .panic
  fin k := .just (.num k)

/-- `repeat(x).map(f).sum::<Option<_>>()`. -/
def optionSum : Ex := .call .sum true false .option (.rep (.leaf 0)) .nil

/-- It is reported, but returns `None` as soon as there is a `None`. -/
theorem option_sum : check optionSum = some .infiniteIter ∧
    Returns (fun _ _ => False) optionSum .nothing :=
  ⟨by decide +kernel, .other sumOption (n := 1) (by decide +kernel) (.rep .nothing) rfl⟩

/-- So the property does not hold for all calls. -/
theorem not_always : ¬ ∀ (O : Ex → It → Prop) (e : Ex) (v : V),
    check e = some .infiniteIter → ¬ Returns O e v :=
  fun h => h _ _ _ option_sum.1 option_sum.2

/-- The verdict about `repeat(x)` with a method whose entry in the table has the wrong number of
arguments. -/
def missed (m : Name) (args : Exs) : Ex :=
  .call .count true false .number (.call m true false .other (.rep (.leaf 0)) args) .nil

theorem rep_live {O : Ex → It → Prop} {e : Ex} {I : It} (h : Den O (.rep e) I) : I.Live :=
  infinite_live h trivial rfl

/-- `repeat(x).inspect(f).count()` is not reported and never returns. -/
theorem inspect_missed (O : Ex → It → Prop) (v : V) :
    check (missed .inspect (.cons (.leaf 1) .nil)) = none ∧
    ¬ Returns O (missed .inspect (.cons (.leaf 1) .nil)) v := by
  refine ⟨by decide +kernel, fun h => ?_⟩
  cases h with
  | folds U _ hU hd he =>
    cases hd with
    | any h => cases h
    | inspect c hd => exact feed_live _ _ _ hU _ _ _ (map_live _ _ _ (rep_live hd).1) _ he
  | other U h => cases h

/-- `repeat(x).skip_while(f).count()` is not reported and never returns. -/
theorem skipWhile_missed (O : Ex → It → Prop) (v : V) :
    check (missed .skipWhile (.cons (.leaf 1) .nil)) = none ∧
    ¬ Returns O (missed .skipWhile (.cons (.leaf 1) .nil)) v := by
  refine ⟨by decide +kernel, fun h => ?_⟩
  cases h with
  | folds U _ hU hd he =>
    cases hd with
    | any h => cases h
    | skipWhile c hd => exact feed_live _ _ _ hU _ _ _ (skipWhile_live _ _ _ (rep_live hd).1) _ he
  | other U h => cases h

/-- `repeat(x).peekable().count()` is not reported and never returns. -/
theorem peekable_missed (O : Ex → It → Prop) (v : V) :
    check (missed .peekable .nil) = none ∧ ¬ Returns O (missed .peekable .nil) v := by
  refine ⟨by decide +kernel, fun h => ?_⟩
  cases h with
  | folds U _ hU hd he =>
    cases hd with
    | any h => cases h
    | peekable hd => exact feed_live _ _ _ hU _ _ _ (rep_live hd).1 _ he
  | other U h => cases h

/-- `[1].iter().flat_map(|x| x..).sum()` is not reported, although there is code for it: the entry of
`flat_map` in the table comes first.  It does not end. -/
theorem flatMap_missed :
    check (.call .sum true false .number (.call .flatMap true false .other (.leaf 0)
      (.cons (.closure (.rangeFrom (.leaf 1))) .nil)) .nil) = none ∧
    ∃ I, Den (fun _ I => I = ofList [.num 1]) (.call .flatMap true false .other (.leaf 0)
      (.cons (.closure (.rangeFrom (.leaf 1))) .nil)) I ∧
      ∀ n, counter.after I n = .running := by
  refine ⟨by decide +kernel,
    (ofList [.num 1]).flatMap ⟨Unit, (), fun k _ => some ((), k)⟩ (fun _ => .item (.num 1) ()) none,
    .flatMap _ _ _ (.any rfl rfl), fun n => ?_⟩
  have inner : ∀ n (k : Nat),
      feed (flatStep (κ := Unit) (τ := Unit) (fun k _ => some ((), k)) (ofList [.num 1]).next
        (fun _ => .item (.num 1) ())) (fun (k : Nat) _ => Act.more (k + 1)) (fun k => .num k) n
        (([] : List V), (), some (), none) k = .running := by
    intro n
    induction n with
    | zero => intro k; rfl
    | succ n ih => intro k; exact ih (k + 1)
  cases n with
  | zero => rfl
  | succ n => exact inner n 0

/-- `repeat(x).filter(|_| false).zip([1]).count()` is not reported, because the other iterator ends;
but this one does not get that far. -/
theorem zip_filter :
    check (.call .count true false .number (.call .zip true false .other
      (.call .filter true false .other (.rep (.leaf 0)) (.cons (.leaf 1) .nil))
      (.cons (.leaf 2) .nil)) .nil) = none ∧
    ∃ I, Den (fun _ I => I = ofList [.num 1]) (.call .zip true false .other
      (.call .filter true false .other (.rep (.leaf 0)) (.cons (.leaf 1) .nil))
      (.cons (.leaf 2) .nil)) I ∧ ∀ n, counter.after I n = .running := by
  refine ⟨by decide +kernel, _,
    .zip (.filter ⟨Unit, (), fun k _ => some (false, k)⟩ (.rep .nothing)) (.any rfl rfl), fun n => ?_⟩
  show feed _ _ _ n _ _ = _
  induction n with
  | zero => rfl
  | succ n ih => exact ih

end Verif.Endless.Witness
