import Verif.Fold.Props

/-!
# Properties: a fold over an option
-/

namespace Verif.Fold

/-- A fold that becomes `map_or` starts with a literal, or with a variable that can be copied and is no
parameter of a closure. -/
theorem mapOr_init {c : Call} {ad : Adapter} {i : Expr} {q : Pat} {b : Expr}
    (h : check c = some (.mapOr ad i q b)) :
    c.init = i ∧ ((∃ k, i = .bool k) ∨ (∃ n, i = .num n) ∨ ∃ y, i = .var y ∧ c.copy = true ∧ c.param = false) ∧
      c.isOption = true ∧ ad.refs = c.recv.refs ∧ c.recv ≠ .other ∧
      ∃ p body, c.f = .closure p q body ∧ newBody p i body = some b := by
  unfold check at h
  split at h
  · rename_i s hs
    cases h
    unfold standard at hs
    split at hs
    · obtain ⟨_, _, e⟩ := Option.map_eq_some_iff.1 hs
      exact nomatch e
    · obtain ⟨_, _, e⟩ := Option.map_eq_some_iff.1 hs
      exact nomatch e
    · split at hs
      · exact nomatch hs
      · exact nomatch hs
    · split at hs
      · exact nomatch hs
      · exact nomatch hs
    · exact nomatch hs
  · unfold option at h
    split at h
    · rename_i hok
      simp only [Bool.and_eq_true] at hok
      split at h
      · rename_i ad' p q' body ha hf
        obtain ⟨b', h1, h2⟩ := Option.map_eq_some_iff.1 h
        cases h2
        refine ⟨rfl, ?_, hok.2, ?_, ?_, p, body, hf, h1⟩
        · have := hok.1
          unfold initOk at this
          split at this
          · rename_i k e; exact Or.inl ⟨k, e⟩
          · rename_i n e; exact Or.inr (Or.inl ⟨n, e⟩)
          · rename_i y e
            simp only [Bool.and_eq_true, Bool.not_eq_true'] at this
            exact Or.inr (Or.inr ⟨y, e, this.1, this.2⟩)
          · exact nomatch this
        · cases hr : c.recv <;> rw [hr] at ha <;> cases ha <;> rfl
        · intro e
          rw [e] at ha
          exact nomatch ha
      · exact nomatch h
    · exact nomatch h

/-- The text of the first argument still has its value. -/
def Still (w : World) (i : Expr) (v : Val) (σ : St) : Prop := eval w i σ = some (v, σ)

/-- A literal or a variable. -/
inductive Simple : Expr → Prop where
  | bool (k : Bool) : Simple (.bool k)
  | num (n : Nat) : Simple (.num n)
  | var (y : Name) : Simple (.var y)

theorem Still.keep {w : World} {i : Expr} {v : Val} {σ τ : St} (hs : Simple i) (h : Still w i v σ)
    (he : ∀ y, i = .var y → τ.env y = σ.env y) : Still w i v τ := by
  cases hs with
  | bool k => cases h; rfl
  | num n => cases h; rfl
  | var y =>
    have : σ.env y = v := by cases h; rfl
    simp only [Still, eval, he y rfl, this]

/-- The conditions on the body. -/
structure Fit (a : Name) (i e : Expr) : Prop where
  sets : a ∉ sets e
  shorts : a ∉ shorts e
  free : ∀ y, i = .var y → y ∉ Fold.sets e ∧ y ∉ lets e

theorem replace_sim (w : World) (a : Name) (i : Expr) (v : Val) (hs : Simple i) :
    ∀ (e : Expr) (σ : St) (r : Val) (τ : St), Fit a i e → Still w i v σ →
      eval w e (σ.set a v) = some (r, τ) →
      ∃ τ', eval w (replaceAcc a i e) σ = some (r, τ') ∧ τ = τ'.set a v ∧ Still w i v τ'
  | .bool b, σ, r, τ, _, hg, h => by
    cases h
    exact ⟨σ, rfl, rfl, hg⟩
  | .num n, σ, r, τ, _, hg, h => by
    cases h
    exact ⟨σ, rfl, rfl, hg⟩
  | .var x, σ, r, τ, _, hg, h => by
    cases h
    refine ⟨σ, ?_, rfl, hg⟩
    simp only [replaceAcc]
    split
    · rename_i e
      subst e
      rw [set_here]; exact hg
    · rename_i e
      rw [set_other _ e]; rfl
  | .short x, σ, r, τ, hf, hg, h => by
    cases h
    have hx : x ≠ a := fun e => hf.shorts (by simp [Fold.shorts, e])
    refine ⟨σ, ?_, rfl, hg⟩
    simp only [replaceAcc]
    rw [if_neg hx, set_other _ hx]
    rfl
  | .deref e, σ, r, τ, hf, hg, h => by
    obtain ⟨⟨u, υ⟩, h1, h2⟩ := Option.bind_eq_some_iff.1 h
    obtain ⟨υ', i1, i2, i3⟩ := replace_sim w a i v hs e _ _ _ ⟨hf.sets, hf.shorts, hf.free⟩ hg h1
    simp only at h2
    split at h2
    · exact nomatch h2
    · rename_i m rs hr
      cases h2
      refine ⟨υ', ?_, i2, i3⟩
      simp only [replaceAcc, eval, i1, Option.bind_some, hr]
  | .call e, σ, r, τ, hf, hg, h => by
    obtain ⟨⟨u, υ⟩, h1, h2⟩ := Option.bind_eq_some_iff.1 h
    obtain ⟨υ', i1, rfl, i3⟩ := replace_sim w a i v hs e _ _ _ ⟨hf.sets, hf.shorts, hf.free⟩ hg h1
    cases h2
    refine ⟨υ'.say [u.n], ?_, rfl, i3.keep hs (fun _ _ => rfl)⟩
    simp only [replaceAcc, eval, i1, Option.bind_some]
    rfl
  | .block e, σ, r, τ, hf, hg, h => replace_sim w a i v hs e _ _ _ ⟨hf.sets, hf.shorts, hf.free⟩ hg h
  | .set x e, σ, r, τ, hf, hg, h => by
    have hse := hf.sets
    simp only [Fold.sets, List.mem_cons, not_or] at hse
    obtain ⟨⟨u, υ⟩, h1, h2⟩ := Option.bind_eq_some_iff.1 h
    obtain ⟨υ', i1, rfl, i3⟩ := replace_sim w a i v hs e _ _ _ ⟨hse.2, hf.shorts, fun y hy =>
      ⟨fun hm => (hf.free y hy).1 (List.mem_cons_of_mem _ hm), (hf.free y hy).2⟩⟩ hg h1
    cases h2
    refine ⟨υ'.set x u, ?_, set_comm _ hse.1 _ _, i3.keep hs (fun y hy => ?_)⟩
    · simp only [replaceAcc, eval, i1, Option.bind_some]
    · exact set_other _ (fun e => (hf.free y hy).1 (by simp [Fold.sets, e])) _
  | .bin o l r', σ, r, τ, hf, hg, h => by
    have hse := hf.sets
    simp only [Fold.sets, List.mem_append, not_or] at hse
    have hsh := hf.shorts
    simp only [Fold.shorts, List.mem_append, not_or] at hsh
    have hfr : ∀ y, i = .var y → (y ∉ Fold.sets l ∧ y ∉ Fold.sets r') ∧ y ∉ lets l ∧ y ∉ lets r' := by
      intro y hy
      have := hf.free y hy
      simpa only [Fold.sets, lets, List.mem_append, not_or] using this
    obtain ⟨⟨u, υ⟩, h1, h2⟩ := Option.bind_eq_some_iff.1 h
    obtain ⟨υ', i1, rfl, i3⟩ := replace_sim w a i v hs l _ _ _
      ⟨hse.1, hsh.1, fun y hy => ⟨(hfr y hy).1.1, (hfr y hy).2.1⟩⟩ hg h1
    simp only at h2
    split at h2
    · rename_i hst
      cases h2
      refine ⟨υ', ?_, rfl, i3⟩
      simp only [replaceAcc, eval, i1, Option.bind_some, hst, if_true]
    · rename_i hst
      obtain ⟨⟨u', ρ⟩, h3, h4⟩ := Option.bind_eq_some_iff.1 h2
      obtain ⟨ρ', j1, rfl, j3⟩ := replace_sim w a i v hs r' _ _ _
        ⟨hse.2, hsh.2, fun y hy => ⟨(hfr y hy).1.2, (hfr y hy).2.2⟩⟩ i3 h3
      obtain ⟨q, h5, h6⟩ := Option.map_eq_some_iff.1 h4
      cases h6
      refine ⟨ρ', ?_, rfl, j3⟩
      simp only [replaceAcc, eval, i1, Option.bind_some, hst, j1]
      simp [h5]
  | .letIn x l r', σ, r, τ, hf, hg, h => by
    have hse := hf.sets
    simp only [Fold.sets, List.mem_append, not_or] at hse
    have hsh := hf.shorts
    simp only [Fold.shorts, List.mem_append, not_or] at hsh
    have hfr : ∀ y, i = .var y →
        (y ∉ Fold.sets l ∧ y ∉ Fold.sets r') ∧ y ≠ x ∧ y ∉ lets l ∧ y ∉ lets r' := by
      intro y hy
      have := hf.free y hy
      simpa only [Fold.sets, lets, List.mem_cons, List.mem_append, not_or] using this
    obtain ⟨⟨u, υ⟩, h1, h2⟩ := Option.bind_eq_some_iff.1 h
    obtain ⟨υ', i1, rfl, i3⟩ := replace_sim w a i v hs l _ _ _
      ⟨hse.1, hsh.1, fun y hy => ⟨(hfr y hy).1.1, (hfr y hy).2.2.1⟩⟩ hg h1
    obtain ⟨⟨u', ρ⟩, h3, h4⟩ := Option.map_eq_some_iff.1 h2
    cases h4
    by_cases hx : x = a
    · subst hx
      rw [set_set] at h3
      refine ⟨ρ.set x (υ'.env x), ?_, ?_, ?_⟩
      · simp only [replaceAcc, eval, i1, Option.bind_some, if_true, h3, Option.map_some]
      · rw [set_here, set_set]
      · refine i3.keep hs (fun y hy => ?_)
        obtain ⟨⟨_, f2⟩, f3, _, _⟩ := hfr y hy
        rw [set_other _ f3, eval_keeps w y r' _ _ _ f2 h3, set_other _ f3]
    · rw [set_comm _ (fun e => hx e.symm)] at h3
      obtain ⟨ρ', j1, rfl, j3⟩ := replace_sim w a i v hs r' _ _ _
        ⟨hse.2, hsh.2, fun y hy => ⟨(hfr y hy).1.2, (hfr y hy).2.2.2⟩⟩
        (i3.keep hs (fun y hy => set_other _ (hfr y hy).2.1 _)) h3
      refine ⟨ρ'.set x (υ'.env x), ?_, ?_, ?_⟩
      · simp only [replaceAcc, eval, i1, Option.bind_some, hx, if_false, j1, Option.map_some]
      · rw [set_other _ hx, set_comm _ (fun e => hx e.symm)]
      · exact j3.keep hs (fun y hy => set_other _ (hfr y hy).2.1 _)

theorem setsNew (a : Name) (i : Expr) (hs : Simple i) : ∀ (e : Expr), sets (replaceAcc a i e) = sets e
  | .bool _ => rfl
  | .num _ => rfl
  | .broken => rfl
  | .var x => by
    simp only [replaceAcc]
    split
    · cases hs <;> rfl
    · rfl
  | .short x => by
    simp only [replaceAcc]
    split <;> rfl
  | .deref e => setsNew a i hs e
  | .call e => setsNew a i hs e
  | .block e => setsNew a i hs e
  | .set x e => by simp [replaceAcc, sets, setsNew a i hs e]
  | .bin o l r => by simp [replaceAcc, sets, setsNew a i hs l, setsNew a i hs r]
  | .letIn x l r => by
    simp only [replaceAcc, sets, setsNew a i hs l]
    split
    · rfl
    · rw [setsNew a i hs r]

theorem keepsNew (w : World) (a : Name) (i : Expr) (hs : Simple i) (e : Expr) (hf : Fit a i e) {σ τ : St} {r : Val}
    (h : eval w (replaceAcc a i e) σ = some (r, τ)) : τ.env a = σ.env a :=
  eval_keeps w a _ _ _ _ (by rw [setsNew a i hs e]; exact hf.sets) h

theorem say_nil (σ : St) : σ.say [] = σ := by
  simp [St.say]

/-- The suggestion `map_or` has the same value and effects.  Missing, with witnesses: a first argument whose
name is bound in the closure (`captured`) or assigned there (`init_changes`); the accumulator as a field
`S { acc }` (`shorthand`); a reference in the pattern of the accumulator (`acc_ref`). -/
theorem option_same_partial (w : World) (c : Call) (s : Sugg) (o : Option Val) (σ τ : St) (v : Val)
    (ad : Adapter) (i b body : Expr) (p q : Pat) (hc : check c = some s) (hs : s = .mapOr ad i q b)
    (hf : c.f = .closure p q body) (hp : p.refs = []) (hd : p.name = none ∨ p.name ≠ q.name)
    (hy : ∀ y, c.init = .var y → q.name ≠ some y ∧ y ∉ sets body ∧ y ∉ lets body)
    (ha : ∀ a, p.name = some a → a ∉ sets body ∧ a ∉ shorts body)
    (h : c.run w (ofOption c.recv.refs o) σ = some (v, τ)) : s.runOption w o σ = some (v, τ) := by
  subst hs
  obtain ⟨h1, h2, _, h4, _, p', body', h5, h6⟩ := mapOr_init hc
  rw [hf] at h5
  cases h5
  have hsi : Simple i := by
    rcases h2 with ⟨k, rfl⟩ | ⟨n, rfl⟩ | ⟨y, rfl, _⟩
    · exact .bool k
    · exact .num n
    · exact .var y
  unfold Call.run at h
  rw [h1] at h
  obtain ⟨⟨v₀, σ'⟩, e1, e2⟩ := Option.bind_eq_some_iff.1 h
  have hσ : σ' = σ := by
    cases hsi <;> cases e1 <;> rfl
  subst hσ
  simp only [Sugg.runOption, e1, Option.bind_some, h4]
  obtain ⟨⟨r, ρ⟩, e3, e4⟩ := Option.map_eq_some_iff.1 e2
  simp only [ofOption, say_nil, Prod.mk.injEq] at e4
  obtain ⟨rfl, rfl⟩ := e4
  cases o with
  | none =>
    cases e3
    rfl
  | some u =>
    simp only [ofOption, Option.map_some, Option.toList, foldItems, say_nil, hf, Fun.app] at e3
    obtain ⟨⟨r', ρ'⟩, e5, e6⟩ := Option.bind_eq_some_iff.1 e3
    cases e6
    simp only [mapOr, Option.map_some]
    generalize addRefs c.recv.refs u = u at e5 ⊢
    obtain ⟨τ₁, g1, g2⟩ := Option.bind_eq_some_iff.1 e5
    obtain ⟨τ₂, g3, g4⟩ := Option.bind_eq_some_iff.1 g2
    obtain ⟨⟨r', ρ'⟩, g5, g6⟩ := Option.map_eq_some_iff.1 g4
    obtain ⟨t, g7, g8⟩ := Option.map_eq_some_iff.1 g3
    simp only [Pat.bind, hp, peel, Option.map_some, Option.some.injEq] at g1
    have hbind : ∀ σ, q.bind u σ = some (bindName q.name ⟨t, u.n⟩ σ) := by
      intro σ
      simp [Pat.bind, g7]
    cases hpn : p.name with
    | none =>
      rw [hpn] at g1 g6
      simp only [bindName] at g1
      subst g1
      simp only [newBody, hpn, Option.some.injEq] at h6
      subst h6
      simp only [call1, hbind, Option.bind_some, g8, g5, Option.map_some]
      rw [← g6]
      rfl
    | some a =>
      rw [hpn] at g1 g6
      have hve : (⟨v₀.refs, v₀.n⟩ : Val) = v₀ := rfl
      simp only [bindName, hve] at g1
      subst g1
      simp only [newBody, hpn] at h6
      split at h6
      · exact nomatch h6
      · cases h6
        have fit : Fit a i body := ⟨(ha a hpn).1, (ha a hpn).2, fun y e => (hy y (h1.trans e)).2⟩
        cases hqn : q.name with
        | none =>
          rw [hqn] at g8 g6
          simp only [bindName] at g8
          subst g8
          obtain ⟨ρ₂, k1, rfl, k3⟩ := replace_sim w a i v₀ hsi body _ _ _ fit e1 g5
          simp only [call1, hbind, Option.bind_some, hqn, bindName, k1, Option.map_some, unbind]
          simp only [unbind, set_set] at g6
          have hea : ρ₂.env a = σ'.env a := keepsNew w a i hsi body fit k1
          rw [← hea, set_same] at g6
          exact congrArg some g6
        | some x =>
          rw [hqn] at g8 g6
          have hax : a ≠ x := by
            intro e
            rcases hd with hd | hd
            · rw [hpn] at hd; exact nomatch hd
            · exact hd (by rw [hpn, hqn, e])
          simp only [bindName] at g8
          subst g8
          rw [set_comm _ hax] at g5
          have hst : Still w i v₀ (σ'.set x ⟨t, u.n⟩) := Still.keep hsi e1 (fun y hyy =>
            set_other _ (fun e => (hy y (h1.trans hyy)).1 (by rw [hqn, e])) _)
          obtain ⟨ρ₂, k1, rfl, k3⟩ := replace_sim w a i v₀ hsi body _ _ _ fit hst g5
          simp only [call1, hbind, Option.bind_some, hqn, bindName, k1, Option.map_some, unbind]
          have hxa : x ≠ a := fun e => hax e.symm
          have hea : ρ₂.env a = σ'.env a := by
            rw [keepsNew w a i hsi body fit k1, set_other _ hax]
          simp only [unbind] at g6
          rw [set_other _ hxa, set_comm _ hax, set_set, ← hea, ← set_other ρ₂ hax (σ'.env x), set_same] at g6
          exact congrArg some g6
/-! ### Examples and findings

The accumulator is 0, the item 1, other variables are 2 and 3. -/

def exW : World := ⟨fun l n => if l.length + n > 3 then 1 else 0, 255⟩
def exSt : St := ⟨fun _ => num 7, []⟩
def pat (x : Name) : Pat := ⟨[], false, some x⟩

/-- `fold(0, |acc, &x| x + acc)` over references to numbers. -/
example : check ⟨false, .other, .num 0, true, false,
      .closure (pat 0) ⟨[.shared], false, some 1⟩ (.block (.bin .add (.var 1) (.var 0)))⟩ = some .sum ∧
    check ⟨false, .other, .num 1, true, false, .method .mul⟩ = some .product ∧
    check ⟨false, .other, .num 1, true, false, .method .add⟩ = none ∧
    ((Sugg.sum.run exW ⟨[([9], ⟨[.shared], 100⟩), ([], ⟨[.shared], 55⟩)], [8]⟩ exSt).map
      fun r => (r.1, r.2.log)) = some (num 155, [9, 8]) ∧
    (Sugg.sum.run exW ⟨[([9], num 200), ([], num 56)], []⟩ exSt).isNone = true := by decide +kernel

/-- All the hypotheses of `total_same_partial` hold. -/
example (τ : St) (v : Val) :=
  total_same_partial exW ⟨false, .other, .num 0, true, false,
      .closure (pat 0) ⟨[.shared], false, some 1⟩ (.block (.bin .add (.var 1) (.var 0)))⟩ .sum
    ⟨[([9], ⟨[.shared], 100⟩), ([], ⟨[.shared], 55⟩)], [8]⟩ exSt τ v (by decide +kernel) (Or.inl rfl)
    (by intro p q body h; cases h; decide) (by intro i hi; simp at hi; rcases hi with rfl | rfl <;> rfl)

def exAny : Call :=
  ⟨false, .other, .bool false, true, false, .closure (pat 0) (pat 1) (.bin .or (.var 0) (.call (.var 1)))⟩
def exIter : Iter := ⟨[([9], num 1), ([], num 2), ([], num 3)], []⟩

/-- `fold(false, |acc, x| acc || f(x))` -/
example : check exAny = some (.any 1 (.call (.var 1))) ∧
    ((exAny.run exW exIter exSt).map fun r => (r.1, r.2.log)) = some (num 1, [9, 1, 2]) ∧
    (((Sugg.any 1 (.call (.var 1))).run exW exIter exSt).map fun r => (r.1, r.2.log)) =
      some (num 1, [9, 1, 2]) := by decide +kernel

/-- All the hypotheses of `search_same_partial` hold. -/
example (τ : St) (v : Val) :=
  search_same_partial exW exAny (.any 1 (.call (.var 1))) exIter exSt τ v 1 _ .or (pat 0) (pat 1) _
    (by decide +kernel) (Or.inl ⟨rfl, rfl⟩) rfl rfl (by decide) (by intro a h; cases h; decide)
    (Or.inl ⟨0, rfl, rfl⟩)

def exOption : Call :=
  ⟨true, .iter, .var 2, true, false, .closure (pat 0) (pat 1) (.bin .add (.var 0) (.var 1))⟩

/-- `opt.iter().fold(n, |acc, x| acc + x)` -/
example : check exOption = some (.mapOr .asRef (.var 2) (pat 1) (.bin .add (.var 2) (.var 1))) ∧
    ((exOption.run exW (ofOption [.shared] (some (num 5))) exSt).map (·.1)) = some (num 12) := by
  decide +kernel

/-- All the hypotheses of `option_same_partial` hold. -/
example (o : Option Val) (τ : St) (v : Val) :=
  option_same_partial exW exOption (.mapOr .asRef (.var 2) (pat 1) (.bin .add (.var 2) (.var 1))) o exSt τ v
    .asRef (.var 2) _ _ (pat 0) (pat 1) (by decide +kernel) rfl rfl rfl (Or.inr (by decide))
    (by intro y h; cases h; decide) (by intro a h; cases h; decide)

/-- A finding: `fold(0, |acc, &x| acc + x)` over `&&i32` becomes `sum`, which is not defined for such items. -/
theorem sum_refs :
    let c : Call := ⟨false, .other, .num 0, true, false,
      .closure (pat 0) ⟨[.shared], false, some 1⟩ (.bin .add (.var 0) (.var 1))⟩
    let it : Iter := ⟨[([], ⟨[.shared, .shared], 5⟩)], []⟩
    check c = some .sum ∧ (c.run exW it exSt).map (·.1) = some (num 5) ∧
      (Sugg.sum.run exW it exSt).isNone = true := by decide +kernel

/-- A finding: `fold(false, |acc, &x| acc || x > 2)` becomes `any(|x| x > 2)` without the `&`. -/
theorem ref_lost :
    let c : Call := ⟨false, .other, .bool false, true, false,
      .closure (pat 0) ⟨[.shared], false, some 1⟩ (.bin .or (.var 0) (.bin .gt (.var 1) (.num 2)))⟩
    let s : Sugg := .any 1 (.bin .gt (.var 1) (.num 2))
    let it : Iter := ⟨[([], ⟨[.shared], 5⟩)], []⟩
    check c = some s ∧ (c.run exW it exSt).map (·.1) = some (num 1) ∧
      (s.run exW it exSt).isNone = true := by decide +kernel

/-- A finding: `fold(true, |ok, x| ok && (x > 2 && ok))` becomes `all(|x| x > 2 && ok)`, which does not compile,
or takes another variable with that name. -/
theorem acc_left :
    let b : Expr := .bin .and (.bin .gt (.var 1) (.num 2)) (.var 0)
    let c : Call := ⟨false, .other, .bool true, true, false, .closure (pat 0) (pat 1) (.bin .and (.var 0) b)⟩
    let s : Sugg := .all 1 b
    let it : Iter := ⟨[([], num 5)], []⟩
    let σ : St := ⟨fun _ => num 0, []⟩
    check c = some s ∧ (c.run exW it σ).map (·.1) = some (num 1) ∧
      (s.run exW it σ).map (·.1) = some (num 0) := by decide +kernel

/-- A finding: `fold(false, |acc, x| f(x) || acc)` calls `f` for each item, `any(|x| f(x))` does not, although
the iterator has no effects. -/
theorem left_effects :
    let c : Call := ⟨false, .other, .bool false, true, false,
      .closure (pat 0) (pat 1) (.bin .or (.call (.var 1)) (.var 0))⟩
    let s : Sugg := .any 1 (.call (.var 1))
    let it : Iter := ⟨[([], num 4), ([], num 5)], []⟩
    check c = some s ∧ (c.run exW it exSt).map (fun r => (r.1, r.2.log)) = some (num 1, [4, 5]) ∧
      (s.run exW it exSt).map (fun r => (r.1, r.2.log)) = some (num 1, [4]) := by decide +kernel

/-- A finding: `let x = 7; opt.into_iter().fold(x, |acc, x| acc + x)` becomes `opt.map_or(x, |x| x + x)`. -/
theorem captured :
    let c : Call := ⟨true, .intoIter, .var 1, true, false,
      .closure (pat 0) (pat 1) (.bin .add (.var 0) (.var 1))⟩
    let s : Sugg := .mapOr .none (.var 1) (pat 1) (.bin .add (.var 1) (.var 1))
    check c = some s ∧ (c.run exW (ofOption [] (some (num 5))) exSt).map (·.1) = some (num 12) ∧
      (s.runOption exW (some (num 5)) exSt).map (·.1) = some (num 10) := by decide +kernel

/-- A finding: `opt.into_iter().fold(n, |acc, x| { n = x; acc })`, where the variable is assigned in the closure. -/
theorem init_changes :
    let c : Call := ⟨true, .intoIter, .var 2, true, false,
      .closure (pat 0) (pat 1) (.letIn 3 (.set 2 (.var 1)) (.var 0))⟩
    let s : Sugg := .mapOr .none (.var 2) (pat 1) (.letIn 3 (.set 2 (.var 1)) (.var 2))
    check c = some s ∧ (c.run exW (ofOption [] (some (num 5))) exSt).map (·.1) = some (num 7) ∧
      (s.runOption exW (some (num 5)) exSt).map (·.1) = some (num 5) := by decide +kernel

/-- A finding: `opt.into_iter().fold(0, |acc, x| S { acc }.acc)` becomes `opt.map_or(0, |x| S { 0 }.acc)`. -/
theorem shorthand :
    let c : Call := ⟨true, .intoIter, .num 0, true, false, .closure (pat 0) (pat 1) (.short 0)⟩
    let s : Sugg := .mapOr .none (.num 0) (pat 1) .broken
    check c = some s ∧ (c.run exW (ofOption [] (some (num 5))) exSt).map (·.1) = some (num 0) ∧
      (s.runOption exW (some (num 5)) exSt).isNone = true := by decide +kernel

/-- A finding: `opt.into_iter().fold(r, |&acc, x| { let k = acc > x; r })`, where `acc` is a number and `r` a
reference. -/
theorem acc_ref :
    let c : Call := ⟨true, .intoIter, .var 2, true, false,
      .closure ⟨[.shared], false, some 0⟩ (pat 1) (.letIn 3 (.bin .gt (.var 0) (.var 1)) (.var 2))⟩
    let s : Sugg := .mapOr .none (.var 2) (pat 1) (.letIn 3 (.bin .gt (.var 2) (.var 1)) (.var 2))
    let σ : St := ⟨fun _ => ⟨[.shared], 7⟩, []⟩
    check c = some s ∧ (c.run exW (ofOption [] (some (num 5))) σ).map (·.1) = some ⟨[.shared], 7⟩ ∧
      (s.runOption exW (some (num 5)) σ).isNone = true := by decide +kernel

end Verif.Fold
