import Verif.NoEffect.Model

/-!
# Statements that do nothing (C116)
-/

namespace Verif.NoEffect

variable {W : Type} {M : Meaning W}

/-- Nothing has to be dropped. -/
def Res.Light (r : Res W) : Prop := r.owned = [] ∧ r.temps = []

theorem apply_light {k : Kind} {over : Bool} {vs : List Nat} {r : Res W} (hr : r.Light)
    (hk : match k with
      | .adt _ own _ | .ctor _ own _ => own = false
      | .call _ drops => drops = false
      | _ => True) : (apply M k over vs r).Light := by
  obtain ⟨h1, h2⟩ := hr
  have hc : ∀ d, d = false → Res.Light (match M.call k vs r.world with
      | (some v, w) => (⟨some [v], if d then [v] else [], r.temps, w⟩ : Res W)
      | (none, w) => ⟨none, [], r.temps, w⟩) := by
    intro d hd
    split <;> simp [Res.Light, hd, h2]
  unfold apply
  simp only
  split
  · exact hc _ hk
  · split
    · exact hc _ rfl
    · split
      · simp [Res.Light, h1, h2]
      · split
        · simp only at hk; simp [Res.Light, h1, h2, hk]
        · simp only at hk; simp [Res.Light, h1, h2, hk]
        · split <;> simp [Res.Light, h1, h2]

theorem light : ∀ (e : Expr) (p : Bool) (w : W), DropFree e → (eval M p e w).Light := by
  intro e
  induction e with
  | lit v => intros; simp [eval, Res.Light]
  | var x d => intro p w h; simp only [DropFree] at h; simp [eval, Res.Light, h]
  | closure k caps => intro p w h; simp only [DropFree] at h; simp [eval, Res.Light, h]
  | nil => intros; simp [eval, Res.Light]
  | block k e ih => intro p w h; simp only [eval]; exact ih _ _ h
  | node k over never args ih =>
    intro p w h
    have h1 := ih k.places w h.2
    simp only [eval]
    split
    · exact h1
    · exact apply_light h1 h.1
  | andOr isAnd a b iha ihb =>
    intro p w h
    have h1 := iha false w h.1
    simp only [eval]
    split
    · exact h1
    · split
      · exact h1
      · have h2 := ihb false (eval M false a w).world h.2
        simp [Res.Light, h1.1, h1.2, h2.1, h2.2]
  | cons e es ihe ihes =>
    intro p w h
    have h1 := ihe p w h.1
    have h2 := ihes p (eval M p e w).world h.2
    simp only [eval]
    split
    · exact h1
    · split <;> simp [Res.Light, h1.1, h1.2, h2.1, h2.2]

theorem place_same : ∀ (e : Expr) (p q : Bool) (w : W), DropFree e → eval M p e w = eval M q e w := by
  intro e
  induction e with
  | lit v => intros; rfl
  | var x d => intro p q w h; simp only [DropFree] at h; simp [eval, h]
  | closure k caps => intros; rfl
  | nil => intros; rfl
  | block k e ih => intros; rfl
  | node k over never args ih => intros; rfl
  | andOr isAnd a b iha ihb => intros; rfl
  | cons e es ihe ihes =>
    intro p q w h
    simp only [eval, ihe p q w h.1, ihes p q _ h.2]

/-- Evaluation as a statement, if nothing is dropped. -/
def ends (M : Meaning W) (e : Expr) (w : W) : Bool × W := ((eval M false e w).vals.isSome, (eval M false e w).world)

theorem run_ends {e : Expr} {w : W} (h : DropFree e) : run M e w = ends M e w := by
  obtain ⟨h1, h2⟩ := light (M := M) e false w h
  simp [run, ends, h1, h2, dropAll]

theorem ends_cons {e es : Expr} {w : W} : ends M (.cons e es) w =
    match ends M e w with
    | (true, w') => ends M es w'
    | (false, w') => (false, w') := by
  simp only [ends, eval]
  cases h : (eval M false e w).vals with
  | none => simp [h]
  | some vs =>
    simp only [Option.isSome_some]
    cases h' : (eval M false es (eval M false e w).world).vals <;> simp

theorem runAll_ends : ∀ (es : Expr) (w : W), Shaped es → es.isList = true → DropFree es → runAll M es.toList w = ends M es w := by
  intro es
  induction es with
  | nil => intros; simp [Expr.toList, runAll, ends, eval]
  | cons e es _ ih =>
    intro w hs _ hd
    simp only [Expr.toList, runAll, run_ends hd.1, ends_cons]
    split
    · rename_i w' h; simp only [h]; exact ih w' hs.2.2 hs.1.2 hd.2
    · rename_i w' h; simp only [h]
  | lit | var | closure | node | andOr | block => intro w _ h; cases h

theorem ends_node {k : Kind} {never : Bool} {args : Expr} {w : W} (hk : ∀ f d, k ≠ .call f d) :
    ends M (.node k false never args) w =
      match (eval M k.places args w).vals with
      | none => (false, (eval M k.places args w).world)
      | some vs => ((M.builtin k vs).isSome, (eval M k.places args w).world) := by
  simp only [ends, eval]
  cases h : (eval M k.places args w).vals with
  | none => simp [h]
  | some vs =>
    cases k with
    | call f d => exact absurd rfl (hk f d)
    | _ =>
      simp only [apply, Bool.false_eq_true, if_false, Kind.keeps, if_true]
      split <;> simp_all

theorem node_args {k : Kind} {never : Bool} {args : Expr} {w : W} (hk : ∀ f d, k ≠ .call f d) (hd : DropFree args)
    (hp : (∀ k vs, (M.builtin k vs).isSome = true) ∨ (ends M (.node k false never args) w).1 = true) :
    ends M (.node k false never args) w = ends M args w := by
  rw [ends_node hk] at hp ⊢
  rw [ends, place_same args false k.places w hd]
  cases h : (eval M k.places args w).vals with
  | none => rfl
  | some vs =>
    simp only [h] at hp
    simp only [Option.isSome_some]
    rw [hp.elim (fun h => h k vs) id]

theorem single_list {args : Expr} (hl : args.isList = true) (hn : args.toList.length = 1) (hs : Shaped args) :
    ∃ e, args = .cons e .nil := by
  cases args with
  | cons e es =>
    have h2 := hs.1.2
    cases es with
    | nil => exact ⟨e, rfl⟩
    | cons => simp [Expr.toList] at hn
    | lit | var | closure | node | andOr | block => cases h2
  | nil => simp [Expr.toList] at hn
  | lit | var | closure | node | andOr | block => cases hl

theorem ends_single {e : Expr} {w : W} : ends M (.cons e .nil) w = ends M e w := by
  rw [ends_cons]
  split
  · rename_i w' h; rw [h]; rfl
  · rename_i w' h; rw [h]

/-- What is left of an expression does what it does. -/
theorem reduce_ends : ∀ e : Expr,
    (∀ (es : List Expr) (w : W), Model.reduce e = some es → Shaped e → DropFree e → Bare e →
      ((∀ k vs, (M.builtin k vs).isSome = true) ∨ (ends M e w).1 = true) → runAll M es w = ends M e w) ∧
    (∀ (es : List Expr) (w : W), Model.reduceInner e = some es → Shaped e → e.toList.length = 1 → DropFree e → Bare e →
      ((∀ k vs, (M.builtin k vs).isSome = true) ∨ (ends M e w).1 = true) → runAll M es w = ends M e w) := by
  intro e
  induction e with
  | lit | var | closure | nil | andOr =>
    exact ⟨fun _ _ h => by simp [Model.reduce] at h, fun _ _ h => by simp [Model.reduceInner] at h⟩
  | block k e ih =>
    refine ⟨fun es w h hs hd hb hp => ?_, fun _ _ h => by simp [Model.reduceInner] at h⟩
    cases k with
    | plain =>
      simp only [Model.reduce, Option.some.injEq] at h
      subst h
      rw [← ends_single, ← runAll_ends (.cons (.block .plain e) .nil) w ⟨⟨rfl, rfl⟩, hs, trivial⟩ rfl ⟨hd, trivial⟩]
      rfl
    | compiler => exact ih.1 es w (by simpa [Model.reduce] using h) hs.2 hd hb hp
    | user => simp [Model.reduce] at h
  | cons e es ih _ =>
    refine ⟨fun _ _ h => by simp [Model.reduce] at h, fun es' w h hs hn hd hb hp => ?_⟩
    obtain ⟨x, hx⟩ := single_list rfl hn hs
    cases hx
    rw [ends_single] at hp ⊢
    simp only [Model.reduceInner] at h
    cases hr : Model.reduce e with
    | some l =>
      simp only [hr, Option.some.injEq] at h
      subst h
      exact ih.1 _ w hr hs.2.1 hd.1 hb hp
    | none =>
      simp only [hr, Option.some.injEq] at h
      subst h
      rw [← ends_single, ← runAll_ends (.cons e .nil) w hs rfl hd]
      rfl
  | node k over never args ih =>
    refine ⟨fun es w h hs hd hb hp => ?_, fun _ _ h => by simp [Model.reduceInner] at h⟩
    have hall : args.toList = es → (∀ f d, k ≠ .call f d) → runAll M es w = ends M (.node k over never args) w := by
      intro he hk
      subst he
      have ho := hb.1 hk
      subst ho
      rw [node_args hk hd.2 hp]
      exact runAll_ends _ _ hs.2.1 hs.1 hd.2
    have hone : Model.reduceInner args = some es → k.single = true → (∀ f d, k ≠ .call f d) →
        runAll M es w = ends M (.node k over never args) w := by
      intro he hk1 hk
      have ho := hb.1 hk
      subst ho
      have hn := node_args hk hd.2 hp
      rw [hn] at hp ⊢
      exact ih.2 es w he hs.2.1 (hs.2.2.1 hk1) hd.2 (hb.2 hk1) hp
    cases k with
    | index | binary | array | tup =>
      simp only [Model.reduce, Option.some.injEq] at h
      exact hall h (by simp)
    | adt _ own _ | ctor _ own _ =>
      cases own <;> simp [Model.reduce] at h
      exact hall h (by simp)
    | rep | ascribe | unary | field | addr =>
      cases never <;> simp [Model.reduce] at h
      exact hone h rfl (by simp)
    | cast _ certain =>
      cases certain <;> simp [Model.reduce] at h
      exact hone h rfl (by simp)
    | range | call => simp [Model.reduce] at h

/-- Without destructors and without user code behind the operators that go away, the statements that an unnecessary operation is reduced to
do what the operation does, if its operators don't panic or if the statement comes to its end. Missing: destructors (`tuple_drop`,
`borrow_drop`) and operators of user code (`nested_overload`). -/
theorem reduced_partial {e : Expr} {es : List Expr} (h : Model.checkStmt e = some (.reduced es)) (hs : Shaped e) (hd : DropFree e)
    (hb : Bare e) {w : W} (hp : (∀ k vs, (M.builtin k vs).isSome = true) ∨ (run M e w).1 = true) : runAll M es w = run M e w := by
  rw [run_ends hd] at hp ⊢
  refine (reduce_ends e).1 es w ?_ hs hd hb hp
  have hc : Model.checkUnnecessary e = some (.reduced es) := by
    unfold Model.checkStmt at h
    split at h
    · cases h
    · split at h
      · cases h
      · split at h
        · cases h
        · exact h
  unfold Model.checkUnnecessary at hc
  split at hc
  · cases hc
  · rename_i es' hr
    rw [hr]
    split at hc
    · cases hc
    · cases hc
    · cases hc; rfl

example : Model.checkStmt (.node (.unary 0) false false (.cons (.node (.binary 1) false false
      (.cons (.node (.call 7 false) false false .nil) (.cons (.lit 3) .nil))) .nil)) =
    some (.reduced [.node (.call 7 false) false false .nil, .lit 3]) := by decide +kernel

theorem quiet : ∀ e : Expr, Model.hasNoEffect e = true → NoOver e → NoCaps e → Typed e →
    DropFree e ∧ ∀ (p : Bool) (w : W), (eval M p e w).world = w ∧
      ((∀ k vs, (M.builtin k vs).isSome = true) → (eval M p e w).vals.isSome = true) := by
  intro e
  induction e with
  | lit | nil => intros; exact ⟨trivial, fun _ _ => ⟨rfl, fun _ => rfl⟩⟩
  | var x d =>
    intro h _ _ _
    simp only [Model.hasNoEffect, Bool.not_eq_true'] at h
    exact ⟨h, fun _ _ => ⟨rfl, fun _ => rfl⟩⟩
  | closure k caps => intro _ _ h _; exact ⟨h, fun _ _ => ⟨rfl, fun _ => rfl⟩⟩
  | block => intro h; simp [Model.hasNoEffect] at h
  | andOr isAnd a b iha ihb =>
    intro h ho hc ht
    simp only [Model.hasNoEffect, Bool.and_eq_true] at h
    obtain ⟨a1, a2⟩ := iha h.1 ho.1 hc.1 ht.1
    obtain ⟨b1, b2⟩ := ihb h.2 ho.2 hc.2 ht.2
    refine ⟨⟨a1, b1⟩, fun p w => ?_⟩
    have a3 := a2 false w
    simp only [eval]
    split
    · exact a3
    · split
      · exact a3
      · have b3 := b2 false (eval M false a w).world
        exact ⟨b3.1.trans a3.1, b3.2⟩
  | cons e es ihe ihes =>
    intro h ho hc ht
    simp only [Model.hasNoEffect, Bool.and_eq_true] at h
    obtain ⟨a1, a2⟩ := ihe h.1 ho.1 hc.1 ht.1
    obtain ⟨b1, b2⟩ := ihes h.2 ho.2 hc.2 ht.2
    refine ⟨⟨a1, b1⟩, fun p w => ?_⟩
    have a3 := a2 p w
    have b3 := b2 p (eval M p e w).world
    simp only [eval]
    split
    · exact a3
    · split
      · rename_i hn
        refine ⟨b3.1.trans a3.1, fun hb => ?_⟩
        have := b3.2 hb
        rw [hn] at this
        cases this
      · exact ⟨b3.1.trans a3.1, fun _ => rfl⟩
  | node k over never args ih =>
    intro h ho hc ht
    have hk : (∀ f d, k ≠ .call f d) ∧ Model.hasNoEffect args = true ∧ DropFree (.node k over never .nil) := by
      cases k with
      | adt _ own sig | ctor _ own sig =>
        simp only [Model.hasNoEffect, Bool.and_eq_true, Bool.not_eq_true'] at h
        refine ⟨by simp, h.2, ?_, trivial⟩
        have h1 := ht.1
        simp only at h1 ⊢
        cases own with
        | false => rfl
        | true => rw [h1 rfl] at h; exact absurd h.1 (by simp)
      | range sig =>
        simp only [Model.hasNoEffect, Bool.and_eq_true] at h
        exact ⟨by simp, h.2, trivial, trivial⟩
      | call => simp [Model.hasNoEffect] at h
      | _ => simp only [Model.hasNoEffect] at h; exact ⟨by simp, h, trivial, trivial⟩
    obtain ⟨hk, ha, hf⟩ := hk
    obtain ⟨a1, a2⟩ := ih ha ho.2 hc ht.2
    refine ⟨⟨hf.1, a1⟩, fun p w => ?_⟩
    have hn := ends_node (M := M) (never := never) (args := args) (w := w) hk
    have h0 := ho.1
    have a3 := a2 k.places w
    rw [h0, show eval M p (.node k false never args) w = eval M false (.node k false never args) w from rfl]
    simp only [ends] at hn
    cases hv : (eval M k.places args w).vals with
    | none =>
      rw [hv] at hn a3
      simp only at hn
      exact ⟨(congrArg Prod.snd hn).trans a3.1, fun hb => absurd (a3.2 hb) (by simp)⟩
    | some vs =>
      rw [hv] at hn
      simp only at hn
      exact ⟨(congrArg Prod.snd hn).trans a3.1, fun hb => (congrArg Prod.fst hn).trans (hb k vs)⟩

theorem inert_iff : ∀ e : Expr, Model.hasNoEffect e = true ↔ Inert e := by
  intro e
  induction e with
  | lit | nil | closure | block => simp [Model.hasNoEffect, Inert]
  | var => simp [Model.hasNoEffect, Inert]
  | node k over never args ih => cases k <;> simp [Model.hasNoEffect, Inert, ih]
  | andOr isAnd a b iha ihb => simp [Model.hasNoEffect, Inert, iha, ihb]
  | cons e es ihe ihes => simp [Model.hasNoEffect, Inert, ihe, ihes]

/-- All statements without calls, blocks and destructors are reported to have no effect, unless they are variables, which the compiler
reports, or the operator at the root is user code. -/
theorem found {e : Expr} (h : Inert e) (hv : ∀ x d, e ≠ .var x d) (ho : ∀ k n args, e ≠ .node k true n args) :
    Model.checkStmt e = some .noEffect := by
  have hp : Model.peelBlocks e = e := by cases e <;> first | rfl | exact absurd h (by simp [Inert])
  have hr : Model.isOperatorOverridden e = false := by
    cases e with
    | node k over n args =>
      cases over with
      | true => exact absurd rfl (ho k n args)
      | false => cases k <;> rfl
    | _ => rfl
  unfold Model.checkStmt
  rw [hp, hr, (inert_iff e).mpr h]
  split
  · exact absurd rfl (hv _ _)
  · rfl

theorem eval_peel : ∀ (e : Expr) (w : W), eval M false (Model.peelBlocks e) w = eval M false e w := by
  intro e
  induction e with
  | block k e ih =>
    intro w
    cases k with
    | plain => simp only [Model.peelBlocks, eval, ih]
    | _ => rfl
  | _ => intros; rfl

theorem peel_keeps {P : Expr → Prop} (hP : ∀ e, P (.block .plain e) → P e) : ∀ e : Expr, P e → P (Model.peelBlocks e) := by
  intro e
  induction e with
  | block k e ih =>
    intro h
    cases k with
    | plain => exact ih (hP e h)
    | _ => exact h
  | _ => intro h; exact h

/-- Without user code behind operators, and without closures that take what has a destructor, a statement reported to have no effect leaves
the world as it is and comes to its end, unless an operator panics. Missing: operators of user code below the root, and indexing
(`deref_missed`, `index_missed`), closures (`closure_missed`). -/
theorem no_effect_partial {e : Expr} (h : Model.checkStmt e = some .noEffect) (ho : NoOver e) (hc : NoCaps e) (ht : Typed e) {w : W} :
    (run M e w).2 = w ∧ ((∀ k vs, (M.builtin k vs).isSome = true) → (run M e w).1 = true) := by
  have hn : Model.hasNoEffect (Model.peelBlocks e) = true := by
    unfold Model.checkStmt at h
    split at h
    · cases h
    · split at h
      · cases h
      · split at h
        · assumption
        · unfold Model.checkUnnecessary at h
          split at h
          · cases h
          · split at h <;> cases h
  obtain ⟨h1, h2⟩ := quiet (M := M) _ hn (peel_keeps (fun _ h => h) e ho) (peel_keeps (fun _ h => h) e hc) (peel_keeps (fun _ h => h) e ht)
  obtain ⟨h3, h4⟩ := h2 false w
  obtain ⟨h5, h6⟩ := light (M := M) _ false w h1
  rw [eval_peel] at h3 h4 h5 h6
  simp only [run, h5, h6, List.reverse_nil, dropAll, List.foldl_nil]
  exact ⟨h3, h4⟩

/-- The statement is an operator of user code, maybe in blocks. -/
inductive UserOp : Expr → Prop
  | binary (o : Nat) (never : Bool) (args : Expr) : UserOp (.node (.binary o) true never args)
  | unary (o : Nat) (never : Bool) (args : Expr) : UserOp (.node (.unary o) true never args)
  | block (e : Expr) : UserOp e → UserOp (.block .plain e)

/-- A statement that is an operator of user code is never reported. -/
theorem user_op_silent {e : Expr} (h : UserOp e) : Model.checkStmt e = none := by
  have hp : Model.isOperatorOverridden (Model.peelBlocks e) = true := by
    induction h with
    | binary => rfl
    | unary => rfl
    | block e _ ih => exact ih
  unfold Model.checkStmt
  split
  · rfl
  · rw [if_pos hp]

example : UserOp (.block .plain (.node (.unary 0) true false (.cons (.var 1 false) .nil))) := .block _ (.unary _ _ _)

theorem vals_one : ∀ (e : Expr) (p : Bool) (w : W), e.isItem = true → Shaped e → (eval M p e w).vals = none ∨ ∃ v, (eval M p e w).vals = some [v] := by
  intro e
  induction e with
  | lit | var | closure => intros; exact .inr ⟨_, rfl⟩
  | nil | cons => intro _ _ h; cases h
  | block k e ih => intro p w _ hs; exact ih false w hs.1 hs.2
  | andOr isAnd a b iha ihb =>
    intro p w _ hs
    have h1 := iha false w hs.1.1 hs.2.1
    simp only [eval]
    split
    · exact h1
    · split
      · exact h1
      · exact ihb false _ hs.1.2 hs.2.2
  | node k over never args ih =>
    intro p w _ hs
    simp only [eval]
    split
    · exact .inl (by assumption)
    · rename_i vs _
      have hcall : ∀ d : Bool, (match M.call k vs (eval M k.places args w).world with
          | (some v, w') => (⟨some [v], if d then [v] else [], (eval M k.places args w).temps, w'⟩ : Res W)
          | (none, w') => ⟨none, [], (eval M k.places args w).temps, w'⟩).vals = none ∨ ∃ v, (match M.call k vs (eval M k.places args w).world with
          | (some v, w') => (⟨some [v], if d then [v] else [], (eval M k.places args w).temps, w'⟩ : Res W)
          | (none, w') => ⟨none, [], (eval M k.places args w).temps, w'⟩).vals = some [v] := by
        intro d
        split
        · exact .inr ⟨_, rfl⟩
        · exact .inl rfl
      unfold apply
      simp only
      split
      · exact hcall _
      · split
        · exact hcall _
        · split
          · exact .inl rfl
          · split
            · exact .inr ⟨_, rfl⟩
            · exact .inr ⟨_, rfl⟩
            · split <;> exact .inr ⟨_, rfl⟩

/-- The assertion suggested for `a[b];` does what the statement does, if arrays and slices are indexed. -/
theorem assert_same {e a b : Expr} (h : Model.checkStmt e = some (.assertLen a b)) (hs : Shaped e) (hd : DropFree e)
    (hb : Bare e) (hi : M.Indexes) {w : W} : runAssert M a b w = run M e w := by
  have hc : Model.checkUnnecessary e = some (.assertLen a b) := by
    unfold Model.checkStmt at h
    split at h
    · cases h
    · split at h
      · cases h
      · split at h
        · cases h
        · exact h
  unfold Model.checkUnnecessary at hc
  split at hc
  · cases hc
  · rename_i es hr
    split at hc
    · rename_i over never args a' b'
      injection hc with hc; injection hc with h1 h2
      subst h1; subst h2
      have ho := hb.1 (by simp)
      subst ho
      simp only [Model.reduce, Option.some.injEq] at hr
      have hargs : args = .cons a' (.cons b' .nil) := by
        cases args with
        | cons x xs =>
          have hx := hs.2.1.1.2
          cases xs with
          | cons y ys =>
            have hy := hs.2.1.2.2.1.2
            cases ys with
            | nil => simp [Expr.toList] at hr; rw [hr.1, hr.2]
            | cons => simp [Expr.toList] at hr
            | _ => cases hy
          | nil => simp [Expr.toList] at hr
          | _ => cases hx
        | _ => simp [Expr.toList] at hr
      subst hargs
      rw [run_ends hd, ends_node (by simp)]
      obtain ⟨l1, l2⟩ := light (M := M) _ true w hd.2
      simp only [runAssert, l1, l2, List.reverse_nil, dropAll, List.foldl_nil, Kind.places]
      cases hv : (eval M true (.cons a' (.cons b' .nil)) w).vals with
      | none => rfl
      | some vs =>
        have hvs : ∃ x i, vs = [x, i] := by
          rw [eval] at hv
          rcases vals_one (M := M) a' true w hs.2.1.1.1 hs.2.1.2.1 with h1 | ⟨x, h1⟩
          · simp [h1] at hv
          · simp only [h1] at hv
            rcases vals_one (M := M) b' true (eval M true a' w).world hs.2.1.2.2.1.1 hs.2.1.2.2.2.1 with h2 | ⟨i, h2⟩
            · simp [eval, h2] at hv
            · simp [eval, h2] at hv
              exact ⟨x, i, hv.symm⟩
        obtain ⟨x, i, rfl⟩ := hvs
        simp only [hi x i]
    · cases hc
    · cases hc

/-- A world that is a list of what happened: calls and destructors. -/
def log : Meaning (List Nat) where
  read x _ := x
  call k vs w :=
    match k with
    | .call f _ => (some f, w ++ [f])
    | _ => (some 0, w ++ 1000 :: vs)
  builtin _ vs := some vs.length
  destroy v w := w ++ [2000 + v]
  len x := x

/-- `(guard(), work());` becomes `guard(); work();`: the guard is dropped before the work. -/
theorem tuple_drop : ∃ e es, Model.checkStmt e = some (.reduced es) ∧ NoOver e ∧ NoCaps e ∧ runAll log es [] ≠ run log e [] :=
  ⟨.node .tup false false (.cons (.node (.call 1 true) false false .nil) (.cons (.node (.call 2 false) false false .nil) .nil)),
    [.node (.call 1 true) false false .nil, .node (.call 2 false) false false .nil], by decide +kernel, by simp [NoOver], by simp [NoCaps],
    by decide +kernel⟩

/-- `&x;` becomes `x;`, which moves the variable and drops it. -/
theorem borrow_drop : Model.checkStmt (.node .addr false false (.cons (.var 1 true) .nil)) = some (.reduced [.var 1 true]) ∧
    run log (.node .addr false false (.cons (.var 1 true) .nil)) [] = (true, []) ∧ runAll log [.var 1 true] [] = (true, [2001]) := by
  decide +kernel

/-- `-(f() + 3);` with an addition of user code becomes `f(); 3;`, without the addition. -/
theorem nested_overload : ∃ e es, Model.checkStmt e = some (.reduced es) ∧ DropFree e ∧ runAll log es [] ≠ run log e [] :=
  ⟨.node (.unary 0) false false (.cons (.node (.binary 1) true false (.cons (.node (.call 7 false) false false .nil) (.cons (.lit 3) .nil))) .nil),
    [.node (.call 7 false) false false .nil, .lit 3], by decide +kernel, by simp [DropFree], by decide +kernel⟩

/-- `&*LAZY;`, which runs the initialisation, is reported to have no effect. -/
theorem deref_missed : ∃ e, Model.checkStmt e = some .noEffect ∧ DropFree e ∧ (run log e []).2 ≠ [] :=
  ⟨.node .addr false false (.cons (.node (.unary 0) true false (.cons (.var 1 false) .nil)) .nil), by decide +kernel, by simp [DropFree],
    by decide +kernel⟩

/-- So is `x[0];` where indexing is user code. -/
theorem index_missed : ∃ args, Model.checkStmt (.node .index true false args) = some .noEffect ∧ DropFree args ∧
    (run log (.node .index true false args) []).2 ≠ [] :=
  ⟨.cons (.var 1 false) (.cons (.lit 0) .nil), by decide +kernel, by simp [DropFree], by decide +kernel⟩

/-- And `move || drop(x);`, which drops the variable. -/
theorem closure_missed : ∃ e, Model.checkStmt e = some .noEffect ∧ NoOver e ∧ (run log e []).2 ≠ [] :=
  ⟨.closure 0 [1], by decide +kernel, trivial, by decide +kernel⟩

example : Model.checkStmt (.block .plain (.node .tup false false (.cons (.lit 1) (.cons (.var 2 false) .nil)))) = some .noEffect := by
  decide +kernel

example : Model.checkStmt (.node .index false false (.cons (.var 1 false) (.cons (.node (.call 7 false) false false .nil) .nil))) =
    some (.assertLen (.var 1 false) (.node (.call 7 false) false false .nil)) := by decide +kernel

end Verif.NoEffect
