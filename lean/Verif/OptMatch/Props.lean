import Verif.OptMatch.Split
import Verif.Ctrl.Facts

/-!
# `manual_map` and `manual_filter` keep the meaning
-/

namespace Verif.OptMatch
open Ctrl (Name Expr)

variable {S : Sem}

theorem follow_optArg {w : S.W} {t t' : Ty} {p q : Place} {mo mo' : Mode}
    (h : follow w t p mo = some (.opt t', q, mo')) : t.optArg = t' := by
  induction t generalizing p mo with
  | ref m t ih =>
    simp only [follow] at h
    split at h
    · exact ih h
    · cases h
  | opt t ih => simp only [follow, Option.some.injEq, Prod.mk.injEq, Ty.opt.injEq] at h; exact h.1
  | _ => simp [follow] at h

/-- Type and value of what `map` passes on. -/
def adapted (ad : Adaptor) (t : Ty) (q : Place) (v : Val) : Ty × Val :=
  match ad with
  | .asIs => (t, v)
  | .asRef => (.ref false t, .ref false (q.step .inner))
  | .asMut => (.ref true t, .ref true (q.step .inner))

theorem receiver_none {w : S.W} {t t' : Ty} {p q : Place} {mo : Mode}
    (h : follow w t p .start = some (.opt t', q, mo)) (hr : read w q = some .none) (ad : Adaptor) :
    ∃ u, receiver w t p ad = some (u, none) := by
  cases ad <;> simp [receiver, h, hr, asOption]

theorem receiver_some {w : S.W} {t t' : Ty} {p q : Place} {mo : Mode} {v : Val}
    (h : follow w t p .start = some (.opt t', q, mo)) (hr : read w q = some (.some v)) (ad : Adaptor) :
    receiver w t p ad = some ((adapted ad t' q v).1, some (adapted ad t' q v).2) := by
  cases ad <;> simp [receiver, h, hr, asOption, adapted]

theorem bind_run {α β : Type} {m : M S α} {f g : α → M S β} {w : S.W}
    (h : ∀ a (w' : S.W), m w = (.ok a, w') → f a w' = g a w') : m.bind f w = m.bind g w := by
  unfold Ctrl.M.bind
  cases hm : m w with
  | mk r w' =>
    cases r with
    | ok a => exact h a w' hm
    | error x => rfl

theorem plain_head {r : Pat} (h : explicitRef r = none) (hs : startsRef r = false) : plainHead r = true := by
  induction r with
  | bind b x => simp only [explicitRef] at h; simp [plainHead, h]
  | bindAt b x p ih =>
    obtain ⟨h1, h2⟩ := maxMut_none h
    simp only [plainHead, h1, Option.isNone_none, Bool.true_and]
    exact ih h2 hs
  | ref m p _ => simp [startsRef] at hs
  | or p q ihp ihq =>
    obtain ⟨h1, h2⟩ := maxMut_none h
    simp only [startsRef, Bool.or_eq_false_iff] at hs
    simp only [plainHead, ihp h1 hs.1, ihq h2 hs.2, Bool.and_self]
  | _ => rfl

/-- The variable of `Some(x)` has the value that the method passes on. -/
theorem var_adapted {w : S.W} {T t' : Ty} {q : Place} {v : Val} {b : Bind} {x : Name} {refs : Nat} {ρ ρ' : Env}
    (hr : read w (q.step .inner) = some v)
    (hm : matchPat w (.bind b x) t' (q.step .inner) ⟨refCount T != refs, refMut T⟩ ρ = some (some ρ')) :
    ρ' = upd ρ x (adapted (adaptorOf (bindingRef T (.bind b x) refs)) t' q v).2 := by
  simp only [matchPat, Option.map_eq_some_iff] at hm
  obtain ⟨u, hu, e⟩ := hm
  cases e
  suffices u = (adapted (adaptorOf (bindingRef T (.bind b x) refs)) t' q v).2 by rw [this]; rfl
  unfold bound at hu
  cases hb : b.byRef with
  | some m =>
    rw [hb] at hu
    cases hu
    cases m <;> simp [bindingRef, explicitRef, hb, adaptorOf, adapted]
  | none =>
    rw [hb] at hu
    simp only at hu
    by_cases hc : refCount T = refs
    · simp only [hc, bne_self_eq_false, Bool.false_eq_true, if_false] at hu
      have : bindingRef T (.bind b x) refs = none := by simp [bindingRef, explicitRef, hb, hc]
      rw [this]
      split at hu
      · rw [hr] at hu; cases hu; rfl
      · cases hu
    · have h1 : (refCount T != refs) = true := by simpa using hc
      simp only [h1, if_true, Option.some.injEq] at hu
      have : bindingRef T (.bind b x) refs = some (refMut T) := by simp [bindingRef, explicitRef, hb, hc]
      rw [this, ← hu]
      cases refMut T <;> rfl

/-- A pattern that is a name, against a temporary. -/
theorem param_bind {w : S.W} {t : Ty} {v : Val} {x : Name} {m : Bool} {ρ : Env} :
    param w (.bind ⟨none, m⟩ x) t v ρ = some (upd ρ x v) := by
  simp [param, matchPat, bound, Mode.start, read, Val.at]
  rfl

/-- The closure's pattern gives the variables the same values. -/
theorem param_same {w : S.W} {T t' : Ty} {q : Place} {v : Val} {r : Pat} {refs : Nat} {ρ ρ' : Env}
    (he : explicitRef r = none) (hr : read w (q.step .inner) = some v)
    (hm : matchPat w r t' (q.step .inner) ⟨refCount T != refs, refMut T⟩ ρ = some (some ρ'))
    (hs : adaptorOf (bindingRef T r refs) = .asIs → refMut T = true ∨ t'.shared = true)
    (hh : adaptorOf (bindingRef T r refs) ≠ .asIs → startsRef r = false) :
    param w r (adapted (adaptorOf (bindingRef T r refs)) t' q v).1
      (adapted (adaptorOf (bindingRef T r refs)) t' q v).2 ρ = some ρ' := by
  by_cases hc : refCount T = refs
  · have hb : bindingRef T r refs = none := by simp [bindingRef, he, hc]
    rw [hb] at hs hh ⊢
    have hs := hs rfl
    simp only [hc, bne_self_eq_false] at hm
    rw [match_value r he (p' := .temp v []) (mt' := true) (by rw [hr]; rfl) hs] at hm
    simp only [adaptorOf, adapted, param]
    simp only [Mode.start, hm]
    rfl
  · have h1 : (refCount T != refs) = true := by simpa using hc
    have hb : bindingRef T r refs = some (refMut T) := by simp [bindingRef, he, hc]
    rw [hb] at hs hh ⊢
    have hh : startsRef r = false := hh (by cases refMut T <;> simp [adaptorOf])
    rw [h1] at hm
    rw [← match_ref r (plain_head he hh)] at hm
    cases hM : refMut T with
    | true =>
      rw [hM] at hm
      simp only [adaptorOf, adapted, param, hm]
      rfl
    | false =>
      rw [hM] at hm
      simp only [adaptorOf, adapted, param, hm]
      rfl

/-- What is known about an edit. -/
theorem check_with {fa : Facts} {s : Scrut} {P Q : Pat} {b c : Body} {g : Pat → Body → Option SomeExpr}
    {d : Edit} (h : checkWith fa s P b (some Q) c g = some d) :
    ∃ body r refs wild e, pickArms (parsePat P 0) b (parsePat Q 0) c = some (body, r, refs, wild) ∧
      g r body = some e ∧ canMoveTest e.expr = true ∧ d.base = s.base ∧ d.isPlace = s.isPlace ∧
      d.ty = s.ty ∧ d.adaptor = adaptorOf (bindingRef s.fullTy r refs) ∧
      bodyStr fa r e wild (bindingRef s.fullTy r refs) = some d.fn := by
  unfold checkWith at h
  split at h
  · cases h
  · split at h
    · cases h
    · next body r refs wild hp =>
      split at h
      · cases h
      · split at h
        · cases h
        · next e he =>
          split at h
          · cases h
          · next hn =>
            simp only [Option.map_eq_some_iff] at h
            obtain ⟨fn, hf, rfl⟩ := h
            simp only [Bool.not_eq_true, Bool.or_eq_false_iff, Bool.not_eq_false'] at hn
            exact ⟨body, r, refs, wild, e, hp, he, hn.1.2, rfl, rfl, rfl, rfl, hf⟩

theorem body_bind {fa : Facts} {r : Pat} {e : SomeExpr} {wild : Bool} {br : Option Bool} {fn : Fun}
    (h : bodyStr fa r e wild br = some fn) :
    (wild = true → ∃ b x, r = .bind b x) ∧
    ((∃ b x f, r = .bind b x ∧ passFunc x e.expr = some f ∧ fn = .func f) ∨
     (∃ b x m, r = .bind b x ∧ fn = .closure (.bind ⟨none, m⟩ x) e.negated e.expr ∧
        (m = true → b.byRef = none ∧ b.mt = true)) ∨
     ((∀ b x, r ≠ .bind b x) ∧ explicitRef r = none ∧ fn = .closure r e.negated e.expr)) := by
  have hother : (∀ b x, r ≠ .bind b x) →
      (if !wild && (explicitRef r).isNone then some (Fun.closure r e.negated e.expr) else none) = some fn →
      (wild = true → ∃ b x, r = .bind b x) ∧
      ((∃ b x f, r = .bind b x ∧ passFunc x e.expr = some f ∧ fn = .func f) ∨
       (∃ b x m, r = .bind b x ∧ fn = .closure (.bind ⟨none, m⟩ x) e.negated e.expr ∧
        (m = true → b.byRef = none ∧ b.mt = true)) ∨
       ((∀ b x, r ≠ .bind b x) ∧ explicitRef r = none ∧ fn = .closure r e.negated e.expr)) := by
    intro hr h
    split at h
    · next hc =>
      simp only [Bool.and_eq_true, Bool.not_eq_true', Option.isNone_iff_eq_none] at hc
      cases h
      exact ⟨(fun hw => by rw [hc.1] at hw; cases hw), .inr (.inr ⟨hr, hc.2, rfl⟩)⟩
    · cases h
  cases r with
  | bind b x =>
    refine ⟨fun _ => ⟨b, x, rfl⟩, ?_⟩
    simp only [bodyStr] at h
    split at h
    · next f hf =>
      split at hf
      · cases hf
      · cases h
        exact .inl ⟨b, x, f, rfl, hf, rfl⟩
    · split at h
      · cases h
      · cases h
        refine .inr (.inl ⟨b, x, _, rfl, rfl, ?_⟩)
        intro hm
        simp only [Bool.and_eq_true, Option.isNone_iff_eq_none] at hm
        exact hm
  | _ => exact hother (fun b x h => by cases h) h

/-- The two arms of the code. -/
theorem check_form {fa : Facts} {s : Scrut} {f : Form} {g : Pat → Body → Option SomeExpr} {d : Edit}
    (h : checkForm fa s g f = some d) :
    ∃ P b Q c, f.arms = [⟨P, none, b⟩, ⟨Q, none, c⟩] ∧ checkWith fa s P b (some Q) c g = some d := by
  cases f with
  | ifLet p t e => exact ⟨p, t, .wild, e, rfl, h⟩
  | mtch as =>
    match as, h with
    | [⟨P, g1, b⟩, ⟨Q, g2, c⟩], h =>
      simp only [checkForm] at h
      split at h
      · next hg =>
        simp only [Bool.and_eq_true, Option.isNone_iff_eq_none] at hg
        obtain ⟨rfl, rfl⟩ := hg
        exact ⟨P, b, Q, c, rfl, h⟩
      · cases h
    | [], h => simp [checkForm] at h
    | [_], h => simp [checkForm] at h
    | _ :: _ :: _ :: _, h => simp [checkForm] at h

theorem some_expr {b : Body} {u : Bool} {e : SomeExpr} (h : getSomeExpr u b = some e) :
    ∃ a, e.expr = .arg a ∧ e.negated = false ∧
      ∀ {S : Sem} (k : Nat) (ρ : Env), evalBody (S := S) k b ρ =
        Ctrl.M.bind (evalArg k ρ a) fun v => Ctrl.M.pure (.some v) := by
  induction b generalizing u with
  | some a =>
    simp only [getSomeExpr, Option.some.injEq] at h
    rw [← h]
    exact ⟨a, rfl, rfl, fun _ _ => rfl⟩
  | block u' b ih => exact ih h
  | _ => simp [getSomeExpr] at h

/-- `manual_map`: the call of `map` does the same as the code it replaces.  Missing for the whole
claim, each with a counterexample in `Witness.lean`: a first arm with `_`, a pattern `&p` inside of
`Some` when `as_ref` is added, and functions that are more than a name.  Nothing is moved from behind
a shared reference that has mutable references in it. -/
theorem map_same_partial (k : Nat) (ρ : Env) (fa : Facts) (s : Scrut) (f : Form) (d : Edit)
    (h : checkMap fa s f = some d) (hcov : Exhaustive S k ρ s f) (hwild : f.firstWild = false)
    (hamp : ∀ q neg c, d.fn = .closure q neg c → d.adaptor ≠ .asIs → startsRef q = false)
    (hfn : ∀ g, d.fn = .func g → ∃ y, g = .var y ∧ ∀ a ∈ f.arms, a.pat.binds y = false)
    (hmv : d.adaptor = .asIs → refMut s.fullTy = true ∨ s.fullTy.optArg.shared = true) :
    evalMap (S := S) k ρ d = evalForm k ρ s f := by
  obtain ⟨P, b', Q, c, harms, hw⟩ := check_form h
  obtain ⟨body, r, refs, wild, e, hp, he, hmove, h1, h2, h3, h4, hbody⟩ := check_with hw
  obtain ⟨hbind, hcase⟩ := body_bind hbody
  obtain ⟨a, ha, hneg, hev⟩ := some_expr he
  funext w
  unfold evalMap evalForm
  rw [h1, h2]
  apply bind_run
  intro p w' hpl
  have hc := hcov w p w' hpl
  rw [harms] at hc ⊢
  have hfw : isWild P = false := by
    simp only [Form.firstWild, harms] at hwild
    exact hwild
  obtain ⟨t', q, mo', hf, hcases⟩ := arms_split (k := k) hp hfw hbind hc
  obtain ⟨mo'', hf'⟩ := follow_borrow s.addrs s.ty p .start hf
  have hopt := follow_optArg hf
  simp only [h3]
  rcases hcases with ⟨hr, hrun⟩ | ⟨v, ρ', hr, hm, hrun⟩
  · rw [hrun]
    obtain ⟨u, hu⟩ := receiver_none hf' hr d.adaptor
    simp only [hu]
    rcases hcase with ⟨b, x, g, _, _, hg⟩ | ⟨b, x, m, _, hg, _⟩ | ⟨_, _, hg⟩
    · obtain ⟨y, rfl, _⟩ := hfn _ hg
      rw [hg]
      rfl
    · rw [hg, hneg, ha]; rfl
    · rw [hg, hneg, ha]; rfl
  · rw [hrun, hev]
    rw [receiver_some hf' hr d.adaptor]
    have hri := read_inner hr
    have hsafe : closureM (evalArg (S := S) k ρ' a) = evalArg k ρ' a :=
      closureM_safe (safe_arg (ha ▸ hmove) k ρ')
    simp only
    rcases hcase with ⟨b, x, g, rfl, hpass, hg⟩ | ⟨b, x, m, rfl, hg, _⟩ | ⟨hnb, hex, hg⟩
    · obtain ⟨y, rfl, hy⟩ := hfn _ hg
      have hρ := var_adapted hri hm
      rw [← h4] at hρ
      rw [hg]
      have hxy : y ≠ x := by
        intro e
        subst e
        have hb : P.binds y = true ∨ Q.binds y = true := by
          cases hP : parsePat P 0 with
          | none => rw [hP] at hp; simp [pickArms] at hp
          | some o1 =>
            rw [hP] at hp
            cases o1 with
            | some r' n =>
              left
              cases hQ : parsePat Q 0 with
              | none => rw [hQ] at hp; simp [pickArms] at hp
              | some o2 =>
                rw [hQ] at hp
                cases o2 <;> simp [pickArms] at hp
                · obtain ⟨_, _, rfl, _⟩ := hp; exact parse_binds hP
                · obtain ⟨_, _, rfl, _⟩ := hp; exact parse_binds hP
            | wild =>
              right
              cases hQ : parsePat Q 0 with
              | none => rw [hQ] at hp; simp [pickArms] at hp
              | some o2 =>
                rw [hQ] at hp
                cases o2 <;> simp [pickArms] at hp
                obtain ⟨_, _, rfl, _⟩ := hp; exact parse_binds hQ
            | none =>
              right
              cases hQ : parsePat Q 0 with
              | none => rw [hQ] at hp; simp [pickArms] at hp
              | some o2 =>
                rw [hQ] at hp
                cases o2 <;> simp [pickArms] at hp
                obtain ⟨_, _, rfl, _⟩ := hp; exact parse_binds hQ
        rcases hb with hb | hb
        · have := hy ⟨P, none, b'⟩ (by rw [harms]; simp)
          simp [hb] at this
        · have := hy ⟨Q, none, c⟩ (by rw [harms]; simp)
          simp [hb] at this
      rw [ha] at hpass
      have harg : ∃ adj uns, a = .call (.var y) (.var x) adj uns := by
        unfold passFunc at hpass
        split at hpass
        · next f' y' adj uns heq =>
          split at hpass
          · next hc =>
            cases hpass
            cases heq
            rw [hc.1]
            exact ⟨_, _, rfl⟩
          · cases hpass
        · cases hpass
      obtain ⟨adj, uns, rfl⟩ := harg
      simp only [evalArg, Ctrl.eval]
      rw [hρ]
      simp only [upd, if_neg hxy, if_true]
      rfl
    · have hρ := var_adapted hri hm
      rw [← h4] at hρ
      rw [hg, hneg, ha]
      have hpar : param w' (.bind ⟨none, m⟩ x) (adapted d.adaptor t' q v).1 (adapted d.adaptor t' q v).2 ρ
          = some ρ' := param_bind.trans (by rw [hρ])
      simp only [hpar, hsafe]
    · rw [hg, hneg, ha]
      have hpar := param_same hex hri hm (fun h => hopt ▸ hmv (h4.trans h))
        (fun h => hamp _ _ _ hg (fun e => h (h4 ▸ e)))
      rw [← h4] at hpar
      simp only [hpar, hsafe]

theorem expr_env {c : Test} (h : isExpr c = true) (k : Nat) (ρ : Env) :
    evalTest (S := S) k ρ c = Ctrl.M.bind (evalTest k ρ c) fun o => Ctrl.M.pure (o.map fun _ => ρ) := by
  have key : ∀ m : M S Val,
      (Ctrl.M.bind m fun v => Ctrl.M.pure (if S.truth v then some ρ else none)) =
      Ctrl.M.bind (Ctrl.M.bind m fun v => Ctrl.M.pure (if S.truth v then some ρ else none)) fun o =>
        Ctrl.M.pure (o.map fun _ => ρ) := by
    intro m
    rw [Ctrl.M.bind_assoc]
    apply Ctrl.M.bind_congr
    intro v
    rw [Ctrl.M.pure_bind]
    cases S.truth v <;> rfl
  cases c with
  | arg a => exact key _
  | cond c =>
    cases c with
    | test e => exact key _
    | _ => simp [isExpr] at h

theorem some_var {x : Name} {b : Body} (h : isSomeVar x b = true) :
    isNoneBlock b = false ∧ ∀ {S : Sem} (k : Nat) (ρ : Env), evalBody (S := S) k b ρ = Ctrl.M.pure (.some (ρ x)) := by
  unfold isSomeVar at h
  split at h
  · next u y =>
    have : y = x := by simpa using h
    subst this
    exact ⟨rfl, fun k ρ => rfl⟩
  · cases h

theorem none_block {b : Body} (h : isNoneBlock b = true) {S : Sem} (k : Nat) (ρ : Env) :
    evalBody (S := S) k b ρ = Ctrl.M.pure .none := by
  unfold isNoneBlock at h
  split at h
  · rfl
  · cases h

/-- What the body of the `Some` arm does. -/
theorem cond_expr {r : Pat} {b : Body} {e : SomeExpr} {x : Name} (h : getCondExpr r b = some e)
    (hx : bindVar r = some x) (he : isExpr e.expr = true) {S : Sem} (k : Nat) (ρ : Env) :
    evalBody (S := S) k b ρ = Ctrl.M.bind (evalTest k ρ e.expr) fun o =>
      Ctrl.M.pure (if o.isSome != e.negated then .some (ρ x) else .none) := by
  unfold getCondExpr at h
  rw [hx] at h
  have hpeel : evalBody (S := S) k b ρ = evalBody k (peelBlock b) ρ := by
    cases b <;> rfl
  rw [hpeel]
  cases hb : peelBlock b with
  | ite c t e' =>
    rw [hb] at h
    simp only at h
    by_cases hc : ((isSomeVar x t && isNoneBlock e') || (isNoneBlock t && isSomeVar x e')) = true
    case neg => rw [if_neg hc] at h; cases h
    rw [if_pos hc] at h
    cases h
    simp only at he
    simp only [evalBody]
    rw [expr_env he, Ctrl.M.bind_assoc, Ctrl.M.bind_assoc]
    apply Ctrl.M.bind_congr
    intro o
    simp only [Ctrl.M.pure_bind]
    simp only [Bool.or_eq_true, Bool.and_eq_true] at hc
    rcases hc with ⟨h1, h2⟩ | ⟨h1, h2⟩
    · obtain ⟨h1, h3⟩ := some_var h1
      rw [h1]
      cases o with
      | none => exact none_block h2 k ρ
      | some ρ' => exact h3 k ρ
    · obtain ⟨_, h3⟩ := some_var h2
      rw [h1]
      cases o with
      | none => exact h3 k ρ
      | some ρ' => exact none_block h1 k ρ
  | _ => rw [hb] at h; cases h

/-- `&x` against a reference to a temporary. -/
theorem param_amp {w : S.W} {t : Ty} {v : Val} {x : Name} {ρ : Env} (h : t.shared = true) :
    param w (.ref false (.bind .plain x)) (.ref false t) (.ref false (.temp v [])) ρ = some (upd ρ x v) := by
  simp [param, matchPat, bound, Mode.start, read, Val.at, h, Bind.plain]
  rfl

/-- The pattern of the closure that is passed to `filter`. -/
def filterPat (copy m : Bool) (x : Name) : Pat :=
  if copy then .ref false (.bind .plain x) else .bind ⟨none, m⟩ x

theorem amp_plain {p : Pat} {x : Name} (h : ampPat p = .ref false (.bind .plain x)) : p = .bind .plain x := by
  unfold ampPat at h
  split at h
  · cases h
  · cases h
  · cases h; rfl

/-- The closure of `filter` sees the same value. -/
theorem filter_param {w : S.W} {k : Nat} {copy m : Bool} {x : Name} {t : Ty} {v : Val} {c : Test} {ρ : Env}
    (hc : copy = true → t.shared = true) (hb : copy = false → SameBorrowed S k c x) :
    ∃ ρ', param w (filterPat copy m x) (.ref false t) (.ref false (.temp v [])) ρ = some ρ' ∧
      closureB (evalTest (S := S) k ρ' c) = closureB (evalTest k (upd ρ x v) c) := by
  cases copy with
  | true => exact ⟨_, param_amp (hc rfl), rfl⟩
  | false => exact ⟨_, param_bind, hb rfl ρ v⟩

/-- `manual_filter`: the call of `filter` does the same as the code it replaces.  Missing for the
whole claim, each with a counterexample in `Witness.lean`: a first arm with `_`; functions that are
passed as they are; conditions with `let`; `mut x`; `as_mut`; and conditions that do not mean the same
for a reference to the value.  Patterns like `x @ p` are not covered. -/
theorem filter_same_partial (k : Nat) (ρ : Env) (fa : Facts) (s : Scrut) (f : Form) (d : Edit)
    (h : checkFilter fa s f = some d) (hcov : Exhaustive S k ρ s f) (hwild : f.firstWild = false)
    {m : Bool} {x : Name} {neg : Bool} {c : Test} (hfn : d.fn = .closure (filterPat fa.copy m x) neg c)
    (hex : isExpr c = true)
    (hcopy : fa.copy = true → s.fullTy.optArg.shared = true ∧ d.adaptor ≠ .asMut)
    (hbor : fa.copy = false → SameBorrowed S k c x) :
    evalFilter (S := S) k ρ d = evalForm k ρ s f := by
  simp only [checkFilter, Option.map_eq_some_iff] at h
  obtain ⟨d0, h, rfl⟩ := h
  obtain ⟨P, b', Q, c', harms, hw⟩ := check_form h
  obtain ⟨body, r, refs, wild, e, hp, he, hmove, h1, h2, h3, h4, hbody⟩ := check_with hw
  obtain ⟨hbind, hcase⟩ := body_bind hbody
  simp only at hfn hcopy
  have hcl : ∃ b m', r = .bind b x ∧ d0.fn = .closure (.bind ⟨none, m'⟩ x) neg c ∧ e.negated = neg ∧ e.expr = c := by
    have hd0 : ∃ p, d0.fn = .closure p neg c ∧
        (p = .bind .plain x ∨ p = .bind ⟨none, m⟩ x) := by
      unfold addAmp at hfn
      split at hfn
      · next hcp =>
        split at hfn
        · next p n b heq =>
          simp only [Fun.closure.injEq] at hfn
          obtain ⟨h5, h6, h7⟩ := hfn
          rw [hcp] at h5
          exact ⟨p, by rw [heq, h6, h7], .inl (amp_plain h5)⟩
        · cases hfn
        · cases hfn
      · next hcp =>
        refine ⟨_, hfn, .inr ?_⟩
        simp [filterPat, hcp]
    obtain ⟨p, hp1, hp2⟩ := hd0
    rcases hcase with ⟨b, y, g, _, _, hg⟩ | ⟨b, y, m', hr, hg, _⟩ | ⟨hnb, _, hg⟩
    · rw [hp1] at hg; cases hg
    · rw [hp1] at hg
      simp only [Fun.closure.injEq] at hg
      obtain ⟨h5, h6, h7⟩ := hg
      have : y = x := by
        rw [h5] at hp2
        rcases hp2 with e | e
        · cases e; rfl
        · cases e; rfl
      subst this
      exact ⟨b, m', hr, by rw [hp1, h5], h6.symm, h7.symm⟩
    · rw [hp1] at hg
      simp only [Fun.closure.injEq] at hg
      rcases hp2 with e | e
      · exact absurd (hg.1.symm.trans e) (hnb _ _)
      · exact absurd (hg.1.symm.trans e) (hnb _ _)
  obtain ⟨b, m', rfl, hd0, rfl, rfl⟩ := hcl
  funext w
  unfold evalFilter evalForm
  simp only [h1, h2]
  apply bind_run
  intro p w' hpl
  have hc := hcov w p w' hpl
  rw [harms] at hc ⊢
  have hfw : isWild P = false := by
    simp only [Form.firstWild, harms] at hwild
    exact hwild
  obtain ⟨t', q, mo', hf, hcases⟩ := arms_split (k := k) hp hfw hbind hc
  obtain ⟨mo'', hf'⟩ := follow_borrow s.addrs s.ty p .start hf
  have hopt := follow_optArg hf
  simp only [h3, hfn, hex, if_true]
  rcases hcases with ⟨hr, hrun⟩ | ⟨v, ρ', hr, hm, hrun⟩
  · rw [hrun]
    obtain ⟨u, hu⟩ := receiver_none hf' hr d0.adaptor
    simp only [hu]
    rfl
  · rw [hrun, cond_expr he rfl hex]
    rw [receiver_some hf' hr d0.adaptor]
    have hρ := var_adapted (read_inner hr) hm
    rw [← h4] at hρ
    have hsh : fa.copy = true → (adapted d0.adaptor t' q v).1.shared = true := by
      intro hcp
      obtain ⟨h5, h6⟩ := hcopy hcp
      rw [hopt] at h5
      cases had : d0.adaptor with
      | asIs => exact h5
      | asRef => simp [adapted, Ty.shared, h5]
      | asMut => exact absurd had h6
    obtain ⟨ρ2, hpar, hsame⟩ := filter_param (w := w') (m := m) (v := (adapted d0.adaptor t' q v).2) (ρ := ρ) hsh hbor
    simp only [hpar, hsame]
    rw [← hρ, closureB_safe (safe_test hmove k ρ'), Ctrl.M.bind_assoc]
    have hv : ρ' x = (adapted d0.adaptor t' q v).2 := by rw [hρ]; simp [upd]
    simp only [hv]
    rfl

/-- A closure without `return`. -/
theorem closure_filter {m : M S (Option Env)} (h : ∀ w v w', m w ≠ (.error (.ret v), w')) (neg : Bool)
    (a b : Val) (w : S.W) :
    Ctrl.M.bind (closureB m) (fun r => Ctrl.M.pure (if r != neg then a else b)) w =
      closureM (Ctrl.M.bind m fun o => Ctrl.M.pure (if o.isSome != neg then a else b)) w := by
  simp only [closureM, closureB, Ctrl.M.bind]
  cases hx : m w with
  | mk r w1 =>
    cases r with
    | ok o => rfl
    | error y =>
      cases y with
      | ret u => exact absurd hx (h _ _ _)
      | _ => rfl

/-- `manual_filter` for `and_then`.  Missing, besides what is missing above: conditions with `return`
or `?`. -/
theorem and_then_same_partial (k : Nat) (ρ : Env) (fa : Facts) (s : Scrut) (p : Pat) (b : Body) (d : Edit)
    (h : checkAndThen fa s p b = some d)
    {m : Bool} {x : Name} {neg : Bool} {c : Test} (hfn : d.fn = .closure (filterPat fa.copy m x) neg c)
    (hex : isExpr c = true)
    (hret : ∀ ρ w v w', evalTest (S := S) k ρ c w ≠ (.error (.ret v), w'))
    (hcopy : fa.copy = true → s.fullTy.optArg.shared = true)
    (hbor : fa.copy = false → SameBorrowed S k c x) :
    evalFilter (S := S) k ρ d = evalAndThen k ρ s p b := by
  unfold checkAndThen at h
  split at h
  case h_2 => cases h
  next t ht =>
  simp only [Option.map_eq_some_iff] at h
  obtain ⟨e, he, rfl⟩ := h
  simp only [Fun.closure.injEq] at hfn
  obtain ⟨hpat, rfl, rfl⟩ := hfn
  obtain ⟨m', rfl⟩ : ∃ m', p = .bind ⟨none, m'⟩ x := by
    cases hcp : fa.copy with
    | true => rw [hcp] at hpat; exact ⟨false, amp_plain hpat⟩
    | false => rw [hcp] at hpat; exact ⟨m, hpat⟩
  have hadd : s.addrs = [] := by
    cases ha : s.addrs with
    | nil => rfl
    | cons a as => simp [Scrut.fullTy, ha] at ht
  have hty : s.fullTy = s.ty := by simp [Scrut.fullTy, hadd]
  funext w
  unfold evalFilter evalAndThen
  apply bind_run
  intro p w' hpl
  rw [hadd, hty]
  simp only [borrow, hpat, hex, if_true]
  cases hrc : receiver w' s.ty p .asIs with
  | none => rfl
  | some to =>
    obtain ⟨t1, o⟩ := to
    cases o with
    | none => rfl
    | some v =>
      have ht1 : t1 = t := by
        rw [hty] at ht
        rw [ht] at hrc
        simp only [receiver, follow, Option.bind_some, Option.map_eq_some_iff] at hrc
        obtain ⟨_, _, e⟩ := hrc
        cases e
        rfl
      obtain ⟨ρ2, hpar, hsame⟩ := filter_param (w := w') (m := m) (v := v) (t := t1) (ρ := ρ)
        (fun hcp => by have := hcopy hcp; rw [ht] at this; rw [ht1]; exact this) hbor
      simp only [hpar, hsame, param_bind]
      rw [cond_expr he rfl hex]
      have hux : upd ρ x v x = v := by simp [upd]
      rw [hux]
      exact closure_filter (m := evalTest k (upd ρ x v) e.expr) (hret _) _ _ _ _

end Verif.OptMatch
