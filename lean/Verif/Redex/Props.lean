import Verif.Redex.Model

/-! # Properties: closures that are called at once, variants that are unwrapped at once, extremes -/

namespace Verif.Redex

/-! ## Closures -/

theorem hasReturn_iff (e : E) : hasReturn e = true ↔ Leaves e := by
  induction e <;> simp_all [hasReturn, Leaves]

theorem ev_no_ret {I : Sem} {env w e o w'} (h : Ev I env w e o w') : ¬ Leaves e → ∀ v, o ≠ .ret v := by
  have key : ∀ (o : Out) v, o.ofBody ≠ .ret v := by
    intro o v; cases o <;> simp [Out.ofBody]
  induction h with
  | meth _ _ hc _ _ =>
    intro _ v e; subst e
    rename_i m _ _ vr va _ _
    revert hc
    unfold content
    split <;> simp
  | elseNone => intro _ v; exact key _ v
  | elseErr => intro _ v; exact key _ v
  | app0 => intro _ v; exact key _ v
  | app1 => intro _ v; exact key _ v
  | ret => intro hl; exact absurd trivial hl
  | retE => intro hl; exact absurd trivial hl
  | binL _ _ ih => intro hl; exact ih (fun h => hl (Or.inl h))
  | binR _ _ _ _ ih => intro hl; exact ih (fun h => hl (Or.inr h))
  | seq _ _ _ ih => intro hl; exact ih (fun h => hl (Or.inr h))
  | seqL _ _ ih => intro hl; exact ih (fun h => hl (Or.inl h))
  | block _ ih => intro hl; exact ih hl
  | wrapE _ _ ih => intro hl; exact ih hl
  | methR _ _ ih => intro hl; exact ih (fun h => hl (Or.inl h))
  | methA _ _ _ _ ih => intro hl; exact ih (fun h => hl (Or.inr h))
  | app0E _ _ ih => intro hl; exact ih hl
  | app1F _ _ ih => intro hl; exact ih (fun h => hl (Or.inl h))
  | app1A _ _ _ _ ih => intro hl; exact ih (fun h => hl (Or.inr h))
  | panicE _ _ ih => intro hl; exact ih hl
  | minL _ _ ih => intro hl; exact ih (fun h => hl (Or.inl h))
  | minR _ _ _ _ ih => intro hl; exact ih (fun h => hl (Or.inr h))
  | maxL _ _ ih => intro hl; exact ih (fun h => hl (Or.inl h))
  | maxR _ _ _ _ ih => intro hl; exact ih (fun h => hl (Or.inr h))
  | _ => intro _ v; simp

theorem leaves_lams {b : E} (hb : ¬ Leaves b) : ∀ k, ¬ Leaves (lams k b)
  | 0 => hb
  | _ + 1 => id

theorem ofBody_id {o : Out} (h : ∀ v, o ≠ .ret v) : o.ofBody = o := by
  cases o with
  | ret v => exact absurd rfl (h v)
  | _ => rfl

theorem ev_apps {I : Sem} {b : E} (hb : ¬ Leaves b) : ∀ n k env w o w',
    Ev I env w (apps n (lams (n + k) b)) o w' ↔ Ev I env w (lams k b) o w'
  | 0, k, env, w, o, w' => by simp [apps]
  | n + 1, k, env, w, o, w' => by
    have ih := ev_apps (I := I) hb n (k + 1)
    have e : n + 1 + k = n + (k + 1) := by omega
    rw [e]
    show Ev I env w (.app0 (apps n (lams (n + (k + 1)) b))) o w' ↔ _
    constructor
    · intro h
      cases h with
      | app0 hf hbody =>
        have hf := (ih _ _ _ _).mp hf
        cases hf
        rw [ofBody_id (ev_no_ret hbody (leaves_lams hb k))]
        exact hbody
      | app0E hf hv =>
        have hf := (ih _ _ _ _).mp hf
        cases hf
        cases hv
    · intro h
      have hf : Ev I env w (apps n (lams (n + (k + 1)) b)) (.val (.clo0 env (lams k b))) w :=
        (ih _ _ _ _).mpr .lam0
      have := Ev.app0 hf h
      rwa [ofBody_id (ev_no_ret h (leaves_lams hb k))] at this

theorem peel_apps : ∀ n (f : E), (∀ g, f ≠ .app0 g) → (∀ g a, f ≠ .app1 g a) → peelCalls (apps n f) = (f, n)
  | 0, f, h0, h1 => by
    unfold apps
    cases f with
    | app0 g => exact absurd rfl (h0 g)
    | app1 g a => exact absurd rfl (h1 g a)
    | _ => rfl
  | n + 1, f, h0, h1 => by
    show ((peelCalls (apps n f)).1, (peelCalls (apps n f)).2 + 1) = _
    rw [peel_apps n f h0 h1]

theorem innermost_zero (e : E) : innermost e 0 = none := by
  cases e <;> rfl

theorem innermost_lams {b : E} (hb : ¬ Leaves b) : ∀ n, innermost (lams (n + 1) b) (n + 1) = some (b, false)
  | 0 => by
    have : hasReturn b = false := by
      cases h : hasReturn b with
      | false => rfl
      | true => exact absurd ((hasReturn_iff b).mp h) hb
    simp [lams, innermost, this, innermost_zero]
  | n + 1 => by
    have ih := innermost_lams hb n
    show innermost (.lam0 (lams (n + 1) b)) (n + 1 + 1) = _
    simp only [innermost]
    rw [ih]
    have : hasReturn (lams (n + 1) b) = false := rfl
    simp [this]

theorem same_body (b : E) : Same b (bodyHint b).expr := by
  intro I env w o w'
  cases b with
  | block e =>
    constructor
    · intro h; cases h; assumption
    · intro h; exact .block h
  | _ => exact Iff.rfl

/-- Closures without parameters that are all called at once, and whose body does not return early, are
reported, and the suggested expression does the same as the calls. Missing: chains with more calls than
closures, or with arguments — see `calls_left_over`, `return_left_over` and `argument_lost`. -/
theorem closure_partial (n : Nat) (b : E) (hb : ¬ Leaves b) :
    closureCheck (apps (n + 1) (lams (n + 1) b)) = some (some (bodyHint b)) ∧
      Same (apps (n + 1) (lams (n + 1) b)) (bodyHint b).expr := by
  refine ⟨?_, ?_⟩
  · unfold closureCheck
    rw [peel_apps (n + 1) (lams (n + 1) b) (by intro g; simp [lams]) (by intro g a; simp [lams])]
    simp only [innermost_lams hb n]
    rfl
  · intro I env w o w'
    rw [← same_body b I env w o w']
    exact ev_apps (k := 0) hb (n + 1) env w o w'

/-- `(|| || f() + 1)()()`. -/
example : closureCheck (.app0 (.app0 (.lam0 (.lam0 (.bin 0 (.opq 0) (.int 1))))))
    = some (some ⟨.bin 0 (.opq 0) (.int 1), false⟩) := by decide

/-- The expression of a block without statements is written in parentheses, so that it is read as one operand. -/
theorem block_parenthesized (n : Nat) (b : E) (hb : ¬ Leaves b) :
    closureCheck (apps (n + 1) (lams (n + 1) (.block b))) = some (some ⟨b, true⟩) := by
  have hb' : ¬ Leaves (.block b) := by simpa [Leaves] using hb
  exact (closure_partial n (.block b) hb').1

/-- A closure with a parameter that is called where it is written gets no suggestion, as long as its body is
no closure. -/
theorem parameter_kept (x : Nat) (b a : E) (h0 : ∀ c, b ≠ .lam0 c) (h1 : ∀ y c, b ≠ .lam1 y c) (h : Hint) :
    closureCheck (.app1 (.lam1 x b) a) ≠ some (some h) := by
  have hi : innermost b 0 = none := by cases b <;> first | rfl | exact absurd rfl (h0 _) | exact absurd rfl (h1 _ _)
  unfold closureCheck
  simp only [peelCalls, innermost, hi, Option.getD_none]
  split
  · simp
  · rename_i body params heq
    split at heq
    · cases heq
    · simp only [Option.some.injEq, Prod.mk.injEq] at heq
      obtain ⟨_, rfl⟩ := heq
      simp

/-- A body in a block without statements is written without the braces, in parentheses. -/
example : closureCheck (.app0 (.lam0 (.block (.bin 0 (.int 1) (.int 2)))))
    = some (some ⟨.bin 0 (.int 1) (.int 2), true⟩) := by decide

theorem peel_calls (e : E) : (∀ g, (peelCalls e).1 ≠ .app0 g) ∧ (∀ g a, (peelCalls e).1 ≠ .app1 g a) := by
  induction e <;> simp_all [peelCalls]

/-- Only calls of closures that do not return early are reported. -/
theorem closure_only (e : E) (h : closureCheck e ≠ none) :
    ∃ b, ((peelCalls e).1 = .lam0 b ∨ ∃ x, (peelCalls e).1 = .lam1 x b) ∧ ¬ Leaves b ∧
      ((∃ f, e = .app0 f) ∨ ∃ f a, e = .app1 f a) := by
  have hp : ∀ e, (peelCalls e).2 ≠ 0 → ((∃ f, e = .app0 f) ∨ ∃ f a, e = .app1 f a) := by
    intro e he
    cases e with
    | app0 f => exact Or.inl ⟨f, rfl⟩
    | app1 f a => exact Or.inr ⟨f, a, rfl⟩
    | _ => exact absurd rfl he
  unfold closureCheck at h
  cases hi : innermost (peelCalls e).1 (peelCalls e).2 with
  | none => rw [hi] at h; exact absurd rfl h
  | some d =>
    obtain ⟨c, k, hck⟩ : ∃ c k, peelCalls e = (c, k) := ⟨_, _, rfl⟩
    have hk := hp e
    rw [hck] at hi hk ⊢
    simp only at hi hk ⊢
    cases k with
    | zero => rw [innermost_zero] at hi; cases hi
    | succ n =>
      have hl : ∀ b, hasReturn b = false → ¬ Leaves b := by
        intro b hb hl
        rw [(hasReturn_iff b).mpr hl] at hb; cases hb
      cases c with
      | lam0 b =>
        cases hr : hasReturn b with
        | true => simp [innermost, hr] at hi
        | false => exact ⟨b, Or.inl rfl, hl b hr, hk (by simp)⟩
      | lam1 x b =>
        cases hr : hasReturn b with
        | true => simp [innermost, hr] at hi
        | false => exact ⟨b, Or.inr ⟨x, rfl⟩, hl b hr, hk (by simp)⟩
      | _ => simp [innermost] at hi

example : closureCheck (.app0 (.var 0)) = none := by decide
example : closureCheck (.app0 (.lam0 (.ret (.int 1)))) = none := by decide
/-- With an argument there is a report without suggestion. -/
example : closureCheck (.app1 (.lam1 0 (.var 0)) (.int 1)) = some none := by decide

theorem inv_int {I : Sem} {env w n o w'} (h : Ev I env w (.int n) o w') : o = .val (.int n) ∧ w' = w := by
  cases h; exact ⟨rfl, rfl⟩

theorem inv_var {I : Sem} {env w x o w'} (h : Ev I env w (.var x) o w') : o = .val (env x) ∧ w' = w := by
  cases h; exact ⟨rfl, rfl⟩

theorem inv_lam0 {I : Sem} {env w b o w'} (h : Ev I env w (.lam0 b) o w') : o = .val (.clo0 env b) ∧ w' = w := by
  cases h; exact ⟨rfl, rfl⟩

theorem inv_ret {I : Sem} {env w e v w'} (h : Ev I env w (.ret e) (.val v) w') : False := by
  cases h with
  | retE _ hv => cases hv

/-- A program for the counterexamples. -/
def prog : Sem := { W := Nat, opq := fun k w => (.int k, w + 1), bin := fun _ a _ => a, dflt := .int 0 }

/-- `(|| f)()()` is said to be `f`: the second call is lost. -/
theorem calls_left_over :
    closureCheck (.app0 (.app0 (.lam0 (.var 0)))) = some (some ⟨.var 0, false⟩) ∧
      ¬ Same (.app0 (.app0 (.lam0 (.var 0)))) (.var 0) := by
  refine ⟨by decide, fun h => ?_⟩
  let env : Nat → V := fun _ => .clo0 (fun _ => .unit) (.int 1)
  have h1 : Ev prog env (0 : Nat) (.app0 (.app0 (.lam0 (.var 0)))) (.val (.int 1)) (0 : Nat) :=
    .app0 (o := .val (.int 1)) (.app0 (o := .val (env 0)) .lam0 .var) .int
  have h2 := (h prog env (0 : Nat) _ _).mp h1
  exact nomatch (inv_var h2).1

/-- `(|| || return 1)()()` is said to be `|| return 1`. -/
theorem return_left_over :
    closureCheck (.app0 (.app0 (.lam0 (.lam0 (.ret (.int 1)))))) = some (some ⟨.lam0 (.ret (.int 1)), false⟩) ∧
      ¬ Same (.app0 (.app0 (.lam0 (.lam0 (.ret (.int 1)))))) (.lam0 (.ret (.int 1))) := by
  refine ⟨by decide, fun h => ?_⟩
  let env : Nat → V := fun _ => .unit
  have h1 : Ev prog env (0 : Nat) (.app0 (.app0 (.lam0 (.lam0 (.ret (.int 1)))))) (.val (.int 1)) (0 : Nat) :=
    .app0 (o := .ret (.int 1)) (.app0 (o := .val (.clo0 env (.ret (.int 1)))) .lam0 .lam0) (.ret .int)
  have h2 := (h prog env (0 : Nat) _ _).mp h1
  exact nomatch (inv_lam0 h2).1

/-- `(|x| move || x)(5)()` is said to be `x`. -/
theorem argument_lost :
    closureCheck (.app0 (.app1 (.lam1 0 (.lam0 (.var 0))) (.int 5))) = some (some ⟨.var 0, false⟩) ∧
      ¬ Same (.app0 (.app1 (.lam1 0 (.lam0 (.var 0))) (.int 5))) (.var 0) := by
  refine ⟨by decide, fun h => ?_⟩
  let env : Nat → V := fun _ => .unit
  have h1 : Ev prog env (0 : Nat) (.app0 (.app1 (.lam1 0 (.lam0 (.var 0))) (.int 5)))
      (.val (upd env 0 (.int 5) 0)) (0 : Nat) :=
    .app0 (o := .val (upd env 0 (.int 5) 0))
      (.app1 (o := .val (.clo0 (upd env 0 (.int 5)) (.var 0))) .lam1 .int .lam0) .var
  have h2 := (h prog env (0 : Nat) _ _).mp h1
  have ho := (inv_var h2).1
  have : upd env 0 (.int 5) 0 = .int 5 := by simp [upd]
  rw [this] at ho
  exact nomatch ho

/-! ## Unwrapped literals -/

theorem ev_none {I : Sem} {env w o w'} (h : Ev I env w .none' o w') : o = .val .none' ∧ w' = w := by
  cases h; exact ⟨rfl, rfl⟩

/-- For `None`, the suggestion does what the method does, when the closure of `unwrap_or_else` does not
return early. Missing: what a panic prints, and `return` — see `return_escapes`. -/
theorem none_partial (typed : Bool) (m : Meth) (arg : E) (h : Hint)
    (hh : unwrapHint typed m .none' arg = some h) (ha : takesArg m = false → arg = .unit)
    (hr : m = .unwrapOrElse → ∃ b, arg = .lam0 b ∧ ¬ Leaves b) : Same (.meth m .none' arg) h.expr := by
  intro I env w o w'
  cases m with
  | unwrap =>
    simp only [unwrapHint, literal, Option.some.injEq] at hh
    subst hh
    have := ha rfl; subst this
    constructor
    · intro h
      cases h with
      | meth h1 h2 hc =>
        cases h1; cases h2
        simp only [content, Option.some.injEq] at hc
        subst hc
        exact .panic .unit
      | methR h1 hv => cases h1; cases hv
      | methA h1 h2 hv => cases h1; cases h2; cases hv
    · intro h
      cases h with
      | panic h1 => cases h1; exact .meth .none' .unit rfl
      | panicE h1 hv => cases h1; cases hv
  | expect =>
    simp only [unwrapHint, literal, Option.some.injEq] at hh
    subst hh
    constructor
    · intro h
      cases h with
      | meth h1 h2 hc =>
        cases h1
        simp only [content, Option.some.injEq] at hc
        subst hc
        exact .panic h2
      | methR h1 hv => cases h1; cases hv
      | methA h1 h2 hv => cases h1; exact .panicE h2 hv
    · intro h
      cases h with
      | panic h1 => exact .meth .none' h1 rfl
      | panicE h1 hv => exact .methA .none' h1 hv
  | unwrapOrDefault =>
    simp only [unwrapHint, literal, Option.some.injEq] at hh
    subst hh
    have := ha rfl; subst this
    constructor
    · intro h
      cases h with
      | meth h1 h2 hc =>
        cases h1; cases h2
        simp only [content, Option.some.injEq] at hc
        subst hc
        exact .dflt
      | methR h1 hv => cases h1; cases hv
      | methA h1 h2 hv => cases h1; cases h2; cases hv
    · intro h
      cases h
      exact .meth .none' .unit rfl
  | unwrapOr =>
    simp only [unwrapHint, literal, Option.some.injEq] at hh
    subst hh
    constructor
    · intro h
      cases h with
      | meth h1 h2 hc =>
        cases h1
        simp only [content, Option.some.injEq] at hc
        subst hc
        exact h2
      | methR h1 hv => cases h1; cases hv
      | methA h1 h2 hv => cases h1; exact h2
    · intro h
      cases hv : o.isVal with
      | false => exact .methA .none' h hv
      | true =>
        cases o with
        | val v => exact .meth .none' h rfl
        | _ => cases hv
  | unwrapOrElse =>
    obtain ⟨b, rfl, hb⟩ := hr rfl
    simp only [unwrapHint, literal, Option.some.injEq] at hh
    subst hh
    constructor
    · intro h
      cases h with
      | meth h1 h2 hc => cases h1; simp [content] at hc
      | methR h1 hv => cases h1; cases hv
      | methA h1 h2 hv => cases h1; cases h2; cases hv
      | elseNone h1 h2 h3 =>
        cases h1; cases h2
        rw [ofBody_id (ev_no_ret h3 hb)]
        exact h3
      | elseErr h1 h2 h3 => cases h1
    · intro h
      have := Ev.elseNone (I := I) (env := env) (w := w) .none' .lam0 h
      rwa [ofBody_id (ev_no_ret h hb)] at this
  | _ => simp [unwrapHint, literal] at hh

example : unwrapHint false .unwrapOrElse .none' (.lam0 (.opq 0)) = some ⟨.opq 0, false⟩ := by decide
example : unwrapHint false .expect .none' (.opq 0) = some ⟨.panic (.opq 0), false⟩ := by decide

/-- Where the content is not what the method is for, the suggestion panics after evaluating the same. -/
theorem panic_same (typed : Bool) (c : Ctor) (m : Meth) (a arg : E) (h : Hint)
    (hh : unwrapHint typed m (.wrap c a) arg = some h)
    (hc : (c = .ok ∧ (m = .unwrapErr ∨ m = .expectErr)) ∨ (c = .err ∧ (m = .unwrap ∨ m = .expect)))
    (ha : takesArg m = false → arg = .unit) : Same (.meth m (.wrap c a) arg) h.expr := by
  have ht : typed = false := by
    cases typed with
    | false => rfl
    | true => rcases hc with ⟨rfl, rfl | rfl⟩ | ⟨rfl, rfl | rfl⟩ <;> simp [unwrapHint, literal] at hh
  subst ht
  -- with one argument
  have two : ∀ m' c', (∀ I v va, content I m' (.wrap c' v) va = some .panic) → m' ≠ .unwrapOrElse →
      Same (.meth m' (.wrap c' a) arg) (.panic (.seq a arg)) := by
    intro m' c' hp hne I env w o w'
    constructor
    · intro h
      cases h with
      | meth h1 h2 hc =>
        cases h1 with
        | wrap h1 =>
          rw [hp] at hc
          simp only [Option.some.injEq] at hc
          subst hc
          exact .panic (.seq h1 h2)
        | wrapE h1 hv => cases hv
      | methR h1 hv =>
        cases h1 with
        | wrap h1 => cases hv
        | wrapE h1 _ => exact .panicE (.seqL h1 hv) hv
      | methA h1 h2 hv =>
        cases h1 with
        | wrap h1 => exact .panicE (.seq h1 h2) hv
        | wrapE h1 hv' => cases hv'
      | elseNone => exact absurd rfl hne
      | elseErr => exact absurd rfl hne
    · intro h
      cases h with
      | panic h1 =>
        cases h1 with
        | seq h1 h2 => exact .meth (.wrap h1) h2 (hp I _ _)
        | seqL h1 hv => cases hv
      | panicE h1 hv =>
        cases h1 with
        | seq h1 h2 => exact .methA (.wrap h1) h2 hv
        | seqL h1 _ => exact .methR (.wrapE h1 hv) hv
  -- without an argument
  have one : ∀ m' c', (∀ I v va, content I m' (.wrap c' v) va = some .panic) → m' ≠ .unwrapOrElse →
      Same (.meth m' (.wrap c' a) .unit) (.panic a) := by
    intro m' c' hp hne I env w o w'
    constructor
    · intro h
      cases h with
      | meth h1 h2 hc =>
        cases h1 with
        | wrap h1 =>
          cases h2
          rw [hp] at hc
          simp only [Option.some.injEq] at hc
          subst hc
          exact .panic h1
        | wrapE h1 hv => cases hv
      | methR h1 hv =>
        cases h1 with
        | wrap h1 => cases hv
        | wrapE h1 _ => exact .panicE h1 hv
      | methA h1 h2 hv => cases h2; cases hv
      | elseNone => exact absurd rfl hne
      | elseErr => exact absurd rfl hne
    · intro h
      cases h with
      | panic h1 => exact .meth (.wrap h1) .unit (hp I _ _)
      | panicE h1 hv => exact .methR (.wrapE h1 hv) hv
  rcases hc with ⟨rfl, rfl | rfl⟩ | ⟨rfl, rfl | rfl⟩
  · have := ha rfl; subst this
    simp [unwrapHint, literal] at hh; subst hh
    exact one _ _ (fun _ _ _ => rfl) (by simp)
  · simp [unwrapHint, literal] at hh; subst hh
    exact two _ _ (fun _ _ _ => rfl) (by simp)
  · have := ha rfl; subst this
    simp [unwrapHint, literal] at hh; subst hh
    exact one _ _ (fun _ _ _ => rfl) (by simp)
  · simp [unwrapHint, literal] at hh; subst hh
    exact two _ _ (fun _ _ _ => rfl) (by simp)

example : unwrapHint false .expectErr (.wrap .ok (.opq 0)) (.opq 1) = some ⟨.panic (.seq (.opq 0) (.opq 1)), false⟩ := by
  decide

/-- The variant that the method takes the content of. -/
def Takes (c : Ctor) : Meth → Prop
  | .unwrapErr | .expectErr | .unwrapErrUnchecked => c = .err
  | _ => c = .some' ∨ c = .ok

/-- Where the method takes the content, the suggestion does the same if evaluating the argument of the
method does nothing. Missing: arguments with effects — see `effect_lost`. -/
theorem content_partial (typed : Bool) (c : Ctor) (m : Meth) (a arg : E) (h : Hint)
    (hh : unwrapHint typed m (.wrap c a) arg = some h) (ht : Takes c m) (hp : Pure arg) :
    h.expr = a ∧ Same (.meth m (.wrap c a) arg) a := by
  have hcont : ∀ I v va, content I m (.wrap c v) va = some (.val v) := by
    intro I v va
    cases m <;> (first | (have : c = .err := ht; subst this; rfl) | (rcases (ht : c = .some' ∨ c = .ok) with rfl | rfl <;> rfl))
  refine ⟨?_, ?_⟩
  · cases m <;> (first | (have : c = .err := ht; subst this) | (rcases (ht : c = .some' ∨ c = .ok) with rfl | rfl)) <;>
      cases typed <;> simp [unwrapHint, literal] at hh <;> subst hh <;> rfl
  · intro I env w o w'
    constructor
    · intro h
      cases h with
      | meth h1 h2 hc =>
        cases h1 with
        | wrap h1 =>
          rw [hcont] at hc
          simp only [Option.some.injEq] at hc
          subst hc
          obtain ⟨v, hv⟩ := hp I env _
          have := (hv _ _).mp h2
          rw [this.2]
          exact h1
        | wrapE h1 hv => cases hv
      | methR h1 hv =>
        cases h1 with
        | wrap h1 => cases hv
        | wrapE h1 _ => exact h1
      | methA h1 h2 hv =>
        rename_i w1
        obtain ⟨v, hv'⟩ := hp I env w1
        have := ((hv' _ _).mp h2).1
        subst this
        cases hv
      | elseNone h1 h2 h3 =>
        cases h1 with
        | wrapE h1 hv => cases hv
      | elseErr h1 h2 h3 =>
        cases h1 with
        | wrapE h1 hv => cases hv
        | wrap h1 => rcases (ht : _ ∨ _) with h | h <;> cases h
    · intro h
      cases hv : o.isVal with
      | false => exact .methR (.wrapE h hv) hv
      | true =>
        cases o with
        | val v =>
          obtain ⟨va, hva⟩ := hp I env w'
          exact .meth (.wrap h) ((hva _ _).mpr ⟨rfl, rfl⟩) (hcont I v va)
        | _ => cases hv

theorem pure_int (n : Int) : Pure (.int n) := by
  intro I env w
  refine ⟨.int n, fun o w' => ⟨fun h => ?_, fun h => ?_⟩⟩
  · cases h; exact ⟨rfl, rfl⟩
  · rw [h.1, h.2]; exact .int

theorem pure_unit : Pure .unit := by
  intro I env w
  refine ⟨.unit, fun o w' => ⟨fun h => ?_, fun h => ?_⟩⟩
  · cases h; exact ⟨rfl, rfl⟩
  · rw [h.1, h.2]; exact .unit

/-- `Some(f()).unwrap_or(1)` -/
example : unwrapHint false .unwrapOr (.wrap .some' (.opq 0)) (.int 1) = some ⟨.opq 0, false⟩ ∧
    Takes .some' .unwrapOr ∧ Pure (.int 1) := ⟨by decide, Or.inl rfl, pure_int 1⟩

/-- `Err(1).unwrap_or(2)` is said to be `1`. -/
theorem error_taken :
    unwrapHint false .unwrapOr (.wrap .err (.int 1)) (.int 2) = some ⟨.int 1, false⟩ ∧
      ¬ Same (.meth .unwrapOr (.wrap .err (.int 1)) (.int 2)) (.int 1) := by
  refine ⟨by decide, fun h => ?_⟩
  have h1 : Ev prog (fun _ => .unit) (0 : Nat) (.meth .unwrapOr (.wrap .err (.int 1)) (.int 2)) (.val (.int 2)) (0 : Nat) :=
    .meth (.wrap .int) .int rfl
  have h2 := (h _ _ _ _ _).mp h1
  exact absurd (inv_int h2).1 (by simp)

/-- The same for the default and for the closure of `unwrap_or_else`. -/
theorem error_taken_also :
    unwrapHint false .unwrapOrDefault (.wrap .err (.int 1)) .unit = some ⟨.int 1, false⟩ ∧
      unwrapHint false .unwrapOrElse (.wrap .err (.int 1)) (.lam1 0 (.int 2)) = some ⟨.int 1, false⟩ ∧
      ¬ Same (.meth .unwrapOrDefault (.wrap .err (.int 1)) .unit) (.int 1) ∧
      ¬ Same (.meth .unwrapOrElse (.wrap .err (.int 1)) (.lam1 0 (.int 2))) (.int 1) := by
  refine ⟨by decide, by decide, fun h => ?_, fun h => ?_⟩
  · have h1 : Ev prog (fun _ => .unit) (0 : Nat) (.meth .unwrapOrDefault (.wrap .err (.int 1)) .unit)
        (.val (.int 0)) (0 : Nat) := .meth (.wrap .int) .unit rfl
    have h2 := (h _ _ _ _ _).mp h1
    exact absurd (inv_int h2).1 (by simp)
  · have h1 : Ev prog (fun _ => .unit) (0 : Nat) (.meth .unwrapOrElse (.wrap .err (.int 1)) (.lam1 0 (.int 2)))
        (.val (.int 2)) (0 : Nat) := .elseErr (o := .val (.int 2)) (.wrap .int) .lam1 .int
    have h2 := (h _ _ _ _ _).mp h1
    exact absurd (inv_int h2).1 (by simp)

/-- `None.unwrap_or_else(|| return 3)` is said to be `return 3`, which leaves the function. -/
theorem return_escapes :
    unwrapHint false .unwrapOrElse .none' (.lam0 (.ret (.int 3))) = some ⟨.ret (.int 3), false⟩ ∧
      ¬ Same (.meth .unwrapOrElse .none' (.lam0 (.ret (.int 3)))) (.ret (.int 3)) := by
  refine ⟨by decide, fun h => ?_⟩
  have h1 : Ev prog (fun _ => .unit) (0 : Nat) (.meth .unwrapOrElse .none' (.lam0 (.ret (.int 3))))
      (.val (.int 3)) (0 : Nat) := .elseNone (o := .ret (.int 3)) .none' .lam0 (.ret .int)
  have h2 := (h _ _ _ _ _).mp h1
  exact inv_ret h2

/-- `Some(1).unwrap_or(f())` is said to be `1`: the call is lost. -/
theorem effect_lost :
    unwrapHint false .unwrapOr (.wrap .some' (.int 1)) (.opq 0) = some ⟨.int 1, false⟩ ∧
      ¬ Same (.meth .unwrapOr (.wrap .some' (.int 1)) (.opq 0)) (.int 1) := by
  refine ⟨by decide, fun h => ?_⟩
  have h1 : Ev prog (fun _ => .unit) (0 : Nat) (.meth .unwrapOr (.wrap .some' (.int 1)) (.opq 0))
      (.val (.int 1)) (1 : Nat) := .meth (.wrap .int) .opq rfl
  have h2 := (h _ _ _ _ _).mp h1
  exact absurd (inv_int h2).2 (show ¬ ((1 : Nat) = 0) by decide)

/-! ## Extremes -/

/-- The values of the type. -/
def InType (t : IntTy) (n : Int) : Prop :=
  match t.bits with
  | none => True
  | some b => if t.signed then -2 ^ (b - 1) ≤ n ∧ n ≤ 2 ^ (b - 1) - 1 else 0 ≤ n ∧ n ≤ 2 ^ b - 1

/-- The expression has values of the type only. -/
def HasType (t : IntTy) (e : E) : Prop :=
  ∀ (I : Sem) env w v w', Ev I env w e (.val v) w' → ∃ n, v = .int n ∧ InType t n

theorem constant_ev {e : E} {n : Int} (h : constant e = some n) : e = .int n := by
  cases e <;> simp_all [constant]

theorem order_sound {t : IntTy} {recv arg : E} {o : Ordering} (h : order t recv arg = some o)
    {I : Sem} {env : Nat → V} {w w1 w2 : I.W} {x y : Int}
    (hr : HasType t recv) (ha : HasType t arg)
    (h1 : Ev I env w recv (.val (.int x)) w1) (h2 : Ev I env w1 arg (.val (.int y)) w2) :
    (o.isGE = true → y ≤ x) ∧ (o.isLE = true → x ≤ y) := by
  have hx : InType t x := by
    obtain ⟨n, e, hn⟩ := hr _ _ _ _ _ h1
    cases e; exact hn
  have hy : InType t y := by
    obtain ⟨n, e, hn⟩ := ha _ _ _ _ _ h2
    cases e; exact hn
  have hext : ∀ e z, extreme t e = some z → ∃ i, e = .int i ∧
      ∀ n, InType t n → (z = .minimum → i ≤ n) ∧ (z = .maximum → n ≤ i) := by
    intro e z he
    unfold extreme at he
    cases hc : constant e with
    | none => simp [hc] at he
    | some i =>
      refine ⟨i, constant_ev hc, ?_⟩
      intro n hn
      cases hb : t.bits with
      | none => simp [hc, hb] at he
      | some b =>
        simp only [hc, hb] at he
        simp only [InType, hb] at hn
        cases hs : t.signed with
        | true =>
          simp only [hs, if_true] at he hn
          by_cases c1 : i = -2 ^ (b - 1)
          · rw [if_pos c1] at he
            cases he
            exact ⟨fun _ => by omega, fun h => by cases h⟩
          · rw [if_neg c1] at he
            by_cases c2 : i = 2 ^ (b - 1) - 1
            · rw [if_pos c2] at he
              cases he
              exact ⟨fun h => (by cases h), fun _ => (by omega)⟩
            · rw [if_neg c2] at he; cases he
        | false =>
          simp only [hs, Bool.false_eq_true, if_false] at he hn
          by_cases c1 : i = 2 ^ b - 1
          · rw [if_pos c1] at he
            cases he
            exact ⟨fun h => (by cases h), fun _ => (by omega)⟩
          · rw [if_neg c1] at he
            by_cases c2 : i = 0
            · rw [if_pos c2] at he
              cases he
              exact ⟨fun _ => by omega, fun h => by cases h⟩
            · rw [if_neg c2] at he; cases he
  have evint : ∀ {env} {w w' : I.W} {i n : Int}, Ev I env w (.int i) (.val (.int n)) w' → n = i := by
    intro env w w' i n h; cases h; rfl
  have key : order t recv arg = some o → (∃ l r, constant recv = some l ∧ constant arg = some r ∧ o = compare l r) ∨
      (extreme t recv = some .minimum ∧ o = .lt) ∨ (extreme t recv = some .maximum ∧ o = .gt) ∨
      (extreme t arg = some .minimum ∧ o = .gt) ∨ (extreme t arg = some .maximum ∧ o = .lt) := by
    intro h
    unfold order at h
    split at h
    · rename_i l r hl hr'
      simp only [Option.some.injEq] at h
      exact Or.inl ⟨l, r, hl, hr', h.symm⟩
    · split at h
      · rename_i he; simp only [Option.some.injEq] at h; exact Or.inr (Or.inl ⟨he, h.symm⟩)
      · rename_i he; simp only [Option.some.injEq] at h; exact Or.inr (Or.inr (Or.inl ⟨he, h.symm⟩))
      · split at h
        · rename_i he; simp only [Option.some.injEq] at h; exact Or.inr (Or.inr (Or.inr (Or.inl ⟨he, h.symm⟩)))
        · rename_i he; simp only [Option.some.injEq] at h; exact Or.inr (Or.inr (Or.inr (Or.inr ⟨he, h.symm⟩)))
        · cases h
  rcases key h with ⟨l, r, hl, hr', rfl⟩ | ⟨he, rfl⟩ | ⟨he, rfl⟩ | ⟨he, rfl⟩ | ⟨he, rfl⟩
  · have e1 := constant_ev hl; have e2 := constant_ev hr'
    subst e1; subst e2
    have := evint h1; have := evint h2
    subst x; subst y
    constructor
    · intro hg
      rcases Int.lt_trichotomy l r with hlt | heq | hgt
      · have : compare l r = .lt := by simp [compare, compareOfLessAndEq, hlt]
        rw [this] at hg; exact absurd hg (by decide)
      · omega
      · omega
    · intro hg
      rcases Int.lt_trichotomy l r with hlt | heq | hgt
      · omega
      · omega
      · have : compare l r = .gt := by
          have h1 : ¬ l < r := by omega
          have h2 : ¬ l = r := by omega
          simp [compare, compareOfLessAndEq, h1, h2]
        rw [this] at hg; exact absurd hg (by decide)
  · obtain ⟨i, rfl, hi⟩ := hext _ _ he
    have := evint h1; subst x
    exact ⟨fun h => absurd h (by decide), fun _ => (hi y hy).1 rfl⟩
  · obtain ⟨i, rfl, hi⟩ := hext _ _ he
    have := evint h1; subst x
    exact ⟨fun _ => (hi y hy).2 rfl, fun h => absurd h (by decide)⟩
  · obtain ⟨i, rfl, hi⟩ := hext _ _ he
    have := evint h2; subst y
    exact ⟨fun _ => (hi x hx).1 rfl, fun h => absurd h (by decide)⟩
  · obtain ⟨i, rfl, hi⟩ := hext _ _ he
    have := evint h2; subst y
    exact ⟨fun h => absurd h (by decide), fun _ => (hi x hx).2 rfl⟩

/-- A call of `min` or `max`. -/
def minMax (isMin : Bool) (a b : E) : E := if isMin then .min a b else .max a b

/-- The suggested operand is one of the two, and does the same as the call if evaluating the other does
nothing. Missing: other operands with effects — see `operand_lost`. -/
theorem extreme_partial (t : IntTy) (isMin : Bool) (recv arg : E) (h : Hint)
    (hh : minMaxHint t isMin recv arg = some h) (hr : HasType t recv) (ha : HasType t arg) :
    (h.expr = arg ∧ (Pure recv → Same (minMax isMin recv arg) arg)) ∨
      (h.expr = recv ∧ (Pure arg → Same (minMax isMin recv arg) recv)) := by
  unfold minMaxHint at hh
  cases ho : order t recv arg with
  | none => simp [ho] at hh
  | some o =>
    simp only [ho] at hh
    have hs := fun {I : Sem} {env : Nat → V} {w w1 w2 : I.W} {x y : Int} =>
      order_sound (I := I) (env := env) (w := w) (w1 := w1) (w2 := w2) (x := x) (y := y) ho hr ha
    have tot : o.isGE = true ∨ o.isLE = true := by cases o <;> decide
    by_cases hc : ((isMin && o.isGE) || (!isMin && o.isLE)) = true
    · rw [if_pos hc] at hh
      simp only [Option.some.injEq] at hh
      refine Or.inl ⟨by rw [← hh], fun hp I env w o' w' => ?_⟩
      obtain ⟨v, hv⟩ := hp I env w
      have hev : Ev I env w recv (.val v) w := (hv _ _).mpr ⟨rfl, rfl⟩
      obtain ⟨x, rfl, _⟩ := hr _ _ _ _ _ hev
      have fwd : ∀ y w2, Ev I env w arg (.val (.int y)) w2 →
          (if isMin then (if x ≤ y then x else y) else (if x ≤ y then y else x)) = y := by
        intro y w2 h2
        have := hs hev h2
        cases isMin with
        | true => simp only [Bool.true_and, Bool.not_true, Bool.false_and, Bool.or_false] at hc
                  have := this.1 hc
                  by_cases hxy : x ≤ y
                  · rw [if_pos rfl, if_pos hxy]; omega
                  · rw [if_pos rfl, if_neg hxy]
        | false => simp only [Bool.false_and, Bool.not_false, Bool.true_and, Bool.false_or] at hc
                   have := this.2 hc
                   rw [if_neg (by decide), if_pos this]
      have back : ∀ y w2, Ev I env w arg (.val (.int y)) w2 →
          Ev I env w (minMax isMin recv arg) (.val (.int y)) w2 := by
        intro y w2 h2
        have e := fwd y w2 h2
        cases isMin with
        | true =>
          have := Ev.min hev h2
          rw [if_pos rfl] at e
          rwa [e] at this
        | false =>
          have := Ev.max hev h2
          rw [if_neg (by decide)] at e
          rwa [e] at this
      have out : ∀ {o1 w1}, Ev I env w recv o1 w1 → o1 = .val (.int x) ∧ w1 = w := fun h => (hv _ _).mp h
      constructor
      · intro h
        cases hm : isMin with
        | true =>
          subst hm
          have h : Ev I env w (.min recv arg) o' w' := h
          cases h with
          | min h1 h2 =>
            obtain ⟨e1, e2⟩ := out h1
            cases e1; subst e2
            have e := fwd _ _ h2
            rw [if_pos rfl] at e
            rw [e]; exact h2
          | minL h1 hf => obtain ⟨e1, _⟩ := out h1; subst e1; cases hf
          | minR h1 h2 hf => obtain ⟨_, e2⟩ := out h1; subst e2; exact h2
        | false =>
          subst hm
          have h : Ev I env w (.max recv arg) o' w' := h
          cases h with
          | max h1 h2 =>
            obtain ⟨e1, e2⟩ := out h1
            cases e1; subst e2
            have e := fwd _ _ h2
            rw [if_neg (by decide)] at e
            rw [e]; exact h2
          | maxL h1 hf => obtain ⟨e1, _⟩ := out h1; subst e1; cases hf
          | maxR h1 h2 hf => obtain ⟨_, e2⟩ := out h1; subst e2; exact h2
      · intro h
        cases hf : o'.isVal with
        | false =>
          cases isMin with
          | true => exact .minR hev h hf
          | false => exact .maxR hev h hf
        | true =>
          cases o' with
          | val v2 => obtain ⟨y, rfl, _⟩ := ha _ _ _ _ _ h; exact back y w' h
          | _ => cases hf
    · rw [if_neg hc] at hh
      simp only [Option.some.injEq] at hh
      refine Or.inr ⟨by rw [← hh], fun hp I env w o' w' => ?_⟩
      have fwd : ∀ x w1 y w2, Ev I env w recv (.val (.int x)) w1 → Ev I env w1 arg (.val (.int y)) w2 →
          (if isMin then (if x ≤ y then x else y) else (if x ≤ y then y else x)) = x := by
        intro x w1 y w2 h1 h2
        have := hs h1 h2
        cases isMin with
        | true =>
          have hge : o.isGE ≠ true := by
            intro hg; apply hc; rw [hg]; rfl
          have hle : o.isLE = true := tot.resolve_left hge
          rw [if_pos rfl, if_pos (this.2 hle)]
        | false =>
          have hle : o.isLE ≠ true := by
            intro hg; apply hc; rw [hg]; rfl
          have hge : o.isGE = true := tot.resolve_right hle
          have := this.1 hge
          rw [if_neg (by decide)]
          by_cases hxy : x ≤ y
          · rw [if_pos hxy]; omega
          · rw [if_neg hxy]
      constructor
      · intro h
        cases hm : isMin with
        | true =>
          subst hm
          have h : Ev I env w (.min recv arg) o' w' := h
          cases h with
          | min h1 h2 =>
            rename_i w1
            have e := fwd _ _ _ _ h1 h2
            rw [if_pos rfl] at e
            obtain ⟨v, hv⟩ := hp I env w1
            rw [e, ((hv _ _).mp h2).2]; exact h1
          | minL h1 hf => exact h1
          | minR h1 h2 hf =>
            rename_i w1
            obtain ⟨v, hv⟩ := hp I env w1
            rw [((hv _ _).mp h2).1] at hf; cases hf
        | false =>
          subst hm
          have h : Ev I env w (.max recv arg) o' w' := h
          cases h with
          | max h1 h2 =>
            rename_i w1
            have e := fwd _ _ _ _ h1 h2
            rw [if_neg (by decide)] at e
            obtain ⟨v, hv⟩ := hp I env w1
            rw [e, ((hv _ _).mp h2).2]; exact h1
          | maxL h1 hf => exact h1
          | maxR h1 h2 hf =>
            rename_i w1
            obtain ⟨v, hv⟩ := hp I env w1
            rw [((hv _ _).mp h2).1] at hf; cases hf
      · intro h
        cases hf : o'.isVal with
        | false =>
          cases isMin with
          | true => exact .minL h hf
          | false => exact .maxL h hf
        | true =>
          cases o' with
          | val v2 =>
            obtain ⟨x, rfl, _⟩ := hr _ _ _ _ _ h
            obtain ⟨v, hv⟩ := hp I env w'
            have h2 : Ev I env w' arg (.val v) w' := (hv _ _).mpr ⟨rfl, rfl⟩
            obtain ⟨y, rfl, _⟩ := ha _ _ _ _ _ h2
            have e := fwd _ _ _ _ h h2
            cases isMin with
            | true =>
              have := Ev.min h h2
              rw [if_pos rfl] at e
              rwa [e] at this
            | false =>
              have := Ev.max h h2
              rw [if_neg (by decide)] at e
              rwa [e] at this
          | _ => cases hf

theorem hasType_int {t : IntTy} {n : Int} (h : InType t n) : HasType t (.int n) := by
  intro I env w v w' he
  cases he
  exact ⟨n, rfl, h⟩

/-- `(-5_i8).max(-128)` -/
example : minMaxHint ⟨true, some 8⟩ false (.seq (.opq 0) (.int (-5))) (.int (-128)) = some ⟨.seq (.opq 0) (.int (-5)), false⟩ ∧
    HasType ⟨true, some 8⟩ (.int (-128)) ∧ Pure (.int (-128)) :=
  ⟨by decide, hasType_int (by simp [InType]), pure_int _⟩

/-- With the least or the greatest value of the type as an operand there is a report. -/
theorem extreme_found (t : IntTy) (isMin : Bool) (b : Nat) (hb : t.bits = some b) (i : Int) (arg : E)
    (hi : (∀ n, InType t n → i ≤ n) ∨ (∀ n, InType t n → n ≤ i)) (ht : InType t i) :
    minMaxHint t isMin (.int i) arg ≠ none ∧ minMaxHint t isMin arg (.int i) ≠ none := by
  have h1 : (1 : Int) ≤ 2 ^ (b - 1) := Int.pow_pos (by decide)
  have h2 : (1 : Int) ≤ 2 ^ b := Int.pow_pos (by decide)
  have he : extreme t (.int i) ≠ none := by
    simp only [InType, hb] at hi ht
    unfold extreme
    simp only [constant, hb]
    cases hs : t.signed with
    | true =>
      simp only [hs, if_true] at hi ht ⊢
      by_cases c1 : i = -2 ^ (b - 1)
      · rw [if_pos c1]; simp
      · rw [if_neg c1]
        by_cases c2 : i = 2 ^ (b - 1) - 1
        · rw [if_pos c2]; simp
        · exfalso
          rcases hi with h | h
          · have := h (-2 ^ (b - 1)) ⟨by omega, by omega⟩
            omega
          · have := h (2 ^ (b - 1) - 1) ⟨by omega, by omega⟩
            omega
    | false =>
      simp only [hs, Bool.false_eq_true, if_false] at hi ht ⊢
      by_cases c1 : i = 2 ^ b - 1
      · rw [if_pos c1]; simp
      · rw [if_neg c1]
        by_cases c2 : i = 0
        · rw [if_pos c2]; simp
        · exfalso
          rcases hi with h | h
          · have := h 0 ⟨by omega, by omega⟩
            omega
          · have := h (2 ^ b - 1) ⟨by omega, by omega⟩
            omega
  have ho : order t (.int i) arg ≠ none ∧ order t arg (.int i) ≠ none := by
    cases hx : extreme t (.int i) with
    | none => exact absurd hx he
    | some z =>
      constructor
      · unfold order
        cases hc : constant arg with
        | some c => simp [constant]
        | none => cases z <;> simp [constant, hx]
      · unfold order
        cases hc : constant arg with
        | some c => simp [constant]
        | none =>
          have : extreme t arg = none := by unfold extreme; rw [hc]
          cases z <;> simp [this, hx]
  constructor
  · unfold minMaxHint
    cases hx : order t (.int i) arg with
    | none => exact absurd hx ho.1
    | some o => simp only; split <;> simp
  · unfold minMaxHint
    cases hx : order t arg (.int i) with
    | none => exact absurd hx ho.2
    | some o => simp only; split <;> simp

example : minMaxHint ⟨false, some 8⟩ true (.opq 0) (.int 255) = some ⟨.opq 0, false⟩ := by decide

/-- `i8::MIN.min(f())` is said to be `i8::MIN`: the call is lost. -/
theorem operand_lost :
    minMaxHint ⟨true, some 8⟩ true (.int (-128)) (.seq (.opq 0) (.int 3)) = some ⟨.int (-128), false⟩ ∧
      ¬ Same (minMax true (.int (-128)) (.seq (.opq 0) (.int 3))) (.int (-128)) := by
  refine ⟨by decide, fun h => ?_⟩
  have h1 : Ev prog (fun _ => .unit) (0 : Nat) (minMax true (.int (-128)) (.seq (.opq 0) (.int 3)))
      (.val (.int (-128))) (1 : Nat) := Ev.min (x := -128) (y := 3) .int (.seq .opq .int)
  have h2 := (h _ _ _ _ _).mp h1
  exact absurd (inv_int h2).2 (show ¬ ((1 : Nat) = 0) by decide)

/-! ## Where the suggestion is written -/

open Sugg

theorem ends_graft {n : Nat} {e' : Expr} (h : endsInType e' = false) (e : Expr) :
    endsInType (graft n e' e) = endsInType e := by
  induction e with
  | atom m => by_cases hm : m = n <;> simp [graft, hm, h, endsInType]
  | _ => simp_all [graft, endsInType]

theorem operand_ends {p : Nat} {s : List Tok} {e : Expr} (h : G p s e) : 14 ≤ p → endsInType e = false := by
  induction h with
  | atom => intro _; rfl
  | paren => intro _; rfl
  | up _ hle ih => intro hp; exact ih (Nat.le_trans hp hle)
  | bin o hc _ _ _ _ _ => intro hp; have := prec_cast hc; omega
  | _ => intro hp; omega

theorem put_append (n : Nat) (s a b : List Tok) : put n s (a ++ b) = put n s a ++ put n s b := by
  simp [put, List.flatMap_append]

theorem put_other {n : Nat} {s : List Tok} {t : Tok} (h : t ≠ .atom n) (ts : List Tok) :
    put n s (t :: ts) = t :: put n s ts := by
  simp [put, List.flatMap_cons, h]

/-- A suggestion that is a single operand — a name, a call, or anything in parentheses — is read as a whole
wherever the replaced expression stood. -/
theorem operand_read {q : Nat} {ts s : List Tok} {e e' : Expr} (n : Nat) (h : G q ts e) (hs : G 14 s e') :
    G q (put n s ts) (graft n e' e) := by
  have hend := operand_ends hs (Nat.le_refl _)
  induction h with
  | atom m =>
    by_cases hm : m = n
    · subst hm
      have e1 : put m s [.atom m] = s := by simp [put]
      have e2 : graft m e' (.atom m) = e' := by simp [graft]
      rw [e1, e2]; exact hs
    · have e1 : put n s [.atom m] = [.atom m] := by simp [put, hm]
      have e2 : graft n e' (.atom m) = .atom m := by simp [graft, hm]
      rw [e1, e2]; exact .atom m
  | paren _ ih =>
    rename_i us _ _
    have : put n s (paren us) = paren (put n s us) := by
      simp [paren, put, List.flatMap_append]
    rw [this]; exact .paren ih
  | un u _ ih => rw [put_other (by simp)]; exact .un u ih
  | cast t _ ih =>
    rw [put_append]
    have : put n s [.op .cast, .ty t] = [.op .cast, .ty t] := by simp [put]
    rw [this]; exact .cast t ih
  | bin o hc _ _ hg ih1 ih2 =>
    rw [put_append, put_other (by simp)]
    exact .bin o hc ih1 ih2 (fun h => by rw [ends_graft hend]; exact hg h)
  | up _ hle ih => exact .up ih hle

/-- So the text with the suggestion in parentheses is read as it should. -/
theorem parenthesized_read {q p : Nat} {ts s : List Tok} {e e' : Expr} (n : Nat) (h : G q ts e) (hs : G p s e') :
    Parses (put n (paren s) ts) (graft n (.paren e') e) :=
  (operand_read n h (.paren (.up hs (Nat.zero_le _)))).parses

/-- `x * c` for the call `x`, and the body `a + b`. -/
example : G 11 [.atom 9, .op (.binary .mul), .atom 3] (.bin (.binary .mul) (.atom 9) (.atom 3)) ∧
    G 10 [.atom 1, .op (.binary .add), .atom 2] (.bin (.binary .add) (.atom 1) (.atom 2)) :=
  ⟨.bin (ts := [.atom 9]) (.binary .mul) (by simp) (.up (.atom 9) (by decide)) (.up (.atom 3) (by decide)) (by simp [startsGenerics]),
   .bin (ts := [.atom 1]) (.binary .add) (by simp) (.up (.atom 1) (by decide)) (.up (.atom 2) (by decide)) (by simp [startsGenerics])⟩

/-- The text of a suggestion. -/
def written (h : Hint) (s : List Tok) : List Tok := if h.paren then paren s else s

/-- Where nothing stands around the replaced expression, every suggestion is read as it should. -/
theorem alone_read {p : Nat} {s : List Tok} {e : Expr} (h : Hint) (hs : G p s e) :
    Parses (written h s) (if h.paren then .paren e else e) := by
  unfold written
  cases h.paren with
  | true => exact (G.paren (.up hs (Nat.zero_le _))).parses
  | false => exact hs.parses

/-- `(|| a + b)() * c`, `Some(a + b).unwrap() * c` and `i32::MIN.max(a + b) * c` become `a + b * c`, which
is read as `a + (b * c)`. -/
theorem bare_misread :
    closureCheck (.app0 (.lam0 (.bin 0 (.var 1) (.var 2)))) = some (some ⟨.bin 0 (.var 1) (.var 2), false⟩) ∧
    unwrapHint false .unwrap (.wrap .some' (.bin 0 (.var 1) (.var 2))) .unit = some ⟨.bin 0 (.var 1) (.var 2), false⟩ ∧
    minMaxHint ⟨true, some 32⟩ false (.int (-2147483648)) (.bin 0 (.var 1) (.var 2)) = some ⟨.bin 0 (.var 1) (.var 2), false⟩ ∧
    Parses (put 9 [.atom 1, .op (.binary .add), .atom 2] [.atom 9, .op (.binary .mul), .atom 3])
      (.bin (.binary .add) (.atom 1) (.bin (.binary .mul) (.atom 2) (.atom 3))) ∧
    ¬ Parses (put 9 [.atom 1, .op (.binary .add), .atom 2] [.atom 9, .op (.binary .mul), .atom 3])
      (graft 9 (.bin (.binary .add) (.atom 1) (.atom 2)) (.bin (.binary .mul) (.atom 9) (.atom 3))) := by
  have hp : Parses (put 9 [.atom 1, .op (.binary .add), .atom 2] [.atom 9, .op (.binary .mul), .atom 3])
      (.bin (.binary .add) (.atom 1) (.bin (.binary .mul) (.atom 2) (.atom 3))) := ⟨20, by decide +kernel⟩
  refine ⟨by decide, by decide, by decide, hp, fun h => ?_⟩
  have := hp.unique h
  revert this
  decide

end Verif.Redex
