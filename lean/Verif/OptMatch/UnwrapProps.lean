import Verif.OptMatch.UnwrapModel
import Verif.OptMatch.UnwrapSpec
import Verif.OptMatch.Props

/-!
# `manual_unwrap_or` and `manual_ok_err` keep the meaning
-/

namespace Verif.OptMatch
open Ctrl (Name Expr)

variable {S : Sem}

theorem peel_body (k : Nat) (b : Body) (ρ : Env) : evalBody (S := S) k (peelBlocks b) ρ = evalBody k b ρ := by
  induction b with
  | block u b ih =>
    cases u with
    | false => exact ih
    | true => rfl
  | _ => rfl

theorem peel_twice (b : Body) : peelBlocks (peelBlocks b) = peelBlocks b := by
  induction b with
  | block u b ih =>
    cases u with
    | false => exact ih
    | true => rfl
  | _ => rfl

theorem by_value {p : Pat} {x : Name} (h : byValue p = some x) :
    (∃ m, p = .bind ⟨none, m⟩ x) ∨ ∃ b q, p = .bindAt b x q := by
  unfold byValue at h
  split at h
  · cases h; exact .inl ⟨_, rfl⟩
  · cases h; exact .inr ⟨_, _, rfl⟩
  · cases h

theorem bind_start {w : S.W} {m : Bool} {x : Name} {t : Ty} {p : Place} {ρ : Env} {v : Val}
    (h : read w p = some v) : matchPat w (.bind ⟨none, m⟩ x) t p .start ρ = some (some (upd ρ x v)) := by
  simp [matchPat, bound, Mode.start, h]
  rfl

/-- The arm with the variable. -/
theorem some_arm {w : S.W} {P : Pat} {x : Name} (h : getSome P = some x) (hs : subPat P = false) {t : Ty}
    (ht : isOptRes t = true) {p : Place} {ρ : Env} {o : Option Env} (hm : matchPat w P t p .start ρ = some o) :
    ∃ u oi, read w p = some u ∧ inside u = some oi ∧ o = oi.map fun v => upd ρ x v := by
  unfold getSome at h
  split at h
  · next q =>
    rcases by_value h with ⟨m, rfl⟩ | ⟨b, q', rfl⟩
    · cases t with
      | opt t =>
        simp only [matchPat, follow, Option.bind_some] at hm
        cases hr : read w p with
        | none => rw [hr] at hm; cases hm
        | some u =>
          rw [hr] at hm
          cases u with
          | none => cases hm; exact ⟨_, _, rfl, rfl, rfl⟩
          | some v =>
            have e := (bind_start (m := m) (x := x) (t := t) (ρ := ρ) (read_inner hr)).symm.trans hm
            cases e
            exact ⟨_, _, rfl, rfl, rfl⟩
          | _ => cases hm
      | res t e => simp [matchPat, follow] at hm
      | _ => simp [isOptRes] at ht
    · simp [subPat] at hs
  · next q =>
    rcases by_value h with ⟨m, rfl⟩ | ⟨b, q', rfl⟩
    · cases t with
      | res t e =>
        simp only [matchPat, follow, Option.bind_some] at hm
        cases hr : read w p with
        | none => rw [hr] at hm; cases hm
        | some u =>
          rw [hr] at hm
          cases u with
          | err v => cases hm; exact ⟨_, _, rfl, rfl, rfl⟩
          | ok v =>
            have hri : read w (p.step .inner) = some v := by rw [read_step, hr]; rfl
            have e := (bind_start (m := m) (x := x) (t := t) (ρ := ρ) hri).symm.trans hm
            cases e
            exact ⟨_, _, rfl, rfl, rfl⟩
          | _ => cases hm
      | opt t => simp [matchPat, follow] at hm
      | _ => simp [isOptRes] at ht
    · simp [subPat] at hs
  · cases h

/-- The other arm, if it is the first. -/
theorem none_arm {w : S.W} {P : Pat} {b n : Body} (h : getNone ⟨P, none, b⟩ false = some n) {t : Ty}
    (ht : isOptRes t = true) {p : Place} {ρ ρ' : Env} (hm : matchPat w P t p .start ρ = some (some ρ')) :
    n = b ∧ ∃ u, read w p = some u ∧ inside u = some none := by
  unfold getNone at h
  cases P with
  | none =>
    cases h
    refine ⟨rfl, ?_⟩
    cases t with
    | opt t =>
      simp only [matchPat, follow, Option.bind_some] at hm
      cases hr : read w p with
      | none => rw [hr] at hm; cases hm
      | some u =>
        rw [hr] at hm
        cases u with
        | none => exact ⟨_, rfl, rfl⟩
        | _ => cases hm
    | res t e => simp [matchPat, follow] at hm
    | _ => simp [isOptRes] at ht
  | err q =>
    cases h
    refine ⟨rfl, ?_⟩
    cases t with
    | res t e =>
      simp only [matchPat, follow, Option.bind_some] at hm
      cases hr : read w p with
      | none => rw [hr] at hm; cases hm
      | some u =>
        rw [hr] at hm
        cases u with
        | err v => exact ⟨_, rfl, rfl⟩
        | _ => cases hm
    | opt t => simp [matchPat, follow] at hm
    | _ => simp [isOptRes] at ht
  | _ => simp at h

theorem getNone_body {a : Arm} {wild : Bool} {n : Body} (h : getNone a wild = some n) : n = a.body := by
  unfold getNone at h
  split at h
  · cases h; rfl
  · cases h; rfl
  · split at h
    · cases h; rfl
    · cases h
  · cases h

/-- What the two arms do. -/
theorem arms_unwrap {k : Nat} {w : S.W} {t : Ty} {p : Place} {ρ : Env} {P Q : Pat} {b c body n : Body} {x : Name}
    (h : someNone ⟨P, none, b⟩ ⟨Q, none, c⟩ = some (body, x, n)) (hP : subPat P = false) (hQ : subPat Q = false)
    (ht : isOptRes t = true) (hcov : covered w t p ρ [P, Q] = true) :
    ∃ u oi, read w p = some u ∧ inside u = some oi ∧
      ((oi = none ∧ ∃ ρ', runArms k t p ρ [⟨P, none, b⟩, ⟨Q, none, c⟩] w = evalBody k n ρ' w) ∨
        ∃ v, oi = some v ∧ runArms k t p ρ [⟨P, none, b⟩, ⟨Q, none, c⟩] w = evalBody k body (upd ρ x v) w) := by
  have second : (∃ y m, getNone ⟨P, none, b⟩ false = some m ∧ getSome Q = some y ∧ body = c ∧ x = y ∧ n = m) →
      ∃ u oi, read w p = some u ∧ inside u = some oi ∧
        ((oi = none ∧ ∃ ρ', runArms k t p ρ [⟨P, none, b⟩, ⟨Q, none, c⟩] w = evalBody k n ρ' w) ∨
          ∃ v, oi = some v ∧ runArms k t p ρ [⟨P, none, b⟩, ⟨Q, none, c⟩] w = evalBody k body (upd ρ x v) w) := by
    rintro ⟨y, m, h1, h2, rfl, rfl, rfl⟩
    rcases covered_two hcov with ⟨ρ1, m1⟩ | ⟨m1, ρ2, m2⟩
    · obtain ⟨rfl, u, hr, hi⟩ := none_arm h1 ht m1
      exact ⟨u, none, hr, hi, .inl ⟨rfl, ρ1, run_first m1⟩⟩
    · obtain ⟨u, oi, hr, hi, ho⟩ := some_arm h2 hQ ht m2
      cases oi with
      | none => cases ho
      | some v =>
        cases ho
        exact ⟨u, _, hr, hi, .inr ⟨v, rfl, run_second m1 m2⟩⟩
  unfold someNone at h
  simp only at h
  split at h
  · next x' n' h1 h2 =>
    cases h
    have hn : n = c := getNone_body h2
    subst hn
    rcases covered_two hcov with ⟨ρ1, m1⟩ | ⟨m1, ρ2, m2⟩
    · obtain ⟨u, oi, hr, hi, ho⟩ := some_arm h1 hP ht m1
      cases oi with
      | none => cases ho
      | some v =>
        cases ho
        exact ⟨u, _, hr, hi, .inr ⟨v, rfl, run_first m1⟩⟩
    · obtain ⟨u, oi, hr, hi, ho⟩ := some_arm h1 hP ht m1
      cases oi with
      | some v => cases ho
      | none => exact ⟨u, _, hr, hi, .inl ⟨rfl, ρ2, run_second m1 m2⟩⟩
  · split at h
    · next n' x' h1 h2 =>
      cases h
      exact second ⟨_, _, h1, h2, rfl, rfl, rfl⟩
    · cases h

/-- What `handle` accepts. -/
theorem handle_some {fa : UFacts} {s : Scrut} {body n : Body} {x : Name} {c : Call}
    (h : handle fa s body n x = some c) :
    peelBlocks body = .other (.var x) ∧ isOptRes s.fullTy = true ∧
      ((c = .unwrapOrDefault ∧ fa.isDefault (peelBlocks n) = true) ∨
        (c = .unwrapOr (peelBlocks n) ∧ fa.isConst n = true)) := by
  unfold handle at h
  split at h
  · cases h
  · split at h
    · next y hb =>
      split at h
      · next hy =>
        subst hy
        split at h
        · next hc =>
          simp only [Bool.and_eq_true] at hc
          cases h
          exact ⟨hb, hc.1.2, .inl ⟨rfl, hc.2⟩⟩
        · split at h
          · next hc =>
            simp only [Bool.and_eq_true] at hc
            cases h
            exact ⟨hb, hc.1.1, .inr ⟨rfl, hc.2⟩⟩
          · cases h
      · cases h
    · cases h

/-- Both forms of the code. -/
theorem check_unwrap {fa : UFacts} {s : Scrut} {f : Form} {c : Call} (h : checkUnwrap fa s f = some c) :
    ∃ P b Q e body x n n', f.arms = [⟨P, none, b⟩, ⟨Q, none, e⟩] ∧
      someNone ⟨P, none, b⟩ ⟨Q, none, e⟩ = some (body, x, n) ∧ peelBlocks body = .other (.var x) ∧
      isOptRes s.fullTy = true ∧ peelBlocks n' = peelBlocks n ∧
      ((c = .unwrapOrDefault ∧ fa.isDefault (peelBlocks n) = true) ∨
        (c = .unwrapOr (peelBlocks n) ∧ fa.isConst n' = true)) := by
  cases f with
  | ifLet p t e =>
    simp only [checkUnwrap, Option.bind_eq_some_iff] at h
    obtain ⟨x, hx, h⟩ := h
    obtain ⟨h1, h2, h3⟩ := handle_some h
    rw [peel_twice] at h1 h3
    refine ⟨p, t, .wild, e, t, x, e, peelBlocks e, rfl, ?_, h1, h2, peel_twice e, h3⟩
    simp [someNone, hx, getNone]
  | mtch as =>
    match as, h with
    | [⟨P, g1, b⟩, ⟨Q, g2, c'⟩], h =>
      simp only [checkUnwrap] at h
      split at h
      · next hg =>
        simp only [Bool.and_eq_true, Option.isNone_iff_eq_none] at hg
        obtain ⟨rfl, rfl⟩ := hg
        simp only [Option.bind_eq_some_iff] at h
        obtain ⟨⟨body, x, n⟩, hr, h⟩ := h
        obtain ⟨h1, h2, h3⟩ := handle_some h
        exact ⟨P, b, Q, c', body, x, n, n, rfl, hr, h1, h2, rfl, h3⟩
      · cases h
    | [], h => simp [checkUnwrap] at h
    | [_], h => simp [checkUnwrap] at h
    | _ :: _ :: _ :: _, h => simp [checkUnwrap] at h

/-- `manual_unwrap_or` and `manual_unwrap_or_default`: the call has the same value as the code.
Assumed: what counts as the default value is the default value, and constants are constant.  Missing:
patterns like `Some(x @ p)`, see `Witness.sub_pattern_changes`. -/
theorem unwrap_same_partial (k : Nat) (ρ : Env) (dflt : Val) (fa : UFacts) (s : Scrut) (f : Form) (c : Call)
    (h : checkUnwrap fa s f = some c) (hcov : Exhaustive S k ρ s f)
    (hsub : ∀ a ∈ f.arms, subPat a.pat = false)
    (hdef : ∀ b, fa.isDefault b = true → Always S k b dflt)
    (hconst : ∀ b, fa.isConst b = true → ∃ v, Always S k b v) :
    evalCall (S := S) k ρ dflt s c = evalForm k ρ s f := by
  obtain ⟨P, b, Q, e, body, x, n, n', harms, hsn, hbody, hty, hn, hc⟩ := check_unwrap h
  funext w
  unfold evalCall evalForm
  apply bind_run
  intro p w' hpl
  have hcv := hcov w p w' hpl
  rw [harms] at hcv hsub ⊢
  obtain ⟨u, oi, hr, hi, hcase⟩ := arms_unwrap (k := k) hsn (hsub ⟨P, none, b⟩ (by simp)) (hsub ⟨Q, none, e⟩ (by simp)) hty hcv
  have hv : ∃ v, Always S k n v ∧ (c = .unwrapOrDefault → v = dflt) ∧ (c = .unwrapOr (peelBlocks n) ∨ c = .unwrapOrDefault) := by
    rcases hc with ⟨rfl, h1⟩ | ⟨rfl, h1⟩
    · refine ⟨dflt, ?_, fun _ => rfl, .inr rfl⟩
      intro ρ w
      rw [← peel_body]
      exact hdef _ h1 ρ w
    · obtain ⟨v, hv⟩ := hconst _ h1
      refine ⟨v, ?_, (fun h => by cases h), .inl rfl⟩
      intro ρ w
      rw [← peel_body, ← hn, peel_body]
      exact hv ρ w
  obtain ⟨v, hal, hd, hcc⟩ := hv
  have hright : runArms k s.fullTy (borrow s.addrs p) ρ [⟨P, none, b⟩, ⟨Q, none, e⟩] w' = (.ok (oi.getD v), w') := by
    rcases hcase with ⟨rfl, ρ', hrun⟩ | ⟨z, rfl, hrun⟩
    · rw [hrun]; exact hal ρ' w'
    · rw [hrun, ← peel_body, hbody]
      simp only [evalBody, Ctrl.eval, Ctrl.M.pure, upd, if_true]
      rfl
  rw [hright]
  rcases hcc with rfl | rfl
  · simp only [hr, Option.bind_some, hi]
    have : evalBody (S := S) k (peelBlocks n) ρ w' = (.ok v, w') := by rw [peel_body]; exact hal ρ w'
    unfold Ctrl.M.bind
    rw [this]
    rfl
  · simp only [hr, Option.bind_some, hi, hd rfl]
    rfl

/-- `as_ref` or `as_mut`, as the type says. -/
def okErrAd (t : Ty) : Adaptor := if refCount t = 0 then .asIs else if refMut t then .asMut else .asRef

/-- The value that is passed on. -/
def carried (ad : Adaptor) (q : Place) (v : Val) : Val :=
  match ad with
  | .asIs => v
  | .asRef => .ref false (q.step .inner)
  | .asMut => .ref true (q.step .inner)

/-- The value of a variable inside of a constructor. -/
theorem carried_bind {w : S.W} {t t' : Ty} {p q : Place} {mo : Mode} {r : Ty} {v : Val} {x : Name} {ρ : Env}
    {o : Option Env} (hf : follow w t p .start = some (r, q, mo)) (hr : read w (q.step .inner) = some v)
    (hm : matchPat w (.bind ⟨none, false⟩ x) t' (q.step .inner) mo ρ = some o) :
    o = some (upd ρ x (carried (okErrAd t) q v)) := by
  obtain ⟨_, h2, h3, _⟩ := follow_end hf
  simp only [Mode.start, Bool.true_and, Bool.false_or] at h2 h3
  simp only [matchPat, bound] at hm
  by_cases hc : refCount t = 0
  · have hb : mo.byRef = false := by rw [h3, hc]; rfl
    rw [hb, hr] at hm
    simp only [Bool.false_eq_true, if_false] at hm
    split at hm
    · cases hm
      simp only [okErrAd, hc, if_true, carried]
      rfl
    · cases hm
  · have hb : mo.byRef = true := by rw [h3]; simpa using hc
    rw [hb] at hm
    cases hm
    simp only [okErrAd, hc, if_false]
    rw [h2]
    cases refMut t <;> rfl

/-- The arm with the variable. -/
theorem okErr_arm {w : S.W} {P : Pat} {isOk : Bool} {x : Name} (h : isOkErr P = some (isOk, x)) {t : Ty}
    {p : Place} {ρ : Env} {o : Option Env} (hm : matchPat w P t p .start ρ = some o) :
    ∃ t1 t2 q mo v b, follow w t p .start = some (.res t1 t2, q, mo) ∧
      read w q = some (if b then .ok v else .err v) ∧
      o = if b = isOk then some (upd ρ x (carried (okErrAd t) q v)) else none := by
  unfold isOkErr at h
  split at h
  · cases h
    simp only [matchPat] at hm
    cases hf : follow w t p .start with
    | none => rw [hf] at hm; cases hm
    | some r =>
      obtain ⟨t1, q, mo⟩ := r
      rw [hf] at hm
      simp only [Option.bind_some] at hm
      cases t1 with
      | res t1 t2 =>
        cases hr : read w q with
        | none => rw [hr] at hm; cases hm
        | some u =>
          rw [hr] at hm
          cases u with
          | ok v =>
            refine ⟨t1, t2, q, mo, v, true, rfl, hr, ?_⟩
            exact carried_bind (t' := t1) hf (by rw [read_step, hr]; rfl) hm
          | err v => cases hm; exact ⟨t1, t2, q, mo, v, false, rfl, hr, rfl⟩
          | _ => cases hm
      | _ => cases hm
  · cases h
    simp only [matchPat] at hm
    cases hf : follow w t p .start with
    | none => rw [hf] at hm; cases hm
    | some r =>
      obtain ⟨t1, q, mo⟩ := r
      rw [hf] at hm
      simp only [Option.bind_some] at hm
      cases t1 with
      | res t1 t2 =>
        cases hr : read w q with
        | none => rw [hr] at hm; cases hm
        | some u =>
          rw [hr] at hm
          cases u with
          | err v =>
            refine ⟨t1, t2, q, mo, v, false, rfl, hr, ?_⟩
            exact carried_bind (t' := t2) hf (by rw [read_step, hr]; rfl) hm
          | ok v => cases hm; exact ⟨t1, t2, q, mo, v, true, rfl, hr, rfl⟩
          | _ => cases hm
      | _ => cases hm
  · cases h

/-- A first arm that is for one of the two only. -/
theorem variant_arm {w : S.W} {P : Pat} {isOk : Bool} (h : isVariant false isOk P = true) {t t1 t2 : Ty}
    {p q : Place} {mo mo' : Mode} {v : Val} {b : Bool} {ρ ρ' : Env}
    (hf : follow w t p mo = some (.res t1 t2, q, mo')) (hr : read w q = some (if b then .ok v else .err v))
    (hm : matchPat w P t p mo ρ = some (some ρ')) : b ≠ isOk := by
  induction P generalizing t p mo mo' ρ with
  | bindAt b' x P ih =>
    simp only [matchPat, Option.bind_eq_some_iff] at hm
    obtain ⟨u, _, hm⟩ := hm
    exact ih h hf hm
  | ref m P ih =>
    cases t with
    | ref m' t =>
      simp only [matchPat] at hm
      split at hm
      · split at hm
        · next p' hp =>
          simp only [follow, hp] at hf
          obtain ⟨mo'', hf'⟩ := follow_mode hf ⟨false, mo.mt && m⟩
          exact ih h hf' hm
        · cases hm
      · cases hm
    | _ => simp [matchPat] at hm
  | ok P _ =>
    simp only [matchPat, hf, Option.bind_some, hr] at hm
    have : isOk = false := by simpa [isVariant] using h
    subst this
    cases b with
    | true => exact fun h => by cases h
    | false => cases hm
  | err P _ =>
    simp only [matchPat, hf, Option.bind_some, hr] at hm
    have : isOk = true := by simpa [isVariant] using h
    subst this
    cases b with
    | false => exact fun h => by cases h
    | true => cases hm
  | some P _ => simp [matchPat, hf] at hm
  | someRest => simp [matchPat, hf] at hm
  | _ => simp [isVariant] at h

theorem receiver_res {w : S.W} {t t1 t2 : Ty} {p q : Place} {mo : Mode} {v : Val} {b : Bool}
    (hf : follow w t p .start = some (.res t1 t2, q, mo)) (hr : read w q = some (if b then .ok v else .err v))
    (ad : Adaptor) : receiverRes w t p ad = some (b, carried ad q v) := by
  cases b with
  | true => simp only [receiverRes, hf, Option.bind_some, hr, if_true]; cases ad <;> rfl
  | false => simp only [receiverRes, hf, Option.bind_some, hr, Bool.false_eq_true, if_false]; cases ad <;> rfl

theorem okErrArm_some {fa : UFacts} {a : Arm} {isOk : Bool} (h : okErrArm fa a = some isOk) :
    ∃ x, isOkErr a.pat = some (isOk, x) ∧
      ∀ {S : Sem} (k : Nat) (ρ : Env), evalBody (S := S) k a.body ρ = Ctrl.M.pure (.some (ρ x)) := by
  unfold okErrArm at h
  split at h
  · next o x hp =>
    split at h
    · next hs =>
      cases h
      refine ⟨x, hp, ?_⟩
      intro S k ρ
      rw [← peel_body]
      unfold isSomeIdent at hs
      split at hs
      · next y hb =>
        simp only [Bool.and_eq_true, beq_iff_eq] at hs
        rw [hb, hs.2]
        rfl
      · cases hs
    · cases h
  · cases h

/-- Both forms of the code. -/
theorem check_okErr {fa : UFacts} {s : Scrut} {f : Form} {c : Call} (h : checkOkErr fa s f = some c) :
    ∃ P b Q e isOk, f.arms = [⟨P, none, b⟩, ⟨Q, none, e⟩] ∧ c = okErrCall s isOk ∧
      ((okErrArm fa ⟨P, none, b⟩ = some isOk ∧ isNoneBody e = true) ∨
        (okErrArm fa ⟨Q, none, e⟩ = some isOk ∧ isVariant false isOk P = true ∧ isNoneBody b = true)) := by
  cases f with
  | ifLet p t e =>
    simp only [checkOkErr] at h
    split at h
    · next isOk ho =>
      split at h
      · next hn => cases h; exact ⟨p, t, .wild, e, isOk, rfl, rfl, .inl ⟨ho, hn⟩⟩
      · cases h
    · cases h
  | mtch as =>
    match as, h with
    | [⟨P, g1, b⟩, ⟨Q, g2, e⟩], h =>
      simp only [checkOkErr] at h
      split at h
      · next hg =>
        simp only [Bool.and_eq_true, Option.isNone_iff_eq_none] at hg
        obtain ⟨rfl, rfl⟩ := hg
        split at h
        · next isOk ho =>
          split at h
          · next hn =>
            simp only [Bool.and_eq_true] at hn
            cases h
            exact ⟨P, b, Q, e, isOk, rfl, rfl, .inl ⟨ho, hn.2⟩⟩
          · cases h
        · split at h
          · next isOk ho =>
            split at h
            · next hn =>
              simp only [Bool.and_eq_true] at hn
              cases h
              exact ⟨P, b, Q, e, isOk, rfl, rfl, .inr ⟨ho, hn⟩⟩
            · cases h
          · cases h
      · cases h
    | [], h => simp [checkOkErr] at h
    | [_], h => simp [checkOkErr] at h
    | _ :: _ :: _ :: _, h => simp [checkOkErr] at h

/-- `manual_ok_err`: the call of `ok` or `err` does the same as the code it replaces. -/
theorem okErr_same (k : Nat) (ρ : Env) (dflt : Val) (fa : UFacts) (s : Scrut) (f : Form) (c : Call)
    (h : checkOkErr fa s f = some c) (hcov : Exhaustive S k ρ s f) :
    evalCall (S := S) k ρ dflt s c = evalForm k ρ s f := by
  obtain ⟨P, b, Q, e, isOk, harms, rfl, hcase⟩ := check_okErr h
  funext w
  unfold evalCall evalForm
  apply bind_run
  intro p w' hpl
  have hcv := hcov w p w' hpl
  rw [harms] at hcv ⊢
  have key : ∃ t1 t2 q mo v b', follow w' s.fullTy (borrow s.addrs p) .start = some (.res t1 t2, q, mo) ∧
      read w' q = some (if b' then .ok v else .err v) ∧
      runArms (S := S) k s.fullTy (borrow s.addrs p) ρ [⟨P, none, b⟩, ⟨Q, none, e⟩] w' =
        (.ok (if b' = isOk then .some (carried (okErrAd s.fullTy) q v) else .none), w') := by
    rcases hcase with ⟨ho, hn⟩ | ⟨ho, hv, hn⟩
    · obtain ⟨x, hp, hb⟩ := okErrArm_some ho
      rcases covered_two hcv with ⟨ρ1, m1⟩ | ⟨m1, ρ2, m2⟩
      · obtain ⟨t1, t2, q, mo, v, b', h1, h2, h3⟩ := okErr_arm hp m1
        refine ⟨t1, t2, q, mo, v, b', h1, h2, ?_⟩
        rw [run_first m1]
        by_cases hbo : b' = isOk
        · rw [if_pos hbo] at h3 ⊢
          cases h3
          have := hb (S := S) k (upd ρ x (carried (okErrAd s.fullTy) q v))
          simp only at this
          rw [this]
          simp only [upd, if_true]
          rfl
        · rw [if_neg hbo] at h3; cases h3
      · obtain ⟨t1, t2, q, mo, v, b', h1, h2, h3⟩ := okErr_arm hp m1
        refine ⟨t1, t2, q, mo, v, b', h1, h2, ?_⟩
        rw [run_second m1 m2, none_body hn]
        by_cases hbo : b' = isOk
        · rw [if_pos hbo] at h3; cases h3
        · rw [if_neg hbo]; rfl
    · obtain ⟨x, hp, hb⟩ := okErrArm_some ho
      rcases covered_two hcv with ⟨ρ1, m1⟩ | ⟨m1, ρ2, m2⟩
      · obtain ⟨o, hq⟩ := covered_fits hcv
        obtain ⟨t1, t2, q, mo, v, b', h1, h2, h3⟩ := okErr_arm hp hq
        refine ⟨t1, t2, q, mo, v, b', h1, h2, ?_⟩
        have := variant_arm hv h1 h2 m1
        rw [run_first m1, none_body hn, if_neg this]
        rfl
      · obtain ⟨t1, t2, q, mo, v, b', h1, h2, h3⟩ := okErr_arm hp m2
        refine ⟨t1, t2, q, mo, v, b', h1, h2, ?_⟩
        rw [run_second m1 m2]
        by_cases hbo : b' = isOk
        · rw [if_pos hbo] at h3 ⊢
          cases h3
          have := hb (S := S) k (upd ρ x (carried (okErrAd s.fullTy) q v))
          simp only at this
          rw [this]
          simp only [upd, if_true]
          rfl
        · rw [if_neg hbo] at h3; cases h3
  obtain ⟨t1, t2, q, mo, v, b', h1, h2, hrun⟩ := key
  rw [hrun]
  have hcall : okErrCall s isOk = if isOk then .ok (okErrAd s.fullTy) else .err (okErrAd s.fullTy) := rfl
  rw [hcall]
  cases isOk with
  | true =>
    simp only [if_true, receiver_res h1 h2]
    cases b' <;> rfl
  | false =>
    simp only [Bool.false_eq_true, if_false, receiver_res h1 h2]
    cases b' <;> rfl

end Verif.OptMatch
