import Verif.TryOp.Model
import Verif.TryOp.Spec

/-!
# `question_mark` keeps what the code does
-/

namespace Verif.TryOp

theorem same_rfl {W : Type} (u t : Bool) (a : Out × W) : Same u t a a := ⟨rfl, rfl⟩

theorem same_of_eq {W : Type} {u t : Bool} {a b : Out × W} (h : a = b) : Same u t a b := by
  rw [h]; exact same_rfl u t b

/-! ## Bodies -/

theorem valued_none {S : Sem} {b : Body} (hv : Valued b) (h : returnsNone b = true) (env : Env) (w : S.W) :
    runBody S b env w = (.val .none, w) ∨ runBody S b env w = (.ret .none, w) := by
  induction hv with
  | none => exact .inl rfl
  | var | errOf | errInto | src | other => exact absurd h (by simp [returnsNone])
  | ret _ ih =>
    rcases ih h with e | e <;> exact .inr (by simp [runBody, e, Out.toRet])
  | blk _ ih => exact ih h

theorem leaves_none {S : Sem} {b : Body} (hl : Leaves b) (h : returnsNone b = true) (env : Env) (w : S.W) :
    runBody S b env w = (.ret .none, w) := by
  induction hl with
  | ret hv =>
    rcases valued_none (S := S) hv h env w with e | e <;> simp [runBody, e, Out.toRet]
  | blk _ ih => exact ih h
  | semi _ ih => simp [runBody, ih h, Out.drop]

theorem is_none {S : Sem} {b : Body} (hl : IsNone b) (env : Env) (w : S.W) :
    runBody S b env w = (.val .none, w) := by
  induction hl with
  | none => rfl
  | blk _ ih => exact ih

theorem is_var {S : Sem} {x : Name} {b : Body} (hl : IsVar x b) (env : Env) (w : S.W) :
    runBody S b env w = (.val (env x), w) := by
  induction hl with
  | var => rfl
  | blk _ ih => exact ih

theorem isVar_of {x : Name} : ∀ {b : Body}, isVar x (peel b) = true → IsVar x b
  | .var y, h => by
    have : y = x := by simpa [peel, isVar] using h
    rw [this]; exact .var
  | .blk b, h => .blk (isVar_of (b := b) h)
  | .none, h | .errOf _, h | .errInto _, h | .src _, h | .ret _, h | .semi _, h | .other _, h => by
    simp [peel, isVar] at h

theorem valued_err {S : Sem} {fa : Facts} {s : Src} {err : Option Name} {env : Env} {w : S.W} {v0 : Val}
    (he : ∀ x, err = some x → Val.err (env x) = v0)
    (hs : fa.isLocal s = true → evalSrc S s w = (v0, w)) {b : Body} (hv : Valued b) :
    ∀ {d : Bool}, returnsErr fa s err d b = true →
      runBody S b env w = (.val v0, w) ∨ runBody S b env w = (.ret v0, w) := by
  induction hv with
  | none | var | errInto | other => intro d h; exact absurd h (by simp [returnsErr])
  | errOf x =>
    intro d h
    have : err = some x := by simpa [returnsErr] using h
    exact .inl (by simp [runBody, he x this])
  | src s' =>
    intro d h
    simp only [returnsErr, Bool.and_eq_true, decide_eq_true_eq] at h
    obtain ⟨_, hl, rfl⟩ := h
    exact .inl (by simp [runBody, hs hl])
  | ret _ ih =>
    intro d h
    rcases ih h with e | e <;> exact .inr (by simp [runBody, e, Out.toRet])
  | blk _ ih => intro d h; exact ih h

theorem leaves_err {S : Sem} {fa : Facts} {s : Src} {err : Option Name} {env : Env} {w : S.W} {v0 : Val}
    (he : ∀ x, err = some x → Val.err (env x) = v0)
    (hs : fa.isLocal s = true → evalSrc S s w = (v0, w)) {b : Body} (hl : Leaves b) :
    ∀ {d : Bool}, returnsErr fa s err d b = true → runBody S b env w = (.ret v0, w) := by
  induction hl with
  | ret hv =>
    intro d h
    rcases valued_err (S := S) he hs hv h with e | e <;> simp [runBody, e, Out.toRet]
  | blk _ ih => intro d h; exact ih h
  | semi _ ih => intro d h; simp [runBody, ih h, Out.drop]

theorem noErr {fa : Facts} {s : Src} {err : Option Name} {b : Body} (hn : NoErrOf b) :
    ∀ {d : Bool}, returnsErr fa s err d b = returnsErr fa s none d b := by
  induction hn with
  | src => intro d; rfl
  | ret _ ih | blk _ ih | semi _ ih => intro d; exact ih

theorem leaves_of {b : Body} (ht : Typed b) (h : isRet (peelStmt b) = true) : Leaves b := by
  induction ht with
  | valued hv =>
    induction hv with
    | ret hv _ => exact .ret hv
    | blk _ ih => exact .blk (ih h)
    | none | var | errOf | errInto | src | other => exact absurd h (by simp [peelStmt, isRet])
  | blk _ ih => exact .blk (ih h)
  | semi _ ih => exact .semi (ih h)

theorem retNone_run {S : Sem} : ∀ {b : Body} (env : Env) (w : S.W), retNone (peel b) = true →
    runBody S b env w = (.ret .none, w)
  | .blk b, env, w, h => retNone_run (b := b) env w h
  | .ret .none, _, _, _ => rfl
  | .ret (.var _), _, _, h | .ret (.errOf _), _, _, h | .ret (.errInto _), _, _, h | .ret (.src _), _, _, h
  | .ret (.ret _), _, _, h | .ret (.blk _), _, _, h | .ret (.semi _), _, _, h | .ret (.other _), _, _, h
  | .none, _, _, h | .var _, _, _, h | .errOf _, _, _, h | .errInto _, _, _, h | .src _, _, _, h
  | .semi _, _, _, h | .other _, _, _, h => by simp [peel, retNone] at h

theorem kindOf_eq {fa : Facts} {s : Src} {k : Kind} (h : kindOf fa s = k) (hk : k ≠ .other) :
    fa.isRef s = false ∧ fa.kind s = k := by
  unfold kindOf at h
  cases hr : fa.isRef s with
  | true => rw [hr] at h; exact absurd h.symm hk
  | false => rw [hr] at h; exact ⟨rfl, h⟩

theorem opt_cases {fa : Facts} {S : Sem} (ok : FactsOk fa S) {s : Src} (hr : fa.isRef s = false)
    (hk : fa.kind s = .option) (w : S.W) :
    (∃ v, evalSrc S s w = (.some v, (evalSrc S s w).2)) ∨ evalSrc S s w = (.none, (evalSrc S s w).2) := by
  have := ok.kind s w hr
  rw [hk] at this
  generalize evalSrc S s w = p at this
  obtain ⟨v, w'⟩ := p
  cases this with
  | some v => exact .inl ⟨v, rfl⟩
  | none => exact .inr rfl

theorem res_cases {fa : Facts} {S : Sem} (ok : FactsOk fa S) {s : Src} (hr : fa.isRef s = false)
    (hk : fa.kind s = .result) (w : S.W) :
    (∃ v, evalSrc S s w = (.ok v, (evalSrc S s w).2)) ∨ ∃ v, evalSrc S s w = (.err v, (evalSrc S s w).2) := by
  have := ok.kind s w hr
  rw [hk] at this
  generalize evalSrc S s w = p at this
  obtain ⟨v, w'⟩ := p
  cases this with
  | ok v => exact .inl ⟨v, rfl⟩
  | err v => exact .inr ⟨v, rfl⟩

/-- A local variable is still the same after it was read. -/
theorem local_again {fa : Facts} {S : Sem} (ok : FactsOk fa S) {s : Src} {w w' : S.W} {v : Val}
    (h : evalSrc S s w = (v, w')) (hl : fa.isLocal s = true) : evalSrc S s w' = (v, w') := by
  obtain ⟨n, rfl⟩ := ok.local_ s hl
  simp only [evalSrc, Prod.mk.injEq] at h ⊢
  obtain ⟨h1, rfl⟩ := h
  exact ⟨h1, trivial⟩

theorem sameExpr_run {fa : Facts} {S : Sem} (ok : FactsOk fa S) {s : Src} {w w' : S.W} {v : Val}
    (h : evalSrc S s w = (v, w')) (env : Env) : ∀ {b : Body}, sameExpr fa s (peel b) = true →
    runBody S b env w' = (.val v, w')
  | .blk b, hb => sameExpr_run ok h env (b := b) hb
  | .src s', hb => by
    simp only [peel, sameExpr, Bool.and_eq_true, decide_eq_true_eq] at hb
    obtain ⟨rfl, hp⟩ := hb
    have := ok.pure s' w hp
    rw [h] at this
    simp only at this
    subst this
    simp [runBody, h]
  | .none, hb | .var _, hb | .errOf _, hb | .errInto _, hb | .ret _, hb | .semi _, hb | .other _, hb => by
    simp [peel, sameExpr] at hb

/-! ## `if s.is_none()` and `if s.is_err()` -/

/-- `if s.is_none() { return None; }` is `s?;`, and with `else { s }` it is `Some(s?)`.  Partial: the first
branch must leave the function, or be `None` at the end of the function; a result must be `Copy` and have no
`else`, and its error is returned as it is. -/
theorem is_same_partial {fa : Facts} {S : Sem} (ok : FactsOk fa S) {s : Src} {m : Method} {t : Body}
    {e : Option Body} {ed : Edit} {unused tail : Bool}
    (h : check fa (.ifIs s m t e) = some ed)
    (hl : Leaves t ∨ (tail = true ∧ e.isSome = true ∧ IsNone t ∧ unused = false))
    (hr : fa.kind s = .result → Leaves t ∧ e = none ∧ fa.copy s = true ∧ ∀ v, S.conv v = v)
    (env : Env) (w : S.W) :
    Same unused tail (runCode S (.ifIs s m t e) env w) (runEdit S ed env w) := by
  simp only [check, checkIs] at h
  by_cases hc : (!fa.elseClause && earlyIs fa s m t) = true
  · rw [if_pos hc] at h
    simp only [Bool.and_eq_true, earlyIs, Bool.or_eq_true, decide_eq_true_eq] at hc
    rcases hc.2 with ⟨hk, hn, rfl⟩ | ⟨hk, hn, rfl⟩
    · obtain ⟨hf, hk⟩ := kindOf_eq hk (by decide)
      rcases opt_cases ok hf hk w with ⟨v, hv⟩ | hv
      · -- a value
        cases e with
        | none =>
          cases h
          apply same_of_eq
          simp only [runCode, runEdit, runTry, if_true]
          rw [hv]
          rfl
        | some e =>
          simp only [isEdit] at h
          by_cases hs : sameExpr fa s (peel e) = true
          · rw [if_pos hs] at h
            cases h
            apply same_of_eq
            have := sameExpr_run ok hv env hs
            simp only [runCode, runEdit, runTry]
            rw [hv]
            simp only [test, runTest, runElse, this, tryVal, adapt, Out.mapSome]
          · rw [if_neg hs] at h; cases h
      · -- `None`
        have hfirst : see unused tail (runBody S t env (evalSrc S s w).2).1 = .ret .none ∧
            (runBody S t env (evalSrc S s w).2).2 = (evalSrc S s w).2 := by
          rcases hl with hl | ⟨rfl, _, hl, rfl⟩
          · rw [leaves_none hl hn]; exact ⟨rfl, rfl⟩
          · rw [is_none hl]; exact ⟨rfl, rfl⟩
        cases e with
        | none =>
          cases h
          simp only [runCode, runEdit, runTry, if_true]
          rw [hv] at hfirst ⊢
          exact ⟨hfirst.1, hfirst.2⟩
        | some e =>
          simp only [isEdit] at h
          by_cases hs : sameExpr fa s (peel e) = true
          · rw [if_pos hs] at h
            cases h
            simp only [runCode, runEdit, runTry]
            rw [hv] at hfirst ⊢
            exact ⟨hfirst.1, hfirst.2⟩
          · rw [if_neg hs] at h; cases h
    · obtain ⟨hf, hk⟩ := kindOf_eq hk (by decide)
      obtain ⟨hleave, rfl, hcopy, hconv⟩ := hr hk
      have hb : byRef fa s = none := by simp [byRef, hcopy]
      cases h
      apply same_of_eq
      simp only [runCode, runEdit, runTry, if_true, hb]
      rcases res_cases ok hf hk w with ⟨v, hv⟩ | ⟨v, hv⟩
      · rw [hv]; rfl
      · have := leaves_err (S := S) (fa := fa) (s := s) (err := none) (env := env)
          (fun x h => by cases h) (local_again ok hv) hleave hn
        rw [hv]
        simp only [test, runTest, this, tryVal, adapt, hconv, Out.drop]
  · rw [if_neg hc] at h; cases h

/-! ## `if let` -/

theorem match_none {S : Sem} {l : Loc} {w : S.W} {env : Env} {q : Inner} :
    matchPat S l .none w env (.ctor .some q) = none := rfl

/-- `if let Some(x) = s { … } else { return None }` is `s?` or `{ let x = s?; … }`; `if let Err(e) = s { return
Err(e); }` is `s?;`.  Partial: the variable is not `ref`, unless it is all there is; for a result the branch with
the error must leave the function and not use a variable from outside, the other one must be the variable, and
the error is returned as it is. -/
theorem if_let_same_partial {fa : Facts} {S : Sem} (ok : FactsOk fa S) {c : Ctor} {b : Bind} {s : Src} {t : Body}
    {e : Option Body} {ed : Edit} {unused tail : Bool}
    (h : check fa (.ifLet (.ctor c (.bind b)) s t e) = some ed)
    (hu : fa.needsSemi = true → unused = true)
    (hunit : e = none → fa.needsSemi = true)
    (ht : fa.kind s = .option → ∀ e', e = some e' → Typed e')
    (href : b.ref = none ∨ fa.kind s = .option ∧ IsVar b.x t)
    (hok : fa.kind s = .result → ∀ e', e = some e' → Leaves e' ∧ NoErrOf e' ∧ IsVar b.x t)
    (herr : fa.kind s = .result → e = none → Leaves t)
    (hconv : fa.kind s = .result → ∀ v, S.conv v = v)
    (env : Env) (w : S.W) :
    Same unused tail (runCode S (.ifLet (.ctor c (.bind b)) s t e) env w) (runEdit S ed env w) := by
  simp only [check, checkIfLet, ifLetEdit] at h
  by_cases h1 : (!(earlyOption fa c s e || earlyResult fa c s b.x t e)) = true
  · rw [if_pos h1] at h; cases h
  rw [if_neg h1] at h
  by_cases h2 : optAny (fun e => sameExpr fa s (peel e)) e = true
  · rw [if_pos h2] at h; cases h
  rw [if_neg h2] at h
  by_cases h3 : (earlyOption fa c s e && optAny (fun e => !isRet (peelStmt e)) e) = true
  · rw [if_pos h3] at h; cases h
  rw [if_neg h3] at h
  cases ho : earlyOption fa c s e with
  | true =>
    rw [ho] at h h3
    simp only [earlyOption, Bool.and_eq_true, decide_eq_true_eq] at ho
    obtain ⟨hk, rfl, hn⟩ := ho
    obtain ⟨hf, hk⟩ := kindOf_eq hk (by decide)
    cases e with
    | none => cases hn
    | some e' =>
      have hret : isRet (peelStmt e') = true := by
        cases hx : isRet (peelStmt e') with
        | true => rfl
        | false => simp [optAny, hx] at h3
      have hl := leaves_of (ht hk e' rfl) hret
      have hn : returnsNone e' = true := hn
      by_cases hv : isVar b.x (peel t) = true
      · rw [if_pos (by simp [hv])] at h
        cases h
        have hvar := isVar_of hv
        rcases opt_cases ok hf hk w with ⟨v, hs⟩ | hs
        · have hrun : runCode S (.ifLet (.ctor .some (.bind b)) s t (some e')) env w =
              (.val (bindVal none b.ref (locOf s) v), (evalSrc S s w).2) := by
            simp only [runCode]
            rw [hs]
            simp only [matchPat, matchAt, bindInner, runBranch]
            rw [is_var hvar]
            simp [Env.set]
          have had : adapt b.ref (locOf s) v = bindVal none b.ref (locOf s) v := by
            cases b.ref <;> rfl
          rw [hrun]
          simp only [runEdit, runTry]
          rw [hs]
          simp only [tryVal, had]
          cases hsemi : fa.needsSemi with
          | true =>
            rw [hu hsemi]
            exact ⟨rfl, rfl⟩
          | false => exact same_rfl _ _ _
        · apply same_of_eq
          simp only [runCode, runEdit, runTry]
          rw [hs]
          simp only [match_none, runBranch, runElse, leaves_none hl hn, tryVal, Out.drop, ite_self]
      · rw [if_neg (by simp [hv])] at h
        cases h
        have hb : b.ref = none := by
          rcases href with h | h
          · exact h
          · exfalso
            apply hv
            clear h3 hret hl hn hu ht hok herr hconv hv h1 h2 hunit
            obtain ⟨_, h⟩ := h
            induction h with
            | var => simp [peel, isVar]
            | blk _ ih => exact ih
        apply same_of_eq
        simp only [runCode, runEdit, runTry]
        rcases opt_cases ok hf hk w with ⟨v, hs⟩ | hs
        · rw [hs]
          simp only [matchPat, matchAt, bindInner, runBranch, tryVal, adapt, runLet, runRest, hb, bindVal]
        · rw [hs]
          simp only [match_none, runBranch, runElse, leaves_none hl hn, tryVal, runLet]
  | false =>
    rw [ho] at h h1
    rw [if_pos (by simp)] at h
    cases h
    have hres : earlyResult fa c s b.x t e = true := by
      cases hx : earlyResult fa c s b.x t e with
      | true => rfl
      | false => simp [hx] at h1
    simp only [earlyResult, Bool.and_eq_true, Bool.or_eq_true, decide_eq_true_eq] at hres
    obtain ⟨hk, hres⟩ := hres
    obtain ⟨hf, hk⟩ := kindOf_eq hk (by decide)
    have hb : b.ref = none := by
      rcases href with h | h
      · exact h
      · rw [hk] at h; cases h.1
    have hc := hconv hk
    rcases hres with ⟨rfl, hres⟩ | ⟨rfl, hres, hnone⟩
    · cases e with
      | none => cases hres
      | some e' =>
        have hres : returnsErr fa s (some b.x) true e' = true := hres
        obtain ⟨hl, hn, hvar⟩ := hok hk e' rfl
        rw [noErr hn] at hres
        simp only [runCode, runEdit, runTry, hb]
        rcases res_cases ok hf hk w with ⟨v, hs⟩ | ⟨v, hs⟩
        · rw [hs]
          simp only [matchPat, matchAt, bindInner, runBranch, is_var hvar, tryVal, adapt, hb, bindVal, Env.set,
            if_true]
          cases hsemi : fa.needsSemi with
          | true => rw [hu hsemi]; exact ⟨rfl, rfl⟩
          | false => exact same_rfl _ _ _
        · have := leaves_err (S := S) (fa := fa) (s := s) (err := none) (env := env)
            (fun x h => by cases h) (local_again ok hs) hl hres
          apply same_of_eq
          rw [hs]
          simp only [matchPat, matchAt, runBranch, runElse, this, tryVal, adapt, hc, Out.drop, ite_self]
    · cases e with
      | some _ => cases hnone
      | none =>
        have hl := herr hk rfl
        apply same_of_eq
        simp only [runCode, runEdit, runTry, hb, hunit rfl, if_true]
        rcases res_cases ok hf hk w with ⟨v, hs⟩ | ⟨v, hs⟩
        · rw [hs]; rfl
        · have := leaves_err (S := S) (fa := fa) (s := s) (err := some b.x) (env := env.set b.x v)
            (fun x h => by cases h; simp [Env.set]) (local_again ok hs) hl hres
          rw [hs]
          simp only [matchPat, matchAt, bindInner, runBranch, hb, bindVal, this, tryVal, adapt, hc, Out.drop]

/-! ## `match` -/

theorem retErr_run {S : Sem} {x : Name} : ∀ {b : Body} (env : Env) (w : S.W), retErr x (peel b) = true →
    ((∀ v, S.conv v = v) ∨ Into b) → runBody S b env w = (.ret (.err (S.conv (env x))), w)
  | .blk b, env, w, h, hc => retErr_run (b := b) env w h
      (hc.elim .inl fun h => .inr (by cases h with | blk h => exact h))
  | .ret (.errOf y), env, w, h, hc => by
    have hy : y = x := by simpa [peel, retErr] using h
    rcases hc with hc | hc
    · simp [runBody, Out.toRet, hc, hy]
    · cases hc with | ret hc => cases hc
  | .ret (.errInto y), env, w, h, _ => by
    have hy : y = x := by simpa [peel, retErr] using h
    simp [runBody, Out.toRet, hy]
  | .ret .none, _, _, h, _ | .ret (.var _), _, _, h, _ | .ret (.src _), _, _, h, _ | .ret (.ret _), _, _, h, _
  | .ret (.blk _), _, _, h, _ | .ret (.semi _), _, _, h, _ | .ret (.other _), _, _, h, _
  | .none, _, _, h, _ | .var _, _, _, h, _ | .errOf _, _, _, h, _ | .errInto _, _, _, h, _
  | .src _, _, _, h, _ | .semi _, _, _, h, _ | .other _, _, _, h, _ => by simp [peel, retErr] at h

/-- What an arm does: it takes `Some` and `Ok`, or it returns `None` and the error. -/
theorem happy_run {k : Kind} {a : Arm} {b : Bind} (h : happyArm k a = some b) (hb : ByValue a.pat) :
    a.guard = false ∧ b.ref = none ∧
      ((k = .option ∧ a.pat = .ctor .some (.bind b)) ∨ (k = .result ∧ a.pat = .ctor .ok (.bind b))) := by
  unfold happyArm at h
  split at h
  · next c b' hp =>
    by_cases hg : (!a.guard && happyCtor k c) = true
    · rw [if_pos hg] at h
      cases h
      simp only [Bool.and_eq_true, Bool.not_eq_true'] at hg
      refine ⟨hg.1, hb c b hp, ?_⟩
      cases k <;> cases c <;> simp [happyCtor] at hg
      · exact .inl ⟨rfl, hp⟩
      · exact .inr ⟨rfl, hp⟩
    · rw [if_neg hg] at h; cases h
  · cases h

theorem sad_cases {k : Kind} {a : Arm} (h : sadArm k a = true) :
    a.guard = false ∧ ((k = .option ∧ a.pat = .none ∧ retNone (peel a.body) = true) ∨
      ∃ b, k = .result ∧ a.pat = .ctor .err (.bind b) ∧ retErr b.x (peel a.body) = true) := by
  simp only [sadArm, Bool.and_eq_true, Bool.not_eq_true'] at h
  refine ⟨h.1, ?_⟩
  have h := h.2
  unfold sadPat at h
  split at h
  · exact .inr ⟨_, rfl, by assumption, h⟩
  · exact .inl ⟨rfl, by assumption, h⟩
  · cases h

/-- What a match with such arms does, in both orders. -/
theorem arms_run {S : Sem} {l : Loc} {v : Val} {env : Env} {w : S.W} {a s : Arm} {b : Bind} {k : Kind}
    (ha : happyArm k a = some b) (hba : ByValue a.pat) (hs : sadArm k s = true) (hbs : ByValue s.pat)
    (hc : (∀ v, S.conv v = v) ∨ Converts s) (hv : HasKind k v) :
    runArms S l v env w [a, s] = runLet S (.bind b) a.body env (tryVal S id v, w) ∧
      runArms S l v env w [s, a] = runLet S (.bind b) a.body env (tryVal S id v, w) := by
  obtain ⟨hga, hb, ha⟩ := happy_run ha hba
  obtain ⟨hgs, hs⟩ := sad_cases hs
  rcases ha with ⟨rfl, hpa⟩ | ⟨rfl, hpa⟩
  · rcases hs with ⟨_, hps, hs⟩ | ⟨_, hk, _⟩
    · cases hv with
      | some v =>
        constructor <;>
        simp [runArms, hpa, hps, matchPat, matchAt, bindInner, hga, tryVal, runLet, runRest, hb, bindVal]
      | none =>
        have := fun env => retNone_run (S := S) (b := s.body) env w hs
        constructor <;>
        simp [runArms, hpa, hps, matchPat, matchAt, hgs, tryVal, runLet, this]
    · cases hk
  · rcases hs with ⟨hk, _⟩ | ⟨b', _, hps, hs⟩
    · cases hk
    · have hb' : b'.ref = none := hbs _ _ hps
      have hc : (∀ v, S.conv v = v) ∨ Into s.body := by
        rcases hc with h | h
        · exact .inl h
        · exact .inr (h _ hps)
      cases hv with
      | ok v =>
        constructor <;>
        simp [runArms, hpa, hps, matchPat, matchAt, bindInner, hga, tryVal, runLet, runRest, hb, bindVal]
      | err v =>
        have := fun env => retErr_run (S := S) (b := s.body) env w hs hc
        constructor <;>
        simp [runArms, hpa, hps, matchPat, matchAt, bindInner, hgs, tryVal, runLet, this, hb', bindVal, Env.set]

/-- What the suggestion does. -/
theorem tryEdit_run {S : Sem} {s : Src} {b : Bind} {body : Body} (hb : b.ref = none) (env : Env) (w : S.W) :
    runEdit S (tryEdit (.src s) b body) env w =
      runLet S (.bind b) body env (tryVal S id (evalSrc S s w).1, (evalSrc S s w).2) := by
  have hid : adapt none (locOf s) = id := rfl
  unfold tryEdit
  by_cases h : isVar b.x (peel body) = true
  · rw [if_pos h]
    have := isVar_of h
    simp only [runEdit, runTry, hid]
    cases tryVal S id (evalSrc S s w).1 with
    | val v => simp [runLet, bindInner, runRest, is_var this, hb, bindVal, Env.set]
    | ret v => simp [runLet]
    | stuck => simp [runLet]
  · rw [if_neg h]
    simp only [runEdit, runTry, hid]

/-- `match s { Some(x) => …, None => return None }` and `match s { Ok(x) => …, Err(e) => return Err(e) }`, in
both orders, are `s?` or `{ let x = s?; … }`.  Partial: `s` has no `&`, and is not a reference; the variables
are not `ref`; and an error that is not converted is returned as it is. -/
theorem match_same_partial {fa : Facts} {S : Sem} (ok : FactsOk fa S) {s : Src} {a b : Arm} {ed : Edit}
    (h : check fa (.mtch (.src s) a b) = some ed)
    (hr : fa.isRef s = false) (hba : ByValue a.pat) (hbb : ByValue b.pat)
    (hc : (∀ v, S.conv v = v) ∨ (Converts a ∧ Converts b)) (env : Env) (w : S.W) :
    runCode S (.mtch (.src s) a b) env w = runEdit S ed env w := by
  have hv : HasKind (tryMode fa (.src s)) _ := ok.kind s w hr
  have hca : (∀ v, S.conv v = v) ∨ Converts a := hc.elim .inl fun h => .inr h.1
  have hcb : (∀ v, S.conv v = v) ∨ Converts b := hc.elim .inl fun h => .inr h.2
  simp only [check, checkMatch] at h
  by_cases h1 : sadArm (tryMode fa (.src s)) b = true
  · rw [if_pos h1] at h
    cases hx : happyArm (tryMode fa (.src s)) a with
    | none => rw [hx] at h; cases h
    | some x =>
      rw [hx] at h
      cases h
      rw [tryEdit_run (happy_run hx hba).2.1]
      exact (arms_run hx hba h1 hbb hcb hv).1
  · rw [if_neg h1] at h
    by_cases h2 : sadArm (tryMode fa (.src s)) a = true
    · rw [if_pos h2] at h
      cases hx : happyArm (tryMode fa (.src s)) b with
      | none => rw [hx] at h; cases h
      | some x =>
        rw [hx] at h
        cases h
        rw [tryEdit_run (happy_run hx hbb).2.1]
        exact (arms_run hx hbb h2 hba hca hv).2
    · rw [if_neg h2] at h; cases h

/-! ## `let … else` -/

theorem elseRet_run {S : Sem} {b : Body} (env : Env) (w : S.W) (h : elseRet b = true) :
    runBody S b env w = (.ret .none, w) := by
  cases b with
  | blk b => exact retNone_run (b := b) env w h
  | semi b =>
    have : retNone (peel b) = true := by
      cases b <;> simp_all [elseRet, retNone, peel]
    simp [runBody, retNone_run (S := S) env w this, Out.drop]
  | _ => simp [elseRet] at h

/-- `let Some(p) = s else { return None };` is `let p = s?;`, or with `as_ref` and `as_mut`.  Partial: below
the variable the pattern binds no references to a place. -/
theorem let_else_same_partial {fa : Facts} {S : Sem} (ok : FactsOk fa S) {p : Pat} {s : Src} {e rest : Body}
    {ed : Edit} (h : check fa (.letElse p s e rest) = some ed)
    (hq : ∀ c q, p = .ctor c q → NoHiddenRef S q) (env : Env) (w : S.W) :
    runCode S (.letElse p s e rest) env w = runEdit S ed env w := by
  simp only [check, checkLetElse] at h
  by_cases hc : (decide (kindOf fa s = .option) && elseRet e) = true
  · rw [if_pos hc] at h
    simp only [Bool.and_eq_true, decide_eq_true_eq] at hc
    obtain ⟨hk, he⟩ := hc
    obtain ⟨q, rfl⟩ : ∃ q, p = .ctor .some q := by
      split at h
      · exact ⟨_, rfl⟩
      · cases h
    replace hq := hq _ q rfl
    obtain ⟨hf, hk⟩ := kindOf_eq hk (by decide)
    have he := fun env w => elseRet_run (S := S) env w he
    rcases opt_cases ok hf hk w with ⟨v, hs⟩ | hs
    · cases hq with
      | bind b =>
        obtain ⟨r, x⟩ := b
        cases r <;> cases h <;> simp only [runCode, runEdit, runTry] <;> rw [hs] <;> rfl
      | bindAtRef m x n => cases h; simp only [runCode, runEdit]; rw [hs]; rfl
      | bindAt x n hn =>
        cases h
        simp only [runCode, runEdit, runTry]
        rw [hs]
        simp only [matchPat, matchAt, bindInner, runBranch, tryVal, adapt, runLet, runRest, bindVal]
        rw [hn (locOf s)]
      | both m x y => cases h; simp only [runCode, runEdit]; rw [hs]; rfl
      | irref n hn =>
        cases h
        simp only [runCode, runEdit, runTry]
        rw [hs]
        simp only [matchPat, matchAt, bindInner, runBranch, tryVal, adapt, runLet, runRest]
        rw [hn (locOf s)]
      | refut n hn => cases h
    · have hcode : runCode S (.letElse (.ctor .some q) s e rest) env w = (.ret .none, (evalSrc S s w).2) := by
        simp only [runCode]
        rw [hs]
        simp only [match_none, runBranch, runElse, he]
      rw [hcode]
      cases hq with
      | bind b =>
        obtain ⟨r, x⟩ := b
        cases r <;> cases h <;> simp only [runEdit, runTry] <;> rw [hs] <;> rfl
      | refut n hn => cases h
      | _ => cases h; simp only [runEdit, runTry]; rw [hs]; rfl
  · rw [if_neg hc] at h; cases h

end Verif.TryOp
