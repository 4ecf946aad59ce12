import Verif.Needless.Model
import Verif.Needless.Spec

/-!
# A reported match gives back what it matches on
-/

namespace Verif.Needless

variable {S : Sem}

mutual

theorem eqv_eq : ∀ {a b : Val}, eqv a b = true → noZero a = true → a = b
  | .unit, b, h, _ => by cases b <;> simp [eqv] at h; rfl
  | .int _, b, h, _ => by cases b <;> simp [eqv] at h; rw [h]
  | .float _ _, b, h, hz => by
    cases b <;> simp [eqv] at h
    simp [noZero] at hz
    obtain ⟨h1, h2⟩ := h
    cases h2 with
    | inl h2 => rw [h1, h2]
    | inr h2 => exact absurd h2 hz
  | .ctor _ vs, b, h, hz => by
    cases b with
    | ctor d us =>
      simp [eqv] at h
      rw [h.1, eqvL_eq h.2 (by simpa [noZero] using hz)]
    | _ => simp [eqv] at h
  | .ref v, b, h, hz => by
    cases b with
    | ref u =>
      simp [eqv] at h
      rw [eqv_eq h (by simpa [noZero] using hz)]
    | _ => simp [eqv] at h

theorem eqvL_eq : ∀ {a b : List Val}, eqvL a b = true → noZeroL a = true → a = b
  | [], b, h, _ => by cases b <;> simp [eqvL] at h; rfl
  | v :: vs, b, h, hz => by
    cases b with
    | nil => simp [eqvL] at h
    | cons u us =>
      simp [eqvL] at h
      simp [noZeroL] at hz
      rw [eqv_eq h.1 hz.1, eqvL_eq h.2 hz.2]

end

/-- No reference. -/
def flat : Val → Prop
  | .ref _ => False
  | _ => True

theorem strip_flat {v : Val} {m : Bool} (h : flat v) : strip v m = (v, m) := by
  cases v <;> first | rfl | exact h.elim

theorem flat_strip : ∀ (v : Val) (m : Bool), flat (strip v m).1
  | .unit, _ | .int _, _ | .float _ _, _ | .ctor _ _, _ => by simp [strip, flat]
  | .ref v, _ => by simp only [strip]; exact flat_strip v true

/-- Values of one type are references or are not. -/
theorem flat_same {F} {v v' : Val} {t : Ty} (h : HasTy F v t) (h' : HasTy F v' t) (hf : flat v') :
    flat v := by
  cases h with
  | ref _ => cases h'; exact hf.elim
  | _ => trivial

mutual

theorem frame : ∀ {p : Pat} {v m} {ρ ρ' : Env} {x : Name}, matchPat S p v m ρ = some ρ' →
    x ∉ vars p → ρ' x = ρ x
  | .wild, _, _, _, _, _, h, _ => by simp [matchPat] at h; rw [h]
  | .bind r y, _, _, _, _, x, h, hx => by
    simp [matchPat] at h
    simp [vars] at hx
    rw [← h]; simp [upd, hx]
  | .bindAt r y p, _, _, _, _, x, h, hx => by
    simp [matchPat] at h
    simp [vars] at hx
    rw [frame h hx.2]; simp [upd, hx.1]
  | .ctor c ps, v, m, ρ, ρ', x, h, hx => by
    simp only [matchPat] at h
    split at h
    · split at h
      · exact frameL h (by simpa [vars] using hx)
      · cases h
    · cases h
  | .path k, _, _, _, _, _, h, _ => by simp [matchPat] at h; rw [h.2]
  | .lit k, _, _, _, _, _, h, _ => by simp [matchPat] at h; rw [h.2]
  | .other k, _, _, _, _, _, h, _ => by simp [matchPat] at h; rw [h.2]

theorem frameL : ∀ {ps : Pats} {vs m} {ρ ρ' : Env} {x : Name}, matchPats S ps vs m ρ = some ρ' →
    x ∉ varsL ps → ρ' x = ρ x
  | .nil, [], _, _, _, _, h, _ => by simp [matchPats] at h; rw [h]
  | .nil, _ :: _, _, _, _, _, h, _ => by simp [matchPats] at h
  | .cons p ps, [], _, _, _, _, h, _ => by simp [matchPats] at h
  | .cons p ps, v :: vs, m, ρ, ρ', x, h, hx => by
    simp only [matchPats] at h
    simp [varsL] at hx
    split at h
    · next h1 => rw [frameL h hx.2, frame h1 hx.1]
    · cases h

end

mutual

/-- An expression that looks like the pattern has the value the pattern has matched, if it has its
type. -/
theorem same_value : ∀ {p : Pat} {e : Ex} {v : Val} {ρ ρ' ρ'' : Env} {T : Ty} {w : S.W},
    patSame p e = true → p.noZeros S.const = true → e.plain = true → (vars p).Nodup →
    matchPat S p v false ρ = some ρ' → (∀ x ∈ vars p, ρ'' x = ρ' x) →
    HasTy S.fields v T → HasTy S.fields (eval S e ρ'' w).1 T → eval S e ρ'' w = (v, w)
  | .ctor c ps, .call c' es, v, ρ, ρ', ρ'', T, w, h, hz, hp, hn, hm, hρ, ht, ht' => by
    simp [patSame] at h
    simp only [Pat.noZeros] at hz
    simp only [Ex.plain] at hp
    simp only [vars] at hn hρ
    have hfl : flat v := flat_same ht ht' (by simp [eval, flat])
    simp only [matchPat, strip_flat hfl] at hm
    cases v with
    | ctor d vs =>
      simp only at hm
      split at hm
      · next hcd =>
        subst hcd
        have hc := h.1
        subst hc
        simp only [eval] at ht' ⊢
        cases ht with
        | ctor hf hvs =>
          cases ht' with
          | ctor hf' hvs' =>
            rw [hf] at hf'
            cases hf'
            rw [same_values h.2 hz hp hn hm hρ hvs hvs']
      · cases hm
    | _ => simp at hm
  | .bind r x, .var y, v, ρ, ρ', ρ'', T, w, h, hz, hp, hn, hm, hρ, ht, ht' => by
    simp [patSame] at h
    simp [matchPat, h.1, bound] at hm
    simp only [eval]
    rw [← h.2, hρ x (by simp [vars]), ← hm]
    simp [upd]
  | .bindAt r x p, .var y, v, ρ, ρ', ρ'', T, w, h, hz, hp, hn, hm, hρ, ht, ht' => by
    simp [patSame] at h
    simp [matchPat, h.1, bound] at hm
    simp only [eval]
    simp only [vars, List.nodup_cons] at hn
    rw [← h.2, hρ x (by simp [vars]), frame hm hn.1]
    simp [upd]
  | .path k, .path k', v, ρ, ρ', ρ'', T, w, h, hz, hp, hn, hm, hρ, ht, ht' => by
    simp [patSame] at h
    subst h
    simp [matchPat] at hm
    simp only [Pat.noZeros] at hz
    have he := eqv_eq hm.1 hz
    have hfl : flat (S.const k) := by rw [he]; exact flat_strip v false
    rw [strip_flat (flat_same ht ht' hfl)] at he
    simp only [eval]
    rw [he]
  | .lit k, .lit k', v, ρ, ρ', ρ'', T, w, h, hz, hp, hn, hm, hρ, ht, ht' => by
    simp [patSame] at h
    subst h
    simp [matchPat] at hm
    simp only [Pat.noZeros] at hz
    have he := eqv_eq hm.1 hz
    have hfl : flat k.val := by rw [he]; exact flat_strip v false
    rw [strip_flat (flat_same ht ht' hfl)] at he
    simp only [eval]
    rw [he]
  | .bind r x, .varPath y k, _, _, _, _, _, _, _, _, hp, _, _, _, _, _ => by simp [Ex.plain] at hp
  | .bindAt r x p, .varPath y k, _, _, _, _, _, _, _, _, hp, _, _, _, _, _ => by simp [Ex.plain] at hp
  | .wild, _, _, _, _, _, _, _, h, _, _, _, _, _, _, _ => by simp [patSame] at h
  | .other _, _, _, _, _, _, _, _, h, _, _, _, _, _, _, _ => by simp [patSame] at h
  | .ctor c ps, .var _, _, _, _, _, _, _, h, _, _, _, _, _, _, _ => by simp [patSame] at h
  | .ctor c ps, .varPath _ _, _, _, _, _, _, _, h, _, _, _, _, _, _, _ => by simp [patSame] at h
  | .ctor c ps, .path _, _, _, _, _, _, _, h, _, _, _, _, _, _, _ => by simp [patSame] at h
  | .ctor c ps, .lit _, _, _, _, _, _, _, h, _, _, _, _, _, _, _ => by simp [patSame] at h
  | .ctor c ps, .scr _, _, _, _, _, _, _, h, _, _, _, _, _, _, _ => by simp [patSame] at h
  | .ctor c ps, .blk _, _, _, _, _, _, _, h, _, _, _, _, _, _, _ => by simp [patSame] at h
  | .ctor c ps, .semi _, _, _, _, _, _, _, h, _, _, _, _, _, _, _ => by simp [patSame] at h
  | .ctor c ps, .stmts _, _, _, _, _, _, _, h, _, _, _, _, _, _, _ => by simp [patSame] at h
  | .bind r x, .path _, _, _, _, _, _, _, h, _, _, _, _, _, _, _ => by simp [patSame] at h
  | .bind r x, .lit _, _, _, _, _, _, _, h, _, _, _, _, _, _, _ => by simp [patSame] at h
  | .bind r x, .call _ _, _, _, _, _, _, _, h, _, _, _, _, _, _, _ => by simp [patSame] at h
  | .bind r x, .scr _, _, _, _, _, _, _, h, _, _, _, _, _, _, _ => by simp [patSame] at h
  | .bind r x, .blk _, _, _, _, _, _, _, h, _, _, _, _, _, _, _ => by simp [patSame] at h
  | .bind r x, .semi _, _, _, _, _, _, _, h, _, _, _, _, _, _, _ => by simp [patSame] at h
  | .bind r x, .stmts _, _, _, _, _, _, _, h, _, _, _, _, _, _, _ => by simp [patSame] at h
  | .bindAt r x _, .path _, _, _, _, _, _, _, h, _, _, _, _, _, _, _ => by simp [patSame] at h
  | .bindAt r x _, .lit _, _, _, _, _, _, _, h, _, _, _, _, _, _, _ => by simp [patSame] at h
  | .bindAt r x _, .call _ _, _, _, _, _, _, _, h, _, _, _, _, _, _, _ => by simp [patSame] at h
  | .bindAt r x _, .scr _, _, _, _, _, _, _, h, _, _, _, _, _, _, _ => by simp [patSame] at h
  | .bindAt r x _, .blk _, _, _, _, _, _, _, h, _, _, _, _, _, _, _ => by simp [patSame] at h
  | .bindAt r x _, .semi _, _, _, _, _, _, _, h, _, _, _, _, _, _, _ => by simp [patSame] at h
  | .bindAt r x _, .stmts _, _, _, _, _, _, _, h, _, _, _, _, _, _, _ => by simp [patSame] at h
  | .path k, .var _, _, _, _, _, _, _, h, _, _, _, _, _, _, _ => by simp [patSame] at h
  | .path k, .varPath _ _, _, _, _, _, _, _, h, _, _, _, _, _, _, _ => by simp [patSame] at h
  | .path k, .lit _, _, _, _, _, _, _, h, _, _, _, _, _, _, _ => by simp [patSame] at h
  | .path k, .call _ _, _, _, _, _, _, _, h, _, _, _, _, _, _, _ => by simp [patSame] at h
  | .path k, .scr _, _, _, _, _, _, _, h, _, _, _, _, _, _, _ => by simp [patSame] at h
  | .path k, .blk _, _, _, _, _, _, _, h, _, _, _, _, _, _, _ => by simp [patSame] at h
  | .path k, .semi _, _, _, _, _, _, _, h, _, _, _, _, _, _, _ => by simp [patSame] at h
  | .path k, .stmts _, _, _, _, _, _, _, h, _, _, _, _, _, _, _ => by simp [patSame] at h
  | .lit k, .var _, _, _, _, _, _, _, h, _, _, _, _, _, _, _ => by simp [patSame] at h
  | .lit k, .varPath _ _, _, _, _, _, _, _, h, _, _, _, _, _, _, _ => by simp [patSame] at h
  | .lit k, .path _, _, _, _, _, _, _, h, _, _, _, _, _, _, _ => by simp [patSame] at h
  | .lit k, .call _ _, _, _, _, _, _, _, h, _, _, _, _, _, _, _ => by simp [patSame] at h
  | .lit k, .scr _, _, _, _, _, _, _, h, _, _, _, _, _, _, _ => by simp [patSame] at h
  | .lit k, .blk _, _, _, _, _, _, _, h, _, _, _, _, _, _, _ => by simp [patSame] at h
  | .lit k, .semi _, _, _, _, _, _, _, h, _, _, _, _, _, _, _ => by simp [patSame] at h
  | .lit k, .stmts _, _, _, _, _, _, _, h, _, _, _, _, _, _, _ => by simp [patSame] at h

theorem same_values : ∀ {ps : Pats} {es : Exs} {vs : List Val} {ρ ρ' ρ'' : Env} {ts : List Ty} {w : S.W},
    patSameL ps es = true → ps.noZeros S.const = true → es.plain = true → (varsL ps).Nodup →
    matchPats S ps vs false ρ = some ρ' → (∀ x ∈ varsL ps, ρ'' x = ρ' x) →
    HasTyL S.fields vs ts → HasTyL S.fields (evals S es ρ'' w).1 ts → evals S es ρ'' w = (vs, w)
  | .nil, .nil, [], _, _, _, _, _, _, _, _, _, _, _, _, _ => by simp [evals]
  | .nil, .nil, _ :: _, _, _, _, _, _, _, _, _, _, h, _, _, _ => by simp [matchPats] at h
  | .nil, .cons _ _, _, _, _, _, _, _, h, _, _, _, _, _, _, _ => by simp [patSameL] at h
  | .cons _ _, .nil, _, _, _, _, _, _, h, _, _, _, _, _, _, _ => by simp [patSameL] at h
  | .cons _ _, .cons _ _, [], _, _, _, _, _, _, _, _, _, h, _, _, _ => by simp [matchPats] at h
  | .cons p ps, .cons e es, v :: vs, ρ, ρ', ρ'', ts, w, h, hz, hp, hn, hm, hρ, ht, ht' => by
    simp [patSameL] at h
    simp [Pats.noZeros] at hz
    simp [Exs.plain] at hp
    simp only [varsL] at hn hρ
    rw [List.nodup_append] at hn
    simp only [matchPats] at hm
    split at hm
    · next ρ1 h1 =>
      simp only [evals] at ht' ⊢
      cases ht with
      | cons hv hvs =>
        cases ht' with
        | cons hv' hvs' =>
          have he := same_value h.1 hz.1 hp.1 hn.1 h1 (fun x hx => by
            rw [hρ x (List.mem_append_left _ hx)]
            exact frameL hm (fun hx' => hn.2.2 x hx x hx' rfl)) hv hv'
          rw [he] at hvs' ⊢
          rw [same_values h.2 hz.2 hp.2 hn.2.1 hm
            (fun x hx => hρ x (List.mem_append_right _ hx)) hvs hvs']
    · cases hm

end

theorem eval_peel : ∀ (e : Ex) (ρ : Env) (w : S.W),
    eval S e ρ w = eval S (peel e) ρ w ∨ eval S e ρ w = (.unit, (eval S (peel e) ρ w).2)
  | .blk e, ρ, w => by simp only [eval, peel]; exact eval_peel e ρ w
  | .semi e, ρ, w => by
    right
    simp only [eval, peel]
    cases eval_peel e ρ w with
    | inl h => rw [h]
    | inr h => rw [h]
  | .var _, _, _ | .varPath _ _, _, _ | .path _, _, _ | .lit _, _, _ | .call _ _, _, _ | .scr _, _, _
  | .stmts _, _, _ => .inl rfl

theorem plain_peel : ∀ {e : Ex}, e.plain = true → (peel e).plain = true
  | .blk e, h => by simp only [Ex.plain] at h; simp only [peel]; exact plain_peel h
  | .semi e, h => by simp only [Ex.plain] at h; simp only [peel]; exact plain_peel h
  | .var _, _ | .path _, _ | .lit _, _ | .scr _, _ | .stmts _, _ => rfl
  | .call _ _, h => h
  | .varPath _ _, h => h

mutual

/-- Such expressions do nothing. -/
theorem same_pure : ∀ {p : Pat} {e : Ex} {ρ : Env} {w : S.W}, patSame p e = true → (eval S e ρ w).2 = w
  | p, .call c es, ρ, w, h => by
    cases p with
    | ctor c' ps =>
      simp [patSame] at h
      simp only [eval]
      exact same_pureL h.2
    | _ => simp [patSame] at h
  | _, .var _, _, _, _ | _, .varPath _ _, _, _, _ | _, .path _, _, _, _ | _, .lit _, _, _, _ => by
    simp [eval]
  | p, .scr _, _, _, h | p, .blk _, _, _, h | p, .semi _, _, _, h | p, .stmts _, _, _, h => by
    cases p <;> simp [patSame] at h

theorem same_pureL : ∀ {ps : Pats} {es : Exs} {ρ : Env} {w : S.W}, patSameL ps es = true →
    (evals S es ρ w).2 = w
  | _, .nil, _, _, _ => by simp [evals]
  | .nil, .cons _ _, _, _, h => by simp [patSameL] at h
  | .cons p ps, .cons e es, ρ, w, h => by
    simp [patSameL] at h
    simp only [evals]
    rw [same_pure h.1, same_pureL h.2]

end

theorem unit_type {F} {v : Val} {T : Ty} (h : HasTy F v T) (hu : HasTy F .unit T) : v = .unit := by
  cases hu; cases h; rfl

/-- A body that looks like the pattern. -/
theorem body_same {p : Pat} {e : Ex} {v : Val} {ρ ρ' : Env} {T : Ty} {w : S.W}
    (h : patSame p (peel e) = true) (hz : p.noZeros S.const = true) (hp : e.plain = true)
    (hn : (vars p).Nodup) (hm : matchPat S p v false ρ = some ρ') (ht : HasTy S.fields v T)
    (ht' : HasTy S.fields (eval S e ρ' w).1 T) : eval S e ρ' w = (v, w) := by
  cases eval_peel e ρ' w with
  | inl hq =>
    rw [hq] at ht' ⊢
    exact same_value h hz (plain_peel hp) hn hm (fun _ _ => rfl) ht ht'
  | inr hq =>
    rw [hq] at ht' ⊢
    rw [unit_type ht ht', same_pure h]

/-- A body that is the expression once more. -/
theorem again_same {fa : Facts} {n : Nat} {e : Ex} {v : Val} {ρ : Env} {T : Ty} {w : S.W}
    (h : eqValue fa n (peel e) = true) (hst : fa.effects n = false → S.scrut n w = (v, w))
    (ht : HasTy S.fields v T) (ht' : HasTy S.fields (eval S e ρ w).1 T) : eval S e ρ w = (v, w) := by
  have hpe : eval S (peel e) ρ w = (v, w) := by
    generalize peel e = e' at h
    cases e' with
    | scr m =>
      simp [eqValue] at h
      simp only [eval]
      rw [← h.1]
      exact hst h.2
    | _ => simp [eqValue] at h
  cases eval_peel e ρ w with
  | inl hq => rw [hq, hpe]
  | inr hq =>
    rw [hq] at ht' ⊢
    rw [unit_type ht ht', hpe]

theorem tyMatches_expected {t u : Ty} : ∀ {ps : List Parent}, tyMatches t ps = true →
    expected ps = some u → u = t
  | [], h, _ => by simp [tyMatches] at h
  | .letStmt _ :: _, h, h' => by simp [tyMatches] at h; simp [expected] at h'; rw [← h', h]
  | .fn _ :: _, h, h' => by simp [tyMatches] at h; simp [expected] at h'; rw [← h', h]
  | .other :: _, h, _ => by simp [tyMatches] at h
  | .expr true :: _, _, h' => by simp [expected] at h'
  | .expr false :: ps, h, h' => by
    simp only [tyMatches] at h; simp only [expected] at h'; exact tyMatches_expected h h'
  | .block :: ps, h, h' => by
    simp only [expected] at h'
    cases ps with
    | nil => simp [expected] at h'
    | cons q qs =>
      cases q with
      | expr b =>
        cases b with
        | true => simp [expected] at h'
        | false =>
          simp only [tyMatches] at h
          simp only [expected] at h'
          exact tyMatches_expected h h'
      | _ => simp [tyMatches] at h

theorem arms_same {fa : Facts} {n : Nat} {v : Val} {ρ : Env} {T : Ty}
    (hguard : ∀ g ρ w, fa.guardEffects g = false → (S.guard g ρ w).2 = w) (ht : HasTy S.fields v T) :
    ∀ {arms : List Arm} {w : S.W} {r : Val × S.W}, arms.all (armOk fa n) = true →
      (∀ a ∈ arms, a.pat.noZeros S.const = true ∧ a.body.plain = true ∧ (vars a.pat).Nodup) →
      (fa.effects n = false → S.scrut n w = (v, w)) →
      runArms S v ρ arms w = some r → HasTy S.fields r.1 T → r = (v, w)
  | [], _, _, _, _, _, h, _ => by simp [runArms] at h
  | a :: as, w, r, hok, hwf, hst, h, ht' => by
    simp only [List.all_cons, Bool.and_eq_true] at hok
    obtain ⟨ha, has⟩ := hok
    have hwa := hwf a (List.mem_cons_self ..)
    have hrest : ∀ {r}, runArms S v ρ as w = some r → HasTy S.fields r.1 T → r = (v, w) :=
      fun h ht' => arms_same hguard ht has (fun b hb => hwf b (List.mem_cons_of_mem _ hb)) hst h ht'
    have hbody : ∀ {ρ'}, matchPat S a.pat v false ρ = some ρ' →
        HasTy S.fields (eval S a.body ρ' w).1 T → eval S a.body ρ' w = (v, w) := by
      intro ρ' hm hr
      unfold armOk at ha
      simp only [Bool.and_eq_true] at ha
      have h2 := ha.2
      split at h2
      · exact again_same h2 hst ht hr
      · exact body_same h2 hwa.1 hwa.2.1 hwa.2.2 hm ht hr
    simp only [runArms] at h
    split at h
    · exact hrest h ht'
    · next ρ' hm =>
      split at h
      · cases h; exact hbody hm ht'
      · next g hg =>
        have hgw : (S.guard g ρ' w).2 = w := by
          apply hguard
          unfold armOk at ha
          simp only [hg] at ha
          simp only [Bool.and_eq_true] at ha
          simpa using ha.1
        rw [hgw] at h
        split at h
        · cases h; exact hbody hm ht'
        · exact hrest h ht'

/-- `needless_match` on `match`: it has the value of what it matches on, and does nothing else.  Missing:
zeros among the floating point constants (`zero_changes`), paths that begin with a name of the pattern
(`path_changes`), and code whose value is an operand (`operand_changes`). -/
theorem match_same_partial {fa : Facts} {n : Nat} {arms : List Arm} {ρ : Env} {w : S.W} {r : Val × S.W}
    {T : Ty} (hok : checkMatch fa n arms = true)
    (hpure : ∀ n, fa.effects n = false → Stable S n)
    (hguard : ∀ g ρ w, fa.guardEffects g = false → (S.guard g ρ w).2 = w)
    (ht : HasTy S.fields (S.scrut n w).1 (fa.scrutTy n))
    (hexp : expected fa.parents = some T) (hres : HasTy S.fields r.1 T)
    (hwf : ∀ a ∈ arms, a.pat.noZeros S.const = true ∧ a.body.plain = true ∧ (vars a.pat).Nodup)
    (hrun : runMatch S n ρ arms w = some r) : r = S.scrut n w := by
  simp only [checkMatch, Bool.and_eq_true] at hok
  obtain ⟨⟨_, hty⟩, hall⟩ := hok
  have hT := tyMatches_expected hty hexp
  subst hT
  exact arms_same hguard ht hall hwf (fun he => hpure n he w) hrun hres

theorem isNone_value {e : Ex} {ρ : Env} {w : S.W} (hnone : S.const noneK = .ctor noneC [])
    (h : isNone e = true) : eval S e ρ w = (.ctor noneC [], w) := by
  cases e with
  | path k => simp [isNone] at h; simp [eval, h, hnone]
  | _ => simp [isNone] at h

theorem ends_none : ∀ {e : Ex}, isNone (peel e) = true → e.isNoneBlock = true
  | .path _, h => h
  | .blk e, h => by simp only [peel] at h; simp only [Ex.isNoneBlock]; exact ends_none h
  | .semi e, h => by simp only [peel] at h; simp only [Ex.isNoneBlock]; exact ends_none h
  | .var _, h | .varPath _ _, h | .lit _, h | .call _ _, h | .scr _, h | .stmts _, h => by
    simp [peel, isNone] at h

theorem some_fails {v : Val} {ρ : Env} {p : Pat} (hp : AnySome p)
    (hopt : v = .ctor noneC [] ∨ ∃ u, v = .ctor someC [u]) (hm : matchPat S p v false ρ = none) :
    v = .ctor noneC [] := by
  cases hp
  cases hopt with
  | inl h => exact h
  | inr h =>
    obtain ⟨u, rfl⟩ := h
    simp [matchPat, matchPats, strip] at hm

theorem chain_same {fa : Facts} {v : Val} {ρ : Env} {T : Ty} {n : Nat}
    (hpure : fa.effects n = false → Stable S n)
    (hconst : S.const noneK = .ctor noneC []) (ht : HasTy S.fields v T)
    (hopt : fa.isOption n = true → v = .ctor noneC [] ∨ ∃ u, v = .ctor someC [u]) :
    ∀ {c : IfLet} {w w' : S.W}, chainOk fa c = true → scrutOf c = n → S.scrut n w = (v, w') →
      (1 < c.pats.length → Stable S n) →
      (fa.isOption n = true → c.endsNone = true → v = .ctor noneC [] ∨ ∃ p ∈ c.pats, AnySome p) →
      (∀ p ∈ c.pats, p.noZeros S.const = true ∧ (vars p).Nodup) → (∀ e ∈ c.bodies, e.plain = true) →
      HasTy S.fields (runIf S ρ c w).1 T → runIf S ρ c w = (v, w')
  | .noElse _ _ _, _, _, h, _, _, _, _, _, _, _ => by simp [chainOk] at h
  | .elseBlock p m t e, w, w', h, hn, hs, _, hsome, hwf, hpl, hr => by
    simp only [scrutOf] at hn
    subst hn
    simp only [chainOk, Bool.and_eq_true] at h
    simp only [runIf, hs] at hr ⊢
    have hwp := hwf p (by simp [IfLet.pats])
    split at hr
    · next ρ' hm => exact body_same h.1 hwp.1 (hpl t (by simp [IfLet.bodies])) hwp.2 hm ht hr
    · next hm =>
      have hagain : eqValue fa m (peel e) = true → eval S e ρ w' = (v, w') := fun hv =>
        again_same hv (fun he => by have := hpure he w; rw [hs] at this; exact this) ht hr
      have h2 := h.2
      unfold elseOk at h2
      split at h2
      · cases h2
      · split at h2
        · next ho =>
          simp only [Bool.or_eq_true] at h2
          cases h2 with
          | inr h2 => exact hagain h2
          | inl h2 =>
            have hv : v = .ctor noneC [] := by
              cases hsome ho (ends_none h2) with
              | inl h => exact h
              | inr h =>
                obtain ⟨q, hq, ha⟩ := h
                simp [IfLet.pats] at hq
                subst hq
                exact some_fails ha (hopt ho) hm
            have hv' := isNone_value (ρ := ρ) (w := w') hconst h2
            cases eval_peel e ρ w' with
            | inl hq => rw [hq, hv', hv]
            | inr hq =>
              rw [hq] at hr ⊢
              rw [unit_type ht hr, hv']
        · exact hagain h2
  | .elseIf p m t next, w, w', h, hn, hs, hst, hsome, hwf, hpl, hr => by
    simp only [scrutOf] at hn
    subst hn
    simp only [chainOk, Bool.and_eq_true, beq_iff_eq] at h
    have hst' : Stable S m := hst (by
      simp only [IfLet.pats, List.length_cons]
      cases next <;> simp [IfLet.pats])
    simp only [runIf, hs] at hr ⊢
    have hwp := hwf p (by simp [IfLet.pats])
    split at hr
    · next ρ' hm => exact body_same h.1.1 hwp.1 (hpl t (by simp [IfLet.bodies])) hwp.2 hm ht hr
    · next hm =>
      refine chain_same hpure hconst ht hopt h.2 h.1.2 ?_ (fun _ => hst') ?_
        (fun q hq => hwf q (by simp [IfLet.pats, hq])) (fun q hq => hpl q (by simp [IfLet.bodies, hq])) hr
      · have := hst' w; rw [hs] at this; exact this
      · intro ho hend
        cases hsome ho hend with
        | inl h => exact .inl h
        | inr h =>
          obtain ⟨q, hq, ha⟩ := h
          simp only [IfLet.pats, List.mem_cons] at hq
          cases hq with
          | inl hq => subst hq; exact .inl (some_fails ha (hopt ho) hm)
          | inr hq => exact .inr ⟨q, hq, ha⟩

/-- `needless_match` on chains of `if let`.  Missing, besides what is missing above: chains on an
expression with effects (`chain_changes`), and options with `else { None }` but without the pattern
`Some(x)` (`else_none_changes`). -/
theorem if_let_same_partial {fa : Facts} {els : Bool} {c : IfLet} {ρ : Env} {w : S.W} {T : Ty}
    (hok : checkIfLet fa els c = true)
    (hpure : ∀ n, fa.effects n = false → Stable S n)
    (hconst : S.const noneK = .ctor noneC [])
    (ht : HasTy S.fields (S.scrut c.first w).1 (fa.scrutTy c.first))
    (hexp : expected fa.parents = some T) (hres : HasTy S.fields (runIf S ρ c w).1 T)
    (hopt : fa.isOption c.first = true →
      (S.scrut c.first w).1 = .ctor noneC [] ∨ ∃ u, (S.scrut c.first w).1 = .ctor someC [u])
    (hwf : ∀ p ∈ c.pats, p.noZeros S.const = true ∧ (vars p).Nodup) (hpl : ∀ e ∈ c.bodies, e.plain = true)
    (hst : 1 < c.pats.length → Stable S c.first)
    (hsome : fa.isOption c.first = true → c.endsNone = true → ∃ p ∈ c.pats, AnySome p) :
    runIf S ρ c w = S.scrut c.first w := by
  have hfirst : scrutOf c = c.first := by cases c <;> rfl
  simp only [checkIfLet, Bool.and_eq_true] at hok
  obtain ⟨⟨_, hty⟩, hch⟩ := hok
  have hT := tyMatches_expected hty hexp
  subst hT
  rw [hfirst] at hres
  exact chain_same (hpure c.first) hconst ht hopt hch hfirst rfl hst (fun h h' => .inr (hsome h h')) hwf hpl hres

end Verif.Needless
