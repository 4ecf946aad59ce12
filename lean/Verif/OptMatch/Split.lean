import Verif.OptMatch.Pats
import Verif.OptMatch.Exits

/-!
# The two arms of a match on an `Option`
-/

namespace Verif.OptMatch
open Ctrl (Name Expr)

variable {S : Sem}

theorem parse_wild {P : Pat} : ∀ {n : Nat}, parsePat P n = some .wild → isWild P = true := by
  induction P with
  | wild => intro n h; rfl
  | ref m p ih => intro n h; exact ih h
  | _ => intro n h; simp [parsePat] at h

theorem parse_binds {P : Pat} {b : Bind} {x : Name} : ∀ {n k : Nat},
    parsePat P n = some (.some (.bind b x) k) → P.binds x = true := by
  induction P with
  | ref m p ih => intro n k h; exact ih h
  | some p ih =>
    intro n k h
    simp only [parsePat, Option.some.injEq, OptionPat.some.injEq] at h
    rw [h.1]
    simp [Pat.binds]
  | _ => intro n k h; simp [parsePat] at h

theorem none_body {b : Body} (h : isNoneBody b = true) (k : Nat) (ρ : Env) :
    evalBody (S := S) k b ρ = Ctrl.M.pure .none := by
  induction b with
  | none => rfl
  | block u b ih =>
    cases u with
    | true => simp [isNoneBody] at h
    | false => exact ih h
  | _ => simp [isNoneBody] at h

theorem covered_two {w : S.W} {t : Ty} {p : Place} {ρ : Env} {P Q : Pat}
    (h : covered w t p ρ [P, Q] = true) :
    (∃ ρ1, matchPat w P t p .start ρ = some (some ρ1)) ∨
      (matchPat w P t p .start ρ = some none ∧ ∃ ρ2, matchPat w Q t p .start ρ = some (some ρ2)) := by
  simp only [covered, List.all_cons, List.all_nil, List.any_cons, List.any_nil] at h
  cases hP : matchPat w P t p .start ρ with
  | none => simp [hP] at h
  | some o =>
    cases o with
    | some ρ1 => exact .inl ⟨ρ1, rfl⟩
    | none =>
      cases hQ : matchPat w Q t p .start ρ with
      | none => simp [hP, hQ] at h
      | some o =>
        cases o with
        | some ρ2 => exact .inr ⟨rfl, ρ2, rfl⟩
        | none => simp [hP, hQ] at h

theorem covered_fits {w : S.W} {t : Ty} {p : Place} {ρ : Env} {P Q : Pat}
    (h : covered w t p ρ [P, Q] = true) : ∃ o, matchPat w Q t p .start ρ = some o := by
  simp only [covered, List.all_cons, List.all_nil, List.any_cons, List.any_nil, Bool.and_eq_true] at h
  exact Option.isSome_iff_exists.mp h.1.2.1

theorem run_first {k : Nat} {w : S.W} {t : Ty} {p : Place} {ρ ρ1 : Env} {P : Pat} {b : Body} {as : List Arm}
    (h : matchPat w P t p .start ρ = some (some ρ1)) :
    runArms k t p ρ (⟨P, none, b⟩ :: as) w = evalBody k b ρ1 w := by
  simp only [runArms, h]

theorem run_second {k : Nat} {w : S.W} {t : Ty} {p : Place} {ρ ρ2 : Env} {P Q : Pat} {b c : Body}
    {as : List Arm} (h : matchPat w P t p .start ρ = some none)
    (h2 : matchPat w Q t p .start ρ = some (some ρ2)) :
    runArms k t p ρ (⟨P, none, b⟩ :: ⟨Q, none, c⟩ :: as) w = evalBody k c ρ2 w := by
  simp only [runArms, h, h2]

theorem bind_matches {w : S.W} {b : Bind} {x : Name} {t : Ty} {p : Place} {mo : Mode} {ρ : Env} :
    matchPat w (.bind b x) t p mo ρ ≠ some none := by
  intro h
  simp only [matchPat, Option.map_eq_some_iff] at h
  obtain ⟨_, _, h⟩ := h
  cases h

/-- What the two arms do, by the value of the `Option`. -/
theorem arms_split {k : Nat} {w : S.W} {t : Ty} {p : Place} {ρ : Env} {P Q r : Pat} {b c body : Body}
    {refs : Nat} {wild : Bool}
    (hp : pickArms (parsePat P 0) b (parsePat Q 0) c = some (body, r, refs, wild))
    (hw : isWild P = false) (hb : wild = true → ∃ b x, r = .bind b x)
    (hcov : covered w t p ρ [P, Q] = true) :
    ∃ t' q mo', follow w t p .start = some (.opt t', q, mo') ∧
      ((read w q = some .none ∧
          runArms k t p ρ [⟨P, none, b⟩, ⟨Q, none, c⟩] w = (.ok .none, w)) ∨
        ∃ v ρ', read w q = some (.some v) ∧
          matchPat w r t' (q.step .inner) ⟨refCount t != refs, refMut t⟩ ρ = some (some ρ') ∧
          runArms k t p ρ [⟨P, none, b⟩, ⟨Q, none, c⟩] w = evalBody k body ρ' w) := by
  have start : (Mode.start).byRef = false := rfl
  cases hP : parsePat P 0 with
  | none => rw [hP] at hp; simp [pickArms] at hp
  | some o1 =>
    rw [hP] at hp
    cases o1 with
    | wild => rw [parse_wild hP] at hw; cases hw
    | none =>
      cases hQ : parsePat Q 0 with
      | none => rw [hQ] at hp; simp [pickArms] at hp
      | some o2 =>
        rw [hQ] at hp
        cases o2 with
        | wild => simp [pickArms] at hp
        | none => simp [pickArms] at hp
        | some r' n =>
          simp only [pickArms] at hp
          by_cases hn : isNoneBody b = true
          case neg => rw [if_neg hn] at hp; cases hp
          rw [if_pos hn] at hp
          cases hp
          rcases covered_two hcov with ⟨ρ1, h1⟩ | ⟨h1, ρ2, h2⟩
          · obtain ⟨t', q, mo', hf, hv⟩ := none_pat hP h1
            refine ⟨t', q, mo', hf, ?_⟩
            rcases hv with ⟨hr, _⟩ | ⟨v, _, h⟩
            · exact .inl ⟨hr, by rw [run_first h1, none_body hn]; rfl⟩
            · cases h
          · obtain ⟨t', q, mo', hf, hv⟩ := none_pat hP h1
            obtain ⟨t2, q2, mo2, b2, hf2, _, hb2, hv2⟩ := some_pat hQ start h2
            rw [hf] at hf2
            cases hf2
            refine ⟨t', q, mo', hf, ?_⟩
            rcases hv with ⟨_, h⟩ | ⟨v, hr, _⟩
            · cases h
            · rcases hv2 with ⟨_, h⟩ | ⟨v2, hr2, hm⟩
              · cases h
              · refine .inr ⟨v2, ρ2, hr2, ?_, run_second h1 h2⟩
                rw [hb2] at hm
                exact hm
    | some r' n =>
      have hex : ∀ {o}, matchPat w P t p .start ρ = some o → ∃ t' q mo',
          follow w t p .start = some (.opt t', q, mo') ∧
          ((read w q = some .none ∧ o = none) ∨ ∃ v, read w q = some (.some v) ∧
            matchPat w r' t' (q.step .inner) ⟨refCount t != n, refMut t⟩ ρ = some o) := by
        intro o h
        obtain ⟨t2, q2, mo2, b2, hf2, _, hb2, hv2⟩ := some_pat hP start h
        rw [hb2] at hv2
        exact ⟨t2, q2, mo2, hf2, hv2⟩
      cases hQ : parsePat Q 0 with
      | none => rw [hQ] at hp; simp [pickArms] at hp
      | some o2 =>
        rw [hQ] at hp
        have key : isNoneBody c = true → body = b → r = r' → refs = n →
            (∀ ρ2, matchPat w Q t p .start ρ = some (some ρ2) →
              ∀ t' q mo' v, follow w t p .start = some (.opt t', q, mo') → read w q = some (.some v) →
              matchPat w r' t' (q.step .inner) ⟨refCount t != n, refMut t⟩ ρ ≠ some none) →
            ∃ t' q mo', follow w t p .start = some (.opt t', q, mo') ∧
              ((read w q = some .none ∧
                  runArms k t p ρ [⟨P, none, b⟩, ⟨Q, none, c⟩] w = (.ok .none, w)) ∨
                ∃ v ρ', read w q = some (.some v) ∧
                  matchPat w r t' (q.step .inner) ⟨refCount t != refs, refMut t⟩ ρ = some (some ρ') ∧
                  runArms k t p ρ [⟨P, none, b⟩, ⟨Q, none, c⟩] w = evalBody k body ρ' w) := by
          intro hn e1 e2 e3 hno
          subst e1 e2 e3
          rcases covered_two hcov with ⟨ρ1, h1⟩ | ⟨h1, ρ2, h2⟩
          · obtain ⟨t', q, mo', hf, hv⟩ := hex h1
            refine ⟨t', q, mo', hf, ?_⟩
            rcases hv with ⟨_, h⟩ | ⟨v, hr, hm⟩
            · cases h
            · exact .inr ⟨v, ρ1, hr, hm, run_first h1⟩
          · obtain ⟨t', q, mo', hf, hv⟩ := hex h1
            refine ⟨t', q, mo', hf, ?_⟩
            rcases hv with ⟨hr, _⟩ | ⟨v, hr, hm⟩
            · exact .inl ⟨hr, by rw [run_second h1 h2, none_body hn]; rfl⟩
            · exact absurd hm (hno ρ2 h2 t' q mo' v hf hr)
        cases o2 with
        | some r2 n2 => simp [pickArms] at hp
        | wild =>
          simp only [pickArms] at hp
          by_cases hn : isNoneBody c = true
          case neg => rw [if_neg hn] at hp; cases hp
          rw [if_pos hn] at hp
          cases hp
          refine key hn rfl rfl rfl ?_
          intro ρ2 h2 t' q mo' v hf hr
          obtain ⟨b', x, rfl⟩ := hb rfl
          exact bind_matches
        | none =>
          simp only [pickArms] at hp
          by_cases hn : isNoneBody c = true
          case neg => rw [if_neg hn] at hp; cases hp
          rw [if_pos hn] at hp
          cases hp
          refine key hn rfl rfl rfl ?_
          intro ρ2 h2 t' q mo' v hf hr
          obtain ⟨t3, q3, mo3, hf3, hv3⟩ := none_pat hQ h2
          rw [hf] at hf3
          cases hf3
          rcases hv3 with ⟨hr3, _⟩ | ⟨_, _, h⟩
          · rw [hr] at hr3; cases hr3
          · cases h

end Verif.OptMatch
