import Verif.Ctrl.Names
import Verif.Ctrl.Facts

/-!
# The meaning depends only on the variables that are mentioned
-/

namespace Verif.Ctrl
variable {S : Sem} {β : Type}

theorem bindVars_agree {x : Name} : ∀ (xs : List Name) (vs : List S.V) {ρ σ : Env S}, ρ x = σ x →
    bindVars xs vs ρ x = bindVars xs vs σ x
  | [], _, _, _, h => h
  | _ :: _, [], _, _, h => h
  | y :: xs, v :: vs, ρ, σ, h => by
    unfold bindVars
    refine bindVars_agree xs vs ?_
    split
    · rfl
    · exact h

theorem bindVars_other {x : Name} : ∀ (xs : List Name) (vs : List S.V) (ρ : Env S), x ∉ xs →
    bindVars xs vs ρ x = ρ x
  | [], _, _, _ => rfl
  | _ :: _, [], _, _ => rfl
  | y :: xs, v :: vs, ρ, h => by
    unfold bindVars
    simp only [List.mem_cons, not_or] at h
    rw [bindVars_other xs vs _ h.2]
    simp only [if_neg h.1]

theorem hoist_agree {x : Name} : ∀ (b : Stmts) {ρ σ : Env S}, ρ x = σ x → hoist b ρ x = hoist b σ x
  | .done, _, _, h => h
  | .tail _, _, _, h => h
  | .semi _ r, _, _, h => by simp only [hoist]; exact hoist_agree r h
  | .expr _ r, _, _, h => by simp only [hoist]; exact hoist_agree r h
  | .letS _ _ _ r, _, _, h => by simp only [hoist]; exact hoist_agree r h
  | .letElse _ _ _ _ r, _, _, h => by simp only [hoist]; exact hoist_agree r h
  | .item y n r, ρ, σ, h => by
    simp only [hoist]
    refine hoist_agree r ?_
    split
    · rfl
    · exact h

theorem hoist_other {x : Name} : ∀ (b : Stmts) (ρ : Env S), x ∉ items b → hoist b ρ x = ρ x
  | .done, _, _ => rfl
  | .tail _, _, _ => rfl
  | .semi _ r, _, h => by simp only [hoist]; exact hoist_other r _ (by simpa [items] using h)
  | .expr _ r, _, h => by simp only [hoist]; exact hoist_other r _ (by simpa [items] using h)
  | .letS _ _ _ r, _, h => by simp only [hoist]; exact hoist_other r _ (by simpa [items] using h)
  | .letElse _ _ _ _ r, _, h => by simp only [hoist]; exact hoist_other r _ (by simpa [items] using h)
  | .item y n r, ρ, h => by
    simp only [items, List.mem_cons, not_or] at h
    simp only [hoist]
    rw [hoist_other r _ h.2]
    simp only [if_neg h.1]

/-- Two environments agree on the names of a list. -/
def Agree (N : List Name) (ρ σ : Env S) : Prop := ∀ x ∈ N, ρ x = σ x

theorem Agree.left {N N' : List Name} {ρ σ : Env S} (h : Agree (N ++ N') ρ σ) : Agree N ρ σ :=
  fun x hx => h x (List.mem_append_left _ hx)

theorem Agree.right {N N' : List Name} {ρ σ : Env S} (h : Agree (N ++ N') ρ σ) : Agree N' ρ σ :=
  fun x hx => h x (List.mem_append_right _ hx)

theorem Agree.bind {N : List Name} {ρ σ : Env S} (h : Agree N ρ σ) (xs : List Name) (vs : List S.V) :
    Agree N (bindVars xs vs ρ) (bindVars xs vs σ) := fun x hx => bindVars_agree xs vs (h x hx)

theorem Agree.hoist {N : List Name} {ρ σ : Env S} (h : Agree N ρ σ) (b : Stmts) :
    Agree N (hoist b ρ) (hoist b σ) := fun x hx => hoist_agree b (h x hx)

theorem bindPat_agree {p : Nat} {xs : List Name} {v : S.V} {N : List Name} {ρ σ : Env S}
    (h : Agree N ρ σ) {f g : Env S → M S β} (hfg : ∀ ρ' σ', Agree N ρ' σ' → f ρ' = g σ') :
    (bindPat p xs v ρ).bind f = (bindPat p xs v σ).bind g := by
  unfold bindPat
  cases S.pat p v with
  | some vs => exact hfg _ _ (h.bind xs vs)
  | none => rfl

mutual

theorem congE (k : Nat) : ∀ (e : Expr) (ρ σ : Env S), Agree (namesE e) ρ σ → eval k e ρ = eval k e σ
  | .var x, ρ, σ, h => by simp only [eval]; rw [h x (by simp [namesE])]
  | .prim n us as, ρ, σ, h => by
    simp only [eval, namesE] at *
    rw [congL k as ρ σ h.right, List.map_congr_left fun x hx => h.left x hx]
  | .assign n l r, ρ, σ, h => by
    simp only [eval, namesE] at *
    rw [congE k r ρ σ h.right, congE k l ρ σ h.left]
  | .lzy isAnd a b, ρ, σ, h => by
    simp only [eval, namesE] at *
    rw [congE k a ρ σ h.left, congE k b ρ σ h.right]
  | .ite c t e, ρ, σ, h => by
    simp only [eval, namesE] at *
    exact congC k c ρ σ (namesE t) h.left _ _ (fun ρ' σ' h' => congE k t ρ' σ' h')
      (congE k e ρ σ h.right)
  | .ifn c t, ρ, σ, h => by
    simp only [eval, namesE] at *
    exact congC k c ρ σ (namesE t) h _ _
      (fun ρ' σ' h' => by simp only [congE k t ρ' σ' h']) rfl
  | .mtch e as, ρ, σ, h => by
    simp only [eval, namesE] at *
    rw [congE k e ρ σ h.left]
    exact M.bind_congr fun v => congA k as v ρ σ h.right
  | .block none b, ρ, σ, h => by
    simp only [eval, namesE] at *
    exact congS k b _ _ (h.hoist b)
  | .block (some (l, t)) b, ρ, σ, h => by
    simp only [eval, namesE] at *
    rw [congS k b _ _ (h.hoist b)]
  | .lp _ t b, ρ, σ, h => by
    simp only [eval, namesE] at *
    rw [congS k b _ _ (h.hoist b)]
  | .whl _ t c b, ρ, σ, h => by
    simp only [eval, namesE] at *
    congr 1
    exact congC k c ρ σ (namesS b) h _ _ (fun ρ' σ' h' => congS k b _ _ (h'.hoist b)) rfl
  | .forE _ t p xs it b, ρ, σ, h => by
    simp only [eval, namesE] at *
    rw [congE k it ρ σ h.left]
    refine M.bind_congr fun v => ?_
    congr 1
    refine M.bind_congr fun o => ?_
    cases o with
    | none => rfl
    | some x => exact bindPat_agree h.right fun ρ' σ' h' => congS k b _ _ (h'.hoist b)
  | .cont _ t, ρ, σ, h => by simp only [eval]
  | .brk _ t e, ρ, σ, h => by
    simp only [eval, namesE] at *
    rw [congL k e ρ σ h]
  | .ret e, ρ, σ, h => by
    simp only [eval, namesE] at *
    rw [congL k e ρ σ h]

theorem congC (k : Nat) {β : Type} : ∀ (c : Cond) (ρ σ : Env S) (N : List Name),
    Agree (namesC c ++ N) ρ σ → ∀ (f g : Option (Env S) → M S β),
    (∀ ρ' σ', Agree N ρ' σ' → f (some ρ') = g (some σ')) → f none = g none →
    (evalC k c ρ).bind f = (evalC k c σ).bind g
  | .test e, ρ, σ, N, h, f, g, hs, hn => by
    simp only [evalC, namesC] at *
    rw [congE k e ρ σ h.left, M.bind_assoc, M.bind_assoc]
    refine M.bind_congr fun v => ?_
    simp only [M.pure_bind]
    split
    · exact hs _ _ h.right
    · exact hn
  | .letP p xs e, ρ, σ, N, h, f, g, hs, hn => by
    simp only [evalC, namesC] at *
    rw [congE k e ρ σ h.left, M.bind_assoc, M.bind_assoc]
    refine M.bind_congr fun v => ?_
    simp only [M.pure_bind]
    cases S.pat p v with
    | none => exact hn
    | some vs => exact hs _ _ (h.right.bind xs vs)
  | .nextP p xs e, ρ, σ, N, h, f, g, hs, hn => by
    simp only [evalC, namesC] at *
    rw [congE k e ρ σ h.left, M.bind_assoc, M.bind_assoc]
    refine M.bind_congr fun v => ?_
    rw [M.bind_assoc, M.bind_assoc]
    refine M.bind_congr fun o => ?_
    cases o with
    | none => exact hn
    | some x =>
      simp only [M.bind_assoc, M.pure_bind]
      exact bindPat_agree h.right hs
  | .and a b, ρ, σ, N, h, f, g, hs, hn => by
    simp only [evalC, namesC, List.append_assoc] at *
    rw [M.bind_assoc, M.bind_assoc]
    exact congC k a ρ σ (namesC b ++ N) h _ _ (fun ρ' σ' h' => congC k b ρ' σ' N h' f g hs hn) hn

theorem congL (k : Nat) : ∀ (es : Exprs) (ρ σ : Env S), Agree (namesL es) ρ σ →
    evalL k es ρ = evalL k es σ
  | .nil, ρ, σ, h => by simp only [evalL]
  | .cons e es, ρ, σ, h => by
    simp only [evalL, namesL] at *
    rw [congE k e ρ σ h.left, congL k es ρ σ h.right]

theorem congA (k : Nat) : ∀ (as : Arms) (v : S.V) (ρ σ : Env S), Agree (namesA as) ρ σ →
    evalA k as v ρ = evalA k as v σ
  | .nil, v, ρ, σ, h => by simp only [evalA]
  | .arm p xs body rest, v, ρ, σ, h => by
    simp only [evalA, namesA] at *
    cases S.pat p v with
    | some vs => exact congE k body _ _ (h.left.bind xs vs)
    | none => exact congA k rest v ρ σ h.right
  | .armIf p xs g body rest, v, ρ, σ, h => by
    simp only [evalA, namesA] at *
    cases S.pat p v with
    | some vs =>
      exact congC k g _ _ (namesE body) (h.left.bind xs vs) _ _
        (fun ρ' σ' h' => congE k body ρ' σ' h') (congA k rest v ρ σ h.right)
    | none => exact congA k rest v ρ σ h.right

theorem congS (k : Nat) : ∀ (b : Stmts) (ρ σ : Env S), Agree (namesS b) ρ σ →
    evalS k b ρ = evalS k b σ
  | .done, ρ, σ, h => by simp only [evalS]
  | .tail e, ρ, σ, h => by simp only [evalS, namesS] at *; exact congE k e ρ σ h
  | .semi e r, ρ, σ, h => by
    simp only [evalS, namesS] at *
    rw [congE k e ρ σ h.left, congS k r ρ σ h.right]
  | .expr e r, ρ, σ, h => by
    simp only [evalS, namesS] at *
    rw [congE k e ρ σ h.left, congS k r ρ σ h.right]
  | .letS p xs e r, ρ, σ, h => by
    simp only [evalS, namesS] at *
    rw [congE k e ρ σ h.left]
    exact M.bind_congr fun v => bindPat_agree h.right fun ρ' σ' h' => congS k r ρ' σ' h'
  | .letElse p xs e els r, ρ, σ, h => by
    simp only [evalS, namesS] at *
    rw [congE k e ρ σ h.left.left]
    refine M.bind_congr fun v => ?_
    cases S.pat p v with
    | some vs => exact congS k r _ _ (h.right.bind xs vs)
    | none => simp only; rw [congS k els _ _ (h.left.right.hoist els)]
  | .item x n r, ρ, σ, h => by simp only [evalS, namesS] at *; exact congS k r ρ σ h

end

end Verif.Ctrl
