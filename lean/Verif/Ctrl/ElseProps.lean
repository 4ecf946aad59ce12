import Verif.Ctrl.Else
import Verif.Ctrl.NamesFacts

/-!
# Redundant `else`: moving the block out keeps the meaning
-/

namespace Verif.Ctrl.Else
open Verif.Ctrl
variable {S : Sem}

/-! ## Expressions without value -/

mutual

theorem neverE_sound {never : Expr → Bool} (hn : NeverSound S never) (k : Nat) :
    ∀ (e : Expr) (ρ : Env S), neverE never e = true → NoValue (eval k e ρ)
  | .brk _ t e, ρ, _ => by simp only [eval]; exact NoValue.bind_right _ fun _ => NoValue.throw _
  | .cont _ t, ρ, _ => by simp only [eval]; exact NoValue.throw _
  | .ret e, ρ, _ => by simp only [eval]; exact NoValue.bind_right _ fun _ => NoValue.throw _
  | .block none b, ρ, h => by
    simp only [neverE] at h
    cases hb : neverS never b with
    | none => rw [hb] at h; exact fun w v w' => hn _ h k ρ w v w'
    | some x =>
      rw [hb] at h
      simp only [Option.getD_some] at h
      subst h
      simp only [eval]
      exact neverS_sound hn k b _ hb
  | .block (some l) b, ρ, h => fun w v w' => hn _ (by simpa only [neverE] using h) k ρ w v w'
  | .mtch e arms, ρ, h => by
    simp only [neverE] at h
    simp only [eval]
    exact NoValue.bind_right _ fun v => neverA_sound hn k arms v ρ h
  | .ite c t e, ρ, h => by
    simp only [neverE, Bool.and_eq_true] at h
    simp only [eval]
    refine NoValue.bind_right _ fun r => ?_
    cases r with
    | some ρ' => exact neverE_sound hn k t ρ' h.1
    | none => exact neverE_sound hn k e ρ h.2
  | .prim _ _ _, ρ, h => fun w v w' => hn _ (by simpa only [neverE] using h) k ρ w v w'
  | .lzy _ _ _, ρ, h => fun w v w' => hn _ (by simpa only [neverE] using h) k ρ w v w'
  | .lp _ _ _, ρ, h => fun w v w' => hn _ (by simpa only [neverE] using h) k ρ w v w'
  | .whl _ _ _ _, ρ, h => fun w v w' => hn _ (by simpa only [neverE] using h) k ρ w v w'
  | .var _, ρ, h => fun w v w' => hn _ (by simpa only [neverE] using h) k ρ w v w'
  | .forE _ _ _ _ _ _, _, h => by simp [neverE] at h
  | .assign _ _ _, _, h => by simp [neverE] at h
  | .ifn _ _, _, h => by simp [neverE] at h

theorem neverA_sound {never : Expr → Bool} (hn : NeverSound S never) (k : Nat) :
    ∀ (as : Arms) (v : S.V) (ρ : Env S), neverA never as = true → NoValue (evalA k as v ρ)
  | .nil, v, ρ, _ => by simp only [evalA]; exact NoValue.throw _
  | .arm p xs body rest, v, ρ, h => by
    simp only [neverA, Bool.and_eq_true] at h
    simp only [evalA]
    cases S.pat p v with
    | some vs => exact neverE_sound hn k body _ h.1
    | none => exact neverA_sound hn k rest v ρ h.2
  | .armIf p xs g body rest, v, ρ, h => by
    simp only [neverA, Bool.and_eq_true] at h
    simp only [evalA]
    cases S.pat p v with
    | some vs =>
      refine NoValue.bind_right _ fun r => ?_
      cases r with
      | some ρ' => exact neverE_sound hn k body _ h.1
      | none => exact neverA_sound hn k rest v ρ h.2
    | none => exact neverA_sound hn k rest v ρ h.2

theorem neverS_sound {never : Expr → Bool} (hn : NeverSound S never) (k : Nat) :
    ∀ (b : Stmts) (ρ : Env S), neverS never b = some true → NoValue (evalS k b ρ)
  | .done, _, h => by simp [neverS] at h
  | .tail e, ρ, h => by
    simp only [neverS, Option.some.injEq] at h
    simp only [evalS]
    exact neverE_sound hn k e ρ h
  | .semi e r, ρ, h => by
    simp only [neverS] at h; simp only [evalS]
    exact NoValue.bind_right _ fun _ => neverS_sound hn k r ρ h
  | .expr e r, ρ, h => by
    simp only [neverS] at h; simp only [evalS]
    exact NoValue.bind_right _ fun _ => neverS_sound hn k r ρ h
  | .letS p xs e r, ρ, h => by
    simp only [neverS] at h; simp only [evalS]
    exact NoValue.bind_right _ fun _ => NoValue.bind_right _ fun ρ' => neverS_sound hn k r ρ' h
  | .letElse p xs e els r, ρ, h => by
    simp only [neverS] at h; simp only [evalS]
    refine NoValue.bind_right _ fun v => ?_
    cases S.pat p v with
    | some vs => exact neverS_sound hn k r _ h
    | none => exact NoValue.bind_right _ fun _ => NoValue.throw _
  | .item x n r, ρ, h => by
    simp only [neverS] at h; simp only [evalS]
    exact neverS_sound hn k r ρ h

end

mutual

theorem macE_sound {here : Expr → Bool} (k : Nat) :
    ∀ (e : Expr) (ρ : Env S), macE here e = true → NoValue (eval k e ρ)
  | .brk _ t e, ρ, _ => by simp only [eval]; exact NoValue.bind_right _ fun _ => NoValue.throw _
  | .cont _ t, ρ, _ => by simp only [eval]; exact NoValue.throw _
  | .ret e, ρ, _ => by simp only [eval]; exact NoValue.bind_right _ fun _ => NoValue.throw _
  | .block none b, ρ, h => by
    simp only [macE, Bool.and_eq_true] at h
    simp only [eval]
    exact macS_sound k b _ h.2
  | .mtch e arms, ρ, h => by
    simp only [macE] at h
    simp only [eval]
    exact NoValue.bind_right _ fun v => macA_sound k arms v ρ h
  | .ite c t e, ρ, h => by
    simp only [macE, Bool.and_eq_true] at h
    simp only [eval]
    refine NoValue.bind_right _ fun r => ?_
    cases r with
    | some ρ' => exact macE_sound k t ρ' h.1.2
    | none => exact macE_sound k e ρ h.2
  | .block (some _) _, _, h => by simp [macE] at h
  | .prim _ _ _, _, h => by simp [macE] at h
  | .lzy _ _ _, _, h => by simp [macE] at h
  | .lp _ _ _, _, h => by simp [macE] at h
  | .whl _ _ _ _, _, h => by simp [macE] at h
  | .var _, _, h => by simp [macE] at h
  | .forE _ _ _ _ _ _, _, h => by simp [macE] at h
  | .assign _ _ _, _, h => by simp [macE] at h
  | .ifn _ _, _, h => by simp [macE] at h

theorem macA_sound {here : Expr → Bool} (k : Nat) :
    ∀ (as : Arms) (v : S.V) (ρ : Env S), macA here as = true → NoValue (evalA k as v ρ)
  | .nil, v, ρ, _ => by simp only [evalA]; exact NoValue.throw _
  | .arm p xs body rest, v, ρ, h => by
    simp only [macA, Bool.and_eq_true] at h
    simp only [evalA]
    cases S.pat p v with
    | some vs => exact macE_sound k body _ h.1.2
    | none => exact macA_sound k rest v ρ h.2
  | .armIf p xs g body rest, v, ρ, h => by
    simp only [macA, Bool.and_eq_true] at h
    simp only [evalA]
    cases S.pat p v with
    | some vs =>
      refine NoValue.bind_right _ fun r => ?_
      cases r with
      | some ρ' => exact macE_sound k body _ h.1.2
      | none => exact macA_sound k rest v ρ h.2
    | none => exact macA_sound k rest v ρ h.2

theorem macS_sound {here : Expr → Bool} (k : Nat) :
    ∀ (b : Stmts) (ρ : Env S), macS here b = true → NoValue (evalS k b ρ)
  | .done, _, h => by simp [macS] at h
  | .tail e, ρ, h => by
    simp only [macS, Bool.and_eq_true] at h
    simp only [evalS]
    exact macE_sound k e ρ h.2
  | .semi e r, ρ, h => by
    simp only [macS] at h; simp only [evalS]
    split at h
    · simp only [Bool.and_eq_true] at h
      exact NoValue.bind_left _ (macE_sound k e ρ h.2)
    · exact NoValue.bind_right _ fun _ => macS_sound k r ρ h
  | .expr e r, ρ, h => by
    simp only [macS] at h; simp only [evalS]
    split at h
    · simp only [Bool.and_eq_true] at h
      exact NoValue.bind_left _ (macE_sound k e ρ h.2)
    · exact NoValue.bind_right _ fun _ => macS_sound k r ρ h
  | .letS p xs e r, ρ, h => by
    simp only [macS] at h; simp only [evalS]
    exact NoValue.bind_right _ fun _ => NoValue.bind_right _ fun ρ' => macS_sound k r ρ' h
  | .letElse p xs e els r, ρ, h => by
    simp only [macS] at h; simp only [evalS]
    refine NoValue.bind_right _ fun v => ?_
    cases S.pat p v with
    | some vs => exact macS_sound k r _ h
    | none => exact NoValue.bind_right _ fun _ => NoValue.throw _
  | .item x n r, ρ, h => by
    simp only [macS] at h; simp only [evalS]
    exact macS_sound k r ρ h

end

/-- **C73** (no value): a branch that counts as one that is never left at its end has no value. -/
theorem isNever_sound {never here : Expr → Bool} (hn : NeverSound S never) (root : Bool) :
    NeverSound S (isNever never here root) := by
  intro e h k ρ w v w'
  unfold isNever at h
  split at h
  · exact neverE_sound hn k e ρ h w v w'
  · exact macE_sound k e ρ h w v w'

/-! ## Moving the block out -/

theorem noValue_bind {α β γ : Type} {m : M S α} (h : NoValue m) (f : α → M S β) (g : α → M S γ) :
    (∀ q : γ → M S β, (m.bind g).bind q = m.bind f) := by
  intro q
  rw [M.bind_assoc]
  funext w
  cases hw : m w with
  | mk r w1 =>
    cases r with
    | ok a => exact absurd hw (h _ _ _)
    | error x => rw [M.bind_of_error _ hw, M.bind_of_error _ hw]

theorem asBlock_some {e : Expr} {b : Stmts} (h : asBlock e = some b) : e = .block none b := by
  unfold asBlock at h
  split at h
  · cases h; rfl
  · cases h

/-- The chain without its last `else`, followed by the block, is the chain. -/
theorem peel_eval {isNever here : Expr → Bool} (hn : NeverSound S isNever) (k : Nat) :
    ∀ (e : Expr) {r : Expr × Stmts} (ρ : Env S), peel isNever here e = some r →
    eval k e ρ = (eval k r.1 ρ).bind fun _ => evalB k r.2 ρ
  | .ite c t e, r, ρ, h => by
    simp only [peel] at h
    split at h
    · next hc =>
      simp only [Bool.and_eq_true] at hc
      have ht : ∀ ρ' : Env S, NoValue (eval k t ρ') := fun ρ' w v w' => hn t hc.1.1 k ρ' w v w'
      cases hb : asBlock e with
      | some b =>
        rw [hb] at h
        cases h
        rw [asBlock_some hb]
        simp only [eval, M.bind_assoc]
        refine M.bind_congr fun o => ?_
        cases o with
        | none => rfl
        | some ρ' =>
          simp only
          rw [noValue_bind (ht ρ') M.pure, M.bind_pure]
      | none =>
        rw [hb] at h
        simp only [Option.map_eq_some_iff] at h
        obtain ⟨r1, h1, rfl⟩ := h
        simp only [eval, M.bind_assoc]
        refine M.bind_congr fun o => ?_
        cases o with
        | none => exact peel_eval hn k e ρ h1
        | some ρ' =>
          simp only
          have := noValue_bind (ht ρ') M.pure M.pure fun _ => evalB k r1.2 ρ
          rw [M.bind_pure] at this
          exact this.symm
    · cases h
  | .var _, _, _, h => by simp [peel] at h
  | .prim _ _ _, _, _, h => by simp [peel] at h
  | .assign _ _ _, _, _, h => by simp [peel] at h
  | .lzy _ _ _, _, _, h => by simp [peel] at h
  | .ifn _ _, _, _, h => by simp [peel] at h
  | .mtch _ _, _, _, h => by simp [peel] at h
  | .block _ _, _, _, h => by simp [peel] at h
  | .lp _ _ _, _, _, h => by simp [peel] at h
  | .whl _ _ _ _, _, _, h => by simp [peel] at h
  | .forE _ _ _ _ _ _, _, _, h => by simp [peel] at h
  | .cont _ _, _, _, h => by simp [peel] at h
  | .brk _ _ _, _, _, h => by simp [peel] at h
  | .ret _, _, _, h => by simp [peel] at h

theorem peel_names {isNever here : Expr → Bool} : ∀ (e : Expr) {r : Expr × Stmts},
    peel isNever here e = some r → lastElse e = some r.2 ∧ ∀ x ∈ namesE r.1, x ∈ namesIf e
  | .ite c t e, r, h => by
    simp only [peel] at h
    split at h
    · cases hb : asBlock e with
      | some b =>
        rw [hb] at h
        cases h
        rw [asBlock_some hb]
        refine ⟨by simp only [lastElse], fun x hx => ?_⟩
        simp only [namesE, namesIf] at *
        simpa using hx
      | none =>
        rw [hb] at h
        simp only [Option.map_eq_some_iff] at h
        obtain ⟨r1, h1, rfl⟩ := h
        obtain ⟨h2, h3⟩ := peel_names e h1
        refine ⟨by simp only [lastElse, h2], fun x hx => ?_⟩
        simp only [namesE, namesIf, List.mem_append] at *
        exact hx.imp id (h3 x)
    · cases h
  | .var _, _, h => by simp [peel] at h
  | .prim _ _ _, _, h => by simp [peel] at h
  | .assign _ _ _, _, h => by simp [peel] at h
  | .lzy _ _ _, _, h => by simp [peel] at h
  | .ifn _ _, _, h => by simp [peel] at h
  | .mtch _ _, _, h => by simp [peel] at h
  | .block _ _, _, h => by simp [peel] at h
  | .lp _ _ _, _, h => by simp [peel] at h
  | .whl _ _ _ _, _, h => by simp [peel] at h
  | .forE _ _ _ _ _ _, _, h => by simp [peel] at h
  | .cont _ _, _, h => by simp [peel] at h
  | .brk _ _ _, _, h => by simp [peel] at h
  | .ret _, _, h => by simp [peel] at h

theorem pour_eval {semi : Expr → Bool} {k : Nat} {r : Stmts} (ρ : Env S) : ∀ (b : Stmts) (σ : Env S),
    Agree (namesS r) σ ρ → (∀ x ∈ namesS r, x ∉ declares b) →
    evalS k (pour semi b r) σ = (evalS k b σ).bind fun _ => evalS k r ρ
  | .done, σ, ha, _ => by
    simp only [pour, evalS, M.pure_bind]
    exact congS k _ σ ρ ha
  | .tail e, σ, ha, _ => by
    simp only [pour]
    split
    · simp only [evalS]; exact M.bind_congr fun _ => congS k _ σ ρ ha
    · simp only [evalS]; exact M.bind_congr fun _ => congS k _ σ ρ ha
  | .semi e b, σ, ha, hd => by
    simp only [pour, evalS, M.bind_assoc]
    exact M.bind_congr fun _ => pour_eval ρ b σ ha (by simpa [declares] using hd)
  | .expr e b, σ, ha, hd => by
    simp only [pour, evalS, M.bind_assoc]
    exact M.bind_congr fun _ => pour_eval ρ b σ ha (by simpa [declares] using hd)
  | .letS p xs e b, σ, ha, hd => by
    simp only [declares, List.mem_append, not_or] at hd
    simp only [pour, evalS, M.bind_assoc]
    refine M.bind_congr fun v => ?_
    unfold bindPat
    cases S.pat p v with
    | none => rfl
    | some vs =>
      exact pour_eval ρ b _ (fun x hx => (bindVars_other xs vs σ (hd x hx).1).trans (ha x hx))
        fun x hx => (hd x hx).2
  | .letElse p xs e els b, σ, ha, hd => by
    simp only [declares, List.mem_append, not_or] at hd
    simp only [pour, evalS, M.bind_assoc]
    refine M.bind_congr fun v => ?_
    cases S.pat p v with
    | none => simp only [M.bind_assoc, M.throw_bind]
    | some vs =>
      exact pour_eval ρ b _ (fun x hx => (bindVars_other xs vs σ (hd x hx).1).trans (ha x hx))
        fun x hx => (hd x hx).2
  | .item x n b, σ, ha, hd => by
    simp only [pour, evalS]
    refine pour_eval ρ b σ ha fun y hy => ?_
    have := hd y hy
    simp only [declares, List.mem_cons, not_or] at this
    exact this.2

theorem pour_hoist {semi : Expr → Bool} {r : Stmts} : ∀ (b : Stmts) (ρ : Env S),
    hoist (pour semi b r) ρ = hoist r (hoist b ρ)
  | .done, ρ => by simp only [pour, hoist]
  | .tail e, ρ => by simp only [pour]; split <;> simp only [hoist]
  | .semi e b, ρ => by simp only [pour, hoist]; exact pour_hoist b ρ
  | .expr e b, ρ => by simp only [pour, hoist]; exact pour_hoist b ρ
  | .letS p xs e b, ρ => by simp only [pour, hoist]; exact pour_hoist b ρ
  | .letElse p xs e els b, ρ => by simp only [pour, hoist]; exact pour_hoist b ρ
  | .item x n b, ρ => by simp only [pour, hoist]; exact pour_hoist b _

theorem hoist_item {x : Name} : ∀ (b : Stmts), x ∈ items b → ∀ (ρ σ : Env S), hoist b ρ x = hoist b σ x
  | .done, h, _, _ => by simp [items] at h
  | .tail _, h, _, _ => by simp [items] at h
  | .semi _ r, h, ρ, σ => by simp only [hoist]; exact hoist_item r h ρ σ
  | .expr _ r, h, ρ, σ => by simp only [hoist]; exact hoist_item r h ρ σ
  | .letS _ _ _ r, h, ρ, σ => by simp only [hoist]; exact hoist_item r h ρ σ
  | .letElse _ _ _ _ r, h, ρ, σ => by simp only [hoist]; exact hoist_item r h ρ σ
  | .item y n r, h, ρ, σ => by
    simp only [hoist]
    by_cases hr : x ∈ items r
    · exact hoist_item r hr _ _
    · simp only [items, List.mem_cons, hr, or_false] at h
      rw [hoist_other r _ hr, hoist_other r _ hr, h]
      simp

/-- Items and variables with different names can be declared in any order. -/
theorem hoist_bind {b : Stmts} {xs : List Name} (h : ∀ x ∈ items b, x ∉ xs) (vs : List S.V)
    (ρ : Env S) : bindVars xs vs (hoist b ρ) = hoist b (bindVars xs vs ρ) := by
  funext x
  by_cases hx : x ∈ items b
  · rw [bindVars_other xs vs _ (h x hx)]; exact hoist_item b hx _ _
  · rw [hoist_other b _ hx]; exact bindVars_agree xs vs (hoist_other b _ hx)

theorem hoist_hoist {b c : Stmts} (h : ∀ x ∈ items b, x ∉ items c) (ρ : Env S) :
    hoist c (hoist b ρ) = hoist b (hoist c ρ) := by
  funext x
  by_cases hx : x ∈ items b
  · rw [hoist_other c _ (h x hx)]; exact hoist_item b hx _ _
  · rw [hoist_other b _ hx]; exact hoist_agree c (hoist_other b _ hx)

theorem items_declares {x : Name} : ∀ (b : Stmts), x ∈ items b → x ∈ declares b
  | .done, h => h
  | .tail _, h => h
  | .semi _ r, h => items_declares r h
  | .expr _ r, h => items_declares r h
  | .letS _ _ _ r, h => List.mem_append_right _ (items_declares r h)
  | .letElse _ _ _ _ r, h => List.mem_append_right _ (items_declares r h)
  | .item y _ r, h => by
    simp only [items, declares, List.mem_cons] at *
    exact h.imp id (items_declares r)

theorem agree_hoist {N : List Name} {B : Stmts} (h : ∀ x ∈ items B, x ∉ N) (ρ : Env S) :
    Agree N (hoist B ρ) ρ := fun x hx => hoist_other B ρ fun hx' => h x hx' hx

theorem liftAt_eval {isNever here : Expr → Bool} (hn : NeverSound S isNever) {k : Nat} :
    ∀ (b : Stmts) (i : Nat) {b' : Stmts}, liftAt isNever here b i = some b' → MovableOut b i →
    ∃ e B, stmtAt b i = some e ∧ lastElse e = some B ∧
      (∀ ρ : Env S, hoist b' ρ = hoist b (hoist B ρ)) ∧
      ∀ ρ : Env S, evalS k b' (hoist B ρ) = evalS k b ρ
  | .tail e, 0, b', h, hm => by
    simp only [liftAt, Option.map_eq_some_iff] at h
    obtain ⟨⟨e', B⟩, h, rfl⟩ := h
    obtain ⟨hl, hN⟩ := peel_names e h
    obtain ⟨h1, h2⟩ := hm e B rfl hl
    refine ⟨e, B, rfl, hl, fun ρ => by simp only [hoist], fun ρ => ?_⟩
    simp only [evalS]
    rw [peel_eval hn k e ρ h, congE k e' (hoist B ρ) ρ
      (agree_hoist (fun x hx hx' => (h1 x hx).2.1 (hN x hx')) ρ)]
    rfl
  | .expr e q, 0, b', h, hm => by
    simp only [liftAt, Option.map_eq_some_iff] at h
    obtain ⟨⟨e', B⟩, h, rfl⟩ := h
    obtain ⟨hl, hN⟩ := peel_names e h
    obtain ⟨h1, h2⟩ := hm e B rfl hl
    refine ⟨e, B, rfl, hl, fun ρ => by simp only [hoist, pour_hoist], fun ρ => ?_⟩
    simp only [evalS]
    rw [peel_eval hn k e ρ h, congE k e' (hoist B ρ) ρ
      (agree_hoist (fun x hx hx' => (h1 x hx).2.1 (hN x hx')) ρ), M.bind_assoc]
    refine M.bind_congr fun _ => ?_
    exact pour_eval ρ B _ (agree_hoist (fun x hx hx' => h2 x hx' (items_declares B hx)) ρ) h2
  | .semi e q, 0, b', h, hm => by
    simp only [liftAt, Option.map_eq_some_iff] at h
    obtain ⟨⟨e', B⟩, h, rfl⟩ := h
    obtain ⟨hl, hN⟩ := peel_names e h
    obtain ⟨h1, h2⟩ := hm e B rfl hl
    refine ⟨e, B, rfl, hl, fun ρ => by simp only [hoist, pour_hoist], fun ρ => ?_⟩
    simp only [evalS]
    rw [peel_eval hn k e ρ h, congE k e' (hoist B ρ) ρ
      (agree_hoist (fun x hx hx' => (h1 x hx).2.1 (hN x hx')) ρ), M.bind_assoc]
    refine M.bind_congr fun _ => ?_
    exact pour_eval ρ B _ (agree_hoist (fun x hx hx' => h2 x hx' (items_declares B hx)) ρ) h2
  | .semi e q, i + 1, b', h, hm => by
    simp only [liftAt, Option.map_eq_some_iff] at h
    obtain ⟨b1, h, rfl⟩ := h
    have hm' : MovableOut q i := fun e0 B hs hl => by
      obtain ⟨h1, h2⟩ := hm e0 B (by simpa only [stmtAt] using hs) hl
      refine ⟨fun x hx => ?_, by simpa only [after] using h2⟩
      have := h1 x hx
      simp only [before, declares, List.mem_append, List.mem_cons, not_or] at this
      exact ⟨this.1.2, this.2⟩
    obtain ⟨e0, B, hs, hl, h1, h2⟩ := liftAt_eval hn q i h hm'
    have hd := (hm e0 B (by simpa only [stmtAt] using hs) hl).1
    simp only [before, declares, List.mem_append, List.mem_cons, not_or] at hd
    refine ⟨e0, B, by simpa only [stmtAt] using hs, hl, fun ρ => ?_, fun ρ => ?_⟩
    · simp only [hoist]; exact h1 ρ
    · simp only [evalS]
      rw [congE k e (hoist B ρ) ρ (agree_hoist (fun x hx => (hd x hx).1.1) ρ)]
      exact M.bind_congr fun _ => h2 ρ
  | .expr e q, i + 1, b', h, hm => by
    simp only [liftAt, Option.map_eq_some_iff] at h
    obtain ⟨b1, h, rfl⟩ := h
    have hm' : MovableOut q i := fun e0 B hs hl => by
      obtain ⟨h1, h2⟩ := hm e0 B (by simpa only [stmtAt] using hs) hl
      refine ⟨fun x hx => ?_, by simpa only [after] using h2⟩
      have := h1 x hx
      simp only [before, declares, List.mem_append, List.mem_cons, not_or] at this
      exact ⟨this.1.2, this.2⟩
    obtain ⟨e0, B, hs, hl, h1, h2⟩ := liftAt_eval hn q i h hm'
    have hd := (hm e0 B (by simpa only [stmtAt] using hs) hl).1
    simp only [before, declares, List.mem_append, List.mem_cons, not_or] at hd
    refine ⟨e0, B, by simpa only [stmtAt] using hs, hl, fun ρ => ?_, fun ρ => ?_⟩
    · simp only [hoist]; exact h1 ρ
    · simp only [evalS]
      rw [congE k e (hoist B ρ) ρ (agree_hoist (fun x hx => (hd x hx).1.1) ρ)]
      exact M.bind_congr fun _ => h2 ρ
  | .letS p xs e q, i + 1, b', h, hm => by
    simp only [liftAt, Option.map_eq_some_iff] at h
    obtain ⟨b1, h, rfl⟩ := h
    have hm' : MovableOut q i := fun e0 B hs hl => by
      obtain ⟨h1, h2⟩ := hm e0 B (by simpa only [stmtAt] using hs) hl
      refine ⟨fun x hx => ?_, by simpa only [after] using h2⟩
      have := h1 x hx
      simp only [before, declares, List.mem_append, List.mem_cons, not_or] at this
      exact ⟨this.1.2, this.2.1, this.2.2.2⟩
    obtain ⟨e0, B, hs, hl, h1, h2⟩ := liftAt_eval hn q i h hm'
    have hd := (hm e0 B (by simpa only [stmtAt] using hs) hl).1
    simp only [before, declares, List.mem_append, List.mem_cons, not_or] at hd
    refine ⟨e0, B, by simpa only [stmtAt] using hs, hl, fun ρ => ?_, fun ρ => ?_⟩
    · simp only [hoist]; exact h1 ρ
    · simp only [evalS]
      rw [congE k e (hoist B ρ) ρ (agree_hoist (fun x hx => (hd x hx).1.1) ρ)]
      refine M.bind_congr fun v => ?_
      unfold bindPat
      cases S.pat p v with
      | none => rfl
      | some vs =>
        simp only [M.pure_bind]
        rw [hoist_bind (fun x hx => (hd x hx).2.2.1)]
        exact h2 _
  | .letElse p xs e els q, i + 1, b', h, hm => by
    simp only [liftAt, Option.map_eq_some_iff] at h
    obtain ⟨b1, h, rfl⟩ := h
    have hm' : MovableOut q i := fun e0 B hs hl => by
      obtain ⟨h1, h2⟩ := hm e0 B (by simpa only [stmtAt] using hs) hl
      refine ⟨fun x hx => ?_, by simpa only [after] using h2⟩
      have := h1 x hx
      simp only [before, declares, List.mem_append, List.mem_cons, not_or] at this
      exact ⟨this.1.2, this.2.1, this.2.2.2⟩
    obtain ⟨e0, B, hs, hl, h1, h2⟩ := liftAt_eval hn q i h hm'
    have hd := (hm e0 B (by simpa only [stmtAt] using hs) hl).1
    simp only [before, declares, List.mem_append, List.mem_cons, not_or] at hd
    refine ⟨e0, B, by simpa only [stmtAt] using hs, hl, fun ρ => ?_, fun ρ => ?_⟩
    · simp only [hoist]; exact h1 ρ
    · simp only [evalS]
      rw [congE k e (hoist B ρ) ρ (agree_hoist (fun x hx => (hd x hx).1.1.1) ρ)]
      refine M.bind_congr fun v => ?_
      cases S.pat p v with
      | none =>
        simp only
        rw [congS k els _ _ ((agree_hoist (fun x hx => (hd x hx).1.1.2) ρ).hoist els)]
      | some vs =>
        simp only
        rw [hoist_bind (fun x hx => (hd x hx).2.2.1)]
        exact h2 _
  | .item x n q, i + 1, b', h, hm => by
    simp only [liftAt, Option.map_eq_some_iff] at h
    obtain ⟨b1, h, rfl⟩ := h
    have hm' : MovableOut q i := fun e0 B hs hl => by
      obtain ⟨h1, h2⟩ := hm e0 B (by simpa only [stmtAt] using hs) hl
      refine ⟨fun x hx => ?_, by simpa only [after] using h2⟩
      have := h1 x hx
      simp only [before, declares, List.mem_append, List.mem_cons, not_or] at this
      exact ⟨this.1, this.2.1, this.2.2.2⟩
    obtain ⟨e0, B, hs, hl, h1, h2⟩ := liftAt_eval hn q i h hm'
    have hd := (hm e0 B (by simpa only [stmtAt] using hs) hl).1
    simp only [before, declares, List.mem_append, List.mem_cons, not_or] at hd
    refine ⟨e0, B, by simpa only [stmtAt] using hs, hl, fun ρ => ?_, fun ρ => ?_⟩
    · simp only [hoist]; rw [h1]
      have hc : (fun y => if y = x then S.item n else hoist B ρ y) =
          hoist B (fun y => if y = x then S.item n else ρ y) := by
        have := hoist_hoist (S := S) (b := B) (c := .item x n .done)
          (fun y hy => by simpa [items] using (hd y hy).2.2.1) ρ
        simpa only [hoist] using this
      rw [hc]
    · simp only [evalS]
      exact h2 ρ
  | .done, 0, _, h, _ => by simp [liftAt] at h
  | .done, _ + 1, _, h, _ => by simp [liftAt] at h
  | .tail _, _ + 1, _, h, _ => by simp [liftAt] at h
  | .letS _ _ _ _, 0, _, h, _ => by simp [liftAt] at h
  | .letElse _ _ _ _ _, 0, _, h, _ => by simp [liftAt] at h
  | .item _ _ _, 0, _, h, _ => by simp [liftAt] at h

/-- **C73** (moving out): the block with the last `else` of a statement moved out does the same.
*Missing*: the case where the moved block declares an item that the block around mentions or
declares too, or anything that the statements after it mention; see `ElseWitness`. -/
theorem lift_same_partial {never here : Expr → Bool} (hn : NeverSound S never) (root : Bool)
    {b b' : Stmts} {i : Nat} (h : liftAt (isNever never here root) here b i = some b')
    (hm : MovableOut b i) (k : Nat) (ρ : Env S) : evalB k b' ρ = evalB k b ρ := by
  obtain ⟨e, B, hs, hl, h1, h2⟩ := liftAt_eval (k := k) (isNever_sound (here := here) hn root) b i h hm
  obtain ⟨h3, -⟩ := hm e B hs hl
  unfold evalB
  rw [h1, hoist_hoist (fun x hx hx' => (h3 x hx).2.2 (items_declares b hx'))]
  exact h2 _

theorem noLet_declares : ∀ (B : Stmts), noLet B = true → items B = [] → declares B = []
  | .done, _, _ => rfl
  | .tail _, _, _ => rfl
  | .semi _ r, h, h' => noLet_declares r h h'
  | .expr _ r, h, h' => noLet_declares r h h'
  | .letS _ _ _ _, h, _ => by simp [noLet] at h
  | .letElse _ _ _ _ _, h, _ => by simp [noLet] at h
  | .item _ _ _, _, h' => by simp [items] at h'

/-- **C73** (by machine): what is offered as applicable by machine does the same when the block
that moves declares no items. -/
theorem machine_same_partial {never here : Expr → Bool} (hn : NeverSound S never) (root : Bool)
    {b b' : Stmts} {i : Nat} (h : liftAt (isNever never here root) here b i = some b')
    (ha : ∀ e B, stmtAt b i = some e → lastElse e = some B → machine root B = true ∧ items B = [])
    (k : Nat) (ρ : Env S) : evalB k b' ρ = evalB k b ρ := by
  refine lift_same_partial hn root h (fun e B hs hl => ?_) k ρ
  obtain ⟨h1, h2⟩ := ha e B hs hl
  simp only [machine, Bool.and_eq_true] at h1
  exact ⟨by simp [h2], by simp [noLet_declares B h1.2 h2]⟩

/-- **C73** (at the end): when nothing follows, the `else` can move out whatever variables it
declares, if it declares no items. -/
theorem last_same_partial {never here : Expr → Bool} (hn : NeverSound S never) (root : Bool)
    {b b' : Stmts} {i : Nat} (h : liftAt (isNever never here root) here b i = some b')
    (hd : after b i = .done) (ha : ∀ e B, stmtAt b i = some e → lastElse e = some B → items B = [])
    (k : Nat) (ρ : Env S) : evalB k b' ρ = evalB k b ρ := by
  refine lift_same_partial hn root h (fun e B hs hl => ?_) k ρ
  exact ⟨by simp [ha e B hs hl], by simp [hd, namesS]⟩

end Verif.Ctrl.Else
