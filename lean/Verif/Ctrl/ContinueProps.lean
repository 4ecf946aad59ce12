import Verif.Ctrl.Continue
import Verif.Ctrl.NamesFacts
import Verif.Ctrl.Scope

/-!
# Needless `continue`: what the lint gets right
-/

namespace Verif.Ctrl
variable {S : Sem} {α β : Type}

/-! ## The end of a turn -/

/-- The outcome of a turn of the loop `t`: an end and a `continue` are the same. -/
def settled (t : Id) : Except (Exit S.V) S.V × S.W → Except (Exit S.V) S.V × S.W
  | (.ok _, w) => (.ok S.unit, w)
  | (.error (.cont u), w) => if u = t then (.ok S.unit, w) else (.error (.cont u), w)
  | r => r

/-- The two turns are the same for the loop `t`. -/
def Sim (t : Id) (m m' : M S S.V) : Prop := ∀ w, settled t (m w) = settled t (m' w)

theorem Sim.refl (t : Id) (m : M S S.V) : Sim t m m := fun _ => rfl

theorem Sim.of_eq {t : Id} {m m' : M S S.V} (h : m = m') : Sim t m m' := h ▸ Sim.refl t m

theorem Sim.trans {t : Id} {a b c : M S S.V} (h : Sim t a b) (h' : Sim t b c) : Sim t a c :=
  fun w => (h w).trans (h' w)

theorem Sim.symm {t : Id} {a b : M S S.V} (h : Sim t a b) : Sim t b a := fun w => (h w).symm

theorem Sim.bind {t : Id} (m : M S α) {f g : α → M S S.V} (h : ∀ a, Sim t (f a) (g a)) :
    Sim t (m.bind f) (m.bind g) := by
  intro w
  cases hw : m w with
  | mk r w1 =>
    cases r with
    | ok a => rw [M.bind_of_ok _ hw, M.bind_of_ok _ hw]; exact h a w1
    | error x => rw [M.bind_of_error _ hw, M.bind_of_error _ hw]

/-- Outcomes that are equal once settled. -/
theorem settled_cases {t : Id} {r r' : Except (Exit S.V) S.V × S.W} (h : settled t r = settled t r') :
    r = r' ∨ (r.2 = r'.2 ∧ (r.1 = .error (.cont t) ∨ ∃ v, r.1 = .ok v) ∧
      (r'.1 = .error (.cont t) ∨ ∃ v, r'.1 = .ok v)) := by
  have key : ∀ s : Except (Exit S.V) S.V × S.W, settled t s = s ∨
      (settled t s = (.ok S.unit, s.2) ∧ (s.1 = .error (.cont t) ∨ ∃ v, s.1 = .ok v)) := by
    intro s
    obtain ⟨s, w⟩ := s
    cases s with
    | ok v => exact .inr ⟨rfl, .inr ⟨v, rfl⟩⟩
    | error x =>
      cases x with
      | cont u =>
        unfold settled
        by_cases hu : u = t
        · subst hu; exact .inr ⟨by simp, .inl rfl⟩
        · exact .inl (by simp [hu])
      | _ => exact .inl rfl
  cases key r with
  | inl h1 =>
    cases key r' with
    | inl h2 => exact .inl (h1.symm.trans (h.trans h2))
    | inr h2 =>
      right
      have : r = (.ok S.unit, r'.2) := h1.symm.trans (h.trans h2.1)
      exact ⟨by rw [this], .inr ⟨S.unit, by rw [this]⟩, h2.2⟩
  | inr h1 =>
    cases key r' with
    | inl h2 =>
      right
      have : r' = (.ok S.unit, r.2) := h2.symm.trans (h.symm.trans h1.1)
      exact ⟨by rw [this], h1.2, .inr ⟨S.unit, by rw [this]⟩⟩
    | inr h2 =>
      right
      refine ⟨?_, h1.2, h2.2⟩
      have := h1.1.symm.trans (h.trans h2.1)
      exact (Prod.mk.inj this).2

theorem Sim.catchBrk {t u : Id} {m m' : M S S.V} (h : Sim t m m') :
    Sim t (M.catchBrk u m) (M.catchBrk u m') := by
  intro w
  cases settled_cases (h w) with
  | inl h => unfold M.catchBrk; rw [h]
  | inr hh =>
    have aux : ∀ (n : M S S.V), (n w).1 = .error (.cont t) ∨ (∃ v, (n w).1 = .ok v) →
        settled t (M.catchBrk u n w) = (.ok S.unit, (n w).2) := by
      intro n hn
      unfold M.catchBrk
      cases hq : n w with
      | mk r w1 =>
        rw [hq] at hn
        cases hn with
        | inl hn => simp only at hn; subst hn; simp [settled]
        | inr hn => obtain ⟨v, hn⟩ := hn; simp only at hn; subst hn; simp [settled]
    rw [aux m hh.2.1, aux m' hh.2.2, hh.1]

theorem Sim.discard {t : Id} {m m' : M S S.V} (h : Sim t m m') :
    Sim t (m.bind fun _ => M.pure S.unit) (m'.bind fun _ => M.pure S.unit) := by
  have aux : ∀ n : M S S.V, Sim t (n.bind fun _ => M.pure S.unit) n := by
    intro n w
    cases hw : n w with
    | mk r w1 =>
      cases r with
      | ok a => rw [M.bind_of_ok _ hw]; rfl
      | error x => rw [M.bind_of_error _ hw]
  exact (aux m).trans (h.trans (aux m').symm)

theorem iter_sim {t : Id} {m m' : M S S.V} (h : Sim t m m') : ∀ n, M.iter t m n = M.iter t m' n
  | 0 => rfl
  | n + 1 => by
    funext w
    have ih := iter_sim h n
    cases settled_cases (h w) with
    | inl h => unfold M.iter; rw [h, ih]
    | inr hh =>
      have aux : ∀ (p : M S S.V), (p w).1 = .error (.cont t) ∨ (∃ v, (p w).1 = .ok v) →
          M.iter t p (n + 1) w = M.iter t p n (p w).2 := by
        intro p hn
        simp only [M.iter]
        cases hq : p w with
        | mk r w1 =>
          rw [hq] at hn
          cases hn with
          | inl hn => simp only at hn; subst hn; simp
          | inr hn => obtain ⟨v, hn⟩ := hn; simp only at hn; subst hn; simp
      rw [aux m hh.2.1, aux m' hh.2.2, hh.1, ih]

end Verif.Ctrl

namespace Verif.Ctrl.Continue
open Verif.Ctrl
variable {S : Sem}

/-! ## Dropping `continue` -/

theorem compare_target {lab : Option Name} {id : Id} {c : List Around} {l : Option Name} {t : Id}
    (hc : compareLabels lab l = true) : ∀ {bs : List Around}, (∀ a ∈ bs, a.isLoop = false) →
    resolveC (bs ++ ⟨lab, id, true⟩ :: c) l = some t → t = id
  | [], _, h => by
    cases l with
    | none => simp [resolveC] at h; exact h.symm
    | some x =>
      cases lab with
      | none => cases hc
      | some y =>
        have : y = x := by simpa [compareLabels] using hc
        subst this
        simp [resolveC] at h
        exact h.symm
  | a :: bs, hb, h => by
    have ha := hb a List.mem_cons_self
    have ih := fun h => compare_target (id := id) (c := c) (t := t) hc (bs := bs) (fun a h => hb a (List.mem_cons_of_mem _ h)) h
    rw [List.cons_append] at h
    cases l with
    | none => simp [resolveC, ha] at h; exact ih h
    | some x =>
      unfold resolveC at h
      split at h
      · rw [ha] at h; simp at h
      · exact ih h

theorem hoist_dropS {unitTy : Expr → Bool} {lab : Option Name} {sel : List Nat → Bool} :
    ∀ (path : List Nat) (b : Stmts) (ρ : Env S), hoist (dropS unitTy lab sel path b) ρ = hoist b ρ
  | _, .done, _ => by simp only [dropS]
  | _, .tail _, _ => by simp only [dropS, hoist]
  | path, .semi e r, ρ => by
    simp only [dropS]
    split
    · simp only [hoist]
    · simp only [hoist]; exact hoist_dropS path r ρ
  | path, .expr e r, ρ => by
    simp only [dropS]
    split
    · simp only [hoist]
    · simp only [hoist]; exact hoist_dropS path r ρ
  | path, .letS _ _ _ r, ρ => by simp only [dropS, hoist]; exact hoist_dropS path r ρ
  | path, .letElse _ _ _ _ r, ρ => by simp only [dropS, hoist]; exact hoist_dropS path r ρ
  | path, .item _ _ r, ρ => by simp only [dropS, hoist]; exact hoist_dropS path r _

section
variable (unitTy : Expr → Bool) (lab : Option Name) (sel : List Nat → Bool) (id : Id)
  (c : List Around) (k : Nat)

theorem dropB_sim (path : List Nat) (l : Option (Name × Id)) (b : Stmts) (bs : List Around)
    (ρ : Env S) (hb : ∀ a ∈ bs, a.isLoop = false)
    (hs : scopedE (bs ++ ⟨lab, id, true⟩ :: c) (.block l b))
    (ih : ∀ (bs : List Around) (ρ : Env S), (∀ a ∈ bs, a.isLoop = false) →
      scopedS (bs ++ ⟨lab, id, true⟩ :: c) b →
      Sim id (evalS k b ρ) (evalS k (dropS unitTy lab sel path b) ρ)) :
    Sim id (eval k (.block l b) ρ) (eval k (.block l (dropS unitTy lab sel path b)) ρ) := by
  cases l with
  | none =>
    simp only [scopedE] at hs
    simp only [eval, hoist_dropS]
    exact ih bs _ hb hs
  | some l =>
    obtain ⟨l, u⟩ := l
    simp only [scopedE] at hs
    simp only [eval, hoist_dropS]
    refine (ih (⟨some l, u, false⟩ :: bs) _ ?_ hs.2).catchBrk
    intro a ha
    cases List.mem_cons.1 ha with
    | inl h => rw [h]
    | inr h => exact hb a h

mutual

theorem dropE_sim : ∀ (path : List Nat) (e : Expr) (bs : List Around) (ρ : Env S),
    (∀ a ∈ bs, a.isLoop = false) → scopedE (bs ++ ⟨lab, id, true⟩ :: c) e →
    Sim id (eval k e ρ) (eval k (dropE unitTy lab sel path e) ρ)
  | path, .cont l t, bs, ρ, hb, hs => by
    simp only [dropE]
    split
    · next h =>
      simp only [Bool.and_eq_true] at h
      simp only [scopedE] at hs
      have := compare_target h.1 hb hs
      subst this
      intro w
      simp [eval, Expr.unit, M.throw, settled, hoist, evalS, M.pure]
    · exact Sim.refl _ _
  | path, .ite q (.block l b) e, bs, ρ, hb, hs => by
    simp only [scopedE] at hs
    simp only [dropE]
    rw [eval, eval]
    refine Sim.bind _ fun r => ?_
    cases r with
    | some ρ' => exact dropB_sim unitTy lab sel id c k (0 :: path) l b bs ρ' hb hs.2.1 (fun bs ρ hb hs => dropS_sim (0 :: path) b bs ρ hb hs)
    | none => exact dropE_sim (1 :: path) e bs ρ hb hs.2.2
  | path, .ifn q (.block l b), bs, ρ, hb, hs => by
    simp only [scopedE] at hs
    simp only [dropE]
    rw [eval, eval]
    refine Sim.bind _ fun r => ?_
    cases r with
    | some ρ' => exact (dropB_sim unitTy lab sel id c k (0 :: path) l b bs ρ' hb hs.2
        (fun bs ρ hb hs => dropS_sim (0 :: path) b bs ρ hb hs)).discard
    | none => exact Sim.refl _ _
  | path, .mtch e arms, bs, ρ, hb, hs => by
    simp only [scopedE] at hs
    simp only [dropE]
    split
    · simp only [eval]
      exact Sim.bind _ fun v => dropA_sim (0 :: path) arms v bs ρ hb hs.2
    · exact Sim.refl _ _
  | path, .block l b, bs, ρ, hb, hs => by
    simp only [dropE]
    exact dropB_sim unitTy lab sel id c k (0 :: path) l b bs ρ hb hs
      (fun bs ρ hb hs => dropS_sim (0 :: path) b bs ρ hb hs)
  | _, .var _, _, _, _, _ => Sim.refl _ _
  | _, .prim _ _ _, _, _, _, _ => Sim.refl _ _
  | _, .assign _ _ _, _, _, _, _ => Sim.refl _ _
  | _, .lzy _ _ _, _, _, _, _ => Sim.refl _ _
  | _, .lp _ _ _, _, _, _, _ => Sim.refl _ _
  | _, .whl _ _ _ _, _, _, _, _ => Sim.refl _ _
  | _, .forE _ _ _ _ _ _, _, _, _, _ => Sim.refl _ _
  | _, .brk _ _ _, _, _, _, _ => Sim.refl _ _
  | _, .ret _, _, _, _, _ => Sim.refl _ _
  | _, .ite _ (.var _) _, _, _, _, _ => Sim.refl _ _
  | _, .ite _ (.prim _ _ _) _, _, _, _, _ => Sim.refl _ _
  | _, .ite _ (.assign _ _ _) _, _, _, _, _ => Sim.refl _ _
  | _, .ite _ (.lzy _ _ _) _, _, _, _, _ => Sim.refl _ _
  | _, .ite _ (.lp _ _ _) _, _, _, _, _ => Sim.refl _ _
  | _, .ite _ (.whl _ _ _ _) _, _, _, _, _ => Sim.refl _ _
  | _, .ite _ (.forE _ _ _ _ _ _) _, _, _, _, _ => Sim.refl _ _
  | _, .ite _ (.brk _ _ _) _, _, _, _, _ => Sim.refl _ _
  | _, .ite _ (.ret _) _, _, _, _, _ => Sim.refl _ _
  | _, .ite _ (.cont _ _) _, _, _, _, _ => Sim.refl _ _
  | _, .ite _ (.ite _ _ _) _, _, _, _, _ => Sim.refl _ _
  | _, .ite _ (.ifn _ _) _, _, _, _, _ => Sim.refl _ _
  | _, .ite _ (.mtch _ _) _, _, _, _, _ => Sim.refl _ _
  | _, .ifn _ (.var _), _, _, _, _ => Sim.refl _ _
  | _, .ifn _ (.prim _ _ _), _, _, _, _ => Sim.refl _ _
  | _, .ifn _ (.assign _ _ _), _, _, _, _ => Sim.refl _ _
  | _, .ifn _ (.lzy _ _ _), _, _, _, _ => Sim.refl _ _
  | _, .ifn _ (.lp _ _ _), _, _, _, _ => Sim.refl _ _
  | _, .ifn _ (.whl _ _ _ _), _, _, _, _ => Sim.refl _ _
  | _, .ifn _ (.forE _ _ _ _ _ _), _, _, _, _ => Sim.refl _ _
  | _, .ifn _ (.brk _ _ _), _, _, _, _ => Sim.refl _ _
  | _, .ifn _ (.ret _), _, _, _, _ => Sim.refl _ _
  | _, .ifn _ (.cont _ _), _, _, _, _ => Sim.refl _ _
  | _, .ifn _ (.ite _ _ _), _, _, _, _ => Sim.refl _ _
  | _, .ifn _ (.ifn _ _), _, _, _, _ => Sim.refl _ _
  | _, .ifn _ (.mtch _ _), _, _, _, _ => Sim.refl _ _

theorem dropA_sim : ∀ (path : List Nat) (as : Arms) (v : S.V) (bs : List Around) (ρ : Env S),
    (∀ a ∈ bs, a.isLoop = false) → scopedA (bs ++ ⟨lab, id, true⟩ :: c) as →
    Sim id (evalA k as v ρ) (evalA k (dropA unitTy lab sel path as) v ρ)
  | _, .nil, _, _, _, _, _ => by simp only [dropA]; exact Sim.refl _ _
  | path, .arm p xs body rest, v, bs, ρ, hb, hs => by
    simp only [scopedA] at hs
    simp only [dropA, evalA]
    cases S.pat p v with
    | some vs => exact dropE_sim (0 :: path) body bs _ hb hs.1
    | none => exact dropA_sim (1 :: path) rest v bs ρ hb hs.2
  | path, .armIf p xs g body rest, v, bs, ρ, hb, hs => by
    simp only [scopedA] at hs
    simp only [dropA, evalA]
    cases S.pat p v with
    | some vs =>
      refine Sim.bind _ fun r => ?_
      cases r with
      | some ρ' => exact dropE_sim (0 :: path) body bs _ hb hs.2.1
      | none => exact dropA_sim (1 :: path) rest v bs ρ hb hs.2.2
    | none => exact dropA_sim (1 :: path) rest v bs ρ hb hs.2.2

theorem dropS_sim : ∀ (path : List Nat) (b : Stmts) (bs : List Around) (ρ : Env S),
    (∀ a ∈ bs, a.isLoop = false) → scopedS (bs ++ ⟨lab, id, true⟩ :: c) b →
    Sim id (evalS k b ρ) (evalS k (dropS unitTy lab sel path b) ρ)
  | _, .done, _, _, _, _ => by simp only [dropS]; exact Sim.refl _ _
  | path, .tail e, bs, ρ, hb, hs => by
    simp only [scopedS] at hs
    simp only [dropS, evalS]
    exact dropE_sim (2 :: path) e bs ρ hb hs
  | path, .semi e r, bs, ρ, hb, hs => by
    simp only [scopedS] at hs
    simp only [dropS]
    split
    · next hd =>
      cases r with
      | done =>
        simp only [evalS]
        exact (dropE_sim (2 :: path) e bs ρ hb hs.1).discard
      | _ => cases hd
    · simp only [evalS]
      exact Sim.bind _ fun _ => dropS_sim path r bs ρ hb hs.2
  | path, .expr e r, bs, ρ, hb, hs => by
    simp only [scopedS] at hs
    simp only [dropS]
    split
    · next hd =>
      cases r with
      | done =>
        simp only [evalS]
        exact (dropE_sim (2 :: path) e bs ρ hb hs.1).discard
      | _ => cases hd
    · simp only [evalS]
      exact Sim.bind _ fun _ => dropS_sim path r bs ρ hb hs.2
  | path, .letS p xs e r, bs, ρ, hb, hs => by
    simp only [scopedS] at hs
    simp only [dropS, evalS]
    exact Sim.bind _ fun _ => Sim.bind _ fun ρ' => dropS_sim path r bs ρ' hb hs.2
  | path, .letElse p xs e els r, bs, ρ, hb, hs => by
    simp only [scopedS] at hs
    simp only [dropS, evalS]
    refine Sim.bind _ fun v => ?_
    cases S.pat p v with
    | some vs => exact dropS_sim path r bs _ hb hs.2.2
    | none => exact Sim.refl _ _
  | path, .item x n r, bs, ρ, hb, hs => by
    simp only [scopedS] at hs
    simp only [dropS, evalS]
    exact dropS_sim path r bs ρ hb hs

end
end

/-- The block of a loop in the list of enclosing loops and blocks. -/
theorem loop_scoped {c : List Around} {e : Expr} {lab : Option Name} {b : Stmts} {f : Stmts → Expr}
    (hl : loopBlock e = some (lab, b, f)) (hs : scopedE c e) :
    ∃ id, scopedS (⟨lab, id, true⟩ :: c) b ∧ f b = e ∧ e.body = b ∧
      ∀ (k : Nat) (b' : Stmts), (∀ ρ : Env S, Sim id (evalB k b ρ) (evalB k b' ρ)) →
        ∀ ρ : Env S, eval k (f b') ρ = eval k e ρ := by
  cases e with
  | lp l t b0 =>
    simp only [loopBlock, Option.some.injEq, Prod.mk.injEq] at hl
    obtain ⟨rfl, rfl, rfl⟩ := hl
    simp only [scopedE] at hs
    refine ⟨t, hs.2, rfl, rfl, fun k b' h ρ => ?_⟩
    simp only [eval]
    exact (iter_sim (h ρ) k).symm
  | forE l t p xs it b0 =>
    simp only [loopBlock, Option.some.injEq, Prod.mk.injEq] at hl
    obtain ⟨rfl, rfl, rfl⟩ := hl
    simp only [scopedE] at hs
    refine ⟨t, hs.2.2, rfl, rfl, fun k b' h ρ => ?_⟩
    simp only [eval]
    refine M.bind_congr fun v => (iter_sim (Sim.bind _ fun o => ?_) k).symm
    cases o with
    | none => exact Sim.refl _ _
    | some x => exact Sim.bind _ fun ρ' => h ρ'
  | whl l t q b0 =>
    have : lab = l ∧ b = b0 ∧ f = .whl l t q := by
      cases q with
      | and a d =>
        simp only [loopBlock] at hl
        split at hl
        · cases hl
        · simp only [Option.some.injEq, Prod.mk.injEq] at hl
          exact ⟨hl.1.symm, hl.2.1.symm, hl.2.2.symm⟩
      | _ =>
        simp only [loopBlock, Option.some.injEq, Prod.mk.injEq] at hl
        exact ⟨hl.1.symm, hl.2.1.symm, hl.2.2.symm⟩
    obtain ⟨rfl, rfl, rfl⟩ := this
    simp only [scopedE] at hs
    refine ⟨t, hs.2.2, rfl, rfl, fun k b' h ρ => ?_⟩
    simp only [eval]
    refine (iter_sim (Sim.bind _ fun o => ?_) k).symm
    cases o with
    | none => exact Sim.refl _ _
    | some ρ' => exact h ρ'
  | _ => simp [loopBlock] at hl

/-- **C72** (dropping): leaving out any of the `continue`s that are reported as redundant at the
end of a loop's block changes nothing. -/
theorem drop_same (unitTy : Expr → Bool) (sel : List Nat → Bool) {c : List Around} {e : Expr}
    (hs : scopedE c e) (k : Nat) (ρ : Env S) :
    eval k (dropContinues unitTy sel e) ρ = eval k e ρ := by
  unfold dropContinues
  cases hl : loopBlock e with
  | none => rfl
  | some r =>
    obtain ⟨lab, b, f⟩ := r
    obtain ⟨id, hb, he, -, H⟩ := loop_scoped (S := S) hl hs
    simp only
    split
    · rfl
    · refine H k _ (fun ρ => ?_) ρ
      simp only [evalB, hoist_dropS]
      exact dropS_sim unitTy lab sel id c k [] b [] _ (by simp) hb

/-! ## Rearranging -/

theorem hoist_none {b : Stmts} (h : items b = []) (ρ : Env S) : hoist b ρ = ρ :=
  funext fun x => hoist_other b ρ (by simp [h])

/-- A condition without `let` leaves the environment alone. -/
theorem noLet {β : Type} (k : Nat) : ∀ (q : Cond) (ρ : Env S) (f g : Option (Env S) → M S β),
    hasLet q = false → f (some ρ) = g (some ρ) → f none = g none →
    (evalC k q ρ).bind f = (evalC k q ρ).bind g
  | .test e, ρ, f, g, _, hs, hn => by
    simp only [evalC, M.bind_assoc]
    refine M.bind_congr fun v => ?_
    simp only [M.pure_bind]
    split
    · exact hs
    · exact hn
  | .letP _ _ _, _, _, _, h, _, _ => by simp [hasLet] at h
  | .nextP _ _ _, _, _, _, h, _, _ => by simp [hasLet] at h
  | .and a b, ρ, f, g, h, hs, hn => by
    simp only [hasLet, Bool.or_eq_false_iff] at h
    simp only [evalC, M.bind_assoc]
    refine noLet k a ρ _ _ h.1 ?_ hn
    exact noLet k b ρ f g h.2 hs hn

/-- The same up to the end of the turn. -/
theorem noLet_sim {t : Id} (k : Nat) (q : Cond) (ρ : Env S) (f g : Option (Env S) → M S S.V)
    (h : hasLet q = false) (hs : Sim t (f (some ρ)) (g (some ρ))) (hn : Sim t (f none) (g none)) :
    Sim t ((evalC k q ρ).bind f) ((evalC k q ρ).bind g) := by
  rw [noLet k q ρ f (fun o => f (o.map fun _ => ρ)) h rfl rfl,
    noLet k q ρ g (fun o => g (o.map fun _ => ρ)) h rfl rfl]
  refine Sim.bind _ fun o => ?_
  cases o with
  | none => exact hn
  | some _ => exact hs

theorem sim_discard {t : Id} (m : M S S.V) : Sim t (m.bind fun _ => M.pure S.unit) m := by
  intro w
  cases hw : m w with
  | mk r w1 =>
    cases r with
    | ok a => rw [M.bind_of_ok _ hw]; rfl
    | error x => rw [M.bind_of_error _ hw]

theorem paste_hoist {r : Stmts} (hr : items r = []) : ∀ {b b' : Stmts}, paste b r = some b' →
    ∀ ρ : Env S, hoist b' ρ = hoist b ρ
  | .done, b', h, ρ => by
    simp only [paste, Option.some.injEq] at h
    subst h
    simp only [hoist, hoist_none hr]
  | .tail e, b', h, ρ => by
    unfold paste at h
    split at h
    all_goals first | contradiction | skip
    · cases h; rfl
    · split at h
      · cases h; simp only [hoist, hoist_none hr]
      · cases h
  | .semi e b, b', h, ρ => by
    simp only [paste, Option.map_eq_some_iff] at h
    obtain ⟨b1, h1, rfl⟩ := h
    simp only [hoist]; exact paste_hoist hr h1 ρ
  | .expr e b, b', h, ρ => by
    simp only [paste, Option.map_eq_some_iff] at h
    obtain ⟨b1, h1, rfl⟩ := h
    simp only [hoist]; exact paste_hoist hr h1 ρ
  | .letS p xs e b, b', h, ρ => by
    simp only [paste, Option.map_eq_some_iff] at h
    obtain ⟨b1, h1, rfl⟩ := h
    simp only [hoist]; exact paste_hoist hr h1 ρ
  | .letElse p xs e els b, b', h, ρ => by
    simp only [paste, Option.map_eq_some_iff] at h
    obtain ⟨b1, h1, rfl⟩ := h
    simp only [hoist]; exact paste_hoist hr h1 ρ
  | .item x n b, b', h, ρ => by
    simp only [paste, Option.map_eq_some_iff] at h
    obtain ⟨b1, h1, rfl⟩ := h
    simp only [hoist]; exact paste_hoist hr h1 _

theorem paste_sim {t : Id} {k : Nat} {r : Stmts} (ρ : Env S) : ∀ {b b' : Stmts} (σ : Env S),
    paste b r = some b' → Agree (namesS r) σ ρ → (∀ x ∈ namesS r, x ∉ declares b) →
    Sim t (evalS k b' σ) ((evalS k b σ).bind fun _ => evalS k r ρ)
  | .done, b', σ, h, ha, _ => by
    simp only [paste, Option.some.injEq] at h
    subst h
    simp only [evalS, M.pure_bind]
    exact Sim.of_eq (congS k _ σ ρ ha)
  | .tail e, b', σ, h, ha, _ => by
    unfold paste at h
    split at h
    all_goals first | contradiction | skip
    · next h1 _ =>
      cases h1; cases h
      simp only [evalS]
      exact (sim_discard _).symm
    · next h1 _ _ =>
      cases h1
      split at h
      · cases h
        simp only [evalS]
        exact Sim.of_eq (M.bind_congr fun _ => congS k _ σ ρ ha)
      · cases h
  | .semi e b, b', σ, h, ha, hd => by
    simp only [paste, Option.map_eq_some_iff] at h
    obtain ⟨b1, h1, rfl⟩ := h
    simp only [evalS, M.bind_assoc]
    exact Sim.bind _ fun _ => paste_sim ρ σ h1 ha (by simpa [declares] using hd)
  | .expr e b, b', σ, h, ha, hd => by
    simp only [paste, Option.map_eq_some_iff] at h
    obtain ⟨b1, h1, rfl⟩ := h
    simp only [evalS, M.bind_assoc]
    exact Sim.bind _ fun _ => paste_sim ρ σ h1 ha (by simpa [declares] using hd)
  | .letS p xs e b, b', σ, h, ha, hd => by
    simp only [paste, Option.map_eq_some_iff] at h
    obtain ⟨b1, h1, rfl⟩ := h
    simp only [declares, List.mem_append, not_or] at hd
    simp only [evalS, M.bind_assoc]
    refine Sim.bind _ fun v => ?_
    unfold bindPat
    cases S.pat p v with
    | none => exact Sim.refl _ _
    | some vs =>
      exact paste_sim ρ _ h1 (fun x hx => (bindVars_other xs vs σ (hd x hx).1).trans (ha x hx))
        fun x hx => (hd x hx).2
  | .letElse p xs e els b, b', σ, h, ha, hd => by
    simp only [paste, Option.map_eq_some_iff] at h
    obtain ⟨b1, h1, rfl⟩ := h
    simp only [declares, List.mem_append, not_or] at hd
    simp only [evalS, M.bind_assoc]
    refine Sim.bind _ fun v => ?_
    cases S.pat p v with
    | none => simp only [M.bind_assoc]; exact Sim.refl _ _
    | some vs =>
      exact paste_sim ρ _ h1 (fun x hx => (bindVars_other xs vs σ (hd x hx).1).trans (ha x hx))
        fun x hx => (hd x hx).2
  | .item x n b, b', σ, h, ha, hd => by
    simp only [paste, Option.map_eq_some_iff] at h
    obtain ⟨b1, h1, rfl⟩ := h
    simp only [evalS]
    refine paste_sim ρ σ h1 ha fun y hy => ?_
    have := hd y hy
    simp only [declares, List.mem_cons, not_or] at this
    exact this.2

theorem items_declares {x : Name} : ∀ (b : Stmts), x ∈ items b → x ∈ declares b
  | .done, h => h
  | .tail _, h => h
  | .semi _ r, h => items_declares r h
  | .expr _ r, h => items_declares r h
  | .letS _ _ _ r, h => List.mem_append_right _ (items_declares r h)
  | .letElse _ _ _ _ r, h => List.mem_append_right _ (items_declares r h)
  | .item y _ r, h => by
    simp only [items, declares, List.mem_cons] at *
    exact h.imp id (items_declares r)

theorem first_throws {lab : Option Name} {id : Id} {c bs : List Around} {b : Stmts} {k : Nat}
    (hf : firstContinue lab b = true) (hb : ∀ a ∈ bs, a.isLoop = false)
    (hs : scopedS (bs ++ ⟨lab, id, true⟩ :: c) b) (ρ : Env S) :
    evalS k b ρ = M.throw (.cont id) := by
  unfold firstContinue at hf
  split at hf
  · simp only [scopedS, scopedE] at hs
    rw [compare_target hf hb hs.1]
    simp only [evalS, eval, M.throw_bind]
  · simp only [scopedS, scopedE] at hs
    rw [compare_target hf hb hs.1]
    simp only [evalS, eval, M.throw_bind]
  · cases hf

theorem else_throws {lab : Option Name} {id : Id} {c : List Around} {e : Expr} {k : Nat}
    (hf : continueInElse lab e = true) (hs : scopedE (⟨lab, id, true⟩ :: c) e) (ρ : Env S) :
    eval k e ρ = M.throw (.cont id) ∧ StartsContinue e := by
  unfold continueInElse at hf
  split at hf
  · next l b =>
    refine ⟨?_, ?_⟩
    · cases l with
      | none =>
        simp only [scopedE] at hs
        simp only [eval]
        exact first_throws (bs := []) hf (by simp) hs _
      | some l =>
        obtain ⟨l, u⟩ := l
        simp only [scopedE] at hs
        simp only [eval]
        rw [first_throws (bs := [⟨some l, u, false⟩]) hf (by simp) hs.2 _]
        rfl
    · unfold firstContinue at hf
      split at hf
      · exact .inl ⟨_, _, _, _, rfl⟩
      · exact .inr (.inl ⟨_, _, _, _, rfl⟩)
      · cases hf
  · simp only [scopedE] at hs
    refine ⟨?_, .inr (.inr ⟨_, _, rfl⟩)⟩
    rw [compare_target (bs := []) hf (by simp) hs]
    simp only [eval]
  · cases hf

theorem fixIf_sim {lab : Option Name} {id : Id} {c : List Around} {e : Expr} {r b' : Stmts} {k : Nat}
    (hs : scopedE (⟨lab, id, true⟩ :: c) e) (h : fixIf lab e r = some (some b'))
    (hm : ∀ q l B els, e = .ite q (.block l B) els → StartsContinue els →
      items r = [] ∧ ∀ x ∈ namesS r, x ∉ declares B) :
    (∀ ρ : Env S, hoist b' ρ = hoist r ρ) ∧
      ∀ ρ : Env S, Sim id ((eval k e ρ).bind fun _ => evalS k r ρ) (evalS k b' ρ) := by
  unfold fixIf at h
  split at h
  · next q b els =>
    simp only [scopedE] at hs
    split at h
    · cases h
    · next hq =>
      have hq : hasLet q = false := by simpa using hq
      split at h
      · next hc =>
        simp only [Option.some.injEq, Option.map_eq_some_iff] at h
        obtain ⟨b1, hp, rfl⟩ := h
        have hst := (else_throws (S := S) (k := k) hc hs.2.2 (fun _ => S.unit)).2
        obtain ⟨hi, hn⟩ := hm _ _ _ _ rfl hst
        refine ⟨fun ρ => by simp only [hoist, hoist_none hi], fun ρ => ?_⟩
        simp only [evalS, eval, M.bind_assoc]
        refine noLet_sim k q ρ _ _ hq ?_ ?_
        · simp only
          refine Sim.trans (Sim.symm ?_) (sim_discard _).symm
          rw [paste_hoist hi hp]
          exact paste_sim ρ _ hp
            (fun x hx => hoist_other _ _ fun hx' => hn x hx (items_declares _ hx')) hn
        · simp only [(else_throws (S := S) (k := k) hc hs.2.2 ρ).1, M.throw_bind]
          intro w
          simp [settled, M.throw, M.pure]
      · split at h
        · next hf =>
          cases h
          refine ⟨fun ρ => by simp only [hoist], fun ρ => Sim.of_eq ?_⟩
          simp only [evalS, eval, M.bind_assoc]
          refine M.bind_congr fun o => ?_
          cases o with
          | none => simp only [M.pure_bind]
          | some ρ' =>
            simp only
            rw [first_throws (bs := []) hf (by simp) hs.2.1 _]
            simp only [M.throw_bind]
        · cases h
  · cases h

theorem fixTail_sim {lab : Option Name} {id : Id} {c : List Around} {e : Expr} {b' : Stmts} {k : Nat}
    (hs : scopedE (⟨lab, id, true⟩ :: c) e) (h : fixTail lab e = some (some b')) :
    (∀ ρ : Env S, hoist b' ρ = ρ) ∧ ∀ ρ : Env S, Sim id (eval k e ρ) (evalS k b' ρ) := by
  unfold fixTail at h
  split at h
  · next q b els =>
    simp only [scopedE] at hs
    split at h
    · cases h
    · split at h
      · next hc =>
        cases h
        refine ⟨fun ρ => by simp only [hoist], fun ρ => ?_⟩
        simp only [evalS, eval]
        refine Sim.bind _ fun o => ?_
        cases o with
        | some ρ' => exact (sim_discard _).symm
        | none =>
          simp only [(else_throws (S := S) (k := k) hc hs.2.2 ρ).1]
          intro w
          simp [settled, M.throw, M.pure]
      · split at h
        · next hf =>
          cases h
          refine ⟨fun ρ => by simp only [hoist], fun ρ => Sim.of_eq ?_⟩
          simp only [evalS, eval, M.bind_assoc]
          refine M.bind_congr fun o => ?_
          cases o with
          | none => simp only [M.pure_bind]
          | some ρ' =>
            simp only
            rw [first_throws (bs := []) hf (by simp) hs.2.1 _]
            simp only [M.throw_bind]
        · cases h
  · cases h

theorem fixAt_sim {lab : Option Name} {id : Id} {c : List Around} {k : Nat} :
    ∀ (b : Stmts) (i : Nat) {b' : Stmts}, scopedS (⟨lab, id, true⟩ :: c) b →
    fixAt lab b i = some (some b') → Movable b i →
    (∀ ρ : Env S, hoist b' ρ = hoist b ρ) ∧ ∀ ρ : Env S, Sim id (evalS k b ρ) (evalS k b' ρ)
  | .semi e r, 0, b', hs, h, hm => by
    simp only [scopedS] at hs
    simp only [fixAt] at h
    simp only [hoist, evalS]
    exact fixIf_sim hs.1 h fun q l B els he => hm q l B els (by rw [he]; rfl)
  | .expr e r, 0, b', hs, h, hm => by
    simp only [scopedS] at hs
    simp only [fixAt] at h
    simp only [hoist, evalS]
    exact fixIf_sim hs.1 h fun q l B els he => hm q l B els (by rw [he]; rfl)
  | .tail e, 0, b', hs, h, hm => by
    simp only [scopedS] at hs
    simp only [fixAt] at h
    simp only [hoist, evalS]
    exact fixTail_sim hs h
  | .semi e r, i + 1, b', hs, h, hm => by
    simp only [scopedS] at hs
    simp only [fixAt, Option.map_eq_some_iff] at h
    obtain ⟨o, h, ho⟩ := h
    obtain ⟨b1, rfl, rfl⟩ := ho
    obtain ⟨h1, h2⟩ := fixAt_sim r i hs.2 h hm
    simp only [hoist, evalS]
    exact ⟨h1, fun ρ => Sim.bind _ fun _ => h2 ρ⟩
  | .expr e r, i + 1, b', hs, h, hm => by
    simp only [scopedS] at hs
    simp only [fixAt, Option.map_eq_some_iff] at h
    obtain ⟨o, h, ho⟩ := h
    obtain ⟨b1, rfl, rfl⟩ := ho
    obtain ⟨h1, h2⟩ := fixAt_sim r i hs.2 h hm
    simp only [hoist, evalS]
    exact ⟨h1, fun ρ => Sim.bind _ fun _ => h2 ρ⟩
  | .letS p xs e r, i + 1, b', hs, h, hm => by
    simp only [scopedS] at hs
    simp only [fixAt, Option.map_eq_some_iff] at h
    obtain ⟨o, h, ho⟩ := h
    obtain ⟨b1, rfl, rfl⟩ := ho
    obtain ⟨h1, h2⟩ := fixAt_sim r i hs.2 h hm
    simp only [hoist, evalS]
    exact ⟨h1, fun ρ => Sim.bind _ fun _ => Sim.bind _ fun ρ' => h2 ρ'⟩
  | .letElse p xs e els r, i + 1, b', hs, h, hm => by
    simp only [scopedS] at hs
    simp only [fixAt, Option.map_eq_some_iff] at h
    obtain ⟨o, h, ho⟩ := h
    obtain ⟨b1, rfl, rfl⟩ := ho
    obtain ⟨h1, h2⟩ := fixAt_sim r i hs.2.2 h hm
    simp only [hoist, evalS]
    refine ⟨h1, fun ρ => Sim.bind _ fun v => ?_⟩
    cases S.pat p v with
    | none => exact Sim.refl _ _
    | some vs => exact h2 _
  | .item x n r, i + 1, b', hs, h, hm => by
    simp only [scopedS] at hs
    simp only [fixAt, Option.map_eq_some_iff] at h
    obtain ⟨o, h, ho⟩ := h
    obtain ⟨b1, rfl, rfl⟩ := ho
    obtain ⟨h1, h2⟩ := fixAt_sim r i hs h hm
    simp only [hoist, evalS]
    exact ⟨fun ρ => h1 _, h2⟩
  | .done, 0, _, _, h, _ => by simp [fixAt] at h
  | .done, _ + 1, _, _, h, _ => by simp [fixAt] at h
  | .tail _, _ + 1, _, _, h, _ => by simp [fixAt] at h
  | .letS _ _ _ _, 0, _, _, h, _ => by simp [fixAt] at h
  | .letElse _ _ _ _ _, 0, _, _, h, _ => by simp [fixAt] at h
  | .item _ _ _, 0, _, _, h, _ => by simp [fixAt] at h

/-- **C72** (rearranging): the code shown for an `if` with a `continue` in a branch does what the
loop did.  *Missing*: the case where the branch into which the following statements move declares
a name that these mention, or where these declare items; see `ContinueWitness`. -/
theorem rearrange_same_partial {c : List Around} {e e' : Expr} {i : Nat} (hs : scopedE c e)
    (h : rearranged e i = some (some e')) (hm : Movable e.body i) (k : Nat) (ρ : Env S) :
    eval k e' ρ = eval k e ρ := by
  unfold rearranged at h
  cases hl : loopBlock e with
  | none => simp [hl] at h
  | some q =>
    obtain ⟨lab, b, f⟩ := q
    obtain ⟨id, hb, he, hbody, H⟩ := loop_scoped (S := S) hl hs
    simp only [hl, Option.map_eq_some_iff] at h
    obtain ⟨o, h, ho⟩ := h
    obtain ⟨b1, rfl, rfl⟩ := ho
    obtain ⟨h1, h2⟩ := fixAt_sim (S := S) (k := k) b i hb h (hbody ▸ hm)
    refine H k b1 (fun ρ => ?_) ρ
    simp only [evalB, h1]
    exact h2 _

/-! ## The text of the block -/

/-- **C72** (text): of a text that ends in a brace, the brace, what follows it and the whitespace
before it go, and all else stays. -/
theorem erode_block (ws : Char → Bool) (p sp r : List Char) (ch : Char) (hc : ws ch = false)
    (hsp : ∀ x ∈ sp, ws x = true) (hr : '}' ∉ r) :
    erode ws (p ++ ch :: sp ++ '}' :: r) = p ++ [ch] := by
  have drop : ∀ (q : Char → Bool) (l l' : List Char) (x : Char), (∀ y ∈ l, q y = true) → q x = false →
      (l ++ x :: l').dropWhile q = x :: l' := by
    intro q l l' x hl hx
    induction l with
    | nil => simp [hx]
    | cons a l ih =>
      rw [List.cons_append, List.dropWhile_cons_of_pos (hl a List.mem_cons_self)]
      exact ih fun y hy => hl y (List.mem_cons_of_mem _ hy)
  have e1 : (p ++ ch :: sp ++ '}' :: r).reverse = r.reverse ++ '}' :: (sp.reverse ++ ch :: p.reverse) := by
    simp
  unfold erode
  rw [e1, drop _ r.reverse _ '}' (fun y hy => by
    have : y ≠ '}' := fun h => hr (h ▸ List.mem_reverse.1 hy)
    simpa using this) (by simp)]
  simp only [List.drop_succ_cons, List.drop_zero]
  rw [drop ws sp.reverse _ ch (fun y hy => hsp y (List.mem_reverse.1 hy)) hc]
  simp

/-- A text without brace stays. -/
theorem erode_no_brace (ws : Char → Bool) (s : List Char) (h : '}' ∉ s) : erode ws s = s := by
  unfold erode
  have : s.reverse.dropWhile (· != '}') = [] := by
    have aux : ∀ l : List Char, '}' ∉ l → l.dropWhile (· != '}') = [] := by
      intro l hl
      induction l with
      | nil => rfl
      | cons a l ih =>
        simp only [List.mem_cons, not_or] at hl
        rw [List.dropWhile_cons_of_pos (by simpa using fun e => hl.1 e.symm)]
        exact ih hl.2
    exact aux _ (by simpa using h)
  simp [this]

end Verif.Ctrl.Continue
