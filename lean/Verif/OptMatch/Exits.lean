import Verif.OptMatch.Model
import Verif.OptMatch.Spec

/-!
# How an expression that may be moved into a closure is left
-/

namespace Verif.OptMatch
open Ctrl (Name Id Expr Exprs Cond Arms Stmts Exit)

/-- Only a panic, or a jump inside of the given loops. -/
inductive Inside {V : Type} (loops : List Id) : Exit V → Prop
  | abort : Inside loops .abort
  | fuel : Inside loops .fuel
  | cont {t : Id} : t ∈ loops → Inside loops (.cont t)
  | brk {t : Id} {v : V} : t ∈ loops → Inside loops (.brk t v)

variable {T : Ctrl.Sem}

/-- Every way a computation is left without a value. -/
def Safe {α : Type} (loops : List Id) (m : Ctrl.M T α) : Prop :=
  ∀ w x w', m w = (.error x, w') → Inside loops x

variable {α β : Type} {loops : List Id}

theorem safe_pure (a : α) : Safe (T := T) loops (Ctrl.M.pure a) := by
  intro w x w' h
  cases h

theorem safe_throw {x : Exit T.V} (h : Inside loops x) : Safe (T := T) (α := α) loops (Ctrl.M.throw x) := by
  intro w y w' e
  cases e
  exact h

theorem safe_run (g : T.W → Option α × T.W) : Safe (T := T) loops (Ctrl.M.run g) := by
  intro w x w' h
  unfold Ctrl.M.run at h
  split at h
  · cases h
  · cases h
    exact .abort

theorem safe_bind {m : Ctrl.M T α} {f : α → Ctrl.M T β} (hm : Safe loops m) (hf : ∀ a, Safe loops (f a)) :
    Safe loops (m.bind f) := by
  intro w x w' h
  unfold Ctrl.M.bind at h
  split at h
  · exact hf _ _ _ _ h
  · next y w1 e =>
    cases h
    exact hm _ _ _ e

theorem safe_catch {t : Id} {m : Ctrl.M T T.V} (hm : Safe loops m) : Safe loops (Ctrl.M.catchBrk t m) := by
  intro w x w' h
  unfold Ctrl.M.catchBrk at h
  split at h
  · next u v w1 e =>
    split at h
    · cases h
    · cases h
      exact hm _ _ _ e
  · exact hm _ _ _ h

theorem safe_iter {t : Id} {m : Ctrl.M T T.V} (hm : Safe (t :: loops) m) :
    ∀ n, Safe loops (Ctrl.M.iter t m n) := by
  intro n
  induction n with
  | zero => exact safe_throw .fuel
  | succ n ih =>
    intro w x w' h
    unfold Ctrl.M.iter at h
    split at h
    · exact ih _ _ _ h
    · next u w1 e =>
      split at h
      · exact ih _ _ _ h
      · next hu =>
        cases h
        cases hm _ _ _ e with
        | cont hin =>
          rcases List.mem_cons.mp hin with rfl | hin
          · exact absurd rfl hu
          · exact .cont hin
    · next u v w1 e =>
      split at h
      · cases h
      · next hu =>
        cases h
        cases hm _ _ _ e with
        | brk hin =>
          rcases List.mem_cons.mp hin with rfl | hin
          · exact absurd rfl hu
          · exact .brk hin
    · next y w1 e1 e2 e =>
      cases h
      cases hm _ _ _ e with
      | abort => exact .abort
      | fuel => exact .fuel
      | cont _ => exact absurd rfl (e1 _)
      | brk _ => exact absurd rfl (e2 _ _)

theorem safe_bindPat (p : Nat) (xs : List Name) (v : T.V) (ρ : Ctrl.Env T) :
    Safe loops (Ctrl.bindPat p xs v ρ) := by
  unfold Ctrl.bindPat
  split
  · exact safe_pure _
  · exact safe_throw .abort

mutual

/-- An expression that may be moved is never left by `return`, and never jumps out of itself. -/
theorem canMove_safe (k : Nat) (loops : List Id) : (e : Expr) → canMove loops e = true →
    ∀ ρ : Ctrl.Env T, Safe loops (Ctrl.eval k e ρ)
  | .var _, _, ρ => by simp only [Ctrl.eval]; exact safe_pure _
  | .prim _ _ as, h, ρ => by
    simp only [canMove] at h
    simp only [Ctrl.eval]
    exact safe_bind (canMoveL_safe k loops as h ρ) fun _ => safe_run _
  | .assign _ l r, h, ρ => by
    simp only [canMove, Bool.and_eq_true] at h
    simp only [Ctrl.eval]
    exact safe_bind (canMove_safe k loops r h.2 ρ) fun _ =>
      safe_bind (canMove_safe k loops l h.1 ρ) fun _ => safe_run _
  | .lzy _ a b, h, ρ => by
    simp only [canMove, Bool.and_eq_true] at h
    simp only [Ctrl.eval]
    refine safe_bind (canMove_safe k loops a h.1 ρ) fun v => ?_
    split
    · exact canMove_safe k loops b h.2 ρ
    · exact safe_pure _
  | .ite c t e, h, ρ => by
    simp only [canMove, Bool.and_eq_true] at h
    simp only [Ctrl.eval]
    refine safe_bind (canMoveC_safe k loops c h.1.1 ρ) fun v => ?_
    split
    · exact canMove_safe k loops t h.1.2 _
    · exact canMove_safe k loops e h.2 _
  | .ifn c t, h, ρ => by
    simp only [canMove, Bool.and_eq_true] at h
    simp only [Ctrl.eval]
    refine safe_bind (canMoveC_safe k loops c h.1 ρ) fun v => ?_
    split
    · exact safe_bind (canMove_safe k loops t h.2 _) fun _ => safe_pure _
    · exact safe_pure _
  | .mtch e arms, h, ρ => by
    simp only [canMove, Bool.and_eq_true] at h
    simp only [Ctrl.eval]
    exact safe_bind (canMove_safe k loops e h.1 ρ) fun v => canMoveA_safe k loops arms h.2 v ρ
  | .block none b, h, ρ => by
    simp only [canMove] at h
    simp only [Ctrl.eval]
    exact canMoveS_safe k loops b h _
  | .block (some (_, t)) b, h, ρ => by
    simp only [canMove] at h
    simp only [Ctrl.eval]
    exact safe_catch (canMoveS_safe k loops b h _)
  | .lp _ t b, h, ρ => by
    simp only [canMove] at h
    simp only [Ctrl.eval]
    exact safe_iter (canMoveS_safe k (t :: loops) b h _) k
  | .whl _ t c b, h, ρ => by
    simp only [canMove, Bool.and_eq_true] at h
    simp only [Ctrl.eval]
    refine safe_iter (safe_bind (canMoveC_safe k (t :: loops) c h.1 ρ) fun v => ?_) k
    split
    · exact canMoveS_safe k (t :: loops) b h.2 _
    · exact safe_throw (.brk (List.mem_cons_self ..))
  | .forE _ t p xs it b, h, ρ => by
    simp only [canMove, Bool.and_eq_true] at h
    simp only [Ctrl.eval]
    refine safe_bind (canMove_safe k loops it h.1 ρ) fun v => safe_iter (safe_bind (safe_run _) fun o => ?_) k
    split
    · exact safe_bind (safe_bindPat _ _ _ _) fun _ => canMoveS_safe k (t :: loops) b h.2 _
    · exact safe_throw (.brk (List.mem_cons_self ..))
  | .cont _ t, h, ρ => by
    simp only [canMove, List.contains_iff_mem] at h
    simp only [Ctrl.eval]
    exact safe_throw (.cont h)
  | .brk _ t es, h, ρ => by
    simp only [canMove, Bool.and_eq_true, List.contains_iff_mem] at h
    simp only [Ctrl.eval]
    exact safe_bind (canMoveL_safe k loops es h.2 ρ) fun _ => safe_throw (.brk h.1)
  | .ret _, h, _ => by simp only [canMove] at h; cases h

theorem canMoveC_safe (k : Nat) (loops : List Id) : (c : Cond) → canMoveC loops c = true →
    ∀ ρ : Ctrl.Env T, Safe loops (Ctrl.evalC k c ρ)
  | .test e, h, ρ => by
    simp only [canMoveC] at h
    simp only [Ctrl.evalC]
    exact safe_bind (canMove_safe k loops e h ρ) fun _ => safe_pure _
  | .letP _ _ e, h, ρ => by
    simp only [canMoveC] at h
    simp only [Ctrl.evalC]
    exact safe_bind (canMove_safe k loops e h ρ) fun _ => safe_pure _
  | .nextP _ _ e, h, ρ => by
    simp only [canMoveC] at h
    simp only [Ctrl.evalC]
    refine safe_bind (canMove_safe k loops e h ρ) fun _ => safe_bind (safe_run _) fun o => ?_
    split
    · exact safe_bind (safe_bindPat _ _ _ _) fun _ => safe_pure _
    · exact safe_pure _
  | .and a b, h, ρ => by
    simp only [canMoveC, Bool.and_eq_true] at h
    simp only [Ctrl.evalC]
    refine safe_bind (canMoveC_safe k loops a h.1 ρ) fun r => ?_
    split
    · exact canMoveC_safe k loops b h.2 _
    · exact safe_pure _

theorem canMoveL_safe (k : Nat) (loops : List Id) : (es : Exprs) → canMoveL loops es = true →
    ∀ ρ : Ctrl.Env T, Safe loops (Ctrl.evalL k es ρ)
  | .nil, _, ρ => by simp only [Ctrl.evalL]; exact safe_pure _
  | .cons e es, h, ρ => by
    simp only [canMoveL, Bool.and_eq_true] at h
    simp only [Ctrl.evalL]
    exact safe_bind (canMove_safe k loops e h.1 ρ) fun _ =>
      safe_bind (canMoveL_safe k loops es h.2 ρ) fun _ => safe_pure _

theorem canMoveA_safe (k : Nat) (loops : List Id) : (as : Arms) → canMoveA loops as = true →
    ∀ (v : T.V) (ρ : Ctrl.Env T), Safe loops (Ctrl.evalA k as v ρ)
  | .nil, _, v, ρ => by simp only [Ctrl.evalA]; exact safe_throw .abort
  | .arm p xs body rest, h, v, ρ => by
    simp only [canMoveA, Bool.and_eq_true] at h
    simp only [Ctrl.evalA]
    split
    · exact canMove_safe k loops body h.1 _
    · exact canMoveA_safe k loops rest h.2 v ρ
  | .armIf p xs g body rest, h, v, ρ => by
    simp only [canMoveA, Bool.and_eq_true] at h
    simp only [Ctrl.evalA]
    split
    · refine safe_bind (canMoveC_safe k loops g h.1.1 _) fun r => ?_
      split
      · exact canMove_safe k loops body h.1.2 _
      · exact canMoveA_safe k loops rest h.2 v ρ
    · exact canMoveA_safe k loops rest h.2 v ρ

theorem canMoveS_safe (k : Nat) (loops : List Id) : (b : Stmts) → canMoveS loops b = true →
    ∀ ρ : Ctrl.Env T, Safe loops (Ctrl.evalS k b ρ)
  | .done, _, ρ => by simp only [Ctrl.evalS]; exact safe_pure _
  | .tail e, h, ρ => by
    simp only [canMoveS] at h
    simp only [Ctrl.evalS]
    exact canMove_safe k loops e h ρ
  | .semi e r, h, ρ => by
    simp only [canMoveS, Bool.and_eq_true] at h
    simp only [Ctrl.evalS]
    exact safe_bind (canMove_safe k loops e h.1 ρ) fun _ => canMoveS_safe k loops r h.2 ρ
  | .expr e r, h, ρ => by
    simp only [canMoveS, Bool.and_eq_true] at h
    simp only [Ctrl.evalS]
    exact safe_bind (canMove_safe k loops e h.1 ρ) fun _ => canMoveS_safe k loops r h.2 ρ
  | .letS p xs e r, h, ρ => by
    simp only [canMoveS, Bool.and_eq_true] at h
    simp only [Ctrl.evalS]
    exact safe_bind (canMove_safe k loops e h.1 ρ) fun _ =>
      safe_bind (safe_bindPat _ _ _ _) fun _ => canMoveS_safe k loops r h.2 _
  | .letElse p xs e els r, h, ρ => by
    simp only [canMoveS, Bool.and_eq_true] at h
    simp only [Ctrl.evalS]
    refine safe_bind (canMove_safe k loops e h.1.1 ρ) fun v => ?_
    split
    · exact canMoveS_safe k loops r h.2 _
    · exact safe_bind (canMoveS_safe k loops els h.1.2 _) fun _ => safe_throw .abort
  | .item _ _ r, h, ρ => by
    simp only [canMoveS] at h
    simp only [Ctrl.evalS]
    exact canMoveS_safe k loops r h ρ

end

variable {S : Sem}

/-- What may be moved into a closure. -/
theorem safe_arg {a : Arg} (h : canMoveTest (.arg a) = true) (k : Nat) (ρ : Env) :
    Safe [] (evalArg (S := S) k ρ a) := by
  cases a with
  | plain e => exact canMove_safe (T := S.ctrl) k [] e h ρ
  | call f a adj uns =>
    simp only [canMoveTest, Bool.and_eq_true] at h
    exact safe_bind (canMove_safe (T := S.ctrl) k [] f h.1 ρ) fun _ =>
      safe_bind (canMove_safe (T := S.ctrl) k [] a h.2 ρ) fun _ => safe_run _

theorem safe_test {c : Test} (h : canMoveTest c = true) (k : Nat) (ρ : Env) :
    Safe [] (evalTest (S := S) k ρ c) := by
  cases c with
  | arg a => exact safe_bind (safe_arg h k ρ) fun _ => safe_pure _
  | cond c => exact canMoveC_safe (T := S.ctrl) k [] c h ρ

theorem closureM_safe {m : M S Val} (h : Safe [] m) : closureM m = m := by
  funext w
  unfold closureM
  split
  · next v w' e => cases h _ _ _ e
  · rfl

/-- The value of the closure is the value of the condition. -/
theorem closureB_safe {m : M S (Option Env)} (h : Safe [] m) :
    closureB m = Ctrl.M.bind m fun r => Ctrl.M.pure r.isSome := by
  funext w
  unfold closureB Ctrl.M.bind
  split
  · next e => rw [e]; rfl
  · next e => cases h _ _ _ e
  · next e => rw [e]

end Verif.OptMatch
