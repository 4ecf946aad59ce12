import Verif.Ctrl.Facts
import Verif.Ctrl.ReturnSpec

/-!
# Needless `return`: proofs
-/

namespace Verif.Ctrl.Return
open Verif.Ctrl
variable {S : Sem}

/-- The value with which the function ends. -/
def fin : Except (Exit S.V) S.V → Option S.V
  | .ok v => some v
  | .error (.ret v) => some v
  | .error _ => none

/-- The same end of the function, except that a value may have been `()`. -/
def RelR (r r' : Except (Exit S.V) S.V) : Prop :=
  r = r' ∨ ∃ v v', fin r = some v ∧ fin r' = some v' ∧ (v = v' ∨ v = S.unit ∨ v' = S.unit)

/-- The same for computations. -/
def Rel (m m' : M S S.V) : Prop := ∀ w, (m w).2 = (m' w).2 ∧ RelR (m w).1 (m' w).1

theorem Rel.refl (m : M S S.V) : Rel m m := fun _ => ⟨rfl, .inl rfl⟩

theorem Rel.bind {α : Type} (m : M S α) {f g : α → M S S.V} (h : ∀ a, Rel (f a) (g a)) :
    Rel (m.bind f) (m.bind g) := by
  intro w
  cases hm : m w with
  | mk r w1 => cases r with
    | ok a => rw [M.bind_of_ok _ hm, M.bind_of_ok _ hm]; exact h a w1
    | error y => rw [M.bind_of_error _ hm, M.bind_of_error _ hm]; exact ⟨rfl, .inl rfl⟩

/-- A value that is thrown away. -/
theorem Rel.drop {m m' : M S S.V} (h : Rel m m') : Rel (m.bind fun _ => M.pure S.unit) m' := by
  intro w
  have := h w
  cases hm : m w with
  | mk r w1 => cases r with
    | ok a =>
      rw [M.bind_of_ok _ hm]; rw [hm] at this
      refine ⟨this.1, ?_⟩
      cases this.2 with
      | inl e => exact .inr ⟨S.unit, a, rfl, by rw [← e]; rfl, .inr (.inl rfl)⟩
      | inr e =>
        obtain ⟨v, v', _, h2, _⟩ := e
        exact .inr ⟨S.unit, v', rfl, h2, .inr (.inl rfl)⟩
    | error y => rw [M.bind_of_error _ hm]; rw [hm] at this; exact this

/-- A value that is thrown away in both. -/
theorem Rel.drop2 {m m' : M S S.V} (h : Rel m m') :
    Rel (m.bind fun _ => M.pure S.unit) (m'.bind fun _ => M.pure S.unit) := by
  intro w
  have := h w
  cases hm : m w with
  | mk r w1 => cases hm' : m' w with
    | mk r' w1' =>
      rw [hm, hm'] at this
      cases r with
      | ok a =>
        rw [M.bind_of_ok _ hm]
        cases r' with
        | ok a' => rw [M.bind_of_ok _ hm']; exact ⟨this.1, .inl rfl⟩
        | error y =>
          rw [M.bind_of_error _ hm']
          refine ⟨this.1, ?_⟩
          cases this.2 with
          | inl e => cases e
          | inr e =>
            obtain ⟨v, v', _, h2, _⟩ := e
            exact .inr ⟨S.unit, v', rfl, h2, .inr (.inl rfl)⟩
      | error x =>
        rw [M.bind_of_error _ hm]
        cases r' with
        | ok a' =>
          rw [M.bind_of_ok _ hm']
          refine ⟨this.1, ?_⟩
          cases this.2 with
          | inl e => cases e
          | inr e =>
            obtain ⟨v, v', h1, _, _⟩ := e
            exact .inr ⟨v, S.unit, h1, rfl, .inr (.inr rfl)⟩
        | error y => rw [M.bind_of_error _ hm']; exact this

theorem catchBrk_fin (t : Id) {m : M S S.V} {w : S.W} {v : S.V} (h : fin (m w).1 = some v) :
    M.catchBrk t m w = m w := by
  unfold M.catchBrk
  cases hm : m w with
  | mk r w1 =>
    rw [hm] at h
    cases r with
    | ok a => rfl
    | error y => cases y <;> first | rfl | cases h

theorem Rel.catchBrk (t : Id) {m m' : M S S.V} (h : Rel m m') :
    Rel (M.catchBrk t m) (M.catchBrk t m') := by
  intro w
  obtain ⟨h1, h2⟩ := h w
  cases h2 with
  | inl e =>
    have : m w = m' w := Prod.ext e h1
    simp only [M.catchBrk, this]; exact ⟨trivial, .inl rfl⟩
  | inr e =>
    obtain ⟨v, v', ha, hb, hc⟩ := e
    rw [catchBrk_fin t ha, catchBrk_fin t hb]
    exact ⟨h1, .inr ⟨v, v', ha, hb, hc⟩⟩

/-- `return e` and `e`. -/
theorem rel_ret (k : Nat) (e : Expr) (ρ : Env S) :
    Rel (eval k (.ret (.cons e .nil)) ρ) (eval k e ρ) := by
  intro w
  simp only [eval, evalL, M.bind_assoc, M.pure_bind]
  cases hm : eval k e ρ w with
  | mk r w1 => cases r with
    | ok a =>
      rw [M.bind_of_ok _ hm]
      exact ⟨rfl, .inr ⟨a, a, rfl, rfl, .inl rfl⟩⟩
    | error y =>
      rw [M.bind_of_error _ hm]
      exact ⟨rfl, .inl rfl⟩

theorem rel_ret_nil (k : Nat) (ρ : Env S) : Rel (eval k (.ret .nil) ρ) (M.pure S.unit) := by
  intro w
  exact ⟨rfl, .inr ⟨S.unit, S.unit, rfl, rfl, .inl rfl⟩⟩

/-- What an edited expression does; nothing is `()`. -/
def evalO (k : Nat) : Option Expr → Env S → M S S.V
  | some e, ρ => eval k e ρ
  | none, _ => M.pure S.unit

theorem evalO_repl (k : Nat) (r : Repl) (ρ : Env S) : evalO k r.text ρ = M.pure S.unit := by
  cases r <;> rfl

theorem isDone_eq {b : Stmts} (h : isDone b = true) : b = .done := by
  cases b <;> first | rfl | cases h

theorem evalS_ending (k : Nat) (o : Option Expr) (ρ : Env S) : evalS k (ending o) ρ = evalO k o ρ := by
  cases o <;> rfl

theorem hoist_ending (o : Option Expr) (ρ : Env S) : hoist (ending o) ρ = ρ := by
  cases o <;> rfl

theorem hoist_exprS (e : Expr) (r : Stmts) (ρ : Env S) : hoist (exprS e r) ρ = hoist r ρ := by
  unfold exprS
  split
  next h => rw [isDone_eq h]; rfl
  next h => rfl

section
variable {ok cfgAfter isTuple : Expr → Bool}

/-- Only a `return` without a value leaves nothing. -/
theorem finalE_none {repl : Repl} {mt : Option Bool} {e : Expr}
    (h : none ∈ finalE ok cfgAfter isTuple repl mt e) : e = .ret .nil := by
  cases e with
  | ret es =>
    cases es with
    | nil => rfl
    | cons e es =>
      cases es with
      | nil =>
        simp only [finalE] at h
        split at h
        · cases List.mem_singleton.mp h
        · cases h
      | cons _ _ => simp only [finalE] at h; cases h
  | ite c t e =>
    simp only [finalE] at h
    cases List.mem_append.mp h with
    | inl h => obtain ⟨t', _, h⟩ := List.mem_map.mp h; cases h
    | inr h =>
      obtain ⟨e', _, h⟩ := List.mem_filterMap.mp h
      cases e' <;> cases h
  | ifn c t => simp only [finalE] at h; obtain ⟨t', _, h⟩ := List.mem_map.mp h; cases h
  | mtch e as => simp only [finalE] at h; obtain ⟨t', _, h⟩ := List.mem_map.mp h; cases h
  | block l b => simp only [finalE] at h; obtain ⟨t', _, h⟩ := List.mem_map.mp h; cases h
  | _ => simp only [finalE] at h; cases h

/-- Statements of which nothing is left return `()`. -/
theorem blockS_done (k : Nat) {r : Stmts} (h : Stmts.done ∈ blockS ok cfgAfter isTuple r)
    (ρ : Env S) : evalS k r ρ = M.throw (.ret S.unit) := by
  have key : ∀ e, Stmts.done ∈ (finalE ok cfgAfter isTuple .empty none e).map ending →
      e = .ret .nil := by
    intro e h
    obtain ⟨o, ho, h⟩ := List.mem_map.mp h
    cases o with
    | none => exact finalE_none ho
    | some _ => cases h
  cases r with
  | done => simp only [blockS] at h; cases h
  | tail e => simp only [blockS] at h; rw [key e h]; rfl
  | semi e r =>
    simp only [blockS] at h
    split at h
    · split at h
      · cases h
      · rw [key e h]; rfl
    · obtain ⟨t', _, h⟩ := List.mem_map.mp h; cases h
  | expr e r =>
    simp only [blockS] at h
    split at h
    · split at h
      · cases h
      · rw [key e h]; rfl
    · obtain ⟨t', _, h⟩ := List.mem_map.mp h
      unfold exprS at h; split at h <;> cases h
  | letS => simp only [blockS] at h; obtain ⟨t', _, h⟩ := List.mem_map.mp h; cases h
  | letElse => simp only [blockS] at h; obtain ⟨t', _, h⟩ := List.mem_map.mp h; cases h
  | item => simp only [blockS] at h; obtain ⟨t', _, h⟩ := List.mem_map.mp h; cases h

/-- A value before `return`. -/
theorem rel_then_ret (m : M S S.V) : Rel (m.bind fun _ => M.throw (.ret S.unit)) m := by
  intro w
  cases hm : m w with
  | mk r w1 => cases r with
    | ok a => rw [M.bind_of_ok _ hm]; exact ⟨rfl, .inr ⟨S.unit, a, rfl, rfl, .inr (.inl rfl)⟩⟩
    | error y => rw [M.bind_of_error _ hm]; exact ⟨rfl, .inl rfl⟩

mutual

theorem finalE_rel (k : Nat) {repl : Repl} {mt : Option Bool} : ∀ (e : Expr) (o : Option Expr),
    o ∈ finalE ok cfgAfter isTuple repl mt e → ∀ ρ : Env S, Rel (eval k e ρ) (evalO k o ρ)
  | .ret .nil, o, h, ρ => by
    simp only [finalE] at h
    split at h
    · split at h
      · rw [List.mem_singleton.mp h, evalO_repl]; exact rel_ret_nil k ρ
      · cases h
      · rw [List.mem_singleton.mp h, evalO_repl]; exact rel_ret_nil k ρ
    · cases h
  | .ret (.cons e .nil), o, h, ρ => by
    simp only [finalE] at h
    split at h
    · rw [List.mem_singleton.mp h]; exact rel_ret k e ρ
    · cases h
  | .ret (.cons _ (.cons _ _)), o, h, ρ => by simp only [finalE] at h; cases h
  | .ite c t e, o, h, ρ => by
    simp only [finalE] at h
    cases List.mem_append.mp h with
    | inl h =>
      obtain ⟨t', ht, rfl⟩ := List.mem_map.mp h
      simp only [evalO, eval]
      apply Rel.bind
      intro r
      cases r with
      | none => exact Rel.refl _
      | some ρ' => exact blockE_rel k t t' ht ρ'
    | inr h =>
      obtain ⟨e', he, h2⟩ := List.mem_filterMap.mp h
      cases e' with
      | none => cases h2
      | some e' =>
        cases h2
        have := finalE_rel k e (some e') he
        simp only [evalO, eval]
        apply Rel.bind
        intro r
        cases r with
        | none => exact this ρ
        | some ρ' => exact Rel.refl _
  | .ifn c t, o, h, ρ => by
    simp only [finalE] at h
    obtain ⟨t', ht, rfl⟩ := List.mem_map.mp h
    simp only [evalO, eval]
    apply Rel.bind
    intro r
    cases r with
    | none => exact Rel.refl _
    | some ρ' => exact (blockE_rel k t t' ht ρ').drop2
  | .mtch e arms, o, h, ρ => by
    simp only [finalE] at h
    obtain ⟨arms', ha, rfl⟩ := List.mem_map.mp h
    simp only [evalO, eval]
    apply Rel.bind
    intro v
    exact finalA_rel k arms arms' ha v ρ
  | .block none b, o, h, ρ => by
    simp only [finalE] at h
    obtain ⟨b', hb, rfl⟩ := List.mem_map.mp h
    simp only [evalO, eval]
    rw [(blockS_rel k b b' hb ρ).1]
    exact (blockS_rel k b b' hb _).2
  | .block (some l) b, o, h, ρ => by
    simp only [finalE] at h
    obtain ⟨b', hb, rfl⟩ := List.mem_map.mp h
    simp only [evalO, eval]
    rw [(blockS_rel k b b' hb ρ).1]
    exact (blockS_rel k b b' hb _).2.catchBrk l.2
  | .var _, o, h, ρ => by simp only [finalE] at h; cases h
  | .prim _ _ _, o, h, ρ => by simp only [finalE] at h; cases h
  | .assign _ _ _, o, h, ρ => by simp only [finalE] at h; cases h
  | .lzy _ _ _, o, h, ρ => by simp only [finalE] at h; cases h
  | .lp _ _ _, o, h, ρ => by simp only [finalE] at h; cases h
  | .whl _ _ _ _, o, h, ρ => by simp only [finalE] at h; cases h
  | .forE _ _ _ _ _ _, o, h, ρ => by simp only [finalE] at h; cases h
  | .cont _ _, o, h, ρ => by simp only [finalE] at h; cases h
  | .brk _ _ _, o, h, ρ => by simp only [finalE] at h; cases h

theorem finalA_rel (k : Nat) {tuple : Bool} : ∀ (as as' : Arms),
    as' ∈ finalA ok cfgAfter isTuple tuple as → ∀ (v : S.V) (ρ : Env S),
      Rel (evalA k as v ρ) (evalA k as' v ρ)
  | .nil, as', h, v, ρ => by simp only [finalA] at h; cases h
  | .arm p xs body rest, as', h, v, ρ => by
    simp only [finalA] at h
    cases List.mem_append.mp h with
    | inl h =>
      obtain ⟨b, hb, h2⟩ := List.mem_filterMap.mp h
      cases b with
      | none => cases h2
      | some b =>
        cases h2
        have := finalE_rel k body (some b) hb
        simp only [evalA]
        cases S.pat p v with
        | none => exact Rel.refl _
        | some vs => exact this _
    | inr h =>
      obtain ⟨r, hr, rfl⟩ := List.mem_map.mp h
      simp only [evalA]
      cases S.pat p v with
      | none => exact finalA_rel k rest r hr v ρ
      | some vs => exact Rel.refl _
  | .armIf p xs g body rest, as', h, v, ρ => by
    simp only [finalA] at h
    cases List.mem_append.mp h with
    | inl h =>
      obtain ⟨b, hb, h2⟩ := List.mem_filterMap.mp h
      cases b with
      | none => cases h2
      | some b =>
        cases h2
        have := finalE_rel k body (some b) hb
        simp only [evalA]
        cases S.pat p v with
        | none => exact Rel.refl _
        | some vs =>
          apply Rel.bind
          intro r
          cases r with
          | none => exact Rel.refl _
          | some ρ' => exact this _
    | inr h =>
      obtain ⟨r, hr, rfl⟩ := List.mem_map.mp h
      have := finalA_rel k rest r hr v ρ
      simp only [evalA]
      cases S.pat p v with
      | none => exact this
      | some vs =>
        apply Rel.bind
        intro r
        cases r with
        | none => exact this
        | some ρ' => exact Rel.refl _

theorem blockE_rel (k : Nat) : ∀ (e e' : Expr), e' ∈ blockE ok cfgAfter isTuple e →
    ∀ ρ : Env S, Rel (eval k e ρ) (eval k e' ρ)
  | .block none b, e', h, ρ => by
    simp only [blockE] at h
    obtain ⟨b', hb, rfl⟩ := List.mem_map.mp h
    simp only [eval]
    rw [(blockS_rel k b b' hb ρ).1]
    exact (blockS_rel k b b' hb _).2
  | .block (some l) b, e', h, ρ => by
    simp only [blockE] at h
    obtain ⟨b', hb, rfl⟩ := List.mem_map.mp h
    simp only [eval]
    rw [(blockS_rel k b b' hb ρ).1]
    exact (blockS_rel k b b' hb _).2.catchBrk l.2
  | .ret _, e', h, ρ => by simp only [blockE] at h; cases h
  | .ite _ _ _, e', h, ρ => by simp only [blockE] at h; cases h
  | .ifn _ _, e', h, ρ => by simp only [blockE] at h; cases h
  | .mtch _ _, e', h, ρ => by simp only [blockE] at h; cases h
  | .var _, o, h, ρ => by simp only [blockE] at h; cases h
  | .prim _ _ _, o, h, ρ => by simp only [blockE] at h; cases h
  | .assign _ _ _, o, h, ρ => by simp only [blockE] at h; cases h
  | .lzy _ _ _, o, h, ρ => by simp only [blockE] at h; cases h
  | .lp _ _ _, o, h, ρ => by simp only [blockE] at h; cases h
  | .whl _ _ _ _, o, h, ρ => by simp only [blockE] at h; cases h
  | .forE _ _ _ _ _ _, o, h, ρ => by simp only [blockE] at h; cases h
  | .cont _ _, o, h, ρ => by simp only [blockE] at h; cases h
  | .brk _ _ _, o, h, ρ => by simp only [blockE] at h; cases h

theorem blockS_rel (k : Nat) : ∀ (b b' : Stmts), b' ∈ blockS ok cfgAfter isTuple b →
    ∀ ρ : Env S, hoist b' ρ = hoist b ρ ∧ Rel (evalS k b ρ) (evalS k b' ρ)
  | .done, b', h, ρ => by simp only [blockS] at h; cases h
  | .tail e, b', h, ρ => by
    simp only [blockS] at h
    obtain ⟨o, ho, rfl⟩ := List.mem_map.mp h
    rw [hoist_ending, evalS_ending]
    exact ⟨rfl, finalE_rel k e o ho ρ⟩
  | .semi e r, b', h, ρ => by
    simp only [blockS] at h
    split at h
    next hd =>
      have hr := isDone_eq hd
      split at h
      · cases h
      · obtain ⟨o, ho, rfl⟩ := List.mem_map.mp h
        rw [hoist_ending, evalS_ending, hr]
        exact ⟨rfl, (finalE_rel k e o ho ρ).drop⟩
    next hd =>
      obtain ⟨r', hr, rfl⟩ := List.mem_map.mp h
      have := blockS_rel k r r' hr
      exact ⟨(this ρ).1, Rel.bind _ fun _ => (this ρ).2⟩
  | .expr e r, b', h, ρ => by
    simp only [blockS] at h
    split at h
    next hd =>
      have hr := isDone_eq hd
      split at h
      · cases h
      · obtain ⟨o, ho, rfl⟩ := List.mem_map.mp h
        rw [hoist_ending, evalS_ending, hr]
        exact ⟨rfl, (finalE_rel k e o ho ρ).drop⟩
    next hd =>
      obtain ⟨r', hr, rfl⟩ := List.mem_map.mp h
      have := blockS_rel k r r' hr
      refine ⟨by rw [hoist_exprS]; exact (this ρ).1, ?_⟩
      unfold exprS
      split
      next hd' =>
        rw [isDone_eq hd'] at hr
        have h2 := rel_then_ret (eval k e ρ)
        rw [← blockS_done k hr ρ] at h2
        exact h2
      next hd' => exact Rel.bind _ fun _ => (this ρ).2
  | .letS p xs e r, b', h, ρ => by
    simp only [blockS] at h
    obtain ⟨r', hr, rfl⟩ := List.mem_map.mp h
    have := fun ρ : Env S => blockS_rel k r r' hr ρ
    exact ⟨(this ρ).1, Rel.bind _ fun _ => Rel.bind _ fun ρ' => (this ρ').2⟩
  | .letElse p xs e els r, b', h, ρ => by
    simp only [blockS] at h
    obtain ⟨r', hr, rfl⟩ := List.mem_map.mp h
    have := fun ρ : Env S => blockS_rel k r r' hr ρ
    refine ⟨(this ρ).1, Rel.bind _ fun v => ?_⟩
    cases S.pat p v with
    | none => exact Rel.refl _
    | some vs => exact (this _).2
  | .item x n r, b', h, ρ => by
    simp only [blockS] at h
    obtain ⟨r', hr, rfl⟩ := List.mem_map.mp h
    have := fun ρ : Env S => blockS_rel k r r' hr ρ
    exact ⟨(this _).1, (this ρ).2⟩

end
end

theorem call_rel {m m' : M S S.V} (h : Rel m m') (w : S.W) :
    (call m w).2 = (call m' w).2 ∧ ((call m w).1 = (call m' w).1 ∨
      ∃ v v', (call m w).1 = .ok v ∧ (call m' w).1 = .ok v' ∧ (v = S.unit ∨ v' = S.unit)) := by
  have ok : ∀ (m : M S S.V) v, fin (m w).1 = some v → call m w = (.ok v, (m w).2) := by
    intro m v h
    unfold call
    cases hm : m w with
    | mk r w1 =>
      rw [hm] at h
      cases r with
      | ok a => cases h; rfl
      | error y => cases y <;> cases h; rfl
  obtain ⟨h1, h2⟩ := h w
  cases h2 with
  | inl e =>
    have : m w = m' w := Prod.ext e h1
    simp only [call, this]; exact ⟨trivial, .inl trivial⟩
  | inr e =>
    obtain ⟨v, v', ha, hb, hc⟩ := e
    rw [ok m v ha, ok m' v' hb]
    refine ⟨h1, ?_⟩
    cases hc with
    | inl e => exact .inl (by rw [e])
    | inr e => exact .inr ⟨v, v', rfl, rfl, e⟩

/-- **C75, effects.** Every reported `return` of a function can be replaced as suggested: the
function does the same and ends in the same way, and its value is the same unless one of the two
is `()`. -/
theorem fn_same_but_unit (ok cfgAfter isTuple : Expr → Bool) {b b' : Stmts}
    (h : b' ∈ editsFn ok cfgAfter isTuple b) (k : Nat) (ρ : Env S) (w : S.W) :
    (call (evalB k b ρ) w).2 = (call (evalB k b' ρ) w).2 ∧
      ((call (evalB k b ρ) w).1 = (call (evalB k b' ρ) w).1 ∨
        ∃ v v', (call (evalB k b ρ) w).1 = .ok v ∧ (call (evalB k b' ρ) w).1 = .ok v' ∧
          (v = S.unit ∨ v' = S.unit)) := by
  unfold evalB
  rw [(blockS_rel k b b' h ρ).1]
  exact call_rel (blockS_rel k b b' h _).2 w

theorem same_of_type {m m' : M S S.V} {T : S.V → Prop} (hT : OneType S.unit T)
    (hm : Gives T (call m)) (hm' : Gives T (call m'))
    (h : ∀ w, (call m w).2 = (call m' w).2 ∧ ((call m w).1 = (call m' w).1 ∨
      ∃ v v', (call m w).1 = .ok v ∧ (call m' w).1 = .ok v' ∧ (v = S.unit ∨ v' = S.unit))) :
    call m = call m' := by
  funext w
  obtain ⟨h1, h2⟩ := h w
  apply Prod.ext _ h1
  cases h2 with
  | inl e => exact e
  | inr e =>
    obtain ⟨v, v', ha, hb, hc⟩ := e
    have tv : T v := hm w v _ (Prod.ext ha rfl)
    have tv' : T v' := hm' w v' _ (Prod.ext hb rfl)
    rw [ha, hb]
    cases hT with
    | inl hT => rw [hT v tv, hT v' tv']
    | inr hT =>
      cases hc with
      | inl e => rw [e] at tv; exact absurd tv hT
      | inr e => rw [e] at tv'; exact absurd tv' hT

/-- **C75.** When the edited function still has values of the same type, that is when it compiles,
it is the same function.  Missing: the edited function need not compile (`edit_changes_type`). -/
theorem fn_same_partial (ok cfgAfter isTuple : Expr → Bool) {b b' : Stmts}
    (h : b' ∈ editsFn ok cfgAfter isTuple b) (k : Nat) (ρ : Env S) {T : S.V → Prop}
    (hT : OneType S.unit T) (hb : Gives T (call (evalB k b ρ)))
    (hb' : Gives T (call (evalB k b' ρ))) : call (evalB k b ρ) = call (evalB k b' ρ) :=
  same_of_type hT hb hb' fun w => fn_same_but_unit ok cfgAfter isTuple h k ρ w

/-- The body of a closure is never removed as a whole. -/
theorem closure_some (ok cfgAfter isTuple : Expr → Bool) {e : Expr} {o : Option Expr}
    (h : o ∈ editsClosure ok cfgAfter isTuple e) : ∃ e', o = some e' := by
  cases o with
  | some e' => exact ⟨e', rfl⟩
  | none =>
    unfold editsClosure at h
    have he := finalE_none h
    subst he
    simp only [isBareRet, if_true, finalE] at h
    split at h
    · cases List.mem_singleton.mp h
    · cases h

/-- **C75, closures.** The same for the body of a closure, which stays an expression. -/
theorem closure_same_partial (ok cfgAfter isTuple : Expr → Bool) {e e' : Expr}
    (h : some e' ∈ editsClosure ok cfgAfter isTuple e) (k : Nat) (ρ : Env S) {T : S.V → Prop}
    (hT : OneType S.unit T) (he : Gives T (call (eval k e ρ)))
    (he' : Gives T (call (eval k e' ρ))) : call (eval k e ρ) = call (eval k e' ρ) :=
  same_of_type hT he he' fun w => call_rel (finalE_rel k e (some e') h ρ) w

section
variable {ok cfgAfter isTuple : Expr → Bool}

/-- How many `return`s are left. -/
def retsO : Option Expr → Nat
  | some e => retsE e
  | none => 0

theorem retsS_ending (o : Option Expr) : retsS (ending o) = retsO o := by cases o <;> rfl

theorem retsS_exprS (e : Expr) (r : Stmts) : retsS (exprS e r) = retsE e + retsS r := by
  unfold exprS
  split
  next h => rw [isDone_eq h]; rfl
  next h => rfl

mutual

theorem finalE_rets {repl : Repl} {mt : Option Bool} : ∀ (e : Expr) (o : Option Expr),
    o ∈ finalE ok cfgAfter isTuple repl mt e → retsE e = retsO o + 1
  | .ret .nil, o, h => by
    simp only [finalE] at h
    split at h
    · split at h
      · rw [List.mem_singleton.mp h]; rfl
      · cases h
      · rw [List.mem_singleton.mp h]; cases repl <;> rfl
    · cases h
  | .ret (.cons e .nil), o, h => by
    simp only [finalE] at h
    split at h
    · rw [List.mem_singleton.mp h]; simp only [retsE, retsL, retsO]; omega
    · cases h
  | .ret (.cons _ (.cons _ _)), o, h => by simp only [finalE] at h; cases h
  | .ite c t e, o, h => by
    simp only [finalE] at h
    cases List.mem_append.mp h with
    | inl h =>
      obtain ⟨t', ht, rfl⟩ := List.mem_map.mp h
      have := blockE_rets t t' ht
      simp only [retsO, retsE]; omega
    | inr h =>
      obtain ⟨e', he, h2⟩ := List.mem_filterMap.mp h
      cases e' with
      | none => cases h2
      | some e' =>
        cases h2
        have := finalE_rets e (some e') he
        simp only [retsO, retsE] at this ⊢; omega
  | .ifn c t, o, h => by
    simp only [finalE] at h
    obtain ⟨t', ht, rfl⟩ := List.mem_map.mp h
    have := blockE_rets t t' ht
    simp only [retsO, retsE]; omega
  | .mtch e arms, o, h => by
    simp only [finalE] at h
    obtain ⟨arms', ha, rfl⟩ := List.mem_map.mp h
    have := finalA_rets arms arms' ha
    simp only [retsO, retsE]; omega
  | .block _ b, o, h => by
    simp only [finalE] at h
    obtain ⟨b', hb, rfl⟩ := List.mem_map.mp h
    have := blockS_rets b b' hb
    simp only [retsO, retsE]; omega
  | .var _, o, h => by simp only [finalE] at h; cases h
  | .prim _ _ _, o, h => by simp only [finalE] at h; cases h
  | .assign _ _ _, o, h => by simp only [finalE] at h; cases h
  | .lzy _ _ _, o, h => by simp only [finalE] at h; cases h
  | .lp _ _ _, o, h => by simp only [finalE] at h; cases h
  | .whl _ _ _ _, o, h => by simp only [finalE] at h; cases h
  | .forE _ _ _ _ _ _, o, h => by simp only [finalE] at h; cases h
  | .cont _ _, o, h => by simp only [finalE] at h; cases h
  | .brk _ _ _, o, h => by simp only [finalE] at h; cases h

theorem finalA_rets {tuple : Bool} : ∀ (as as' : Arms),
    as' ∈ finalA ok cfgAfter isTuple tuple as → retsA as = retsA as' + 1
  | .nil, as', h => by simp only [finalA] at h; cases h
  | .arm p xs body rest, as', h => by
    simp only [finalA] at h
    cases List.mem_append.mp h with
    | inl h =>
      obtain ⟨b, hb, h2⟩ := List.mem_filterMap.mp h
      cases b with
      | none => cases h2
      | some b =>
        cases h2
        have := finalE_rets body (some b) hb
        simp only [retsO, retsA] at this ⊢; omega
    | inr h =>
      obtain ⟨r, hr, rfl⟩ := List.mem_map.mp h
      have := finalA_rets rest r hr
      simp only [retsA]; omega
  | .armIf p xs g body rest, as', h => by
    simp only [finalA] at h
    cases List.mem_append.mp h with
    | inl h =>
      obtain ⟨b, hb, h2⟩ := List.mem_filterMap.mp h
      cases b with
      | none => cases h2
      | some b =>
        cases h2
        have := finalE_rets body (some b) hb
        simp only [retsO, retsA] at this ⊢; omega
    | inr h =>
      obtain ⟨r, hr, rfl⟩ := List.mem_map.mp h
      have := finalA_rets rest r hr
      simp only [retsA]; omega

theorem blockE_rets : ∀ (e e' : Expr), e' ∈ blockE ok cfgAfter isTuple e → retsE e = retsE e' + 1
  | .block _ b, e', h => by
    simp only [blockE] at h
    obtain ⟨b', hb, rfl⟩ := List.mem_map.mp h
    simp only [retsE]
    exact blockS_rets b b' hb
  | .ret _, e', h => by simp only [blockE] at h; cases h
  | .ite _ _ _, e', h => by simp only [blockE] at h; cases h
  | .ifn _ _, e', h => by simp only [blockE] at h; cases h
  | .mtch _ _, e', h => by simp only [blockE] at h; cases h
  | .var _, o, h => by simp only [blockE] at h; cases h
  | .prim _ _ _, o, h => by simp only [blockE] at h; cases h
  | .assign _ _ _, o, h => by simp only [blockE] at h; cases h
  | .lzy _ _ _, o, h => by simp only [blockE] at h; cases h
  | .lp _ _ _, o, h => by simp only [blockE] at h; cases h
  | .whl _ _ _ _, o, h => by simp only [blockE] at h; cases h
  | .forE _ _ _ _ _ _, o, h => by simp only [blockE] at h; cases h
  | .cont _ _, o, h => by simp only [blockE] at h; cases h
  | .brk _ _ _, o, h => by simp only [blockE] at h; cases h

theorem blockS_rets : ∀ (b b' : Stmts), b' ∈ blockS ok cfgAfter isTuple b → retsS b = retsS b' + 1
  | .done, b', h => by simp only [blockS] at h; cases h
  | .tail e, b', h => by
    simp only [blockS] at h
    obtain ⟨o, ho, rfl⟩ := List.mem_map.mp h
    rw [retsS_ending]
    exact finalE_rets e o ho
  | .semi e r, b', h => by
    simp only [blockS] at h
    split at h
    next hd =>
      split at h
      · cases h
      · obtain ⟨o, ho, rfl⟩ := List.mem_map.mp h
        have := finalE_rets e o ho
        rw [retsS_ending, isDone_eq hd]
        simp only [retsS]; omega
    next hd =>
      obtain ⟨r', hr, rfl⟩ := List.mem_map.mp h
      have := blockS_rets r r' hr
      simp only [retsS]; omega
  | .expr e r, b', h => by
    simp only [blockS] at h
    split at h
    next hd =>
      split at h
      · cases h
      · obtain ⟨o, ho, rfl⟩ := List.mem_map.mp h
        have := finalE_rets e o ho
        rw [retsS_ending, isDone_eq hd]
        simp only [retsS]; omega
    next hd =>
      obtain ⟨r', hr, rfl⟩ := List.mem_map.mp h
      have := blockS_rets r r' hr
      rw [retsS_exprS]
      simp only [retsS]; omega
  | .letS p xs e r, b', h => by
    simp only [blockS] at h
    obtain ⟨r', hr, rfl⟩ := List.mem_map.mp h
    have := blockS_rets r r' hr
    simp only [retsS]; omega
  | .letElse p xs e els r, b', h => by
    simp only [blockS] at h
    obtain ⟨r', hr, rfl⟩ := List.mem_map.mp h
    have := blockS_rets r r' hr
    simp only [retsS]; omega
  | .item x n r, b', h => by
    simp only [blockS] at h
    obtain ⟨r', hr, rfl⟩ := List.mem_map.mp h
    have := blockS_rets r r' hr
    simp only [retsS]; omega

end
end

/-- **C75, one at a time.** Every edit takes away exactly one `return`. -/
theorem one_return_less (ok cfgAfter isTuple : Expr → Bool) {b b' : Stmts}
    (h : b' ∈ editsFn ok cfgAfter isTuple b) : retsS b = retsS b' + 1 := blockS_rets b b' h

/-! ### The text -/

/-- Down to the left end through operators and casts: no call, index, range or assignment directly
after something like a block. -/
def Plain : Src → Prop
  | .blockLike => True
  | .other => True
  | .binary l => Plain l
  | .cast l => Plain l
  | .method l => Whole l
  | .field l => Whole l
  | .quest l => Whole l
  | .call l => Whole l ∧ l ≠ .blockLike
  | .index l => Whole l ∧ l ≠ .blockLike
  | .range l => Whole l ∧ l ≠ .blockLike
  | .assign l => Whole l ∧ l ≠ .blockLike

theorem tokens_nil {e : Src} (h : e.tokens = (true, [])) : e = .blockLike := by
  cases e <;> simp [Src.tokens] at h <;> rfl

theorem leftOver_append (b : Bool) (s : List Suffix) (x : Suffix) (h : (b, s) ≠ (true, [])) :
    leftOver (b, s ++ [x]) = [] ↔ leftOver (b, s) = [] := by
  cases b with
  | false => simp [leftOver]
  | true =>
    cases s with
    | nil => exact absurd rfl h
    | cons y r => cases y <;> simp [leftOver]

/-- A suffix after something that is not just a block. -/
theorem whole_suffix {l : Src} (x : Suffix) (h : l ≠ .blockLike) :
    leftOver (l.tokens.1, l.tokens.2 ++ [x]) = [] ↔ Whole l := by
  rw [leftOver_append _ _ _ fun e => h (tokens_nil e)]
  exact Iff.rfl

theorem whole_op {l : Src} (x : Suffix) (hx : x = .op ∨ x = .args ∨ x = .brackets) :
    leftOver (l.tokens.1, l.tokens.2 ++ [x]) = [] ↔ Whole l ∧ l ≠ .blockLike := by
  by_cases h : l = .blockLike
  · subst h
    rcases hx with rfl | rfl | rfl <;> simp [Src.tokens, leftOver]
  · rw [whole_suffix x h]; exact ⟨fun a => ⟨a, h⟩, fun a => a.1⟩

theorem whole_dot {l : Src} (x : Suffix) (hx : x = .dot ∨ x = .quest) :
    leftOver (l.tokens.1, l.tokens.2 ++ [x]) = [] ↔ Whole l := by
  by_cases h : l = .blockLike
  · subst h
    rcases hx with rfl | rfl <;> simp [Src.tokens, leftOver, Whole]
  · exact whole_suffix x h

theorem containsBlock_true {l : Src} (h : l ≠ .blockLike) :
    containsBlock l true = containsBlock l false := by
  cases l <;> first | rfl | exact absurd rfl h

/-- Without parentheses. -/
theorem whole_iff : ∀ e : Src, Whole e ↔ Plain e ∧ needsPar e = false
  | .blockLike => by simp [Whole, Src.tokens, leftOver, Plain, needsPar, containsBlock]
  | .other => by simp [Whole, Src.tokens, leftOver, Plain, needsPar, containsBlock]
  | .binary l => by
    have ih := whole_iff l
    simp only [Whole, Src.tokens, Plain, needsPar, containsBlock]
    rw [whole_op .op (.inl rfl), ih]
    by_cases h : l = .blockLike
    · subst h; simp [containsBlock]
    · rw [containsBlock_true h]; exact ⟨fun a => a.1, fun a => ⟨a, h⟩⟩
  | .cast l => by
    have ih := whole_iff l
    simp only [Whole, Src.tokens, Plain, needsPar, containsBlock]
    rw [whole_op .op (.inl rfl), ih]
    by_cases h : l = .blockLike
    · subst h; simp [containsBlock]
    · rw [containsBlock_true h]; exact ⟨fun a => a.1, fun a => ⟨a, h⟩⟩
  | .method l => by
    simp only [Plain, needsPar, containsBlock, and_true]; exact whole_dot .dot (.inl rfl)
  | .field l => by
    simp only [Plain, needsPar, containsBlock, and_true]; exact whole_dot .dot (.inl rfl)
  | .quest l => by
    simp only [Plain, needsPar, containsBlock, and_true]; exact whole_dot .quest (.inr rfl)
  | .call l => by
    simp only [Plain, needsPar, containsBlock, and_true]; exact whole_op .args (.inr (.inl rfl))
  | .index l => by
    simp only [Plain, needsPar, containsBlock, and_true]; exact whole_op .brackets (.inr (.inr rfl))
  | .range l => by
    simp only [Plain, needsPar, containsBlock, and_true]; exact whole_op .op (.inl rfl)
  | .assign l => by
    simp only [Plain, needsPar, containsBlock, and_true]; exact whole_op .op (.inl rfl)

theorem plain_of_needsPar : ∀ e : Src, needsPar e = true → Plain e
  | .blockLike, _ => trivial
  | .other, _ => trivial
  | .binary l, h => by
    by_cases hl : l = .blockLike
    · subst hl; trivial
    · exact plain_of_needsPar l ((containsBlock_true hl).symm.trans h)
  | .cast l, h => by
    by_cases hl : l = .blockLike
    · subst hl; trivial
    · exact plain_of_needsPar l ((containsBlock_true hl).symm.trans h)

/-- **C75, text.** What is written instead of `return e` is read as one expression at the beginning
of a statement just when no call, index, range or assignment directly follows a block in it. -/
theorem written_whole_partial (e : Src) : Whole (written e) ↔ Plain e := by
  unfold written
  cases h : needsPar e with
  | true => exact ⟨fun _ => plain_of_needsPar e h, fun _ => rfl⟩
  | false =>
    rw [if_neg (by decide), whole_iff e, h]
    exact ⟨fun a => a.1, fun a => ⟨a, rfl⟩⟩

/-- **C75, text.** Parentheses are only put where they are needed. -/
theorem par_needed (e : Src) (h : needsPar e = true) : ¬Whole e := by
  intro hw
  rw [((whole_iff e).mp hw).2] at h
  cases h

end Verif.Ctrl.Return
