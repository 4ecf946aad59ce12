import Verif.Flow.EagerSpec

/-!
# C41: what is evaluated eagerly is harmless, what is evaluated lazily can be moved
-/

namespace Verif.Eager

open Verif.RInt (IT)

theorem Eag.or_eager (a : Eag) : a.or .eager = a := by cases a <;> rfl
theorem Eag.eager_or (a : Eag) : Eag.eager.or a = a := by cases a <;> rfl
theorem Eag.or_assoc (a b c : Eag) : (a.or b).or c = a.or (b.or c) := by cases a <;> cases b <;> cases c <;> rfl
theorem Eag.or_le_left (a b : Eag) : a.rank ≤ (a.or b).rank := by cases a <;> cases b <;> decide
theorem Eag.or_le_right (a b : Eag) : b.rank ≤ (a.or b).rank := by cases a <;> cases b <;> decide
theorem Eag.force_or (a : Eag) : Eag.force.or a = .force := by cases a <;> rfl
theorem Eag.or_eq_eager {a b : Eag} (h : a.or b = .eager) : a = .eager ∧ b = .eager := by
  cases a <;> cases b <;> simp_all [Eag.or, Eag.rank]

/-! ## The state only collects the maximum -/

theorem or_lazy {s : Eag} (h : s ≠ .force) : s.or .lazy = .lazy := by cases s <;> simp_all [Eag.or, Eag.rank]

theorem binStep_or (op : BOp) (l r : OpTy) (x y : Option Cst) {s : Eag} (h : s ≠ .force) :
    binStep op l r x y s = s.or (binStep op l r x y .eager) := by
  unfold binStep
  split
  · rw [Eag.eager_or]
  split
  · rw [Eag.eager_or]
  split
  · rw [Eag.eager_or]
  split
  · rw [Eag.or_eager]
  · rw [or_lazy h]

theorem step_or (eval : EExpr → Option Cst) (k : Kind) (args : List EExpr) {s : Eag} (h : s ≠ .force) :
    (step eval k args s).1 = s.or (step eval k args .eager).1 ∧ (step eval k args s).2 = (step eval k args .eager).2 := by
  have hl := or_lazy h
  have hf : s.or .force = .force := by cases s <;> rfl
  have hu : ∀ t : OpTy, (match t with | .bool | .int _ => s | _ => Eag.lazy) =
      s.or (match t with | .bool | .int _ => Eag.eager | _ => Eag.lazy) := by
    intro t; cases t <;> simp [Eag.or_eager, hl]
  cases k with
  | bin op l r => exact ⟨binStep_or _ _ _ _ _ h, rfl⟩
  | ctor d => cases d <;> simp [step, hf, Eag.or_eager]
  | struct d => cases d <;> simp [step, hf, Eag.or_eager]
  | path d _ => cases d <;> simp [step, hf, Eag.or_eager]
  | call f c =>
    simp only [step]
    split
    · simp [Eag.or_eager]
    split
    · simp [Eag.eager_or]
    · simp [Eag.eager_or]
  | method f c =>
    simp only [step]
    split <;> simp [Eag.eager_or]
  | neg t =>
    simp only [step]
    split
    · simp [Eag.eager_or]
    · exact ⟨hu t, trivial⟩
  | not t => exact ⟨hu t, rfl⟩
  | index c => cases c <;> simp [step, Eag.eager_or, hl]
  | _ => simp [step, Eag.eager_or, Eag.or_eager, hl, hf]

mutual
theorem visit_or (eval : EExpr → Option Cst) : ∀ (e : EExpr) (s : Eag), visit eval s e = s.or (visit eval .eager e)
  | .node k args, s => by
    by_cases h : s = .force
    · subst h; rw [visit, if_pos rfl, Eag.force_or]
    · obtain ⟨h1, h2⟩ := step_or eval k args h
      have he : Eag.eager ≠ .force := by simp
      rw [visit, visit]
      simp only [if_neg h, if_neg he, h1, h2]
      split
      · rw [visitAll_or eval args, visitAll_or eval args (step eval k args .eager).1, Eag.or_assoc]
      · rfl

theorem visitAll_or (eval : EExpr → Option Cst) : ∀ (es : List EExpr) (s : Eag),
    visitAll eval s es = s.or (visitAll eval .eager es)
  | [], s => by rw [visitAll, visitAll, Eag.or_eager]
  | e :: es, s => by
    rw [visitAll, visitAll, visitAll_or eval es, visitAll_or eval es (visit eval .eager e), visit_or eval e s,
      Eag.or_assoc]
end

theorem visitAll_ge (eval : EExpr → Option Cst) {e : EExpr} : ∀ {es : List EExpr} (_ : e ∈ es),
    (visit eval .eager e).rank ≤ (visitAll eval .eager es).rank
  | a :: as, h => by
    rw [visitAll, visitAll_or]
    rcases List.mem_cons.1 h with h | h
    · subst h; exact Eag.or_le_left _ _
    · exact Nat.le_trans (visitAll_ge eval h) (Eag.or_le_right _ _)

theorem visit_node (eval : EExpr → Option Cst) (k : Kind) (args : List EExpr) :
    visit eval .eager (.node k args) = if (step eval k args .eager).2 then
      (step eval k args .eager).1.or (visitAll eval .eager args) else (step eval k args .eager).1 := by
  rw [visit, if_neg (by simp)]
  split
  · rw [visitAll_or]
  · rfl

/-- Where the parts are not visited, the result is not `eager`. -/
theorem step_stop_ne (eval : EExpr → Option Cst) (k : Kind) (args : List EExpr)
    (h : (step eval k args .eager).2 = false) : (step eval k args .eager).1 ≠ .eager := by
  revert h
  cases k with
  | call f c =>
    simp only [step]
    split
    · simp
    split <;> simp [Eag.or, Eag.rank]
  | method f c =>
    simp only [step]
    split <;> simp [Eag.or, Eag.rank]
  | ctor d => cases d <;> simp [step]
  | struct d => cases d <;> simp [step]
  | path d _ => cases d <;> simp [step]
  | _ => simp [step, Eag.or, Eag.rank]

theorem eager_node {eval : EExpr → Option Cst} {k : Kind} {args : List EExpr}
    (h : visit eval .eager (.node k args) = .eager) :
    (step eval k args .eager).1 = .eager ∧ ∀ e ∈ args, visit eval .eager e = .eager := by
  rw [visit_node] at h
  split at h
  · obtain ⟨h1, h2⟩ := Eag.or_eq_eager h
    refine ⟨h1, fun e he => ?_⟩
    have := visitAll_ge eval he
    rw [h2] at this
    revert this
    generalize visit eval .eager e = x
    cases x <;> simp [Eag.rank]
  · next hs => exact absurd h (step_stop_ne eval k args (by simpa using hs))

/-! ## Eager evaluation -/

theorem fnEagerness_eager {f : FnInfo} {b : Bool} (h : fnEagerness f b = .eager) : f.stdAccessor = true := by
  unfold fnEagerness at h
  split at h
  · simp at h
  next hi =>
  split at h
  · next hn =>
    split at h
    · next hc =>
      simp only [Bool.and_eq_true] at hn
      simp only [FnInfo.stdAccessor, Bool.and_eq_true]
      exact ⟨⟨by simpa using hi, hc⟩, hn.1⟩
    · simp at h
  · split at h <;> simp at h

theorem evalArg_some {eval : EExpr → Option Cst} {args : List EExpr} {i : Nat} {a : EExpr} (h : args[i]? = some a) :
    evalArg eval args i = eval a := by simp [evalArg, h]

theorem binStep_eager {op : BOp} {l r : OpTy} {x y : Option Cst} (h : binStep op l r x y .eager = .eager) :
    l.prim = true ∧ r.prim = true ∧ ((op = .shl ∨ op = .shr) → y ≠ none) ∧
    ((op = .div ∨ op = .rem) → ∃ c, y = some (.int c) ∧ (c = -1 → x ≠ none)) ∧
    ((op = .add ∨ op = .sub ∨ op = .mul) → l ≠ .float → x ≠ none ∧ y ≠ none) := by
  unfold binStep at h
  split at h
  · simp [Eag.or, Eag.rank] at h
  next h1 =>
  split at h
  · simp [Eag.or, Eag.rank] at h
  next h2 =>
  split at h
  · simp [Eag.or, Eag.rank] at h
  next h3 =>
  split at h
  · next h4 =>
    refine ⟨h4.1, h4.2, fun ho hy => h1 ⟨ho, hy⟩, fun ho => ?_, fun ho hl => ?_⟩
    · have h2' := fun hh => h2 ⟨ho, hh⟩
      cases y with
      | none => exact absurd (.inl rfl) h2'
      | some c =>
        cases c with
        | other => exact absurd (.inl rfl) h2'
        | int v => exact ⟨v, rfl, fun hv hx => h2' (.inr ⟨hx, by simp [Cst.int?, hv]⟩)⟩
    · exact ⟨fun hx => h3 ⟨ho, hl, .inl hx⟩, fun hy => h3 ⟨ho, hl, .inr hy⟩⟩
  · simp at h

/-- The operation itself is harmless if it is classified as `eager`. -/
theorem local_eager (w : World) {k : Kind} {args : List EExpr} {eff : Effect} (hs : k.safeRead = true)
    (h : (step w.eval k args .eager).1 = .eager) (hl : Local w k args eff) : LocalRejected w k args := by
  cases k with
  | call f c =>
    exfalso
    simp only [step] at h
    split at h
    · next hp => exact w.promotableHarmless f eff hp hl
    split at h
    · simp [Eag.or, Eag.rank] at h
    · have ha := fnEagerness_eager (by simpa [Eag.eager_or] using h)
      refine w.accessorHarmless f eff ha ?_ hl
      simpa [Kind.safeRead, ha] using hs
  | method f c =>
    exfalso
    simp only [step] at h
    split at h
    · simp [Eag.or, Eag.rank] at h
    · have ha := fnEagerness_eager (by simpa [Eag.eager_or] using h)
      refine w.accessorHarmless f eff ha ?_ hl
      simpa [Kind.safeRead, ha] using hs
  | path d u => simp_all [Local, Kind.safeRead]
  | field u => simp_all [Local, Kind.safeRead]
  | neg t =>
    simp only [step] at h
    split at h
    · simp [Eag.or, Eag.rank] at h
    next hc =>
    cases t with
    | int t =>
      obtain ⟨_, a, v, ha, hv, hn⟩ := hl
      rw [evalArg_some ha] at hc
      obtain ⟨c, hc⟩ := Option.ne_none_iff_exists'.1 hc
      have := w.evalRight a c v hc hv
      subst this
      exact ⟨a, v, ha, hc, hn⟩
    | other => simp at h
    | _ => simp [Local] at hl
  | not t =>
    cases t <;> simp_all [step, Local]
  | bin op l r =>
    obtain ⟨hlp, hrp, hsh, hdiv, hadd⟩ := binStep_eager h
    cases l with
    | int t =>
      cases r with
      | int t' =>
        obtain ⟨_, a, b, x, y, ha, hb, hx, hy, hp⟩ := hl
        rw [evalArg_some ha, evalArg_some hb] at hadd
        rw [evalArg_some hb] at hsh hdiv
        rw [evalArg_some ha] at hdiv
        have hav : ∀ c, w.eval a = some c → w.eval a = some (.int x) := by
          intro c hc; rw [hc, w.evalRight a c x hc hx]
        have hbv : ∀ c, w.eval b = some c → w.eval b = some (.int y) := by
          intro c hc; rw [hc, w.evalRight b c y hc hy]
        have both : w.eval a ≠ none ∧ w.eval b ≠ none → LocalRejected w (.bin op (.int t) (.int t')) args := by
          rintro ⟨h1, h2⟩
          obtain ⟨c1, h1⟩ := Option.ne_none_iff_exists'.1 h1
          obtain ⟨c2, h2⟩ := Option.ne_none_iff_exists'.1 h2
          exact ⟨b, y, hb, hbv _ h2, .inr ⟨a, x, ha, hav _ h1, hp⟩⟩
        have shift : w.eval b ≠ none → (∀ z, t.In z → op.panics t z y) →
            LocalRejected w (.bin op (.int t) (.int t')) args := by
          intro h2 h3
          obtain ⟨c2, h2⟩ := Option.ne_none_iff_exists'.1 h2
          exact ⟨b, y, hb, hbv _ h2, .inl h3⟩
        have divide : (op = .div ∨ op = .rem) → (y = 0 ∨ (x = t.min ∧ y = -1)) →
            LocalRejected w (.bin op (.int t) (.int t')) args := by
          intro ho hp'
          obtain ⟨c, hc, hm⟩ := hdiv ho
          have hcy : c = y := by
            have := hbv _ hc
            rw [hc] at this
            simpa using this
          subst hcy
          rcases hp' with h0 | ⟨_, h1⟩
          · refine shift (by simp [hc]) ?_
            intro z _
            rcases ho with ho | ho <;> subst ho <;> exact .inl h0
          · exact both ⟨hm h1, by simp [hc]⟩
        cases op with
        | add => exact both (hadd (by simp) (by simp))
        | sub => exact both (hadd (by simp) (by simp))
        | mul => exact both (hadd (by simp) (by simp))
        | div => exact divide (by simp) hp
        | rem => exact divide (by simp) hp
        | shl => exact shift (hsh (by simp)) (fun _ _ => hp)
        | shr => exact shift (hsh (by simp)) (fun _ _ => hp)
        | bit => exact hp.elim
        | cmp => exact hp.elim
        | logic => exact hp.elim
      | _ => simp_all [Local, OpTy.prim]
    | _ => simp_all [Local, OpTy.prim]
  | index c => cases c <;> simp [step, Eag.or, Eag.rank] at h
  | ctor d => exact hl.elim
  | struct d => exact hl.elim
  | pure => exact hl.elim
  | stmts => exact hl.elim
  | derefRef => exact hl.elim
  | _ => simp [step, Eag.or, Eag.rank] at h

/-- **C41, eager evaluation.** If an expression is classified as fine to evaluate eagerly, then its evaluation has no
side effect, cannot panic, diverge, jump or cause undefined behaviour — unless the compiler rejects the program, because
an operation with constant operands panics.

Missing for the full property: reads of union fields and of mutable statics and calls of unsafe accessors (see
`union_violation`, `static_mut_violation` and `nonnull_violation`). -/
theorem eager_harmless_partial (w : World) {e : EExpr} (hs : SafeReads e) (h : switchToEager w.eval e = true)
    {eff : Effect} (hc : Can w e eff) : Rejected w e := by
  replace h : visit w.eval .eager e = .eager := of_decide_eq_true h
  induction hc with
  | @here k args eff hl =>
    exact ⟨k, args, .refl, local_eager w (hs k args .refl) (eager_node h).1 hl⟩
  | @part k args p eff hm _ ih =>
    obtain ⟨k', args', hsub, hr⟩ := ih (fun k' args' hsub => hs k' args' (.part hm hsub)) ((eager_node h).2 p hm)
    exact ⟨k', args', .part hm hsub, hr⟩

/-! ## Lazy evaluation -/

theorem le_force {a : Eag} (h : Eag.force.rank ≤ a.rank) : a = .force := by cases a <;> simp_all [Eag.rank]

theorem opaque_of_stop {eval : EExpr → Option Cst} {k : Kind} {args : List EExpr}
    (h : (step eval k args .eager).2 = false) : k.opaque = true ∨ (step eval k args .eager).1 = .force := by
  revert h
  cases k with
  | call f c =>
    simp only [step]
    split
    · simp
    split <;> simp_all [Kind.opaque]
  | method f c =>
    simp only [step]
    split <;> simp_all [Kind.opaque]
  | ctor d => cases d <;> simp [step]
  | struct d => cases d <;> simp [step]
  | path d _ => cases d <;> simp [step]
  | _ => simp [step, Kind.opaque]

theorem jump_force (eval : EExpr → Option Cst) {args : List EExpr} {e : EExpr} (h : Sub (.node .jump args) e)
    (ho : ∀ k as, Sub (.node k as) e → k.opaque = true → ¬ HasJump (.node k as)) :
    visit eval .eager e = .force := by
  generalize hj : EExpr.node .jump args = j at h
  induction h with
  | refl => rw [← hj, visit_node]; rfl
  | @part e k as hm hsub ih =>
    have ih := ih (fun k' as' hs => ho k' as' (.part hm hs))
    rw [visit_node]
    split
    · refine le_force ?_
      rw [← ih]
      exact Nat.le_trans (visitAll_ge eval hm) (Eag.or_le_right _ _)
    · next hs =>
      rcases opaque_of_stop (by simpa using hs) with h | h
      · exact absurd ⟨args, .part hm (hj ▸ hsub)⟩ (ho k as .refl h)
      · exact h

/-- **C41, lazy evaluation.** An expression classified as better evaluated lazily contains no jump out of it, so that it
can be put into a closure.

Missing for the full property: jumps below an expression that is automatically dereferenced (see `await_violation`). -/
theorem lazy_movable_partial (eval : EExpr → Option Cst) {e : EExpr}
    (ho : ∀ k as, Sub (.node k as) e → k.opaque = true → ¬ HasJump (.node k as))
    (h : switchToLazy eval e = true) : ¬ HasJump e := by
  rintro ⟨args, hj⟩
  have h : visit eval .eager e = .lazy := of_decide_eq_true h
  rw [jump_force eval hj ho] at h
  simp at h

/-- **C41, parts.** The classification of an expression is never better than that of a part.

Missing for the full property: parts below an expression whose parts are not looked at. -/
theorem part_le_whole_partial (eval : EExpr → Option Cst) {p e : EExpr} (hsub : Sub p e)
    (ho : ∀ k as, Sub (.node k as) e → k.opaque = false) : (eagerness eval p).rank ≤ (eagerness eval e).rank := by
  simp only [eagerness]
  induction hsub with
  | refl => exact Nat.le_refl _
  | @part e k as hm hsub ih =>
    have ih := ih (fun k' as' hs => ho k' as' (.part hm hs))
    rw [visit_node]
    split
    · exact Nat.le_trans ih (Nat.le_trans (visitAll_ge eval hm) (Eag.or_le_right _ _))
    · next hs =>
      rcases opaque_of_stop (by simpa using hs) with h | h
      · rw [ho k as .refl] at h; cases h
      · rw [h]
        generalize visit eval .eager p = x
        cases x <;> decide

end Verif.Eager
