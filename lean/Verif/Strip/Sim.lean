import Verif.Strip.Lemmas

/-!
# The simulation
-/

namespace Verif.Strip

section

variable {w : World} {k : Kind} {t : Name} {p : Expr} {x z : Name} {rm : Option Name} {s bs : List Nat}

/-- What is required of a part of the block; `ins` is set in the scope of the declaration that is removed. -/
structure Ok (k : Kind) (t : Name) (p : Expr) (x z : Name) (rm : Option Name) (ins : Bool) (sh : List Name)
    (e : Expr) : Prop where
  half : halfOpen e = true
  kept : ∀ y ∈ t :: mentioned p, y ∉ sh → y ∉ freeSets e
  fresh : ins = true ∨ x ∉ free (edit k t p z none sh e)
  only : onlyLet k t p x sh e
  rmv : rm = some x ∨ rm = none ∧ x ∉ lets e
  noset : x ∉ sets e

/-- What is required of the state. -/
structure Inv (t : Name) (p : Expr) (s bs : List Nat) (sh : List Name) (σ : St) : Prop where
  target : t ∉ sh → σ.env t = .str s
  pattern : (mentioned p).all (!sh.contains ·) = true → patVal σ p = some bs

theorem patVal_congr {σ τ : St} (h : ∀ y ∈ mentioned p, τ.env y = σ.env y) : patVal τ p = patVal σ p := by
  cases p <;> simp_all [patVal, mentioned]

theorem Inv.congr {sh : List Name} {σ τ : St} (i : Inv t p s bs sh σ)
    (h : ∀ y ∈ t :: mentioned p, y ∉ sh → τ.env y = σ.env y) : Inv t p s bs sh τ := by
  refine ⟨fun n => (h t (List.mem_cons_self ..) n).trans (i.target n), fun n => ?_⟩
  rw [patVal_congr (σ := σ), i.pattern n]
  intro y hy
  refine h y (List.mem_cons_of_mem _ hy) ?_
  simpa using List.all_eq_true.mp n y hy

theorem Inv.step {ins : Bool} {sh : List Name} {e : Expr} {σ τ : St} {u : Val} (i : Inv t p s bs sh σ)
    (o : Ok k t p x z rm ins sh e) (h : eval w e σ = some (u, τ)) : Inv t p s bs sh τ :=
  i.congr fun y hy n => keeps e (o.kept y hy n) h

theorem Inv.enter {sh : List Name} {σ : St} {y : Name} {v : Val} (i : Inv t p s bs sh σ) :
    Inv t p s bs (y :: sh) (σ.set y v) := by
  have j : Inv t p s bs (y :: sh) σ := by
    refine ⟨fun n => i.target fun m => n (List.mem_cons_of_mem _ m), fun n => i.pattern ?_⟩
    rw [List.all_eq_true] at n ⊢
    intro a ha
    have := n a ha
    simp only [List.contains_cons, Bool.not_or, Bool.and_eq_true] at this
    exact this.2
  refine j.congr fun a _ n => ?_
  exact set_other _ fun g => n (by rw [g]; exact List.mem_cons_self ..)

theorem Ok.held {ins : Bool} {sh : List Name} {e : Expr} {σ τ : St} {u v : Val}
    (o : Ok k t p x z rm ins sh e) (h : eval w e σ = some (u, τ)) (g : ins = true → σ.env x = v) :
    ins = true → τ.env x = v :=
  fun n => (keeps e (freeSets_sets x e o.noset) h).trans (g n)

/-- Two parts. -/
theorem Ok.both {ins : Bool} {sh : List Name} {e a b : Expr} (o : Ok k t p x z rm ins sh e)
    (h1 : halfOpen e = true → halfOpen a = true ∧ halfOpen b = true)
    (h2 : ∀ y, y ∉ freeSets e → y ∉ freeSets a ∧ y ∉ freeSets b)
    (h3 : x ∉ free (edit k t p z none sh e) →
      x ∉ free (edit k t p z none sh a) ∧ x ∉ free (edit k t p z none sh b))
    (h4 : onlyLet k t p x sh e → onlyLet k t p x sh a ∧ onlyLet k t p x sh b)
    (h5 : x ∉ lets e → x ∉ lets a ∧ x ∉ lets b) (h6 : x ∉ sets e → x ∉ sets a ∧ x ∉ sets b) :
    Ok k t p x z rm ins sh a ∧ Ok k t p x z rm ins sh b :=
  ⟨⟨(h1 o.half).1, fun y hy n => (h2 y (o.kept y hy n)).1, o.fresh.imp_right fun n => (h3 n).1, (h4 o.only).1,
    o.rmv.imp_right fun n => ⟨n.1, (h5 n.2).1⟩, (h6 o.noset).1⟩,
   ⟨(h1 o.half).2, fun y hy n => (h2 y (o.kept y hy n)).2, o.fresh.imp_right fun n => (h3 n).2, (h4 o.only).2,
    o.rmv.imp_right fun n => ⟨n.1, (h5 n.2).2⟩, (h6 o.noset).2⟩⟩

/-- The claim for an expression. -/
abbrev Goal (w : World) (k : Kind) (t : Name) (p : Expr) (x : Name) (rm : Option Name) (v : Val) (sh : List Name)
    (e : Expr) (σ : St) (u : Val) (τ : St) : Prop :=
  eval w (edit k t p x rm sh e) (σ.set x v) = some (u, τ.set x v)

theorem strip_goal {ins : Bool} {sh : List Name} {e : Expr} {σ τ : St} {u : Val}
    (l : ∀ n, constLen p = some n → n = bs.length) (hb : bs.length ≤ s.length)
    (h : isStrip k t p sh e = true) (o : Ok k t p x z rm ins sh e) (i : Inv t p s bs sh σ)
    (r : eval w e σ = some (u, τ)) :
    eval w (.var x) (σ.set x (.str (rest k s bs))) = some (u, τ.set x (.str (rest k s bs))) := by
  rw [strip_eval h o.half i.target i.pattern l hb] at r
  cases r
  simp only [eval, set_self]

theorem two_goal {v : Val} {e a b : Expr} {σ τ : St} {u : Val} {f : Val → Val → Option Val}
    {a' b' : Expr}
    (r : ((eval w a σ).bind fun (v, τ) => (eval w b τ).bind fun (u, υ) => (f v u).map (·, υ)) = some (u, τ))
    (ha : ∀ {u τ}, eval w a σ = some (u, τ) → eval w a' (σ.set x v) = some (u, τ.set x v))
    (hb : ∀ {u τ u' τ'}, eval w a σ = some (u, τ) → eval w b τ = some (u', τ') →
      eval w b' (τ.set x v) = some (u', τ'.set x v)) :
    ((eval w a' (σ.set x v)).bind fun (v, τ) => (eval w b' τ).bind fun (u, υ) => (f v u).map (·, υ)) =
      some (u, τ.set x v) := by
  obtain ⟨⟨x1, τ1⟩, h1, h2⟩ := bind_some r
  obtain ⟨⟨x2, τ2⟩, h3, h4⟩ := bind_some h2
  obtain ⟨x3, h5, h6⟩ := map_some h4
  cases h6
  rw [ha h1]
  simp only [Option.bind_some]
  rw [hb h1 h3]
  simp only [Option.bind_some]
  rw [h5]
  rfl

theorem sim (l : ∀ n, constLen p = some n → n = bs.length) (hb : bs.length ≤ s.length) :
    (e : Expr) → {ins : Bool} → {sh : List Name} → {σ τ : St} → {u : Val} →
    Ok k t p x z rm ins sh e → Inv t p s bs sh σ → (ins = true → σ.env x = .str (rest k s bs)) →
    eval w e σ = some (u, τ) → Goal w k t p x rm (.str (rest k s bs)) sh e σ u τ
  | .num _, _, _, _, _, _, _, _, _, r => by cases r; rfl
  | .str _, _, _, _, _, _, _, _, _, r => by cases r; rfl
  | .chr _, _, _, _, _, _, _, _, _, r => by cases r; rfl
  | .var y, ins, _, σ, _, _, o, _, g, r => by
    cases r
    simp only [Goal, edit, eval, Option.some.injEq, Prod.mk.injEq, and_true]
    by_cases n : y = x
    · subst n
      rw [set_self]
      rcases o.fresh with f | f
      · exact (g f).symm
      · simp [edit, free] at f
    · rw [set_other _ n]
  | .len e, _, _, _, _, _, o, i, g, r => by
    obtain ⟨⟨a, τ1⟩, h1, h2⟩ := bind_some r
    obtain ⟨b, h4, h3⟩ := map_some h2
    cases h3
    have := sim l hb e (ins := _) ⟨o.half, o.kept, o.fresh, o.only, o.rmv, o.noset⟩ i g h1
    simp only [Goal, edit, eval, this, Option.bind_some, h4]
    rfl
  | .call e, _, _, _, _, _, o, i, g, r => by
    obtain ⟨⟨a, τ1⟩, h1, h2⟩ := bind_some r
    cases h2
    have := sim l hb e (ins := _) ⟨o.half, o.kept, o.fresh, o.only, o.rmv, o.noset⟩ i g h1
    simp only [Goal, edit, eval, this, Option.bind_some, set_log]
    rfl
  | .set y e, _, _, _, _, _, o, i, g, r => by
    obtain ⟨⟨a, τ1⟩, h1, h2⟩ := bind_some r
    cases h2
    have ns := o.noset
    simp only [sets, List.mem_cons, not_or] at ns
    have := sim l hb e (ins := _)
      ⟨o.half, fun y hy n m => o.kept y hy n (List.mem_cons_of_mem _ m),
        o.fresh.imp_right (fun n m => n (List.mem_cons_of_mem _ m)), o.only, o.rmv, ns.2⟩ i g h1
    simp only [Goal, edit, eval, this, Option.bind_some]
    rw [set_comm _ _ _ ns.1]
  | .addr e, _, sh, _, _, _, o, i, g, r => by
    simp only [Goal, edit]
    by_cases h : isStrip k t p sh (.addr e) = true
    · rw [if_pos h]
      exact strip_goal l hb h o i r
    · rw [if_neg h]
      have f := o.fresh
      simp only [edit, if_neg h, free] at f
      exact sim l hb e (ins := _) ⟨o.half, o.kept, f, o.only, o.rmv, o.noset⟩ i g r
  | .sub a b, _, _, _, _, _, o, i, g, r => by
    have q := o.both (a := a) (b := b) (by simp [halfOpen]) (by simp [freeSets]) (by simp [edit, free])
      (by simp [onlyLet]) (by simp [lets]) (by simp [sets])
    exact two_goal (e := .sub a b) r (sim l hb a q.1 i g)
      fun h => sim l hb b q.2 (i.step q.1 h) (q.1.held h g)
  | .sliceFrom a b, _, sh, _, _, _, o, i, g, r => by
    simp only [Goal, edit]
    by_cases h : isStrip k t p sh (.sliceFrom a b) = true
    · rw [if_pos h]
      exact strip_goal l hb h o i r
    · rw [if_neg h]
      have q := o.both (a := a) (b := b) (by simp [halfOpen]) (by simp [freeSets]) (by simp [edit, if_neg h, free])
        (by simp [onlyLet]) (by simp [lets]) (by simp [sets])
      exact two_goal (e := .sub a b) r (sim l hb a q.1 i g)
        fun h => sim l hb b q.2 (i.step q.1 h) (q.1.held h g)
  | .sliceTo c a b, _, sh, _, _, _, o, i, g, r => by
    simp only [Goal, edit]
    by_cases h : isStrip k t p sh (.sliceTo c a b) = true
    · rw [if_pos h]
      exact strip_goal l hb h o i r
    · rw [if_neg h]
      have q := o.both (a := a) (b := b) (by simp only [halfOpen, Bool.and_eq_true]; exact fun h => ⟨h.1.2, h.2⟩)
        (by simp [freeSets]) (by simp [edit, if_neg h, free])
        (by simp [onlyLet]) (by simp [lets]) (by simp [sets])
      exact two_goal (e := .sub a b) r (sim l hb a q.1 i g)
        fun h => sim l hb b q.2 (i.step q.1 h) (q.1.held h g)
  | .seq a b, _, _, _, _, _, o, i, g, r => by
    have q := o.both (a := a) (b := b) (by simp [halfOpen]) (by simp [freeSets]) (by simp [edit, free])
      (by simp [onlyLet]) (by simp [lets]) (by simp [sets])
    obtain ⟨⟨a', τ1⟩, h1, h2⟩ := bind_some r
    have ra := sim l hb a q.1 i g h1
    have rb := sim l hb b q.2 (i.step q.1 h1) (q.1.held h1 g) h2
    simp only [Goal, edit, eval, ra, Option.bind_some]
    exact rb
  | .letIn m y a b, ins, sh, σ, _, u, o, i, g, r => by
    obtain ⟨⟨va, τ1⟩, h1, h2⟩ := bind_some r
    obtain ⟨⟨vb, τ2⟩, h3, h4⟩ := map_some h2
    cases h4
    have half := o.half
    simp only [halfOpen, Bool.and_eq_true] at half
    have kept : ∀ c ∈ t :: mentioned p, c ∉ sh → c ∉ freeSets a ∧ (c ∈ freeSets b → c = y) := by
      intro c hc n
      have := o.kept c hc n
      simp only [freeSets, List.mem_append, not_or, List.mem_filter, bne_iff_ne, not_and, ne_eq, Decidable.not_not] at this
      exact this
    have keptb : ∀ c ∈ t :: mentioned p, c ∉ y :: sh → c ∉ freeSets b := by
      intro c hc n m
      simp only [List.mem_cons, not_or] at n
      exact n.1 ((kept c hc n.2).2 m)
    have ns := o.noset
    simp only [sets, List.mem_append, not_or] at ns
    obtain ⟨ol, oa, ob⟩ := o.only
    have fr := o.fresh
    have nn : ((none : Option Name) == some y) = false := rfl
    simp only [edit, nn, Bool.false_and, Bool.false_eq_true, if_false, free, List.mem_append, not_or,
      List.mem_filter, bne_iff_ne, not_and, ne_eq, Decidable.not_not] at fr
    have rma : rm = some x ∨ rm = none ∧ x ∉ lets a :=
      o.rmv.imp_right fun n => ⟨n.1, fun m => n.2 (by simp [lets, m])⟩
    have rmb : rm = some x ∨ rm = none ∧ x ∉ lets b :=
      o.rmv.imp_right fun n => ⟨n.1, fun m => n.2 (by simp [lets, m])⟩
    have qa : Ok k t p x z rm ins sh a :=
      ⟨half.1, fun c hc n => (kept c hc n).1, fr.imp_right (·.1), oa, rma, ns.1⟩
    by_cases hy : y = x
    · replace hy := hy.symm
      subst hy
      have st := ol rfl
      have hr : rm = some x := o.rmv.resolve_right fun n => n.2 (by simp [lets])
      rw [strip_eval st half.1 i.target i.pattern l hb] at h1
      cases h1
      have qb : Ok k t p x z rm true (x :: sh) b := ⟨half.2, keptb, .inl rfl, ob, rmb, ns.2⟩
      have := sim l hb b qb i.enter (fun _ => set_self ..) h3
      simp only [Goal] at this ⊢
      simp only [edit, hr, beq_self_eq_true, st, Bool.and_self, if_true]
      rw [← hr]
      rw [set_set] at this ⊢
      exact this
    · have hn : (rm == some y) = false := by
        rcases o.rmv with n | n
        · rw [n]; simpa using fun e => hy e.symm
        · rw [n.1]; rfl
      have ra := sim l hb a qa i g h1
      have qb : Ok k t p x z rm ins (y :: sh) b :=
        ⟨half.2, keptb, fr.imp_right (fun n m => hy (n.2 m).symm), ob, rmb, ns.2⟩
      have rb := sim l hb b qb (i.step qa h1).enter
        (fun n => by rw [set_other _ (fun e => hy e.symm)]; exact qa.held h1 g n) h3
      simp only [Goal] at ra rb ⊢
      simp only [edit, hn, Bool.false_and, Bool.false_eq_true, if_false, eval, ra, Option.bind_some]
      rw [set_comm _ _ _ (fun e => hy e.symm), rb]
      simp only [Option.map_some, Option.some.injEq, Prod.mk.injEq, true_and]
      rw [set_other _ hy, set_comm _ _ _ hy]

end

end Verif.Strip
