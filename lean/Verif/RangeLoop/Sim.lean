import Verif.RangeLoop.Spec

/-!
# The new body does what the old one does
-/

namespace Verif.RangeLoop

theorem andThen_some {r : Res} {f : Val → St → Res} {b : Bool} {v : Val} {σ : St}
    (h : andThen r f = some (b, v, σ)) :
    (r = some (true, v, σ) ∧ b = true) ∨ ∃ w τ, r = some (false, w, τ) ∧ f w τ = some (b, v, σ) := by
  unfold andThen at h
  split at h
  · exact nomatch h
  · cases h
    exact Or.inl ⟨rfl, rfl⟩
  · rename_i w τ
    exact Or.inr ⟨w, τ, rfl, h⟩

theorem root_vars : ∀ (e : Expr) (x : Var), root e = some x → x ∈ vars e
  | .path y, x, h => by
    simp only [root, Option.some.injEq] at h
    simp [vars, h]
  | .field e _, x, h => root_vars e x h
  | .index e j, x, h => List.mem_append.2 (Or.inl (root_vars e x h))
  | .one .addr e, x, h => root_vars e x h
  | .one .addrMut e, x, h => root_vars e x h

theorem indexVars_vars : ∀ (e : Expr) (x : Var), x ∈ indexVars e → x ∈ vars e
  | .lit _, _, h => h
  | .brk, _, h => h
  | .item, _, h => h
  | .path _, _, h => nomatch h
  | .field e _, x, h => indexVars_vars e x h
  | .one _ e, x, h => indexVars_vars e x h
  | .index e j, x, h => by
    rcases List.mem_append.1 h with h | h
    · exact List.mem_append.2 (Or.inl (indexVars_vars e x h))
    · exact List.mem_append.2 (Or.inr h)
  | .two _ e j, x, h => by
    rcases List.mem_append.1 h with h | h
    · exact List.mem_append.2 (Or.inl (indexVars_vars e x h))
    · exact List.mem_append.2 (Or.inr (indexVars_vars j x h))

/-- The variables have the same contents. -/
def SameVars (ys : List Var) (σ τ : St) : Prop :=
  ∀ y ∈ ys, ∀ ks, τ.mem (y, ks) = σ.mem (y, ks) ∧ τ.len (y, ks) = σ.len (y, ks)

/-- A place without effects stays the same if its operands do, and the lengths on the way. -/
theorem quiet_stable (k : Nat) (it it' : Loc) : ∀ (e : Expr) (σ : St) (b : Bool) (v : Val) (σ' : St), quiet e = true →
    eval k it e σ = some (b, v, σ') →
    b = false ∧ σ' = σ ∧ (∀ l, v = .loc l → root e = some l.1) ∧
    ∀ τ, SameVars (indexVars e) σ τ → (∀ l, v = .loc l → ∀ ks, ks <+: l.2 → τ.len (l.1, ks) = σ.len (l.1, ks)) →
      eval k it' e τ = some (false, v, τ)
  | .lit n, σ, b, v, σ', _, h => by
    cases h
    exact ⟨rfl, rfl, (fun _ h => nomatch h), fun _ _ _ => rfl⟩
  | .path x, σ, b, v, σ', _, h => by
    cases h
    refine ⟨rfl, rfl, ?_, fun _ _ _ => rfl⟩
    intro l hl
    cases hl
    rfl
  | .field e f, σ, b, v, σ', hq, h => by
    rcases andThen_some h with ⟨h1, rfl⟩ | ⟨w, τ, h1, h2⟩
    · exact absurd (quiet_stable k it it' e _ _ _ _ hq h1).1 (by simp)
    · cases h2
      obtain ⟨_, i2, i3, i4⟩ := quiet_stable k it it' e _ _ _ _ hq h1
      refine ⟨rfl, i2, ?_, ?_⟩
      · intro l hl
        cases w with
        | num n => exact nomatch hl
        | loc l0 => cases hl; exact i3 l0 rfl
      · intro υ hs hl
        have := i4 υ hs (fun l0 hw ks hk => by
          subst hw
          exact hl (l0.1, l0.2 ++ [.fld f]) rfl ks (hk.trans (List.prefix_append _ _)))
        simp [eval, this, andThen]
  | .index e j, σ, b, v, σ', hq, h => by
    simp only [quiet, Bool.and_eq_true] at hq
    rcases andThen_some h with ⟨h1, rfl⟩ | ⟨w, τ, h1, h2⟩
    · exact absurd (quiet_stable k it it' e _ _ _ _ hq.1 h1).1 (by simp)
    · obtain ⟨_, rfl, i3, i4⟩ := quiet_stable k it it' e _ _ _ _ hq.1 h1
      rcases andThen_some h2 with ⟨h3, rfl⟩ | ⟨u, υ, h3, h4⟩
      · exact absurd (quiet_stable k it it' j _ _ _ _ hq.2 h3).1 (by simp)
      · obtain ⟨_, rfl, j3, j4⟩ := quiet_stable k it it' j _ _ _ _ hq.2 h3
        unfold at' at h4
        cases w with
        | num n => exact nomatch h4
        | loc l0 =>
          simp only at h4
          split at h4
          · rename_i hlt
            cases h4
            refine ⟨rfl, rfl, ?_, ?_⟩
            · intro l hl
              cases hl
              exact i3 l0 rfl
            · intro ρ hs hl
              have hl' : ∀ ks, ks <+: l0.2 → ρ.len (l0.1, ks) = σ'.len (l0.1, ks) := fun ks hk =>
                hl _ rfl ks (hk.trans (List.prefix_append _ _))
              have e1 := i4 ρ (fun y hy => hs y (List.mem_append.2 (Or.inl hy)))
                (fun l1 hw ks hk => by cases hw; exact hl' ks hk)
              have hsv : SameVars (vars j) σ' ρ := fun y hy => hs y (List.mem_append.2 (Or.inr hy))
              have e2 := j4 ρ (fun y hy => hsv y (indexVars_vars j y hy))
                (fun l1 hw ks _ => (hsv l1.1 (root_vars j _ (j3 l1 hw)) ks).2)
              have hr : u.read ρ = u.read σ' := by
                cases u with
                | num n => rfl
                | loc l1 => exact (hsv l1.1 (root_vars j _ (j3 l1 rfl)) l1.2).1
              have hlt' : u.read σ' < ρ.len l0 := by
                rw [hl' l0.2 List.prefix_rfl]; exact hlt
              simp [eval, e1, e2, andThen, at', hr, hlt']
          · exact nomatch h4

/-! ### The simulation -/

/-- The container, the index and the round of the loop. -/
structure Ctx where
  seq : Expr
  a : Var
  i : Var
  ks : List Key
  n : Nat
  σ₀ : St

/-- What the body keeps. -/
structure Ctx.Keep (c : Ctx) (σ : St) : Prop where
  ops : SameVars (indexVars c.seq) c.σ₀ σ
  lens : ∀ ks, ks <+: c.ks → σ.len (c.a, ks) = c.σ₀.len (c.a, ks)

structure Ctx.Good (c : Ctx) (σ : St) : Prop extends c.Keep σ where
  ind : σ.mem (c.i, []) = c.n

/-- The container is evaluated to the same place. -/
structure Ctx.Ok (c : Ctx) : Prop where
  quiet : quiet c.seq = true
  place : ∀ k it, eval k it c.seq c.σ₀ = some (false, .loc (c.a, c.ks), c.σ₀)
  apart : c.a ∉ indexVars c.seq
  ia : c.i ≠ c.a
  fits : c.n < c.σ₀.len (c.a, c.ks)

/-- Places that may be assigned to. -/
def Ctx.Free (c : Ctx) (l : Loc) : Prop :=
  l.1 ≠ c.i ∧ l.1 ∉ indexVars c.seq ∧ (l.1 = c.a → c.ks ++ [.idx c.n] <+: l.2)

theorem Ctx.Good.write {c : Ctx} {σ : St} (h : c.Good σ) {l : Loc} (hl : c.Free l) (m : Nat) :
    c.Good (σ.write l m) := by
  obtain ⟨h1, h2, h3⟩ := hl
  refine ⟨⟨?_, ?_⟩, ?_⟩
  · intro y hy ks
    have : ¬ (y = l.1 ∧ l.2.isPrefixOf ks = true) := fun hx => h2 (hx.1 ▸ hy)
    simp only [St.write]
    rw [if_neg this, if_neg this]
    exact h.ops y hy ks
  · intro ks hk
    have : ¬ (c.a = l.1 ∧ l.2.isPrefixOf ks = true) := by
      rintro ⟨e, hp⟩
      have p1 := (h3 e.symm).trans ((List.isPrefixOf_iff_prefix.1 hp).trans hk)
      have := p1.length_le
      simp at this
      omega
    simp only [St.write]
    rw [if_neg this]
    exact h.lens ks hk
  · have : ¬ (c.i = l.1 ∧ l.2.isPrefixOf [] = true) := fun hx => h1 hx.1.symm
    simp only [St.write]
    rw [if_neg this]
    exact h.ind

theorem rounds_sim {c : Ctx} {f g : St → Res}
    (hf : ∀ σ b v τ, c.Good σ → f σ = some (b, v, τ) → g σ = some (b, v, τ) ∧ c.Good τ) :
    ∀ (k : Nat) σ b v τ, c.Good σ → rounds f k σ = some (b, v, τ) →
      rounds g k σ = some (b, v, τ) ∧ c.Good τ ∧ v = .num 0
  | 0, _, _, _, _, _, h => nomatch h
  | k + 1, σ, b, v, τ, hg, h => by
    unfold rounds at h ⊢
    split at h
    · exact nomatch h
    · rename_i w υ e
      cases h
      obtain ⟨h1, h2⟩ := hf _ _ _ _ hg e
      rw [h1]
      exact ⟨rfl, h2, rfl⟩
    · rename_i w υ e
      obtain ⟨h1, h2⟩ := hf _ _ _ _ hg e
      rw [h1]
      exact rounds_sim hf k _ _ _ _ h2 h

/-- What the simulation gives. -/
structure Ctx.Sim (c : Ctx) (e : Expr) (b : Bool) (v : Val) (τ : St) (r : Res) : Prop where
  same : r = some (b, v, τ)
  good : c.Good τ
  place : b = false → ∀ l, v = .loc l → root e = some l.1 ∧ (l.1 = c.a → c.ks ++ [.idx c.n] <+: l.2)

/-- What is assumed about the body. -/
structure Ctx.Body (c : Ctx) (e : Expr) : Prop where
  no : noItem e = true
  gone : c.a ∉ vars (subst c.seq c.i e)
  asg : ∀ y ∈ assigned e, y ≠ c.i ∧ y ∉ indexVars c.seq
  bnd : c.a ∉ binds e

theorem nomatch_num {P : Loc → Prop} {n : Nat} : ∀ l, Val.num n = .loc l → P l := fun _ h => nomatch h

theorem put_sim {c : Ctx} {e : Expr} {v : Val} {n : Nat} {τ τ' : St} {b : Bool} {w : Val} {e' : Expr}
    (hg : c.Good τ) (hp : ∀ l, v = .loc l → root e = some l.1 ∧ (l.1 = c.a → c.ks ++ [.idx c.n] <+: l.2))
    (ha : ∀ y, root e = some y → y ≠ c.i ∧ y ∉ indexVars c.seq) (h : put v n τ = some (b, w, τ')) :
    c.Sim e' b w τ' (put v n τ) := by
  unfold put at h ⊢
  cases v with
  | num m => cases h; exact ⟨rfl, hg, fun _ => nomatch_num⟩
  | loc l =>
    cases h
    obtain ⟨h1, h2⟩ := hp l rfl
    obtain ⟨h3, h4⟩ := ha _ h1
    exact ⟨rfl, hg.write ⟨h3, h4, h2⟩ n, fun _ => nomatch_num⟩

theorem sim (k : Nat) (c : Ctx) (ok : c.Ok) (it : Loc) : ∀ (e : Expr) (σ : St) (b : Bool) (v : Val) (τ : St),
    c.Body e → c.Good σ → eval k it e σ = some (b, v, τ) →
    c.Sim e b v τ (eval k (c.a, c.ks ++ [.idx c.n]) (subst c.seq c.i e) σ)
  | .lit n, σ, b, v, τ, _, hg, h => by
    cases h
    exact ⟨rfl, hg, fun _ => nomatch_num⟩
  | .brk, σ, b, v, τ, _, hg, h => by
    cases h
    exact ⟨rfl, hg, fun _ => nomatch_num⟩
  | .path x, σ, b, v, τ, hb, hg, h => by
    cases h
    refine ⟨rfl, hg, ?_⟩
    intro _ l hl
    cases hl
    refine ⟨rfl, fun hx => ?_⟩
    have := hb.gone
    simp [subst, vars] at this
    exact absurd hx.symm this
  | .item, σ, b, v, τ, hb, hg, h => nomatch hb.no
  | .field e f, σ, b, v, τ, hb, hg, h => by
    have hb' : c.Body e := ⟨hb.no, hb.gone, hb.asg, hb.bnd⟩
    rcases andThen_some h with ⟨h1, rfl⟩ | ⟨w, υ, h1, h2⟩
    · obtain ⟨i1, i2, _⟩ := sim k c ok it e _ _ _ _ hb' hg h1
      exact ⟨by simp only [subst, eval, i1]; rfl, i2, fun h => nomatch h⟩
    · cases h2
      obtain ⟨i1, i2, i3⟩ := sim k c ok it e _ _ _ _ hb' hg h1
      refine ⟨by simp only [subst, eval, i1]; rfl, i2, ?_⟩
      intro _ l hl
      cases w with
      | num n => exact nomatch hl
      | loc l0 =>
        cases hl
        obtain ⟨j1, j2⟩ := i3 rfl l0 rfl
        exact ⟨j1, fun hx => (j2 hx).trans (List.prefix_append _ _)⟩
  | .index e j, σ, b, v, τ, hb, hg, h => by
    by_cases hs : e = c.seq ∧ j = .path c.i
    · obtain ⟨rfl, rfl⟩ := hs
      have hq := (quiet_stable k it it c.seq _ _ _ _ ok.quiet (ok.place k it)).2.2.2 σ hg.ops (by
        intro l hl ks hk
        cases hl
        exact hg.lens ks hk)
      have hlt : c.n < σ.len (c.a, c.ks) := by rw [hg.lens _ List.prefix_rfl]; exact ok.fits
      have hr := (quiet_stable k it it c.seq _ _ _ _ ok.quiet (ok.place k it)).2.2.1 _ rfl
      simp only [eval, hq, andThen, Val.read, hg.ind, at', hlt, if_true, Option.some.injEq, Prod.mk.injEq] at h
      obtain ⟨rfl, rfl, rfl⟩ := h
      refine ⟨by simp [subst, eval], hg, ?_⟩
      intro _ l hl
      cases hl
      exact ⟨hr, fun _ => List.prefix_rfl⟩
    · have es : subst c.seq c.i (.index e j) = .index (subst c.seq c.i e) (subst c.seq c.i j) := by
        simp only [subst]; rw [if_neg hs]
      have hgone := hb.gone
      rw [es] at hgone
      simp only [vars, List.mem_append, not_or] at hgone
      have hno := hb.no
      simp only [noItem, Bool.and_eq_true] at hno
      have hbnd := hb.bnd
      simp only [binds, List.mem_append, not_or] at hbnd
      have b1 : c.Body e := ⟨hno.1, hgone.1, fun y hy => hb.asg y (List.mem_append.2 (Or.inl hy)), hbnd.1⟩
      have b2 : c.Body j := ⟨hno.2, hgone.2, fun y hy => hb.asg y (List.mem_append.2 (Or.inr hy)), hbnd.2⟩
      rw [es]
      rcases andThen_some h with ⟨h1, rfl⟩ | ⟨w, υ, h1, h2⟩
      · obtain ⟨i1, i2, _⟩ := sim k c ok it e _ _ _ _ b1 hg h1
        exact ⟨by simp only [eval, i1]; rfl, i2, fun h => nomatch h⟩
      · obtain ⟨i1, i2, i3⟩ := sim k c ok it e _ _ _ _ b1 hg h1
        rcases andThen_some h2 with ⟨h3, rfl⟩ | ⟨u, ρ, h3, h4⟩
        · obtain ⟨j1, j2, _⟩ := sim k c ok it j _ _ _ _ b2 i2 h3
          exact ⟨by simp only [eval, i1, andThen, j1], j2, fun h => nomatch h⟩
        · obtain ⟨j1, j2, _⟩ := sim k c ok it j _ _ _ _ b2 i2 h3
          refine ⟨by simp only [eval, i1, andThen, j1, h4], ?_, ?_⟩
          all_goals
            unfold at' at h4
            cases w with
            | num n => exact nomatch h4
            | loc l0 =>
              simp only at h4
              split at h4
              · cases h4
                first
                | exact j2
                | (intro _ l hl
                   cases hl
                   obtain ⟨p1, p2⟩ := i3 rfl l0 rfl
                   exact ⟨p1, fun hx => (p2 hx).trans (List.prefix_append _ _)⟩)
              · exact nomatch h4
  | .one .addr e, σ, b, v, τ, hb, hg, h => by
    have hb' : c.Body e := ⟨hb.no, hb.gone, hb.asg, hb.bnd⟩
    obtain ⟨i1, i2, i3⟩ := sim k c ok it e _ _ _ _ hb' hg h
    exact ⟨i1, i2, i3⟩
  | .one .addrMut e, σ, b, v, τ, hb, hg, h => by
    have hb' : c.Body e := ⟨hb.no, hb.gone, fun y hy => hb.asg y (List.mem_append.2 (Or.inr hy)), hb.bnd⟩
    obtain ⟨i1, i2, i3⟩ := sim k c ok it e _ _ _ _ hb' hg h
    exact ⟨i1, i2, i3⟩
  | .one .callMut e, σ, b, v, τ, hb, hg, h => by
    have hb' : c.Body e := ⟨hb.no, hb.gone, fun y hy => hb.asg y (List.mem_append.2 (Or.inr hy)), hb.bnd⟩
    simp only [eval, single] at h
    rcases andThen_some h with ⟨h1, rfl⟩ | ⟨w, υ, h1, h2⟩
    · obtain ⟨i1, i2, _⟩ := sim k c ok it e _ _ _ _ hb' hg h1
      exact ⟨by simp only [subst, eval, single, i1, andThen], i2, fun h => nomatch h⟩
    · obtain ⟨i1, i2, i3⟩ := sim k c ok it e _ _ _ _ hb' hg h1
      have := put_sim (e' := .one .callMut e) i2 (i3 rfl)
        (fun y hy => hb.asg y (List.mem_append.2 (Or.inl (by simp [hy])))) h2
      simpa only [subst, eval, single, i1, andThen] using this
  | .one .refMut e, σ, b, v, τ, hb, hg, h => by
    have hb' : c.Body e := ⟨hb.no, hb.gone, fun y hy => hb.asg y (List.mem_append.2 (Or.inr hy)), hb.bnd⟩
    simp only [eval, single] at h
    rcases andThen_some h with ⟨h1, rfl⟩ | ⟨w, υ, h1, h2⟩
    · obtain ⟨i1, i2, _⟩ := sim k c ok it e _ _ _ _ hb' hg h1
      exact ⟨by simp only [subst, eval, single, i1, andThen], i2, fun h => nomatch h⟩
    · obtain ⟨i1, i2, i3⟩ := sim k c ok it e _ _ _ _ hb' hg h1
      have := put_sim (e' := .one .refMut e) i2 (i3 rfl)
        (fun y hy => hb.asg y (List.mem_append.2 (Or.inl (by simp [hy])))) h2
      simpa only [subst, eval, single, i1, andThen] using this
  | .one (.bind x) e, σ, b, v, τ, hb, hg, h => by
    have hbnd := hb.bnd
    simp only [binds, List.mem_cons, not_or] at hbnd
    have hb' : c.Body e := ⟨hb.no, hb.gone, fun y hy => hb.asg y (List.mem_cons_of_mem _ hy), hbnd.2⟩
    simp only [eval, single] at h
    rcases andThen_some h with ⟨h1, rfl⟩ | ⟨w, υ, h1, h2⟩
    · obtain ⟨i1, i2, _⟩ := sim k c ok it e _ _ _ _ hb' hg h1
      exact ⟨by simp only [subst, eval, single, i1, andThen], i2, fun h => nomatch h⟩
    · cases h2
      obtain ⟨i1, i2, _⟩ := sim k c ok it e _ _ _ _ hb' hg h1
      obtain ⟨p1, p2⟩ := hb.asg x List.mem_cons_self
      exact ⟨by simp only [subst, eval, single, i1, andThen],
        i2.write (l := (x, [])) ⟨p1, p2, fun hx => absurd hx.symm hbnd.1⟩ _, fun _ => nomatch_num⟩
  | .one .loop e, σ, b, v, τ, hb, hg, h => by
    have hb' : c.Body e := ⟨hb.no, hb.gone, hb.asg, hb.bnd⟩
    obtain ⟨h1, h2, rfl⟩ := rounds_sim (c := c) (g := eval k (c.a, c.ks ++ [.idx c.n]) (subst c.seq c.i e))
      (fun σ b v τ hg h => ⟨(sim k c ok it e σ b v τ hb' hg h).same, (sim k c ok it e σ b v τ hb' hg h).good⟩)
      k _ _ _ _ hg h
    exact ⟨h1, h2, fun _ => nomatch_num⟩
  | .two o e j, σ, b, v, τ, hb, hg, h => by
    have hgone := hb.gone
    simp only [subst, vars, List.mem_append, not_or] at hgone
    have hno := hb.no
    simp only [noItem, Bool.and_eq_true] at hno
    have hbnd := hb.bnd
    simp only [binds, List.mem_append, not_or] at hbnd
    have b1 : c.Body e := ⟨hno.1, hgone.1, fun y hy => hb.asg y (by cases o <;> simp [assigned, hy]), hbnd.1⟩
    have b2 : c.Body j := ⟨hno.2, hgone.2, fun y hy => hb.asg y (by cases o <;> simp [assigned, hy]), hbnd.2⟩
    simp only [eval] at h
    rcases andThen_some h with ⟨h1, rfl⟩ | ⟨w, υ, h1, h2⟩
    · obtain ⟨i1, i2, _⟩ := sim k c ok it e _ _ _ _ b1 hg h1
      exact ⟨by simp only [subst, eval, i1, andThen], i2, fun h => nomatch h⟩
    · obtain ⟨i1, i2, _⟩ := sim k c ok it e _ _ _ _ b1 hg h1
      cases o with
      | seq =>
        simp only [both] at h2
        rcases andThen_some h2 with ⟨h3, rfl⟩ | ⟨u, ρ, h3, h4⟩
        · obtain ⟨j1, j2, _⟩ := sim k c ok it j _ _ _ _ b2 i2 h3
          exact ⟨by simp only [subst, eval, i1, andThen, both, j1], j2, fun h => nomatch h⟩
        · cases h4
          obtain ⟨j1, j2, _⟩ := sim k c ok it j _ _ _ _ b2 i2 h3
          exact ⟨by simp only [subst, eval, i1, andThen, both, j1], j2, fun _ => nomatch_num⟩
      | lazily =>
        simp only [both] at h2
        split at h2
        · rename_i hz
          cases h2
          exact ⟨by simp only [subst, eval, i1, andThen, both, hz, if_true], i2, fun _ => nomatch_num⟩
        · rename_i hz
          unfold asNum at h2
          rcases andThen_some h2 with ⟨h3, rfl⟩ | ⟨u, ρ, h3, h4⟩
          · obtain ⟨j1, j2, _⟩ := sim k c ok it j _ _ _ _ b2 i2 h3
            exact ⟨by simp only [subst, eval, i1, andThen, both, asNum, if_neg hz, j1], j2, fun h => nomatch h⟩
          · cases h4
            obtain ⟨j1, j2, _⟩ := sim k c ok it j _ _ _ _ b2 i2 h3
            exact ⟨by simp only [subst, eval, i1, andThen, both, asNum, if_neg hz, j1], j2, fun _ => nomatch_num⟩
      | set =>
        simp only [both] at h2
        rcases andThen_some h2 with ⟨h3, rfl⟩ | ⟨u, ρ, h3, h4⟩
        · obtain ⟨j1, j2, _⟩ := sim k c ok it j _ _ _ _ b2 i2 h3
          exact ⟨by simp only [subst, eval, i1, andThen, both, j1], j2, fun h => nomatch h⟩
        · obtain ⟨j1, j2, j3⟩ := sim k c ok it j _ _ _ _ b2 i2 h3
          have := put_sim (e' := .two .set e j) j2 (j3 rfl)
            (fun y hy => hb.asg y (List.mem_append.2 (Or.inl (by simp [hy])))) h4
          simpa only [subst, eval, i1, andThen, both, j1] using this

end Verif.RangeLoop
