import Verif.WhileIter.Uses

/-!
# What an expression does not access, it does not change
-/

namespace Verif.WhileIter

/-- The location is in the accessed part. -/
def Cov (a : Access) (l : Loc) : Prop := a.1 = l.1 ∧ a.2.map Key.fld <+: l.2

def Same (Q : Loc → Prop) (σ σ' : St) : Prop := ∀ l, Q l → σ'.mem l = σ.mem l

theorem Same.refl {Q : Loc → Prop} (σ : St) : Same Q σ σ := fun _ _ => rfl

theorem Same.trans {Q : Loc → Prop} {σ τ υ : St} (h : Same Q σ τ) (h' : Same Q τ υ) : Same Q σ υ :=
  fun l hl => (h' l hl).trans (h l hl)

theorem Same.mono {Q Q' : Loc → Prop} {σ τ : St} (h : Same Q σ τ) (hq : ∀ l, Q' l → Q l) : Same Q' σ τ :=
  fun l hl => h l (hq l hl)

theorem same_write {Q : Loc → Prop} (σ : St) (l : Loc) (n : Nat)
    (h : ∀ l', Q l' → ¬ (l.1 = l'.1 ∧ l.2 <+: l'.2)) : Same Q σ (σ.write l n) := by
  intro l' hl'
  have : ¬ (l'.1 = l.1 ∧ l.2.isPrefixOf l'.2 = true) := by
    rintro ⟨h1, h2⟩
    exact h l' hl' ⟨h1.symm, List.isPrefixOf_iff_prefix.1 h2⟩
  simp only [St.write]
  rw [if_neg this]

theorem same_advance {Q : Loc → Prop} (σ : St) (l : Loc) (t : List Nat) : Same Q σ (σ.advance l t) := fun _ _ => rfl

theorem andThen_some {r : Res} {f : Val → St → Res} {b : Bool} {v : Val} {σ : St}
    (h : andThen r f = some (b, v, σ)) :
    (r = some (true, v, σ) ∧ b = true) ∨ ∃ w τ, r = some (false, w, τ) ∧ f w τ = some (b, v, σ) := by
  unfold andThen at h
  split at h
  · exact nomatch h
  · cases h
    exact Or.inl ⟨rfl, rfl⟩
  · rename_i w τ
    exact Or.inr ⟨w, τ, rfl, h⟩

theorem rounds_same {Q : Loc → Prop} {f : St → Res} (hf : ∀ σ b v σ', f σ = some (b, v, σ') → Same Q σ σ') :
    ∀ (k : Nat) σ b v σ', rounds f k σ = some (b, v, σ') → Same Q σ σ' ∧ v = .num 0
  | 0, _, _, _, _, h => nomatch h
  | k + 1, σ, b, v, σ', h => by
    unfold rounds at h
    split at h
    · exact nomatch h
    · rename_i w τ e
      cases h
      exact ⟨hf _ _ _ _ e, rfl⟩
    · rename_i w τ e
      obtain ⟨h1, h2⟩ := rounds_same hf k _ _ _ _ h
      exact ⟨(hf _ _ _ _ e).trans h1, h2⟩

/-- A value that is a location is in the place of the expression. -/
def Within (e : Expr) (v : Val) : Prop :=
  ∀ l, v = .loc l → ∃ pl, (place e).1 = some pl ∧ pl.var = l.1 ∧ pl.fields.map Key.fld <+: l.2 ∧
    (pl.exact = true → l.2 = pl.fields.map Key.fld)

/-- The locations an expression leaves alone when it is evaluated. -/
def Apart (e : Expr) (l : Loc) : Prop := (∀ a ∈ (place e).2, ¬ Cov a l) ∧ l.1 ∉ decls e

theorem within_num (e : Expr) (n : Nat) : Within e (.num n) := fun _ h => nomatch h

theorem within_cov {e : Expr} {l l' : Loc} (h : Within e (.loc l)) (hn : ∀ a ∈ flush (place e), ¬ Cov a l') :
    ¬ (l.1 = l'.1 ∧ l.2 <+: l'.2) := by
  rintro ⟨h1, h2⟩
  obtain ⟨pl, e1, e2, e3, _⟩ := h l rfl
  exact hn pl.access (mem_flush.2 (Or.inl ⟨pl, e1, rfl⟩)) ⟨e2.trans h1, e3.trans h2⟩

theorem asNum_some {r : Res} {b : Bool} {v : Val} {σ : St} (h : asNum r = some (b, v, σ)) :
    ∃ w, r = some (b, w, σ) ∧ (b = false → ∃ n, v = .num n) := by
  unfold asNum at h
  rcases andThen_some h with ⟨h1, rfl⟩ | ⟨w, τ, h1, h2⟩
  · exact ⟨v, h1, fun h => nomatch h⟩
  · cases h2
    exact ⟨w, h1, fun _ => ⟨_, rfl⟩⟩

theorem flush_left {a b : List Access} {l : Loc} (h : ∀ c ∈ a ++ b, ¬ Cov c l) : ∀ c ∈ a, ¬ Cov c l :=
  fun c hc => h c (List.mem_append.2 (Or.inl hc))

theorem flush_right {a b : List Access} {l : Loc} (h : ∀ c ∈ a ++ b, ¬ Cov c l) : ∀ c ∈ b, ¬ Cov c l :=
  fun c hc => h c (List.mem_append.2 (Or.inr hc))

theorem of_flush {r : Option Place × List Access} {l : Loc} (h : ∀ c ∈ flush r, ¬ Cov c l) :
    ∀ c ∈ r.2, ¬ Cov c l := fun c hc => h c (mem_flush.2 (Or.inr hc))

theorem within_sel {e e' : Expr} {v : Val} {k : Key} (h : Within e v)
    (he : ∀ pl, (place e).1 = some pl → ∃ pl', (place e').1 = some pl' ∧ pl'.var = pl.var ∧
      ∀ ks, pl.fields.map Key.fld <+: ks → (pl.exact = true → ks = pl.fields.map Key.fld) →
        pl'.fields.map Key.fld <+: ks ++ [k] ∧ (pl'.exact = true → ks ++ [k] = pl'.fields.map Key.fld)) :
    Within e' (v.sel k) := by
  intro l hl
  cases v with
  | num n => exact nomatch hl
  | loc l0 =>
    cases hl
    obtain ⟨pl, e1, e2, e3, e4⟩ := h l0 rfl
    obtain ⟨pl', f1, f2, f3⟩ := he pl e1
    exact ⟨pl', f1, f2.trans e2, (f3 _ e3 e4).1, (f3 _ e3 e4).2⟩

theorem frame (k : Nat) : ∀ (e : Expr) (σ : St) (b : Bool) (v : Val) (σ' : St), eval k e σ = some (b, v, σ') →
    Same (Apart e) σ σ' ∧ (b = false → Within e v)
  | .lit n, σ, b, v, σ', h => by
    cases h
    exact ⟨Same.refl _, fun _ => within_num _ _⟩
  | .brk, σ, b, v, σ', h => by
    cases h
    exact ⟨Same.refl _, fun h => nomatch h⟩
  | .path x, σ, b, v, σ', h => by
    cases h
    refine ⟨Same.refl _, fun _ l hl => ?_⟩
    cases hl
    exact ⟨⟨x, [], true⟩, rfl, rfl, by simp, fun _ => rfl⟩
  | .field e f, σ, b, v, σ', h => by
    rcases andThen_some h with ⟨h1, rfl⟩ | ⟨w, τ, h1, h2⟩
    · exact ⟨(frame k e _ _ _ _ h1).1, fun h => nomatch h⟩
    · cases h2
      obtain ⟨i1, i2⟩ := frame k e _ _ _ _ h1
      refine ⟨i1, fun _ => within_sel (i2 rfl) ?_⟩
      intro pl hp
      refine ⟨pl.select f, by simp [place, hp], by unfold Place.select; split <;> rfl, ?_⟩
      intro ks h3 h4
      unfold Place.select
      split
      · rename_i hx
        rw [h4 hx]
        exact ⟨by simp, fun _ => by simp⟩
      · rename_i hx
        exact ⟨h3.trans (List.prefix_append _ _), fun h => absurd h hx⟩
  | .deref true e, σ, b, v, σ', h => frame k e _ _ _ _ h
  | .deref false e, σ, b, v, σ', h => by
    obtain ⟨i1, i2⟩ := frame k e _ _ _ _ h
    refine ⟨i1, fun hb l hl => ?_⟩
    obtain ⟨pl, e1, e2, e3, _⟩ := i2 hb l hl
    exact ⟨pl.all, by simp [place, e1], e2, e3, fun h => nomatch h⟩
  | .wrap e, σ, b, v, σ', h => frame k e _ _ _ _ h
  | .addr e, σ, b, v, σ', h => frame k e _ _ _ _ h
  | .auto e, σ, b, v, σ', h => by
    obtain ⟨i1, i2⟩ := frame k e _ _ _ _ h
    refine ⟨i1, fun hb l hl => ?_⟩
    obtain ⟨pl, e1, e2, e3, _⟩ := i2 hb l hl
    exact ⟨pl.all, by simp [place, e1], e2, e3, fun h => nomatch h⟩
  | .index e i, σ, b, v, σ', h => by
    have m1 : ∀ l, Apart (.index e i) l → Apart e l := fun l hl =>
      ⟨flush_left hl.1, fun hd => hl.2 (List.mem_append.2 (Or.inl hd))⟩
    have m2 : ∀ l, Apart (.index e i) l → Apart i l := fun l hl =>
      ⟨of_flush (flush_right hl.1), fun hd => hl.2 (List.mem_append.2 (Or.inr hd))⟩
    rcases andThen_some h with ⟨h1, rfl⟩ | ⟨w, τ, h1, h2⟩
    · exact ⟨(frame k e _ _ _ _ h1).1.mono m1, fun h => nomatch h⟩
    · obtain ⟨i1, i2⟩ := frame k e _ _ _ _ h1
      rcases andThen_some h2 with ⟨h3, rfl⟩ | ⟨w', υ, h3, h4⟩
      · exact ⟨(i1.mono m1).trans ((frame k i _ _ _ _ h3).1.mono m2), fun h => nomatch h⟩
      · cases h4
        refine ⟨(i1.mono m1).trans ((frame k i _ _ _ _ h3).1.mono m2), fun _ => within_sel (i2 rfl) ?_⟩
        intro pl hp
        refine ⟨pl.all, by simp [place, hp], rfl, ?_⟩
        intro ks h5 _
        exact ⟨h5.trans (List.prefix_append _ _), fun h => nomatch h⟩
  | .one .next e, σ, b, v, σ', h => by
    have m : ∀ l, Apart (.one .next e) l → Apart e l := fun l hl => ⟨of_flush hl.1, hl.2⟩
    simp only [eval, single] at h
    rcases andThen_some h with ⟨h1, rfl⟩ | ⟨w, τ, h1, h2⟩
    · exact ⟨(frame k e _ _ _ _ h1).1.mono m, fun h => nomatch h⟩
    · have i1 := (frame k e _ _ _ _ h1).1.mono m
      cases w with
      | num n => cases h2; exact ⟨i1, fun _ => within_num _ _⟩
      | loc l =>
        simp only at h2
        split at h2
        · cases h2; exact ⟨i1, fun _ => within_num _ _⟩
        · cases h2; exact ⟨i1.trans (same_advance _ _ _), fun _ => within_num _ _⟩
  | .one (.bind x) e, σ, b, v, σ', h => by
    have m : ∀ l, Apart (.one (.bind x) e) l → Apart e l := fun l hl =>
      ⟨of_flush hl.1, fun hd => hl.2 (List.mem_cons_of_mem _ hd)⟩
    simp only [eval, single] at h
    rcases andThen_some h with ⟨h1, rfl⟩ | ⟨w, τ, h1, h2⟩
    · exact ⟨(frame k e _ _ _ _ h1).1.mono m, fun h => nomatch h⟩
    · cases h2
      refine ⟨((frame k e _ _ _ _ h1).1.mono m).trans (same_write _ _ _ ?_), fun _ => within_num _ _⟩
      intro l' hl' hx
      exact hl'.2 (hx.1 ▸ List.mem_cons_self)
  | .one .loop e, σ, b, v, σ', h => by
    have m : ∀ l, Apart (.one .loop e) l → Apart e l := fun l hl => ⟨of_flush hl.1, hl.2⟩
    obtain ⟨i1, i2⟩ := rounds_same (Q := Apart (.one .loop e))
      (fun σ b v σ' h => (frame k e σ b v σ' h).1.mono m) k _ _ _ _ h
    exact ⟨i1, fun _ => i2 ▸ within_num _ _⟩
  | .one (.closure _) e, σ, b, v, σ', h => by
    have m : ∀ l, Apart (.one (.closure ‹_›) e) l → Apart e l := fun l hl => ⟨of_flush hl.1, hl.2⟩
    obtain ⟨w, h1, h2⟩ := asNum_some h
    refine ⟨(frame k e _ _ _ _ h1).1.mono m, fun hb => ?_⟩
    obtain ⟨n, rfl⟩ := h2 hb
    exact within_num _ _
  | .two o e i, σ, b, v, σ', h => by
    have d1 : ∀ y, y ∈ decls e → y ∈ decls (.two o e i) := by
      intro y hy; cases o <;> simp [decls, hy]
    have d2 : ∀ y, y ∈ decls i → y ∈ decls (.two o e i) := by
      intro y hy; cases o <;> simp [decls, hy]
    have m1 : ∀ l, Apart (.two o e i) l → Apart e l := fun l hl =>
      ⟨of_flush (flush_left hl.1), fun hd => hl.2 (d1 _ hd)⟩
    have m2 : ∀ l, Apart (.two o e i) l → Apart i l := fun l hl =>
      ⟨of_flush (flush_right hl.1), fun hd => hl.2 (d2 _ hd)⟩
    simp only [eval] at h
    rcases andThen_some h with ⟨h1, rfl⟩ | ⟨w, τ, h1, h2⟩
    · exact ⟨(frame k e _ _ _ _ h1).1.mono m1, fun h => nomatch h⟩
    · have i1 := (frame k e _ _ _ _ h1).1.mono m1
      cases o with
      | seq =>
        simp only [both] at h2
        rcases andThen_some h2 with ⟨h3, rfl⟩ | ⟨w', υ, h3, h4⟩
        · exact ⟨i1.trans ((frame k i _ _ _ _ h3).1.mono m2), fun h => nomatch h⟩
        · cases h4
          exact ⟨i1.trans ((frame k i _ _ _ _ h3).1.mono m2), fun _ => within_num _ _⟩
      | lazily =>
        simp only [both] at h2
        split at h2
        · cases h2; exact ⟨i1, fun _ => within_num _ _⟩
        · obtain ⟨w', h3, h4⟩ := asNum_some h2
          refine ⟨i1.trans ((frame k i _ _ _ _ h3).1.mono m2), fun hb => ?_⟩
          obtain ⟨n, rfl⟩ := h4 hb
          exact within_num _ _
      | set =>
        simp only [both] at h2
        rcases andThen_some h2 with ⟨h3, rfl⟩ | ⟨w', υ, h3, h4⟩
        · exact ⟨i1.trans ((frame k i _ _ _ _ h3).1.mono m2), fun h => nomatch h⟩
        · obtain ⟨j1, j2⟩ := frame k i _ _ _ _ h3
          have j1 := i1.trans (j1.mono m2)
          cases w' with
          | num n => cases h4; exact ⟨j1, fun _ => within_num _ _⟩
          | loc l =>
            cases h4
            refine ⟨j1.trans (same_write _ _ _ ?_), fun _ => within_num _ _⟩
            intro l' hl'
            exact within_cov (j2 rfl) (flush_right hl'.1)
      | letElse x =>
        simp only [both] at h2
        split at h2
        · obtain ⟨w', h3, h4⟩ := asNum_some h2
          refine ⟨i1.trans ((frame k i _ _ _ _ h3).1.mono m2), fun hb => ?_⟩
          obtain ⟨n, rfl⟩ := h4 hb
          exact within_num _ _
        · cases h2
          refine ⟨i1.trans (same_write _ _ _ ?_), fun _ => within_num _ _⟩
          intro l' hl' hx
          exact hl'.2 (hx.1 ▸ List.mem_cons_self)
  | .here x e i, σ, b, v, σ', h => by
    have m1 : ∀ l, Apart (.here x e i) l → Apart e l := fun l hl =>
      ⟨of_flush (flush_left hl.1), fun hd => hl.2 (by simp [decls, hd])⟩
    have m2 : ∀ l, Apart (.here x e i) l → Apart i l := fun l hl =>
      ⟨of_flush (flush_right hl.1), fun hd => hl.2 (by simp [decls, hd])⟩
    obtain ⟨i1, i2⟩ := rounds_same (Q := Apart (.here x e i)) (fun σ b v σ' h => by
      rcases andThen_some h with ⟨h1, rfl⟩ | ⟨w, τ, h1, h2⟩
      · exact (frame k e _ _ _ _ h1).1.mono m1
      · have i1 := (frame k e _ _ _ _ h1).1.mono m1
        cases w with
        | num n => exact nomatch h2
        | loc l =>
          simp only [pull] at h2
          split at h2
          · cases h2; exact i1
          · refine i1.trans (((same_advance _ _ _).trans (same_write _ _ _ ?_)).trans
              ((frame k i _ _ _ _ h2).1.mono m2))
            intro l' hl' hx
            exact hl'.2 (hx.1 ▸ List.mem_cons_self)) k _ _ _ _ h
    exact ⟨i1, fun _ => i2 ▸ within_num _ _⟩

/-- The states agree on all that is in these parts. -/
def Agree (as : List Access) (σ σ' : St) : Prop := ∀ a ∈ as, ∀ l, Cov a l → σ'.mem l = σ.mem l

theorem quiet_eval (k : Nat) : ∀ (e : Expr) (σ σ' : St), quiet e = true → Agree (place e).2 σ σ' →
    ∃ v, eval k e σ = some (false, v, σ) ∧ eval k e σ' = some (false, v, σ')
  | .lit n, _, _, _, _ => ⟨.num n, rfl, rfl⟩
  | .path x, _, _, _, _ => ⟨.loc (x, []), rfl, rfl⟩
  | .field e f, σ, σ', hq, ha => by
    obtain ⟨v, h1, h2⟩ := quiet_eval k e σ σ' hq ha
    exact ⟨v.sel (.fld f), by simp [eval, h1, andThen], by simp [eval, h2, andThen]⟩
  | .deref true e, σ, σ', hq, ha => quiet_eval k e σ σ' hq ha
  | .deref false e, σ, σ', hq, ha => quiet_eval k e σ σ' hq ha
  | .wrap e, σ, σ', hq, ha => quiet_eval k e σ σ' hq ha
  | .addr e, σ, σ', hq, ha => quiet_eval k e σ σ' hq ha
  | .auto e, σ, σ', hq, ha => quiet_eval k e σ σ' hq ha
  | .index e i, σ, σ', hq, ha => by
    simp only [quiet, Bool.and_eq_true] at hq
    obtain ⟨v, h1, h2⟩ := quiet_eval k e σ σ' hq.1 (fun a hm => ha a (List.mem_append.2 (Or.inl hm)))
    obtain ⟨w, h3, h4⟩ := quiet_eval k i σ σ' hq.2
      (fun a hm => ha a (List.mem_append.2 (Or.inr (mem_flush.2 (Or.inr hm)))))
    have hr : w.read σ' = w.read σ := by
      cases w with
      | num n => rfl
      | loc l =>
        obtain ⟨pl, e1, e2, e3, _⟩ := (frame k i _ _ _ _ h3).2 rfl l rfl
        exact ha pl.access (List.mem_append.2 (Or.inr (mem_flush.2 (Or.inl ⟨pl, e1, rfl⟩)))) l ⟨e2, e3⟩
    exact ⟨v.sel (.idx (w.read σ)), by simp [eval, h1, h3, andThen], by simp [eval, h2, h4, andThen, hr]⟩

theorem map_fld_prefix : ∀ (p q : List Field), p.map Key.fld <+: q.map Key.fld → p <+: q
  | [], _, _ => List.nil_prefix
  | a :: p, [], h => by simp at h
  | a :: p, b :: q, h => by
    simp only [List.map_cons, List.cons_prefix_cons, Key.fld.injEq] at h
    rw [List.cons_prefix_cons]
    exact ⟨h.1, map_fld_prefix p q h.2⟩

/-- Two parts that share a location overlap. -/
theorem cov_overlap {a b : Access} {l : Loc} (ha : Cov a l) (hb : Cov b l) : a.1 = b.1 ∧ Overlap a.2 b.2 := by
  refine ⟨ha.1.trans hb.1.symm, ?_⟩
  rcases List.prefix_or_prefix_of_prefix ha.2 hb.2 with h | h
  · exact Or.inl (map_fld_prefix _ _ h)
  · exact Or.inr (map_fld_prefix _ _ h)

/-- If the operands of the place keep their values, the loops do the same. -/
theorem same_rounds (k : Nat) (x : Var) (p b : Expr) (hq : quiet p = true)
    (hacc : ∀ a ∈ operands p, ∀ c ∈ accs b, a.1 = c.1 → ¬ Overlap a.2 c.2)
    (hdecl : ∀ a ∈ operands p, a.1 ≠ x ∧ a.1 ∉ decls b) (σ : St) :
    eval k (.here x p b) σ = evalFor k x p b σ := by
  obtain ⟨v, h1, _⟩ := quiet_eval k p σ σ hq (fun _ _ _ _ => rfl)
  have ho : ∀ a ∈ operands p, ∀ l, Cov a l → Apart b l := by
    intro a ha l hl
    refine ⟨?_, fun hd => (hdecl a ha).2 (hl.1 ▸ hd)⟩
    intro c hc hcl
    have := cov_overlap hl hcl
    exact hacc a ha c (mem_flush.2 (Or.inr hc)) this.1 this.2
  have key : ∀ (n : Nat) τ, Agree (operands p) σ τ →
      rounds (fun σ => andThen (eval k p σ) fun v τ =>
        match v with
        | .loc l => pull x (eval k b) l τ
        | .num _ => none) n τ =
      match v with
      | .loc l => rounds (pull x (eval k b) l) n τ
      | .num _ => none := by
    intro n
    induction n with
    | zero => intro τ _; cases v <;> rfl
    | succ n ih =>
      intro τ hτ
      obtain ⟨v', h3, h4⟩ := quiet_eval k p σ τ hq hτ
      rw [h1] at h3
      cases h3
      cases v with
      | num m => simp [rounds, h4, andThen]
      | loc l =>
        have step : ∀ r, pull x (eval k b) l τ = r → (∀ c w υ, r = some (c, w, υ) → Agree (operands p) σ υ) := by
          intro r hr c w υ e
          subst hr
          unfold pull at e
          split at e
          · cases e; exact hτ
          · rename_i m t _
            intro a ha l' hl'
            have f1 := (frame k b _ _ _ _ e).1 l' (ho a ha l' hl')
            have f2 : ((τ.advance l t).write (x, []) m).mem l' = (τ.advance l t).mem l' :=
              same_write (Q := fun l => l.1 ≠ x) _ _ _ (fun l'' hl'' hx => hl'' hx.1.symm) l'
                (fun hx => (hdecl a ha).1 (hl'.1.trans hx))
            exact f1.trans (f2.trans (hτ a ha l' hl'))
        simp only [rounds, h4, andThen]
        cases hp : pull x (eval k b) l τ with
        | none => simp
        | some r =>
          obtain ⟨c, w, υ⟩ := r
          cases c with
          | true => rfl
          | false =>
            simp only
            exact ih υ (step _ hp _ _ _ rfl)
  have := key k σ (fun _ _ _ _ => rfl)
  simp only [evalFor, h1]
  cases v with
  | loc l => exact this
  | num m => exact this

end Verif.WhileIter
