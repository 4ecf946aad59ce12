import Verif.Fold.Lemmas
import Verif.Fold.Model

/-!
# Properties: `unnecessary_fold`
-/

namespace Verif.Fold

theorem eval_peel (w : World) : ∀ (e : Expr), eval w (peelBlocks e) = eval w e
  | .block e => by
    funext σ
    simp only [peelBlocks, eval]
    rw [eval_peel w e]
  | .bool _ => rfl
  | .num _ => rfl
  | .var _ => rfl
  | .short _ => rfl
  | .broken => rfl
  | .deref _ => rfl
  | .call _ => rfl
  | .bin _ _ _ => rfl
  | .set _ _ => rfl
  | .letIn _ _ _ => rfl

theorem sets_names : ∀ (e : Expr) (x : Name), x ∈ sets e → x ∈ names e
  | .deref e, x, h => sets_names e x h
  | .call e, x, h => sets_names e x h
  | .block e, x, h => sets_names e x h
  | .set y e, x, h => by
    rcases List.mem_cons.1 h with h | h
    · exact List.mem_cons.2 (Or.inl h)
    · exact List.mem_cons_of_mem _ (sets_names e x h)
  | .bin _ a b, x, h => by
    rcases List.mem_append.1 h with h | h
    · exact List.mem_append.2 (Or.inl (sets_names a x h))
    · exact List.mem_append.2 (Or.inr (sets_names b x h))
  | .letIn _ a b, x, h => by
    refine List.mem_cons_of_mem _ ?_
    rcases List.mem_append.1 h with h | h
    · exact List.mem_append.2 (Or.inl (sets_names a x h))
    · exact List.mem_append.2 (Or.inr (sets_names b x h))

/-- The body of a closure that is found. -/
theorem foldOp_some {f : Fun} {o : Op} {ha : Bool} {x : Name} {b : Expr} (h : foldOp f o ha = some (x, b)) :
    ∃ p q body a l r, f = .closure p q body ∧ p.name = some a ∧ q.name = some x ∧
      peelBlocks body = .bin o l r ∧ (ha = true ∨ b = .var x) ∧
      ((l = .var a ∧ r = b) ∨ (r = .var a ∧ l = b)) := by
  unfold foldOp at h
  split at h
  · rename_i p q body
    split at h
    · rename_i l r a x' h1 h2 h3
      obtain ⟨b', h4, h5⟩ := Option.map_eq_some_iff.1 h
      cases h5
      refine ⟨p, q, body, a, l, r, rfl, h2, h3, ?_, ?_⟩
      · unfold operands at h1
        split at h1
        · rename_i o' l' r' e
          split at h1
          · rename_i ho
            cases h1
            rw [e, ho]
          · exact nomatch h1
        · exact nomatch h1
      · unfold triggered at h4
        split at h4
        · rename_i hc
          cases h4
          exact ⟨hc.2, Or.inl ⟨hc.1, rfl⟩⟩
        · split at h4
          · rename_i hc
            cases h4
            exact ⟨hc.2, Or.inr ⟨hc.1, rfl⟩⟩
          · exact nomatch h4
    · exact nomatch h
  · exact nomatch h

/-- What a call of a closure with two names is. -/
theorem call2_some {w : World} {p q : Pat} {body : Expr} {v u : Val} {σ τ : St} {r : Val} {a x : Name}
    (hp : p.name = some a) (hq : q.name = some x) (h : call2 w p q body v u σ = some (r, τ)) :
    ∃ s t ρ, peel p.refs v.refs = some s ∧ peel q.refs u.refs = some t ∧
      eval w body ((σ.set a ⟨s, v.n⟩).set x ⟨t, u.n⟩) = some (r, ρ) ∧
      τ = (ρ.set x ((σ.set a ⟨s, v.n⟩).env x)).set a (σ.env a) := by
  obtain ⟨τ₁, h1, h2⟩ := Option.bind_eq_some_iff.1 h
  obtain ⟨s, h3, h4⟩ := Option.map_eq_some_iff.1 h1
  obtain ⟨τ₂, h5, h6⟩ := Option.bind_eq_some_iff.1 h2
  obtain ⟨t, h7, h8⟩ := Option.map_eq_some_iff.1 h5
  obtain ⟨⟨r', ρ⟩, h9, h10⟩ := Option.map_eq_some_iff.1 h6
  rw [hp] at h4
  rw [hq] at h8
  simp only [bindName] at h4 h8
  subst h4
  subst h8
  rw [hp, hq] at h10
  simp only [unbind, Prod.mk.injEq] at h10
  obtain ⟨rfl, h11⟩ := h10
  exact ⟨s, t, ρ, h3, h7, h9, h11.symm⟩

theorem peel_nil {p s : List Mut} (h : peel p [] = some s) : p = [] ∧ s = [] := by
  cases p with
  | nil => cases h; exact ⟨rfl, rfl⟩
  | cons m p => exact nomatch h

/-! ### `sum` and `product` -/

theorem strict_comm {w : World} {o : Op} (ho : o = .add ∨ o = .mul) (a b : Val) :
    w.strict o a b = w.strict o b a := by
  rcases ho with rfl | rfl
  · simp only [World.strict, Bool.and_comm (plain a), Nat.add_comm a.n]
  · simp only [World.strict, Bool.and_comm (plain a), Nat.mul_comm a.n]

theorem strict_num {w : World} {o : Op} {a b v : Val} (h : w.strict o a b = some v) : v.refs = [] := by
  cases o <;> simp only [World.strict, World.checked] at h <;>
    (repeat' split at h) <;> cases h <;> rfl

theorem settles_arith {o : Op} (ho : o = .add ∨ o = .mul) (v : Val) : settles o v = false := by
  rcases ho with rfl | rfl <;> rfl

/-- One step of the fold is one step of the sum. -/
theorem step_total {w : World} {f : Fun} {o : Op} {x : Name} {b : Expr} (ho : o = .add ∨ o = .mul)
    (hf : foldOp f o false = some (x, b)) (hd : ∀ p q body, f = .closure p q body → p.name ≠ q.name)
    {v u : Val} (hv : v.refs = []) (hu : plain u = true) {σ τ : St} {r : Val}
    (h : f.app w v u σ = some (r, τ)) : (w.strict o v u).map (·, σ) = some (r, τ) := by
  obtain ⟨p, q, body, a, l, rr, rfl, h1, h2, h3, h4, h5⟩ := foldOp_some hf
  have hax : a ≠ x := fun e => hd p q body rfl (by rw [h1, h2, e])
  obtain ⟨s, t, ρ, e1, e2, e3, e4⟩ := call2_some h1 h2 h
  rw [hv] at e1
  obtain ⟨_, rfl⟩ := peel_nil e1
  have hb : b = .var x := by
    rcases h4 with h4 | h4
    · exact nomatch h4
    · exact h4
  subst hb
  rw [← eval_peel, h3] at e3
  have hxa : x ≠ a := fun e => hax e.symm
  have envx : ((σ.set a ⟨[], v.n⟩).set x ⟨t, u.n⟩).env x = ⟨t, u.n⟩ := set_here _ _ _
  have enva : ((σ.set a ⟨[], v.n⟩).set x ⟨t, u.n⟩).env a = ⟨[], v.n⟩ := by
    rw [set_other _ hax, set_here]
  have hve : v = ⟨[], v.n⟩ := by cases v; simp_all
  have key : w.strict o v ⟨t, u.n⟩ = some r ∧ ρ = (σ.set a ⟨[], v.n⟩).set x ⟨t, u.n⟩ := by
    rcases h5 with ⟨rfl, rfl⟩ | ⟨rfl, rfl⟩
    · simp only [eval, Option.bind_some, settles_arith ho, envx, enva] at e3
      simp only [Bool.false_eq_true, if_false, Option.map_eq_some_iff, Prod.mk.injEq] at e3
      obtain ⟨q', e5, rfl, rfl⟩ := e3
      rw [← hve] at e5
      exact ⟨e5, rfl⟩
    · simp only [eval, Option.bind_some, settles_arith ho, envx, enva] at e3
      simp only [Bool.false_eq_true, if_false, Option.map_eq_some_iff, Prod.mk.injEq] at e3
      obtain ⟨q', e5, rfl, rfl⟩ := e3
      rw [← hve] at e5
      rw [strict_comm ho] at e5
      exact ⟨e5, rfl⟩
  obtain ⟨k1, rfl⟩ := key
  have hτ : τ = σ := by
    rw [e4, set_set, set_same, set_set, set_same]
  subst hτ
  have : w.strict o v u = w.strict o v ⟨t, u.n⟩ := by
    have hpt : plain ⟨t, u.n⟩ = true := by
      rcases ho with rfl | rfl
      · simp only [World.strict] at k1
        split at k1
        · rename_i hh
          exact (Bool.and_eq_true _ _ ▸ hh).2
        · exact nomatch k1
      · simp only [World.strict] at k1
        split at k1
        · rename_i hh
          exact (Bool.and_eq_true _ _ ▸ hh).2
        · exact nomatch k1
    rcases ho with rfl | rfl <;> simp only [World.strict, hu, hpt]
  rw [this, k1]
  rfl

theorem fold_total {w : World} {f : Fun} {o : Op}
    (hs : ∀ v u σ τ r, v.refs = [] → plain u = true → f.app w v u σ = some (r, τ) →
      (w.strict o v u).map (·, σ) = some (r, τ)) :
    ∀ (items : List (List Nat × Val)) (v : Val) (σ : St) (r : Val × St), v.refs = [] →
      (∀ i ∈ items, plain i.2 = true) → foldItems (f.app w) items v σ = some r →
      foldItems (fun acc v τ => (w.strict o acc v).map (·, τ)) items v σ = some r
  | [], _, _, _, _, _, h => h
  | (l, u) :: rest, v, σ, r, hv, hi, h => by
    obtain ⟨⟨v', τ⟩, h1, h2⟩ := Option.bind_eq_some_iff.1 h
    have h3 := hs _ _ _ _ _ hv (hi (l, u) List.mem_cons_self) h1
    have hv' : v'.refs = [] := by
      obtain ⟨q, h4, h5⟩ := Option.map_eq_some_iff.1 h3
      cases h5
      exact strict_num h4
    simp only [foldItems, h3, Option.bind_some]
    exact fold_total hs rest v' τ r hv' (fun i hm => hi i (List.mem_cons_of_mem _ hm)) h2

/-- The suggestion `sum` or `product` has the same value and effects, and panics only if the fold does.  Missing:
items that are not numbers or shared references to numbers, see `sum_refs`. -/
theorem total_same_partial (w : World) (c : Call) (s : Sugg) (it : Iter) (σ τ : St) (v : Val)
    (hc : check c = some s) (hs : s = .sum ∨ s = .product)
    (hd : ∀ p q body, c.f = .closure p q body → p.name ≠ q.name)
    (hi : ∀ i ∈ it.items, plain i.2 = true)
    (h : c.run w it σ = some (v, τ)) : s.run w it σ = some (v, τ) := by
  have go : ∀ (o : Op) (n : Nat), (o = .add ∨ o = .mul) → c.init = .num n →
      ((foldOp c.f o false).isSome || foldMethod c.f o) = true → it.total w o n σ = some (v, τ) := by
    intro o n ho hn hf
    unfold Call.run at h
    rw [hn] at h
    simp only [eval, Option.bind_some] at h
    obtain ⟨r, h1, h2⟩ := Option.map_eq_some_iff.1 h
    have step : ∀ v u σ τ r, v.refs = [] → plain u = true → c.f.app w v u σ = some (r, τ) →
        (w.strict o v u).map (·, σ) = some (r, τ) := by
      intro v u σ τ r hv hu ha
      rcases Bool.or_eq_true _ _ ▸ hf with hf | hf
      · obtain ⟨⟨x, b⟩, hf⟩ := Option.isSome_iff_exists.1 hf
        exact step_total ho hf hd hv hu ha
      · have : c.f = .method o := of_decide_eq_true hf
        rw [this] at ha
        exact ha
    unfold Iter.total Iter.fold
    rw [fold_total step it.items (num n) σ r rfl hi h1]
    exact congrArg some h2
  unfold check at hc
  split at hc
  · rename_i s' hst
    cases hc
    unfold standard at hst
    split at hst
    · obtain ⟨q, _, e⟩ := Option.map_eq_some_iff.1 hst
      subst e
      rcases hs with hs | hs <;> exact nomatch hs
    · obtain ⟨q, _, e⟩ := Option.map_eq_some_iff.1 hst
      subst e
      rcases hs with hs | hs <;> exact nomatch hs
    · rename_i hn
      split at hst
      · rename_i hf
        cases hst
        exact go .add 0 (Or.inl rfl) hn hf
      · exact nomatch hst
    · rename_i hn
      split at hst
      · rename_i hf
        cases hst
        exact go .mul 1 (Or.inr rfl) hn hf
      · exact nomatch hst
    · exact nomatch hst
  · unfold option at hc
    split at hc
    · split at hc
      · obtain ⟨q, _, e⟩ := Option.map_eq_some_iff.1 hc
        subst e
        rcases hs with hs | hs <;> exact nomatch hs
      · exact nomatch hc
    · exact nomatch hc

/-! ### `any` and `all` -/

/-- `||` stops at `true`, `&&` at `false`. -/
inductive Stops : Op → Nat → Prop where
  | or : Stops .or 1
  | and : Stops .and 0

theorem Stops.settles {o : Op} {k : Nat} (h : Stops o k) (v : Val) : settles o v = true ↔ v = num k := by
  cases h <;> simp [Fold.settles]

theorem Stops.ne {o : Op} {k : Nat} (h : Stops o k) : num (1 - k) ≠ num k := by
  cases h <;> decide

theorem Stops.cases {o : Op} {k : Nat} (h : Stops o k) {v : Val} (hb : v.isBool = true) :
    v = num k ∨ v = num (1 - k) := by
  simp only [Val.isBool, Bool.or_eq_true, beq_iff_eq] at hb
  cases h with
  | or => exact hb.symm
  | and => exact hb

/-- The operator with the value that does not settle it. -/
theorem Stops.strict {o : Op} {k : Nat} (h : Stops o k) {w : World} {u r : Val}
    (hs : w.strict o (num (1 - k)) u = some r) : r = u ∧ u.isBool = true := by
  cases h with
  | or =>
    simp only [World.strict] at hs
    split at hs
    · rename_i hc
      simp only [Bool.and_eq_true] at hc
      have hb := hc.2
      simp only [Val.isBool, Bool.or_eq_true, beq_iff_eq] at hb
      refine ⟨?_, hc.2⟩
      rcases hb with rfl | rfl <;> cases hs <;> rfl
    · exact nomatch hs
  | and =>
    simp only [World.strict] at hs
    split at hs
    · rename_i hc
      simp only [Bool.and_eq_true] at hc
      have hb := hc.2
      simp only [Val.isBool, Bool.or_eq_true, beq_iff_eq] at hb
      refine ⟨?_, hc.2⟩
      rcases hb with rfl | rfl <;> cases hs <;> rfl
    · exact nomatch hs

/-- The second operand, if the first one does not settle it. -/
theorem Stops.strict_left {o : Op} {k : Nat} (h : Stops o k) {w : World} {v u r : Val}
    (hv : v ≠ num k) (hs : w.strict o v u = some r) : v = num (1 - k) ∧ r = u := by
  have hb : v.isBool = true := by
    cases h <;> simp only [World.strict] at hs <;> split at hs <;> simp_all
  rcases h.cases hb with h1 | h1
  · exact absurd h1 hv
  · rw [h1] at hs
    exact ⟨h1, (h.strict hs).1⟩

/-- What is needed of one step. -/
structure Steps (o : Op) (k : Nat) (g : Val → Val → St → Res) (g' : Val → St → Res) : Prop where
  go : ∀ u σ r τ, g (num (1 - k)) u σ = some (r, τ) → g' u σ = some (r, τ) ∧ r.isBool = true
  done : ∀ u σ r τ, g (num k) u σ = some (r, τ) → r = num k ∧ τ = σ

theorem call1_some {w : World} {x : Name} {b : Expr} {u r : Val} {σ ρ : St}
    (h : eval w b (σ.set x u) = some (r, ρ)) :
    call1 w ⟨[], false, some x⟩ b u σ = some (r, ρ.set x (σ.env x)) := by
  simp only [call1, Pat.bind, peel, bindName, unbind, Option.map_some, Option.bind_some]
  rw [h]
  rfl

theorem closure_steps {w : World} {f : Fun} {o : Op} {k : Nat} {x : Name} {b : Expr} (hk : Stops o k)
    {p q : Pat} {body : Expr} (hcl : f = .closure p q body) (hq : q.refs = []) (hd : p.name ≠ q.name)
    (hn : ∀ a, p.name = some a → a ∉ names b)
    (hb : (∃ a, p.name = some a ∧ peelBlocks body = .bin o (.var a) b) ∨ quiet b = true)
    (hf : foldOp f o true = some (x, b)) : Steps o k (f.app w) (call1 w ⟨[], false, some x⟩ b) := by
  obtain ⟨p', q', body', a, l, rr, e, h1, h2, h3, _, h5⟩ := foldOp_some hf
  rw [hcl] at e
  cases e
  subst hcl
  have hax : a ≠ x := fun e => hd (by rw [h1, h2, e])
  have hxa : x ≠ a := fun e => hax e.symm
  have han := hn a h1
  have hk' : ∀ (n : Nat), (num n).refs = [] := fun _ => rfl
  -- the operand in the closure and without the accumulator
  have opnd : ∀ (v u : Val) (σ : St) r ρ, eval w b ((σ.set a v).set x u) = some (r, ρ) →
      ∃ ρ', eval w b (σ.set x u) = some (r, ρ') ∧ ρ = ρ'.set a v ∧ ρ'.env a = σ.env a := by
    intro v u σ r ρ h
    rw [set_comm _ hax, eval_set w a v b _ han] at h
    obtain ⟨⟨r', ρ'⟩, h6, h7⟩ := Option.map_eq_some_iff.1 h
    cases h7
    refine ⟨ρ', h6, rfl, ?_⟩
    rw [eval_keeps w a b _ _ _ (fun hm => han (sets_names b a hm)) h6, set_other _ hax]
  have back : ∀ (v : Val) (σ ρ' : St), ρ'.env a = σ.env a →
      ((ρ'.set a v).set x ((σ.set a v).env x)).set a (σ.env a) = ρ'.set x (σ.env x) := by
    intro v σ ρ' he
    rw [set_other _ hxa, set_comm _ hax, set_set, ← he, ← set_other ρ' hax (σ.env x), set_same]
  have back0 : ∀ (v u : Val) (σ : St),
      (((σ.set a v).set x u).set x ((σ.set a v).env x)).set a (σ.env a) = σ := by
    intro v u σ
    rw [set_set, set_same, set_set, set_same]
  constructor
  · intro u σ r τ h
    obtain ⟨s, t, ρ, e1, e2, e3, e4⟩ := call2_some h1 h2 h
    obtain ⟨_, rfl⟩ := peel_nil e1
    rw [hq] at e2
    simp only [peel, Option.some.injEq] at e2
    subst e2
    have hue : (⟨u.refs, u.n⟩ : Val) = u := rfl
    have hve : (⟨[], (num (1 - k)).n⟩ : Val) = num (1 - k) := rfl
    rw [hue, hve] at e3
    rw [hve] at e4
    rw [← eval_peel, h3] at e3
    have enva : ((σ.set a (num (1 - k))).set x u).env a = num (1 - k) := by rw [set_other _ hax, set_here]
    have hns : settles o (num (1 - k)) = false := by
      cases hh : settles o (num (1 - k)) with
      | false => rfl
      | true => exact absurd ((hk.settles _).1 hh) hk.ne
    rcases h5 with ⟨rfl, rfl⟩ | ⟨rfl, rfl⟩
    · simp only [eval, Option.bind_some, enva, hns] at e3
      obtain ⟨⟨u', ρ₁⟩, e5, e6⟩ := Option.bind_eq_some_iff.1 (by simpa using e3)
      obtain ⟨r', e7, e8⟩ := Option.map_eq_some_iff.1 e6
      cases e8
      obtain ⟨rfl, e9⟩ := hk.strict e7
      obtain ⟨ρ', e10, rfl, e12⟩ := opnd _ _ _ _ _ e5
      refine ⟨?_, e9⟩
      rw [call1_some e10, e4, back _ _ _ e12]
    · simp only [eval] at e3
      obtain ⟨⟨u', ρ₁⟩, e5, e6⟩ := Option.bind_eq_some_iff.1 e3
      obtain ⟨ρ', e10, rfl, e12⟩ := opnd _ _ _ _ _ e5
      simp only at e6
      split at e6
      · rename_i hst
        cases e6
        have := (hk.settles _).1 hst
        refine ⟨?_, ?_⟩
        · rw [call1_some e10, e4, back _ _ _ e12]
        · rw [this]; cases hk <;> rfl
      · rename_i hst
        simp only [Option.bind_some, set_here] at e6
        obtain ⟨r', e7, e8⟩ := Option.map_eq_some_iff.1 e6
        cases e8
        obtain ⟨e9, rfl⟩ := hk.strict_left (fun e => hst ((hk.settles _).2 e)) e7
        subst e9
        refine ⟨?_, ?_⟩
        · rw [call1_some e10, e4, back _ _ _ e12]
        · cases hk <;> rfl
  · intro u σ r τ h
    obtain ⟨s, t, ρ, e1, e2, e3, e4⟩ := call2_some h1 h2 h
    obtain ⟨_, rfl⟩ := peel_nil e1
    rw [hq] at e2
    simp only [peel, Option.some.injEq] at e2
    subst e2
    have hue : (⟨u.refs, u.n⟩ : Val) = u := rfl
    have hve : (⟨[], (num k).n⟩ : Val) = num k := rfl
    rw [hue, hve] at e3
    rw [hve] at e4
    rw [← eval_peel, h3] at e3
    have enva : ((σ.set a (num k)).set x u).env a = num k := by rw [set_other _ hax, set_here]
    have hns : settles o (num k) = true := (hk.settles _).2 rfl
    have direct : l = .var a → r = num k ∧ τ = σ := by
      rintro rfl
      simp only [eval, Option.bind_some, enva, hns] at e3
      cases e3
      exact ⟨rfl, by rw [e4, back0]⟩
    rcases h5 with ⟨hl, hr⟩ | ⟨rfl, rfl⟩
    · exact direct hl
    · rcases hb with ⟨a', ha', hb⟩ | hb
      · rw [h3] at hb
        rw [h1] at ha'
        cases ha'
        injection hb with _ hb1 _
        exact direct hb1
      · simp only [eval] at e3
        obtain ⟨⟨u', ρ₁⟩, e5, e6⟩ := Option.bind_eq_some_iff.1 e3
        have := eval_quiet w _ _ _ _ hb e5
        subst this
        simp only at e6
        split at e6
        · rename_i hst
          cases e6
          exact ⟨(hk.settles _).1 hst, by rw [e4, back0]⟩
        · rename_i hst
          simp only [Option.bind_some, enva] at e6
          obtain ⟨r', e7, e8⟩ := Option.map_eq_some_iff.1 e6
          cases e8
          exact ⟨(hk.strict_left (fun e => hst ((hk.settles _).2 e)) e7).2, by rw [e4, back0]⟩

/-- Nothing is written before the items. -/
def quietItems (items : List (List Nat × Val)) : Bool := items.all (·.1.isEmpty)

theorem fold_done {o : Op} {k : Nat} {g : Val → Val → St → Res} {g' : Val → St → Res} (hs : Steps o k g g') :
    ∀ (items : List (List Nat × Val)) (σ : St) (r : Val) (τ : St),
      foldItems g items (num k) σ = some (r, τ) →
      r = num k ∧ σ.log <+: τ.log ∧ (quietItems items = true → τ = σ)
  | [], σ, r, τ, h => by
    cases h
    exact ⟨rfl, List.prefix_rfl, fun _ => rfl⟩
  | (l, u) :: rest, σ, r, τ, h => by
    obtain ⟨⟨v', τ₁⟩, h1, h2⟩ := Option.bind_eq_some_iff.1 h
    obtain ⟨e1, e2⟩ := hs.done _ _ _ _ h1
    simp only at h2
    subst e1
    subst e2
    obtain ⟨i1, i2, i3⟩ := fold_done hs rest _ _ _ h2
    refine ⟨i1, (List.prefix_append _ _).trans i2, ?_⟩
    intro hq
    simp only [quietItems, List.all_cons, Bool.and_eq_true, List.isEmpty_iff] at hq
    have hl : l = [] := hq.1
    rw [i3 hq.2, hl]
    simp [St.say]

theorem fold_search {o : Op} {k : Nat} (hk : Stops o k) {g : Val → Val → St → Res} {g' : Val → St → Res}
    (hs : Steps o k g g') (fin : List Nat) :
    ∀ (items : List (List Nat × Val)) (σ : St) (r : Val) (τ : St),
      foldItems g items (num (1 - k)) σ = some (r, τ) →
      ∃ τ', search g' k fin items σ = some (r, τ') ∧ τ'.log <+: (τ.say fin).log ∧
        (quietItems items = true → fin = [] → τ' = τ.say fin)
  | [], σ, r, τ, h => by
    cases h
    exact ⟨_, rfl, List.prefix_rfl, fun _ _ => rfl⟩
  | (l, u) :: rest, σ, r, τ, h => by
    obtain ⟨⟨v', τ₁⟩, h1, h2⟩ := Option.bind_eq_some_iff.1 h
    obtain ⟨e1, e2⟩ := hs.go _ _ _ _ h1
    simp only at h2
    rcases hk.cases e2 with rfl | rfl
    · obtain ⟨rfl, i2, i3⟩ := fold_done hs rest _ _ _ h2
      refine ⟨τ₁, ?_, i2.trans (List.prefix_append _ _), ?_⟩
      · simp [search, e1, num]
      · intro hq hf
        simp only [quietItems, List.all_cons, Bool.and_eq_true] at hq
        rw [i3 hq.2, hf]
        simp [St.say]
    · obtain ⟨τ', i1, i2, i3⟩ := fold_search hk hs fin rest _ _ _ h2
      refine ⟨τ', ?_, i2, ?_⟩
      · have hne : ¬ (1 - k = k) := fun e => hk.ne (by rw [e])
        simp only [search, e1, Option.bind_some]
        rw [if_pos (by rfl), if_neg (by exact hne)]
        exact i1
      · intro hq hf
        simp only [quietItems, List.all_cons, Bool.and_eq_true] at hq
        exact i3 hq.2 hf

/-- The suggestion `any` or `all` has the value of the fold, and does nothing that the fold does not do; if the
iterator has no effects, neither does more.  Missing, with witnesses: a reference in the pattern of the item
(`ref_lost`), a mention of the accumulator in the other operand (`acc_left`), effects of the other operand if it
stands on the left (`left_effects`). -/
theorem search_same_partial (w : World) (c : Call) (s : Sugg) (it : Iter) (σ τ : St) (v : Val) (x : Name)
    (b : Expr) (o : Op) (p q : Pat) (body : Expr) (hc : check c = some s)
    (hs : (s = .any x b ∧ o = .or) ∨ (s = .all x b ∧ o = .and))
    (hf : c.f = .closure p q body) (hq : q.refs = []) (hd : p.name ≠ q.name)
    (hn : ∀ a, p.name = some a → a ∉ names b)
    (hb : (∃ a, p.name = some a ∧ peelBlocks body = .bin o (.var a) b) ∨ quiet b = true)
    (h : c.run w it σ = some (v, τ)) :
    ∃ τ', s.run w it σ = some (v, τ') ∧ τ'.log <+: τ.log ∧ (it.quiet = true → τ' = τ) := by
  have go : ∀ (k : Nat), Stops o k → eval w c.init = (fun σ => some (num (1 - k), σ)) →
      foldOp c.f o true = some (x, b) →
      ∃ τ', search (call1 w ⟨[], false, some x⟩ b) k it.fin it.items σ = some (v, τ') ∧ τ'.log <+: τ.log ∧
        (it.quiet = true → τ' = τ) := by
    intro k hk hi hfo
    unfold Call.run at h
    rw [hi] at h
    simp only [Option.bind_some] at h
    obtain ⟨⟨r, ρ⟩, h1, h2⟩ := Option.map_eq_some_iff.1 h
    cases h2
    obtain ⟨τ', i1, i2, i3⟩ := fold_search hk (closure_steps (w := w) hk hf hq hd hn hb hfo) it.fin _ _ _ _ h1
    refine ⟨τ', i1, i2, ?_⟩
    intro hqt
    simp only [Iter.quiet, Bool.and_eq_true, List.isEmpty_iff] at hqt
    exact i3 hqt.1 hqt.2
  unfold check at hc
  split at hc
  · rename_i s' hst
    cases hc
    unfold standard at hst
    split at hst
    · rename_i hn
      obtain ⟨⟨x', b'⟩, hfo, e⟩ := Option.map_eq_some_iff.1 hst
      subst e
      rcases hs with ⟨hs, rfl⟩ | ⟨hs, rfl⟩
      · cases hs
        exact go 1 .or (by rw [hn]; rfl) hfo
      · exact nomatch hs
    · rename_i hn
      obtain ⟨⟨x', b'⟩, hfo, e⟩ := Option.map_eq_some_iff.1 hst
      subst e
      rcases hs with ⟨hs, rfl⟩ | ⟨hs, rfl⟩
      · exact nomatch hs
      · cases hs
        exact go 0 .and (by rw [hn]; rfl) hfo
    · split at hst
      · cases hst
        rcases hs with ⟨hs, _⟩ | ⟨hs, _⟩ <;> exact nomatch hs
      · exact nomatch hst
    · split at hst
      · cases hst
        rcases hs with ⟨hs, _⟩ | ⟨hs, _⟩ <;> exact nomatch hs
      · exact nomatch hst
    · exact nomatch hst
  · unfold option at hc
    split at hc
    · split at hc
      · obtain ⟨q, _, e⟩ := Option.map_eq_some_iff.1 hc
        subst e
        rcases hs with ⟨hs, _⟩ | ⟨hs, _⟩ <;> exact nomatch hs
      · exact nomatch hc
    · exact nomatch hc

end Verif.Fold
