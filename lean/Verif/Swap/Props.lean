import Verif.Swap.Spec

/-!
# Suggested swaps do what the statements do
-/

namespace Verif.Swap

/-! ### Stores and places -/

/-- Same values except of one variable. -/
def AgreeBut (x : Nat) (σ τ : Store) : Prop := ∀ y, y ≠ x → σ y = τ y

theorem uses_iff (x : Nat) : ∀ e : E, e.uses x = true ↔ e.Occurs x
  | .lit _ => by simp [E.uses, E.Occurs]
  | .var y => by simp [E.uses, E.Occurs]
  | .field p _ | .deref p | .cast p => by simpa [E.uses, E.Occurs] using uses_iff x p
  | .index p e => by simp [E.uses, E.Occurs, uses_iff x p, uses_iff x e]
  | .add a b => by simp [E.uses, E.Occurs, uses_iff x a, uses_iff x b]

theorem read_congr {σ τ : Store} : ∀ e : E, (∀ y, e.Occurs y → σ y = τ y) → read σ e = read τ e
  | .lit _, _ => rfl
  | .var y, h => by simp [read, h y rfl]
  | .field p i, h => by simp [read, read_congr p h]
  | .deref p, h | .cast p, h => by simpa [read] using read_congr p h
  | .index p e, h => by simp [read, read_congr p (fun y hy => h y (.inl hy)), read_congr e (fun y hy => h y (.inr hy))]
  | .add a b, h => by simp [read, read_congr a (fun y hy => h y (.inl hy)), read_congr b (fun y hy => h y (.inr hy))]

theorem read_agree {x : Nat} {σ τ : Store} (h : AgreeBut x σ τ) (e : E) (he : ¬ e.Occurs x) : read σ e = read τ e :=
  read_congr e fun y hy => h y fun hxy => he (hxy ▸ hy)

theorem upd_agree (x : Nat) (σ : Store) (v : Val) : AgreeBut x σ (upd σ x v) := by
  intro y hy; simp [upd, hy]

theorem place_agree {x : Nat} {σ τ : Store} (h : AgreeBut x σ τ) : ∀ e : E, e.IndexFree x → place σ e = place τ e
  | .lit _, _ | .var _, _ | .add _ _, _ | .cast _, _ => rfl
  | .field p i, hf => by simp [place, place_agree h p hf]
  | .deref p, hf => by simpa [place] using place_agree h p hf
  | .index p e, hf => by simp [place, place_agree h p hf.1, read_agree h e hf.2]

theorem indexFree_of : ∀ (e : E) {x : Nat}, ¬ e.Occurs x → e.IndexFree x
  | .lit _, _, _ | .var _, _, _ | .add _ _, _, _ | .cast _, _, _ => trivial
  | .field p i, _, h | .deref p, _, h => by simpa [E.IndexFree] using indexFree_of p h
  | .index p e, _, h => ⟨indexFree_of p fun hp => h (.inl hp), fun he => h (.inr he)⟩

theorem place_root {σ : Store} : ∀ (e : E) {p : Nat × List Nat}, place σ e = some p → e.root = some p.1
  | .lit _, _, h | .add _ _, _, h | .cast _, _, h => by simp [place] at h
  | .var x, _, h => by simp [place] at h; subst h; rfl
  | .field e i, _, h => by
    simp only [place, Option.map_eq_some_iff] at h
    obtain ⟨q, hq, rfl⟩ := h
    simpa [E.root] using place_root e hq
  | .deref e, _, h => by simpa [E.root] using place_root e h
  | .index e i, _, h => by
    simp only [place, Option.bind_eq_some_iff, Option.map_eq_some_iff] at h
    obtain ⟨q, hq, w, hw, n, hn, rfl⟩ := h
    simpa [E.root] using place_root e hq

theorem root_occurs : ∀ (e : E) {x : Nat}, e.root = some x → e.Occurs x
  | .lit _, _, h | .add _ _, _, h | .cast _, _, h => by simp [E.root] at h
  | .var x, _, h => by simp [E.root] at h; simp [E.Occurs, h]
  | .field e i, _, h => by simpa [E.Occurs] using root_occurs e h
  | .deref e, _, h => by simpa [E.Occurs] using root_occurs e h
  | .index e i, _, h => .inl (root_occurs e h)

theorem at_append : ∀ (π : List Nat) (v : Val) (i : Nat), v.at (π ++ [i]) = (v.at π).bind (·.child i)
  | [], v, i => by simp only [List.nil_append, Val.at, Option.bind_some]; cases v.child i <;> rfl
  | j :: π, v, i => by
    simp only [List.cons_append, Val.at]
    cases v.child j with
    | none => rfl
    | some w => simpa using at_append π w i

/-- The value of a place is what is at the place. -/
theorem read_place {σ : Store} : ∀ (e : E) {p : Nat × List Nat}, place σ e = some p → read σ e = getPlace σ p
  | .lit _, _, h | .add _ _, _, h | .cast _, _, h => by simp [place] at h
  | .var x, _, h => by simp [place] at h; subst h; rfl
  | .field e i, _, h => by
    simp only [place, Option.map_eq_some_iff] at h
    obtain ⟨q, hq, rfl⟩ := h
    simp [read, getPlace, at_append, read_place e hq]
  | .deref e, _, h => by simpa [read] using read_place e h
  | .index e i, _, h => by
    simp only [place, Option.bind_eq_some_iff, Option.map_eq_some_iff] at h
    obtain ⟨q, hq, w, hw, n, hn, rfl⟩ := h
    simp only [read, getPlace, at_append, read_place e hq, hw, Option.bind_some, hn]

theorem setPlace_agree {x : Nat} {σ τ : Store} (h : AgreeBut x σ τ) {p : Nat × List Nat} (hp : p.1 ≠ x) (v : Val) :
    (setPlace σ p v = none ∧ setPlace τ p v = none) ∨ ∃ σ' τ', setPlace σ p v = some σ' ∧ setPlace τ p v = some τ' ∧ AgreeBut x σ' τ' := by
  unfold setPlace
  rw [h _ hp]
  cases (τ p.1).set p.2 v with
  | none => exact .inl ⟨rfl, rfl⟩
  | some w =>
    refine .inr ⟨_, _, rfl, rfl, ?_⟩
    intro y hy
    simp only [upd]
    split
    · rfl
    · exact h y hy

theorem getPlace_agree {x : Nat} {σ τ : Store} (h : AgreeBut x σ τ) {p : Nat × List Nat} (hp : p.1 ≠ x) : getPlace σ p = getPlace τ p := by
  simp [getPlace, h _ hp]

theorem exchange_agree {x : Nat} {σ τ : Store} (h : AgreeBut x σ τ) {p q : Nat × List Nat} (hp : p.1 ≠ x) (hq : q.1 ≠ x) :
    (exchange σ p q = none ∧ exchange τ p q = none) ∨ ∃ σ' τ', exchange σ p q = some σ' ∧ exchange τ p q = some τ' ∧ AgreeBut x σ' τ' := by
  unfold exchange
  rw [getPlace_agree h hp, getPlace_agree h hq]
  cases getPlace τ p with
  | none => exact .inl ⟨rfl, rfl⟩
  | some v =>
    cases getPlace τ q with
    | none => exact .inl ⟨rfl, rfl⟩
    | some w =>
      simp only [Option.bind_some]
      rcases setPlace_agree h hp w with ⟨e1, e2⟩ | ⟨σ', τ', e1, e2, h'⟩
      · rw [e1, e2]; exact .inl ⟨rfl, rfl⟩
      · rw [e1, e2]
        simp only [Option.bind_some]
        exact setPlace_agree h' hq v

/-! ### The rest of the block -/

theorem exec_agree {x : Nat} {σ τ : Store} (h : AgreeBut x σ τ) (s : Stmt) (hs : s.Without x) :
    (exec σ s = none ∧ exec τ s = none) ∨ ∃ σ' τ' o, exec σ s = some (σ', o) ∧ exec τ s = some (τ', o) ∧ AgreeBut x σ' τ' := by
  have hw : ∀ (l : E) (v : Val), ¬ l.Occurs x →
      (write σ l v = none ∧ write τ l v = none) ∨ ∃ σ' τ', write σ l v = some σ' ∧ write τ l v = some τ' ∧ AgreeBut x σ' τ' := by
    intro l v hl
    unfold write
    rw [place_agree h l (indexFree_of l hl)]
    cases hp : place τ l with
    | none => exact .inl ⟨rfl, rfl⟩
    | some p => exact setPlace_agree h (fun e => hl (root_occurs l (e ▸ place_root l hp))) v
  cases s with
  | letS m y e =>
    simp only [exec, read_agree h e hs]
    cases read τ e with
    | none => exact .inl ⟨rfl, rfl⟩
    | some v =>
      refine .inr ⟨_, _, _, rfl, rfl, fun z hz => ?_⟩
      simp only [upd]; split
      · rfl
      · exact h z hz
  | out c e =>
    simp only [exec, read_agree h e hs]
    cases read τ e with
    | none => exact .inl ⟨rfl, rfl⟩
    | some v => exact .inr ⟨_, _, _, rfl, rfl, h⟩
  | assign l r =>
    simp only [exec, read_agree h r hs.2]
    cases read τ r with
    | none => exact .inl ⟨rfl, rfl⟩
    | some v =>
      simp only [Option.bind_some]
      rcases hw l v hs.1 with ⟨e1, e2⟩ | ⟨σ', τ', e1, e2, h'⟩
      · rw [e1, e2]; exact .inl ⟨rfl, rfl⟩
      · rw [e1, e2]; exact .inr ⟨_, _, _, rfl, rfl, h'⟩
  | xor l r =>
    simp only [exec, read_agree h r hs.2, read_agree h l hs.1]
    cases read τ r with
    | none => exact .inl ⟨rfl, rfl⟩
    | some v =>
      cases read τ l with
      | none => exact .inl ⟨rfl, rfl⟩
      | some w =>
        cases hm : v.toInt with
        | none => simp [hm]
        | some m =>
          cases hn : w.toInt with
          | none => simp [hm, hn]
          | some n =>
            simp only [Option.bind_some, hm, hn]
            rcases hw l (.int (n ^^^ m)) hs.1 with ⟨e1, e2⟩ | ⟨σ', τ', e1, e2, h'⟩
            · rw [e1, e2]; exact .inl ⟨rfl, rfl⟩
            · rw [e1, e2]; exact .inr ⟨_, _, _, rfl, rfl, h'⟩

theorem run_agree {x : Nat} : ∀ (ss : List Stmt) {σ τ : Store}, AgreeBut x σ τ → (∀ s ∈ ss, s.Without x) →
    (run σ ss = none ∧ run τ ss = none) ∨ ∃ σ' τ' o, run σ ss = some (σ', o) ∧ run τ ss = some (τ', o) ∧ AgreeBut x σ' τ'
  | [], σ, τ, h, _ => .inr ⟨_, _, _, rfl, rfl, h⟩
  | s :: ss, σ, τ, h, hs => by
    simp only [run]
    rcases exec_agree h s (hs s (by simp)) with ⟨e1, e2⟩ | ⟨σ', τ', o, e1, e2, h'⟩
    · rw [e1, e2]; exact .inl ⟨rfl, rfl⟩
    · rw [e1, e2]
      simp only [Option.bind_some]
      rcases run_agree ss h' (fun t ht => hs t (by simp [ht])) with ⟨e3, e4⟩ | ⟨σ'', τ'', o', e3, e4, h''⟩
      · rw [e3, e4]; exact .inl ⟨rfl, rfl⟩
      · rw [e3, e4]; exact .inr ⟨_, _, _, rfl, rfl, h''⟩

theorem runRest_agree {x : Nat} {σ τ : Store} (h : AgreeBut x σ τ) (rest : List Stmt) (tail : Option E) (hr : ∀ s ∈ rest, s.Without x)
    (ht : ∀ e, tail = some e → ¬ e.Occurs x) : SameBut x (runRest σ rest tail) (runRest τ rest tail) := by
  unfold runRest
  rcases run_agree rest h hr with ⟨e1, e2⟩ | ⟨σ', τ', o, e1, e2, h'⟩
  · rw [e1, e2]; trivial
  · rw [e1, e2]
    simp only [Option.bind_some]
    cases tail with
    | none => exact ⟨h', rfl, rfl⟩
    | some e =>
      simp only [read_agree h' e (ht e rfl)]
      cases read τ' e with
      | none => trivial
      | some v => exact ⟨h', rfl, rfl⟩

theorem sameBut_refl (x : Nat) : ∀ r, SameBut x r r
  | none => trivial
  | some _ => ⟨fun _ _ => rfl, rfl, rfl⟩

/-! ### `let t = a; a = b; b = t;` -/

/-- The three statements exchange the values of the places, as they are after the declaration. -/
theorem three (σ : Store) (m : Bool) (x : Nat) (e1 e2 : E) (h1 : ¬ e1.Occurs x) (h2 : e2.root ≠ some x) (hi : ∀ r, e1.root = some r → e2.IndexFree r) :
    run σ [.letS m x e1, .assign e1 e2, .assign e2 (.var x)] =
      ((read σ e1).bind fun t => (place (upd σ x t) e1).bind fun p => (place (upd σ x t) e2).bind fun q => exchange (upd σ x t) p q).map (·, []) := by
  simp only [run, exec]
  cases ht : read σ e1 with
  | none => rfl
  | some t =>
    simp only [Option.map_some, Option.bind_some, List.nil_append]
    generalize hσ : upd σ x t = σ1
    have hx : σ1 x = t := by subst hσ; simp [upd]
    have ht1 : read σ1 e1 = some t := by rw [← read_agree (hσ ▸ upd_agree x σ t) e1 h1, ht]
    cases hp : place σ1 e1 with
    | none =>
      cases read σ1 e2 with
      | none => rfl
      | some w => simp [write, hp]
    | some p =>
      have hpx : p.1 ≠ x := fun e => h1 (root_occurs e1 (e ▸ place_root e1 hp))
      have hgp : getPlace σ1 p = some t := by rw [← read_place e1 hp, ht1]
      have hq' : ∀ w, place (upd σ1 p.1 w) e2 = place σ1 e2 := fun w =>
        (place_agree (upd_agree p.1 σ1 w) e2 (hi _ (place_root e1 hp))).symm
      have hstep : ∀ w, ((write σ1 e1 w).bind fun σ2 => (write σ2 e2 (σ2 x))) =
          (place σ1 e2).bind fun q => (setPlace σ1 p w).bind fun σ2 => setPlace σ2 q t := by
        intro w
        simp only [write, hp, Option.bind_some, setPlace]
        cases (σ1 p.1).set p.2 w with
        | none => cases place σ1 e2 <;> rfl
        | some w' =>
          simp only [Option.map_some, Option.bind_some, hq']
          have : upd σ1 p.1 w' x = t := by simp [upd, Ne.symm hpx, hx]
          rw [this]
      cases hq : place σ1 e2 with
      | none =>
        cases hw : read σ1 e2 with
        | none => simp
        | some w =>
          have := hstep w
          rw [hq] at this
          simp only [Option.bind_none, Option.bind_eq_none_iff] at this
          simp only [Option.bind_some, Option.bind_none, Option.map_none]
          cases hw1 : write σ1 e1 w with
          | none => rfl
          | some σ2 => simp [read, this σ2 hw1]
      | some q =>
        simp only [Option.bind_some]
        rw [read_place e2 hq]
        simp only [exchange, hgp, Option.bind_some]
        cases hw : getPlace σ1 q with
        | none => rfl
        | some w =>
          have := hstep w
          rw [hq] at this
          simp only [Option.bind_some] at this ⊢
          rw [← this]
          cases hw1 : write σ1 e1 w with
          | none => rfl
          | some σ2 =>
            simp only [Option.map_some, Option.bind_some, read, List.nil_append]
            cases write σ2 e2 (σ2 x) <;> rfl

/-- Without the declaration. -/
theorem three_agree (σ : Store) (x : Nat) (e1 e2 : E) (h1 : ¬ e1.Occurs x) (h2 : ¬ e2.Occurs x) :
    let l := (read σ e1).bind fun t => (place (upd σ x t) e1).bind fun p => (place (upd σ x t) e2).bind fun q => exchange (upd σ x t) p q
    let r := (place σ e1).bind fun p => (place σ e2).bind fun q => exchange σ p q
    (l = none ∧ r = none) ∨ ∃ σ' τ', l = some σ' ∧ r = some τ' ∧ AgreeBut x σ' τ' := by
  simp only
  cases ht : read σ e1 with
  | none =>
    refine .inl ⟨rfl, ?_⟩
    cases hp : place σ e1 with
    | none => rfl
    | some p =>
      cases place σ e2 with
      | none => rfl
      | some q => simp [exchange, ← read_place e1 hp, ht]
  | some t =>
    have ha := upd_agree x σ t
    simp only [Option.bind_some]
    rw [← place_agree ha e1 (indexFree_of e1 h1), ← place_agree ha e2 (indexFree_of e2 h2)]
    cases hp : place σ e1 with
    | none => exact .inl ⟨rfl, rfl⟩
    | some p =>
      cases hq : place σ e2 with
      | none => exact .inl ⟨rfl, rfl⟩
      | some q =>
        exact exchange_agree (fun y hy => (ha y hy).symm) (fun e => h1 (root_occurs e1 (e ▸ place_root e1 hp)))
          (fun e => h2 (root_occurs e2 (e ▸ place_root e2 hq)))

theorem manual_inv {ty : E → Bool} {b : Block} {s : Sugg} (h : manualSwap ty b = some s) : ∃ m x e1 e2, b.s1 = .letS m x e1 ∧ b.s2 = .assign e1 e2 ∧
    b.s3 = .assign e2 (.var x) ∧ ¬ e1.Occurs x ∧ generate ty (some (m, x, e1)) b.rest e1 e2 e2 (.var x) = some s := by
  unfold manualSwap at h
  split at h
  · next m x init l1 r1 l2 r2 hs1 hs2 hs3 =>
    split at h
    · next hc =>
      obtain ⟨rfl, ⟨rfl, hu⟩, rfl⟩ := hc
      exact ⟨m, x, _, _, hs1, hs2, hs3, fun ho => by simp [(uses_iff x _).2 ho] at hu, h⟩
    · cases h
  · cases h

theorem generate_mem {ty : E → Bool} {d : Option (Bool × Nat × E)} {rest : List Stmt} {e1 e2 r1 r2 a b : E}
    (h : generate ty d rest e1 e2 r1 r2 = some (.mem a b)) : a = e1 ∧ b = e2 := by
  unfold generate at h
  split at h
  · cases h; exact ⟨rfl, rfl⟩
  · split at h
    · split at h <;> cases h
    · cases h

/-- `mem::swap` does what the three statements do.

What is missing: indices of the second place which depend on the first one, and other uses of the temporary variable; for both it is false
(`Witness`). -/
theorem mem_partial {ty : E → Bool} {b : Block} {p q : E} (h : manualSwap ty b = some (.mem p q)) {m : Bool} {x : Nat} (hx : b.s1 = .letS m x p)
    (hi : ∀ r, p.root = some r → q.IndexFree r) (hq : ¬ q.Occurs x) (hr : ∀ s ∈ b.rest, s.Without x) (ht : ∀ e, b.tail = some e → ¬ e.Occurs x)
    (σ : Store) : SameBut x (b.before σ) (b.after (.mem p q) σ) := by
  obtain ⟨m', x', e1, e2, h1, h2, h3, ho, hg⟩ := manual_inv h
  obtain ⟨rfl, rfl⟩ := generate_mem hg
  obtain ⟨rfl, rfl⟩ : m = m' ∧ x = x' := by rw [hx] at h1; cases h1; exact ⟨rfl, rfl⟩
  unfold Block.before Block.after
  rw [h1, h2, h3, three σ m x _ _ ho (fun e => hq (root_occurs _ e)) hi]
  simp only [Sugg.run]
  rcases three_agree σ x p q ho hq with ⟨e1, e2⟩ | ⟨σ', τ', e1, e2, h'⟩
  · rw [e1, e2]; trivial
  · rw [e1, e2]; exact runRest_agree h' b.rest b.tail hr ht

/-! ### `v.swap(i, j)` -/

theorem usedIndexed_of (x : Nat) : ∀ e : E, e.Direct x → e.Occurs x → usedIndexed x e = true
  | .lit _, _, h => h.elim
  | .var y, _, h => by simp only [E.Occurs] at h; simp [usedIndexed, h]
  | .field p i, hd, h | .deref p, hd, h | .cast p, hd, h | .index p i, hd, h => absurd h hd
  | .add a b, hd, h => by
    unfold usedIndexed
    split
    · rename_i heq; cases heq; simp [E.Occurs] at h
    · rename_i a' b' _ heq
      cases heq
      rcases h with h | h
      · simp [usedIndexed_of x a hd.1 h]
      · simp [usedIndexed_of x b hd.2 h]
    · rename_i heq; cases heq
    · rename_i hne _; exact absurd rfl (hne a b)

theorem generate_slice {ty : E → Bool} {m : Bool} {x : Nat} {init : E} {rest : List Stmt} {e1 e2 r1 v i j : E} {bind : Option (Nat × E)}
    (h : generate ty (some (m, x, init)) rest e1 e2 r1 (.var x) = some (.slice bind v i j)) : e1 = .index v i ∧ e2 = .index v j ∧
    ((bind = some (x, if m then .var x else init)) ∨ (bind = none ∧ usedIndexed x j = false ∧ usedAfter x rest = false)) := by
  unfold generate at h
  split at h
  · cases h
  · split at h
    · next v' i' w' j' hn =>
      split at h
      · next hc =>
        obtain ⟨rfl, _⟩ := hc
        simp only [Option.some.injEq, Sugg.slice.injEq] at h
        obtain ⟨hb, rfl, rfl, rfl⟩ := h
        refine ⟨rfl, rfl, ?_⟩
        split at hb
        · exact .inl hb.symm
        · next hany =>
          refine .inr ⟨hb.symm, ?_⟩
          simp only [List.any_cons, bindsIn, BEq.rfl, Bool.true_and, List.any_nil, Bool.or_false, Bool.or_eq_true, not_or, Bool.not_eq_true] at hany
          exact ⟨hany.2.2.2.1.2, hany.2.2.2.2⟩
      · cases h
    · cases h

/-- `v.swap(i, j)` does what the three statements do.

What is missing: indices of the second element which depend on the slice, uses of the temporary variable which are overlooked (in indices other than
sums, in closures, in the value of the block), and `let mut`; for all of them it is false (`Witness`). -/
theorem slice_partial {ty : E → Bool} {b : Block} {bind : Option (Nat × E)} {v i j : E} (h : manualSwap ty b = some (.slice bind v i j)) {x : Nat} {init : E}
    (hx : b.s1 = .letS false x init) (hi : ∀ r, v.root = some r → v.IndexFree r ∧ ¬ j.Occurs r) (hj : j.Direct x)
    (hc : ∀ e, .out true e ∈ b.rest → ¬ e.Occurs x) (ht : ∀ e, b.tail = some e → ¬ e.Occurs x) (σ : Store) :
    SameBut x (b.before σ) (b.after (.slice bind v i j) σ) := by
  obtain ⟨m', x', e1, e2, h1, h2, h3, ho, hg⟩ := manual_inv h
  obtain ⟨rfl, rfl⟩ : false = m' ∧ x = x' := by rw [hx] at h1; cases h1; exact ⟨rfl, rfl⟩
  obtain ⟨rfl, rfl, hb⟩ := generate_slice hg
  have hov : ¬ v.Occurs x := fun e => ho (.inl e)
  have hoi : ¬ i.Occurs x := fun e => ho (.inr e)
  have hplace : ∀ (τ : Store), ((place τ v).bind fun (y, π) => ((read τ i).bind Val.toInt).bind fun m => ((read τ j).bind Val.toInt).bind fun n =>
      exchange τ (y, π ++ [m]) (y, π ++ [n])) = (place τ (.index v i)).bind fun p => (place τ (.index v j)).bind fun q => exchange τ p q := by
    intro τ
    simp only [place]
    cases place τ v with
    | none => rfl
    | some p =>
      cases read τ i with
      | none => rfl
      | some w =>
        cases hw : w.toInt with
        | none => simp [hw]
        | some m =>
          cases read τ j with
          | none => simp [hw]
          | some w' => cases hw' : w'.toInt <;> simp [hw, hw']
  unfold Block.before Block.after
  rw [h1, h2, h3, three σ false x (v.index i) (v.index j) ho (fun e => hov (root_occurs v e)) (fun r hr => hi r hr)]
  simp only [Sugg.run]
  rcases hb with rfl | ⟨rfl, hu, ha⟩
  · simp only [Bool.false_eq_true, if_false, hplace]
    cases read σ (v.index i) with
    | none => trivial
    | some t =>
      simp only [Option.bind_some, Option.map_some]
      cases (place (upd σ x t) (v.index i)).bind fun p => (place (upd σ x t) (v.index j)).bind fun q => exchange (upd σ x t) p q with
      | none => trivial
      | some τ => exact sameBut_refl x _
  · simp only [Option.bind_some, hplace]
    have hoj : ¬ j.Occurs x := fun e => by simp [usedIndexed_of x j hj e] at hu
    have hrest : ∀ s ∈ b.rest, s.Without x := by
      intro s hs
      simp only [usedAfter, List.any_eq_false] at ha
      have := ha s hs
      cases s with
      | letS m y e => exact fun e' => by simp [(uses_iff x e).2 e'] at this
      | assign l r | xor l r => exact ⟨fun e' => by simp [(uses_iff x l).2 e'] at this, fun e' => by simp [(uses_iff x r).2 e'] at this⟩
      | out c e =>
        cases c with
        | true => exact hc e hs
        | false => exact fun e' => by simp [(uses_iff x e).2 e'] at this
    have hov2 : ¬ (v.index j).Occurs x := fun e => e.elim hov hoj
    rcases three_agree σ x (v.index i) (v.index j) ho hov2 with ⟨e1, e2⟩ | ⟨σ', τ', e1, e2, h'⟩
    · rw [e1, e2]; trivial
    · rw [e1, e2]; exact runRest_agree h' b.rest b.tail hrest ht

/-! ### `a ^= b; b ^= a; a ^= b;` -/

/-- Two paths part. -/
def Diverge : List Nat → List Nat → Prop
  | i :: π, j :: ρ => i ≠ j ∨ Diverge π ρ
  | _, _ => False

theorem diverge_comm : ∀ {π ρ : List Nat}, Diverge π ρ → Diverge ρ π
  | i :: π, j :: ρ, h => h.imp (fun h => h.symm) diverge_comm
  | [], _, h | _ :: _, [], h => h.elim

theorem diverge_of_leaf : ∀ (π ρ : List Nat) {v : Val} {m n : Nat}, v.at π = some (.int m) → v.at ρ = some (.int n) → π ≠ ρ → Diverge π ρ
  | [], [], _, _, _, _, _, hne => absurd rfl hne
  | [], j :: ρ, v, m, n, h1, h2, _ => by
    simp only [Val.at, Option.some.injEq] at h1; subst h1; simp [Val.at, Val.child] at h2
  | i :: π, [], v, m, n, h1, h2, _ => by
    simp only [Val.at, Option.some.injEq] at h2; subst h2; simp [Val.at, Val.child] at h1
  | i :: π, j :: ρ, v, m, n, h1, h2, hne => by
    by_cases hij : i = j
    · subst hij
      simp only [Val.at, Option.bind_eq_some_iff] at h1 h2
      obtain ⟨w, hw, h1⟩ := h1
      obtain ⟨w', hw', h2⟩ := h2
      rw [hw] at hw'; cases hw'
      exact .inr (diverge_of_leaf π ρ h1 h2 (fun e => hne (by rw [e])))
    · exact .inl hij

theorem diverge_of_unnested : ∀ (π ρ : List Nat), (∀ κ, κ ≠ [] → π ≠ ρ ++ κ ∧ ρ ≠ π ++ κ) → π ≠ ρ → Diverge π ρ
  | [], [], _, hne => absurd rfl hne
  | [], j :: ρ, h, _ => absurd rfl ((h (j :: ρ) (by simp)).2)
  | i :: π, [], h, _ => absurd rfl ((h (i :: π) (by simp)).1)
  | i :: π, j :: ρ, h, hne => by
    by_cases hij : i = j
    · subst hij
      exact .inr (diverge_of_unnested π ρ (fun κ hκ => ⟨fun e => (h κ hκ).1 (by simp [e]), fun e => (h κ hκ).2 (by simp [e])⟩) (fun e => hne (by rw [e])))
    · exact .inl hij

theorem set_some : ∀ (π : List Nat) {v u : Val} (w : Val), v.at π = some u → ∃ v', v.set π w = some v'
  | [], v, u, w, _ => ⟨w, by cases v <;> rfl⟩
  | i :: π, .int n, u, w, h => by simp [Val.at, Val.child] at h
  | i :: π, .node vs, u, w, h => by
    simp only [Val.at, Val.child, Option.bind_eq_some_iff] at h
    obtain ⟨x, hx, h⟩ := h
    obtain ⟨x', hx'⟩ := set_some π w h
    exact ⟨_, by simp [Val.set, hx, hx']; rfl⟩

theorem set_inv {i : Nat} {π : List Nat} {v v' w : Val} (h : v.set (i :: π) w = some v') :
    ∃ vs x x', v = .node vs ∧ vs[i]? = some x ∧ x.set π w = some x' ∧ v' = .node (vs.set i x') := by
  cases v with
  | int n => simp [Val.set] at h
  | node vs =>
    simp only [Val.set, Option.bind_eq_some_iff, Option.map_eq_some_iff] at h
    obtain ⟨x, hx, x', hx', rfl⟩ := h
    exact ⟨vs, x, x', rfl, hx, hx', rfl⟩

theorem set_nil (v w : Val) : v.set [] w = some w := by cases v <;> rfl

theorem at_set_same : ∀ (π : List Nat) {v v' w : Val}, v.set π w = some v' → v'.at π = some w
  | [], v, v', w, h => by rw [set_nil] at h; cases h; rfl
  | i :: π, v, v', w, h => by
    obtain ⟨vs, x, x', rfl, hx, hx', rfl⟩ := set_inv h
    have hi : i < vs.length := (List.getElem?_eq_some_iff.1 hx).1
    simp [Val.at, Val.child, hi, at_set_same π hx']

theorem at_set_div : ∀ (π ρ : List Nat) {v v' w : Val}, Diverge π ρ → v.set π w = some v' → v'.at ρ = v.at ρ
  | [], _, _, _, _, h, _ => h.elim
  | _ :: _, [], _, _, _, h, _ => h.elim
  | i :: π, j :: ρ, v, v', w, hd, h => by
    obtain ⟨vs, x, x', rfl, hx, hx', rfl⟩ := set_inv h
    have hi : i < vs.length := (List.getElem?_eq_some_iff.1 hx).1
    by_cases hij : i = j
    · subst hij
      have := at_set_div π ρ (hd.resolve_left (fun h => h rfl)) hx'
      simp only [Val.at, Val.child, List.getElem?_set_self hi, hx, Option.bind_some, this]
    · simp [Val.at, Val.child, List.getElem?_set_ne hij]

theorem set_set : ∀ (π : List Nat) {v v' w : Val} (u : Val), v.set π w = some v' → v'.set π u = v.set π u
  | [], v, v', w, u, h => by rw [set_nil, set_nil]
  | i :: π, v, v', w, u, h => by
    obtain ⟨vs, x, x', rfl, hx, hx', rfl⟩ := set_inv h
    have hi : i < vs.length := (List.getElem?_eq_some_iff.1 hx).1
    simp only [Val.set, List.getElem?_set_self hi, hx, Option.bind_some, set_set π u hx', List.set_set]

theorem set_comm : ∀ (π ρ : List Nat) {v va vb : Val} {a b : Val}, Diverge π ρ → v.set π a = some va → v.set ρ b = some vb → va.set ρ b = vb.set π a
  | [], _, _, _, _, _, _, h, _, _ => h.elim
  | _ :: _, [], _, _, _, _, _, h, _, _ => h.elim
  | i :: π, j :: ρ, v, va, vb, a, b, hd, h1, h2 => by
    obtain ⟨vs, x, x', rfl, hx, hx', rfl⟩ := set_inv h1
    obtain ⟨vs', y, y', heq, hy, hy', rfl⟩ := set_inv h2
    cases heq
    have hi : i < vs.length := (List.getElem?_eq_some_iff.1 hx).1
    have hj : j < vs.length := (List.getElem?_eq_some_iff.1 hy).1
    by_cases hij : i = j
    · subst hij
      rw [hx] at hy; cases hy
      have := set_comm π ρ (hd.resolve_left (fun h => h rfl)) hx' hy'
      simp only [Val.set, List.getElem?_set_self hi, Option.bind_some, this, List.set_set]
    · simp only [Val.set, List.getElem?_set_ne hij, List.getElem?_set_ne (Ne.symm hij), hx, hy, Option.bind_some, hx', hy', Option.map_some,
        List.set_comm _ _ hij]

/-- Setting what is there already. -/
theorem set_at : ∀ (π : List Nat) {v w : Val}, v.at π = some w → v.set π w = some v
  | [], v, w, h => by rw [set_nil]; simpa [Val.at] using h.symm
  | i :: π, .int n, w, h => by simp [Val.at, Val.child] at h
  | i :: π, .node vs, w, h => by
    simp only [Val.at, Val.child, Option.bind_eq_some_iff] at h
    obtain ⟨x, hx, h⟩ := h
    have hi := List.getElem?_eq_some_iff.1 hx
    simp only [Val.set, hx, Option.bind_some, set_at π h, Option.map_some]
    congr 2
    obtain ⟨hi, rfl⟩ := hi
    exact List.set_getElem_self hi

/-- Two places part. -/
def Parted (p q : Nat × List Nat) : Prop := p.1 = q.1 → Diverge p.2 q.2

theorem setPlace_inv {σ σ' : Store} {p : Nat × List Nat} {v : Val} (h : setPlace σ p v = some σ') :
    ∃ w, (σ p.1).set p.2 v = some w ∧ σ' = upd σ p.1 w := by
  simp only [setPlace, Option.map_eq_some_iff] at h
  obtain ⟨w, hw, rfl⟩ := h
  exact ⟨w, hw, rfl⟩

theorem get_set_same {σ σ' : Store} {p : Nat × List Nat} {v : Val} (h : setPlace σ p v = some σ') : getPlace σ' p = some v := by
  obtain ⟨w, hw, rfl⟩ := setPlace_inv h
  simp only [getPlace, upd, if_pos]
  exact at_set_same _ hw

theorem get_set_div {σ σ' : Store} {p q : Nat × List Nat} {v : Val} (hd : Parted p q) (h : setPlace σ p v = some σ') : getPlace σ' q = getPlace σ q := by
  obtain ⟨w, hw, rfl⟩ := setPlace_inv h
  simp only [getPlace, upd]
  split
  · next he => rw [he]; exact at_set_div _ _ (hd he.symm) hw
  · rfl

theorem place_set_some {σ : Store} {p : Nat × List Nat} {u : Val} (v : Val) (h : getPlace σ p = some u) : ∃ σ', setPlace σ p v = some σ' := by
  obtain ⟨w, hw⟩ := set_some p.2 v h
  exact ⟨_, by simp [setPlace, hw]; rfl⟩

theorem set_set_place {σ σ' : Store} {p : Nat × List Nat} {v : Val} (u : Val) (h : setPlace σ p v = some σ') : setPlace σ' p u = setPlace σ p u := by
  obtain ⟨w, hw, rfl⟩ := setPlace_inv h
  have e1 : upd σ p.1 w p.1 = w := by simp [upd]
  simp only [setPlace, e1, set_set _ u hw]
  cases (σ p.1).set p.2 u with
  | none => rfl
  | some z =>
    simp only [Option.map_some, Option.some.injEq]
    funext y
    simp only [upd]
    split <;> rfl

theorem set_comm_place {σ σp σq : Store} {p q : Nat × List Nat} {v u : Val} (hd : Parted p q) (h1 : setPlace σ p v = some σp) (h2 : setPlace σ q u = some σq) :
    setPlace σp q u = setPlace σq p v := by
  obtain ⟨w, hw, rfl⟩ := setPlace_inv h1
  obtain ⟨w', hw', rfl⟩ := setPlace_inv h2
  by_cases he : p.1 = q.1
  · have := set_comm p.2 q.2 (hd he) hw (he ▸ hw')
    have e1 : upd σ p.1 w q.1 = w := by simp [upd, he]
    have e2 : upd σ q.1 w' p.1 = w' := by simp [upd, he]
    simp only [setPlace, e1, e2, this]
    cases w'.set p.2 v with
    | none => rfl
    | some z =>
      simp only [Option.map_some, Option.some.injEq]
      funext y
      simp only [upd, he]
      split <;> rfl
  · have e1 : upd σ p.1 w q.1 = σ q.1 := by simp [upd, Ne.symm he]
    have e2 : upd σ q.1 w' p.1 = σ p.1 := by simp [upd, he]
    simp only [setPlace, e1, e2, hw, hw', Option.map_some, Option.some.injEq]
    funext y
    by_cases hy : y = p.1
    · subst hy; simp [upd, he]
    · simp [upd, hy]

theorem xor_run (σ : Store) (e1 e2 : E) (hd : place σ e1 ≠ place σ e2)
    (hi : ∀ r, e1.root = some r ∨ e2.root = some r → e1.IndexFree r ∧ e2.IndexFree r)
    (ht : ∀ v, read σ e1 = some v ∨ read σ e2 = some v → ∃ n, v = .int n) :
    run σ [.xor e1 e2, .xor e2 e1, .xor e1 e2] = ((place σ e1).bind fun p => (place σ e2).bind fun q => exchange σ p q).map (·, []) := by
  have hnone : ∀ (τ : Store) (l r : E), read τ l = none ∨ read τ r = none ∨ place τ l = none → exec τ (.xor l r) = none := by
    intro τ l r h
    simp only [exec, write]
    rcases h with h | h | h
    · rw [h]; cases read τ r <;> rfl
    · rw [h]; rfl
    · rw [h]
      simp
  cases hp : place σ e1 with
  | none => simp [run, hnone σ e1 e2 (.inr (.inr hp))]
  | some p =>
  simp only [Option.bind_some]
  cases hvp : getPlace σ p with
  | none =>
    rw [run, hnone σ e1 e2 (.inl (by rw [read_place e1 hp, hvp]))]
    cases place σ e2 <;> simp [exchange, hvp]
  | some vp =>
  obtain ⟨a, rfl⟩ := ht vp (.inl (by rw [read_place e1 hp, hvp]))
  cases hrq : read σ e2 with
  | none =>
    rw [run, hnone σ e1 e2 (.inr (.inl hrq))]
    cases hq : place σ e2 with
    | none => rfl
    | some q => simp [exchange, ← read_place e2 hq, hrq]
  | some vq =>
  obtain ⟨b, rfl⟩ := ht vq (.inr hrq)
  have hr1 := place_root e1 hp
  have key : ∀ (τ : Store) (r : Nat) (w : Val), (e1.root = some r ∨ e2.root = some r) →
      place (upd τ r w) e1 = place τ e1 ∧ place (upd τ r w) e2 = place τ e2 := fun τ r w hr =>
    ⟨(place_agree (upd_agree r τ w) e1 (hi r hr).1).symm, (place_agree (upd_agree r τ w) e2 (hi r hr).2).symm⟩
  obtain ⟨σ1, h1⟩ := place_set_some (.int (a ^^^ b)) hvp
  have hex1 : exec σ (.xor e1 e2) = some (σ1, []) := by
    simp [exec, hrq, read_place e1 hp, hvp, Val.toInt, write, hp, h1]
  have hpl1 : place σ1 e1 = some p ∧ place σ1 e2 = place σ e2 := by
    obtain ⟨w, _, rfl⟩ := setPlace_inv h1
    rw [(key σ p.1 w (.inl hr1)).1, (key σ p.1 w (.inl hr1)).2]; exact ⟨hp, rfl⟩
  cases hq : place σ e2 with
  | none =>
    simp only [run, hex1, Option.bind_some]
    rw [hnone σ1 e2 e1 (.inr (.inr (by rw [hpl1.2, hq])))]
    rfl
  | some q =>
  have hvq : getPlace σ q = some (.int b) := by rw [← read_place e2 hq, hrq]
  have hparted : Parted p q := by
    intro he
    have h2 : (σ p.1).at q.2 = some (.int b) := by rw [he]; exact hvq
    refine diverge_of_leaf p.2 q.2 hvp h2 (fun e => hd ?_)
    rw [hp, hq, Prod.ext_iff.2 ⟨he, e⟩]
  have hparted' : Parted q p := fun he => diverge_comm (hparted he.symm)
  have hq1 : place σ1 e2 = some q := by rw [hpl1.2, hq]
  have hg1p : getPlace σ1 p = some (.int (a ^^^ b)) := get_set_same h1
  have hg1q : getPlace σ1 q = some (.int b) := by rw [get_set_div hparted h1, hvq]
  have hba : b ^^^ (a ^^^ b) = a := by rw [Nat.xor_comm a b, ← Nat.xor_assoc, Nat.xor_self, Nat.zero_xor]
  obtain ⟨σ2, h2⟩ := place_set_some (.int a) hg1q
  have hex2 : exec σ1 (.xor e2 e1) = some (σ2, []) := by
    simp [exec, read_place e1 hpl1.1, read_place e2 hq1, hg1p, hg1q, Val.toInt, write, hq1, hba, h2]
  have hpl2 : place σ2 e1 = some p ∧ place σ2 e2 = some q := by
    obtain ⟨w, _, rfl⟩ := setPlace_inv h2
    rw [(key σ1 q.1 w (.inr (place_root e2 hq))).1, (key σ1 q.1 w (.inr (place_root e2 hq))).2]; exact ⟨hpl1.1, hq1⟩
  have hg2q : getPlace σ2 q = some (.int a) := get_set_same h2
  have hg2p : getPlace σ2 p = some (.int (a ^^^ b)) := by rw [get_set_div hparted' h2, hg1p]
  have hab : (a ^^^ b) ^^^ a = b := by rw [Nat.xor_comm a b, Nat.xor_assoc, Nat.xor_self, Nat.xor_zero]
  obtain ⟨σ3, h3⟩ := place_set_some (.int b) hg2p
  have hex3 : exec σ2 (.xor e1 e2) = some (σ3, []) := by
    simp [exec, read_place e1 hpl2.1, read_place e2 hpl2.2, hg2p, hg2q, Val.toInt, write, hpl2.1, hab, h3]
  obtain ⟨τ1, ht1⟩ := place_set_some (.int b) hvp
  have ht1' : setPlace σ1 p (.int b) = some τ1 := by rw [set_set_place _ h1, ht1]
  have hfin : setPlace τ1 q (.int a) = some σ3 := by rw [set_comm_place hparted ht1' h2, h3]
  simp [run, hex1, hex2, hex3, exchange, hvp, hvq, ht1, hfin]

theorem xor_inv {ty : E → Bool} {b : Block} {s : Sugg} (h : xorSwap ty b = some s) : ∃ e1 e2, b.s1 = .xor e1 e2 ∧ b.s2 = .xor e2 e1 ∧ b.s3 = .xor e1 e2 ∧
    generate ty none b.rest e1 e2 e1 e2 = some s := by
  unfold xorSwap at h
  split at h
  · next l0 r0 l1 r1 l2 r2 hs1 hs2 hs3 =>
    split at h
    · next hc =>
      obtain ⟨rfl, rfl, rfl, rfl⟩ := hc
      exact ⟨_, _, hs1, hs2, hs3, h⟩
    · cases h
  · cases h

theorem generate_none {ty : E → Bool} {rest : List Stmt} {e1 e2 r1 r2 : E} {s : Sugg} (h : generate ty none rest e1 e2 r1 r2 = some s) (σ : Store) :
    s.run σ = (place σ e1).bind fun p => (place σ e2).bind fun q => exchange σ p q := by
  unfold generate at h
  split at h
  · cases h; rfl
  · split at h
    · next v i w j hn =>
      split at h
      · next hc =>
        obtain ⟨rfl, _⟩ := hc
        cases h
        simp only [Sugg.run, place, Option.bind_some]
        cases place σ v with
        | none => rfl
        | some p =>
          cases read σ i with
          | none => rfl
          | some w =>
            cases hw : w.toInt with
            | none => simp [hw]
            | some m =>
              cases read σ j with
              | none => simp [hw]
              | some w' => cases hw' : w'.toInt <;> simp [hw, hw']
      · cases h
    · cases h

/-- The suggestion does what the three statements do, if the places aren't the same.

What is missing: the same place twice, as in `v[i] ^= v[j]; …` for `i = j`, and indices which depend on the places; for both it is false
(`Witness`). -/
theorem xor_partial {ty : E → Bool} {b : Block} {s : Sugg} (h : xorSwap ty b = some s) {e1 e2 : E} (hx : b.s1 = .xor e1 e2) (σ : Store)
    (hd : place σ e1 ≠ place σ e2) (hi : ∀ r, e1.root = some r ∨ e2.root = some r → e1.IndexFree r ∧ e2.IndexFree r)
    (ht : ∀ v, read σ e1 = some v ∨ read σ e2 = some v → ∃ n, v = .int n) : b.before σ = b.after s σ := by
  obtain ⟨a, c, h1, h2, h3, hg⟩ := xor_inv h
  rw [hx] at h1
  cases h1
  unfold Block.before Block.after
  rw [hx, h2, h3, xor_run σ e1 e2 hd hi ht, generate_none hg σ]
  cases (place σ e1).bind fun p => (place σ e2).bind fun q => exchange σ p q <;> rfl

/-! ### `a = b; b = a;` -/

theorem let_assign (σ : Store) (m : Bool) (x : Nat) (e : E) : exec σ (.letS m x e) = exec σ (.assign (.var x) e) := by
  simp only [exec, write, place, setPlace, Option.bind_some, set_nil, Option.map_some]
  cases read σ e <;> rfl

theorem almost_inv {s t : Stmt} (h : almostSwapped s t = true) : ∃ e1 e2, e1 ≠ e2 ∧ ∀ σ, exec σ s = exec σ (.assign e1 e2) ∧ exec σ t = exec σ (.assign e2 e1) := by
  unfold almostSwapped at h
  split at h
  · next l0 r0 l1 r1 hs ht =>
    have hp : ∀ (s : Stmt) (l : Nat ⊕ E) (r : E), parse s = some (l, r) →
        ∀ σ, exec σ s = exec σ (.assign (match l with | .inl x => .var x | .inr e => e) r) := by
      intro s l r hs σ
      cases s <;> simp only [parse, Option.some.injEq, Prod.mk.injEq] at hs
      · obtain ⟨rfl, rfl⟩ := hs; exact let_assign σ _ _ _
      · obtain ⟨rfl, rfl⟩ := hs; rfl
      · cases hs
      · cases hs
    have hsame : ∀ (sh : List Nat) (l : Nat ⊕ E) (r : E), isSame sh l r = true → r = (match l with | .inl x => .var x | .inr e => e) := by
      intro sh l r h
      cases l with
      | inl x => simpa [isSame] using h
      | inr e => simp only [isSame, Bool.and_eq_true, beq_iff_eq] at h; exact h.1.symm
    simp only [Bool.and_eq_true, Bool.not_eq_true'] at h
    obtain ⟨⟨h1, h2⟩, h3⟩ := h
    refine ⟨_, _, ?_, fun σ => ⟨hp s l0 r0 hs σ, ?_⟩⟩
    · intro he
      rw [hsame _ _ _ h2, ← hsame _ _ _ h1] at he
      cases l1 with
      | inl x => simp [isSame, he] at h3
      | inr e => simp [isSame, he] at h3
    · rw [hp t l1 r1 ht σ, hsame _ _ _ h1, hsame _ _ _ h2]
  · cases h

/-- Two statements which are reported as almost a swap don't swap: the second one has no effect.

What is missing: places whose indices depend on the first one, for which it is false (`Witness.almost_dependent`). -/
theorem almost_partial {s t : Stmt} (h : almostSwapped s t = true) : ∃ e1 e2, (∀ σ, exec σ s = exec σ (.assign e1 e2)) ∧
    ((∀ r, e1.root = some r → e1.IndexFree r ∧ e2.IndexFree r) →
      ∀ (σ σ' : Store) (o : List Val) (p q : Nat × List Nat), place σ e1 = some p → place σ e2 = some q → Unnested p q →
        exec σ s = some (σ', o) → exec σ' t = some (σ', [])) := by
  obtain ⟨e1, e2, _, he⟩ := almost_inv h
  refine ⟨e1, e2, fun σ => (he σ).1, fun hi σ σ' o p q hp hq hu hx => ?_⟩
  rw [(he σ).1] at hx
  rw [(he σ').2]
  simp only [exec, read_place e2 hq, Option.bind_eq_some_iff, Option.map_eq_some_iff, write, hp, Option.some.injEq, exists_eq_left', Prod.mk.injEq] at hx
  obtain ⟨v, hv, σ1, hσ, rfl, rfl⟩ := hx
  have hr := hi p.1 (place_root e1 hp)
  have hpl : place σ1 e1 = some p ∧ place σ1 e2 = some q := by
    obtain ⟨w, _, rfl⟩ := setPlace_inv hσ
    exact ⟨by rw [← place_agree (upd_agree p.1 σ w) e1 hr.1, hp], by rw [← place_agree (upd_agree p.1 σ w) e2 hr.2, hq]⟩
  have hgq : getPlace σ1 q = some v := by
    by_cases hpq : p = q
    · rw [← hpq]; exact get_set_same hσ
    · rw [get_set_div (fun e => diverge_of_unnested p.2 q.2 (hu e) (fun e' => hpq (Prod.ext e e'))) hσ, hv]
  have hset : setPlace σ1 q v = some σ1 := by
    simp only [setPlace, set_at q.2 hgq, Option.map_some, Option.some.injEq]
    funext y
    simp only [upd]
    split
    · next e => rw [e]
    · rfl
  simp [exec, read_place e1 hpl.1, get_set_same hσ, write, hpl.2, hset]

/-! ### Borrowing -/

theorem plain_root : ∀ e : E, e.Plain → ∃ x, e.root = some x ∧ (projStack e).2 = .var x
  | .var x, _ => ⟨x, rfl, rfl⟩
  | .field p _, h | .index p _, h => plain_root p h
  | .lit _, h | .deref _, h | .add _ _, h | .cast _, h => h.elim

def Proj.step : Proj → Step
  | .field i => .field i
  | .index _ => .any

theorem plain_steps : ∀ e : E, e.Plain → e.steps = (projStack e).1.map Proj.step
  | .var x, _ => rfl
  | .field p i, h => by simp [E.steps, projStack, plain_steps p h, Proj.step]
  | .index p i, h => by simp [E.steps, projStack, plain_steps p h, Proj.step]
  | .lit _, h | .deref _, h | .add _ _, h | .cast _, h => h.elim

theorem apartProj_of : ∀ (s t : List Proj), apartProj s t = true → ∃ π i j s' t', s.map Proj.step = π ++ .field i :: s' ∧
    t.map Proj.step = π ++ .field j :: t' ∧ (∀ k ∈ π, k ≠ Step.any) ∧ i ≠ j
  | .field i :: s, .field j :: t, h => by
    by_cases hij : i = j
    · subst hij
      simp only [apartProj, bne_self_eq_false, Bool.false_or] at h
      obtain ⟨π, i', j', s', t', e1, e2, hk, hne⟩ := apartProj_of s t h
      refine ⟨.field i :: π, i', j', s', t', by simp [Proj.step, e1], by simp [Proj.step, e2], ?_, hne⟩
      intro k hk'
      simp only [List.mem_cons] at hk'
      rcases hk' with rfl | hk'
      · simp
      · exact hk k hk'
    · exact ⟨[], i, j, _, _, rfl, rfl, by simp, hij⟩
  | [], _, h => by simp [apartProj] at h
  | .index _ :: _, _, h => by simp [apartProj] at h
  | .field _ :: _, [], h => by simp [apartProj] at h
  | .field _ :: _, .index _ :: _, h => by simp [apartProj] at h

/-- Places that are given to `mem::swap` can be borrowed at the same time.

What is missing: explicit dereferences, for which it is false (`Witness.deref_same`). -/
theorem borrow_partial {a b : E} (h : canBorrow a b = true) (ha : a.Plain) (hb : b.Plain) : Apart a b := by
  obtain ⟨x, hx, hx'⟩ := plain_root a ha
  obtain ⟨y, hy, hy'⟩ := plain_root b hb
  simp only [canBorrow, hx', hy', Bool.or_eq_true, decide_eq_true_eq] at h
  rcases h with h | h
  · exact .inl (by rw [hx, hy]; intro e; exact h (by cases e; rfl))
  · right
    rw [plain_steps a ha, plain_steps b hb]
    exact apartProj_of _ _ h

end Verif.Swap
