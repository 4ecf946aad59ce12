import Verif.RangeLoop.Sim
import Verif.RangeLoop.Scan

/-!
# Properties: `needless_range_loop`
-/

namespace Verif.RangeLoop

/-- What is known if there is a suggestion. -/
theorem check_some {arr : Option Nat} {l : Loop} {s : Sugg} (h : check arr l = some s) :
    ∃ x sk tk, base s.seq = some x ∧ x ≠ l.i ∧ x ∉ binds l.body ∧
      (scan l.i false l.body).Only x s.seq ∧ x ∉ (scan l.i false l.body).referenced ∧
      s.enumerate = (scan l.i false l.body).nonindex ∧
      (s.mutbl = false → x ∉ (scan l.i false l.body).indexedMut) ∧
      skipOf s.mutbl x l = some sk ∧ takeOf s.mutbl x arr l = some tk ∧
      s.adapters = if (split l.start l.stop).isSome then sk ++ tk else tk ++ sk := by
  unfold check at h
  simp only at h
  split at h
  · exact nomatch h
  · rename_i h1
    split at h
    · exact nomatch h
    · rename_i x e ps hd
      split at h
      · exact nomatch h
      · rename_i h2
        split at h
        · exact nomatch h
        · rename_i h3
          split at h
          · exact nomatch h
          · rename_i h4
            split at h
            · rename_i sk tk hsk htk
              cases h
              have ho : (scan l.i false l.body).Only x e := by
                refine ⟨by simpa using h1, ?_⟩
                rw [hd]
                intro p hp
                rcases List.mem_cons.1 hp with rfl | hp
                · rfl
                · have := fun hc => h2 (List.any_eq_true.2 ⟨p, hp, hc⟩)
                  simpa using this
              refine ⟨x, sk, tk, ?_, ?_, ?_, ho, ?_, rfl, ?_, hsk, htk, rfl⟩
              · exact direct_base l.i l.body false (x, e) (by rw [hd]; exact List.mem_cons_self)
              · intro hx
                exact h3 (by simp [hx])
              · intro hx
                rw [← declared_binds] at hx
                exact h3 (by simp [hx])
              · intro hx
                exact h4 (by simp [hx])
              · intro hm hx
                simp [hx] at hm
            · exact nomatch h
where
  direct_base (i : Var) : ∀ (e : Expr) (pm : Bool) (p : Var × Expr), p ∈ (scan i pm e).direct →
      base p.2 = some p.1
    | .lit _, _, _, h => nomatch h
    | .brk, _, _, h => nomatch h
    | .item, _, _, h => nomatch h
    | .path y, _, p, h => by
      simp only [scan] at h
      split at h <;> exact nomatch h
    | .field e _, pm, p, h => direct_base i e pm p h
    | .one .addr e, pm, p, h => direct_base i e pm p h
    | .one .addrMut e, _, p, h => direct_base i e true p h
    | .one .callMut e, _, p, h => direct_base i e true p h
    | .one .refMut e, pm, p, h => direct_base i e pm p h
    | .one (.bind _) e, pm, p, h => direct_base i e pm p h
    | .one .loop e, pm, p, h => direct_base i e pm p h
    | .two .set a b, _, p, h => by
      rcases List.mem_append.1 h with h | h
      · exact direct_base i b true p h
      · exact direct_base i a false p h
    | .two .seq a b, pm, p, h => by
      rcases List.mem_append.1 h with h | h
      · exact direct_base i a pm p h
      · exact direct_base i b pm p h
    | .two .lazily a b, pm, p, h => by
      rcases List.mem_append.1 h with h | h
      · exact direct_base i a pm p h
      · exact direct_base i b pm p h
    | .index e j, pm, p, h => by
      simp only [scan] at h
      split at h
      · rename_i f hf
        unfold checkIndex at hf
        split at hf
        · exact nomatch hf
        · split at hf
          · rename_i y hy
            cases hf
            simp only at h
            split at h
            · rw [List.mem_singleton.1 h]; exact hy
            · exact nomatch h
          · exact nomatch hf
      · rcases List.mem_append.1 h with h | h
        · exact direct_base i e pm p h
        · exact direct_base i j pm p h

/-! ### The borrow, the index and the mutability -/

/-- The body of the new loop does not mention the container, which is borrowed all the time.  Missing: the
container in operands of indices, see `operand_borrow`. -/
theorem apart_partial {arr : Option Nat} {l : Loop} {s : Sugg} {x : Var} (h : check arr l = some s)
    (hx : root s.seq = some x) (hop : x ∉ indexVars l.body) : x ∉ vars (subst s.seq l.i l.body) := by
  obtain ⟨y, sk, tk, h1, h2, _, h4, h5, _⟩ := check_some h
  have := base_root _ _ h1
  rw [hx] at this
  cases this
  exact scan_gone l.i x s.seq h2 l.body false h4 h5 hop

/-- If the new loop has no index, its body does not need one. -/
theorem index_unused {arr : Option Nat} {l : Loop} {s : Sugg} (h : check arr l = some s)
    (he : s.enumerate = false) : l.i ∉ vars (subst s.seq l.i l.body) := by
  obtain ⟨y, sk, tk, _, _, _, h4, _, h6, _⟩ := check_some h
  exact scan_unused l.i y s.seq l.body false h4 (h6 ▸ he)

/-- If the new loop uses `iter` and not `iter_mut`, its body does not change the elements.  Missing:
patterns with `ref mut`, see `ref_mut_missed`. -/
theorem mutable_partial {arr : Option Nat} {l : Loop} {s : Sugg} (h : check arr l = some s)
    (hn : noItem l.body = true) (hm : s.mutbl = false) (hr : noRefMut l.body = true) :
    mutItem (subst s.seq l.i l.body) = false := by
  obtain ⟨y, sk, tk, h1, _, _, h4, _, _, h7, _⟩ := check_some h
  exact scan_mutItem l.i y s.seq h1 l.body false hn hr h4 (h7 hm)

theorem names_vars : ∀ (n : Num), n.names = n.vars
  | .lit _ => rfl
  | .var _ => rfl
  | .len _ => rfl
  | .add a b => by simp [Num.names, Num.vars, names_vars a, names_vars b]

/-- With `iter_mut` the arguments of `skip` and `take` do not mention the container. -/
theorem bounds_apart {arr : Option Nat} {l : Loop} {s : Sugg} {x : Var} (h : check arr l = some s)
    (hm : s.mutbl = true) (hx : root s.seq = some x) : ∀ a ∈ s.adapters, x ∉ a.vars := by
  obtain ⟨y, sk, tk, h1, _, _, _, _, _, _, h8, h9, h10⟩ := check_some h
  have := base_root _ _ h1
  rw [hx] at this
  cases this
  rw [hm] at h8 h9
  have hsk : ∀ a ∈ sk, x ∉ a.vars := by
    unfold skipOf at h8
    split at h8
    · cases h8; exact fun _ h => nomatch h
    · split at h8
      · exact nomatch h8
      · rename_i hc
        cases h8
        intro a ha
        rw [List.mem_singleton.1 ha]
        show x ∉ l.start.vars
        rw [← names_vars]
        simpa using hc
  have htk : ∀ a ∈ tk, x ∉ a.vars := by
    unfold takeOf at h9
    split at h9
    · cases h9; exact fun _ h => nomatch h
    · split at h9
      · exact nomatch h9
      · rename_i hc
        cases h9
        intro a ha
        rw [List.mem_singleton.1 ha]
        have : x ∉ ((split l.start l.stop).getD l.stop).vars := by
          rw [← names_vars]
          simpa using hc
        split <;> exact this
  rw [h10]
  intro a ha
  split at ha
  · rcases List.mem_append.1 ha with ha | ha
    · exact hsk a ha
    · exact htk a ha
  · rcases List.mem_append.1 ha with ha | ha
    · exact htk a ha
    · exact hsk a ha

/-- `for i in 1..a.len() - …` with a change of `a[i]`: no suggestion if the bound mentions `a`. -/
example : check none ⟨1, .add (.len 0) (.lit 1), .lit 3, false, .one .callMut (.index (.path 0) (.path 1))⟩ = none ∧
    check none ⟨1, .lit 0, .add (.len 0) (.lit 1), false, .one .callMut (.index (.path 0) (.path 1))⟩ = none ∧
    check none ⟨1, .var 2, .add (.var 2) (.var 3), true, .one .callMut (.index (.path 0) (.path 1))⟩ =
      some ⟨.path 0, false, true, [.skip (.var 2), .takeSucc (.var 3)]⟩ := by decide +kernel

/-! ### The numbers -/

theorem split_val {a b c : Num} (h : split a b = some c) (σ : St) : b.val σ = a.val σ + c.val σ := by
  unfold split at h
  split at h
  · split at h
    · rename_i e
      cases h
      rw [e]
      rfl
    · split at h
      · rename_i e
        cases h
        rw [e]
        exact Nat.add_comm _ _
      · exact nomatch h
  · exact nomatch h

theorem split_toEnd {x : Var} {arr : Option Nat} {l : Loop} {c : Num} (h : split l.start l.stop = some c) :
    toEnd x arr l = false := by
  unfold split at h
  split at h
  · rename_i a b e
    simp [toEnd, e]
  · exact nomatch h

theorem skip_val {m : Bool} {x : Var} {l : Loop} {sk : List Adapter} (h : skipOf m x l = some sk) (σ : St)
    (ns : List Nat) : sk.foldl (Adapter.app σ) ns = ns.drop (l.start.val σ) := by
  unfold skipOf at h
  split at h
  · rename_i e
    cases h
    simp [e, Num.val]
  · split at h
    · exact nomatch h
    · cases h
      rfl

theorem take_val {m : Bool} {x : Var} {arr : Option Nat} {l : Loop} {tk : List Adapter}
    (h : takeOf m x arr l = some tk) (ht : toEnd x arr l = false) (σ : St) (ns : List Nat) :
    tk.foldl (Adapter.app σ) ns =
      ns.take (((split l.start l.stop).getD l.stop).val σ + if l.closed then 1 else 0) := by
  unfold takeOf at h
  rw [if_neg (by simp [ht])] at h
  split at h
  · exact nomatch h
  · cases h
    cases hc : l.closed <;> simp [Adapter.app]

theorem bound_eq (l : Loop) (σ : St) : l.bound σ = l.stop.val σ + if l.closed then 1 else 0 := by
  unfold Loop.bound
  split <;> simp

/-- The new loop goes over the same numbers. -/
theorem numbers_same {arr : Option Nat} {l : Loop} {s : Sugg} (h : check arr l = some s) (σ : St) (n : Nat)
    (hb : l.bound σ ≤ n) (harr : ∀ m, arr = some m → n = m)
    (hlen : ∀ x, l.stop = .len x → root s.seq = some x → σ.len (x, []) = n) :
    s.adapters.foldl (Adapter.app σ) (List.range n) = upTo (l.start.val σ) (l.bound σ) := by
  obtain ⟨x, sk, tk, h1, _, _, _, _, _, _, h8, h9, h10⟩ := check_some h
  rw [h10]
  cases hs : split l.start l.stop with
  | some c =>
    rw [if_pos (by rfl), List.foldl_append, skip_val h8, take_val h9 (split_toEnd hs), hs]
    have hv := split_val hs σ
    have hbe := bound_eq l σ
    simp only [Option.getD_some, upTo]
    rw [List.take_drop, List.take_range]
    congr 2
    omega
  | none =>
    rw [if_neg (by simp), List.foldl_append, skip_val h8]
    simp only [upTo]
    congr 1
    have hbe := bound_eq l σ
    cases ht : toEnd x arr l with
    | false =>
      rw [take_val h9 ht, hs, List.take_range]
      simp only [Option.getD_none]
      congr 1
      omega
    | true =>
      have : tk = [] := by
        unfold takeOf at h9
        rw [if_pos ht] at h9
        cases h9; rfl
      subst this
      simp only [List.foldl_nil]
      congr 1
      unfold toEnd at ht
      cases hst : l.stop with
      | len y =>
        simp only [hst, Bool.or_false, beq_iff_eq] at ht
        subst ht
        have := hlen y hst (base_root _ _ h1)
        rw [hst] at hbe
        simp only [Num.val] at hbe
        omega
      | lit m =>
        cases arr with
        | none => simp [hst] at ht
        | some k =>
          have := harr k rfl
          rw [hst] at hbe
          simp only [Num.val] at hbe
          cases hc : l.closed <;> simp [hst, hc] at ht hbe <;> omega
      | var y => simp [hst] at ht
      | add a b => simp [hst] at ht

/-! ### The loop -/

/-- The loop does the same, round for round. -/
theorem runFor_same (k : Nat) (c : Nat → Ctx) (seq body : Expr) (a i : Var) (ks : List Key) (σ₀ : St)
    (hc : ∀ n, c n = ⟨seq, a, i, ks, n, σ₀⟩) (hb : ∀ n, (c n).Body body) (hi : i ∉ indexVars seq) :
    ∀ (ns : List Nat), (∀ n ∈ ns, (c n).Ok) → ∀ σ τ, (c 0).Keep σ →
    runFor (fun n υ => eval k (0, []) body (υ.write (i, []) n)) ns σ = some τ →
    runFor (fun n υ => eval k (a, ks ++ [.idx n]) (subst seq i body) (υ.write (i, []) n)) ns σ = some τ
  | [], _, σ, τ, _, h => h
  | n :: ns, hok, σ, τ, hk, h => by
    have okn := hok n List.mem_cons_self
    have cn := hc n
    have hg : (c n).Good (σ.write (i, []) n) := by
      rw [hc 0] at hk
      have hia : i ≠ a := by have := okn.ia; rw [cn] at this; exact this
      rw [cn]
      refine ⟨⟨?_, ?_⟩, ?_⟩
      · intro y hy ks'
        have hne : ¬ (y = i ∧ ([] : List Key).isPrefixOf ks' = true) := fun hx => hi (hx.1 ▸ hy)
        simp only [St.write]
        rw [if_neg hne, if_neg hne]
        exact hk.ops y hy ks'
      · intro ks' hks
        have hne : ¬ (a = i ∧ ([] : List Key).isPrefixOf ks' = true) := fun hx => hia hx.1.symm
        simp only [St.write]
        rw [if_neg hne]
        exact hk.lens ks' hks
      · simp [St.write]
    have back : ∀ υ, (c n).Good υ → (c 0).Keep υ := by
      intro υ hυ
      rw [cn] at hυ
      rw [hc 0]
      exact ⟨hυ.ops, hυ.lens⟩
    simp only [runFor] at h ⊢
    split at h
    · exact nomatch h
    · rename_i w υ e
      cases h
      have := (sim k (c n) okn (0, []) body _ _ _ _ (hb n) hg e).same
      rw [cn] at this
      simp only at this
      rw [this]
    · rename_i w υ e
      have hsim := sim k (c n) okn (0, []) body _ _ _ _ (hb n) hg e
      have := hsim.same
      rw [cn] at this
      simp only at this
      rw [this]
      exact runFor_same k c seq body a i ks σ₀ hc hb hi ns
        (fun m hm => hok m (List.mem_cons_of_mem _ hm)) _ _ (back _ hsim.good) h

/-- If the old loop runs without a panic, the new one has the same effect.  Missing, with witnesses below:
ranges that are longer than the sequence (`stops_early`); a range up to the length of another sequence than
the one that is indexed (`row_len`); sequences that depend on the index (`uses_index`) or on something that
changes in the loop (`operand_changes`); changes of the index in the body (`index_changes`). -/
theorem loop_same_partial (k : Nat) (arr : Option Nat) (l : Loop) (s : Sugg) (σ τ : St) (d : Loc)
    (hc : check arr l = some s) (hn : noItem l.body = true)
    (hq : quiet s.seq = true) (hi : l.i ∉ vars s.seq)
    (hop : ∀ x, root s.seq = some x → x ∉ indexVars s.seq ∧ x ∉ indexVars l.body)
    (has : ∀ y ∈ assigned l.body, y ≠ l.i ∧ y ∉ indexVars s.seq)
    (hd : eval k (0, []) s.seq σ = some (false, .loc d, σ))
    (hb : l.bound σ ≤ σ.len d) (harr : ∀ m, arr = some m → σ.len d = m)
    (hlen : ∀ x, l.stop = .len x → root s.seq = some x → s.seq = .path x)
    (h : l.run k σ = some τ) : s.run k l σ = some τ := by
  have hnum := numbers_same hc σ (σ.len d) hb harr (by
    intro x hx hr
    rw [hlen x hx hr] at hd
    cases hd
    rfl)
  obtain ⟨x, sk, tk, h1, h2, h3, _⟩ := check_some hc
  have hr := base_root _ _ h1
  obtain ⟨_, _, q3, q4⟩ := quiet_stable k (0, []) (0, []) s.seq _ _ _ _ hq hd
  have hdx : d.1 = x := by
    have := q3 d rfl
    rw [hr] at this
    exact (Option.some.inj this).symm
  obtain ⟨dx, dk⟩ := d
  simp only at hdx
  subst hdx
  unfold Sugg.run
  rw [hd]
  simp only
  rw [hnum]
  unfold Loop.run at h
  refine runFor_same k (fun n => ⟨s.seq, dx, l.i, dk, n, σ⟩) s.seq l.body dx l.i dk σ (fun _ => rfl) ?_
    (fun hx => hi (indexVars_sub _ _ hx)) _ ?_ σ τ ⟨fun _ _ _ => ⟨rfl, rfl⟩, fun _ _ => rfl⟩ h
  · intro n
    exact ⟨hn, apart_partial hc hr (hop dx hr).2, has, h3⟩
  · intro n hm
    refine ⟨hq, ?_, (hop dx hr).1, fun e => h2 e.symm, ?_⟩
    · intro k' it
      exact quiet_any k k' (0, []) it s.seq σ _ hq hd
    · have : n ∈ List.range (l.bound σ) := List.mem_of_mem_drop hm
      have := List.mem_range.1 this
      show n < σ.len (dx, dk)
      omega
where
  quiet_any (k k' : Nat) (it it' : Loc) : ∀ (e : Expr) (σ : St) (r : Bool × Val × St), quiet e = true →
      eval k it e σ = some r → eval k' it' e σ = some r
    | .lit _, _, _, _, h => h
    | .path _, _, _, _, h => h
    | .field e f, σ, r, hq, h => by
      obtain ⟨b, v, τ⟩ := r
      simp only [eval] at h ⊢
      rcases andThen_some h with ⟨h1, rfl⟩ | ⟨w, υ, h1, h2⟩
      · rw [quiet_any k k' it it' e σ _ hq h1]; rfl
      · rw [quiet_any k k' it it' e σ _ hq h1]; exact h2
    | .index e j, σ, r, hq, h => by
      obtain ⟨b, v, τ⟩ := r
      simp only [quiet, Bool.and_eq_true] at hq
      simp only [eval] at h ⊢
      rcases andThen_some h with ⟨h1, rfl⟩ | ⟨w, υ, h1, h2⟩
      · rw [quiet_any k k' it it' e σ _ hq.1 h1]; rfl
      · rw [quiet_any k k' it it' e σ _ hq.1 h1]
        simp only [andThen]
        rcases andThen_some h2 with ⟨h3, rfl⟩ | ⟨u, ρ, h3, h4⟩
        · rw [quiet_any k k' it it' j _ _ hq.2 h3]
        · rw [quiet_any k k' it it' j _ _ hq.2 h3]; exact h4

/-! ### Examples and findings

`a` is 0, the index is 1, other variables are 2 and 3. -/

def exLoop : Loop :=
  { i := 1, start := .lit 1, stop := .add (.lit 1) (.var 3), closed := false,
    body := .two .seq (.two .set (.path 1) (.index (.path 0) (.path 1)))
      (.one .callMut (.path 2)) }

def exSt : St :=
  { mem := fun l => if l.1 = 3 then 2 else 0, len := fun l => if l.2 = [] then 4 else 0 }

/-- `for i in 1..1 + n { a[i] = i; o.call() }` -/
example : check none exLoop = some
    { seq := .path 0, enumerate := true, mutbl := true, adapters := [.skip (.lit 1), .take (.var 3)] } := by
  decide +kernel

example : ((exLoop.run 5 exSt).map fun τ => (τ.mem (0, [.idx 0]), τ.mem (0, [.idx 2]), τ.mem (2, []))) =
    some (0, 2, 2) := by decide +kernel

/-- All the hypotheses of `loop_same_partial` hold. -/
example (τ : St) (h : exLoop.run 5 exSt = some τ) :
    Sugg.run 5 ⟨.path 0, true, true, [.skip (.lit 1), .take (.var 3)]⟩ exLoop exSt = some τ :=
  loop_same_partial 5 none exLoop _ exSt τ (0, []) (by decide +kernel) (by decide) (by decide) (by decide)
    (by intro x _; exact ⟨(fun h => nomatch h), by
      intro hx
      have : x = 1 := by simpa [exLoop, indexVars, vars] using hx
      subst this
      simp_all [root]⟩)
    (by intro y hy; simp [exLoop, assigned, root] at hy; rcases hy with rfl | rfl <;> decide)
    rfl (by decide) (fun _ h => nomatch h) (fun _ h => nomatch h) h

/-- `for i in 0..a.len() { use(a[i].f) }` has no index, no `iter_mut` and no `take`. -/
example : check none ⟨1, .lit 0, .len 0, false, .two .set (.field (.index (.path 0) (.path 1)) 5) (.path 2)⟩ =
    some ⟨.path 0, false, false, []⟩ := by decide +kernel

/-- Another use of the container, an index that is not the variable, two containers: no suggestion. -/
example : check none ⟨1, .lit 0, .len 0, false, .two .seq (.index (.path 0) (.path 1)) (.path 0)⟩ = none ∧
    check none ⟨1, .lit 0, .len 0, false, .index (.path 0) (.two .seq (.path 1) (.lit 1))⟩ = none ∧
    check none ⟨1, .lit 0, .len 0, false,
      .two .seq (.index (.path 0) (.path 1)) (.index (.path 2) (.path 1))⟩ = none := by decide +kernel

/-- A finding: in `for i in 0..a.len() { o = a[0][i] }` the new loop `for x in a[0].iter()` has no `take`. -/
theorem row_len :
    let l : Loop := ⟨1, .lit 0, .len 0, false,
      .two .set (.index (.index (.path 0) (.lit 0)) (.path 1)) (.path 2)⟩
    let s : Sugg := ⟨.index (.path 0) (.lit 0), false, false, []⟩
    let σ : St := { mem := fun l => if l.2 = [.idx 0, .idx 2] then 7 else 0,
                    len := fun l => if l.2 = [] then 2 else 3 }
    check none l = some s ∧ (l.run 0 σ).map (fun τ => τ.mem (2, [])) = some 0 ∧
      (s.run 0 l σ).map (fun τ => τ.mem (2, [])) = some 7 := by decide +kernel

/-- A finding: in `for i in 0..3 { o = m[i].f[i] }` the new loop `for x in m[i].f.iter()` mentions the index,
which is not declared any more. -/
theorem uses_index :
    let l : Loop := ⟨1, .lit 0, .lit 3, false,
      .two .set (.index (.field (.index (.path 0) (.path 1)) 5) (.path 1)) (.path 2)⟩
    let s : Sugg := ⟨.field (.index (.path 0) (.path 1)) 5, false, false, [.take (.lit 3)]⟩
    check none l = some s ∧ l.i ∈ vars s.seq := by decide +kernel

/-- A finding: `for i in 0..2 { o = a[j][i]; j = 1 }`, where `j` is 0 before. -/
theorem operand_changes :
    let l : Loop := ⟨1, .lit 0, .lit 2, false,
      .two .seq (.two .set (.index (.index (.path 0) (.path 3)) (.path 1)) (.path 2))
        (.two .set (.lit 1) (.path 3))⟩
    let s : Sugg := ⟨.index (.path 0) (.path 3), false, false, [.take (.lit 2)]⟩
    let σ : St := { mem := fun l => if l.2 = [.idx 1, .idx 1] then 7 else 0, len := fun _ => 2 }
    check none l = some s ∧ (l.run 0 σ).map (fun τ => τ.mem (2, [])) = some 7 ∧
      (s.run 0 l σ).map (fun τ => τ.mem (2, [])) = some 0 := by decide +kernel

/-- A finding: `for i in 0..5 { if c { a[i] = 0 } o.call() }` makes five calls if `c` is false, and the new
loop only as many as there are elements. -/
theorem stops_early :
    let l : Loop := ⟨1, .lit 0, .lit 5, false,
      .two .seq (.two .lazily (.path 3) (.two .set (.lit 0) (.index (.path 0) (.path 1))))
        (.one .callMut (.path 2))⟩
    let s : Sugg := ⟨.path 0, false, true, [.take (.lit 5)]⟩
    let σ : St := { mem := fun _ => 0, len := fun _ => 2 }
    check none l = some s ∧ (l.run 0 σ).map (fun τ => τ.mem (2, [])) = some 5 ∧
      (s.run 0 l σ).map (fun τ => τ.mem (2, [])) = some 2 := by decide +kernel

/-- A finding: `for mut i in 0..2 { i = 1; o = a[i] + o }`. -/
theorem index_changes :
    let l : Loop := ⟨1, .lit 0, .lit 2, false,
      .two .seq (.two .set (.lit 1) (.path 1))
        (.two .set (.two .seq (.index (.path 0) (.path 1)) (.path 2)) (.path 2))⟩
    let s : Sugg := ⟨.path 0, true, false, [.take (.lit 2)]⟩
    let σ : St := { mem := fun l => if l = (0, [.idx 1]) then 7 else 0, len := fun _ => 2 }
    check none l = some s ∧ (l.run 0 σ).map (fun τ => τ.mem (2, [])) = some 14 ∧
      (s.run 0 l σ).map (fun τ => τ.mem (2, [])) = some 7 := by decide +kernel

/-- A finding: `for i in 0..2 { let ref mut x = a[i]; *x = 1 }` gets `iter`, not `iter_mut`. -/
theorem ref_mut_missed :
    let l : Loop := ⟨1, .lit 0, .lit 2, false, .one .refMut (.index (.path 0) (.path 1))⟩
    let s : Sugg := ⟨.path 0, false, false, [.take (.lit 2)]⟩
    check none l = some s ∧ mutItem (subst s.seq l.i l.body) = true := by decide +kernel

/-- A finding: `for i in 0..2 { m[i][m[0].f] = 1 }` gets `for x in m.iter_mut() { x[m[0].f] = 1 }`, where `m`
is already borrowed. -/
theorem operand_borrow :
    let l : Loop := ⟨1, .lit 0, .lit 2, false,
      .two .set (.lit 1) (.index (.index (.path 0) (.path 1)) (.field (.index (.path 0) (.lit 0)) 5))⟩
    let s : Sugg := ⟨.path 0, false, true, [.take (.lit 2)]⟩
    check none l = some s ∧ 0 ∈ vars (subst s.seq l.i l.body) := by decide +kernel

end Verif.RangeLoop
