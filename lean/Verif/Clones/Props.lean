import Verif.Clones.Lemmas

/-! Clones that are said to be redundant. -/

namespace Verif.Clones

open Model
open Verif.Mir (Local Place Elem Loc Body Ctx)
open Verif.Mir.Spec (Walk After Step Leads IsUse)
open Verif.Borrow (Instr Rvalue Operand)

/-! ### The locals -/

/-- Whether a value cannot be moved out of its place. -/
theorem stuck_iff (T : PlaceTypes) (p : Place) : (baseOf T p).2 = true ↔ Spec.Stuck T p := by
  have key : ∀ (rest pre : List Elem), stuck T p.base pre rest = true ↔
      ∃ mid e post, rest = mid ++ e :: post ∧
        (e = .deref ∨ (∃ n, e = .field n ∧ T.hasDrop ⟨p.base, pre ++ mid⟩ = true) ∨
          ∃ i, e = .index i ∧ T.copy ⟨p.base, pre ++ mid⟩ = false) := by
    intro rest
    induction rest with
    | nil => intro pre; simp [stuck]
    | cons e0 rest ih =>
      intro pre
      have split : (∃ mid e post, e0 :: rest = mid ++ e :: post ∧
          (e = .deref ∨ (∃ n, e = .field n ∧ T.hasDrop ⟨p.base, pre ++ mid⟩ = true) ∨
            ∃ i, e = .index i ∧ T.copy ⟨p.base, pre ++ mid⟩ = false)) ↔
          (e0 = .deref ∨ (∃ n, e0 = .field n ∧ T.hasDrop ⟨p.base, pre⟩ = true) ∨
            ∃ i, e0 = .index i ∧ T.copy ⟨p.base, pre⟩ = false) ∨ stuck T p.base (pre ++ [e0]) rest = true := by
        rw [ih]
        constructor
        · rintro ⟨mid, e, post, h, hb⟩
          cases mid with
          | nil =>
            simp only [List.nil_append, List.cons.injEq] at h
            rw [← h.1, List.append_nil] at hb
            exact .inl hb
          | cons a mid =>
            simp only [List.cons_append, List.cons.injEq] at h
            refine .inr ⟨mid, e, post, h.2, ?_⟩
            rw [h.1]
            simpa using hb
        · rintro (hb | ⟨mid, e, post, h, hb⟩)
          · exact ⟨[], e0, rest, rfl, by simpa using hb⟩
          · exact ⟨e0 :: mid, e, post, by rw [h]; rfl, by simpa using hb⟩
      rw [split]
      cases e0 with
      | deref => simp [stuck]
      | field n => simp [stuck]
      | index i => simp [stuck]
  rw [baseOf, key]
  simp [Spec.Stuck]

/-- The last assignment. -/
theorem last_iff (stmts : List Instr) (x : Local) (v : Rvalue) :
    stmts.reverse.findSome? (assignsTo x) = some v ↔ Spec.LastAssigned stmts x v := by
  have key : ∀ l : List Instr, l.findSome? (assignsTo x) = some v ↔
      ∃ pre d g post, l = pre ++ .assign d g v :: post ∧ d.base = x ∧
        ∀ d' g' v', .assign d' g' v' ∈ pre → d'.base ≠ x := by
    intro l
    rw [List.findSome?_eq_some_iff]
    constructor
    · rintro ⟨pre, i, post, h1, h2, h3⟩
      cases i with
      | assign d g v0 =>
        simp only [assignsTo] at h2
        split at h2
        · rename_i hd
          cases h2
          refine ⟨pre, d, g, post, h1, hd, ?_⟩
          intro d' g' v' hm hd'
          have := h3 _ hm
          simp [assignsTo, hd'] at this
        · cases h2
      | call a d => cases h2
      | other => cases h2
    · rintro ⟨pre, d, g, post, h1, h2, h3⟩
      refine ⟨pre, _, post, h1, by simp [assignsTo, h2], ?_⟩
      intro i hi
      cases i with
      | assign d' g' v' => simp [assignsTo, h3 d' g' v' hi]
      | call a d => rfl
      | other => rfl
  rw [key]
  constructor
  · rintro ⟨pre, d, g, post, h1, h2, h3⟩
    refine ⟨post.reverse, d, g, pre.reverse, ?_, h2, ?_⟩
    · have := congrArg List.reverse h1
      simpa using this
    · intro d' g' v' hm
      exact h3 d' g' v' (by simpa using hm)
  · rintro ⟨pre, d, g, post, h1, h2, h3⟩
    refine ⟨post.reverse, d, g, pre.reverse, by simp [h1], h2, ?_⟩
    intro d' g' v' hm
    exact h3 d' g' v' (by simpa using hm)

/-- The local behind an argument: the last assignment to the argument makes it refer to a place of that
local. -/
theorem find_iff (T : PlaceTypes) (stmts : List Instr) (x y : Local) (byRef b : Bool) :
    findAssign T stmts x byRef = some (y, b) ↔
      ∃ v p, Spec.LastAssigned stmts x v ∧ Spec.RefersTo byRef v p ∧ p.base = y ∧
        (b = true ↔ Spec.Stuck T p) := by
  have hb : ∀ p, some (baseOf T p) = some (y, b) ↔ p.base = y ∧ (b = true ↔ Spec.Stuck T p) := by
    intro p
    rw [← stuck_iff]
    simp only [baseOf, Option.some.injEq, Prod.mk.injEq, Bool.coe_iff_coe]
    exact ⟨fun h => ⟨h.1, h.2.symm⟩, fun h => ⟨h.1, h.2.symm⟩⟩
  constructor
  · intro h
    simp only [findAssign] at h
    split at h
    · rename_i k p hv
      exact ⟨_, p, (last_iff ..).1 hv, .inl ⟨rfl, k, rfl⟩, (hb p).1 h⟩
    · rename_i p hv
      exact ⟨_, p, (last_iff ..).1 hv, .inr ⟨rfl, .inl rfl⟩, (hb p).1 h⟩
    · rename_i k p hv
      split at h
      · rename_i hp
        exact ⟨_, p, (last_iff ..).1 hv, .inr ⟨rfl, .inr ⟨k, rfl, hp⟩⟩, (hb p).1 h⟩
      · cases h
    · cases h
  · rintro ⟨v, p, hv, hr, h⟩
    have h' := (hb p).2 h
    have hl := (last_iff ..).2 hv
    rcases hr with ⟨rfl, k, rfl⟩ | ⟨rfl, rfl | ⟨k, rfl, hp⟩⟩
    · simp only [findAssign, hl]
      exact h'
    · simp only [findAssign, hl]
      exact h'
    · simp only [findAssign, hl, if_pos hp]
      exact h'

/-- The locals of a clone of a borrowed value. -/
theorem locals_direct (T : PlaceTypes) (only : List Local → Local → Bool) (s : Site)
    (hs : s.direct = true) (x r : Local) :
    locals T only s = some (x, r) ↔ r = s.call.ret ∧ only [s.call.arg] x = true ∧
      ∃ v p, Spec.LastAssigned s.stmts s.call.arg v ∧ (∃ k, v = .ref k p) ∧ p.base = x ∧
        ¬ Spec.Stuck T p := by
  constructor
  · intro h
    simp only [locals, hs] at h
    cases hf : findAssign T s.stmts s.call.arg true with
    | none => rw [hf] at h; cases h
    | some c =>
      obtain ⟨y, b⟩ := c
      rw [hf] at h
      simp only [if_true] at h
      split at h
      · cases h
      · rename_i hc
        cases h
        simp only [Bool.or_eq_true, Bool.not_eq_true', not_or, Bool.not_eq_true, Bool.not_eq_false] at hc
        obtain ⟨v, p, hv, hr, hp, hst⟩ := (find_iff ..).1 hf
        refine ⟨rfl, hc.2, v, p, hv, ?_, hp, ?_⟩
        · rcases hr with ⟨-, h⟩ | ⟨h, -⟩
          · exact h
          · cases h
        · intro h
          rw [hst.2 h] at hc
          cases hc.1
  · rintro ⟨rfl, ho, v, p, hv, hk, hp, hst⟩
    have hf : findAssign T s.stmts s.call.arg true = some (x, false) :=
      (find_iff ..).2 ⟨v, p, hv, .inl ⟨rfl, hk⟩, hp, by simp [hst]⟩
    simp [locals, hs, hf, ho]

/-! ### The decision -/

theorem touches_mentions {m : Body} {l : Loc} {x : Local} (hx : Spec.NoIndex m x)
    (h : Spec.Touches m l x) : 0 < Mir.Spec.mentions m (fun c => decide (IsUse c)) x l := by
  obtain ⟨a, ha, h | h⟩ := h
  · rw [Mir.Spec.mentions, List.countP_pos_iff]
    exact ⟨a, ha, by simp [h.1, h.2]⟩
  · exact absurd h (hx l a ha)

theorem same_local {cell : Bool} {m : Body} {at_ : Loc} (x : Local) : Spec.SameValues cell m at_ x x := by
  intro V f hf σ hσ w l hw y hy
  have hview : ∀ τ : Local → V, Spec.view x x τ = τ := by
    intro τ
    funext z
    simp only [Spec.view]
    split
    · rename_i hz; rw [hz]
    · rfl
  have hsh : ∀ l (τ : Local → V), Spec.shared cell m f x x l τ = f l τ := by
    intro l τ
    funext z
    simp only [Spec.shared, hview]
    split
    · rename_i hz; rw [hz.1]
    · rfl
  rw [hview]
  simp only [Spec.after, Spec.afterShared, hsh]

theorem unused_same {cell : Bool} {m : Body} {at_ : Loc} {x r : Local} (hxr : x ≠ r)
    (hx : ∀ l, After m at_ l → ¬ Spec.Touches m l x) : Spec.SameValues cell m at_ x r := by
  intro V f hf σ hσ w l hw y hy
  refine gone hf hxr hx l w at_ σ σ (.inl rfl) hw ?_ y hy
  intro z _
  simp only [Spec.view]
  split
  · rename_i hz; rw [hz, hσ]
  · rfl

/-- What the decision rests on. -/
theorem reasons {m : Body} {at_ : Loc} {order : List Nat} {temp : Bool} {alive : Loc → Bool}
    {x r : Local} (hat : at_.idx ≤ (m.block at_.block).stmts.length)
    (ho : Mir.Spec.Lists m at_.block order) (hix : Spec.NoIndex m x) (hxr : x ≠ r)
    (h : unneeded m at_ order temp alive x r = true) :
    (∀ l, After m at_ l → ¬ Spec.Touches m l x) ∨
      ((∀ l, After m at_ l → ∀ a ∈ m.places l, a.1.base = r → ¬ Mir.Spec.Consumes a.2) ∧
        ∃ l0 rest, Mir.hits m at_ (fun c => !Mir.Model.ignored c) order x = l0 :: rest ∧
          alive l0 = false ∧ After m at_ l0 ∧ Spec.Touches m l0 x ∧
          (∀ k, After m at_ k → Spec.Touches m k x →
            k ∈ Mir.hits m at_ (fun c => !Mir.Model.ignored c) order x) ∧
          (∀ k, After m at_ k → (∃ a ∈ m.places k, a.1.base = x ∧ Mir.Spec.Consumes a.2) →
            k ∈ Mir.hits m at_ Mir.Model.consuming order x) ∧
          ∀ k rest, Mir.hits m at_ Mir.Model.consuming order x = k :: rest →
            alive k = false ∧ After m at_ k ∧ ∃ a ∈ m.places k, a.1.base = x ∧ Mir.Spec.Consumes a.2) := by
  simp only [unneeded] at h
  rw [if_neg hxr] at h
  cases hv : Mir.Model.visitUsage [x, r] m at_ order with
  | none => rw [hv] at h; cases h
  | some us =>
    obtain ⟨hlen, hex⟩ := Mir.usage_exact ho hat hv
    have heq := hv
    rw [Mir.visitUsage_eq] at heq
    split at heq
    · cases heq
    simp only [List.map_cons, List.map_nil, Option.some.injEq] at heq
    match us, hlen with
    | [u, v], _ =>
      rw [hv] at h
      simp only at h
      have hu := hex 0 x u rfl rfl
      have hvv := hex 1 r v rfl rfl
      have huses : Mir.hits m at_ (fun c => !Mir.Model.ignored c) order x = u.uses := by
        simp only [List.cons.injEq] at heq
        rw [← heq.1]
      have hcons : Mir.hits m at_ Mir.Model.consuming order x = u.consumes := by
        simp only [List.cons.injEq] at heq
        rw [← heq.1]
      have listed : ∀ k, After m at_ k → Spec.Touches m k x → k ∈ u.uses := by
        intro k hk ht
        rw [← List.count_pos_iff, ((hu k).1 hk).1]
        exact touches_mentions hix ht
      have listed2 : ∀ k, After m at_ k → (∃ a ∈ m.places k, a.1.base = x ∧ Mir.Spec.Consumes a.2) →
          k ∈ u.consumes := by
        rintro k hk ⟨a, ha, hb, hc⟩
        rw [← List.count_pos_iff, ((hu k).1 hk).2, Mir.Spec.mentions, List.countP_pos_iff]
        exact ⟨a, ha, by simp [hb, hc]⟩
      cases huu : u.uses with
      | nil =>
        refine .inl ?_
        intro k hk ht
        have := listed k hk ht
        rw [huu] at this
        cases this
      | cons l0 rest =>
        simp only [decide_, huu, List.head?_cons, Option.isSome_some, Bool.true_and] at h
        split at h
        · cases h
        rename_i hcl
        split at h
        · cases h
        rename_i hali
        simp only [Bool.or_eq_true, Bool.not_eq_true', not_or, Bool.not_eq_false,
          List.isEmpty_iff] at hcl
        have hl0 : After m at_ l0 := by
          by_cases ha : After m at_ l0
          · exact ha
          · exact absurd (by simp [huu]) ((hu l0).2 ha).1
        refine .inr ⟨?_, l0, rest, huses.trans huu, by simpa [aliveAt] using hali, hl0, ?_,
          by rw [huses]; exact listed, by rw [hcons]; exact listed2, ?_⟩
        · intro k hk a ha hb hc
          have : 0 < Mir.Spec.mentions m (fun c => decide (Mir.Spec.Consumes c)) r k := by
            rw [Mir.Spec.mentions, List.countP_pos_iff]
            exact ⟨a, ha, by simp [hb, hc]⟩
          rw [← ((hvv k).1 hk).2, hcl.2] at this
          simp at this
        · have hpos : 0 < Mir.Spec.mentions m (fun c => decide (IsUse c)) x l0 := by
            rw [← ((hu l0).1 hl0).1, List.count_pos_iff, huu]
            simp
          rw [Mir.Spec.mentions, List.countP_pos_iff] at hpos
          obtain ⟨a, ha, hb⟩ := hpos
          simp only [Bool.and_eq_true, decide_eq_true_eq] at hb
          exact ⟨a, ha, .inl hb⟩
        · intro k rest' hk
          rw [hcons] at hk
          have hak : After m at_ k := by
            by_cases ha : After m at_ k
            · exact ha
            · exact absurd (by simp [hk]) ((hu k).2 ha).2
          refine ⟨by simpa [hk, aliveAt] using h, hak, ?_⟩
          have hpos : 0 < Mir.Spec.mentions m (fun c => decide (Mir.Spec.Consumes c)) x k := by
            rw [← ((hu k).1 hak).2, List.count_pos_iff, hk]
            simp
          rw [Mir.Spec.mentions, List.countP_pos_iff] at hpos
          obtain ⟨a, ha, hb⟩ := hpos
          simp only [Bool.and_eq_true, decide_eq_true_eq] at hb
          exact ⟨a, ha, hb⟩

/-- The clone is not changed. -/
theorem unchanged {cell : Bool} {m : Body} {at_ : Loc} {r : Local} (hpl : Spec.Plain cell m at_ r)
    (h : ∀ l, After m at_ l → ∀ a ∈ m.places l, a.1.base = r → ¬ Mir.Spec.Consumes a.2) :
    ∀ l, After m at_ l → Spec.changed cell m l r = false := by
  intro k hk
  cases hc : Spec.changed cell m k r with
  | false => rfl
  | true =>
    obtain ⟨a, ha, hb, hcx⟩ := hpl k hk hc
    exact absurd (hcx.elim .inl fun h => .inr (.inr h)) (h k hk a ha hb)

/-- A clone that is said to be redundant can be left out: everything that is executed later finds the same
values.

Missing: clones that are changed by assignments or through shared references, and uses in different
branches (see below), references to the values that are compared, and what is dropped. -/
theorem same_values_partial (m : Body) (at_ : Loc) (order : List Nat) (temp : Bool) (alive : Loc → Bool)
    (x r : Local) (cell : Bool) (hat : at_.idx ≤ (m.block at_.block).stmts.length)
    (ho : Mir.Spec.Lists m at_.block order) (hfw : Spec.Forward m order) (hix : Spec.NoIndex m x)
    (hal : Spec.Ends m at_ r alive) (hch : Spec.Chain m at_ x)
    (hpl : Spec.Plain cell m at_ r) (h : unneeded m at_ order temp alive x r = true) :
    Spec.SameValues cell m at_ x r := by
  by_cases hxr : x = r
  · exact hxr ▸ same_local x
  rcases reasons hat ho hix hxr h with h | ⟨hnc, l0, rest, hhits, hdead, hl0, ht0, hlist, -, -⟩
  · exact unused_same hxr h
  intro V f hf σ hσ w l hw y hy
  refine later hf hxr (fun k => k = l0 ∨ After m l0 k) (fun p k hp hs => .inr (after_step hp hs)) ?_
    (hal l0 hl0 hdead) (unchanged hpl hnc) l w at_ σ σ (.inl rfl) hw (fun _ _ => rfl) (.inl hσ) y hy
  intro k hk hc
  have ht := touched_of_changed hc
  exact first_listed ho.1 hfw _ hhits hk hl0 (hlist k hk ht) (hch l0 k hl0 hk ht0 ht)

/-- The same for uses in different branches, where the value that is cloned is changed only by moving it
and borrowing it mutably, and these come one after the other. -/
theorem branches_partial (m : Body) (at_ : Loc) (order : List Nat) (temp : Bool) (alive : Loc → Bool)
    (x r : Local) (cell : Bool) (hat : at_.idx ≤ (m.block at_.block).stmts.length)
    (ho : Mir.Spec.Lists m at_.block order) (hfw : Spec.Forward m order) (hix : Spec.NoIndex m x)
    (hal : Spec.Ends m at_ r alive)
    (hins : ∀ l, After m at_ l → ∀ a ∈ m.places l, a.1.base = x → a.2 ≠ .inspect)
    (hch : Spec.ChangeChain cell m at_ x) (hpx : Spec.Plain cell m at_ x)
    (hpl : Spec.Plain cell m at_ r) (h : unneeded m at_ order temp alive x r = true) :
    Spec.SameValues cell m at_ x r := by
  by_cases hxr : x = r
  · exact hxr ▸ same_local x
  rcases reasons hat ho hix hxr h with h | ⟨hnc, -, -, -, -, -, -, -, hlist, hfirst⟩
  · exact unused_same hxr h
  intro V f hf σ hσ w l hw y hy
  have consumed : ∀ k, After m at_ k → Spec.changed cell m k x = true →
      k ∈ Mir.hits m at_ Mir.Model.consuming order x := by
    intro k hk hc
    obtain ⟨a, ha, hb, hcx⟩ := hpx k hk hc
    exact hlist k hk ⟨a, ha, hb, hcx.elim .inl fun h => .inr (.inr h)⟩
  cases hhits : Mir.hits m at_ Mir.Model.consuming order x with
  | nil =>
    refine later hf hxr (fun _ => False) (fun _ _ h _ => h) ?_ (fun _ h => h.elim)
      (unchanged hpl hnc) l w at_ σ σ (.inl rfl) hw (fun _ _ => rfl) (.inl hσ) y hy
    intro k hk hc
    have := consumed k hk hc
    rw [hhits] at this
    cases this
  | cons l0 rest =>
    obtain ⟨hdead, hl0, a0, ha0, hb0, hc0⟩ := hfirst l0 rest hhits
    have hchanged : Spec.changed cell m l0 x = true := by
      simp only [Spec.changed, List.any_eq_true, Bool.and_eq_true, decide_eq_true_eq]
      refine ⟨a0, ha0, hb0, ?_⟩
      rcases hc0 with h | h | h
      · rw [h]; rfl
      · exact absurd h (hins l0 hl0 a0 ha0 hb0)
      · rw [h]; rfl
    refine later hf hxr (fun k => k = l0 ∨ After m l0 k) (fun p k hp hs => .inr (after_step hp hs)) ?_
      (hal l0 hl0 hdead) (unchanged hpl hnc) l w at_ σ σ (.inl rfl) hw (fun _ _ => rfl) (.inl hσ) y hy
    intro k hk hc
    exact first_listed ho.1 hfw _ hhits hk hl0 (consumed k hk hc) (hch l0 k hl0 hk hchanged hc)

/-- Nothing is reported where the clone can be executed again. -/
theorem not_again (m : Body) (at_ : Loc) (order : List Nat) (temp : Bool) (alive : Loc → Bool)
    (x r : Local) (hat : at_.idx ≤ (m.block at_.block).stmts.length)
    (ho : Mir.Spec.Lists m at_.block order) (hxr : x ≠ r)
    (h : unneeded m at_ order temp alive x r = true) : ¬ After m at_ at_ := by
  intro ha
  rw [unneeded, if_neg hxr, (Mir.given_up ho hat [x, r]).2 ha] at h
  cases h

/-- A clone of something that is not used any more is found. -/
theorem unused_found (m : Body) (at_ : Loc) (order : List Nat) (temp : Bool) (alive : Loc → Bool)
    (x r : Local) (hat : at_.idx ≤ (m.block at_.block).stmts.length)
    (ho : Mir.Spec.Lists m at_.block order) (ha : ¬ After m at_ at_)
    (hx : ∀ l, After m at_ l → ¬ Spec.Touches m l x) :
    unneeded m at_ order temp alive x r = true := by
  rw [unneeded]
  by_cases hxr : x = r
  · rw [if_pos hxr]
  rw [if_neg hxr]
  have hz : ∀ counts : Ctx → Bool, (∀ c, counts c = true → IsUse c) → ∀ l, After m at_ l →
      Mir.Spec.mentions m counts x l = 0 := by
    intro counts hc l hl
    rw [Mir.Spec.mentions, List.countP_eq_zero]
    intro a hm hb
    simp only [Bool.and_eq_true, decide_eq_true_eq] at hb
    exact hx l hl ⟨a, hm, .inl ⟨hb.1, hc _ hb.2⟩⟩
  cases hv : Mir.Model.visitUsage [x, r] m at_ order with
  | none => exact absurd ((Mir.given_up ho hat [x, r]).1 hv) ha
  | some us =>
    obtain ⟨hlen, hex⟩ := Mir.usage_exact ho hat hv
    match us, hlen with
    | [u, v], _ =>
      have hu := hex 0 x u rfl rfl
      have h1 : u.uses = [] := by
        refine List.eq_nil_iff_forall_not_mem.2 fun l hl => ?_
        by_cases hal : After m at_ l
        · have := ((hu l).1 hal).1
          rw [hz _ (fun c hc => by simpa using hc) l hal] at this
          exact List.count_eq_zero.1 this hl
        · exact ((hu l).2 hal).1 hl
      have h2 : u.consumes = [] := by
        refine List.eq_nil_iff_forall_not_mem.2 fun l hl => ?_
        by_cases hal : After m at_ l
        · have := ((hu l).1 hal).2
          rw [hz _ (fun c hc => by revert hc; cases c <;> decide) l hal] at this
          exact List.count_eq_zero.1 this hl
        · exact ((hu l).2 hal).2 hl
      simp [decide_, h1, h2, aliveAt]

/-- A report about the clone of a borrowed value: it is the value of a local, or of a part that can be
moved out, which nothing else borrows, and the clone can be left out.

Missing: as above; and calls that dereference first. -/
theorem report_direct_partial (T : PlaceTypes) (only : List Local → Local → Bool) (m : Body) (s : Site)
    (order : List Nat) (temp : Local → Bool) (alive : Local → Loc → Bool) (cell : Bool)
    (hd : s.direct = true) (ho : Mir.Spec.Lists m s.block order) (hfw : Spec.Forward m order)
    (hix : ∀ x v p, Spec.LastAssigned s.stmts s.call.arg v → (∃ k, v = .ref k p) → p.base = x →
      Spec.NoIndex m x ∧ Spec.Chain m ⟨s.block, (m.block s.block).stmts.length⟩ x)
    (hal : Spec.Ends m ⟨s.block, (m.block s.block).stmts.length⟩ s.call.ret (alive s.call.ret))
    (hpl : Spec.Plain cell m ⟨s.block, (m.block s.block).stmts.length⟩ s.call.ret)
    (h : report T only m s order temp alive = true) :
    ∃ v p k, Spec.LastAssigned s.stmts s.call.arg v ∧ v = .ref k p ∧ ¬ Spec.Stuck T p ∧
      only [s.call.arg] p.base = true ∧
      Spec.SameValues cell m ⟨s.block, (m.block s.block).stmts.length⟩ p.base s.call.ret := by
  simp only [report] at h
  split at h
  · cases h
  split at h
  · cases h
  · rename_i x r hl
    obtain ⟨rfl, honly, v, p, hv, ⟨k, hk⟩, rfl, hst⟩ := (locals_direct T only s hd x r).1 hl
    obtain ⟨hni, hch⟩ := hix p.base v p hv ⟨k, hk⟩ rfl
    exact ⟨v, p, k, hv, hk, hst, honly,
      same_values_partial m _ order _ _ _ _ cell (Nat.le_refl _) ho hfw hni hal hch hpl h⟩

/-! ### Examples and what is missed -/

/-- A meaning: changes are counted. -/
def counting (cell : Bool) (m : Body) : Spec.Meaning Nat :=
  fun l σ y => if Spec.changed cell m l y then σ y + 1 else σ y

theorem counting_fits (cell : Bool) (m : Body) : Spec.Fits cell m (counting cell m) := by
  constructor
  · intro l σ y h
    simp [counting, h]
  · intro l σ σ' y h hc
    simp only [counting, hc, if_true]
    rw [h y (touched_of_changed hc)]

/-- `_2 = clone(move _9)` goes on with a block of statements. -/
def two (stmts : List Mir.Stmt) : Body :=
  [⟨[], .call ⟨2, []⟩ [(⟨9, []⟩, .move)] [1]⟩, ⟨stmts, .other [] []⟩]

theorem two_leads {stmts : List Mir.Stmt} {b c : Nat} (h : Leads (two stmts) b c) : b = 0 ∧ c = 1 := by
  have step : ∀ {b c : Nat}, c ∈ (two stmts).succs b → b = 0 ∧ c = 1 := by
    intro b c h
    match b with
    | 0 => exact ⟨rfl, by simpa [two, Body.succs, Body.block, Mir.Term.succs] using h⟩
    | 1 => simp [two, Body.succs, Body.block, Mir.Term.succs] at h
    | b + 2 => simp [two, Body.succs, Body.block, Mir.Term.succs] at h
  cases h with
  | one h => exact step h
  | more h h' =>
    have h1 := step h
    exfalso
    cases h' with
    | one h2 => have := (step h2).1; omega
    | more h2 _ => have := (step h2).1; omega

theorem two_jump (stmts : List Mir.Stmt) : 1 ∈ (two stmts).succs 0 := by
  simp [two, Body.succs, Body.block, Mir.Term.succs]

theorem two_lists (stmts : List Mir.Stmt) : Mir.Spec.Lists (two stmts) 0 [0, 1] := by
  refine ⟨by decide, ?_⟩
  intro c
  simp only [List.mem_cons, List.not_mem_nil, or_false]
  constructor
  · rintro (rfl | rfl)
    · exact .inl rfl
    · exact .inr (.one (two_jump stmts))
  · rintro (rfl | h)
    · exact .inl rfl
    · exact .inr (two_leads h).2

theorem two_forward (stmts : List Mir.Stmt) : Spec.Forward (two stmts) [0, 1] := by
  simp only [Spec.Forward, List.pairwise_cons, List.mem_cons, List.not_mem_nil, or_false,
    forall_eq, false_imp_iff, implies_true, List.Pairwise.nil, and_true]
  intro h
  have := (two_leads h).1
  omega

/-- Positions of the second block. -/
theorem two_after {stmts : List Mir.Stmt} {l : Loc} (h : After (two stmts) ⟨0, 0⟩ l) :
    l.block = 1 ∧ l.idx ≤ stmts.length := by
  obtain ⟨h1, h2⟩ := Mir.after_cases h
  rcases h1 with ⟨hb, hi⟩ | h1
  · rw [hb] at h2
    simp only [two, Body.block] at h2 hi
    simp at h2
    omega
  · obtain ⟨-, hb⟩ := two_leads h1
    rw [hb] at h2
    exact ⟨hb, by simpa [two, Body.block] using h2⟩

theorem two_order {stmts : List Mir.Stmt} {l k : Loc} (hl : l.block = 1) (h : After (two stmts) l k) :
    k.block = 1 ∧ l.idx < k.idx ∧ k.idx ≤ stmts.length := by
  obtain ⟨h1, h2⟩ := Mir.after_cases h
  rcases h1 with ⟨hb, hi⟩ | h1
  · rw [hb, hl] at h2
    exact ⟨hb.trans hl, hi, by simpa [two, Body.block] using h2⟩
  · have := (two_leads h1).1
    omega

theorem two_lt {stmts : List Mir.Stmt} {i j : Nat} (h : i < j) (hj : j ≤ stmts.length) :
    After (two stmts) ⟨1, i⟩ ⟨1, j⟩ :=
  Mir.after_lt h (by simpa [two, Body.block] using hj)

theorem two_chain (stmts : List Mir.Stmt) (x : Local) : Spec.Chain (two stmts) ⟨0, 0⟩ x := by
  rintro ⟨b, i⟩ ⟨c, j⟩ hl hk - -
  obtain ⟨rfl, hi⟩ := two_after hl
  obtain ⟨rfl, hj⟩ := two_after hk
  simp only at hi hj
  rcases Nat.lt_trichotomy i j with h | h | h
  · exact .inr (.inl (two_lt h hj))
  · exact .inl (by rw [h])
  · exact .inr (.inr (two_lt h hi))

/-- The clone has storage up to a position, and is not used from there on. -/
theorem two_ends (stmts : List Mir.Stmt) (r : Local) (n : Nat)
    (h : ∀ i, i ≤ stmts.length → n ≤ i → ¬ Spec.Touches (two stmts) ⟨1, i⟩ r) :
    Spec.Ends (two stmts) ⟨0, 0⟩ r (fun l => decide (l.idx < n)) := by
  rintro ⟨b, i⟩ hl hal ⟨c, j⟩ hk
  obtain ⟨rfl, hi⟩ := two_after hl
  simp only [decide_eq_false_iff_not, Nat.not_lt] at hal hi
  rcases hk with hk | hk
  · cases hk
    exact h i hi hal
  · obtain ⟨rfl, h1, h2⟩ := two_order rfl hk
    simp only at h1 h2
    exact h j h2 (by omega)

theorem two_walk (stmts : List Mir.Stmt) : ∀ n i, i + n ≤ stmts.length →
    Walk (two stmts) (⟨1, i⟩ :: (List.range n).map fun j => ⟨1, i + 1 + j⟩) := by
  intro n
  induction n with
  | zero => intro i _; trivial
  | succ n ih =>
    intro i h
    rw [List.range_succ_eq_map, List.map_cons, List.map_map]
    refine ⟨.next (by simp [two, Body.block]; omega), ?_⟩
    have := ih (i + 1) (by omega)
    have he : (fun j => (⟨1, i + 1 + 1 + j⟩ : Loc)) = ((fun j => (⟨1, i + 1 + j⟩ : Loc)) ∘ Nat.succ) := by
      funext j
      simp only [Function.comp, Loc.mk.injEq, true_and]
      omega
    rw [he] at this
    exact this

instance (m : Body) (l : Loc) (y : Local) : Decidable (Spec.Touches m l y) :=
  inferInstanceAs (Decidable (∃ a ∈ m.places l, _))

/-- `x.clone().len(); x.push(1)`: read the clone, end its storage, change the local. -/
def reading : List Mir.Stmt :=
  [.assign ⟨3, []⟩ [(⟨2, []⟩, .sharedBorrow)], .other [(⟨2, []⟩, .nonUse)], .assign ⟨4, []⟩ [(⟨1, []⟩, .mutBorrow)]]

example : unneeded (two reading) ⟨0, 0⟩ [0, 1] true (fun l => decide (l.idx < 1)) 1 2 = true := by
  decide +kernel

/-- With storage at the end, nothing is reported. -/
example : unneeded (two reading) ⟨0, 0⟩ [0, 1] true (fun _ => true) 1 2 = false := by
  decide +kernel

theorem reading_index : Spec.NoIndex (two reading) 1 := by
  rintro ⟨b, i⟩ a ha
  match b, i with
  | 0, 0 => revert a; decide
  | 0, i + 1 => cases ha
  | 1, 0 => revert a; decide
  | 1, 1 => revert a; decide
  | 1, 2 => revert a; decide
  | 1, 3 => cases ha
  | 1, i + 4 => simp [two, reading, Body.places, Body.block] at ha
  | b + 2, 0 => cases ha
  | b + 2, i + 1 => cases ha

theorem reading_ends : Spec.Ends (two reading) ⟨0, 0⟩ 2 (fun l => decide (l.idx < 1)) := by
  refine two_ends _ 2 1 ?_
  intro i hi hn
  match i with
  | 1 => decide
  | 2 => decide
  | 3 => decide
  | i + 4 => simp [reading] at hi

theorem reading_plain (y : Local) (hy : y = 1 ∨ y = 2) : Spec.Plain false (two reading) ⟨0, 0⟩ y := by
  rintro ⟨b, i⟩ hl hc
  obtain ⟨rfl, hi⟩ := two_after hl
  match i with
  | 0 => rcases hy with rfl | rfl <;> · revert hc; decide
  | 1 => rcases hy with rfl | rfl <;> · revert hc; decide
  | 2 =>
    rcases hy with rfl | rfl
    · exact ⟨(⟨1, []⟩, .mutBorrow), by decide, rfl, .inr rfl⟩
    · revert hc; decide
  | 3 => rcases hy with rfl | rfl <;> · revert hc; decide
  | i + 4 => simp [reading] at hi

/-- The hypotheses of the theorems hold. -/
example : Spec.SameValues false (two reading) ⟨0, 0⟩ 1 2 :=
  same_values_partial (two reading) ⟨0, 0⟩ [0, 1] true (fun l => decide (l.idx < 1)) 1 2 false
    (by decide) (two_lists _) (two_forward _) reading_index reading_ends (two_chain _ 1)
    (reading_plain 2 (.inr rfl)) (by decide +kernel)

example : Spec.SameValues false (two reading) ⟨0, 0⟩ 1 2 := by
  refine branches_partial (two reading) ⟨0, 0⟩ [0, 1] true (fun l => decide (l.idx < 1)) 1 2 false
    (by decide) (two_lists _) (two_forward _) reading_index reading_ends ?_ ?_
    (reading_plain 1 (.inl rfl)) (reading_plain 2 (.inr rfl)) (by decide +kernel)
  · rintro ⟨b, i⟩ hl a ha
    obtain ⟨rfl, hi⟩ := two_after hl
    match i with
    | 0 => revert a; decide
    | 1 => revert a; decide
    | 2 => revert a; decide
    | 3 => cases ha
    | i + 4 => simp [reading] at hi
  · intro l k hl hk h1 h2
    exact two_chain _ 1 l k hl hk (touched_of_changed h1) (touched_of_changed h2)

/-- A call of `clone` with a report. -/
def readingSite : Site :=
  { block := 0, call := ⟨9, 2⟩, direct := true, pred := none,
    stmts := [.assign ⟨9, []⟩ true (.ref false ⟨1, []⟩)] }

example : report ⟨fun _ => false, fun _ => false⟩ (fun bs b => bs == [9] && b == 1) (two reading)
    readingSite [0, 1] (fun _ => true) (fun _ l => decide (l.idx < 1)) = true := by decide +kernel

/-- Not if something else borrows the value, or if it cannot be moved out. -/
example : report ⟨fun _ => false, fun _ => false⟩ (fun _ _ => false) (two reading)
    readingSite [0, 1] (fun _ => true) (fun _ l => decide (l.idx < 1)) = false := by decide +kernel

example : ∃ v p k, Spec.LastAssigned readingSite.stmts 9 v ∧ v = .ref k p ∧
    ¬ Spec.Stuck ⟨fun _ => false, fun _ => false⟩ p ∧ ([9] == [9] && p.base == 1) = true ∧
    Spec.SameValues false (two reading) ⟨0, 0⟩ p.base 2 := by
  refine report_direct_partial ⟨fun _ => false, fun _ => false⟩ (fun bs b => bs == [9] && b == 1)
    (two reading) readingSite [0, 1] (fun _ => true) (fun _ l => decide (l.idx < 1)) false rfl
    (two_lists _) (two_forward _) ?_ reading_ends (reading_plain 2 (.inr rfl)) (by decide +kernel)
  rintro x v p hv ⟨k, rfl⟩ rfl
  have h := (last_iff ..).2 hv
  have h' : readingSite.stmts.reverse.findSome? (assignsTo readingSite.call.arg) =
      some (.ref false ⟨1, []⟩) := by decide +kernel
  rw [h'] at h
  cases h
  exact ⟨reading_index, two_chain _ 1⟩

/-- `let mut y = x.clone(); y.f = 1; drop(y); use(x)`: an assignment to a part of the clone is not
taken for a change. -/
theorem store_missed : ∃ (m : Body) (at_ : Loc) (order : List Nat) (alive : Loc → Bool) (x r : Local),
    Mir.Spec.Lists m at_.block order ∧ Spec.Forward m order ∧ Spec.Ends m at_ r alive ∧ Spec.Chain m at_ x ∧
      unneeded m at_ order true alive x r = true ∧ ¬ Spec.SameValues false m at_ x r := by
  let body : List Mir.Stmt :=
    [.assign ⟨2, [.field 0]⟩ [], .other [(⟨2, []⟩, .nonUse)], .assign ⟨4, []⟩ [(⟨1, []⟩, .copy)]]
  refine ⟨two body, ⟨0, 0⟩, [0, 1], fun l => decide (l.idx < 1), 1, 2, two_lists _, two_forward _,
    two_ends _ 2 1 ?_, two_chain _ 1, by decide +kernel, ?_⟩
  · intro i hi hn
    match i with
    | 1 => decide
    | 2 => decide
    | 3 => decide
    | i + 4 => simp [body] at hi
  · intro h
    have hw : Walk (two body) (⟨0, 0⟩ :: ([⟨1, 0⟩, ⟨1, 1⟩] ++ [⟨1, 2⟩])) :=
      ⟨.jump (two_jump body), two_walk body 2 0 (by decide)⟩
    have := h Nat (counting false (two body)) (counting_fits _ _) (fun _ => 0) rfl _ _ hw 1 (by decide)
    revert this
    decide

/-- `x.clone().set(1); x.get()`: a change through a shared reference is not taken for a change. -/
theorem cell_missed : ∃ (m : Body) (at_ : Loc) (order : List Nat) (alive : Loc → Bool) (x r : Local),
    Mir.Spec.Lists m at_.block order ∧ Spec.Forward m order ∧ Spec.Ends m at_ r alive ∧ Spec.Chain m at_ x ∧
      unneeded m at_ order true alive x r = true ∧ ¬ Spec.SameValues true m at_ x r := by
  let body : List Mir.Stmt :=
    [.assign ⟨3, []⟩ [(⟨2, []⟩, .sharedBorrow)], .other [(⟨2, []⟩, .nonUse)],
      .assign ⟨4, []⟩ [(⟨1, []⟩, .sharedBorrow)]]
  refine ⟨two body, ⟨0, 0⟩, [0, 1], fun l => decide (l.idx < 1), 1, 2, two_lists _, two_forward _,
    two_ends _ 2 1 ?_, two_chain _ 1, by decide +kernel, ?_⟩
  · intro i hi hn
    match i with
    | 1 => decide
    | 2 => decide
    | 3 => decide
    | i + 4 => simp [body] at hi
  · intro h
    have hw : Walk (two body) (⟨0, 0⟩ :: ([⟨1, 0⟩, ⟨1, 1⟩] ++ [⟨1, 2⟩])) :=
      ⟨.jump (two_jump body), two_walk body 2 0 (by decide)⟩
    have := h Nat (counting true (two body)) (counting_fits _ _) (fun _ => 0) rfl _ _ hw 1 (by decide)
    revert this
    decide

/-- `let mut q = p.to_path_buf(); q.push("a"); use(p)`: what is looked at is the reference that `deref`
returned, not the clone. -/
theorem deref_missed : ∃ (T : PlaceTypes) (only : List Local → Local → Bool) (m : Body) (s : Site)
    (order : List Nat) (temp : Local → Bool) (alive : Local → Loc → Bool) (x : Local),
    s.direct = false ∧ locals T only s = some (x, 5) ∧ s.call.ret = 2 ∧
      Mir.Spec.Lists m s.block order ∧ Spec.Forward m order ∧
      Spec.Ends m ⟨s.block, (m.block s.block).stmts.length⟩ 2 (alive 2) ∧
      Spec.Ends m ⟨s.block, (m.block s.block).stmts.length⟩ 5 (alive 5) ∧
      Spec.Plain false m ⟨s.block, (m.block s.block).stmts.length⟩ 2 ∧
      report T only m s order temp alive = true ∧
      ¬ Spec.SameValues false m ⟨s.block, (m.block s.block).stmts.length⟩ x s.call.ret := by
  let body : List Mir.Stmt :=
    [.other [(⟨5, []⟩, .nonUse)], .assign ⟨3, []⟩ [(⟨2, []⟩, .mutBorrow)],
      .assign ⟨4, []⟩ [(⟨1, []⟩, .sharedBorrow)]]
  let s : Site :=
    { block := 0, call := ⟨9, 2⟩, direct := false,
      stmts := [.assign ⟨9, []⟩ true (.ref false ⟨5, [.deref]⟩)],
      pred := some (⟨6, 5⟩, [.assign ⟨6, []⟩ true (.ref false ⟨1, []⟩)]) }
  refine ⟨⟨fun _ => false, fun _ => false⟩, fun bs b => bs == [9, 5] && b == 1, two body, s, [0, 1],
    fun _ => true, fun y l => decide (l.idx < if y = 2 then 4 else 1), 1, rfl, ?_, rfl, two_lists _,
    two_forward _, two_ends _ 2 4 ?_, two_ends _ 5 1 ?_, ?_, ?_, ?_⟩
  · decide +kernel
  · intro i hi hn
    simp [body] at hi
    omega
  · intro i hi hn
    match i with
    | 1 => decide
    | 2 => decide
    | 3 => decide
    | i + 4 => simp [body] at hi
  · rintro ⟨b, i⟩ hl hc
    obtain ⟨rfl, hi⟩ := two_after hl
    match i with
    | 0 => revert hc; decide
    | 1 => exact ⟨(⟨2, []⟩, .mutBorrow), by decide, rfl, .inr rfl⟩
    | 2 => revert hc; decide
    | 3 => revert hc; decide
    | i + 4 => simp [body] at hi
  · decide +kernel
  · intro h
    have hw : Walk (two body) (⟨0, 0⟩ :: ([⟨1, 0⟩, ⟨1, 1⟩] ++ [⟨1, 2⟩])) :=
      ⟨.jump (two_jump body), two_walk body 2 0 (by decide)⟩
    have := h Nat (counting false (two body)) (counting_fits _ _) (fun _ => 0) rfl _ _ hw 1 (by decide)
    revert this
    decide

/-- A branch: in one arm the local is used after the clone, in the other one it is changed before. -/
def fork : Body :=
  [⟨[], .call ⟨2, []⟩ [(⟨9, []⟩, .move)] [1]⟩, ⟨[], .other [] [2, 3]⟩,
    ⟨[.other [(⟨2, []⟩, .nonUse)], .assign ⟨4, []⟩ [(⟨1, []⟩, .copy)]], .other [] []⟩,
    ⟨[.assign ⟨1, [.field 0]⟩ [], .assign ⟨4, []⟩ [(⟨2, []⟩, .sharedBorrow)]], .other [] []⟩]

theorem fork_succs {b c : Nat} (h : c ∈ fork.succs b) :
    (b = 0 ∧ c = 1) ∨ (b = 1 ∧ (c = 2 ∨ c = 3)) := by
  match b with
  | 0 => exact .inl ⟨rfl, by simpa [fork, Body.succs, Body.block, Mir.Term.succs] using h⟩
  | 1 => exact .inr ⟨rfl, by simpa [fork, Body.succs, Body.block, Mir.Term.succs] using h⟩
  | 2 => simp [fork, Body.succs, Body.block, Mir.Term.succs] at h
  | 3 => simp [fork, Body.succs, Body.block, Mir.Term.succs] at h
  | b + 4 => simp [fork, Body.succs, Body.block, Mir.Term.succs] at h

theorem fork_leads {b c : Nat} (h : Leads fork b c) : b < c ∧ b ≤ 1 ∧ c ≤ 3 := by
  induction h with
  | one h => have := fork_succs h; omega
  | more h _ ih => have := fork_succs h; omega

/-- Only the first use in the list is compared with the storage of the clone: with uses in two branches, a
change of the local in the other branch is missed. -/
theorem branch_missed : ∃ (m : Body) (at_ : Loc) (order : List Nat) (alive : Loc → Bool) (x r : Local),
    Mir.Spec.Lists m at_.block order ∧ Spec.Forward m order ∧ Spec.Ends m at_ r alive ∧
      Spec.Plain false m at_ r ∧
      unneeded m at_ order true alive x r = true ∧ ¬ Spec.SameValues false m at_ x r := by
  refine ⟨fork, ⟨0, 0⟩, [0, 1, 2, 3], fun l => l.block != 2, 1, 2, ⟨by decide, ?_⟩, ?_, ?_, ?_,
    by decide +kernel, ?_⟩
  · intro c
    simp only [List.mem_cons, List.not_mem_nil, or_false]
    constructor
    · rintro (rfl | rfl | rfl | rfl)
      · exact .inl rfl
      · exact .inr (.one (by decide))
      · exact .inr (.more (c := 1) (by decide) (.one (by decide)))
      · exact .inr (.more (c := 1) (by decide) (.one (by decide)))
    · rintro (rfl | h)
      · exact .inl rfl
      · have := fork_leads h
        omega
  · have hlt : [0, 1, 2, 3].Pairwise (· < ·) := by decide
    refine List.Pairwise.imp ?_ hlt
    intro b c hbc h
    have := fork_leads h
    omega
  · rintro ⟨b, i⟩ - hal ⟨c, j⟩ hk
    have hb : b = 2 := by simpa using hal
    subst hb
    have hc : c = 2 := by
      rcases hk with hk | hk
      · cases hk; rfl
      · rcases (Mir.after_cases hk).1 with ⟨h, -⟩ | h
        · exact h
        · have := fork_leads h
          simp only at this
          omega
    subst hc
    match j with
    | 0 => decide
    | 1 => decide
    | 2 => decide
    | j + 3 => rintro ⟨a, ha, -⟩; simp [fork, Body.places, Body.block] at ha
  · rintro ⟨b, i⟩ hl hc
    obtain ⟨h1, h2⟩ := Mir.after_cases hl
    simp only at h1 h2
    match b, i with
    | 0, 0 =>
      rcases h1 with ⟨-, h⟩ | h
      · omega
      · have := fork_leads h; omega
    | 0, i + 1 => cases hc
    | 1, 0 => revert hc; decide
    | 1, i + 1 => cases hc
    | 2, 0 => revert hc; decide
    | 2, 1 => revert hc; decide
    | 2, 2 => revert hc; decide
    | 2, i + 3 => simp [fork, Body.block] at h2
    | 3, 0 => revert hc; decide
    | 3, 1 => revert hc; decide
    | 3, 2 => revert hc; decide
    | 3, i + 3 => simp [fork, Body.block] at h2
    | b + 4, 0 => cases hc
    | b + 4, i + 1 => cases hc
  · intro h
    have hw : Walk fork (⟨0, 0⟩ :: ([⟨1, 0⟩, ⟨3, 0⟩] ++ [⟨3, 1⟩])) :=
      ⟨.jump (b := 0) (by decide), .jump (b := 1) (by decide), .next (by decide), trivial⟩
    have := h Nat (counting false fork) (counting_fits _ _) (fun _ => 0) rfl _ _ hw 2 (by decide)
    revert this
    decide

end Verif.Clones
