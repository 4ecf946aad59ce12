import Verif.Borrow.Lemmas

/-! The possible borrowers of a local. -/

namespace Verif.Borrow

open Model
open Verif.Mir (Local Place Elem)

/-- The relation computes what can be reached in one step or more. -/
theorem closure (r : List (Local × Local)) (n : Nat) (hr : ∀ e ∈ r, e.2 < n) (a v : Local) :
    v ∈ reachable r a n ↔ Spec.Reach (fun x y => (x, y) ∈ r) a v :=
  reachable_iff hr a v

/-- Facts about the types of locals. -/
structure Typed (T : Types) (n : Nat) : Prop where
  /-- Mutable references are not copied. -/
  moved : ∀ x, T.mutRef x = true → T.copy x = false

theorem origins_lt {T : Types} {n : Nat} {body : List Instr} (hw : ∀ i ∈ body, Spec.Within n i) :
    ∀ e ∈ body.flatMap originPairs, e.2 < n := by
  intro e he
  obtain ⟨i, hi, he⟩ := List.mem_flatMap.1 he
  exact originPairs_lt (hw i hi) e he

theorem borrows_lt {T : Types} {n : Nat} {body : List Instr} (hw : ∀ i ∈ body, Spec.Within n i) :
    ∀ e ∈ body.flatMap (pairs T (origins T n body)), e.2 < n := by
  intro e he
  obtain ⟨i, hi, he⟩ := List.mem_flatMap.1 he
  refine pairs_lt ?_ (hw i hi) e he
  intro x s hs y hy
  exact path_lt (origins_lt (T := T) hw) (((row_some (origins_lt (T := T) hw) hs).2.2.2 y).1 hy).1

/-- What holds in all states. -/
structure Good (T : Types) (r o : Rel) (s : Spec.State) : Prop where
  refs : ∀ x t, s.refs x t → Path r t x
  mrefs : ∀ x y, s.mrefs x y → Path o x y ∧ T.holdsMut x = true ∧ T.holdsMut y = false ∧ y ≠ 0

theorem Good.reach {T : Types} {r o : Rel} {s : Spec.State} (h : Good T r o s) {x t : Local}
    (hr : Spec.Reach s.refs x t) : Path r t x := by
  induction hr with
  | one h' => exact h.refs _ _ h'
  | more h' _ ih => exact reach_trans ih (h.refs _ _ h')

theorem Good.mreach {T : Types} {r o : Rel} {s : Spec.State} (h : Good T r o s) {x y : Local}
    (hr : Spec.Reach s.mrefs x y) : Path o x y ∧ T.holdsMut x = true ∧ T.holdsMut y = false ∧ y ≠ 0 := by
  induction hr with
  | one h' => exact h.mrefs _ _ h'
  | more h' _ ih => exact ⟨reach_trans (h.mrefs _ _ h').1 ih.1, (h.mrefs _ _ h').2.1, ih.2.2⟩

theorem pointee_direct {r : Local → Local → Prop} {d : Place} {x : Local} (hd : .deref ∉ d.proj)
    (h : Spec.Pointee r d x) : x = d.base := by
  rcases h with h | h
  · exact h.2
  · exact absurd h.1 hd

theorem carries_mem {r : Local → Local → Prop} {a : Operand} {args : List Operand} {t : Local}
    (ha : a ∈ args) (h : Spec.Carries r a t) :
    ∃ p, a.place = some p ∧ Spec.Reach r p.base t ∧ p.base ∈ args.flatMap opLocal := by
  obtain ⟨p, hp, hr⟩ := h
  exact ⟨p, hp, hr, List.mem_flatMap.2 ⟨a, ha, opLocal_mem.2 ⟨p, hp, rfl⟩⟩⟩

/-- New references from operands of an assignment. -/
theorem via_operand {T : Types} {r o : Rel} {s : Spec.State} (h : Good T r o s) {d : Place}
    {l : List Local} {x t : Local}
    (hsub : ∀ e ∈ (l.filter (· != d.base)).map (fun x => (x, d.base)), e ∈ r)
    (hx : x ∈ l) (ht : Spec.Reach s.refs x t) : Path r t d.base := by
  by_cases hxd : x = d.base
  · exact hxd ▸ h.reach ht
  · refine reach_trans (h.reach ht) (.one (hsub _ ?_))
    exact List.mem_map.2 ⟨x, List.mem_filter.2 ⟨hx, by simpa using hxd⟩, rfl⟩

theorem good_step {T : Types} {n : Nat} {body : List Instr} (ht : Typed T n)
    (hw : ∀ i ∈ body, Spec.Within n i) (hs : ∀ i ∈ body, Spec.Simple T i) {s s' : Spec.State} {i : Instr}
    (hi : i ∈ body)
    (h : Good T (body.flatMap (pairs T (origins T n body))) (body.flatMap originPairs) s)
    (hstep : Spec.Step T s i s') :
    Good T (body.flatMap (pairs T (origins T n body))) (body.flatMap originPairs) s' := by
  have sub : ∀ e ∈ pairs T (origins T n body) i, e ∈ body.flatMap (pairs T (origins T n body)) :=
    fun e he => List.mem_flatMap.2 ⟨i, hi, he⟩
  have osub : ∀ e ∈ originPairs i, e ∈ body.flatMap originPairs :=
    fun e he => List.mem_flatMap.2 ⟨i, hi, he⟩
  have hsi := hs i hi
  have hwi := hw i hi
  cases hstep with
  | @assign _ d g v h1 h2 =>
    obtain ⟨hd, hp, hm⟩ := hsi
    refine ⟨?_, ?_⟩
    · intro x t hx
      rcases h1 x t hx with hx | ⟨hx, hg, hv⟩
      · exact h.refs x t hx
      have := pointee_direct hd hx
      subst this
      cases v with
      | ref m p =>
        have he := sub (p.base, d.base) (by simp [pairs])
        rcases hv with hv | hv
        · exact hv.2 ▸ .one he
        · exact reach_trans (h.reach hv.2) (.one he)
      | derefCopy p =>
        exact reach_trans (h.reach hv) (.one (sub (p.base, d.base) (by simp [pairs])))
      | use a =>
        obtain ⟨p, hpl, hr⟩ := hv
        have hgt : g = true := hg
        exact via_operand h (l := opLocal a)
          (fun e he => sub e (by simpa [pairs, hgt, rvLocals] using he)) (opLocal_mem.2 ⟨p, hpl, rfl⟩) hr
      | cast a =>
        obtain ⟨p, hpl, hr⟩ := hv
        have hgt : g = true := hg
        exact via_operand h (l := opLocal a)
          (fun e he => sub e (by simpa [pairs, hgt, rvLocals] using he)) (opLocal_mem.2 ⟨p, hpl, rfl⟩) hr
      | ops os =>
        obtain ⟨a, ha, p, hpl, hr⟩ := hv
        have hgt : g = true := hg
        exact via_operand h (l := os.flatMap opLocal)
          (fun e he => sub e (by
            simp only [pairs, hgt, rvLocals, if_true]
            exact he))
          (List.mem_flatMap.2 ⟨a, ha, opLocal_mem.2 ⟨p, hpl, rfl⟩⟩) hr
      | plain => exact hv.elim
    · intro x y hx
      rcases h2 x y hx with hx | ⟨hx, hh, hv⟩
      · exact h.mrefs x y hx
      have := pointee_direct hd hx
      subst this
      have hpass := hp hh
      cases v with
      | ref m p =>
        have hmt : m = true := hpass
        subst hmt
        have he := osub (d.base, p.base) (by simp [originPairs])
        rcases hv with hv | hv
        · have := hm p rfl hv.1
          exact hv.2 ▸ ⟨.one he, hh, this⟩
        · have := h.mreach hv.2
          exact ⟨.more he this.1, hh, this.2.2⟩
      | derefCopy p => exact hpass.elim
      | use a =>
        cases a with
        | move p =>
          obtain ⟨p', hpl, hr⟩ := hv
          cases hpl
          have := h.mreach hr
          exact ⟨.more (osub (d.base, p.base) (by simp [originPairs])) this.1, hh, this.2.2⟩
        | copy p => exact hpass.elim
        | const => exact hpass.elim
      | cast a =>
        cases a with
        | move p =>
          obtain ⟨p', hpl, hr⟩ := hv
          cases hpl
          have := h.mreach hr
          exact ⟨.more (osub (d.base, p.base) (by simp [originPairs])) this.1, hh, this.2.2⟩
        | copy p => exact hpass.elim
        | const => exact hpass.elim
      | ops os => exact hpass.elim
      | plain => exact hpass.elim
  | @call _ args d h1 h2 =>
    obtain ⟨hd, hdm, ha⟩ := hsi
    have held : ∀ {a : Operand} {x : Local}, a ∈ args → Spec.Carries s.mrefs a x →
        x ∈ callTargets T (origins T n body) args d ∧ T.holdsMut x = false := by
      intro a x haa hc
      obtain ⟨p, hpl, hr, hmem⟩ := carries_mem haa hc
      have hg := h.mreach hr
      obtain ⟨hmr, h0⟩ := ha a haa p hpl hg.2.1
      obtain ⟨l, hl, hxl⟩ := row_found (T := T) (origins_lt (T := T) hw) h0 (hwi.2 a haa p hpl)
        (ht.moved _ hmr) hg.1 hg.2.2.2
      refine ⟨?_, hg.2.2.1⟩
      refine List.mem_append_left _ (List.mem_flatMap.2 ⟨p.base, List.mem_filter.2 ⟨hmem, hmr⟩, ?_⟩)
      show x ∈ ((origins T n body) p.base).getD []
      have hl' : origins T n body p.base = some l := hl
      rw [hl']
      exact hxl
    refine ⟨?_, ?_⟩
    · intro x t hx
      rcases h1 x t hx with hx | ⟨hx, a, haa, hc⟩
      · exact h.refs x t hx
      obtain ⟨p, hpl, hr, hmem⟩ := carries_mem haa hc
      have hxt : x ∈ callTargets T (origins T n body) args d := by
        rcases hx with ⟨hx, hreg⟩ | ⟨b, hb, hx⟩
        · have := pointee_direct hd hx
          subst this
          refine List.mem_append_right _ ?_
          rw [if_pos (hreg hd)]
          simp
        · exact (held hb hx).1
      refine reach_trans (h.reach hr) (.one (sub (p.base, x) ?_))
      simp only [pairs, List.mem_flatMap, List.mem_append, List.mem_map]
      refine ⟨x, hxt, ?_⟩
      by_cases hmr : T.mutRef p.base = true
      · exact .inr ⟨p.base, List.mem_filter.2 ⟨hmem, hmr⟩, rfl⟩
      · exact .inl ⟨p.base, List.mem_filter.2 ⟨hmem, by simpa using hmr⟩, rfl⟩
    · intro x y hx
      rcases h2 x y hx with hx | ⟨hx, hh, -⟩
      · exact h.mrefs x y hx
      exfalso
      rcases hx with hx | ⟨b, hb, hx⟩
      · have := pointee_direct hd hx
        subst this
        rw [hdm] at hh
        cases hh
      · rw [(held hb hx).2] at hh
        cases hh
  | other h1 h2 => exact ⟨fun x t hx => h.refs x t (h1 x t hx), fun x y hx => h.mrefs x y (h2 x y hx)⟩

theorem good_run {T : Types} {n : Nat} {body : List Instr} (ht : Typed T n)
    (hw : ∀ i ∈ body, Spec.Within n i) (hs : ∀ i ∈ body, Spec.Simple T i) {s : Spec.State}
    (h : Spec.Run T body s) :
    Good T (body.flatMap (pairs T (origins T n body))) (body.flatMap originPairs) s := by
  induction h with
  | start h1 h2 => exact ⟨fun x t hx => absurd hx (h1 x t), fun x y hx => absurd hx (h2 x y)⟩
  | step _ hi hst ih => exact good_step ht hw hs hi ih hst

/-- Every variable that refers to another one, at any time, is among its possible borrowers.

Missing: bodies that assign through references, get mutable references from calls or store them in
other values (see below), and borrowed variables of types that are copied. -/
theorem borrower_found_partial (T : Types) (n : Nat) (body : List Instr) (ht : Typed T n)
    (hw : ∀ i ∈ body, Spec.Within n i) (hs : ∀ i ∈ body, Spec.Simple T i) (s : Spec.State)
    (hrun : Spec.Run T body s) (x t : Local) (href : Spec.Reach s.refs x t)
    (h0 : t ≠ 0) (hn : t < n) (hc : T.copy t = false) (hx : x ≠ 0) :
    ∃ l, borrowers T n body t = some l ∧ x ∈ l :=
  row_found (borrows_lt (T := T) hw) h0 hn hc ((good_run ht hw hs hrun).reach href) hx

theorem mem_origins {body : List Instr} {x y : Local} :
    (x, y) ∈ body.flatMap originPairs ↔ Spec.From body x y := by
  rw [List.mem_flatMap]
  constructor
  · rintro ⟨i, hi, h⟩
    cases i with
    | assign d g v =>
      cases v with
      | ref m p =>
        cases m with
        | true => simp only [originPairs, List.mem_singleton] at h; cases h; exact .borrow hi
        | false => cases h
      | use o =>
        cases o with
        | move p => simp only [originPairs, List.mem_singleton] at h; cases h; exact .move hi
        | copy p => cases h
        | const => cases h
      | cast o =>
        cases o with
        | move p => simp only [originPairs, List.mem_singleton] at h; cases h; exact .cast hi
        | copy p => cases h
        | const => cases h
      | derefCopy p => cases h
      | ops os => cases h
      | plain => cases h
    | call args d => cases h
    | other => cases h
  · intro h
    cases h with
    | borrow hi => exact ⟨_, hi, by simp [originPairs]⟩
    | move hi => exact ⟨_, hi, by simp [originPairs]⟩
    | cast hi => exact ⟨_, hi, by simp [originPairs]⟩

theorem path_from {body : List Instr} {x y : Local} :
    Path (body.flatMap originPairs) x y ↔ Spec.Reach (Spec.From body) x y := by
  constructor
  · intro h
    induction h with
    | one h => exact .one (mem_origins.1 h)
    | more h _ ih => exact .more (mem_origins.1 h) ih
  · intro h
    induction h with
    | one h => exact .one (mem_origins.2 h)
    | more h _ ih => exact .more (mem_origins.2 h) ih

theorem mem_operands {g : Bool} {l : List Local} {d : Place} {x y : Local}
    (h : (x, y) ∈ (if g = true then (l.filter (· != d.base)).map fun x => (x, d.base) else [])) :
    g = true ∧ x ∈ l ∧ x ≠ d.base ∧ y = d.base := by
  split at h
  · obtain ⟨z, hz, he⟩ := List.mem_map.1 h
    cases he
    obtain ⟨h1, h2⟩ := List.mem_filter.1 hz
    exact ⟨by assumption, h1, by simpa using h2, rfl⟩
  · cases h

theorem mem_pairs {T : Types} {n : Nat} {body : List Instr} (hw : ∀ i ∈ body, Spec.Within n i)
    {x y : Local} :
    (x, y) ∈ body.flatMap (pairs T (origins T n body)) ↔ Spec.Lends T body x y := by
  have mkop : ∀ {l : List Local} {d : Place} {z : Local}, z ∈ l → z ≠ d.base →
      (z, d.base) ∈ (l.filter (· != d.base)).map fun x => (x, d.base) := by
    intro l d z hz hne
    exact List.mem_map.2 ⟨z, List.mem_filter.2 ⟨hz, by simpa using hne⟩, rfl⟩
  have mkcall : ∀ {args : List Operand} {d : Place} {p : Place} {o : Operand} {z : Local}, o ∈ args →
      o.place = some p → z ∈ callTargets T (origins T n body) args d →
      (p.base, z) ∈ pairs T (origins T n body) (.call args d) := by
    intro args d p o z ho hp hz
    have hmem : p.base ∈ args.flatMap opLocal := List.mem_flatMap.2 ⟨o, ho, opLocal_mem.2 ⟨p, hp, rfl⟩⟩
    simp only [pairs, List.mem_flatMap, List.mem_append, List.mem_map]
    refine ⟨z, hz, ?_⟩
    by_cases hmr : T.mutRef p.base = true
    · exact .inr ⟨p.base, List.mem_filter.2 ⟨hmem, hmr⟩, rfl⟩
    · exact .inl ⟨p.base, List.mem_filter.2 ⟨hmem, by simpa using hmr⟩, rfl⟩
  rw [List.mem_flatMap]
  constructor
  · rintro ⟨i, hi, h⟩
    cases i with
    | assign d g v =>
      cases v with
      | ref m p => simp only [pairs, List.mem_singleton] at h; cases h; exact .borrow hi
      | derefCopy p => simp only [pairs, List.mem_singleton] at h; cases h; exact .read hi
      | use o =>
        obtain ⟨rfl, hm, hne, rfl⟩ := mem_operands h
        obtain ⟨p, hp, rfl⟩ := opLocal_mem.1 hm
        exact .use hi hp hne
      | cast o =>
        obtain ⟨rfl, hm, hne, rfl⟩ := mem_operands h
        obtain ⟨p, hp, rfl⟩ := opLocal_mem.1 hm
        exact .cast hi hp hne
      | ops os =>
        obtain ⟨rfl, hm, hne, rfl⟩ := mem_operands h
        obtain ⟨o, ho, hm⟩ := List.mem_flatMap.1 hm
        obtain ⟨p, hp, rfl⟩ := opLocal_mem.1 hm
        exact .part hi ho hp hne
      | plain =>
        obtain ⟨-, hm, -⟩ := mem_operands h
        cases hm
    | call args d =>
      simp only [pairs, List.mem_flatMap, List.mem_append, List.mem_map] at h
      obtain ⟨z, hz, h⟩ := h
      have hx : x ∈ args.flatMap opLocal ∧ z = y := by
        rcases h with ⟨w, hw', he⟩ | ⟨w, hw', he⟩
        · cases he; exact ⟨(List.mem_filter.1 hw').1, rfl⟩
        · cases he; exact ⟨(List.mem_filter.1 hw').1, rfl⟩
      obtain ⟨hx, rfl⟩ := hx
      obtain ⟨o, ho, hm⟩ := List.mem_flatMap.1 hx
      obtain ⟨p, hp, rfl⟩ := opLocal_mem.1 hm
      rcases List.mem_append.1 hz with hz | hz
      · obtain ⟨r, hr, hz⟩ := List.mem_flatMap.1 hz
        obtain ⟨hr, hmr⟩ := List.mem_filter.1 hr
        obtain ⟨o', ho', hr⟩ := List.mem_flatMap.1 hr
        obtain ⟨p', hp', rfl⟩ := opLocal_mem.1 hr
        cases hor : origins T n body p'.base with
        | none => rw [hor] at hz; cases hz
        | some l =>
          rw [hor] at hz
          obtain ⟨h0, -, hc, hl⟩ := row_some (origins_lt (T := T) hw) hor
          obtain ⟨hpath, hy⟩ := (hl z).1 hz
          exact .stored hi ho hp ho' hp' hmr h0 hc (path_from.1 hpath) hy
      · split at hz
        · rename_i hreg
          simp only [List.mem_singleton] at hz
          subst hz
          exact .result hi ho hp hreg
        · cases hz
    | other => cases h
  · intro h
    cases h with
    | borrow hi => exact ⟨_, hi, by simp [pairs]⟩
    | read hi => exact ⟨_, hi, by simp [pairs]⟩
    | use hi hp hne =>
      refine ⟨_, hi, ?_⟩
      simp only [pairs, rvLocals, if_true]
      exact mkop (opLocal_mem.2 ⟨_, hp, rfl⟩) hne
    | cast hi hp hne =>
      refine ⟨_, hi, ?_⟩
      simp only [pairs, rvLocals, if_true]
      exact mkop (opLocal_mem.2 ⟨_, hp, rfl⟩) hne
    | part hi ho hp hne =>
      refine ⟨_, hi, ?_⟩
      simp only [pairs, rvLocals, if_true]
      exact mkop (List.mem_flatMap.2 ⟨_, ho, opLocal_mem.2 ⟨_, hp, rfl⟩⟩) hne
    | result hi ho hp hreg =>
      refine ⟨_, hi, mkcall ho hp (List.mem_append_right _ ?_)⟩
      rw [if_pos hreg]
      simp
    | @stored args d o p o' p' y hi ho hp ho' hp' hmr h0 hc hr hy =>
      refine ⟨_, hi, mkcall ho hp (List.mem_append_left _ (List.mem_flatMap.2 ⟨p'.base, ?_, ?_⟩))⟩
      · exact List.mem_filter.2 ⟨List.mem_flatMap.2 ⟨o', ho', opLocal_mem.2 ⟨p', hp', rfl⟩⟩, hmr⟩
      · obtain ⟨l, hl, hyl⟩ := row_found (T := T) (origins_lt (T := T) hw) h0 ((hw _ hi).2 o' ho' p' hp')
          hc (path_from.2 hr) hy
        have hl' : origins T n body p'.base = some l := hl
        simp only [hl']
        exact hyl

/-- The possible borrowers are exactly the variables that may get at the borrowed one by a chain of
instructions. -/
theorem borrowers_exact (T : Types) (n : Nat) (body : List Instr) (hw : ∀ i ∈ body, Spec.Within n i)
    (t x : Local) :
    (∃ l, borrowers T n body t = some l ∧ x ∈ l) ↔
      (t ≠ 0 ∧ t < n ∧ T.copy t = false ∧ x ≠ 0) ∧ Spec.Reach (Spec.Lends T body) t x := by
  have hp : ∀ {a b}, Path (body.flatMap (pairs T (origins T n body))) a b ↔
      Spec.Reach (Spec.Lends T body) a b := by
    intro a b
    constructor
    · intro h
      induction h with
      | one h => exact .one ((mem_pairs hw).1 h)
      | more h _ ih => exact .more ((mem_pairs hw).1 h) ih
    · intro h
      induction h with
      | one h => exact .one ((mem_pairs hw).2 h)
      | more h _ ih => exact .more ((mem_pairs hw).2 h) ih
  constructor
  · rintro ⟨l, hl, hx⟩
    obtain ⟨h0, hn, hc, h⟩ := row_some (borrows_lt (T := T) hw) hl
    exact ⟨⟨h0, hn, hc, ((h x).1 hx).2⟩, hp.1 ((h x).1 hx).1⟩
  · rintro ⟨⟨h0, hn, hc, hx⟩, h⟩
    exact row_found (borrows_lt (T := T) hw) h0 hn hc (hp.2 h) hx

/-- Only variables that are borrowed are in the map. -/
theorem nonempty (T : Types) (n : Nat) (body : List Instr) (t : Local) (l : List Local)
    (h : borrowers T n body t = some l) : l ≠ [] := by
  simp only [borrowers, row] at h
  split at h
  · cases h
  · split at h
    · cases h
    · cases h
      rename_i he
      simpa using he

/-- The check of borrowers between two bounds. -/
theorem bounded_iff (map : Local → Option (List Local)) (live : Local → Bool) (below above : List Local)
    (b : Local) :
    bounded map live below above b = true ↔
      ∃ l, map b = some l ∧ (∀ x ∈ below, x ∈ l ∧ live x = true) ∧
        ∀ x ∈ l, live x = true → x ∈ above := by
  simp only [bounded]
  cases hm : map b with
  | none => simp
  | some l =>
    simp only [Option.some.injEq, exists_eq_left']
    by_cases hb : below.all (l.filter live).contains = true
    · have hb' : ∀ x ∈ below, x ∈ l ∧ live x = true := by
        simpa [List.all_eq_true, List.mem_filter] using hb
      simp only [hb, Bool.not_true, Bool.false_eq_true, if_false]
      constructor
      · intro h
        refine ⟨hb', fun x hx hl => ?_⟩
        rw [List.isEmpty_iff, List.filter_eq_nil_iff] at h
        have := h x (List.mem_filter.2 ⟨hx, hl⟩)
        simpa using this
      · rintro ⟨-, h⟩
        rw [List.isEmpty_iff, List.filter_eq_nil_iff]
        intro x hx
        obtain ⟨hx, hl⟩ := List.mem_filter.1 hx
        simpa using h x hx hl
    · have hb0 : below.all (l.filter live).contains = false := by simpa using hb
      simp only [hb0, Bool.not_false, if_true, Bool.false_eq_true, false_iff]
      rintro ⟨h, -⟩
      refine hb (List.all_eq_true.2 fun x hx => ?_)
      simpa [List.mem_filter] using h x hx

/-- The check of borrowers: those with storage are the given ones. -/
theorem only_iff (map : Local → Option (List Local)) (live : Local → Bool) (bs : List Local) (b : Local) :
    only map live bs b = true ↔ ∃ l, map b = some l ∧ ∀ x, x ∈ bs ↔ x ∈ l ∧ live x = true := by
  rw [only, bounded_iff]
  constructor
  · rintro ⟨l, hl, h1, h2⟩
    exact ⟨l, hl, fun x => ⟨h1 x, fun h => h2 x h.1 h.2⟩⟩
  · rintro ⟨l, hl, h⟩
    exact ⟨l, hl, fun x hx => (h x).1 hx, fun x hx hlv => (h x).2 ⟨hx, hlv⟩⟩

/-- When a variable is said to have only the given borrowers, every variable with storage that refers to
it is one of them.

Missing: as above. -/
theorem only_borrowers_partial (T : Types) (n : Nat) (body : List Instr) (ht : Typed T n)
    (hw : ∀ i ∈ body, Spec.Within n i) (hs : ∀ i ∈ body, Spec.Simple T i) (live : Local → Bool)
    (bs : List Local) (b : Local) (h : only (borrowers T n body) live bs b = true) (s : Spec.State)
    (hrun : Spec.Run T body s) (x : Local) (href : Spec.Reach s.refs x b) (hx : x ≠ 0)
    (hl : live x = true) : x ∈ bs := by
  obtain ⟨l, hm, -, ha⟩ := (bounded_iff _ _ _ _ _).1 h
  obtain ⟨h0, hn, hc, -⟩ := row_some (borrows_lt (T := T) hw) hm
  obtain ⟨l', hm', hxl⟩ := borrower_found_partial T n body ht hw hs s hrun x b href h0 hn hc hx
  rw [hm] at hm'
  cases hm'
  exact ha x hxl hl

/-- The same with an upper bound only. -/
theorem at_most_partial (T : Types) (n : Nat) (body : List Instr) (ht : Typed T n)
    (hw : ∀ i ∈ body, Spec.Within n i) (hs : ∀ i ∈ body, Spec.Simple T i) (live : Local → Bool)
    (below above : List Local) (b : Local)
    (h : bounded (borrowers T n body) live below above b = true) (s : Spec.State)
    (hrun : Spec.Run T body s) (x : Local) (href : Spec.Reach s.refs x b) (hx : x ≠ 0)
    (hl : live x = true) : x ∈ above := by
  obtain ⟨l, hm, -, ha⟩ := (bounded_iff _ _ _ _ _).1 h
  obtain ⟨h0, hn, hc, -⟩ := row_some (borrows_lt (T := T) hw) hm
  obtain ⟨l', hm', hxl⟩ := borrower_found_partial T n body ht hw hs s hrun x b href h0 hn hc hx
  rw [hm] at hm'
  cases hm'
  exact ha x hxl hl

/-! ### Examples -/

/-- A whole local. -/
def whole (x : Local) : Place := ⟨x, []⟩

/-- What a local refers to. -/
def target (x : Local) : Place := ⟨x, [.deref]⟩

/-- `_1: String`, `_2: Vec<&String>`, `_3 = &mut _2`, `_4 = &_1`, `_5 = Vec::push(move _3, move _4)`. -/
def pushBody : List Instr :=
  [.assign (whole 3) true (.ref true (whole 2)), .assign (whole 4) true (.ref false (whole 1)),
    .call [.move (whole 3), .move (whole 4)] (whole 5)]

/-- The types of these locals. -/
def pushTypes : Types where
  copy x := x == 4 || x == 5
  mutRef x := x == 3
  region x := x == 2 || x == 3 || x == 4
  holdsMut x := x == 3

/-- The state after all of it. -/
def pushed : Spec.State where
  refs x t := (x = 3 ∧ t = 2) ∨ (x = 4 ∧ t = 1) ∨ (x = 2 ∧ t = 1)
  mrefs x y := x = 3 ∧ y = 2

theorem pushTyped : Typed pushTypes 6 := ⟨by
  intro x h
  simp only [pushTypes, beq_iff_eq] at h
  subst h
  rfl⟩

theorem pushWithin : ∀ i ∈ pushBody, Spec.Within 6 i := by
  intro i hi
  simp only [pushBody, List.mem_cons, List.not_mem_nil, or_false] at hi
  rcases hi with rfl | rfl | rfl
  · exact ⟨by decide, by decide⟩
  · exact ⟨by decide, by decide⟩
  · refine ⟨by decide, ?_⟩
    intro a ha p hp
    simp only [List.mem_cons, List.not_mem_nil, or_false] at ha
    rcases ha with rfl | rfl <;> · cases hp; decide

theorem pushSimple : ∀ i ∈ pushBody, Spec.Simple pushTypes i := by
  intro i hi
  simp only [pushBody, List.mem_cons, List.not_mem_nil, or_false] at hi
  rcases hi with rfl | rfl | rfl
  · refine ⟨by decide, fun _ => rfl, ?_⟩
    intro p hp _
    cases hp
    exact ⟨rfl, by decide⟩
  · refine ⟨by decide, fun h => by simp [pushTypes, whole] at h, ?_⟩
    intro p hp _
    cases hp
  · refine ⟨by decide, rfl, ?_⟩
    intro a ha p hp
    simp only [List.mem_cons, List.not_mem_nil, or_false] at ha
    rcases ha with rfl | rfl
    · cases hp; exact fun _ => ⟨rfl, by decide⟩
    · cases hp; exact fun h => by simp [pushTypes, whole] at h

theorem pushRun : Spec.Run pushTypes pushBody pushed := by
  have s0 : Spec.Run pushTypes pushBody ⟨fun _ _ => False, fun _ _ => False⟩ :=
    .start (fun _ _ h => h) (fun _ _ h => h)
  have s1 : Spec.Run pushTypes pushBody ⟨fun x t => x = 3 ∧ t = 2, fun x y => x = 3 ∧ y = 2⟩ := by
    refine .step s0 (i := pushBody[0]) (by simp [pushBody]) (.assign ?_ ?_)
    · rintro x t ⟨rfl, rfl⟩
      exact .inr ⟨.inl ⟨by decide, rfl⟩, trivial, .inl ⟨by decide, rfl⟩⟩
    · rintro x t ⟨rfl, rfl⟩
      exact .inr ⟨.inl ⟨by decide, rfl⟩, rfl, .inl ⟨by decide, rfl⟩⟩
  have s2 : Spec.Run pushTypes pushBody
      ⟨fun x t => (x = 3 ∧ t = 2) ∨ (x = 4 ∧ t = 1), fun x y => x = 3 ∧ y = 2⟩ := by
    refine .step s1 (i := pushBody[1]) (by simp [pushBody]) (.assign ?_ ?_)
    · rintro x t (h | ⟨rfl, rfl⟩)
      · exact .inl h
      · exact .inr ⟨.inl ⟨by decide, rfl⟩, trivial, .inl ⟨by decide, rfl⟩⟩
    · intro x y h
      exact .inl h
  refine .step s2 (i := pushBody[2]) (by simp [pushBody]) (.call ?_ ?_)
  · rintro x t (h | h | ⟨rfl, rfl⟩)
    · exact .inl (.inl h)
    · exact .inl (.inr h)
    · refine .inr ⟨.inr ⟨.move (whole 3), by simp, whole 3, rfl, .one ⟨rfl, rfl⟩⟩, .move (whole 4), by simp,
        whole 4, rfl, .one (.inr ⟨rfl, rfl⟩)⟩
  · intro x y h
    exact .inl h

/-- The vector and the reference borrow the string, and the reference to the vector borrows all. -/
example : borrowers pushTypes 6 pushBody 1 = some [2, 3, 4] ∨
    borrowers pushTypes 6 pushBody 1 = some [3, 2, 4] := by decide +kernel

example : Spec.Reach pushed.refs 2 1 := .one (.inr (.inr ⟨rfl, rfl⟩))

example : Spec.Reach pushed.refs 3 1 := .more (.inl ⟨rfl, rfl⟩) (.one (.inr (.inr ⟨rfl, rfl⟩)))

example : ∃ l, borrowers pushTypes 6 pushBody 1 = some l ∧ 2 ∈ l :=
  borrower_found_partial pushTypes 6 pushBody pushTyped pushWithin pushSimple pushed pushRun 2 1
    (.one (.inr (.inr ⟨rfl, rfl⟩))) (by decide) (by decide) rfl (by decide)

/-- After the references are gone, the vector is the only borrower. -/
example : only (borrowers pushTypes 6 pushBody) (fun x => x == 1 || x == 2) [2] 1 = true := by
  decide +kernel

example : only (borrowers pushTypes 6 pushBody) (fun x => x == 1 || x == 2) [] 1 = false := by
  decide +kernel

example : bounded (borrowers pushTypes 6 pushBody) (fun x => x == 1 || x == 2) [] [2, 5] 1 = true := by
  decide +kernel

/-- Something that was not borrowed is not in the map. -/
example : only (borrowers pushTypes 6 pushBody) (fun _ => true) [] 5 = false := by decide +kernel

example : 2 ∈ reachable [(0, 1), (1, 2), (2, 0)] 1 3 := by decide +kernel

example : 1 ∈ reachable [(0, 1), (1, 2), (2, 0)] 1 3 := by decide +kernel

example : 0 ∉ reachable [(0, 1), (1, 2)] 0 3 := by decide +kernel

/-! ### What is missed -/

/-- `let a: String; let mut v: &String = ..; let r = &mut v; *r = &a`: the variable that is assigned
through the reference is not found. -/
theorem through_deref : ∃ (T : Types) (n : Nat) (body : List Instr) (s : Spec.State) (x t : Local),
    Typed T n ∧ (∀ i ∈ body, Spec.Within n i) ∧ Spec.Run T body s ∧ Spec.Reach s.refs x t ∧ x ≠ 0 ∧
      t ≠ 0 ∧ t < n ∧ T.copy t = false ∧ ∀ l, borrowers T n body t = some l → x ∉ l := by
  let T : Types := { copy := fun x => x == 2 || x == 4, mutRef := fun x => x == 3,
                     region := fun x => x == 2 || x == 3 || x == 4, holdsMut := fun x => x == 3 }
  let body : List Instr :=
    [.assign (whole 3) true (.ref true (whole 2)), .assign (whole 4) true (.ref false (whole 1)),
      .assign (target 3) true (.use (.copy (whole 4)))]
  have s0 : Spec.Run T body ⟨fun _ _ => False, fun _ _ => False⟩ :=
    .start (fun _ _ h => h) (fun _ _ h => h)
  have s1 : Spec.Run T body ⟨fun x t => x = 3 ∧ t = 2, fun x y => x = 3 ∧ y = 2⟩ := by
    refine .step s0 (i := body[0]) (by simp [body]) (.assign ?_ ?_)
    · rintro x t ⟨rfl, rfl⟩
      exact .inr ⟨.inl ⟨by decide, rfl⟩, trivial, .inl ⟨by decide, rfl⟩⟩
    · rintro x t ⟨rfl, rfl⟩
      exact .inr ⟨.inl ⟨by decide, rfl⟩, rfl, .inl ⟨by decide, rfl⟩⟩
  have s2 : Spec.Run T body ⟨fun x t => (x = 3 ∧ t = 2) ∨ (x = 4 ∧ t = 1), fun x y => x = 3 ∧ y = 2⟩ := by
    refine .step s1 (i := body[1]) (by simp [body]) (.assign ?_ ?_)
    · rintro x t (h | ⟨rfl, rfl⟩)
      · exact .inl h
      · exact .inr ⟨.inl ⟨by decide, rfl⟩, trivial, .inl ⟨by decide, rfl⟩⟩
    · intro x y h
      exact .inl h
  have s3 : Spec.Run T body ⟨fun x t => x = 2 ∧ t = 1, fun x y => x = 3 ∧ y = 2⟩ := by
    refine .step s2 (i := body[2]) (by simp [body]) (.assign ?_ ?_)
    · rintro x t ⟨rfl, rfl⟩
      exact .inr ⟨.inr ⟨by decide, .one ⟨rfl, rfl⟩⟩, rfl, whole 4, rfl, .one (.inr ⟨rfl, rfl⟩)⟩
    · intro x y h
      exact .inl h
  refine ⟨T, 5, body, _, 2, 1, ⟨?_⟩, ?_, s3, .one ⟨rfl, rfl⟩, by decide, by decide, by decide, rfl, ?_⟩
  · intro x h
    simp only [T, beq_iff_eq] at h
    subst h
    rfl
  · intro i hi
    simp only [body, List.mem_cons, List.not_mem_nil, or_false] at hi
    rcases hi with rfl | rfl | rfl
    · exact ⟨by decide, by decide⟩
    · exact ⟨by decide, by decide⟩
    · refine ⟨by decide, ?_⟩
      intro p hp
      cases hp
      decide
  · have : borrowers T 5 body 1 = some [3, 4] := by decide +kernel
    intro l hl
    rw [this] at hl
    cases hl
    decide

/-- `let m = same(&mut v); push(m, &a)`: the variable that is changed through the reference that a call
returned is not found. -/
theorem through_call : ∃ (T : Types) (n : Nat) (body : List Instr) (s : Spec.State) (x t : Local),
    Typed T n ∧ (∀ i ∈ body, Spec.Within n i) ∧ Spec.Run T body s ∧ Spec.Reach s.refs x t ∧ x ≠ 0 ∧
      t ≠ 0 ∧ t < n ∧ T.copy t = false ∧ ∀ l, borrowers T n body t = some l → x ∉ l := by
  let T : Types := { copy := fun x => x == 4 || x == 6, mutRef := fun x => x == 3 || x == 5,
                     region := fun x => x == 2 || x == 3 || x == 4 || x == 5,
                     holdsMut := fun x => x == 3 || x == 5 }
  let body : List Instr :=
    [.assign (whole 3) true (.ref true (whole 2)), .call [.move (whole 3)] (whole 5),
      .assign (whole 4) true (.ref false (whole 1)), .call [.move (whole 5), .copy (whole 4)] (whole 6)]
  have s0 : Spec.Run T body ⟨fun _ _ => False, fun _ _ => False⟩ :=
    .start (fun _ _ h => h) (fun _ _ h => h)
  have s1 : Spec.Run T body ⟨fun _ _ => False, fun x y => x = 3 ∧ y = 2⟩ := by
    refine .step s0 (i := body[0]) (by simp [body]) (.assign ?_ ?_)
    · exact fun _ _ h => h.elim
    · rintro x t ⟨rfl, rfl⟩
      exact .inr ⟨.inl ⟨by decide, rfl⟩, rfl, .inl ⟨by decide, rfl⟩⟩
  have s2 : Spec.Run T body ⟨fun _ _ => False, fun x y => x = 5 ∧ y = 2⟩ := by
    refine .step s1 (i := body[1]) (by simp [body]) (.call ?_ ?_)
    · exact fun _ _ h => h.elim
    · rintro x t ⟨rfl, rfl⟩
      exact .inr ⟨.inl (.inl ⟨by decide, rfl⟩), rfl, .move (whole 3), by simp, whole 3, rfl, .one ⟨rfl, rfl⟩⟩
  have s3 : Spec.Run T body ⟨fun x t => x = 4 ∧ t = 1, fun x y => x = 5 ∧ y = 2⟩ := by
    refine .step s2 (i := body[2]) (by simp [body]) (.assign ?_ ?_)
    · rintro x t ⟨rfl, rfl⟩
      exact .inr ⟨.inl ⟨by decide, rfl⟩, trivial, .inl ⟨by decide, rfl⟩⟩
    · intro x y h
      exact .inl h
  have s4 : Spec.Run T body ⟨fun x t => x = 2 ∧ t = 1, fun x y => x = 5 ∧ y = 2⟩ := by
    refine .step s3 (i := body[3]) (by simp [body]) (.call ?_ ?_)
    · rintro x t ⟨rfl, rfl⟩
      exact .inr ⟨.inr ⟨.move (whole 5), by simp, whole 5, rfl, .one ⟨rfl, rfl⟩⟩, .copy (whole 4), by simp,
        whole 4, rfl, .one ⟨rfl, rfl⟩⟩
    · intro x y h
      exact .inl h
  refine ⟨T, 7, body, _, 2, 1, ⟨?_⟩, ?_, s4, .one ⟨rfl, rfl⟩, by decide, by decide, by decide, rfl, ?_⟩
  · intro x h
    simp only [T, Bool.or_eq_true, beq_iff_eq] at h
    rcases h with rfl | rfl <;> rfl
  · intro i hi
    simp only [body, List.mem_cons, List.not_mem_nil, or_false] at hi
    rcases hi with rfl | rfl | rfl | rfl
    · exact ⟨by decide, by decide⟩
    · refine ⟨by decide, ?_⟩
      intro a ha p hp
      simp only [List.mem_cons, List.not_mem_nil, or_false] at ha
      subst ha
      cases hp
      decide
    · exact ⟨by decide, by decide⟩
    · refine ⟨by decide, ?_⟩
      intro a ha p hp
      simp only [List.mem_cons, List.not_mem_nil, or_false] at ha
      rcases ha with rfl | rfl <;> · cases hp; decide
  · have : borrowers T 7 body 1 = some [4] := by decide +kernel
    intro l hl
    rw [this] at hl
    cases hl
    decide

/-- `let w = Wrapper(&mut v); w.push(&a)`: the variable that is changed through a reference inside
another value is not found. -/
theorem in_struct : ∃ (T : Types) (n : Nat) (body : List Instr) (s : Spec.State) (x t : Local),
    Typed T n ∧ (∀ i ∈ body, Spec.Within n i) ∧ Spec.Run T body s ∧ Spec.Reach s.refs x t ∧ x ≠ 0 ∧
      t ≠ 0 ∧ t < n ∧ T.copy t = false ∧ ∀ l, borrowers T n body t = some l → x ∉ l := by
  let T : Types := { copy := fun x => x == 4 || x == 6, mutRef := fun x => x == 3,
                     region := fun x => x == 2 || x == 3 || x == 4 || x == 5,
                     holdsMut := fun x => x == 3 || x == 5 }
  let body : List Instr :=
    [.assign (whole 3) true (.ref true (whole 2)), .assign (whole 5) true (.ops [.move (whole 3)]),
      .assign (whole 4) true (.ref false (whole 1)), .call [.move (whole 5), .copy (whole 4)] (whole 6)]
  have s0 : Spec.Run T body ⟨fun _ _ => False, fun _ _ => False⟩ :=
    .start (fun _ _ h => h) (fun _ _ h => h)
  have s1 : Spec.Run T body ⟨fun _ _ => False, fun x y => x = 3 ∧ y = 2⟩ := by
    refine .step s0 (i := body[0]) (by simp [body]) (.assign ?_ ?_)
    · exact fun _ _ h => h.elim
    · rintro x t ⟨rfl, rfl⟩
      exact .inr ⟨.inl ⟨by decide, rfl⟩, rfl, .inl ⟨by decide, rfl⟩⟩
  have s2 : Spec.Run T body ⟨fun _ _ => False, fun x y => x = 5 ∧ y = 2⟩ := by
    refine .step s1 (i := body[1]) (by simp [body]) (.assign ?_ ?_)
    · exact fun _ _ h => h.elim
    · rintro x t ⟨rfl, rfl⟩
      exact .inr ⟨.inl ⟨by decide, rfl⟩, rfl, .move (whole 3), by simp, whole 3, rfl, .one ⟨rfl, rfl⟩⟩
  have s3 : Spec.Run T body ⟨fun x t => x = 4 ∧ t = 1, fun x y => x = 5 ∧ y = 2⟩ := by
    refine .step s2 (i := body[2]) (by simp [body]) (.assign ?_ ?_)
    · rintro x t ⟨rfl, rfl⟩
      exact .inr ⟨.inl ⟨by decide, rfl⟩, trivial, .inl ⟨by decide, rfl⟩⟩
    · intro x y h
      exact .inl h
  have s4 : Spec.Run T body ⟨fun x t => x = 2 ∧ t = 1, fun x y => x = 5 ∧ y = 2⟩ := by
    refine .step s3 (i := body[3]) (by simp [body]) (.call ?_ ?_)
    · rintro x t ⟨rfl, rfl⟩
      exact .inr ⟨.inr ⟨.move (whole 5), by simp, whole 5, rfl, .one ⟨rfl, rfl⟩⟩, .copy (whole 4), by simp,
        whole 4, rfl, .one ⟨rfl, rfl⟩⟩
    · intro x y h
      exact .inl h
  refine ⟨T, 7, body, _, 2, 1, ⟨?_⟩, ?_, s4, .one ⟨rfl, rfl⟩, by decide, by decide, by decide, rfl, ?_⟩
  · intro x h
    simp only [T, beq_iff_eq] at h
    subst h
    rfl
  · intro i hi
    simp only [body, List.mem_cons, List.not_mem_nil, or_false] at hi
    rcases hi with rfl | rfl | rfl | rfl
    · exact ⟨by decide, by decide⟩
    · refine ⟨by decide, ?_⟩
      intro a ha p hp
      simp only [List.mem_cons, List.not_mem_nil, or_false] at ha
      subst ha
      cases hp
      decide
    · exact ⟨by decide, by decide⟩
    · refine ⟨by decide, ?_⟩
      intro a ha p hp
      simp only [List.mem_cons, List.not_mem_nil, or_false] at ha
      rcases ha with rfl | rfl <;> · cases hp; decide
  · have : borrowers T 7 body 1 = some [4] := by decide +kernel
    intro l hl
    rw [this] at hl
    cases hl
    decide

end Verif.Borrow
