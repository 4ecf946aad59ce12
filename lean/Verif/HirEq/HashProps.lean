import Verif.HirEq.Spec

namespace Verif.HirEq

theorem subs_self (e : N) : e ∈ subs e := by
  cases e; simp [subs]

theorem mem_subsL {e : N} : ∀ {l : List N}, e ∈ subsL l ↔ ∃ x ∈ l, e ∈ subs x
  | [] => by simp [subsL]
  | x :: xs => by
    rw [subsL, List.mem_append, mem_subsL]
    simp

theorem hashL_map (c : Cfg) : ∀ l : List N, hashL c l = l.map (hashN c)
  | [] => by simp [hashL]
  | x :: xs => by rw [hashL, hashL_map c xs]; rfl

theorem Plain.kid {c nm k cs x} (h : Plain c nm (.mk k cs)) (hx : x ∈ cs) : Plain c nm x := by
  intro s hs
  refine h s ?_
  rw [subs]
  exact List.mem_cons_of_mem _ (mem_subsL.mpr ⟨x, hx, hs⟩)

theorem ConstBy.kid {c F k cs x} (h : ConstBy c F (.mk k cs)) (hx : x ∈ cs) : ConstBy c F x := by
  intro s hs
  refine h s ?_
  rw [subs]
  exact List.mem_cons_of_mem _ (mem_subsL.mpr ⟨x, hx, hs⟩)

theorem eqAll_hash (c : Cfg) {rec : St → N → N → Bool × St} :
    ∀ (ls rs : List N) (st : St), (∀ st l r, l ∈ ls → r ∈ rs → (rec st l r).1 = true → hashN c l = hashN c r) →
      (eqAll rec st ls rs).1 = true → hashL c ls = hashL c rs
  | [], [], _, _, _ => rfl
  | [], _ :: _, _, _, h => by simp [eqAll] at h
  | _ :: _, [], _, _, h => by simp [eqAll] at h
  | l :: ls, r :: rs, st, hr, h => by
    rw [eqAll] at h
    by_cases hc : (rec st l r).1 = true
    · rw [if_pos hc] at h
      rw [hashL, hashL, hr st l r (by simp) (by simp) hc,
        eqAll_hash c ls rs _ (fun st a b ha hb => hr st a b (List.mem_cons_of_mem _ ha) (List.mem_cons_of_mem _ hb)) h]
    · rw [if_neg hc] at h
      cases h


theorem tag_erase (a : EK) : a.erase.tag = a.tag := by
  cases a <;> try rfl
  case matchE m => cases m <;> rfl

theorem hashE_erase (a : EK) (hm : ∀ s, a ≠ .methodCall s) (hs : List (List Tok)) : hashE a.erase hs = hashE a hs := by
  cases a <;> try rfl
  case matchE m => cases m <;> rfl
  case methodCall s => exact absurd rfl (hm s)

theorem erase_method {a : EK} {s : Seg} (h : a.erase = (EK.methodCall s).erase) : ∃ t, a = .methodCall t := by
  cases a <;> try (simp [EK.erase] at h; done)
  case matchE m => cases m <;> simp [EK.erase] at h
  case methodCall s => exact ⟨s, rfl⟩

/-- Kinds of expressions with equal data feed the same to the hasher. -/
theorem hashE_eq {a b : EK} (h : a.erase = b.erase) (hs : List (List Tok))
    (hm : ∀ s t, a = .methodCall s → b = .methodCall t → s.name = t.name) : a.tag = b.tag ∧ hashE a hs = hashE b hs := by
  refine ⟨by rw [← tag_erase a, ← tag_erase b, h], ?_⟩
  by_cases ha : ∃ s, a = .methodCall s
  · obtain ⟨s, rfl⟩ := ha
    obtain ⟨t, rfl⟩ := erase_method h.symm
    simp only [hashE, hm s t rfl rfl]
  · by_cases hb : ∃ t, b = .methodCall t
    · obtain ⟨t, rfl⟩ := hb
      obtain ⟨s, rfl⟩ := erase_method h
      exact absurd ⟨s, rfl⟩ ha
    · rw [← hashE_erase a (fun s e => ha ⟨s, e⟩), ← hashE_erase b (fun s e => hb ⟨s, e⟩), h]

/-- A kind whose hash doesn't depend on data which is ignored by the comparison. -/
def K.settled : K → Prop
  | .expr .. | .qTypeRel _ | .gLifetime _ => False
  | .blk u _ _ => u = false
  | .pStruct rest => rest = false
  | .tRef l _ => l = ⟨0, 0⟩
  | _ => True

theorem hashK_erase (c : Cfg) (k : K) (h : k.settled) (hs : List (List Tok)) : hashK c k.erase hs = hashK c k hs := by
  cases k <;> first
    | rfl
    | exact h.elim
    | (replace h : _ = _ := h; subst h; rfl)

theorem erase_expr {k : K} {i : Info} {e : EK} (h : k.erase = (K.expr i e).erase) : ∃ j f, k = .expr j f ∧ f.erase = e.erase := by
  cases k <;> simp [K.erase] at h
  case expr j f => exact ⟨j, f, rfl, h⟩

theorem erase_typeRel {k : K} {s : Seg} (h : k.erase = (K.qTypeRel s).erase) : ∃ t, k = .qTypeRel t := by
  cases k <;> simp [K.erase] at h
  case qTypeRel t => exact ⟨t, rfl⟩

theorem erase_lifetime {k : K} {l : Lt} (h : k.erase = (K.gLifetime l).erase) : ∃ m, k = .gLifetime m ∧ m.kind = l.kind := by
  cases k <;> simp [K.erase] at h
  case gLifetime m => exact ⟨m, rfl, h⟩

theorem headEq_erase {c : Cfg} {l r : K} (h : headEq c l r = true) : l.erase = r.erase := by
  simp only [headEq, Bool.and_eq_true, beq_iff_eq] at h
  exact h.1.2

theorem headEq_seg {c : Cfg} {l r : K} {a b : Seg} (h : headEq c l r = true) (ha : segOf l = some a) (hb : segOf r = some b) :
    segEq c a b = true := by
  simp only [headEq, ha, hb, Bool.and_eq_true] at h
  exact h.2

theorem segEq_name {c : Cfg} {a b : Seg} (h : segEq c a b = true) (ha : c.byRes = true → a.res = .err) : a.name = b.name := by
  unfold segEq at h
  cases hc : c.byRes with
  | false => simpa [hc] using h
  | true => simpa [hc, ha hc] using h

/-- Nodes with equal data and equal hashes of the subtrees have the same hash. -/
theorem plain_hash {c : Cfg} {nm : Nat → Nat} {F : Nat → List Tok → Option Nat} {lk rk : K} {ls rs : List N}
    (hh : headEq c lk rk = true) (hk : hashL c ls = hashL c rs)
    (hl : plainHere c nm (.mk lk ls)) (hr : plainHere c nm (.mk rk rs))
    (cl : constHere c F (.mk lk ls)) (cr : constHere c F (.mk rk rs)) : hashN c (.mk lk ls) = hashN c (.mk rk rs) := by
  have he := headEq_erase hh
  simp only [hashN, hk]
  by_cases h1 : ∃ i e, rk = .expr i e
  · obtain ⟨i, e, rfl⟩ := h1
    obtain ⟨j, f, rfl, hf⟩ := erase_expr he
    have hx := hashE_eq hf (hashL c rs) (by
      rintro s t rfl rfl
      exact segEq_name (headEq_seg hh rfl rfl) hl.2)
    have hc : j.cst = i.cst := by
      simp only [constHere] at cl cr
      rw [cl, cr, hk, hx.1, hx.2]
    simp only [hashK, hc, hx.1, hx.2]
  by_cases h2 : ∃ s, rk = .qTypeRel s
  · obtain ⟨s, rfl⟩ := h2
    obtain ⟨t, rfl⟩ := erase_typeRel he
    have := segEq_name (headEq_seg hh rfl rfl) hl.2
    simp only [hashK, this]
  by_cases h3 : ∃ l, rk = .gLifetime l
  · obtain ⟨l, rfl⟩ := h3
    obtain ⟨m, rfl, hm⟩ := erase_lifetime he
    have h1 : m.name = nm m.kind := hl.2
    have h2 : l.name = nm l.kind := hr.2
    simp only [hashK, hashLt, hm, h1, h2]
  have sr : rk.settled := by
    cases rk <;> first
      | exact trivial
      | exact hr.2
      | exact absurd ⟨_, _, rfl⟩ h1
      | exact absurd ⟨_, rfl⟩ h2
      | exact absurd ⟨_, rfl⟩ h3
  have sl : lk.settled := by
    cases lk <;> first
      | exact trivial
      | exact hl.2
      | (obtain ⟨j, f, e, _⟩ := erase_expr he.symm; exact absurd ⟨_, _, e⟩ h1)
      | (obtain ⟨j, e⟩ := erase_typeRel he.symm; exact absurd ⟨_, e⟩ h2)
      | (obtain ⟨j, e, _⟩ := erase_lifetime he.symm; exact absurd ⟨_, e⟩ h3)
  rw [← hashK_erase c lk sl, ← hashK_erase c rk sr, he]

/-! ### Paths -/

theorem segsEq_names {c : Cfg} (hb : c.byRes = false) : ∀ {ls rs : List Seg}, segsEq c ls rs = true → ∀ hs, hashSegs ls hs = hashSegs rs hs
  | [], [], _, _ => rfl
  | [], _ :: _, h, _ => by simp [segsEq] at h
  | _ :: _, [], h, _ => by simp [segsEq] at h
  | l :: ls, r :: rs, h, [] => by simp [hashSegs]
  | l :: ls, r :: rs, h, x :: xs => by
    simp only [segsEq, Bool.and_eq_true] at h
    rw [hashSegs, hashSegs, segEq_name h.1 (by simp [hb]), segsEq_names hb h.2]

theorem segsEq_length {c : Cfg} : ∀ {ls rs : List Seg}, segsEq c ls rs = true → ls.length = rs.length
  | [], [], _ => rfl
  | [], _ :: _, h => by simp [segsEq] at h
  | _ :: _, [], h => by simp [segsEq] at h
  | l :: ls, r :: rs, h => by
    simp only [segsEq, Bool.and_eq_true] at h
    simp [segsEq_length h.2]

theorem segsEq_last {c : Cfg} : ∀ {ls rs : List Seg}, segsEq c ls rs = true → ∀ {a b}, ls.getLast? = some a → rs.getLast? = some b →
    segEq c a b = true
  | [], _, _, _, _, ha, _ => by simp at ha
  | _ :: _, [], h, _, _, _, _ => by simp [segsEq] at h
  | [l], [r], h, a, b, ha, hb => by
    simp only [segsEq, Bool.and_eq_true] at h
    simp only [List.getLast?_singleton, Option.some.injEq] at ha hb
    exact ha ▸ hb ▸ h.1
  | [l], r :: r2 :: rs, h, a, b, ha, hb => by simp [segsEq] at h
  | l :: l2 :: ls, [r], h, a, b, ha, hb => by simp [segsEq] at h
  | l :: l2 :: ls, r :: r2 :: rs, h, a, b, ha, hb => by
    have h' : segsEq c (l2 :: ls) (r2 :: rs) = true := by
      rw [segsEq, Bool.and_eq_true] at h
      exact h.2
    rw [List.getLast?_cons_cons] at ha hb
    exact segsEq_last h' ha hb

theorem genericTail_some {segs : List Seg} {k : Nat} (h : genericTail segs = some k) :
    ∃ s, segs.getLast? = some s ∧ s.res ≠ .err ∧ 0 < k ∧ k ≤ segs.length := by
  unfold genericTail at h
  cases hl : segs.getLast? with
  | none => simp [hl] at h
  | some s =>
    have hne : segs ≠ [] := by rintro rfl; simp at hl
    have hlen : 0 < segs.length := List.length_pos_iff.mpr hne
    rw [hl] at h
    refine ⟨s, rfl, ?_⟩
    simp only at h
    split at h <;> first
      | (split at h
         · cases h
         · next he hlt => cases h; exact ⟨by simp [he], by omega, by omega⟩)
      | cases h
    rename_i h1 h2 h3 h4
    exact ⟨fun e => h4 e, by omega, by omega⟩

theorem lastN_length {α : Type} {k : Nat} {l : List α} (h : k ≤ l.length) : (lastN k l).length = k := by
  rw [lastN, List.length_drop]; omega

theorem lastN_last {α : Type} {k : Nat} {l : List α} (h0 : 0 < k) : (lastN k l).getLast? = l.getLast? := by
  by_cases hl : l = []
  · subst hl; simp [lastN]
  · have : 0 < l.length := List.length_pos_iff.mpr hl
    rw [lastN, List.getLast?_drop, if_neg (by omega)]

theorem lastN_map {α β : Type} (f : α → β) (k : Nat) (l : List α) : (lastN k l).map f = lastN k (l.map f) := by
  simp [lastN, List.map_drop]

theorem mem_lastN {α : Type} {k : Nat} {l : List α} {x : α} (h : x ∈ lastN k l) : x ∈ l := List.mem_of_mem_drop h

/-- Equal paths which aren't local variables have the same hash. -/
theorem segs_hash {c : Cfg} {nm : Nat → Nat} {rec : St → N → N → Bool × St} {st : St} {lres rres : Res} {ls rs : List Seg}
    {lcs rcs : List N} (hrec : ∀ st l r, l ∈ lcs → r ∈ rcs → (rec st l r).1 = true → hashN c l = hashN c r)
    (hl : plainHere c nm (.mk (.path lres ls) lcs)) (hr : plainHere c nm (.mk (.path rres rs) rcs))
    (nl : ∀ i, lres ≠ .locl i) (nr : ∀ i, rres ≠ .locl i)
    (h : (eqSegs c rec st ls lcs rs rcs).1 = true) : hashN c (.mk (.path lres ls) lcs) = hashN c (.mk (.path rres rs) rcs) := by
  have pl : ls.length = lcs.length ∧ (c.byRes = true → (genericTail ls).isSome = true) := by
    cases lres <;> first | exact absurd rfl (nl _) | exact hl.2
  have pr : rs.length = rcs.length ∧ (c.byRes = true → (genericTail rs).isSome = true) := by
    cases rres <;> first | exact absurd rfl (nr _) | exact hr.2
  have el : hashPath c lres ls (hashL c lcs) = match c.byRes, genericTail ls, ls.getLast? with
      | true, some k, some s => (lastN k (hashL c lcs)).flatten ++ [.res s.res]
      | _, _, _ => hashSegs ls (hashL c lcs) := by
    cases lres <;> first | exact absurd rfl (nl _) | rfl
  have er : hashPath c rres rs (hashL c rcs) = match c.byRes, genericTail rs, rs.getLast? with
      | true, some k, some s => (lastN k (hashL c rcs)).flatten ++ [.res s.res]
      | _, _, _ => hashSegs rs (hashL c rcs) := by
    cases rres <;> first | exact absurd rfl (nr _) | rfl
  simp only [hashN, hashK, el, er]
  cases hb : c.byRes with
  | false =>
    simp only [eqSegs, hb] at h
    by_cases hs : segsEq c ls rs = true
    · rw [if_pos hs] at h
      have := eqAll_hash c lcs rcs st hrec h
      simp only [this]
      exact segsEq_names hb hs _
    · rw [if_neg hs] at h; cases h
  | true =>
    obtain ⟨k, hk⟩ := Option.isSome_iff_exists.mp (pl.2 hb)
    obtain ⟨j, hj⟩ := Option.isSome_iff_exists.mp (pr.2 hb)
    obtain ⟨a, ha, hae, hk0, hkl⟩ := genericTail_some hk
    obtain ⟨b, hb', hbe, hj0, hjl⟩ := genericTail_some hj
    simp only [eqSegs, hb, hk, hj] at h
    simp only [hk, hj, ha, hb']
    by_cases hs : segsEq c (lastN k ls) (lastN j rs) = true
    · rw [if_pos hs] at h
      have hh := eqAll_hash c _ _ st (fun st l r h1 h2 => hrec st l r (mem_lastN h1) (mem_lastN h2)) h
      rw [hashL_map, hashL_map, lastN_map, lastN_map, ← hashL_map, ← hashL_map] at hh
      rw [hh]
      have he := segsEq_last hs ((lastN_last hk0).trans ha) ((lastN_last hj0).trans hb')
      simp only [segEq, hb, Bool.true_and] at he
      rw [if_pos (by simp [hae, hbe])] at he
      rw [eq_of_beq he]
    · rw [if_neg hs] at h; cases h

theorem binOf_some {e : N} {op : BinOp} {a b : N} (h : binOf e = some (op, a, b)) : ∃ i, e = .mk (.expr i (.binary op)) [a, b] := by
  unfold binOf at h
  split at h
  · cases h; exact ⟨_, rfl⟩
  · cases h

theorem pathOf_some {e : N} {res : Res} {segs : List Seg} {cs : List N} (h : pathOf e = some (res, segs, cs)) :
    e = .mk (.path res segs) cs := by
  unfold pathOf at h
  split at h
  · cases h; rfl
  · cases h

theorem zipOf_some {e : N} {b : Bool} {q : N} {cs : List N} (h : zipOf e = some (b, q, cs)) :
    (∃ ns, e = .mk (.cStruct ns) (q :: cs)) ∨ e = .mk .cTupleCall (q :: cs) := by
  unfold zipOf at h
  split at h
  · cases h; exact .inl ⟨_, rfl⟩
  · cases h; exact .inr rfl
  · cases h

theorem sameConst_hash {c : Cfg} {l r : N} (h : sameConst l r = true) : hashN c l = hashN c r := by
  unfold sameConst at h
  split at h
  · simp only [Bool.and_eq_true, beq_iff_eq] at h
    simp only [hashN, hashK, ← h.2, h.1.2, if_true]
  · cases h

theorem eqPath_local {c rec st l r ls lcs rs rcs} (h : (eqPath c rec st (.locl l) (.locl r) ls lcs rs rcs).1 = true) :
    l = r ∨ look st.locals l = some r := by
  simpa [eqPath] using h

theorem eqPath_other {c rec st lres rres ls lcs rs rcs} (h : (eqPath c rec st lres rres ls lcs rs rcs).1 = true)
    (hn : ¬ ∃ l r, lres = .locl l ∧ rres = .locl r) :
    (∀ i, lres ≠ .locl i) ∧ (∀ i, rres ≠ .locl i) ∧ resOk st lres rres = true ∧ eqPath c rec st lres rres ls lcs rs rcs = eqSegs c rec st ls lcs rs rcs := by
  have e : eqPath c rec st lres rres ls lcs rs rcs = if resOk st lres rres then eqSegs c rec st ls lcs rs rcs else (false, st) := by
    unfold eqPath
    split
    · exact absurd ⟨_, _, rfl, rfl⟩ hn
    · rfl
  rw [e] at h ⊢
  by_cases ho : resOk st lres rres = true
  · refine ⟨?_, ?_, ho, if_pos ho⟩
    · rintro i rfl; cases rres <;> simp [resOk] at ho
    · rintro i rfl; cases lres <;> simp [resOk] at ho
  · rw [if_neg ho] at h; cases h

theorem eqPlain_true {c rec st l r} (h : (eqPlain c rec st l r).1 = true) :
    headEq c l.kind r.kind = true ∧ (eqAll rec st l.kids r.kids).1 = true ∧
      eqPlain c rec st l r = (true, declare (eqAll rec st l.kids r.kids).2 l.kind r.kind) := by
  unfold eqPlain at h ⊢
  by_cases hh : headEq c l.kind r.kind = true
  · rw [if_pos hh] at h ⊢
    by_cases ha : (eqAll rec st l.kids r.kids).1 = true
    · rw [if_pos ha] at h ⊢; exact ⟨hh, ha, rfl⟩
    · rw [if_neg ha] at h; cases h
  · rw [if_neg hh] at h; cases h

/-- One step of the comparison is one of four. -/
theorem eqNode_cases {c : Cfg} {rec : St → N → N → Bool × St} {st : St} {l r : N} (P : Bool × St → Prop)
    (h1 : ∀ lo ll lr ro rl rr, binOf l = some (lo, ll, lr) → binOf r = some (ro, rl, rr) → P (eqBin rec st lo ll lr ro rl rr))
    (h2 : ∀ lres ls lcs rres rs rcs, pathOf l = some (lres, ls, lcs) → pathOf r = some (rres, rs, rcs) →
      P (eqPath c rec st lres rres ls lcs rs rcs))
    (h3 : ∀ b lq lcs rq rcs, zipOf l = some (b, lq, lcs) → zipOf r = some (b, rq, rcs) →
      P (if (rec st lq rq).1 then eqZip rec (rec st lq rq).2 lcs rcs else (false, (rec st lq rq).2)))
    (h3' : P (false, st))
    (h4 : (binOf l = none ∨ binOf r = none) → (pathOf l = none ∨ pathOf r = none) → (zipOf l = none ∨ zipOf r = none) →
      P (eqPlain c rec st l r)) : P (eqNode c rec st l r) := by
  unfold eqNode
  split
  · next a b => exact h1 _ _ _ _ _ _ (by assumption) (by assumption)
  · next nb =>
    have nb' : binOf l = none ∨ binOf r = none := by
      cases hl : binOf l with
      | none => exact .inl rfl
      | some x =>
        cases hr : binOf r with
        | none => exact .inr rfl
        | some y => exact absurd hr (nb _ _ _ _ _ _ hl)
    split
    · exact h2 _ _ _ _ _ _ (by assumption) (by assumption)
    · next np =>
      have np' : pathOf l = none ∨ pathOf r = none := by
        cases hl : pathOf l with
        | none => exact .inl rfl
        | some x =>
          cases hr : pathOf r with
          | none => exact .inr rfl
          | some y => exact absurd hr (np _ _ _ _ _ _ hl)
      split
      · next lb lq lcs rb rq rcs e1 e2 =>
        by_cases hb : lb = rb
        · subst hb
          rw [if_pos rfl]
          exact h3 _ _ _ _ _ e1 e2
        · rw [if_neg hb]; exact h3'
      · next nz =>
        refine h4 nb' np' ?_
        cases hl : zipOf l with
        | none => exact .inl rfl
        | some x =>
          cases hr : zipOf r with
          | none => exact .inr rfl
          | some y => exact absurd hr (nz _ _ _ _ _ _ hl)

/-- **C63 (partial).** Equal pieces of syntax have the same hash, unless they contain one of the exceptions. -/
theorem eqN_hash {c : Cfg} {nm : Nat → Nat} {F : Nat → List Tok → Option Nat} :
    ∀ (n : Nat) (st : St) (l r : N), Plain c nm l → Plain c nm r → ConstBy c F l → ConstBy c F r →
      (eqN c n st l r).1 = true → hashN c l = hashN c r
  | 0, _, _, _, _, _, _, _, h => by simp [eqN] at h
  | n + 1, st, l, r, pl, pr, cl, cr, h => by
    rw [eqN] at h
    by_cases hs : sameConst l r = true
    · exact sameConst_hash hs
    rw [if_neg hs] at h
    have hl := pl l (subs_self l)
    have hr := pr r (subs_self r)
    rw [hl.1, hr.1] at h
    revert h
    refine eqNode_cases (P := fun x => x.1 = true → hashN c l = hashN c r) ?_ ?_ ?_ ?_ ?_
    · intro lo ll lr ro rl rr e1 e2 h
      obtain ⟨i, rfl⟩ := binOf_some e1
      obtain ⟨j, rfl⟩ := binOf_some e2
      have hsw : swapOp ll.prim lo = none := hl.2
      simp only [eqBin, hsw] at h
      by_cases ho : lo = ro
      · subst ho
        simp only [if_true] at h
        have h' : (eqAll (eqN c n) st [ll, lr] [rl, rr]).1 = true := by
          by_cases ha : (eqAll (eqN c n) st [ll, lr] [rl, rr]).1 = true
          · exact ha
          · simp [ha] at h
        have hk := eqAll_hash c _ _ st (fun st a b ha hb =>
          eqN_hash n st a b (pl.kid ha) (pr.kid hb) (cl.kid ha) (cr.kid hb)) h'
        have c1 := cl _ (subs_self _)
        have c2 := cr _ (subs_self _)
        simp only [constHere] at c1 c2
        have : i.cst = j.cst := by rw [c1, c2, hk]
        simp only [hashN, hashK, hk, this]
      · simp [ho] at h
    · intro lres ls lcs rres rs rcs e1 e2 h
      cases pathOf_some e1
      cases pathOf_some e2
      by_cases hloc : ∃ l r, lres = .locl l ∧ rres = .locl r
      · obtain ⟨a, b, rfl, rfl⟩ := hloc
        rfl
      · obtain ⟨n1, n2, _, e⟩ := eqPath_other h hloc
        rw [e] at h
        exact segs_hash (nm := nm) (fun st a b ha hb => eqN_hash n st a b (pl.kid ha) (pr.kid hb) (cl.kid ha) (cr.kid hb)) hl hr n1 n2 h
    · intro b lq lcs rq rcs e1 _ _
      rcases zipOf_some e1 with ⟨ns, rfl⟩ | rfl
      · exact hl.2.elim
      · exact hl.2.elim
    · intro h; cases h
    · intro _ _ _ h
      obtain ⟨hh, ha, _⟩ := eqPlain_true h
      obtain ⟨lk, lcs⟩ := l
      obtain ⟨rk, rcs⟩ := r
      have hk := eqAll_hash c lcs rcs st (fun st a b ha hb =>
          eqN_hash n st a b (pl.kid ha) (pr.kid hb) (cl.kid ha) (cr.kid hb)) ha
      exact plain_hash hh hk hl hr (cl _ (subs_self _)) (cr _ (subs_self _))

/-- **C63 (partial).** Equal pieces of syntax have the same hash, unless they contain one of the exceptions of `plainHere`. -/
theorem equal_hash_partial {c : Cfg} {nm : Nat → Nat} {F : Nat → List Tok → Option Nat} {l r : N} (pl : Plain c nm l) (pr : Plain c nm r)
    (cl : ConstBy c F l) (cr : ConstBy c F r) (h : Equal c l r) : hashN c l = hashN c r := by
  obtain ⟨n, h⟩ := h
  exact eqN_hash n _ l r pl pr cl cr h

end Verif.HirEq
