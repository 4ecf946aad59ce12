import Verif.Share.Fold
import Verif.Share.Run

/-!
# C96: moving shared code out of the branches keeps the meaning
-/

namespace Verif.Share

variable {nm : Id → Name} {out : Name → Id} {fa : Facts} {conds : List Code} {first : Block} {others : List Block}

/-! ## From the scans -/

theorem back_spec {ss : List Stmt} {o : Nat} (h : o ≤ ss.length) : back ss o = ss[ss.length - o]? := by
  simp [back, h]

theorem take_eq {n : Nat} (h : ∀ a, a < n → TextS nm first others a) {b : Block} (hb : b ∈ others) :
    (b.stmts.take n).map (Stmt.text nm) = (first.stmts.take n).map (Stmt.text nm) := by
  apply List.ext_getElem?
  intro a
  simp only [List.getElem?_map, List.getElem?_take]
  by_cases ha : a < n
  · obtain ⟨s, t, h1, h2, h3⟩ := h a ha b hb
    simp [ha, h1, h2, h3]
  · simp [ha]

theorem drop_eq {m : Nat} (hT : ∀ o, 0 < o → o ≤ m → TextE nm first others o) {b : Block} (hb : b ∈ others) :
    (b.stmts.drop (b.stmts.length - m)).map (Stmt.text nm) = (first.stmts.drop (first.stmts.length - m)).map (Stmt.text nm) := by
  by_cases hm : m = 0
  · subst hm; simp
  · obtain ⟨_, _, h1, h2, _⟩ := hT m (by omega) (Nat.le_refl _) b hb
    obtain ⟨h1, _⟩ := back_iff.mp h1
    obtain ⟨h2, _⟩ := back_iff.mp h2
    apply List.ext_getElem?
    intro a
    simp only [List.getElem?_map, List.getElem?_drop]
    by_cases ha : a < m
    · obtain ⟨s, t, h3, h4, h5⟩ := hT (m - a) (by omega) (by omega) b hb
      obtain ⟨_, h3⟩ := back_iff.mp h3
      obtain ⟨_, h4⟩ := back_iff.mp h4
      have e1 : b.stmts.length - m + a = b.stmts.length - (m - a) := by omega
      have e2 : first.stmts.length - m + a = first.stmts.length - (m - a) := by omega
      rw [e1, e2, h3, h4, Option.map_some, Option.map_some, h5]
    · rw [List.getElem?_eq_none (by omega), List.getElem?_eq_none (by omega)]

theorem modifiesFrom_spec {cond : List Id} {op : Nat} : ∀ {us : List Id} {i : Nat}, modifiesFrom fa cond op us i = false →
    ∀ (k : Nat) u, us[k]? = some u → u ∈ cond → fa.imm op (i + k) = true
  | [], _, _, k, u, h, _ => by simp at h
  | v :: us, i, hm, k, u, h, hu => by
    simp only [modifiesFrom, Bool.or_eq_false_iff, Bool.and_eq_false_iff, Bool.not_eq_false'] at hm
    cases k with
    | zero =>
      simp at h; subst h
      rcases hm.1 with h | h
      · rw [List.contains_iff_mem.mpr hu] at h; exact nomatch h
      · exact h
    | succ k =>
      have := modifiesFrom_spec hm.2 k u (by simpa using h) hu
      have e : i + 1 + k = i + (k + 1) := by omega
      rwa [e] at this

theorem down_lt : ∀ {i : Nat} {ss : List Stmt} {p : Nat × Stmt}, p ∈ down i ss → p.1 < i
  | 0, _, p, h => by cases ‹List Stmt› <;> simp [down] at h
  | i + 1, [], p, h => by simp [down] at h
  | i + 1, s :: ss, p, h => by
    simp only [down, List.mem_cons] at h
    rcases h with h | h
    · subst h; simp
    · have := down_lt h; omega

theorem otherSite_le {n i : Nat} : ∀ {l : List (Nat × Stmt)}, (∀ p ∈ l, p.1 < i) → otherSite n l ≤ i
  | [], _ => Nat.zero_le _
  | (k, s) :: rest, h => by
    simp only [otherSite]
    split
    · exact h (k, s) (by simp)
    · exact otherSite_le fun p hp => h p (List.mem_cons_of_mem _ hp)

theorem adjust_le {i : Nat} {s : Stmt} {ss : List Stmt} : adjust i s (down i ss) ≤ i := by
  have hd := @down_lt i ss
  generalize down i ss = l at hd
  cases l with
  | nil => exact Nat.zero_le _
  | cons p rest =>
    simp only [adjust]
    split
    · exact Nat.le_refl _
    · exact otherSite_le fun p hp => hd (List.mem_cons_of_mem _ hp)

theorem startLen_plain {b : Block} (hP : Plain b) {i : Nat} (hi : i ≤ b.stmts.length) : startLen b.stmts i = i := by
  unfold startLen
  split
  · next h => have := List.getElem?_eq_none_iff.mp h; omega
  · next s h =>
    cases i with
    | zero => simp [down, adjust]
    | succ i =>
      have hlt : i < b.stmts.length := by omega
      have e : (b.stmts.take (i + 1)).reverse = b.stmts[i] :: (b.stmts.take i).reverse := by
        rw [List.take_succ_eq_append_getElem hlt]; simp
      rw [e]
      simp only [down, adjust]
      rw [if_pos]
      intro hs
      have := hP i (i + 1) _ s (List.getElem?_eq_getElem hlt) h hs
      omega

theorem scanEnd_le : ∀ {ss : List Stmt} {o : Nat}, (∀ b ∈ others, o ≤ b.stmts.length) →
    match scanEnd fa others ss o with
    | some r => r.1 ≤ o + ss.length ∧ ∀ b ∈ others, r.1 ≤ b.stmts.length
    | none => ∀ b ∈ others, o + ss.length ≤ b.stmts.length
  | [], o, h => by simp only [scanEnd]; simpa using h
  | s :: ss, o, h => by
    simp only [scanEnd]
    by_cases hc : (others.any fun b => hashDiffers fa s (back b.stmts (o + 1))) = true
    · rw [if_pos hc]
      exact ⟨by simp, h⟩
    · rw [if_neg hc]
      have h' : ∀ b ∈ others, o + 1 ≤ b.stmts.length := by
        intro b hb
        refine Nat.le_of_not_lt fun hlt => hc ?_
        rw [List.any_eq_true]
        refine ⟨b, hb, ?_⟩
        have : back b.stmts (o + 1) = none := by unfold back; rw [if_neg (by omega)]
        rw [this]; rfl
      have ih := scanEnd_le (ss := ss) h'
      have e : o + 1 + ss.length = o + (s :: ss).length := by simp; omega
      rw [e] at ih
      exact ih

theorem searchLen_le {n : Nat} (hn : n ≤ first.stmts.length) :
    searchLen fa others first.stmts n + n ≤ first.stmts.length ∧
    ∀ b ∈ others, searchLen fa others first.stmts n ≤ b.stmts.length := by
  have h := scanEnd_le (fa := fa) (others := others) (ss := (first.stmts.drop n).reverse) (o := 0) (fun _ _ => Nat.zero_le _)
  unfold searchLen
  generalize scanEnd fa others (first.stmts.drop n).reverse 0 = r at h
  cases r with
  | none =>
    simp only [List.length_reverse, List.length_drop, Nat.zero_add] at h ⊢
    exact ⟨by omega, h⟩
  | some r =>
    obtain ⟨i, s⟩ := r
    simp only [List.length_reverse, List.length_drop, Nat.zero_add] at h ⊢
    have hle : adjust i s (down i (first.stmts.drop (first.stmts.length - i))) ≤ i := adjust_le
    exact ⟨by omega, fun b hb => Nat.le_trans hle (h.2 b hb)⟩

/-- What the lint knows about the end. -/
structure EndOk (nm : Id → Name) (first : Block) (others : List Block) (n m : Nat) : Prop where
  text : ∀ o, 0 < o → o ≤ m → TextE nm first others o
  good : ∀ o, 0 < o → o ≤ m → GoodStmt nm first others n m o
  tail : ∀ b ∈ others, b.tail.map (Code.text nm) = first.tail.map (Code.text nm)
  goodTail : GoodTail nm first others n m

theorem started (ho : others ≠ []) :
    Started nm first others fa (conds.flatMap Code.uses)
      (scanStart fa nm (conds.flatMap Code.uses) others first.stmts 0 fun _ => none).i
      (scanStart fa nm (conds.flatMap Code.uses) others first.stmts 0 fun _ => none).locals :=
  scanStart_spec nm first others ho _ 0 _ rfl (Nat.zero_le _) (fun a h => by omega) (fun a t h => by omega)
    (fun _ _ h => nomatch h) (fun _ _ h => nomatch h)

theorem end_ok (hv : Valid nm out conds first others) (ho : others ≠ []) {n m : Nat}
    (h : scan fa nm conds first others = ⟨n, some m⟩) : EndOk nm first others n m := by
  have st := started (nm := nm) (fa := fa) (conds := conds) (first := first) ho
  unfold scan at h
  generalize scanStart fa nm (conds.flatMap Code.uses) others first.stmts 0 (fun _ => none) = sc at h st
  simp only [startLen_plain hv.plain st.le] at h
  by_cases hc : (sc.ordered || !tailHash fa first others) = true
  · rw [if_pos hc] at h; simp at h
  · rw [if_neg hc] at h
    simp only [Bool.or_eq_true, Bool.not_eq_true', not_or, Bool.not_eq_false] at hc
    obtain ⟨k0, k1⟩ := searchLen_le (fa := fa) (others := others) st.le
    generalize searchLen fa others first.stmts sc.i = k at h k0 k1
    obtain ⟨q, hq, hpair⟩ := st.pair
    have D := foldEnd_spec hv.distinct (n := sc.i) (q := q) (k := k) hv.resolved hq k1 k0
      (first.stmts.drop (first.stmts.length - k)) k k sc.locals (by simp; omega) rfl (Nat.le_refl _) (Nat.le_refl _)
      ⟨st.name, fun l r h => .inl (hpair l r h), fun b o' s l _ h1 h2 => by omega⟩ (fun o' h1 h2 => by omega)
    generalize foldEnd nm others (first.stmts.drop (first.stmts.length - k)) k k sc.locals = R at h D
    by_cases ht : tailEq R.2 first others = true
    · rw [if_pos ht] at h
      simp only [Found.mk.injEq, Option.some.injEq] at h
      obtain ⟨h1, h2⟩ := h
      subst h1; subst h2
      refine ⟨D.text, fun o h1 h2 => D.good o h1 (Nat.le_trans h2 D.le) h2, ?_, ?_⟩
      · intro b hb
        have h1 := hc.2
        unfold tailHash at h1
        unfold tailEq at ht
        cases hf : first.tail with
        | none =>
          simp only [hf] at h1
          have := List.all_eq_true.mp h1 b hb
          simp at this; simp [this]
        | some e =>
          simp only [hf] at h1 ht
          have h1 := List.all_eq_true.mp h1 b hb
          have ht := List.all_eq_true.mp ht b hb
          cases hb' : b.tail with
          | none => simp [hb'] at h1
          | some d =>
            simp only [hb', eqCode, Bool.and_eq_true, beq_iff_eq] at ht
            simp only [Option.map_some, Code.text, ht.1, eqUses_names D.folded.name ht.2]
      · cases hf : first.tail with
        | none =>
          intro b hb c hbc
          rcases List.mem_cons.mp hb with hb | hb
          · subst hb; rw [hf] at hbc; exact nomatch hbc
          · have h1 := hc.2
            unfold tailHash at h1
            simp only [hf] at h1
            have := List.all_eq_true.mp h1 b hb
            simp [hbc] at this
        | some e =>
          have h1 := hc.2
          unfold tailHash at h1
          unfold tailEq at ht
          simp only [hf] at h1 ht
          have R : Rel nm out first others 0 R.2 e.uses
              (fun j => ((others[j]?.bind fun b => b.tail).map fun t => t.uses).getD []) := by
            refine ⟨fun u hu => (hv.resolved first (by simp)).2 e u hf hu, fun j b hb => ?_⟩
            have hm := List.mem_of_getElem? hb
            have h1 := List.all_eq_true.mp h1 b hm
            have ht := List.all_eq_true.mp ht b hm
            cases hb' : b.tail with
            | none => simp [hb'] at h1
            | some d =>
              simp only [hb', eqCode, Bool.and_eq_true, beq_iff_eq] at ht
              simp only [hb, Option.bind_some, hb', Option.map_some, Option.getD_some]
              exact ⟨(eqUses_rel ht.2).1, fun u hu => (hv.resolved b (List.mem_cons_of_mem _ hm)).2 d u hb' hu,
                (eqUses_rel ht.2).2⟩
          obtain ⟨g1, g2⟩ := rel_good hv.distinct D.folded hq k1 k0 D.le D.text R
          intro b hb c hbc u hu
          rcases List.mem_cons.mp hb with hb | hb
          · subst hb
            rw [hf] at hbc; cases hbc
            exact g1 u hu
          · obtain ⟨j, hj, hjb⟩ := List.getElem_of_mem hb
            have hjb' : others[j]? = some b := by rw [List.getElem?_eq_getElem hj, hjb]
            exact g2 j b hjb' u (by simpa only [hjb', Option.bind_some, hbc, Option.map_some, Option.getD_some] using hu)
    · rw [if_neg ht] at h; simp at h

/-- What the lint knows about the start. -/
structure StartOk (nm : Id → Name) (fa : Facts) (conds : List Code) (first : Block) (others : List Block) (n : Nat) :
    Prop where
  le : n ≤ first.stmts.length
  text : ∀ a, a < n → TextS nm first others a
  calm : ∀ a t, a < n → first.stmts[a]? = some t →
    t.binders.any fa.ordered = false ∧ modifies fa (conds.flatMap Code.uses) t = false

theorem start_ok (hP : Plain first) (ho : others ≠ []) :
    StartOk nm fa conds first others (scan fa nm conds first others).start := by
  have st := started (nm := nm) (fa := fa) (conds := conds) (first := first) ho
  have e : (scan fa nm conds first others).start =
      (scanStart fa nm (conds.flatMap Code.uses) others first.stmts 0 fun _ => none).i := by
    simp only [scan]
    split
    · exact startLen_plain hP st.le
    · exact startLen_plain hP st.le
  rw [e]
  exact ⟨st.le, st.text, st.calm⟩

/-! ## To the meaning -/

/-- A name that is free has a use in front of which it is not declared. -/
theorem free_pos {t : Option Code} {x : Name} : ∀ {ss : List Stmt}, Free (ss.map (Stmt.text nm)) (t.map (Code.text nm)) x →
    (∃ (p : Nat) (s : Stmt) (u : Id), ss[p]? = some s ∧ u ∈ s.code.uses ∧ nm u = x ∧
      ∀ (a : Nat) (s' : Stmt), a < p → ss[a]? = some s' → x ∉ s'.binders.map nm) ∨
    ∃ c u, t = some c ∧ u ∈ c.uses ∧ nm u = x ∧ ∀ (a : Nat) (s' : Stmt), ss[a]? = some s' → x ∉ s'.binders.map nm
  | [], ⟨c, h1, h2⟩ => by
    simp only [Option.map_eq_some_iff] at h1
    obtain ⟨d, h1, rfl⟩ := h1
    simp only [Code.text, List.mem_map] at h2
    obtain ⟨u, h2, h3⟩ := h2
    exact .inr ⟨d, u, h1, h2, h3, fun a s h => by simp at h⟩
  | s :: ss, h => by
    simp only [List.map_cons, Free, text_code, text_binders] at h
    rcases h with h | ⟨h1, h2⟩
    · simp only [Code.text, List.mem_map] at h
      obtain ⟨u, h1, h2⟩ := h
      exact .inl ⟨0, s, u, rfl, h1, h2, fun a s' h => by omega⟩
    · have step : ∀ (a : Nat) (s' : Stmt), (∀ a', a = a' + 1 → ss[a']? = some s' → x ∉ s'.binders.map nm) →
          (s :: ss)[a]? = some s' → x ∉ s'.binders.map nm := by
        intro a s' ha hs
        cases a with
        | zero => simp at hs; subst hs; exact h1
        | succ a => exact ha a rfl (by simpa using hs)
      rcases free_pos h2 with ⟨p, s', u, h3, h4, h5, h6⟩ | ⟨c, u, h3, h4, h5, h6⟩
      · exact .inl ⟨p + 1, s', u, by simpa using h3, h4, h5, fun a s'' ha => step a s'' fun a' e => h6 a' s'' (by omega)⟩
      · exact .inr ⟨c, u, h3, h4, h5, fun a s'' => step a s'' fun a' _ => h6 a' s''⟩

/-- A name that is free in the end is not declared in the middle. -/
theorem free_middle {n m : Nat} (e : EndOk nm first others n m) {b : Block} (hb : b ∈ first :: others)
    (hR : Resolved nm out b) (hm : m ≤ b.stmts.length) {x : Name}
    (hx : Free ((b.stmts.drop (b.stmts.length - m)).map (Stmt.text nm)) (b.tail.map (Code.text nm)) x) :
    ∀ (a : Nat) (s : Stmt), n ≤ a → a + m < b.stmts.length → b.stmts[a]? = some s → x ∉ s.binders.map nm := by
  -- the use, its place, and that the name is not declared between the end and it
  have main : ∀ (p : Nat) (u : Id), b.stmts.length - m ≤ p → p ≤ b.stmts.length → nm u = x →
      Resolves nm out b.stmts p u → GoodUse nm n m b (b.stmts.length - p) u →
      (∀ (a : Nat) (s : Stmt), b.stmts.length - m ≤ a → a < p → b.stmts[a]? = some s → x ∉ s.binders.map nm) →
      ∀ (a : Nat) (s : Stmt), n ≤ a → a + m < b.stmts.length → b.stmts[a]? = some s → x ∉ s.binders.map nm := by
    intro p u h1 h2 h3 h4 h5 h6 a s ha hm' hs
    subst h3
    rcases h4 with ⟨a0, s0, r1, r2, r3, r4⟩ | ⟨_, r⟩
    · have hlt : a0 + m < b.stmts.length := by
        refine Nat.lt_of_not_le fun hge => h6 a0 s0 (by omega) r1 r2 (List.mem_map_of_mem r3)
      have hn : a0 < n := by
        refine Nat.lt_of_not_le fun hge => ?_
        obtain ⟨a', s', g1, g2, g3, g4⟩ := h5 a0 s0 r2 r3 hge hlt
        exact h6 a' s' g1 (by omega) g3 g4
      exact r4 a s (by omega) (by omega) hs
    · exact r a s (by omega) hs
  rcases free_pos hx with ⟨p, s, u, h1, h2, h3, h4⟩ | ⟨c, u, h1, h2, h3, h4⟩
  · rw [List.getElem?_drop] at h1
    have hp := (List.getElem?_eq_some_iff.mp h1).1
    refine main (b.stmts.length - m + p) u (by omega) (by omega) h3 (hR.1 _ s u h1 h2) ?_ ?_
    · refine e.good _ (by omega) (by omega) b hb s ?_ u h2
      rw [back_spec (by omega)]
      rw [show b.stmts.length - (b.stmts.length - (b.stmts.length - m + p)) = b.stmts.length - m + p by omega]
      exact h1
    · intro a s' ha hap hs
      refine h4 (a - (b.stmts.length - m)) s' (by omega) ?_
      rw [List.getElem?_drop]
      rw [show b.stmts.length - m + (a - (b.stmts.length - m)) = a by omega]
      exact hs
  · refine main b.stmts.length u (by omega) (Nat.le_refl _) h3 (hR.2 c u h1 h2) ?_ ?_
    · rw [Nat.sub_self]; exact e.goodTail b hb c h1 u h2
    · intro a s' ha hap hs
      refine h4 (a - (b.stmts.length - m)) s' ?_
      rw [List.getElem?_drop]
      rw [show b.stmts.length - m + (a - (b.stmts.length - m)) = a by omega]
      exact hs

section
variable {ρ V : Type} {S : Sys ρ V}

/-- After the start, the conditions choose the same block. -/
theorem same_choice (hv : Valid nm out conds first others) (hQ : Quiet S (conds.map (Code.text nm))) (hF : Frame S fa.imm)
    {n : Nat} (st : StartOk nm fa conds first others n) (hs : NoShadow nm conds first n) {E E' : Env} {w : World ρ V}
    (hE : Sep (CondName nm conds) E w)
    (h : (runStmts S ((first.stmts.take n).map (Stmt.text nm)) E w).2 = .ok E') :
    ∃ i b, (first :: others)[i]? = some b ∧ choose S (conds.map (Code.text nm)) E w = (w, .ok i) ∧
      choose S (conds.map (Code.text nm)) E' (runStmts S ((first.stmts.take n).map (Stmt.text nm)) E w).1 =
        ((runStmts S ((first.stmts.take n).map (Stmt.text nm)) E w).1, .ok i) := by
  obtain ⟨c1, ⟨i, c2, c3⟩, c4⟩ := choose_quiet hQ E w
  have hmem := runStmts_calm hF hE (ss := (first.stmts.take n).map (Stmt.text nm)) (by
    intro s' hs'
    simp only [List.mem_map] at hs'
    obtain ⟨s, hs', rfl⟩ := hs'
    obtain ⟨a, ha, has⟩ := List.getElem_of_mem hs'
    have hget : first.stmts[a]? = some s := by
      have := List.getElem?_eq_getElem ha
      rw [has, List.getElem?_take_of_lt (by simp at ha; omega)] at this
      exact this
    have han : a < n := by simp at ha; omega
    refine ⟨fun x hx => by rw [text_binders]; exact hs a s x han hget hx, fun k x hk hx => ?_⟩
    simp only [text_code, Code.text, List.getElem?_map, Option.map_eq_some_iff] at hk
    obtain ⟨u, hu, hux⟩ := hk
    rw [text_code]
    have hm := modifiesFrom_spec (i := 0) (st.calm a s han hget).2 k u hu
    rw [Nat.zero_add] at hm
    apply hm
    obtain ⟨c, hc, v, hv', hvx⟩ := hx
    rcases (hv.resolved first (by simp)).1 a s u hget (List.mem_of_getElem? hu) with ⟨a', s', r1, r2, r3, _⟩ | ⟨r, _⟩
    · refine (hs a' s' x (by omega) r2 ⟨c, hc, v, hv', hvx⟩ ?_).elim
      rw [← hux]; exact List.mem_map_of_mem r3
    · rw [r, hux, ← hvx, ← hv.conds c hc v hv']
      exact List.mem_flatMap.mpr ⟨c, hc, hv'⟩) h
  have hlt : i < (first :: others).length := by
    have := hv.count
    simp at c3 ⊢; omega
  refine ⟨i, (first :: others)[i], List.getElem?_eq_getElem hlt, Prod.ext c1 c2, ?_⟩
  obtain ⟨d1, -, -⟩ := choose_quiet hQ E' (runStmts S ((first.stmts.take n).map (Stmt.text nm)) E w).1
  refine Prod.ext d1 ?_
  rw [← c2]
  refine c4 E' _ fun c hc x hx => hmem x ?_
  simp only [List.mem_map] at hc
  obtain ⟨c, hc, rfl⟩ := hc
  simp only [Code.text, List.mem_map] at hx
  obtain ⟨u, hu, hux⟩ := hx
  exact ⟨c, hc, u, hu, hux⟩

/-- A block after its start. -/
theorem runBlock_split {ss : List TStmt} {t : Option TCode} {pre rest : List TStmt} (h : ss = pre ++ rest) {E : Env}
    {w : World ρ V} : runBlock S ⟨ss, t⟩ E w = match (runStmts S pre E w).2 with
      | .ok E' => runBlock S ⟨rest, t⟩ E' (runStmts S pre E w).1
      | .error n => ((runStmts S pre E w).1, .exit n) := by
  subst h
  simp only [runBlock, runStmts_append]
  cases (runStmts S pre E w).2 <;> rfl

theorem mem_take {n : Nat} (st : StartOk nm fa conds first others n) {b : Block} (hb : b ∈ first :: others) :
    (b.stmts.take n).map (Stmt.text nm) = (first.stmts.take n).map (Stmt.text nm) := by
  rcases List.mem_cons.mp hb with h | h
  · rw [h]
  · exact take_eq st.text h

theorem chain_ne (hv : Valid nm out conds first others) : others ≠ [] := by
  have h1 := hv.count
  have h2 := List.length_pos_iff.mpr hv.chain
  exact List.length_pos_iff.mp (by omega)

/-- **C96.**  Partial: if the conditions only read variables, and the statements that move in front of the `if` do not
declare names the conditions use, then moving the start that the lint found keeps the meaning, whatever else the code
does, for branches whose statements do not come from macros. -/
theorem start_same_partial (hv : Valid nm out conds first others) (hQ : Quiet S (conds.map (Code.text nm)))
    (hF : Frame S fa.imm) {n : Nat} (h : (scan fa nm conds first others).start = n) (hs : NoShadow nm conds first n)
    {E : Env} {w : World ρ V} (hE : Sep (CondName nm conds) E w) :
    (moveStart nm conds first others n).run S E w = (original nm conds first others).run S E w := by
  have st := start_ok (nm := nm) (fa := fa) (conds := conds) hv.plain (chain_ne hv)
  rw [h] at st
  obtain ⟨c1, ⟨i, c2, c3⟩, _⟩ := choose_quiet hQ E w
  have hlt : i < (first :: others).length := by
    have := hv.count
    simp at c3 ⊢; omega
  have horig : ∀ i b, (first :: others)[i]? = some b → (choose S (conds.map (Code.text nm)) E w) = (w, .ok i) →
      (original nm conds first others).run S E w = runBlock S (b.text nm) E w := by
    intro i b hb hc
    simp only [original, Prog.run, runStmts, hc, List.getElem?_map, hb, Option.map_some, runAfter]
  have hsplit : ∀ b : Block, b.stmts.map (Stmt.text nm) =
      (b.stmts.take n).map (Stmt.text nm) ++ (b.stmts.drop n).map (Stmt.text nm) := by
    intro b; rw [← List.map_append, List.take_append_drop]
  cases hr : (runStmts S ((first.stmts.take n).map (Stmt.text nm)) E w).2 with
  | error k =>
    rw [horig i _ (List.getElem?_eq_getElem hlt) (Prod.ext c1 c2)]
    simp only [Block.text]
    rw [runBlock_split (hsplit _), mem_take st (List.getElem_mem hlt)]
    simp only [moveStart, Prog.run, hr]
  | ok E' =>
    obtain ⟨i, b, hb, hc, hc'⟩ := same_choice hv hQ hF st hs hE hr
    rw [horig i b hb hc]
    simp only [Block.text]
    rw [runBlock_split (hsplit _), mem_take st (List.mem_of_getElem? hb)]
    simp only [moveStart, Prog.run, hr, hc', List.getElem?_map, hb, Option.map_some, runAfter]

/-- **C96.**  Partial: the same for both suggestions together, if no statement belongs to the start and to the end of a
block. -/
theorem both_same_partial (hv : Valid nm out conds first others) (hQ : Quiet S (conds.map (Code.text nm)))
    (hF : Frame S fa.imm) {n m : Nat} (h : scan fa nm conds first others = ⟨n, some m⟩) (hs : NoShadow nm conds first n)
    (hlen : ∀ b ∈ first :: others, n + m ≤ b.stmts.length)
    {E : Env} {w : World ρ V} (hE : Sep (CondName nm conds) E w) :
    (moveBoth nm conds first others n m).run S E w = (original nm conds first others).run S E w := by
  have ho := chain_ne hv
  have st := start_ok (nm := nm) (fa := fa) (conds := conds) hv.plain ho
  rw [h] at st
  have en := end_ok hv ho h
  obtain ⟨c1, ⟨i, c2, c3⟩, _⟩ := choose_quiet hQ E w
  have hlt : i < (first :: others).length := by
    have := hv.count
    simp at c3 ⊢; omega
  have horig : ∀ i b, (first :: others)[i]? = some b → (choose S (conds.map (Code.text nm)) E w) = (w, .ok i) →
      (original nm conds first others).run S E w = runBlock S (b.text nm) E w := by
    intro i b hb hc
    simp only [original, Prog.run, runStmts, hc, List.getElem?_map, hb, Option.map_some, runAfter]
  have hsplit : ∀ b ∈ first :: others, b.stmts.map (Stmt.text nm) =
      (b.stmts.take n).map (Stmt.text nm) ++ (((b.stmts.take (b.stmts.length - m)).drop n).map (Stmt.text nm) ++
        (b.stmts.drop (b.stmts.length - m)).map (Stmt.text nm)) := by
    intro b hb
    have := hlen b hb
    rw [← List.map_append, ← List.map_append]
    congr 1
    have e : b.stmts.take n = (b.stmts.take (b.stmts.length - m)).take n := by
      rw [List.take_take]; congr 1; omega
    rw [e, ← List.append_assoc, List.take_append_drop, List.take_append_drop]
  -- the end of the last block is the end of every block
  have hend : ∀ b ∈ first :: others,
      (b.stmts.drop (b.stmts.length - m)).map (Stmt.text nm) =
        (first.stmts.drop (first.stmts.length - m)).map (Stmt.text nm) ∧
      b.tail.map (Code.text nm) = first.tail.map (Code.text nm) := by
    intro b hb
    rcases List.mem_cons.mp hb with h | h
    · rw [h]; exact ⟨rfl, rfl⟩
    · exact ⟨drop_eq en.text h, en.tail b h⟩
  have hlast : others.getLast?.getD first ∈ first :: others := by
    rw [List.getLast?_eq_some_getLast ho]
    exact List.mem_cons_of_mem _ (List.getLast_mem ho)
  cases hr : (runStmts S ((first.stmts.take n).map (Stmt.text nm)) E w).2 with
  | error k =>
    rw [horig i _ (List.getElem?_eq_getElem hlt) (Prod.ext c1 c2)]
    simp only [Block.text]
    rw [runBlock_split (hsplit _ (List.getElem_mem hlt)), mem_take st (List.getElem_mem hlt)]
    simp only [moveBoth, Prog.run, hr]
  | ok E' =>
    obtain ⟨i, b, hb, hc, hc'⟩ := same_choice hv hQ hF st hs hE hr
    have hbm := List.mem_of_getElem? hb
    rw [horig i b hb hc]
    simp only [Block.text]
    rw [runBlock_split (hsplit b hbm), mem_take st hbm]
    simp only [moveBoth, Prog.run, hr, hc', List.getElem?_map, hb, Option.map_some]
    rw [(hend _ hlast).1, (hend _ hlast).2, ← (hend b hbm).1, ← (hend b hbm).2]
    rw [runBlock_split rfl]
    simp only [runBlock, runTail]
    generalize hmid : runStmts S (((b.stmts.take (b.stmts.length - m)).drop n).map (Stmt.text nm)) E'
      (runStmts S ((first.stmts.take n).map (Stmt.text nm)) E w).1 = r
    obtain ⟨w2, r2⟩ := r
    cases r2 with
    | error k => simp only [runAfter]
    | ok E2 =>
      simp only [runAfter]
      refine runBlock_agree fun x hx => ?_
      symm
      refine runStmts_env (S := S) (by rw [hmid]) fun s' hs' => ?_
      simp only [List.mem_map] at hs'
      obtain ⟨s, hs', rfl⟩ := hs'
      rw [text_binders]
      obtain ⟨a, ha, has⟩ := List.getElem_of_mem hs'
      have hget := List.getElem?_eq_getElem ha
      rw [has, List.getElem?_drop, List.getElem?_take_of_lt (by simp at ha; omega)] at hget
      have := hlen b hbm
      refine free_middle en hbm (hv.resolved b hbm) (by omega) hx (n + a) s (by omega) (by simp at ha; omega) hget
end

/-- **C96.**  No variable whose drop has to happen at the end of its branch is moved in front of the `if`, for branches
whose statements do not come from macros. -/
theorem start_unordered_partial (hP : Plain first) (ho : others ≠ []) {s : Stmt}
    (h : s ∈ first.stmts.take (scan fa nm conds first others).start) {x : Id} (hx : x ∈ s.binders) : fa.ordered x = false := by
  have st := start_ok (nm := nm) (fa := fa) (conds := conds) hP ho
  obtain ⟨a, ha, has⟩ := List.getElem_of_mem h
  have hget := List.getElem?_eq_getElem ha
  rw [has, List.getElem?_take_of_lt (by simp at ha; omega)] at hget
  have := (st.calm a s (by simp at ha; omega) hget).1
  have := List.any_eq_false.mp this x hx
  simpa using this

end Verif.Share
