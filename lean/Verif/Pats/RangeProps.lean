import Verif.Pats.RangeModel

/-!
# C36: the suggested range matches exactly the values of the alternatives
-/

namespace Verif.Pats

/-! ## Specification -/

/-- The value of an expression in a pattern. -/
def PExpr.value : PExpr → Int
  | .lit n negated => if negated then -n else n
  | .other v => v

/-- The values between two optional bounds. -/
def InRange (l r : Option Int) (incl : Bool) (v : Int) : Prop :=
  (∀ x, l = some x → x ≤ v) ∧ (∀ x, r = some x → if incl then v ≤ x else v < x)

/-- The values an alternative matches. -/
def Alt.Matches : Alt → Int → Prop
  | .expr e, v => v = e.value
  | .range l r incl, v => InRange (l.map PExpr.value) (r.map PExpr.value) incl v
  | .other m, v => m v = true

/-- The compiler rejects empty ranges. -/
def Alt.Nonempty (a : Alt) : Prop := ∃ v, a.Matches v

/-- The values an or-pattern matches. -/
def Matched (alts : List Alt) (v : Int) : Prop := ∃ a ∈ alts, a.Matches v

/-- The alternatives the lint looks at: literals and ranges between literals, at most `i128::MAX`. -/
def Alt.Literal : Alt → Prop
  | .expr (.lit n _) => (n : Int) ≤ i128Max
  | .range (some (.lit n _)) (some (.lit m _)) _ => (n : Int) ≤ i128Max ∧ (m : Int) ≤ i128Max
  | _ => False

/-! ## Lemmas -/

theorem num_new {e : PExpr} {n : Num} (h : Num.new e = some n) :
    n = ⟨e.value, some e.value⟩ ∧ -i128Max ≤ e.value ∧ e.value ≤ i128Max := by
  cases e with
  | other v => simp [Num.new, exprAsI128] at h
  | lit k neg =>
    unfold Num.new exprAsI128 at h
    simp only at h
    split at h
    · next hk =>
      simp only [Option.map_some, Option.some.injEq] at h
      subst h
      refine ⟨rfl, ?_⟩
      simp only [PExpr.value]
      split <;> omega
    · simp at h

/-- What the collected state says about the alternatives seen so far. -/
structure Inv (s : St) (seen : List Alt) : Prop where
  sem : ∀ v, Matched seen v ↔ v ∈ s.numbers ∨ ∃ r ∈ s.ranges, r.1 ≤ v ∧ v ≤ r.2
  lo : ∀ v, Matched seen v → s.min.val ≤ v
  hi : ∀ v, Matched seen v → v ≤ s.max.val
  small : ∀ v, Matched seen v → -i128Max ≤ v ∧ v ≤ i128Max
  ends : (seen = [] ∧ s.min.val = i128Max ∧ s.max.val = i128Min) ∨
    (Matched seen s.min.val ∧ Matched seen s.max.val ∧ s.min.lit = some s.min.val ∧
      s.max.lit = some (if s.incl then s.max.val else s.max.val + 1))

theorem inv_init : Inv .init [] := by
  refine ⟨?_, ?_, ?_, ?_, .inl ⟨rfl, rfl, rfl⟩⟩ <;> intro v <;> simp [Matched, St.init]

theorem matched_snoc (seen : List Alt) (a : Alt) (v : Int) :
    Matched (seen ++ [a]) v ↔ Matched seen v ∨ a.Matches v := by
  simp only [Matched, List.mem_append, List.mem_singleton, or_and_right, exists_or]
  simp

theorem inv_extend {s s' : St} {seen : List Alt} {a : Alt} {x z : Int} (hi : Inv s seen) (hxz : x ≤ z)
    (hx : -i128Max ≤ x) (hz : z ≤ i128Max)
    (hm : ∀ v, Matched (seen ++ [a]) v ↔ Matched seen v ∨ (x ≤ v ∧ v ≤ z))
    (hmin : (s.min.val < x ∧ s'.min = s.min) ∨ (x ≤ s.min.val ∧ s'.min = ⟨x, some x⟩))
    (hmax : (z ≤ s.max.val ∧ s'.max = s.max ∧ s'.incl = s.incl) ∨
      (s.max.val ≤ z ∧ s'.max = ⟨z, some (if s'.incl then z else z + 1)⟩))
    (hsem : ∀ v, (v ∈ s'.numbers ∨ ∃ r ∈ s'.ranges, r.1 ≤ v ∧ v ≤ r.2) ↔
      ((v ∈ s.numbers ∨ ∃ r ∈ s.ranges, r.1 ≤ v ∧ v ≤ r.2) ∨ (x ≤ v ∧ v ≤ z))) :
    Inv s' (seen ++ [a]) := by
  have hmm : i128Min < -i128Max := by decide
  obtain ⟨h1, h2, h3, h4, h5⟩ := hi
  refine ⟨?_, ?_, ?_, ?_, .inr ?_⟩
  · intro v; rw [hm, hsem, h1]
  · intro v hv
    rcases (hm v).1 hv with hv | hv
    · have := h2 v hv
      rcases hmin with ⟨_, h⟩ | ⟨_, h⟩ <;> rw [h]
      · exact this
      · simp only; omega
    · rcases hmin with ⟨_, h⟩ | ⟨_, h⟩ <;> rw [h]
      · omega
      · exact hv.1
  · intro v hv
    rcases (hm v).1 hv with hv | hv
    · have := h3 v hv
      rcases hmax with ⟨_, h, _⟩ | ⟨_, h⟩ <;> rw [h]
      · exact this
      · simp only; omega
    · rcases hmax with ⟨_, h, _⟩ | ⟨_, h⟩ <;> rw [h]
      · omega
      · exact hv.2
  · intro v hv
    rcases (hm v).1 hv with hv | hv
    · exact h4 v hv
    · omega
  · have m1 : Matched (seen ++ [a]) s'.min.val ∧ s'.min.lit = some s'.min.val := by
      rcases hmin with ⟨hlt, h⟩ | ⟨_, h⟩
      · rcases h5 with ⟨_, h5, _⟩ | ⟨h5, _, h7, _⟩
        · omega
        · rw [h]; exact ⟨(hm _).2 (.inl h5), h7⟩
      · rw [h]; exact ⟨(hm _).2 (.inr ⟨Int.le_refl _, hxz⟩), rfl⟩
    have m2 : Matched (seen ++ [a]) s'.max.val ∧
        s'.max.lit = some (if s'.incl then s'.max.val else s'.max.val + 1) := by
      rcases hmax with ⟨hlt, h, hincl⟩ | ⟨_, h⟩
      · rcases h5 with ⟨_, _, h6⟩ | ⟨_, h6, _, h8⟩
        · omega
        · rw [h, hincl]; exact ⟨(hm _).2 (.inl h6), h8⟩
      · rw [h]; exact ⟨(hm _).2 (.inr ⟨hxz, Int.le_refl _⟩), rfl⟩
    exact ⟨m1.1, m2.1, m1.2, m2.2⟩

theorem inv_step {s s' : St} {seen : List Alt} {a : Alt} (hi : Inv s seen) (hn : a.Nonempty)
    (h : s.step a = some s') : Inv s' (seen ++ [a]) := by
  cases a with
  | other m => simp [St.step] at h
  | expr e =>
    simp only [St.step, Option.map_eq_some_iff] at h
    obtain ⟨n, hn', rfl⟩ := h
    obtain ⟨rfl, hlo, hhi⟩ := num_new hn'
    refine inv_extend hi (x := e.value) (z := e.value) (Int.le_refl _) hlo hhi ?_ ?_ ?_ ?_
    · intro v
      rw [matched_snoc]
      simp only [Alt.Matches]
      constructor <;> rintro (h | h)
      · exact .inl h
      · exact .inr (by omega)
      · exact .inl h
      · exact .inr (by omega)
    · simp only [St.addNum, Num.min]
      by_cases hc : s.min.val < e.value
      · rw [if_pos hc]; exact .inl ⟨hc, rfl⟩
      · rw [if_neg hc]; exact .inr ⟨by omega, rfl⟩
    · simp only [St.addNum]
      by_cases hc : e.value ≥ s.max.val
      · simp only [if_pos hc]; exact .inr ⟨hc, rfl⟩
      · simp only [if_neg hc]; exact .inl ⟨by omega, trivial, trivial⟩
    · intro v
      simp only [St.addNum, List.mem_cons]
      constructor
      · rintro ((h | h) | h)
        · exact .inr (by omega)
        · exact .inl (.inl h)
        · exact .inl (.inr h)
      · rintro ((h | h) | h)
        · exact .inl (.inr h)
        · exact .inr h
        · exact .inl (.inl (by omega))
  | range l r incl =>
    cases l with
    | none => simp [St.step] at h
    | some l =>
    cases r with
    | none => simp [St.step] at h
    | some r =>
    simp only [St.step] at h
    split at h
    case h_2 => cases h
    case h_1 ln rn hln hrn =>
      cases h
      obtain ⟨rfl, hllo, hlhi⟩ := num_new hln
      obtain ⟨rfl, hrlo, hrhi⟩ := num_new hrn
      obtain ⟨w, hw⟩ := hn
      simp only [Alt.Matches, InRange, Option.map_some, Option.some.injEq, forall_eq'] at hw
      have sem : ∀ (z : Int) (v : Int),
          (v ∈ s.numbers ∨ ∃ q ∈ s.ranges ++ [(l.value, z)], q.1 ≤ v ∧ v ≤ q.2) ↔
          ((v ∈ s.numbers ∨ ∃ q ∈ s.ranges, q.1 ≤ v ∧ v ≤ q.2) ∨ (l.value ≤ v ∧ v ≤ z)) := by
        intro z v
        simp only [List.mem_append, List.mem_singleton, or_and_right, exists_or, or_assoc]
        simp
      cases incl with
      | true =>
        simp only [if_true] at hw
        refine inv_extend hi (x := l.value) (z := r.value) (by omega) hllo hrhi ?_ ?_ ?_ (sem r.value)
        · intro v
          rw [matched_snoc]
          simp only [Alt.Matches, InRange, Option.map_some, Option.some.injEq, forall_eq', if_true]
        · simp only [St.addRange, Num.min]
          by_cases hc : s.min.val < l.value
          · rw [if_pos hc]; exact .inl ⟨hc, rfl⟩
          · rw [if_neg hc]; exact .inr ⟨by omega, rfl⟩
        · simp only [St.addRange, if_true]
          by_cases hc : r.value > s.max.val
          · simp only [if_pos hc]; exact .inr ⟨by omega, rfl⟩
          · simp only [if_neg hc]; exact .inl ⟨by omega, trivial, trivial⟩
      | false =>
        simp only [Bool.false_eq_true, if_false] at hw
        refine inv_extend hi (x := l.value) (z := r.value - 1) (by omega) hllo (by omega) ?_ ?_ ?_
          (sem (r.value - 1))
        · intro v
          rw [matched_snoc]
          simp only [Alt.Matches, InRange, Option.map_some, Option.some.injEq, forall_eq',
            Bool.false_eq_true, if_false]
          constructor <;> rintro (h | h)
          · exact .inl h
          · exact .inr (by omega)
          · exact .inl h
          · exact .inr (by omega)
        · simp only [St.addRange, Num.min]
          by_cases hc : s.min.val < l.value
          · rw [if_pos hc]; exact .inl ⟨hc, rfl⟩
          · rw [if_neg hc]; exact .inr ⟨by omega, rfl⟩
        · simp only [St.addRange, Bool.false_eq_true, if_false]
          by_cases hc : r.value - 1 > s.max.val
          · simp only [if_pos hc]
            refine .inr ⟨by omega, ?_⟩
            simp only [Bool.false_eq_true, if_false, Num.mk.injEq, Option.some.injEq, true_and]
            omega
          · simp only [if_neg hc]; exact .inl ⟨by omega, trivial, trivial⟩

theorem inv_collect : ∀ {as : List Alt} {s s' : St} {seen : List Alt}, Inv s seen →
    (∀ a ∈ as, a.Nonempty) → collect s as = some s' → Inv s' (seen ++ as)
  | [], s, s', seen, hi, _, h => by
    simp only [collect, Option.some.injEq] at h
    subst h
    simpa using hi
  | a :: as, s, s', seen, hi, hn, h => by
    unfold collect at h
    split at h
    case h_2 => cases h
    case h_1 s1 h1 =>
      have := inv_collect (inv_step hi (hn a (by simp)) h1) (fun b hb => hn b (by simp [hb])) h
      simpa using this

theorem bestEnd_aux : ∀ (rs : List (Int × Int)) (num : Int) (b0 : Option Int),
    (∀ b, b0 = some b → num ≤ b) →
    ∀ e, (rs.foldl (fun best r =>
      if r.1 ≤ num ∧ num ≤ r.2 then
        match best with
        | some b => some (if b ≤ r.2 then r.2 else b)
        | none => some r.2
      else best) b0) = some e →
      (b0 = some e ∨ ∃ r ∈ rs, r.1 ≤ num ∧ num ≤ r.2 ∧ r.2 = e)
  | [], _, _, _, e, h => .inl h
  | r :: rs, num, b0, hb, e, h => by
    simp only [List.foldl_cons] at h
    by_cases hr : r.1 ≤ num ∧ num ≤ r.2
    · rw [if_pos hr] at h
      rcases b0 with _ | b
      · rcases bestEnd_aux rs num (some r.2) (by intro b h; cases h; exact hr.2) e h with h' | ⟨q, h1, h2⟩
        · cases h'; exact .inr ⟨r, by simp, hr.1, hr.2, rfl⟩
        · exact .inr ⟨q, by simp [h1], h2⟩
      · have hb' := hb b rfl
        rcases bestEnd_aux rs num _ (by intro c h; cases h; split <;> omega) e h with h' | ⟨q, h1, h2⟩
        · simp only [Option.some.injEq] at h'
          split at h'
          · exact .inr ⟨r, by simp, hr.1, hr.2, h'⟩
          · exact .inl (by rw [h'])
        · exact .inr ⟨q, by simp [h1], h2⟩
    · rw [if_neg hr] at h
      rcases bestEnd_aux rs num b0 hb e h with h' | ⟨q, h1, h2⟩
      · exact .inl h'
      · exact .inr ⟨q, by simp [h1], h2⟩

theorem bestEnd_some {rs : List (Int × Int)} {num e : Int} (h : bestEnd rs num = some e) :
    ∃ r ∈ rs, r.1 ≤ num ∧ num ≤ r.2 ∧ r.2 = e := by
  rcases bestEnd_aux rs num none (by simp) e h with h | h
  · cases h
  · exact h

theorem bestEnd_none_aux : ∀ (rs : List (Int × Int)) (num : Int) (b0 : Option Int),
    (rs.foldl (fun best r =>
      if r.1 ≤ num ∧ num ≤ r.2 then
        match best with
        | some b => some (if b ≤ r.2 then r.2 else b)
        | none => some r.2
      else best) b0) = none → b0 = none ∧ ∀ r ∈ rs, ¬ (r.1 ≤ num ∧ num ≤ r.2)
  | [], _, _, h => ⟨h, by simp⟩
  | r :: rs, num, b0, h => by
    simp only [List.foldl_cons] at h
    obtain ⟨h1, h2⟩ := bestEnd_none_aux rs num _ h
    by_cases hr : r.1 ≤ num ∧ num ≤ r.2
    · rw [if_pos hr] at h1
      cases b0 <;> simp at h1
    · rw [if_neg hr] at h1
      refine ⟨h1, ?_⟩
      intro q hq
      rcases List.mem_cons.1 hq with rfl | hq
      · exact hr
      · exact h2 q hq

theorem scan_lint (s : St) : ∀ (fuel : Nat) (num : Int) {lo hi incl},
    scan s fuel num = .lint lo hi incl →
    (lo = s.min.lit ∧ hi = s.max.lit ∧ incl = s.incl) ∧
    ∀ v, num ≤ v → v ≤ s.max.val → v ∈ s.numbers ∨ ∃ r ∈ s.ranges, r.1 ≤ v ∧ v ≤ r.2 := by
  intro fuel
  induction fuel with
  | zero =>
    intro num lo hi incl h
    rw [scan] at h
    split at h
    · cases h; exact ⟨⟨rfl, rfl, rfl⟩, fun v h1 h2 => by omega⟩
    · cases h
  | succ fuel ih =>
    intro num lo hi incl h
    rw [scan] at h
    split at h
    · cases h; exact ⟨⟨rfl, rfl, rfl⟩, fun v h1 h2 => by omega⟩
    · split at h
      · next hc =>
        split at h
        · cases h
        · obtain ⟨h1, h2⟩ := ih _ h
          refine ⟨h1, fun v hv1 hv2 => ?_⟩
          by_cases he : v = num
          · subst he; exact .inl (by simpa using hc)
          · exact h2 v (by omega) hv2
      · split at h
        · next e he =>
          split at h
          · cases h
          · obtain ⟨r, hr, hr1, hr2, hr3⟩ := bestEnd_some he
            obtain ⟨h1, h2⟩ := ih _ h
            refine ⟨h1, fun v hv1 hv2 => ?_⟩
            by_cases hv : v ≤ e
            · exact .inr ⟨r, hr, by omega, by omega⟩
            · exact h2 v (by omega) hv2
        · cases h

/-- **C36.** If the lint fires, its suggestion is a range between two literals of the pattern that matches
exactly the values matched by the alternatives. -/
theorem manual_range_patterns_sound {alts : List Alt} (hn : ∀ a ∈ alts, a.Nonempty) {lo hi incl}
    (h : checkAlts alts = .lint lo hi incl) :
    ∃ l r, lo = some l ∧ hi = some r ∧
      ∀ v, Matched alts v ↔ (Alt.range (some (.other l)) (some (.other r)) incl).Matches v := by
  unfold checkAlts at h
  split at h
  case isFalse => cases h
  case isTrue hlen =>
    split at h
    case h_2 => cases h
    case h_1 s hs =>
      have hI := inv_collect inv_init hn hs
      rw [List.nil_append] at hI
      obtain ⟨⟨rfl, rfl, rfl⟩, hcov⟩ := scan_lint s _ _ h
      have hne : alts ≠ [] := by rintro rfl; simp at hlen
      obtain ⟨h1, h2, h3, h4⟩ := hI.ends.resolve_left (fun h => hne h.1)
      refine ⟨_, _, h3, h4, fun v => ?_⟩
      simp only [Alt.Matches, InRange, Option.map_some, PExpr.value, Option.some.injEq, forall_eq']
      constructor
      · intro hv
        have := hI.lo v hv
        have := hI.hi v hv
        split
        · simp [*]
        · exact ⟨by assumption, by omega⟩
      · intro hv
        refine (hI.sem v).2 (hcov v hv.1 ?_)
        have := hv.2
        cases hi : s.incl <;> simp only [hi, Bool.false_eq_true, if_false, if_true] at this <;> omega

theorem scan_fires (s : St) (hcov : ∀ v, s.min.val ≤ v → v ≤ s.max.val →
      v ∈ s.numbers ∨ ∃ r ∈ s.ranges, r.1 ≤ v ∧ v ≤ r.2)
    (hsmall : ∀ v, (v ∈ s.numbers ∨ ∃ r ∈ s.ranges, r.1 ≤ v ∧ v ≤ r.2) → v < i128Max) :
    ∀ (fuel : Nat) (num : Int), s.min.val ≤ num → s.max.val - num + 1 ≤ fuel →
      scan s fuel num = .lint s.min.lit s.max.lit s.incl := by
  intro fuel
  induction fuel with
  | zero =>
    intro num h1 h2
    rw [scan, if_pos (by omega)]
  | succ fuel ih =>
    intro num h1 h2
    rw [scan]
    split
    · rfl
    · rename_i hlt
      split
      · rename_i hc
        have := hsmall num (.inl (by simpa using hc))
        rw [if_neg (by omega)]
        exact ih _ (by omega) (by omega)
      · rename_i hc
        split
        · next e he =>
          obtain ⟨r, hr, hr1, hr2, hr3⟩ := bestEnd_some he
          have := hsmall e (.inr ⟨r, hr, by omega, by omega⟩)
          rw [if_neg (by omega)]
          exact ih _ (by omega) (by omega)
        · next hb =>
          obtain ⟨_, hb⟩ := bestEnd_none_aux _ _ _ hb
          rcases hcov num h1 (by omega) with h | ⟨r, hr, h⟩
          · exact absurd (by simpa using h) hc
          · exact absurd h (hb r hr)

theorem collect_literal : ∀ {as : List Alt} (s : St), (∀ a ∈ as, a.Literal) → ∃ s', collect s as = some s'
  | [], s, _ => ⟨s, rfl⟩
  | a :: as, s, h => by
    have : ∃ s1, s.step a = some s1 := by
      have ha := h a (by simp)
      unfold Alt.Literal at ha
      split at ha
      · exact ⟨_, by simp [St.step, Num.new, exprAsI128, ha]; rfl⟩
      · exact ⟨_, by simp [St.step, Num.new, exprAsI128, ha]; rfl⟩
      · exact ha.elim
    obtain ⟨s1, h1⟩ := this
    obtain ⟨s2, h2⟩ := collect_literal (as := as) s1 (fun b hb => h b (by simp [hb]))
    exact ⟨s2, by simp [collect, h1, h2]⟩

/-- **C36 (completeness).** Three or more alternatives, or two with a range among them, that are literals
or ranges between literals and together match all values between any two matched ones are always
reported. Values must stay below `i128::MAX`, see `overflow_at_max`. -/
theorem manual_range_patterns_complete {alts : List Alt} (hn : ∀ a ∈ alts, a.Nonempty)
    (hl : ∀ a ∈ alts, a.Literal) (hlen : alts.length ≥ 3 ∨ (alts.length > 1 ∧ ∃ a ∈ alts, a.isRange = true))
    (hmax : ∀ v, Matched alts v → v < i128Max)
    (hcont : ∀ u v w, Matched alts u → Matched alts w → u ≤ v → v ≤ w → Matched alts v) :
    ∃ lo hi incl, checkAlts alts = .lint lo hi incl := by
  obtain ⟨s, hs⟩ := collect_literal .init hl
  have hI := inv_collect inv_init hn hs
  rw [List.nil_append] at hI
  have hne : alts ≠ [] := by rintro rfl; simp at hlen
  obtain ⟨h1, h2, h3, h4⟩ := hI.ends.resolve_left (fun h => hne h.1)
  refine ⟨s.min.lit, s.max.lit, s.incl, ?_⟩
  unfold checkAlts
  rw [if_pos (by simpa using hlen), hs]
  refine scan_fires s (fun v hv1 hv2 => (hI.sem v).1 (hcont _ v _ h1 h2 hv1 hv2))
    (fun v hv => hmax v ((hI.sem v).2 hv)) _ _ (Int.le_refl _) ?_
  have := hI.lo _ h2
  omega

/-- At `i128::MAX` the loop counter overflows. -/
theorem overflow_at_max :
    checkAlts [.expr (.lit (2 ^ 127 - 3) false), .expr (.lit (2 ^ 127 - 1) false),
      .expr (.lit (2 ^ 127 - 2) false)] = .overflow := by decide +kernel

/-! Non-vacuity: `6 | 4..6 | 7..=9` is reported as `4..=9`; `1..3 | 2 | 0..5` as `0..5`; `1 | 3 | 4` is not. -/

example : checkAlts [.expr (.lit 6 false), .range (some (.lit 4 false)) (some (.lit 6 false)) false,
    .range (some (.lit 7 false)) (some (.lit 9 false)) true] = .lint (some 4) (some 9) true := by
  decide +kernel

example : checkAlts [.range (some (.lit 1 true)) (some (.lit 3 false)) false, .expr (.lit 2 false),
    .range (some (.lit 0 false)) (some (.lit 5 false)) false] = .lint (some (-1)) (some 5) false := by
  decide +kernel

example : checkAlts [.expr (.lit 1 false), .expr (.lit 3 false), .expr (.lit 4 false)] = .silent := by
  decide +kernel

example : ∀ a ∈ [Alt.expr (.lit 6 false), .range (some (.lit 4 false)) (some (.lit 6 false)) false],
    a.Nonempty := by
  intro a ha
  simp only [List.mem_cons, List.not_mem_nil, or_false] at ha
  rcases ha with rfl | rfl
  · exact ⟨6, rfl⟩
  · exact ⟨4, by simp [Alt.Matches, InRange, PExpr.value]⟩

end Verif.Pats
