import Verif.Prio.Model

/-!
# Properties: priorities of lints and groups in `Cargo.toml`
-/

namespace Verif.Prio

theorem parse_setting (n : String) (v : Value) : settingOf n v = (parse v).map fun c => ⟨n, c.level, c.prio⟩ := by
  cases v with
  | text l => rfl
  | other => rfl
  | table l p =>
    cases l with
    | none => rfl
    | some l =>
      cases l with
      | none => rfl
      | some l =>
        cases p with
        | none => rfl
        | some p =>
          cases p with
          | none => rfl
          | some p => rfl

theorem mem_collect (keep : String → Bool) (rows : List (String × Value)) (n : String) (c : Config) :
    (n, c) ∈ collect keep rows ↔ n ≠ "warnings" ∧ keep n = true ∧ ∃ v, (n, v) ∈ rows ∧ parse v = some c := by
  induction rows with
  | nil => simp [collect]
  | cons r rows ih =>
    obtain ⟨m, w⟩ := r
    rw [collect]
    by_cases hk : (m != "warnings" && keep m) = true
    · rw [if_pos hk]
      rw [Bool.and_eq_true, bne_iff_ne] at hk
      cases hp : parse w with
      | none =>
        simp only
        rw [ih]
        constructor
        · rintro ⟨h1, h2, v, h3, h4⟩
          exact ⟨h1, h2, v, List.mem_cons_of_mem _ h3, h4⟩
        · rintro ⟨h1, h2, v, h3, h4⟩
          rcases List.mem_cons.1 h3 with e | h3
          · injection e with e1 e2
            rw [e2, hp] at h4
            cases h4
          · exact ⟨h1, h2, v, h3, h4⟩
      | some d =>
        simp only
        rw [List.mem_cons, ih]
        constructor
        · rintro (e | ⟨h1, h2, v, h3, h4⟩)
          · injection e with e1 e2
            subst e1 e2
            exact ⟨hk.1, hk.2, w, by simp, hp⟩
          · exact ⟨h1, h2, v, List.mem_cons_of_mem _ h3, h4⟩
        · rintro ⟨h1, h2, v, h3, h4⟩
          rcases List.mem_cons.1 h3 with e | h3
          · injection e with e1 e2
            left
            rw [e2, hp] at h4
            injection h4 with h4
            rw [e1, h4]
          · exact Or.inr ⟨h1, h2, v, h3, h4⟩
    · rw [if_neg hk, ih]
      rw [Bool.and_eq_true, bne_iff_ne] at hk
      constructor
      · rintro ⟨h1, h2, v, h3, h4⟩
        exact ⟨h1, h2, v, List.mem_cons_of_mem _ h3, h4⟩
      · rintro ⟨h1, h2, v, h3, h4⟩
        rcases List.mem_cons.1 h3 with e | h3
        · injection e with e1 e2
          rw [← e1] at hk
          exact absurd ⟨h1, h2⟩ hk
        · exact ⟨h1, h2, v, h3, h4⟩

theorem mem_settings (rows : List (String × Value)) (s : Setting) :
    s ∈ settings rows ↔ s.name ≠ "warnings" ∧ ∃ v c, (s.name, v) ∈ rows ∧ parse v = some c ∧ s.level = c.level ∧ s.prio = c.prio := by
  unfold settings
  rw [List.mem_filterMap]
  constructor
  · rintro ⟨⟨m, w⟩, h1, h2⟩
    simp only at h2
    by_cases hw : m = "warnings"
    · rw [if_pos hw] at h2; cases h2
    · rw [if_neg hw, parse_setting, Option.map_eq_some_iff] at h2
      obtain ⟨c, hc, e⟩ := h2
      subst e
      exact ⟨hw, w, c, h1, hc, rfl, rfl⟩
  · rintro ⟨hw, v, c, h1, h2, h3, h4⟩
    refine ⟨(s.name, v), h1, ?_⟩
    simp only
    rw [if_neg hw, parse_setting, h2, Option.map_some, ← h3, ← h4]

/-- A setting is one of a lint or of a group, as collected. -/
theorem setting_collected (isGroup : String → Bool) (rows : List (String × Value)) (b : Bool) (s : Setting) :
    (s ∈ settings rows ∧ isGroup s.name = b) ↔ ∃ c, (s.name, c) ∈ collect (fun n => isGroup n == b) rows ∧ s.level = c.level ∧ s.prio = c.prio := by
  rw [mem_settings]
  constructor
  · rintro ⟨⟨hw, v, c, h1, h2, h3, h4⟩, hg⟩
    exact ⟨c, (mem_collect _ rows _ c).2 ⟨hw, by simp [hg], v, h1, h2⟩, h3, h4⟩
  · rintro ⟨c, hc, h3, h4⟩
    obtain ⟨hw, hg, v, h1, h2⟩ := (mem_collect _ rows _ c).1 hc
    exact ⟨⟨hw, v, c, h1, h2, h3, h4⟩, by simpa using hg⟩

theorem beq_true' (isGroup : String → Bool) : (fun n => isGroup n == true) = isGroup := by funext n; cases isGroup n <;> rfl

theorem beq_false' (isGroup : String → Bool) : (fun n => isGroup n == false) = fun n => !isGroup n := by funext n; cases isGroup n <;> rfl

theorem conflict_some (lints : List (String × Config)) (g : Config) (l : String × Config) (h : conflict lints g = some l) :
    l ∈ lints ∧ l.2.prio = g.prio ∧ l.2.level ≠ g.level := by
  unfold conflict at h
  have h1 := List.mem_of_find?_eq_some h
  have h2 := List.find?_some h
  rw [Bool.and_eq_true, beq_iff_eq, bne_iff_ne] at h2
  exact ⟨by simpa using h1, h2⟩

theorem conflict_none (lints : List (String × Config)) (g : Config) (h : conflict lints g = none) (l : String × Config) (hl : l ∈ lints) (hp : l.2.prio = g.prio) :
    l.2.level = g.level := by
  unfold conflict at h
  rw [List.find?_eq_none] at h
  have := h l (by simpa using hl)
  rw [hp] at this
  simpa using this

theorem mem_reports (lints groups : List (String × Config)) (r : Report) :
    r ∈ reports lints groups ↔ ∃ n g l, (n, g) ∈ groups ∧ conflict lints g = some l ∧
      r = ⟨n, g.prio, g.isImplicit, l.1, .table (some (some g.level)) (some (some (lowPriority lints)))⟩ := by
  induction groups with
  | nil => simp [reports]
  | cons x groups ih =>
    obtain ⟨m, d⟩ := x
    rw [reports]
    cases hc : conflict lints d with
    | none =>
      simp only
      rw [ih]
      constructor
      · rintro ⟨n, g, l, h1, h2⟩
        exact ⟨n, g, l, List.mem_cons_of_mem _ h1, h2⟩
      · rintro ⟨n, g, l, h1, h2, h3⟩
        rcases List.mem_cons.1 h1 with e | h1
        · injection e with e1 e2
          rw [e2, hc] at h2
          cases h2
        · exact ⟨n, g, l, h1, h2, h3⟩
    | some l =>
      simp only
      rw [List.mem_cons, ih]
      constructor
      · rintro (e | ⟨n, g, l, h1, h2⟩)
        · exact ⟨m, d, l, by simp, hc, e⟩
        · exact ⟨n, g, l, List.mem_cons_of_mem _ h1, h2⟩
      · rintro ⟨n, g, l', h1, h2, h3⟩
        rcases List.mem_cons.1 h1 with e | h1
        · injection e with e1 e2
          left
          rw [e2, hc] at h2
          injection h2 with h2
          rw [h3, e1, e2, h2]
        · exact Or.inr ⟨n, g, l', h1, h2, h3⟩

/-! ## What is reported -/

/-- A report names a group and a lint of the table with the same priority and another level. -/
theorem report_true (isGroup : String → Bool) (rows : List (String × Value)) (r : Report) (h : r ∈ checkTable isGroup rows) :
    ∃ g l, g ∈ settings rows ∧ l ∈ settings rows ∧ g.name = r.group ∧ l.name = r.lint ∧ isGroup g.name = true ∧ isGroup l.name = false ∧
      g.prio = l.prio ∧ g.prio = r.prio ∧ g.level ≠ l.level := by
  obtain ⟨n, g, l, h1, h2, e⟩ := (mem_reports _ _ r).1 h
  obtain ⟨h3, h4, h5⟩ := conflict_some _ g l h2
  have hg := (setting_collected isGroup rows true ⟨n, g.level, g.prio⟩).2 ⟨g, by rw [beq_true']; exact h1, rfl, rfl⟩
  have hl := (setting_collected isGroup rows false ⟨l.1, l.2.level, l.2.prio⟩).2 ⟨l.2, by rw [beq_false']; exact h3, rfl, rfl⟩
  subst e
  exact ⟨_, _, hg.1, hl.1, rfl, rfl, hg.2, hl.2, h4.symm, rfl, fun k => h5 k.symm⟩

/-- A group with the priority of a lint and another level is reported. -/
theorem reported (isGroup : String → Bool) (rows : List (String × Value)) (g l : Setting) (hg : g ∈ settings rows) (hl : l ∈ settings rows)
    (g1 : isGroup g.name = true) (l1 : isGroup l.name = false) (hp : g.prio = l.prio) (hv : g.level ≠ l.level) :
    ∃ r ∈ checkTable isGroup rows, r.group = g.name := by
  obtain ⟨cg, h1, h2, h3⟩ := (setting_collected isGroup rows true g).1 ⟨hg, g1⟩
  obtain ⟨cl, h4, h5, h6⟩ := (setting_collected isGroup rows false l).1 ⟨hl, l1⟩
  rw [beq_true'] at h1
  rw [beq_false'] at h4
  cases hc : conflict (collect (fun n => !isGroup n) rows) cg with
  | none =>
    have := conflict_none _ cg hc (l.name, cl) h4 (by show cl.prio = cg.prio; rw [← h6, ← h3, hp])
    exact absurd (by rw [h2, h5]; exact this.symm) hv
  | some x => exact ⟨_, (mem_reports _ _ _).2 ⟨g.name, cg, x, h1, hc, rfl⟩, rfl⟩

/-! ## Without a report the order does not matter -/

theorem level_prio (members : String → String → Bool) (lint : String) (p : List Setting) (level : String)
    (hs : p.Pairwise (fun a b => a.prio ≤ b.prio)) (h : LevelIs members lint p level) :
    ∃ s ∈ p, s.level = level ∧ (s.name = lint ∨ members s.name lint = true) ∧
      ∀ t ∈ p, (t.name = lint ∨ members t.name lint = true) → t.prio ≤ s.prio := by
  obtain ⟨a, s, b, e, h1, h2, h3⟩ := h
  refine ⟨s, by rw [e]; simp, h1, h2, ?_⟩
  intro t ht hc
  rw [e] at ht hs
  rcases List.mem_append.1 ht with ht | ht
  · exact (List.pairwise_append.1 hs).2.2 t ht s (by simp)
  · rcases List.mem_cons.1 ht with ht | ht
    · rw [ht]; exact Int.le_refl _
    · obtain ⟨h4, h5⟩ := h3 t ht
      rcases hc with hc | hc
      · exact absurd hc h4
      · rw [h5] at hc; cases hc

/-- The keys of a table differ. -/
def Keys (rows : List (String × Value)) : Prop := ∀ a ∈ settings rows, ∀ b ∈ settings rows, a.name = b.name → a = b

/-- No two groups with the same priority and different levels contain the lint. -/
def GroupsAgree (isGroup : String → Bool) (members : String → String → Bool) (lint : String) (l : List Setting) : Prop :=
  ∀ a ∈ l, ∀ b ∈ l, isGroup a.name = true → isGroup b.name = true → members a.name lint = true → members b.name lint = true → a.prio = b.prio → a.level = b.level

/-- If nothing is reported, the level of a lint does not depend on the order of settings with equal priorities, unless groups contradict each other. -/
theorem order_irrelevant_partial (isGroup : String → Bool) (members : String → String → Bool) (hm : ∀ g l, members g l = true → isGroup g = true)
    (rows : List (String × Value)) (hk : Keys rows) (hr : checkTable isGroup rows = []) (lint : String) (hl : isGroup lint = false)
    (ha : GroupsAgree isGroup members lint (settings rows)) (p q : List Setting) (hp : Handed (settings rows) p) (hq : Handed (settings rows) q) (u v : String)
    (hu : LevelIs members lint p u) (hv : LevelIs members lint q v) : u = v := by
  obtain ⟨s, hs, s1, s2, s3⟩ := level_prio members lint p u hp.2 hu
  obtain ⟨t, ht, t1, t2, t3⟩ := level_prio members lint q v hq.2 hv
  have hs' := hp.1.mem_iff.1 hs
  have ht' := hq.1.mem_iff.1 ht
  have e : s.prio = t.prio := Int.le_antisymm (t3 s (hq.1.mem_iff.2 hs') s2) (s3 t (hp.1.mem_iff.2 ht') t2)
  rw [← s1, ← t1]
  have key : ∀ a b : Setting, a ∈ settings rows → b ∈ settings rows → members a.name lint = true → b.name = lint → a.prio = b.prio → a.level = b.level := by
    intro a b h1 h2 h3 h4 h5
    by_cases hab : a.level = b.level
    · exact hab
    · obtain ⟨r, h6, _⟩ := reported isGroup rows a b h1 h2 (hm _ _ h3) (by rw [h4]; exact hl) h5 hab
      rw [hr] at h6
      cases h6
  rcases s2 with s2 | s2
  · rcases t2 with t2 | t2
    · rw [hk s hs' t ht' (by rw [s2, t2])]
    · exact (key t s ht' hs' t2 s2 e.symm).symm
  · rcases t2 with t2 | t2
    · exact key s t hs' ht' s2 t2 e
    · exact ha s hs' t ht' (hm _ _ s2) (hm _ _ t2) s2 t2 e

/-! ## The suggestion -/

theorem foldl_min (l : List Int) : ∀ x, l.foldl min x ≤ x ∧ ∀ y ∈ l, l.foldl min x ≤ y := by
  induction l with
  | nil => intro x; exact ⟨Int.le_refl _, by simp⟩
  | cons z l ih =>
    intro x
    rw [List.foldl_cons]
    obtain ⟨h1, h2⟩ := ih (min x z)
    refine ⟨by omega, ?_⟩
    intro y hy
    rcases List.mem_cons.1 hy with e | hy
    · rw [e]; omega
    · exact h2 y hy

theorem lowPriority_lt (lints : List (String × Config)) (l : String × Config) (h : l ∈ lints) (hp : -9223372036854775808 < l.2.prio) :
    lowPriority lints < l.2.prio := by
  have hm : satPred l.2.prio ∈ lints.map fun l => satPred l.2.prio := List.mem_map.2 ⟨l, h, rfl⟩
  have hlt : satPred l.2.prio < l.2.prio := by
    unfold satPred
    rw [if_neg (by omega)]
    omega
  have hle : lowPriority lints ≤ satPred l.2.prio := by
    unfold lowPriority
    generalize (lints.map fun l => satPred l.2.prio) = m at hm
    cases m with
    | nil => cases hm
    | cons x r =>
      rw [minOr]
      obtain ⟨h1, h2⟩ := foldl_min r x
      rcases List.mem_cons.1 hm with e | hm
      · rw [e]; exact h1
      · exact h2 _ hm
  omega

/-- The table after applying the suggestion. -/
def applied (r : Report) (rows : List (String × Value)) : List (String × Value) := rows.map fun x => if x.1 = r.group then (x.1, r.sugg) else x

/-- After applying the suggestion the group keeps its level and has a lower priority than every lint, which therefore overrides it. Partial: no lint has the lowest
priority. -/
theorem applied_lower_partial (isGroup : String → Bool) (rows : List (String × Value)) (r : Report) (h : r ∈ checkTable isGroup rows)
    (hmin : ∀ l ∈ settings rows, -9223372036854775808 < l.prio) (s l : Setting) (hs : s ∈ settings (applied r rows)) (hl : l ∈ settings (applied r rows))
    (e : s.name = r.group) (h1 : isGroup l.name = false) : s.prio < l.prio ∧ ∃ g ∈ settings rows, g.name = r.group ∧ g.level = s.level := by
  obtain ⟨n, g, c, h2, h3, e1⟩ := (mem_reports _ _ r).1 h
  have hgr := (setting_collected isGroup rows true ⟨n, g.level, g.prio⟩).2 ⟨g, by rw [beq_true']; exact h2, rfl, rfl⟩
  have hrg : r.group = n := by rw [e1]
  have hrs : r.sugg = .table (some (some g.level)) (some (some (lowPriority (collect (fun n => !isGroup n) rows)))) := by rw [e1]
  obtain ⟨_, v, cs, s1, s2, s3, s4⟩ := (mem_settings _ s).1 hs
  obtain ⟨lw, w, cl, l1, l2, l3, l4⟩ := (mem_settings _ l).1 hl
  have hv : v = r.sugg := by
    unfold applied at s1
    obtain ⟨x, _, hx⟩ := List.mem_map.1 s1
    by_cases hn : x.1 = r.group
    · rw [if_pos hn] at hx
      injection hx with _ hx2
      exact hx2.symm
    · rw [if_neg hn] at hx
      rw [hx] at hn
      exact absurd e hn
  have hlr : (l.name, w) ∈ rows := by
    unfold applied at l1
    obtain ⟨x, hx0, hx⟩ := List.mem_map.1 l1
    by_cases hn : x.1 = r.group
    · rw [if_pos hn] at hx
      injection hx with hx1 _
      rw [← hx1, hn, hrg] at h1
      rw [hgr.2] at h1
      cases h1
    · rw [if_neg hn] at hx
      rw [← hx]
      exact hx0
  rw [hv, hrs] at s2
  have s5 : cs = ⟨g.level, some (lowPriority (collect (fun n => !isGroup n) rows))⟩ := by
    simp only [parse, parsePriority, Option.map_some, Option.some.injEq] at s2
    exact s2.symm
  have hlc : (l.name, cl) ∈ collect (fun n => !isGroup n) rows := (mem_collect _ rows _ cl).2 ⟨lw, by simp [h1], w, hlr, l2⟩
  have hls : l ∈ settings rows := (mem_settings rows l).2 ⟨lw, w, cl, hlr, l2, l3, l4⟩
  constructor
  · rw [s4, s5, l4]
    exact lowPriority_lt _ (l.name, cl) hlc (by show _ < cl.prio; rw [← l4]; exact hmin l hls)
  · exact ⟨_, hgr.1, hrg.symm, by rw [s3, s5]⟩

/-- So the group is not reported again. -/
theorem applied_settles_partial (isGroup : String → Bool) (rows : List (String × Value)) (r : Report) (h : r ∈ checkTable isGroup rows)
    (hmin : ∀ l ∈ settings rows, -9223372036854775808 < l.prio) (r' : Report) (h' : r' ∈ checkTable isGroup (applied r rows)) : r'.group ≠ r.group := by
  intro e
  obtain ⟨g, l, hg, hl, g1, _, _, l2, hp, _, _⟩ := report_true isGroup (applied r rows) r' h'
  have := (applied_lower_partial isGroup rows r h hmin g l hg hl (by rw [g1, e]) l2).1
  omega

/-! ## Examples -/

/-- One group, for the examples. -/
def grp (n : String) : Bool := n == "pedantic"

example : checkTable grp [("pedantic", .text "warn"), ("a", .text "allow"), ("b", .table (some (some "deny")) (some (some (-3))))] =
    [⟨"pedantic", 0, true, "a", .table (some (some "warn")) (some (some (-4)))⟩] := by decide +kernel

example : checkTable grp [("pedantic", .table (some (some "warn")) (some (some (-1)))), ("a", .text "allow")] = [] := by decide +kernel

example : Handed (settings [("a", .text "allow"), ("pedantic", .table (some (some "warn")) (some (some (-1))))]) [⟨"pedantic", "warn", -1⟩, ⟨"a", "allow", 0⟩] ∧
    LevelIs (fun g l => g == "pedantic" && l == "a") "a" [⟨"pedantic", "warn", -1⟩, ⟨"a", "allow", 0⟩] "allow" ∧
    Keys [("a", .text "allow"), ("pedantic", .table (some (some "warn")) (some (some (-1))))] := by
  refine ⟨⟨List.Perm.swap _ _ _, by decide +kernel⟩, ⟨[⟨"pedantic", "warn", -1⟩], ⟨"a", "allow", 0⟩, [], rfl, rfl, Or.inl rfl, by simp⟩, ?_⟩
  show ∀ a ∈ settings _, ∀ b ∈ settings _, a.name = b.name → a = b
  decide +kernel

/-- A lint with the lowest priority: the suggestion changes nothing, and the group is reported again. -/
theorem lowest_priority :
    checkTable grp [("pedantic", .table (some (some "warn")) (some (some (-9223372036854775808)))), ("a", .table (some (some "allow")) (some (some (-9223372036854775808))))] =
      [⟨"pedantic", -9223372036854775808, false, "a", .table (some (some "warn")) (some (some (-9223372036854775808)))⟩] := by decide +kernel

/-- Two groups with the same priority and different levels are not reported, although a lint may be in both. -/
theorem groups_not_compared : checkTable (fun n => n == "pedantic" || n == "all") [("pedantic", .text "warn"), ("all", .text "allow")] = [] := by decide +kernel

/-- Whether the lint is in the group is not asked; the report does not depend on the members. -/
theorem not_a_member : (checkTable grp [("pedantic", .text "warn"), ("not_in_pedantic", .text "allow")]).length = 1 := by decide +kernel

end Verif.Prio
