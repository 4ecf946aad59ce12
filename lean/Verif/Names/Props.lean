import Verif.Names.Words

/-!
# Properties: the names of a function
-/

namespace Verif.Names

/-- What is kept for a name. -/
def mk (g : Cfg) (n : Name) : Ex := ⟨n, exemptions g.tbl n⟩

theorem scan_iff (g : Cfg) (hu : g.num '_' = false) (n : Name) (hn : 3 ≤ n.length) (env : List Name) (he : ∀ x ∈ env, 3 ≤ x.length) :
    (scan g.num n (env.map (mk g)) = some none ∧ ∀ x ∈ env, ¬ Bad g.num g.tbl n x) ∨
    (∃ pre e post, env = pre ++ e :: post ∧ scan g.num n (env.map (mk g)) = some (some (mk g e)) ∧
      (∀ x ∈ pre, ¬ Bad g.num g.tbl n x) ∧ Bad g.num g.tbl n e) := by
  induction env with
  | nil => exact Or.inl ⟨rfl, fun x h => by cases h⟩
  | cons e r ih =>
    obtain ⟨v, hv, hi⟩ := goesOn_iff g.num g.tbl hu n e hn (he e (by simp))
    have hs : scan g.num n ((e :: r).map (mk g)) = if v then scan g.num n (r.map (mk g)) else some (some (mk g e)) := by
      simp only [List.map_cons, scan]
      have : goesOn g.num n (mk g e) = some v := hv
      rw [this]
      cases v <;> rfl
    cases v with
    | false => exact Or.inr ⟨[], e, r, rfl, by rw [hs]; rfl, (fun x h => by cases h), hi.1 rfl⟩
    | true =>
      have hb : ¬ Bad g.num g.tbl n e := fun h => by have := hi.2 h; cases this
      have hs' : scan g.num n ((e :: r).map (mk g)) = scan g.num n (r.map (mk g)) := by rw [hs]; rfl
      rw [hs']
      rcases ih (fun x hx => he x (by simp [hx])) with ⟨h1, h2⟩ | ⟨pre, x, post, h1, h2, h3, h4⟩
      · refine Or.inl ⟨h1, fun x hx => ?_⟩
        rcases List.mem_cons.1 hx with rfl | hx
        · exact hb
        · exact h2 x hx
      · refine Or.inr ⟨e :: pre, x, post, by rw [h1]; rfl, h2, fun y hy => ?_, h4⟩
        rcases List.mem_cons.1 hy with rfl | hy
        · exact hb
        · exact h3 y hy

/-- The names of one character of the scopes around, the outermost first. -/
def around (os : List (List Name)) : List Name := os.reverse.flatten

theorem around_cons (own : List Name) (os : List (List Name)) : around (own :: os) = around os ++ own := by simp [around]

theorem mem_flatten_around (own : List Name) (os : List (List Name)) (n : Name) : n ∈ (own :: os).flatten ↔ n ∈ around os ++ own := by
  simp only [around, List.flatten_cons, List.mem_append, List.mem_flatten, List.mem_reverse]
  exact or_comm

theorem length_around (os : List (List Name)) : (around os).length = os.flatten.length := by
  induction os with
  | nil => rfl
  | cons s r ih => rw [around_cons]; simp only [List.length_append, List.flatten_cons, ih]; omega

/-- What looking at one name does. -/
theorem ident_cases (g : Cfg) (hu : g.num '_' = false) (n : Name) (env : List Name) (he : ∀ x ∈ env, 3 ≤ x.length) (own : List Name)
    (os : List (List Name)) (out : List Rep) :
    (Ignored g n ∧ checkIdent g ⟨env.map (mk g), own :: os, out⟩ n = some ⟨env.map (mk g), own :: os, out⟩) ∨
    (¬ Ignored g n ∧ Digits n ∧ checkIdent g ⟨env.map (mk g), own :: os, out⟩ n = some ⟨env.map (mk g), own :: os, out ++ [.digits n]⟩) ∨
    (Single g n ∧ n ∈ around os ++ own ∧ checkIdent g ⟨env.map (mk g), own :: os, out⟩ n = some ⟨env.map (mk g), own :: os, out⟩) ∨
    (Single g n ∧ n ∉ around os ++ own ∧
      checkIdent g ⟨env.map (mk g), own :: os, out⟩ n = some ⟨env.map (mk g), (own ++ [n]) :: os, out⟩) ∨
    (Word g n ∧ ∃ pre e post, env = pre ++ e :: post ∧ (∀ x ∈ pre, ¬ Bad g.num g.tbl n x) ∧ Bad g.num g.tbl n e ∧
      checkIdent g ⟨env.map (mk g), own :: os, out⟩ n = some ⟨env.map (mk g), own :: os, out ++ [.similar n e]⟩) ∨
    (Word g n ∧ (∀ x ∈ env, ¬ Bad g.num g.tbl n x) ∧
      checkIdent g ⟨env.map (mk g), own :: os, out⟩ n = some ⟨(env ++ [n]).map (mk g), own :: os, out⟩) := by
  unfold checkIdent
  by_cases h1 : (n.any g.upper || n.isEmpty) = true
  · rw [if_pos h1]
    refine Or.inl ⟨?_, rfl⟩
    simp only [Bool.or_eq_true, List.any_eq_true, List.isEmpty_iff] at h1
    rcases h1 with h1 | h1
    · exact Or.inr (Or.inl h1)
    · exact Or.inl h1
  · rw [if_neg h1]
    have hne : n ≠ [] := fun h => h1 (by simp [h])
    have hup : ¬ ∃ c ∈ n, g.upper c = true := fun h => h1 (by simp only [Bool.or_eq_true, List.any_eq_true]; exact Or.inl h)
    have hdig : (n.all fun c => c.isDigit || c == '_') = true ↔ Digits n := by
      simp [Digits, List.all_eq_true]
    by_cases h2 : (n.all fun c => c.isDigit || c == '_') = true
    · rw [if_pos h2]
      have hd := hdig.1 h2
      refine Or.inr (Or.inl ⟨?_, hd, rfl⟩)
      rintro (h | h | h)
      · exact hne h
      · exact hup h
      · exact h.1 hd
    · rw [if_neg h2]
      have hd : ¬ Digits n := fun h => h2 (hdig.2 h)
      by_cases h3 : ['_'].isPrefixOf n = true
      · rw [if_pos h3]
        exact Or.inl ⟨Or.inr (Or.inr ⟨hd, Or.inl (List.isPrefixOf_iff_prefix.1 h3)⟩), rfl⟩
      · rw [if_neg h3]
        have hpre : ¬ ['_'] <+: n := fun h => h3 (List.isPrefixOf_iff_prefix.2 h)
        have hig : n.length ≠ 2 → ¬ Ignored g n := by
          rintro hl (h | h | h)
          · exact hne h
          · exact hup h
          · rcases h.2 with h | h
            · exact hpre h
            · exact hl h
        have h0 : n.length ≠ 0 := fun h => hne (List.length_eq_zero_iff.1 h)
        by_cases h4 : n.length < 3
        · rw [if_pos h4]
          by_cases h5 : n.length = 1
          · rw [if_pos (by simpa using h5)]
            have hsg : Single g n := ⟨hig (by omega), hd, h5⟩
            unfold checkShort
            by_cases h6 : n ∈ around os ++ own
            · rw [if_pos (by simpa using (mem_flatten_around own os n).2 h6)]
              exact Or.inr (Or.inr (Or.inl ⟨hsg, h6, rfl⟩))
            · rw [if_neg (by
                intro h
                exact h6 ((mem_flatten_around own os n).1 (by simpa using h)))]
              exact Or.inr (Or.inr (Or.inr (Or.inl ⟨hsg, h6, rfl⟩)))
          · rw [if_neg (by simpa using h5)]
            exact Or.inl ⟨Or.inr (Or.inr ⟨hd, Or.inr (by omega)⟩), rfl⟩
        · rw [if_neg h4]
          have hw : Word g n := ⟨hig (by omega), hd, by omega⟩
          unfold checkLong
          rcases scan_iff g hu n (by omega) env he with ⟨e1, e2⟩ | ⟨pre, e, post, e1, e2, e3, e4⟩
          · refine Or.inr (Or.inr (Or.inr (Or.inr (Or.inr ⟨hw, e2, ?_⟩))))
            simp only [e1, List.map_append, List.map_cons, List.map_nil]
            rfl
          · refine Or.inr (Or.inr (Or.inr (Or.inr (Or.inl ⟨hw, pre, e, post, e1, e3, e4, ?_⟩))))
            simp only [e2]
            rfl

/-- The end of a block. -/
theorem singles_many (g : Cfg) (names : List Ex) (own : List Name) (os : List (List Name)) (out : List Rep) :
    checkSingles g ⟨names, own :: os, out⟩ = ⟨names, own :: os, out ++ manyOf g (around os) own⟩ := by
  have hl : (own :: os).flatten.length = (around os).length + own.length := by
    rw [length_around]; simp only [List.flatten_cons, List.length_append]; omega
  unfold checkSingles manyOf
  by_cases h1 : own = []
  · subst h1
    rw [if_pos (by simp), if_neg (fun h => h.1 rfl), List.append_nil]
  · rw [if_neg (by simpa using h1)]
    simp only [hl]
    by_cases h2 : g.threshold < (around os).length + own.length
    · rw [if_pos h2, if_pos ⟨h1, h2⟩]
    · rw [if_neg h2, if_neg (fun h => h2 h.2), List.append_nil]

/-- The visitor goes through the bindings as specified; names of inner blocks are gone afterwards. -/
theorem visit_walks (g : Cfg) (hu : g.num '_' = false) (b : Blk) : ∀ (env own : List Name) (os : List (List Name)) (out : List Rep),
    (∀ x ∈ env, 3 ≤ x.length) → ∃ o env' own', visit g b ⟨env.map (mk g), own :: os, out⟩ = some ⟨env'.map (mk g), own' :: os, out ++ o⟩ ∧
      Walk g env (around os) own b o env' own' ∧ env <+: env' ∧ ∀ x ∈ env', 3 ≤ x.length := by
  induction b with
  | nil => intro env own os out he; exact ⟨[], env, own, by simp [visit], .nil _ _ _, List.prefix_refl _, he⟩
  | bind n r ih =>
    intro env own os out he
    simp only [visit]
    rcases ident_cases g hu n env he own os out with ⟨h1, h2⟩ | ⟨h0, h1, h2⟩ | ⟨h0, h1, h2⟩ | ⟨h0, h1, h2⟩ |
        ⟨h0, pre, e, post, h1, h3, h4, h2⟩ | ⟨h0, h1, h2⟩ <;> rw [h2] <;> simp only
    · obtain ⟨o, env', own', e1, e2, e3⟩ := ih env own os out he
      exact ⟨o, env', own', e1, .ignored h1 e2, e3⟩
    · obtain ⟨o, env', own', e1, e2, e3⟩ := ih env own os (out ++ [.digits n]) he
      exact ⟨.digits n :: o, env', own', by rw [e1]; simp, .digits h0 h1 e2, e3⟩
    · obtain ⟨o, env', own', e1, e2, e3⟩ := ih env own os out he
      exact ⟨o, env', own', e1, .shadow h0 h1 e2, e3⟩
    · obtain ⟨o, env', own', e1, e2, e3⟩ := ih env (own ++ [n]) os out he
      exact ⟨o, env', own', e1, .single h0 h1 e2, e3⟩
    · obtain ⟨o, env', own', e1, e2, e3⟩ := ih env own os (out ++ [.similar n e]) he
      refine ⟨.similar n e :: o, env', own', by rw [e1]; simp, ?_, e3⟩
      exact .similar h0 h1 h3 h4 e2
    · obtain ⟨o, env', own', e1, e2, e3, e4⟩ := ih (env ++ [n]) own os out (by
        intro x hx
        rcases List.mem_append.1 hx with hx | hx
        · exact he x hx
        · have : x = n := by simpa using hx
          subst this; exact h0.2.2)
      exact ⟨o, env', own', e1, .fresh h0 h1 e2, (List.prefix_append _ _).trans e3, e4⟩
  | block b r ihb ihr =>
    intro env own os out he
    obtain ⟨o1, env1, own1, e1, e2, e3, _⟩ := ihb env [] (own :: os) out he
    obtain ⟨o, env', own', f1, f2, f3⟩ := ihr env own os (out ++ o1 ++ manyOf g (around (own :: os)) own1) he
    simp only [visit]
    rw [e1]
    have ht : truncate ⟨env.map (mk g), [] :: own :: os, out⟩ ⟨env1.map (mk g), own1 :: own :: os, out ++ o1⟩ =
        ⟨env.map (mk g), own1 :: own :: os, out ++ o1⟩ := by
      obtain ⟨t, rfl⟩ := e3
      simp [truncate, List.take_append]
    simp only [ht, singles_many, List.tail_cons]
    rw [f1]
    rw [around_cons] at e2
    refine ⟨_, env', own', ?_, .block e2 f2, f3⟩
    rw [around_cons]
    simp

/-- C136: the names of a function are reported as specified, without a panic; nothing is reported in tests. -/
theorem function_reports (g : Cfg) (hu : g.num '_' = false) (b : Blk) :
    (∃ o env own, Walk g [] [] [] b o env own ∧ doCheck g false b = some (o ++ manyOf g [] own)) ∧ doCheck g true b = some [] := by
  refine ⟨?_, rfl⟩
  obtain ⟨o, env', own', e1, e2, _⟩ := visit_walks g hu b [] [] [] [] (fun x h => by cases h)
  refine ⟨o, env', own', e2, ?_⟩
  have e1' : visit g b ⟨[], [[]], []⟩ = some ⟨env'.map (mk g), [own'], [] ++ o⟩ := e1
  unfold doCheck
  rw [if_neg (by simp)]
  simp only [e1', singles_many]
  rfl

/-- The settings of the examples. -/
def g : Cfg := ⟨Char.isDigit, Char.isUpper, table, 4⟩
/-- A function with the bindings given. -/
def names (l : List String) : Blk := l.foldr (fun s b => .bind s.toList b) .nil

example : doCheck g false (.block (names ["color"]) (names ["colour", "collar", "_1"])) =
    some [.digits "_1".toList] ∧
    doCheck g false (names ["color", "colour"]) = some [.similar "colour".toList "color".toList] := by decide +kernel
example : doCheck g false (.bind ['a'] (.bind ['b'] (.block (names ["c", "d", "a", "e"]) .nil))) = some [.many 5] := by decide +kernel

/-- The first name for which something holds is the only one. -/
theorem first_unique {P : Name → Prop} {pre post pre' post' : List Name} {e e' : Name} (h : pre ++ e :: post = pre' ++ e' :: post')
    (h1 : ∀ x ∈ pre, ¬ P x) (h2 : P e) (h1' : ∀ x ∈ pre', ¬ P x) (h2' : P e') : e = e' := by
  induction pre generalizing pre' with
  | nil =>
    cases pre' with
    | nil => simp only [List.nil_append, List.cons.injEq] at h; exact h.1
    | cons y r =>
      simp only [List.nil_append, List.cons_append, List.cons.injEq] at h
      exact absurd (h.1 ▸ h2) (h1' y (by simp))
  | cons x r ih =>
    cases pre' with
    | nil =>
      simp only [List.nil_append, List.cons_append, List.cons.injEq] at h
      exact absurd (h.1.symm ▸ h2') (h1 x (by simp))
    | cons y r' =>
      simp only [List.cons_append, List.cons.injEq] at h
      exact ih h.2 (fun z hz => h1 z (by simp [hz])) (fun z hz => h1' z (by simp [hz]))

/-- C136: the specification leaves no choice. -/
theorem walk_unique (g : Cfg) {env outer own : List Name} {b : Blk} {o : List Rep} {env' own' : List Name}
    (h : Walk g env outer own b o env' own') :
    ∀ {o2 env2 own2}, Walk g env outer own b o2 env2 own2 → o = o2 ∧ env' = env2 ∧ own' = own2 := by
  induction h with
  | nil => intro o2 env2 own2 h2; cases h2; exact ⟨rfl, rfl, rfl⟩
  | ignored h1 _ ih =>
    intro o2 env2 own2 h2
    cases h2 with
    | ignored _ h => exact ih h
    | digits h _ _ => exact absurd h1 h
    | shadow h _ _ => exact absurd h1 h.1
    | single h _ _ => exact absurd h1 h.1
    | similar h _ _ _ _ => exact absurd h1 h.1
    | fresh h _ _ => exact absurd h1 h.1
  | digits h0 h1 _ ih =>
    intro o2 env2 own2 h2
    cases h2 with
    | ignored h _ => exact absurd h h0
    | digits _ _ h => obtain ⟨rfl, rfl, rfl⟩ := ih h; exact ⟨rfl, rfl, rfl⟩
    | shadow h _ _ => exact absurd h1 h.2.1
    | single h _ _ => exact absurd h1 h.2.1
    | similar h _ _ _ _ => exact absurd h1 h.2.1
    | fresh h _ _ => exact absurd h1 h.2.1
  | shadow h0 h1 _ ih =>
    intro o2 env2 own2 h2
    cases h2 with
    | ignored h _ => exact absurd h h0.1
    | digits _ h _ => exact absurd h h0.2.1
    | shadow _ _ h => exact ih h
    | single _ h _ => exact absurd h1 h
    | similar h _ _ _ _ => have := h.2.2; have := h0.2.2; omega
    | fresh h _ _ => have := h.2.2; have := h0.2.2; omega
  | single h0 h1 _ ih =>
    intro o2 env2 own2 h2
    cases h2 with
    | ignored h _ => exact absurd h h0.1
    | digits _ h _ => exact absurd h h0.2.1
    | shadow _ h _ => exact absurd h h1
    | single _ _ h => exact ih h
    | similar h _ _ _ _ => have := h.2.2; have := h0.2.2; omega
    | fresh h _ _ => have := h.2.2; have := h0.2.2; omega
  | similar h0 he h1 hb _ ih =>
    intro o2 env2 own2 h2
    cases h2 with
    | ignored h _ => exact absurd h h0.1
    | digits _ h _ => exact absurd h h0.2.1
    | shadow h _ _ => have := h.2.2; have := h0.2.2; omega
    | single h _ _ => have := h.2.2; have := h0.2.2; omega
    | similar _ he' h1' hb' h =>
      obtain ⟨rfl, rfl, rfl⟩ := ih h
      have := first_unique (he.symm.trans he') h1 hb h1' hb'
      subst this
      exact ⟨rfl, rfl, rfl⟩
    | fresh _ h _ => exact absurd hb (h _ (by rw [he]; simp))
  | fresh h0 h1 _ ih =>
    intro o2 env2 own2 h2
    cases h2 with
    | ignored h _ => exact absurd h h0.1
    | digits _ h _ => exact absurd h h0.2.1
    | shadow h _ _ => have := h.2.2; have := h0.2.2; omega
    | single h _ _ => have := h.2.2; have := h0.2.2; omega
    | similar _ he' _ hb' _ => exact absurd hb' (h1 _ (by rw [he']; simp))
    | fresh _ _ h => exact ih h
  | block _ _ ih1 ih2 =>
    intro o2 env2 own2 h2
    cases h2 with
    | block g1 g2 =>
      obtain ⟨rfl, rfl, rfl⟩ := ih1 g1
      obtain ⟨rfl, rfl, rfl⟩ := ih2 g2
      exact ⟨rfl, rfl, rfl⟩

/-- C136: of the names that are visible and not reported no two are too similar. -/
theorem visible_distinct (g : Cfg) {env outer own : List Name} {b : Blk} {o : List Rep} {env' own' : List Name}
    (h : Walk g env outer own b o env' own') :
    env.Pairwise (fun e n => ¬ Bad g.num g.tbl n e) → env'.Pairwise (fun e n => ¬ Bad g.num g.tbl n e) := by
  induction h with
  | nil => exact id
  | ignored _ _ ih => exact ih
  | digits _ _ _ ih => exact ih
  | shadow _ _ _ ih => exact ih
  | single _ _ _ ih => exact ih
  | similar _ _ _ _ _ ih => exact ih
  | fresh _ h _ ih =>
    intro hp
    apply ih
    rw [List.pairwise_append]
    refine ⟨hp, List.pairwise_singleton _ _, fun x hx y hy => ?_⟩
    rw [List.mem_singleton] at hy
    rw [hy]
    exact h x hx
  | block _ _ _ ih => exact ih

/-- C136: a name is only reported because of one that is visible and too similar; a report of digits is for a name of digits, and one of many names is
above the threshold. -/
theorem reports_justified (g : Cfg) {env outer own : List Name} {b : Blk} {o : List Rep} {env' own' : List Name}
    (h : Walk g env outer own b o env' own') : ∀ r ∈ o,
      match r with
      | .digits n => Digits n ∧ ¬ Ignored g n
      | .similar n e => Word g n ∧ Similar g.num n e ∧ ¬ Exempt g.tbl n e
      | .many k => g.threshold < k := by
  have hmany : ∀ outer own, ∀ r ∈ manyOf g outer own, ∃ k, r = .many k ∧ g.threshold < k := by
    intro outer own r hr
    unfold manyOf at hr
    split at hr
    · rename_i hc
      have : r = .many (outer.length + own.length) := by simpa using hr
      exact ⟨_, this, hc.2⟩
    · cases hr
  induction h with
  | nil => intro r hr; cases hr
  | ignored _ _ ih => exact ih
  | digits h1 h2 _ ih =>
    intro r hr
    rcases List.mem_cons.1 hr with rfl | hr
    · exact ⟨h2, h1⟩
    · exact ih r hr
  | shadow _ _ _ ih => exact ih
  | single _ _ _ ih => exact ih
  | similar h1 _ _ h2 _ ih =>
    intro r hr
    rcases List.mem_cons.1 hr with rfl | hr
    · exact ⟨h1, h2.1, h2.2⟩
    · exact ih r hr
  | fresh _ _ _ ih => exact ih
  | block _ _ ih1 ih2 =>
    intro r hr
    rcases List.mem_append.1 hr with hr | hr
    · rcases List.mem_append.1 hr with hr | hr
      · exact ih1 r hr
      · obtain ⟨k, rfl, hk⟩ := hmany _ _ r hr
        exact hk
    · exact ih2 r hr

example : ∃ o env own, Walk g [] [] [] (names ["color", "colour"]) o env own := by
  obtain ⟨⟨o, env, own, h, _⟩, _⟩ := function_reports g (by decide) (names ["color", "colour"])
  exact ⟨o, env, own, h⟩

/-! ## Findings -/

/-- The names that may be similar are looked for at the beginning and the end of names, so that no two names that begin with `set` are ever
reported (unless the older one belongs to one of the three lists before). -/
theorem prefix_exempt (a b : Name) (h : ∀ l ∈ table.take 3, ¬ Belongs ("set".toList ++ b) l) :
    ¬ Bad g.num table ("set".toList ++ a) ("set".toList ++ b) := by
  refine fun hb => hb.2 ⟨table.take 3, ["set".toList, "get".toList], table.drop 4, rfl, h, ?_, ?_⟩
  · exact ⟨"set".toList, by simp, Or.inl (List.prefix_append _ _)⟩
  · exact ⟨"set".toList, by simp, Or.inl (List.prefix_append _ _)⟩

/-- For example `settings` and `settinge`. -/
theorem prefix_exempt_example : doCheck g false (names ["settings", "settinge"]) = some [] ∧
    doCheck g false (names ["bettings", "bettinge"]) ≠ some [] := by decide +kernel

/-- Whether two names are reported depends on their order if one belongs to two lists: the first one is kept for the older name. -/
theorem order_matters : doCheck g false (names ["lspath", "lhspath"]) = some [] ∧
    doCheck g false (names ["lhspath", "lspath"]) = some [.similar "lspath".toList "lhspath".toList] := by decide +kernel

/-- A reported name is not kept, so that one similar to it is not reported. -/
theorem chain_missed : doCheck g false (names ["abcd", "abce", "abfe"]) = some [.similar "abce".toList "abcd".toList] ∧
    doCheck g false (names ["abce", "abfe"]) = some [.similar "abfe".toList "abce".toList] := by decide +kernel

/-- A digit next to another difference does not count: two characters differ and the names are similar. -/
theorem digits_alike : doCheck g false (names ["foo1x", "foo2y"]) = some [.similar "foo2y".toList "foo1x".toList] := by decide +kernel

end Verif.Names
