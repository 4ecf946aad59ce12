import Verif.Dev.EditModel

/-!
# C46: no renamed lint points at a renamed lint, and no name is lost
# C56: the test files of a lint
-/

namespace Verif.Dev

/-! ## Specification -/

/-- Every clippy lint which is the target of a rename is active, or it is one of the names in `D` and deprecated. -/
def TargetsOk (D : List Str) (T : Table) : Prop :=
  ∀ n m, T.get n = some (.renamed (.clippy m)) → T.get m = some .active ∨ (m ∈ D ∧ T.get m = some .deprecated)

/-- The names deprecated by some commands. -/
def deprecatedBy (cs : List Cmd) : List Str := cs.filterMap fun c => match c with | .deprecate n => some n | _ => none

/-! ## The table -/

theorem Table.get_map (g : Str → LintSt → LintSt) (f : Str × LintSt → Str × LintSt) (hf : ∀ e, f e = (e.1, g e.1 e.2)) (n : Str) :
    ∀ T : Table, Table.get (T.map f) n = (T.get n).map (g n)
  | [] => rfl
  | e :: T => by
    have ih := Table.get_map g f hf n T
    unfold Table.get at *
    rw [List.map_cons, List.find?_cons, List.find?_cons, hf e]
    by_cases h : e.1 = n
    · simp [h]
    · simp only [h, decide_false]; exact ih

theorem Table.get_set (T : Table) (k : Str) (s : LintSt) (n : Str) :
    (T.set k s).get n = (T.get n).map fun o => if n = k then s else o :=
  Table.get_map (fun n o => if n = k then s else o) _ (fun e => by by_cases h : e.1 = k <;> simp [h]) n T

theorem get_updateTargets (T : Table) (old : Str) (new : Target) (n : Str) :
    (updateTargets T old new).get n = (T.get n).map fun o => if o = .renamed (.clippy old) then .renamed new else o :=
  Table.get_map (fun _ o => if o = .renamed (.clippy old) then .renamed new else o) _
    (fun e => by by_cases h : e.2 = .renamed (.clippy old) <;> simp [h]) n T

theorem Table.get_append (T : Table) (k : Str) (s : LintSt) (n : Str) :
    Table.get (T ++ [(k, s)]) n = (T.get n).or (if k = n then some s else none) := by
  unfold Table.get
  rw [List.find?_append]
  cases T.find? fun e => decide (e.1 = n) with
  | some x => rfl
  | none => by_cases h : k = n <;> simp [List.find?_cons, h]

/-- What a command does to the table in the files. -/
theorem runCmd_cases (T : Table) (c : Cmd) : runCmd T c = T ∨
    (∃ n, c = .deprecate n ∧ T.get n = some .active ∧ runCmd T c = T.set n .deprecated) ∨
    (∃ o n, c = .uplift o n ∧ T.get o = some .active ∧ runCmd T c = (updateTargets T o (.rustc n)).set o (.renamed (.rustc n))) ∨
    (∃ o n, c = .rename o n ∧ T.get o = some .active ∧ T.get n = none ∧
      runCmd T c = (updateTargets T o (.clippy n)).set o (.renamed (.clippy n)) ++ [(n, .active)]) := by
  have act : ∀ {o : Str} {t : Target}, (updateTargets T o t).get o = some .active → T.get o = some .active := by
    intro o t h
    rw [get_updateTargets] at h
    cases hg : T.get o with
    | none => simp [hg] at h
    | some s =>
      simp only [hg, Option.map_some, Option.some.injEq] at h
      split at h
      · simp at h
      · rw [h]
  cases c with
  | deprecate n =>
    simp only [runCmd, exec]
    cases hg : T.get n with
    | none => exact .inl rfl
    | some s =>
      cases s with
      | active => exact .inr (.inl ⟨n, rfl, hg, rfl⟩)
      | deprecated => exact .inl rfl
      | renamed t => exact .inl rfl
  | uplift o n =>
    simp only [runCmd, exec]
    cases hg : (updateTargets T o (.rustc n)).get o with
    | none => exact .inl rfl
    | some s =>
      cases s with
      | active => exact .inr (.inr (.inl ⟨o, n, rfl, act hg, rfl⟩))
      | deprecated => exact .inl rfl
      | renamed t => exact .inl rfl
  | rename o n =>
    simp only [runCmd, exec]
    cases hg : (updateTargets T o (.clippy n)).get o with
    | none => exact .inl rfl
    | some s =>
      cases s with
      | active =>
        by_cases hn : (((updateTargets T o (.clippy n)).set o (.renamed (.clippy n))).get n).isNone = true
        · simp only [hn, if_true]
          refine .inr (.inr (.inr ⟨o, n, rfl, act hg, ?_, rfl⟩))
          rw [Option.isNone_iff_eq_none, Table.get_set, get_updateTargets] at hn
          cases h : T.get n with
          | none => rfl
          | some s => simp [h] at hn
        · simp only [Bool.eq_false_iff.2 hn]; exact .inl rfl
      | deprecated => exact .inl rfl
      | renamed t => exact .inl rfl

theorem TargetsOk.mono {D D' : List Str} {T : Table} (h : TargetsOk D T) (hD : ∀ x ∈ D, x ∈ D') : TargetsOk D' T := fun n m hn =>
  (h n m hn).imp id fun h => ⟨hD m h.1, h.2⟩

theorem runCmd_targets {D : List Str} {T : Table} (h : TargetsOk D T) (c : Cmd) : TargetsOk (D ++ deprecatedBy [c]) (runCmd T c) := by
  rcases runCmd_cases T c with e | ⟨k, rfl, hk, e⟩ | ⟨o, k, rfl, ho, e⟩ | ⟨o, k, rfl, ho, hk, e⟩
  · rw [e]; exact h.mono fun x hx => by simp [hx]
  · rw [e]
    intro n m hn
    have hn' : T.get n = some (.renamed (.clippy m)) := by
      rw [Table.get_set] at hn
      cases hg : T.get n with
      | none => simp [hg] at hn
      | some s =>
        simp only [hg, Option.map_some, Option.some.injEq] at hn
        split at hn
        · simp at hn
        · rw [hn]
    rw [Table.get_set]
    by_cases hm : m = k
    · right
      subst hm
      exact ⟨by simp [deprecatedBy], by simp [hk]⟩
    · rcases h n m hn' with h | ⟨h, h'⟩
      · left; simp [h, hm]
      · right; exact ⟨by simp [h], by simp [h', hm]⟩
  · rw [e]
    intro n m hn
    rw [Table.get_set, get_updateTargets] at hn ⊢
    cases hg : T.get n with
    | none => simp [hg] at hn
    | some s =>
      simp only [hg, Option.map_some, Option.some.injEq] at hn
      by_cases hno : n = o
      · simp [hno] at hn
      rw [if_neg hno] at hn
      by_cases hs : s = .renamed (.clippy o)
      · simp [hs] at hn
      rw [if_neg hs] at hn
      subst hn
      have hmo : m ≠ o := fun e => hs (by rw [e])
      rcases h n m hg with h | ⟨h, h'⟩
      · left; simp [h, hmo]
      · right; exact ⟨by simp [h], by simp [h', hmo]⟩
  · rw [e]
    have hko : k ≠ o := fun e => by rw [e, ho] at hk; simp at hk
    intro n m hn
    rw [Table.get_append, Table.get_set, get_updateTargets] at hn ⊢
    by_cases hm : m = k
    · left; subst hm; simp [hk]
    cases hg : T.get n with
    | none =>
      simp only [hg, Option.map_none, Option.none_or] at hn
      split at hn <;> simp at hn
    | some s =>
      simp only [hg, Option.map_some, Option.some_or, Option.some.injEq] at hn
      by_cases hno : n = o
      · simp only [hno, if_true, LintSt.renamed.injEq, Target.clippy.injEq] at hn
        exact absurd hn.symm hm
      rw [if_neg hno] at hn
      by_cases hs : s = .renamed (.clippy o)
      · simp only [hs, if_true, LintSt.renamed.injEq, Target.clippy.injEq] at hn
        exact absurd hn.symm hm
      rw [if_neg hs] at hn
      subst hn
      have hmo : m ≠ o := fun e => hs (by rw [e])
      rcases h n m hg with h | ⟨h, h'⟩
      · left; simp [h, hmo]
      · right; exact ⟨by simp [h], by simp [h', hmo]⟩

theorem runCmd_names {T : Table} (c : Cmd) {n : Str} (h : T.get n ≠ none) : (runCmd T c).get n ≠ none := by
  rcases runCmd_cases T c with e | ⟨k, rfl, hk, e⟩ | ⟨o, k, rfl, ho, e⟩ | ⟨o, k, rfl, ho, hk, e⟩ <;> rw [e]
  · exact h
  · rw [Table.get_set]; simpa using h
  · rw [Table.get_set, get_updateTargets]; simpa using h
  · rw [Table.get_append, Table.get_set, get_updateTargets]
    cases hg : T.get n with
    | none => exact absurd hg h
    | some s => simp

theorem deprecatedBy_append (a b : List Cmd) : deprecatedBy (a ++ b) = deprecatedBy a ++ deprecatedBy b := by
  simp [deprecatedBy]

/-- **C46**: after any history of commands, every rename points at a rustc lint or at an active clippy lint, unless a command deprecated
the target; so no rename points at a renamed lint. No name is lost. -/
theorem history_ok {T : Table} (h : TargetsOk [] T) (cs : List Cmd) :
    TargetsOk (deprecatedBy cs) (cs.foldl runCmd T) ∧ ∀ n, T.get n ≠ none → (cs.foldl runCmd T).get n ≠ none := by
  suffices ∀ (cs : List Cmd) (D : List Str) (T : Table), TargetsOk D T →
      TargetsOk (D ++ deprecatedBy cs) (cs.foldl runCmd T) ∧ ∀ n, T.get n ≠ none → (cs.foldl runCmd T).get n ≠ none by
    simpa using this cs [] T h
  intro cs
  induction cs with
  | nil => intro D T h; exact ⟨h.mono fun x hx => by simp [hx], fun _ h => h⟩
  | cons c cs ih =>
    intro D T h
    have h1 := runCmd_targets h c
    obtain ⟨r1, r2⟩ := ih _ _ h1
    rw [List.foldl_cons]
    refine ⟨?_, fun n hn => r2 n (runCmd_names c hn)⟩
    have : deprecatedBy (c :: cs) = deprecatedBy [c] ++ deprecatedBy cs := deprecatedBy_append [c] cs
    rw [this, ← List.append_assoc]
    exact r1

/-- A table and its history: two renames in a row. -/
example : TargetsOk [] [(str!"a", .active), (str!"z", .renamed (.clippy (str!"a")))] ∧
    [Cmd.rename (str!"a") (str!"b"), .rename (str!"b") (str!"c")].foldl runCmd [(str!"a", .active), (str!"z", .renamed (.clippy (str!"a")))] =
      [(str!"a", .renamed (.clippy (str!"c"))), (str!"z", .renamed (.clippy (str!"c"))), (str!"b", .renamed (.clippy (str!"c"))),
        (str!"c", .active)] := by
  refine ⟨?_, by decide +kernel⟩
  intro n m h
  simp only [Table.get, List.find?_cons, List.find?_nil] at h
  split at h
  · simp at h
  · split at h
    · simp only [Option.map_some, Option.some.injEq, LintSt.renamed.injEq, Target.clippy.injEq] at h
      rw [← h]; left; decide
    · simp at h

/-- A successful rename takes effect if the new name is free: the old name is a rename to the new one, which is active. -/
theorem rename_effect_partial {T : Table} {old new : Str} (ho : T.get old = some .active) (hn : T.get new = none) :
    (exec T (.rename old new)).2 = .done true ∧ (runCmd T (.rename old new)).get old = some (.renamed (.clippy new)) ∧
      (runCmd T (.rename old new)).get new = some .active := by
  have h1 : (updateTargets T old (.clippy new)).get old = some .active := by rw [get_updateTargets, ho]; rfl
  have h2 : (((updateTargets T old (.clippy new)).set old (.renamed (.clippy new))).get new).isNone = true := by
    rw [Table.get_set, get_updateTargets, hn]; rfl
  have e : exec T (.rename old new) =
      ((updateTargets T old (.clippy new)).set old (.renamed (.clippy new)) ++ [(new, .active)], .done true) := by
    simp only [exec, h1, h2, if_true]
  refine ⟨by rw [e], ?_, ?_⟩
  · simp only [runCmd, e]
    rw [Table.get_append, Table.get_set, get_updateTargets, ho]; simp
  · simp only [runCmd, e]
    rw [Table.get_append, Table.get_set, get_updateTargets, hn]; simp

/-- **C46**, violation: renaming onto an existing lint reports `Renamed`, but the table isn't written, so the old lint stays active. -/
theorem rename_existing_violation :
    exec [(str!"a", .active), (str!"b", .active)] (.rename (str!"a") (str!"b")) =
        ([(str!"a", .renamed (.clippy (str!"b"))), (str!"b", .active)], .done false) ∧
      (runCmd [(str!"a", .active), (str!"b", .active)] (.rename (str!"a") (str!"b"))).get (str!"a") = some .active := by
  decide +kernel

/-- **C46**, violation: deprecating the target of a rename leaves the rename pointing at the deprecated lint. -/
theorem deprecate_target_violation :
    [Cmd.rename (str!"a") (str!"b"), .deprecate (str!"b")].foldl runCmd [(str!"a", .active)] =
      [(str!"a", .renamed (.clippy (str!"b"))), (str!"b", .deprecated)] := by decide +kernel

/-! ## C56: the test files -/

/-- The test belongs to the lint: the longest name of a lint with which the name of the file starts. -/
def Belongs (lints : List Str) (lint file : Str) : Prop :=
  lint <+: file ∧ ∀ x ∈ lints, x <+: file → x.length ≤ lint.length

theorem mem_collectTests {lint : Str} {lints entries : List Str} {f : Str} :
    f ∈ collectTests lint (ignoredPrefixes lint lints) entries ↔ f ∈ entries ∧ Belongs lints lint f := by
  simp only [collectTests, ignoredPrefixes, List.mem_filter, Bool.and_eq_true, Bool.not_eq_true', List.any_eq_false, Belongs,
    List.isPrefixOf_iff_prefix, decide_eq_true_eq]
  constructor
  · rintro ⟨h1, h2, h3⟩
    refine ⟨h1, h2, fun x hx hp => Nat.le_of_not_lt fun hlt => h3 x ⟨hx, hlt, ?_⟩ hp⟩
    exact List.prefix_of_prefix_length_le h2 hp (Nat.le_of_lt hlt)
  · rintro ⟨h1, h2, h3⟩
    exact ⟨h1, h2, fun x hx hp => absurd (h3 x hx.1 hp) (Nat.not_le_of_lt hx.2.1)⟩

theorem bufPaths_eq {pre : Str} : ∀ ns : List Str, bufPaths pre.length pre ns = ns.map (pre ++ ·)
  | [] => rfl
  | n :: ns => by simp [bufPaths, bufPaths_eq ns]

/-- **C56**, partial: the files in `tests/ui` which are deleted are exactly those of the lint; of the directories in `tests/ui-toml`, if
the lint has at most one, too. Missing: a second directory (`deletedTests_toml_violation`). -/
theorem deletedTests_partial {lint : Str} {lints ui uiToml : List Str}
    (h1 : (collectTests lint (ignoredPrefixes lint lints) uiToml).length ≤ 1) (path : Str) :
    path ∈ deletedTests lint lints ui uiToml ↔ (∃ f ∈ ui, Belongs lints lint f ∧ path = str!"tests/ui/" ++ f) ∨
      (∃ f ∈ uiToml, Belongs lints lint f ∧ path = str!"tests/ui-toml/" ++ f) := by
  have key : ∀ (ns : List Str), ns.length ≤ 1 → bufPaths (str!"tests/ui/").length (str!"tests/ui-toml/") ns = ns.map (str!"tests/ui-toml/" ++ ·) := by
    intro ns hns
    match ns, hns with
    | [], _ => rfl
    | [n], _ => rfl
    | a :: b :: c, h => simp at h
  rw [deletedTests, key _ h1, bufPaths_eq, List.mem_append, List.mem_map, List.mem_map]
  constructor
  · rintro (⟨f, hf, e⟩ | ⟨f, hf, e⟩)
    · rw [mem_collectTests] at hf; exact .inl ⟨f, hf.1, hf.2, e.symm⟩
    · rw [mem_collectTests] at hf; exact .inr ⟨f, hf.1, hf.2, e.symm⟩
  · rintro (⟨f, hf, hb, e⟩ | ⟨f, hf, hb, e⟩)
    · exact .inl ⟨f, mem_collectTests.2 ⟨hf, hb⟩, e.symm⟩
    · exact .inr ⟨f, mem_collectTests.2 ⟨hf, hb⟩, e.symm⟩

/-- The tests of a lint with a longer name are kept. -/
example : deletedTests (str!"vec") [str!"vec", str!"vec_box"] [str!"vec.rs", str!"vec2.rs", str!"vec_box.rs"] [str!"vec_cfg"] =
    [str!"tests/ui/vec.rs", str!"tests/ui/vec2.rs", str!"tests/ui-toml/vec_cfg"] := by decide +kernel

/-- **C56**, violation: the buffer is cut back to `tests/ui-`, so the second directory in `tests/ui-toml` is looked for in the wrong place. -/
theorem deletedTests_toml_violation :
    deletedTests (str!"vec") [str!"vec"] [] [str!"vec_a", str!"vec_b"] = [str!"tests/ui-toml/vec_a", str!"tests/ui-vec_b"] := by
  decide +kernel

/-- The files renamed are those of the lint, each to the name with the new name in place of the old one at the start; partial like
`deletedTests_partial`. -/
theorem renamedTests_partial {old new : Str} {lints ui uiToml : List Str}
    (h1 : (collectTests old (ignoredPrefixes old lints) uiToml).length ≤ 1) (p q : Str) :
    (p, q) ∈ renamedTests old new lints ui uiToml ↔
      (∃ s, old ++ s ∈ ui ∧ Belongs lints old (old ++ s) ∧ p = str!"tests/ui/" ++ (old ++ s) ∧ q = str!"tests/ui/" ++ (new ++ s)) ∨
      (∃ s, old ++ s ∈ uiToml ∧ Belongs lints old (old ++ s) ∧ p = str!"tests/ui-toml/" ++ (old ++ s) ∧
        q = str!"tests/ui-toml/" ++ (new ++ s)) := by
  have key : ∀ (ns : List Str), ns.length ≤ 1 → bufPaths (str!"tests/ui/").length (str!"tests/ui-toml/") ns = ns.map (str!"tests/ui-toml/" ++ ·) := by
    intro ns hns
    match ns, hns with
    | [], _ => rfl
    | [n], _ => rfl
    | a :: b :: c, h => simp at h
  have zipmap : ∀ (pre : Str) (g : Str → Str) (ns : List Str),
      (ns.map (pre ++ ·)).zip ((ns.map g).map (pre ++ ·)) = ns.map fun n => (pre ++ n, pre ++ g n) := by
    intro pre g ns
    induction ns with
    | nil => rfl
    | cons n ns ih => simp only [List.map_cons, List.zip_cons_cons, ih]
  have hmem : ∀ (pre : Str) (entries : List Str), (p, q) ∈ (collectTests old (ignoredPrefixes old lints) entries).map
      (fun n => (pre ++ n, pre ++ (new ++ n.drop old.length))) ↔
      ∃ s, old ++ s ∈ entries ∧ Belongs lints old (old ++ s) ∧ p = pre ++ (old ++ s) ∧ q = pre ++ (new ++ s) := by
    intro pre entries
    rw [List.mem_map]
    constructor
    · rintro ⟨f, hf, e⟩
      rw [mem_collectTests] at hf
      obtain ⟨s, rfl⟩ := hf.2.1
      simp only [List.drop_left, Prod.mk.injEq] at e
      exact ⟨s, hf.1, hf.2, e.1.symm, e.2.symm⟩
    · rintro ⟨s, h1, h2, rfl, rfl⟩
      exact ⟨old ++ s, mem_collectTests.2 ⟨h1, h2⟩, by simp⟩
  simp only [renamedTests]
  rw [key _ h1, key _ (by simpa using h1), bufPaths_eq, bufPaths_eq, zipmap, zipmap, List.mem_append, hmem, hmem]

/-- A test and its new name. -/
example : renamedTests (str!"vec") (str!"seq") [str!"vec", str!"vec_box"] [str!"vec2.rs", str!"vec_box.rs"] [] =
    [(str!"tests/ui/vec2.rs", str!"tests/ui/seq2.rs")] := by decide +kernel

/-- Removing a declaration keeps the text around it, apart from a line break on each side. -/
theorem removeDecl_spec (a b : Str) : ∃ a' b', removeDecl a b = a' ++ b' ∧ (a = a' ∨ a = a' ++ str!"\n" ∧ (str!"\n") <:+ a') ∧
    (b = b' ∨ b = str!"\n" ++ b' ∧ (str!"\n") <+: b') := by
  refine ⟨_, _, rfl, ?_, ?_⟩
  · split
    · next h =>
      right
      obtain ⟨x, hx⟩ := List.isPrefixOf_iff_prefix.1 h
      have ha : a = x.reverse ++ str!"\n" ++ str!"\n" := by
        have := congrArg List.reverse hx
        simp only [List.reverse_reverse] at this
        rw [← this]; simp
      rw [ha, List.dropLast_concat]
      exact ⟨rfl, x.reverse, rfl⟩
    · exact .inl rfl
  · split
    · next h =>
      right
      obtain ⟨x, hx⟩ := List.isPrefixOf_iff_prefix.1 h
      rw [← hx]
      exact ⟨rfl, x, rfl⟩
    · exact .inl rfl

end Verif.Dev
