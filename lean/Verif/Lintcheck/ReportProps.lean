import Verif.Lintcheck.DiffProps

/-!
# C57: the report of a comparison is complete up to its limits, and its links lead to its headings
-/

namespace Verif.Lintcheck

/-! ## Truncation -/

/-- What is shown is a beginning of the list, and the number printed is what is missing; without a limit everything is shown. -/
theorem truncateList_spec {α : Type} (limit : Option Nat) (l : List α) :
    (truncateList limit l).1 <+: l ∧ (truncateList limit l).1.length + (truncateList limit l).2 = l.length ∧
    (limit = none → (truncateList limit l).1 = l) ∧
    (∀ n, limit = some n → (truncateList limit l).1.length = min n l.length) := by
  cases limit with
  | none => exact ⟨List.prefix_refl _, rfl, fun _ => rfl, fun n h => nomatch h⟩
  | some n =>
    simp only [truncateList]
    by_cases h : l.length > n
    · rw [if_pos h]
      refine ⟨List.take_prefix _ _, ?_, (by intro h; cases h), fun m hm => ?_⟩
      · simp only [List.length_take]; omega
      · cases hm; rw [List.length_take]
    · rw [if_neg h]
      refine ⟨List.prefix_refl _, rfl, (by intro h; cases h), fun m hm => ?_⟩
      cases hm
      show l.length = min n l.length
      omega

/-- The number of warnings shown below the headings of a row. -/
def shownIn (limit : Option Nat) (r : Row) : Nat :=
  (truncateList limit r.added).1.length + (truncateList limit r.removed).1.length + (truncateList limit r.changed).1.length

/-- The number of warnings shown in the report. -/
def shownCount (truncate : Bool) (rows : List Row) : Nat :=
  (rows.map (shownIn (sectionLimit (truncateAfter truncate rows.length)))).sum

theorem sum_le {α : Type} {f : α → Nat} {n : Nat} : ∀ {l : List α}, (∀ a ∈ l, f a ≤ n) → (l.map f).sum ≤ l.length * n
  | [], _ => by simp
  | a :: l, h => by
    have := sum_le (l := l) fun b hb => h b (List.mem_cons_of_mem _ hb)
    have := h a (List.mem_cons_self ..)
    simp only [List.map_cons, List.sum_cons, List.length_cons, Nat.add_mul, Nat.one_mul]
    omega

/-- Each section of a truncated report shows at least five of its warnings, or all, and at most a hundred. -/
theorem section_limits {rows : List Row} (α : Type) (l : List α) :
    min 5 l.length ≤ (truncateList (sectionLimit (truncateAfter true rows.length)) l).1.length ∧
    (truncateList (sectionLimit (truncateAfter true rows.length)) l).1.length ≤ 100 := by
  have h := (truncateList_spec (sectionLimit (truncateAfter true rows.length)) l).2.2.2 (max (min 300 (1000 / rows.length)) 15 / 3) rfl
  have hb : 15 ≤ max (min 300 (1000 / rows.length)) 15 ∧ max (min 300 (1000 / rows.length)) 15 ≤ 300 := by omega
  rw [h]
  have : max (min 300 (1000 / rows.length)) 15 / 3 ≤ 100 := by omega
  have : 5 ≤ max (min 300 (1000 / rows.length)) 15 / 3 := by omega
  omega

/-- A truncated report shows at most a thousand warnings, or fifteen for each row when there are many rows. -/
theorem report_bounded (rows : List Row) : shownCount true rows ≤ max 1000 (15 * rows.length) := by
  have h : ∀ r ∈ rows, shownIn (sectionLimit (truncateAfter true rows.length)) r ≤ max (min 300 (1000 / rows.length)) 15 := by
    intro r _
    have ha := (truncateList_spec (sectionLimit (truncateAfter true rows.length)) r.added).2.2.2 (max (min 300 (1000 / rows.length)) 15 / 3) rfl
    have hr := (truncateList_spec (sectionLimit (truncateAfter true rows.length)) r.removed).2.2.2 (max (min 300 (1000 / rows.length)) 15 / 3) rfl
    have hc := (truncateList_spec (sectionLimit (truncateAfter true rows.length)) r.changed).2.2.2 (max (min 300 (1000 / rows.length)) 15 / 3) rfl
    rw [shownIn, ha, hr, hc]
    omega
  have hs := sum_le h
  rw [shownCount]
  have hm : rows.length * (1000 / rows.length) ≤ 1000 := Nat.mul_div_le _ _
  have h3 : rows.length * max (min 300 (1000 / rows.length)) 15 ≤ max 1000 (15 * rows.length) := by
    rcases Nat.le_total (min 300 (1000 / rows.length)) 15 with h | h
    · rw [Nat.max_eq_right h]; omega
    · rw [Nat.max_eq_left h]
      have := Nat.mul_le_mul_left rows.length (Nat.min_le_right 300 (1000 / rows.length))
      omega
  omega

/-- Without truncation every warning of the comparison is shown. -/
theorem report_untruncated (rows : List Row) :
    shownCount false rows = (rows.map fun r => r.added.length + r.removed.length + r.changed.length).sum := by
  rw [shownCount]
  congr 1

example : shownCount true (List.replicate 2 ⟨str!"clippy::a", List.replicate 120 ⟨[], [], []⟩, [], []⟩) = 200 := by decide +kernel
example : shownCount false (List.replicate 2 ⟨str!"clippy::a", List.replicate 120 ⟨[], [], []⟩, [], []⟩) = 240 := by decide +kernel

/-! ## Links -/

/-- The names of the lints of Clippy: lower case letters, digits and `_`. -/
def LintName (n : Str) : Prop := ∃ s : Str, n = str!"clippy::" ++ s ∧ ∀ c ∈ s, (97 ≤ c.toNat ∧ c.toNat ≤ 122) ∨ (48 ≤ c.toNat ∧ c.toNat ≤ 57) ∨ c = '_'

/-- `_` becomes `-`. -/
def dash (s : Str) : Str := s.map fun c => if c = '_' then '-' else c

theorem splitGo_none (sep : Str) (x : Char) (hx : x ∈ sep) : ∀ (s cur : Str), x ∉ s → Text.splitGo sep 0 cur s = [cur.reverse ++ s]
  | [], cur, _ => by simp [Text.splitGo]
  | c :: cs, cur, h => by
    have hn : sep.isPrefixOf (c :: cs) = false := by
      cases hp : sep.isPrefixOf (c :: cs) with
      | false => rfl
      | true => exact absurd ((List.isPrefixOf_iff_prefix.1 hp).subset hx) h
    rw [Text.splitGo, hn, if_neg (by decide), splitGo_none sep x hx cs (c :: cur) fun hm => h (List.mem_cons_of_mem _ hm)]
    simp

/-- The id of a lint. -/
theorem toHtmlId_lint {s : Str} (h : ∀ c ∈ s, (97 ≤ c.toNat ∧ c.toNat ≤ 122) ∨ (48 ≤ c.toNat ∧ c.toNat ≤ 57) ∨ c = '_') :
    toHtmlId (str!"clippy::" ++ s) = str!"user-content-" ++ dash s := by
  have hs : Text.split (str!"clippy::") (str!"clippy::" ++ s) = [[], s] := by
    have e : Text.split (str!"clippy::") (str!"clippy::" ++ s) = [] :: Text.split (str!"clippy::") s := rfl
    rw [e, Text.split, splitGo_none (str!"clippy::") ':' (by decide) s [] ?_]
    · rfl
    · intro hm
      have := h _ hm
      revert this
      decide
  rw [toHtmlId, hs]
  show List.map _ (str!"user-content-" ++ (s ++ [])) = _
  rw [List.append_nil, List.map_append]
  rfl

theorem dash_inj : ∀ {s t : Str}, (∀ c ∈ s, c ≠ '-') → (∀ c ∈ t, c ≠ '-') → dash s = dash t → s = t
  | [], [], _, _, _ => rfl
  | [], _ :: _, _, _, h => by simp [dash] at h
  | _ :: _, [], _, _, h => by simp [dash] at h
  | c :: s, d :: t, hs, ht, h => by
    simp only [dash, List.map_cons, List.cons.injEq] at h
    have ih := dash_inj (s := s) (t := t) (fun x hx => hs x (List.mem_cons_of_mem _ hx)) (fun x hx => ht x (List.mem_cons_of_mem _ hx)) h.2
    have hc := hs c (List.mem_cons_self ..)
    have hd := ht d (List.mem_cons_self ..)
    have e : c = d := by
      have h1 := h.1
      by_cases hc' : c = '_' <;> by_cases hd' : d = '_'
      · rw [hc', hd']
      · rw [if_pos hc', if_neg hd'] at h1; exact absurd h1.symm hd
      · rw [if_neg hc', if_pos hd'] at h1; exact absurd h1 hc
      · rw [if_neg hc', if_neg hd'] at h1; exact h1
    rw [e, ih]

theorem lint_no_dash {s : Str} (h : ∀ c ∈ s, (97 ≤ c.toNat ∧ c.toNat ≤ 122) ∨ (48 ≤ c.toNat ∧ c.toNat ≤ 57) ∨ c = '_') : ∀ c ∈ s, c ≠ '-' := by
  intro c hc e
  have := h c hc
  rw [e] at this
  revert this
  decide

/-- A capital letter. -/
def isCapital (c : Char) : Bool := decide (65 ≤ c.toNat) && decide (c.toNat ≤ 90)

theorem dash_no_capital {s : Str} (h : ∀ c ∈ s, (97 ≤ c.toNat ∧ c.toNat ≤ 122) ∨ (48 ≤ c.toNat ∧ c.toNat ≤ 57) ∨ c = '_') :
    (dash s).filter isCapital = [] := by
  rw [List.filter_eq_nil_iff]
  intro c hc
  obtain ⟨d, hd, rfl⟩ := List.mem_map.1 hc
  by_cases e : d = '_'
  · rw [if_pos e]; decide
  · rw [if_neg e]
    have := h d hd
    simp only [e, or_false] at this
    simp only [isCapital, Bool.and_eq_true, decide_eq_true_eq]
    omega

/-- The ends of the ids of a row. -/
def suffixes (r : Row) : List Str :=
  [] :: ((if r.added = [] then [] else [str!"-Added"]) ++ (if r.removed = [] then [] else [str!"-Removed"]) ++
    (if r.changed = [] then [] else [str!"-Changed"]))

theorem rowIds_eq {r : Row} (ha : ∀ w ∈ r.added, w.name = r.name) (hr : ∀ w ∈ r.removed, w.name = r.name)
    (hc : ∀ p ∈ r.changed, p.1.name = r.name ∧ p.2.name = r.name) : rowIds r = (suffixes r).map (toHtmlId r.name ++ ·) := by
  obtain ⟨n, a, b, c⟩ := r
  simp only at ha hr hc
  cases a <;> cases b <;> cases c <;> simp_all [rowIds, suffixes]

theorem suffixes_nodup (r : Row) : (suffixes r).Nodup := by
  obtain ⟨n, a, b, c⟩ := r
  cases a <;> cases b <;> cases c <;> simp [suffixes]

theorem suffixes_capital {r s : Row} {x y : Str} (hx : x ∈ suffixes r) (hy : y ∈ suffixes s)
    (h : x.filter isCapital = y.filter isCapital) : x = y := by
  have key : ∀ (r : Row) x, x ∈ suffixes r → x ∈ [str!"", str!"-Added", str!"-Removed", str!"-Changed"] := by
    intro r x hx
    obtain ⟨n, a, b, c⟩ := r
    cases a <;> cases b <;> cases c <;> simp [suffixes] at hx <;> simp <;> grind
  have t : ∀ x ∈ [str!"", str!"-Added", str!"-Removed", str!"-Changed"], ∀ y ∈ [str!"", str!"-Added", str!"-Removed", str!"-Changed"],
      x.filter isCapital = y.filter isCapital → x = y := by decide
  exact t x (key r x hx) y (key s y hy) h

/-- The ids of the headings of a report on lints of Clippy are distinct. -/
theorem ids_distinct {old new : List Warning} (ho : Sorted old) (hn : Sorted new) (hl : ∀ r ∈ diff old new, LintName r.name) :
    ((diff old new).flatMap rowIds).Nodup := by
  obtain ⟨hp, hrows⟩ := diff_rows ho hn
  rw [List.Nodup, List.pairwise_flatMap]
  have heq : ∀ r ∈ diff old new, rowIds r = (suffixes r).map (toHtmlId r.name ++ ·) := fun r hr =>
    rowIds_eq (hrows r hr).2.1 (hrows r hr).2.2.1 (hrows r hr).2.2.2
  constructor
  · intro r hr
    rw [heq r hr, List.pairwise_map]
    exact (suffixes_nodup r).imp fun hne e => hne (List.append_cancel_left e)
  · refine hp.imp_of_mem ?_
    intro r s hr hs hne x hx y hy e
    rw [heq r hr] at hx
    rw [heq s hs] at hy
    obtain ⟨u, hu, rfl⟩ := List.mem_map.1 hx
    obtain ⟨v, hv, rfl⟩ := List.mem_map.1 hy
    obtain ⟨a, ea, hla⟩ := hl r hr
    obtain ⟨b, eb, hlb⟩ := hl s hs
    rw [ea, eb, toHtmlId_lint hla, toHtmlId_lint hlb, List.append_assoc, List.append_assoc] at e
    have e1 := List.append_cancel_left e
    have e2 := congrArg (List.filter isCapital) e1
    rw [List.filter_append, List.filter_append, dash_no_capital hla, dash_no_capital hlb] at e2
    have e3 := suffixes_capital hu hv e2
    rw [e3] at e1
    have e4 := dash_inj (lint_no_dash hla) (lint_no_dash hlb) (List.append_cancel_right e1)
    exact hne.2 (by rw [ea, eb, e4])

/-- Every link of the summary leads to exactly one heading, the one of its lint. -/
theorem summary_links {old new : List Warning} (ho : Sorted old) (hn : Sorted new) (hl : ∀ r ∈ diff old new, LintName r.name) :
    ∀ l ∈ summaryLinks (diff old new), ((diff old new).flatMap rowIds).count l = 1 := by
  intro l h
  obtain ⟨r, hr, rfl⟩ := List.mem_map.1 h
  rw [(ids_distinct ho hn hl).count, if_pos]
  exact List.mem_flatMap.2 ⟨r, hr, List.mem_cons_self ..⟩

/-- The lower case letter. -/
def lower (c : Char) : Char := if isCapital c then Char.ofNat (c.toNat + 32) else c

/-- The links of a section are the ids of the headings of the section if case isn't regarded. What is missing: they are not the ids
themselves, see `section_links_violation`. -/
theorem section_links_partial {old new : List Warning} {r : Row} (h : r ∈ diff old new) :
    (rowLinks r).map (List.map lower) = (rowIds r).tail.map (List.map lower) := by
  obtain ⟨ha, hr, hc⟩ := row_names h
  obtain ⟨n, a, b, c⟩ := r
  simp only at ha hr hc
  cases a <;> cases b <;> cases c <;> simp_all [rowLinks, rowIds, countLink] <;> decide

/-- The link to the added warnings of a lint leads nowhere: the id of the heading starts with a capital letter. -/
theorem section_links_violation : ∃ r : Row, r ∈ diff [] [⟨str!"clippy::a_b", str!"x.rs:1", str!"w"⟩] ∧
    rowLinks r = [str!"user-content-a-b-added"] ∧ rowIds r = [str!"user-content-a-b", str!"user-content-a-b-Added"] :=
  ⟨⟨str!"clippy::a_b", [⟨str!"clippy::a_b", str!"x.rs:1", str!"w"⟩], [], []⟩, by decide +kernel, by decide +kernel, by decide +kernel⟩

example : LintName (str!"clippy::a_b") := ⟨str!"a_b", rfl, by decide⟩
example : summaryLinks (diff [⟨str!"clippy::a_b", str!"x.rs:1", str!"w"⟩] [⟨str!"clippy::c", str!"x.rs:1", str!"w"⟩]) =
    [str!"user-content-a-b", str!"user-content-c"] := by decide +kernel

end Verif.Lintcheck
