import Verif.Lintcheck.StatsModel
import Verif.Dev.FmtProps

/-!
# C58: the statistics of lintcheck are the counts of the lints, are read back from the log, and their comparison lists each difference
-/

namespace Verif.Lintcheck
open Verif.Dev (trim trimStart trimEnd isWs Trimmed trimEnd_ws trimEnd_trimmed trimStart_ws trim_trimmed)

/-! ## Maps -/

/-- The keys of a map are distinct. -/
def IsMap (c : List (Str × Nat)) : Prop := (c.map Prod.fst).Nodup

theorem lookup_iff : ∀ {c : List (Str × Nat)}, IsMap c → ∀ {n : Str} {v : Nat}, lookup c n = some v ↔ (n, v) ∈ c
  | [], _, n, v => by simp [lookup]
  | e :: c, h, n, v => by
    have hc : e.1 ∉ c.map Prod.fst ∧ IsMap c := List.nodup_cons.1 h
    have ih := lookup_iff hc.2 (n := n) (v := v)
    simp only [lookup, List.find?_cons] at *
    by_cases he : e.1 = n
    · simp only [he, decide_true, Option.map_some, Option.some.injEq, List.mem_cons]
      constructor
      · intro hv; left; rw [← he, ← hv]
      · rintro (hv | hv)
        · rw [← hv]
        · exact absurd (List.mem_map.2 ⟨_, hv, he.symm⟩) hc.1
    · simp only [he, decide_false, List.mem_cons]
      rw [ih]
      constructor
      · exact .inr
      · rintro (hv | hv)
        · exact absurd (by rw [← hv]) he
        · exact hv

theorem lookup_none {c : List (Str × Nat)} {n : Str} : lookup c n = none ↔ n ∉ c.map Prod.fst := by
  simp only [lookup, Option.map_eq_none_iff, List.find?_eq_none, decide_eq_true_eq, List.mem_map, not_exists, not_and]

theorem isMap_filter {c : List (Str × Nat)} (h : IsMap c) (p : Str × Nat → Bool) : IsMap (c.filter p) :=
  h.sublist (List.filter_sublist.map _)

theorem isMap_perm {c d : List (Str × Nat)} (h : IsMap c) (hp : c.Perm d) : IsMap d := (hp.map _).nodup_iff.1 h

/-! ## Counting -/

theorem bump_keys (n : Str) : ∀ c : List (Str × Nat), ∀ m, m ∈ (bump n c).map Prod.fst ↔ m = n ∨ m ∈ c.map Prod.fst
  | [], m => by simp [bump]
  | e :: c, m => by
    rw [bump]
    by_cases h : e.1 = n
    · rw [if_pos h]; simp only [List.map_cons, List.mem_cons, h, or_self_left]
    · rw [if_neg h]; simp only [List.map_cons, List.mem_cons, bump_keys n c m]; grind

theorem bump_map {n : Str} : ∀ {c : List (Str × Nat)}, IsMap c → IsMap (bump n c)
  | [], _ => by simp [bump, IsMap]
  | e :: c, h => by
    have hc : e.1 ∉ c.map Prod.fst ∧ IsMap c := List.nodup_cons.1 h
    rw [bump]
    by_cases he : e.1 = n
    · rw [if_pos he]; exact h
    · rw [if_neg he]
      refine List.nodup_cons.2 ⟨fun hm => ?_, bump_map hc.2⟩
      rcases (bump_keys n c _).1 hm with h1 | h1
      · exact he h1
      · exact hc.1 h1

/-- The count of a name, which is zero if the map has no entry. -/
def countIn (c : List (Str × Nat)) (n : Str) : Nat := (lookup c n).getD 0

theorem bump_count (n m : Str) : ∀ c : List (Str × Nat), countIn (bump n c) m = countIn c m + if m = n then 1 else 0
  | [] => by
    by_cases h : m = n
    · simp [bump, countIn, lookup, h]
    · simp [bump, countIn, lookup, h, Ne.symm h]
  | e :: c => by
    have ih := bump_count n m c
    rw [bump]
    by_cases he : e.1 = n
    · rw [if_pos he]
      by_cases hm : m = n
      · simp [countIn, lookup, List.find?_cons, he, hm]
      · have : e.1 ≠ m := fun h => hm (h.symm.trans he)
        simp [countIn, lookup, List.find?_cons, this, hm]
    · rw [if_neg he]
      by_cases hm : e.1 = m
      · have : m ≠ n := fun h => he (hm.trans h)
        simp [countIn, lookup, List.find?_cons, hm, this]
      · simp only [countIn, lookup, List.find?_cons, hm, decide_false] at *
        exact ih

theorem bump_pos {n : Str} : ∀ {c : List (Str × Nat)}, (∀ e ∈ c, 0 < e.2) → ∀ e ∈ bump n c, 0 < e.2
  | [], _, e, he => by simp [bump] at he; simp [he]
  | a :: c, h, e, he => by
    rw [bump] at he
    split at he
    · rcases List.mem_cons.1 he with rfl | h1
      · exact Nat.succ_pos _
      · exact h e (List.mem_cons_of_mem _ h1)
    · rcases List.mem_cons.1 he with rfl | h1
      · exact h _ (List.mem_cons_self ..)
      · exact bump_pos (fun x hx => h x (List.mem_cons_of_mem _ hx)) e h1

theorem counter_go : ∀ (names : List Str) (c : List (Str × Nat)), IsMap c → (∀ e ∈ c, 0 < e.2) →
    IsMap (names.foldl (fun c n => bump n c) c) ∧ (∀ e ∈ names.foldl (fun c n => bump n c) c, 0 < e.2) ∧
    ∀ m, countIn (names.foldl (fun c n => bump n c) c) m = countIn c m + names.count m
  | [], c, h, hp => ⟨h, hp, fun m => by simp⟩
  | n :: names, c, h, hp => by
    obtain ⟨h1, h2, h3⟩ := counter_go names (bump n c) (bump_map h) (bump_pos hp)
    refine ⟨h1, h2, fun m => ?_⟩
    rw [List.foldl_cons, h3, bump_count, List.count_cons]
    by_cases hm : m = n
    · simp [hm]; omega
    · simp [hm, Ne.symm hm]

/-- **C58.** The statistics have one entry for each lint with a warning, with the number of its warnings. -/
theorem counter_spec (names : List Str) : IsMap (counter names) ∧
    ∀ n k, (n, k) ∈ counter names ↔ k = names.count n ∧ n ∈ names := by
  obtain ⟨h1, h2, h3⟩ := counter_go names [] List.nodup_nil (by simp)
  refine ⟨h1, fun n k => ?_⟩
  have hc : (lookup (counter names) n).getD 0 = names.count n := by
    have := h3 n
    simpa [countIn, lookup, counter] using this
  rw [← show lookup (counter names) n = some k ↔ (n, k) ∈ counter names from lookup_iff h1]
  cases hl : lookup (counter names) n with
  | none =>
    rw [hl] at hc
    have h0 : names.count n = 0 := hc.symm
    have : n ∉ names := List.count_eq_zero.1 h0
    simp [this]
  | some v =>
    rw [hl] at hc
    have hv : v = names.count n := hc
    have hp : 0 < v := h2 _ ((lookup_iff h1).1 hl)
    have : n ∈ names := List.count_pos_iff.1 (hv ▸ hp)
    simp only [Option.some.injEq, this, and_true]
    rw [hv]
    exact eq_comm

example : counter [str!"b", str!"a", str!"b"] = [(str!"b", 2), (str!"a", 1)] := by decide +kernel

/-! ## The order -/

theorem padded_digits (n : Nat) : ∀ c ∈ padLeft '0' 4 (natStr n), isDecDigit c = true := by
  intro c hc
  rcases List.mem_append.1 hc with h | h
  · rw [List.eq_of_mem_replicate h]; decide
  · exact natStr_digits n c h

theorem padded_val (n : Nat) : decVal (padLeft '0' 4 (natStr n)) = n := by
  rw [padLeft, decVal_zeros, decVal_natStr]

theorem padded_length {n : Nat} (h : n < 10000) : (padLeft '0' 4 (natStr n)).length = 4 := by
  have := natStr_length (n := n) (k := 3) h
  simp only [padLeft, List.length_append, List.length_replicate]
  omega

theorem append_comma_inj : ∀ {a b x y : Str}, (∀ c ∈ a, isDecDigit c = true) → (∀ c ∈ b, isDecDigit c = true) →
    a ++ ',' :: x = b ++ ',' :: y → a = b ∧ x = y
  | [], [], x, y, _, _, h => by simpa using h
  | [], c :: b, x, y, _, hb, h => by
    simp only [List.nil_append, List.cons_append, List.cons.injEq] at h
    have := hb c (List.mem_cons_self ..)
    rw [← h.1] at this
    exact absurd this (by decide)
  | c :: a, [], x, y, ha, _, h => by
    simp only [List.nil_append, List.cons_append, List.cons.injEq] at h
    have := ha c (List.mem_cons_self ..)
    rw [h.1] at this
    exact absurd this (by decide)
  | c :: a, d :: b, x, y, ha, hb, h => by
    simp only [List.cons_append, List.cons.injEq] at h
    obtain ⟨h1, h2⟩ := append_comma_inj (fun x hx => ha x (List.mem_cons_of_mem _ hx)) (fun x hx => hb x (List.mem_cons_of_mem _ hx)) h.2
    exact ⟨by rw [h.1, h1], h2⟩

theorem statsKey_inj {e f : Str × Nat} (h : statsKey e = statsKey f) : e = f := by
  simp only [statsKey, List.append_assoc] at h
  obtain ⟨h1, h2⟩ := append_comma_inj (padded_digits _) (padded_digits _) h
  have h3 := congrArg decVal h1
  rw [padded_val, padded_val] at h3
  exact Prod.ext (by simpa using h2) h3

/-- **C58.** The table doesn't depend on the order of the iterator of the map. -/
theorem stats_order_free {c d : List (Str × Nat)} (h : c.Perm d) : statsTable c = statsTable d := by
  have : sortedStats c = sortedStats d :=
    sorted_perm_unique (R := fun a b => strLe (statsKey a) (statsKey b) = true)
      (((sortBy_perm _ c).trans h).trans (sortBy_perm _ d).symm) (sortBy_key_sorted _ _) (sortBy_key_sorted _ _)
      fun a _ b _ h1 h2 => statsKey_inj (strLe_antisymm _ _ h1 h2)
  rw [statsTable, statsTable, this]

/-- **C58.** The table is sorted by the count and then by the name if the counts have at most four digits. What is missing: larger counts,
see `stats_sorted_violation`. -/
theorem stats_sorted_partial {c : List (Str × Nat)} (h : ∀ e ∈ c, e.2 < 10000) :
    (sortedStats c).Perm c ∧ (sortedStats c).Pairwise fun a b => a.2 < b.2 ∨ a.2 = b.2 ∧ strLe a.1 b.1 = true := by
  have hp : (sortedStats c).Perm c := sortBy_perm _ c
  refine ⟨hp, (sortBy_key_sorted statsKey c).imp_of_mem ?_⟩
  intro a b ha hb hle
  have h1 := h a (hp.mem_iff.1 ha)
  have h2 := h b (hp.mem_iff.1 hb)
  simp only [statsKey, List.append_assoc] at hle
  rcases (strLe_digits _ _ (by rw [padded_length h1, padded_length h2]) (padded_digits _) (padded_digits _)).1 hle with h3 | ⟨h3, h4⟩
  · rw [padded_val, padded_val] at h3; exact .inl h3
  · refine .inr ⟨?_, ?_⟩
    · have := congrArg decVal h3
      rwa [padded_val, padded_val] at this
    · simpa [strLe] using h4

/-- A count of ten thousand is sorted before a count of two thousand. -/
theorem stats_sorted_violation : sortedStats [(str!"a", 2000), (str!"b", 10000)] = [(str!"b", 10000), (str!"a", 2000)] := by decide +kernel

example : sortedStats [(str!"a", 200), (str!"b", 2), (str!"a2", 2)] = [(str!"a2", 2), (str!"b", 2), (str!"a", 200)] := by decide +kernel

/-! ## Reading the log -/

theorem splitGo_nl (b : Str) : ∀ (a cur : Str), Text.splitGo ['\n'] 0 cur (a ++ '\n' :: b) = Text.splitGo ['\n'] 0 cur a ++ Text.splitGo ['\n'] 0 [] b
  | [], cur => by simp [Text.splitGo, List.isPrefixOf]
  | c :: a, cur => by
    have ih := splitGo_nl b a
    by_cases h : c = '\n'
    · subst h
      simp only [List.cons_append, Text.splitGo, List.isPrefixOf, beq_self_eq_true, Bool.true_and, if_true, List.length_singleton, Nat.sub_self, ih]
    · have : ('\n' == c) = false := by simpa using Ne.symm h
      simp only [List.cons_append, Text.splitGo, List.isPrefixOf, this, Bool.false_and, Bool.false_eq_true, if_false, ih]

theorem split_nl (a b : Str) : Text.split ['\n'] (a ++ '\n' :: b) = Text.split ['\n'] a ++ Text.split ['\n'] b := splitGo_nl b a []

theorem splitGo_ne_nil : ∀ (a cur : Str), Text.splitGo ['\n'] 0 cur a ≠ []
  | [], cur => by simp [Text.splitGo]
  | c :: a, cur => by
    rw [Text.splitGo]
    split
    · simp
    · exact splitGo_ne_nil a _

theorem lines_nl (a b : Str) : lines (a ++ '\n' :: b) = (Text.split ['\n'] a).map stripCr ++ lines b := by
  have hne : Text.split ['\n'] b ≠ [] := splitGo_ne_nil b []
  have hl : (Text.split ['\n'] a ++ Text.split ['\n'] b).getLast? = (Text.split ['\n'] b).getLast? := by
    rw [List.getLast?_append, List.getLast?_eq_some_getLast hne]; rfl
  rw [lines, lines, split_nl, hl, List.dropLast_append_of_ne_nil hne]
  by_cases h : (Text.split ['\n'] b).getLast? = some []
  · rw [if_pos h, if_pos h, List.map_append]
  · rw [if_neg h, if_neg h, List.map_append]

/-- A text without a line break at its end, and with none in it. -/
theorem lines_line {a : Str} (ha : '\n' ∉ a) (b : Str) : lines (a ++ '\n' :: b) = stripCr a :: lines b := by
  rw [lines_nl, Text.split_char_none '\n' a ha]; rfl

theorem lines_rows : ∀ (ls : List Str) (b : Str), (∀ l ∈ ls, '\n' ∉ l) →
    lines ((ls.map fun l => l ++ str!"\n").flatten ++ b) = ls.map stripCr ++ lines b
  | [], b, _ => rfl
  | l :: ls, b, h => by
    have := lines_rows ls b fun x hx => h x (List.mem_cons_of_mem _ hx)
    rw [List.map_cons, List.flatten_cons, List.append_assoc, List.append_assoc, List.singleton_append,
      lines_line (h l (List.mem_cons_self ..)), this]
    rfl

theorem trim_around {v w z : Str} (h : Trimmed v) (hw : ∀ c ∈ w, isWs c = true) (hz : ∀ c ∈ z, isWs c = true) : trim (w ++ (v ++ z)) = v := by
  unfold trim
  rw [trimStart_ws hw]
  have : trimStart (v ++ z) = v ++ z := by
    obtain ⟨c, cs, hc⟩ := List.exists_cons_of_ne_nil h.1
    have h2 := h.2.1 c (by rw [hc]; rfl)
    rw [trimStart, hc, List.cons_append, List.dropWhile_cons_of_neg (by simp [h2])]
  rw [this, trimEnd_ws hz]
  simpa using trimEnd_trimmed h []

theorem trimmed_natStr (n : Nat) : Trimmed (natStr n) := by
  have key : ∀ c, isDecDigit c = true → isWs c = false := by
    intro c h
    simp only [isDecDigit, Bool.and_eq_true, decide_eq_true_eq] at h
    simp only [isWs, Bool.or_eq_false_iff, Bool.and_eq_false_iff, beq_eq_false_iff_ne, decide_eq_false_iff_not]
    omega
  exact ⟨natStr_ne_nil n, fun c hc => key c (natStr_digits n c (List.mem_of_mem_head? hc)),
    fun c hc => key c (natStr_digits n c (List.mem_of_mem_getLast? hc))⟩

/-- A name which can be told from the rest of a line of the table. -/
def PlainName (n : Str) : Prop := Trimmed n ∧ '|' ∉ n ∧ '\n' ∉ n

theorem digits_ne {n : Nat} {x : Char} (hx : isDecDigit x = false) : x ∉ natStr n := by
  intro h
  rw [natStr_digits n x h] at hx
  cases hx

theorem ws_replicate (k : Nat) : ∀ c ∈ List.replicate k ' ', isWs c = true := by
  intro c hc
  rw [List.eq_of_mem_replicate hc]; decide

theorem readLine_statsLine {e : Str × Nat} (h : PlainName e.1) (hn : e.2 < 2 ^ 64) : readLine (statsLine e) = some (.ok e) := by
  obtain ⟨ht, hb, _⟩ := h
  have hs : Text.split ['|'] (statsLine e) =
      [[], [' '] ++ (e.1 ++ (List.replicate (50 - e.1.length) ' ' ++ [' '])),
        (str!"  " ++ List.replicate (4 - (natStr e.2).length) ' ') ++ (natStr e.2 ++ [' ']), []] := by
    have e1 : statsLine e = [] ++ '|' :: (([' '] ++ (e.1 ++ (List.replicate (50 - e.1.length) ' ' ++ [' ']))) ++ '|' ::
        (((str!"  " ++ List.replicate (4 - (natStr e.2).length) ' ') ++ (natStr e.2 ++ [' '])) ++ '|' :: [])) := by
      simp [statsLine, padLeft, padRight]
    rw [e1, Text.split_char _ _ _ (by simp), Text.split_char, Text.split_char, Text.split_char_none _ _ (by simp)]
    · have := digits_ne (n := e.2) (x := '|') (by decide)
      simp [this, List.mem_replicate]
    · simp [hb, List.mem_replicate]
  rw [readLine, hs]
  simp only
  rw [trim_around (trimmed_natStr _), trim_around ht, parseDec_natStr (by omega)]
  · intro c hc; simp at hc; subst hc; decide
  · intro c hc
    rcases List.mem_append.1 hc with h | h
    · exact ws_replicate _ c h
    · simp at h; subst h; decide
  · intro c hc
    rcases List.mem_append.1 hc with h | h
    · simp at h; subst h; decide
    · exact ws_replicate _ c h
  · intro c hc; simp at hc; subst hc; decide

theorem statsLine_end (e : Str × Nat) : ∃ t, statsLine e = t ++ ['|'] :=
  ⟨str!"| " ++ padRight ' ' 50 e.1 ++ str!" |  " ++ padLeft ' ' 4 (natStr e.2) ++ [' '], by simp [statsLine]⟩

theorem stripCr_statsLine (e : Str × Nat) : stripCr (statsLine e) = statsLine e := by
  obtain ⟨t, ht⟩ := statsLine_end e
  rw [ht, stripCr, List.getLast?_concat]
  rfl

theorem statsLine_nl {e : Str × Nat} (h : '\n' ∉ e.1) : '\n' ∉ statsLine e := by
  have := digits_ne (n := e.2) (x := '\n') (by decide)
  simp [statsLine, padLeft, padRight, h, this, List.mem_replicate]

theorem filterMap_some {α β : Type} {f : α → Option β} {g : α → β} : ∀ {l : List α}, (∀ a ∈ l, f a = some (g a)) → l.filterMap f = l.map g
  | [], _ => rfl
  | a :: l, h => by
    rw [List.filterMap_cons, h a (List.mem_cons_self ..), List.map_cons, filterMap_some fun b hb => h b (List.mem_cons_of_mem _ hb)]

/-- **C58.** Reading the log gives the statistics that were written, for names which are plain, if no line of the reports before is
`### Stats:`. -/
theorem stats_roundtrip {pre ices : Str} {c : List (Str × Nat)} (hn : ∀ e ∈ c, PlainName e.1 ∧ e.2 < 2 ^ 64)
    (hp : ∀ l ∈ Text.split ['\n'] pre, stripCr l ≠ str!"### Stats:") :
    readStats (logText pre c ices) = (sortedStats c).map .ok ∧ (sortedStats c).Perm c := by
  have hperm : (sortedStats c).Perm c := sortBy_perm _ c
  have hs : ∀ e ∈ sortedStats c, PlainName e.1 ∧ e.2 < 2 ^ 64 := fun e he => hn e (hperm.mem_iff.1 he)
  refine ⟨?_, hperm⟩
  have e1 : logText pre c ices = pre ++ '\n' :: ([] ++ '\n' :: (str!"### Stats:" ++ '\n' :: ([] ++ '\n' :: (statsHeader.1 ++ '\n' ::
      (statsHeader.2 ++ '\n' :: ((((sortedStats c).map statsLine).map fun l => l ++ str!"\n").flatten ++
        ([] ++ '\n' :: ([] ++ '\n' :: (str!"### ICEs:" ++ '\n' :: ices))))))))) := by
    simp only [logText, statsTable, List.append_assoc, List.map_map, Function.comp_def, List.cons_append, List.nil_append]
  have e2 : lines (logText pre c ices) = (Text.split ['\n'] pre).map stripCr ++ ([] :: str!"### Stats:" :: [] :: statsHeader.1 :: statsHeader.2 ::
      ((sortedStats c).map statsLine ++ ([] :: [] :: str!"### ICEs:" :: lines ices))) := by
    rw [e1, lines_nl, lines_line (by simp), lines_line (by decide), lines_line (by simp), lines_line (by decide), lines_line (by decide),
      lines_rows, lines_line (by simp), lines_line (by simp), lines_line (by decide)]
    · rw [List.map_map]
      have : (sortedStats c).map (stripCr ∘ statsLine) = (sortedStats c).map statsLine :=
        List.map_congr_left fun e _ => stripCr_statsLine e
      rw [this]
      rfl
    · intro l hl
      obtain ⟨e, he, rfl⟩ := List.mem_map.1 hl
      exact statsLine_nl (hs e he).1.2.2
  rw [readStats, e2, List.dropWhile_append_of_pos]
  · rw [List.dropWhile_cons_of_pos (by decide), List.dropWhile_cons_of_neg (by decide)]
    simp only [List.drop_succ_cons, List.drop_zero]
    rw [List.takeWhile_append_of_pos, List.takeWhile_cons_of_neg (by decide), List.append_nil, List.filterMap_map,
      filterMap_some (g := Except.ok)]
    · intro e he
      exact readLine_statsLine (hs e he).1 (hs e he).2
    · intro l hl
      obtain ⟨e, _, rfl⟩ := List.mem_map.1 hl
      simp [statsLine, List.isPrefixOf]
  · intro l hl
    obtain ⟨x, hx, rfl⟩ := List.mem_map.1 hl
    simpa using hp x hx

example : PlainName (str!"clippy::abc") := ⟨⟨by decide, by decide, by decide⟩, by decide, by decide⟩
example : readStats (logText (str!"v\n### Reports\n\nw") [(str!"clippy::b", 20), (str!"clippy::a", 3)] []) =
    [.ok (str!"clippy::a", 3), .ok (str!"clippy::b", 20)] := by rfl

/-! ## The comparison -/

theorem fst_sublist (old : List (Str × Nat)) : ∀ l : List (Str × Nat),
    ((l.filterMap fun e => (lookup old e.1).map fun v => (e.1, v, e.2)).map Prod.fst).Sublist (l.map Prod.fst)
  | [] => .slnil
  | e :: l => by
    have ih := fst_sublist old l
    cases h : lookup old e.1 with
    | none => simp only [List.filterMap_cons, h, Option.map_none, List.map_cons]; exact .cons _ ih
    | some v => simp only [List.filterMap_cons, h, Option.map_some, List.map_cons]; exact .cons_cons _ ih

/-- **C58.** The comparison of two statistics lists each lint with another count, with both counts, once; a lint without new warnings only if
it is asked for. -/
theorem printStats_spec {old new : List (Str × Nat)} (ho : IsMap old) (hn : IsMap new) (f : List Str) :
    ((printStats old new f).map Prod.fst).Nodup ∧
    ∀ n a b, (n, a, b) ∈ printStats old new f ↔
      a = countIn old n ∧ b = countIn new n ∧ lookup old n ≠ lookup new n ∧ (lookup new n = none → f = [] ∨ n ∈ f) := by
  have hsame : IsMap (old.filter fun e => lookup new e.1 = some e.2) := isMap_filter ho _
  have hs : ∀ n, (lookup (old.filter fun e => lookup new e.1 = some e.2) n).isNone = true ↔
      lookup old n ≠ lookup new n ∨ (lookup old n = none ∧ lookup new n = none) := by
    intro n
    rw [Option.isNone_iff_eq_none]
    cases hl : lookup (old.filter fun e => lookup new e.1 = some e.2) n with
    | some v =>
      rw [lookup_iff hsame, List.mem_filter] at hl
      have h1 := (lookup_iff ho).2 hl.1
      have h2 : lookup new n = some v := by simpa using hl.2
      simp [h1, h2]
    | none =>
      simp only [true_iff]
      cases h1 : lookup old n with
      | none => cases lookup new n <;> simp
      | some v =>
        refine .inl fun h2 => ?_
        have : lookup (old.filter fun e => lookup new e.1 = some e.2) n = some v := by
          rw [lookup_iff hsame, List.mem_filter]
          exact ⟨(lookup_iff ho).1 h1, by simp [← h2]⟩
        rw [this] at hl
        cases hl
  have hold : IsMap (old.filter fun e => (lookup (old.filter fun e => lookup new e.1 = some e.2) e.1).isNone) := isMap_filter ho _
  have hnew : IsMap (new.filter fun e => (lookup (old.filter fun e => lookup new e.1 = some e.2) e.1).isNone) := isMap_filter hn _
  simp only [printStats]
  generalize hO : (old.filter fun e => (lookup (old.filter fun e => lookup new e.1 = some e.2) e.1).isNone) = old' at hold ⊢
  generalize hN : (new.filter fun e => (lookup (old.filter fun e => lookup new e.1 = some e.2) e.1).isNone) = new' at hnew ⊢
  have ho' : ∀ n v, lookup old' n = some v ↔ lookup old n = some v ∧ lookup old n ≠ lookup new n := by
    intro n v
    rw [lookup_iff hold, ← hO, List.mem_filter, ← lookup_iff ho, hs]
    constructor
    · rintro ⟨h1, h2 | h2⟩
      · exact ⟨h1, h2⟩
      · rw [h1] at h2; cases h2.1
    · exact fun h => ⟨h.1, .inl h.2⟩
  have hn' : ∀ n v, lookup new' n = some v ↔ lookup new n = some v ∧ lookup old n ≠ lookup new n := by
    intro n v
    rw [lookup_iff hnew, ← hN, List.mem_filter, ← lookup_iff hn, hs]
    constructor
    · rintro ⟨h1, h2 | h2⟩
      · exact ⟨h1, h2⟩
      · rw [h1] at h2; cases h2.2
    · exact fun h => ⟨h.1, .inl h.2⟩
  have hon : ∀ n, lookup old' n = none ↔ lookup old n = none ∨ lookup old n = lookup new n := by
    intro n
    cases h : lookup old' n with
    | some v => have := (ho' n v).1 h; simp [this.1]; rw [← this.1]; exact this.2
    | none =>
      simp only [true_iff]
      cases h1 : lookup old n with
      | none => exact .inl rfl
      | some v =>
        refine .inr (Decidable.byContradiction fun h2 => ?_)
        have := (ho' n v).2 ⟨h1, by rw [h1]; exact h2⟩
        rw [h] at this; cases this
  have hnn : ∀ n, lookup new' n = none ↔ lookup new n = none ∨ lookup old n = lookup new n := by
    intro n
    cases h : lookup new' n with
    | some v => have := (hn' n v).1 h; simp [this.1]; rw [← this.1]; exact this.2
    | none =>
      simp only [true_iff]
      cases h1 : lookup new n with
      | none => exact .inl rfl
      | some v =>
        refine .inr (Decidable.byContradiction fun h2 => ?_)
        have := (hn' n v).2 ⟨h1, by rw [h1]; exact h2⟩
        rw [h] at this; cases this
  constructor
  · simp only [List.map_append, List.map_map, Function.comp_def]
    have hA : ((new'.filter fun e => (lookup old' e.1).isNone).map fun e => e.1).Nodup := hnew.sublist (List.filter_sublist.map _)
    have hB : ((new'.filterMap fun e => (lookup old' e.1).map fun v => (e.1, v, e.2)).map Prod.fst).Nodup := hnew.sublist (fst_sublist _ _)
    have hC : (((old'.filter fun e => (lookup new' e.1).isNone).filter fun e => f.isEmpty || f.contains e.1).map fun e => e.1).Nodup :=
      hold.sublist ((List.filter_sublist.trans List.filter_sublist).map _)
    have mA : ∀ n, n ∈ ((new'.filter fun e => (lookup old' e.1).isNone).map fun e => e.1) → lookup old' n = none ∧ lookup new' n ≠ none := by
      intro n h
      obtain ⟨e, he, rfl⟩ := List.mem_map.1 h
      rw [List.mem_filter] at he
      exact ⟨by simpa using he.2, by rw [(lookup_iff hnew).2 he.1]; simp⟩
    have mB : ∀ n, n ∈ ((new'.filterMap fun e => (lookup old' e.1).map fun v => (e.1, v, e.2)).map Prod.fst) →
        lookup old' n ≠ none ∧ lookup new' n ≠ none := by
      intro n h
      obtain ⟨x, hx, rfl⟩ := List.mem_map.1 h
      obtain ⟨e, he, h2⟩ := List.mem_filterMap.1 hx
      obtain ⟨v, hv, rfl⟩ := Option.map_eq_some_iff.1 h2
      exact ⟨by rw [hv]; simp, by rw [(lookup_iff hnew).2 he]; simp⟩
    have mC : ∀ n, n ∈ (((old'.filter fun e => (lookup new' e.1).isNone).filter fun e => f.isEmpty || f.contains e.1).map fun e => e.1) →
        lookup new' n = none := by
      intro n h
      obtain ⟨e, he, rfl⟩ := List.mem_map.1 h
      rw [List.mem_filter, List.mem_filter] at he
      simpa using he.1.2
    rw [List.nodup_append, List.nodup_append]
    refine ⟨⟨hA, hB, fun a ha b hb e => (mB b hb).1 (e ▸ (mA a ha).1)⟩, hC, fun a ha b hb e => ?_⟩
    rcases List.mem_append.1 ha with h | h
    · exact (mA a h).2 (e ▸ mC b hb)
    · exact (mB a h).2 (e ▸ mC b hb)
  · intro n a b
    simp only [List.mem_append, List.mem_map, List.mem_filterMap, List.mem_filter, Option.isNone_iff_eq_none, Option.map_eq_some_iff, Prod.exists,
      Prod.mk.injEq, Bool.or_eq_true, List.isEmpty_iff, List.contains_iff_mem]
    simp only [← lookup_iff hnew, ← lookup_iff hold, hn', ho', hon, hnn]
    simp only [countIn]
    cases h1 : lookup old n <;> cases h2 : lookup new n
    all_goals grind

example : IsMap [(str!"a", 1), (str!"b", 2)] := by unfold IsMap; decide
example : printStats [(str!"a", 1), (str!"b", 2), (str!"c", 3)] [(str!"b", 4), (str!"c", 3), (str!"d", 5)] [] =
    [(str!"d", 0, 5), (str!"b", 2, 4), (str!"a", 1, 0)] := by decide +kernel

end Verif.Lintcheck
