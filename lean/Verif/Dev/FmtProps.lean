import Verif.Dev.FmtModel
import Verif.Dev.UtilsProps
import Verif.Dev.GenerateProps

/-!
# C55: formatting the list of symbols
-/

namespace Verif.Dev

/-! ## Specification -/

/-- The line holds the entry `e`: there is white space around it and maybe a comma. -/
def HoldsEntry (e line : Str) : Prop :=
  ∃ a b c, (∀ x ∈ a, isWs x = true) ∧ (∀ x ∈ b, isWs x = true) ∧ (∀ x ∈ c, isWs x = true) ∧
    (line = a ++ e ++ b ∨ line = a ++ e ++ b ++ ',' :: c)

/-! ## Proof -/

theorem trimEnd_ws {s t : Str} (h : ∀ c ∈ t, isWs c = true) : trimEnd (s ++ t) = trimEnd s := by
  unfold trimEnd
  rw [List.reverse_append, List.dropWhile_append_of_pos (by simpa using h)]

theorem trimEnd_last {s : Str} {c : Char} (h : isWs c = false) : trimEnd (s ++ [c]) = s ++ [c] := by
  unfold trimEnd
  rw [List.reverse_append, List.reverse_singleton, List.singleton_append, List.dropWhile_cons_of_neg (by simp [h])]
  simp

theorem trimEnd_idem (s : Str) : trimEnd (trimEnd s) = trimEnd s := by
  obtain ⟨t, h1, h2⟩ := trimEnd_decomp s
  conv => rhs; rw [h1]
  rw [trimEnd_ws h2]

theorem trimStart_ws {s t : Str} (h : ∀ c ∈ t, isWs c = true) : trimStart (t ++ s) = trimStart s := by
  unfold trimStart
  rw [List.dropWhile_append_of_pos h]

/-- No white space at the start. -/
def NoLead (s : Str) : Prop := ∀ c ∈ s.head?, isWs c = false

theorem trimStart_noLead {s : Str} (h : NoLead s) : trimStart s = s := by
  cases s with
  | nil => rfl
  | cons c s => rw [trimStart, List.dropWhile_cons_of_neg]; simpa using h c rfl

theorem noLead_trimStart (s : Str) : NoLead (trimStart s) := by
  intro c hc
  unfold trimStart at hc
  cases hd : s.dropWhile isWs with
  | nil => rw [hd] at hc; simp at hc
  | cons x xs =>
    have := List.head_dropWhile_not isWs (l := s) (by rw [hd]; simp)
    rw [hd] at hc
    simp only [hd, List.head_cons] at this
    simp only [List.head?_cons, Option.mem_some_iff] at hc
    rw [← hc]; exact this

theorem noLead_prefix {p s : Str} (h : NoLead s) (hp : p <+: s) : NoLead p := by
  obtain ⟨t, rfl⟩ := hp
  intro c hc
  cases p with
  | nil => simp at hc
  | cons x p => exact h c (by simpa using hc)

theorem trimEnd_prefix (s : Str) : trimEnd s <+: s := by
  obtain ⟨t, h, _⟩ := trimEnd_decomp s
  exact ⟨t, h.symm⟩

theorem cleanLine_noLead (l : Str) : NoLead (cleanLine l) := by
  unfold cleanLine
  simp only
  have h : NoLead (trim l) := noLead_prefix (noLead_trimStart l) (trimEnd_prefix _)
  refine noLead_prefix h ((trimEnd_prefix _).trans ?_)
  split
  · exact List.dropLast_prefix _
  · exact List.prefix_refl _

theorem cleanLine_trimEnd (l : Str) : trimEnd (cleanLine l) = cleanLine l := trimEnd_idem _

theorem isWs_comma : isWs ',' = false := by decide

/-- A formatted entry is read as itself. -/
theorem cleanLine_formatted {e : Str} (h1 : NoLead e) (h2 : trimEnd e = e) : cleanLine (str!"    " ++ e ++ [',']) = e := by
  have ht : trim (str!"    " ++ e ++ [',']) = e ++ [','] := by
    unfold trim
    rw [List.append_assoc, trimStart_ws (by decide), trimStart_noLead, trimEnd_last isWs_comma]
    intro c hc
    cases e with
    | nil => simp at hc; rw [← hc]; decide
    | cons x e => exact h1 c (by simpa using hc)
  unfold cleanLine
  rw [ht]
  simp [h2]

theorem cleanLine_holds {e line : Str} (hne : e ≠ []) (h1 : NoLead e) (h2 : ∀ c ∈ e.getLast?, isWs c = false ∧ c ≠ ',')
    (h : HoldsEntry e line) : cleanLine line = e := by
  obtain ⟨a, b, c, ha, hb, hc, h⟩ := h
  have hl : e = e.dropLast ++ [e.getLast hne] := (List.dropLast_concat_getLast hne).symm
  have hlast := h2 (e.getLast hne) (by rw [List.getLast?_eq_some_getLast hne]; rfl)
  have he : trimEnd e = e := by rw [hl]; exact trimEnd_last hlast.1
  rcases h with rfl | rfl
  · have ht : trim (a ++ e ++ b) = e := by
      unfold trim
      rw [List.append_assoc, trimStart_ws ha, trimStart_noLead, trimEnd_ws hb, he]
      intro c hc
      cases e with
      | nil => exact absurd rfl hne
      | cons x e => exact h1 c (by simpa using hc)
    unfold cleanLine
    rw [ht]
    simp only
    rw [if_neg, he]
    intro hx
    exact (h2 ',' (by rw [hx]; rfl)).2 rfl
  · have ht : trim (a ++ e ++ b ++ ',' :: c) = e ++ b ++ [','] := by
      unfold trim
      rw [List.append_assoc, List.append_assoc, trimStart_ws ha, trimStart_noLead,
        show e ++ (b ++ ',' :: c) = (e ++ b ++ [',']) ++ c by simp, trimEnd_ws hc, trimEnd_last isWs_comma]
      intro c hc
      cases e with
      | nil => exact absurd rfl hne
      | cons x e => exact h1 c (by simpa using hc)
    unfold cleanLine
    rw [ht]
    simp only [List.getLast?_append, List.getLast?_singleton, Option.some_or, if_true, List.dropLast_concat]
    rw [trimEnd_ws hb, he]

/-- Formatting succeeds iff the list is found; then only the list is changed: its entries are the lines, cleaned and sorted,
one per line. -/
theorem fmtSyms_iff (text dst : Str) (changed : Bool) :
    fmtSyms text = some (dst, changed) ↔
      ∃ pre rest conf post entries, FirstAt symsStart text pre rest ∧ FirstAt symsEnd rest conf post ∧
        entries.Perm ((linesOf conf).map cleanLine) ∧ entries.Pairwise (fun a b => strLe a b = true) ∧
        dst = pre ++ symsStart ++ symsBody entries ++ symsEnd ++ post ∧ (changed = true ↔ dst ≠ text) := by
  have huniq : ∀ {l e : List Str}, e.Perm l → e.Pairwise (fun a b => strLe a b = true) → e = sortBy strLe l := by
    intro l e h1 h2
    exact sorted_perm_unique (h1.trans (sortBy_perm strLe l).symm) h2 (sortBy_key_sorted id l)
      fun a _ b _ => strLe_antisymm a b
  constructor
  · intro h
    unfold fmtSyms at h
    split at h
    · simp at h
    next pre rest e1 =>
    split at h
    · simp at h
    next conf post e2 =>
    simp only [Option.some.injEq, Prod.mk.injEq] at h
    obtain ⟨rfl, rfl⟩ := h
    refine ⟨pre, rest, conf, post, _, splitOnceStr_some e1, splitOnceStr_some e2, sortBy_perm _ _, sortBy_key_sorted id _,
      rfl, ?_⟩
    rw [decide_eq_true_eq]
    exact ne_comm
  · rintro ⟨pre, rest, conf, post, entries, h1, h2, h3, h4, rfl, hc⟩
    unfold fmtSyms
    rw [splitOnceStr_of_first h1]
    simp only
    rw [splitOnceStr_of_first h2]
    simp only [← huniq h3 h4, Option.some.injEq, Prod.mk.injEq, true_and]
    rw [Bool.eq_iff_iff, hc, decide_eq_true_eq]
    exact ne_comm

theorem skip_plain : ∀ (w t : Str), '\n' ∉ w →
    splitOnceStr symsEnd (w ++ t) = (splitOnceStr symsEnd t).map fun r => (w ++ r.1, r.2)
  | [], t, _ => by simp
  | c :: w, t, h => by
    simp only [List.mem_cons, not_or] at h
    rw [List.cons_append, splitOnceStr, if_neg, skip_plain w t h.2]
    · cases splitOnceStr symsEnd t <;> simp
    · simp only [symsEnd, List.isPrefixOf, Bool.and_eq_true, beq_iff_eq, not_and]
      exact fun e => absurd e h.1

theorem skip_nl (t : Str) :
    splitOnceStr symsEnd ('\n' :: ' ' :: t) = (splitOnceStr symsEnd (' ' :: t)).map fun r => ('\n' :: r.1, r.2) := by
  rw [splitOnceStr, if_neg]
  simp [symsEnd, List.isPrefixOf]

/-- The list as a text of lines. -/
theorem symsBody_lines : ∀ (es : List Str), es ≠ [] → symsBody es = joinLines (es.map fun e => str!"    " ++ e ++ [','])
  | [], h => absurd rfl h
  | [e], _ => by simp [symsBody, joinWith, joinLines]
  | e :: f :: es, _ => by
    have ih := symsBody_lines (f :: es) (by simp)
    simp only [List.map_cons, joinLines] at ih ⊢
    rw [← ih]
    simp [symsBody, joinWith]

theorem split_body : ∀ (es : List Str), es ≠ [] → (∀ e ∈ es, '\n' ∉ e) → ∀ post,
    splitOnceStr symsEnd (symsBody es ++ symsEnd ++ post) = some (symsBody es, post)
  | [], h, _, _ => absurd rfl h
  | [e], _, h, post => by
    have hn : '\n' ∉ symsBody [e] := by
      simp only [symsBody, joinWith, List.mem_append, not_or]
      exact ⟨⟨by decide, h e (by simp)⟩, by decide⟩
    rw [List.append_assoc, skip_plain _ _ hn]
    have : splitOnceStr symsEnd (symsEnd ++ post) = some ([], post) :=
      splitOnceStr_of_first ⟨rfl, by simp⟩
    rw [this]; simp
  | e :: f :: es, _, h, post => by
    have ih := split_body (f :: es) (by simp) (fun x hx => h x (List.mem_cons_of_mem _ hx)) post
    obtain ⟨X, hX⟩ : ∃ X, symsBody (f :: es) = ' ' :: X := ⟨_, rfl⟩
    have hb : symsBody (e :: f :: es) = (str!"    " ++ e ++ [',']) ++ '\n' :: symsBody (f :: es) := by
      simp [symsBody, joinWith]
    have hn : '\n' ∉ str!"    " ++ e ++ [','] := by
      simp only [List.mem_append, not_or]
      exact ⟨⟨by decide, h e (by simp)⟩, by decide⟩
    have hstep : splitOnceStr symsEnd ('\n' :: (symsBody (f :: es) ++ symsEnd ++ post)) =
        some ('\n' :: symsBody (f :: es), post) := by
      have := skip_nl (X ++ symsEnd ++ post)
      rw [show ' ' :: (X ++ symsEnd ++ post) = symsBody (f :: es) ++ symsEnd ++ post by rw [hX]; rfl, ih] at this
      simpa using this
    rw [hb, List.append_assoc, List.append_assoc, skip_plain _ _ hn, List.cons_append, ← List.append_assoc]
    simp only [List.cons_append] at hstep ⊢
    rw [hstep]
    simp

theorem linesOf_joinLines {ls : List Str} (h1 : ls ≠ []) (h2 : ∀ l ∈ ls, '\n' ∉ l) (h3 : ∀ l ∈ ls, l ≠ []) :
    linesOf (joinLines ls) = ls := by
  unfold linesOf
  rw [split_joinLines ls h1 h2]
  simp only
  rw [if_neg]
  intro hl
  exact h3 [] (List.mem_of_getLast? hl) rfl

theorem mem_linesOf {s l : Str} (h : l ∈ linesOf s) : '\n' ∉ l := by
  have := (joinLines_split s).2.2 l
  unfold linesOf at h
  simp only at h
  split at h
  · exact this (List.dropLast_subset _ h)
  · exact this h

theorem cleanLine_subset {l : Str} {c : Char} (h : c ∈ cleanLine l) : c ∈ l := by
  unfold cleanLine at h
  have h1 := (trimEnd_prefix _).subset h
  have h2 : c ∈ trim l := by
    split at h1
    · exact List.dropLast_subset _ h1
    · exact h1
  exact (List.dropWhile_sublist _).subset ((trimEnd_prefix _).subset h2)

/-- **C55.** Formatting a formatted file changes nothing. -/
theorem fmtSyms_idempotent {text dst : Str} {changed : Bool} (h : fmtSyms text = some (dst, changed)) :
    fmtSyms dst = some (dst, false) := by
  rw [fmtSyms_iff] at h
  obtain ⟨pre, rest, conf, post, entries, h1, h2, h3, h4, rfl, _⟩ := h
  have hprop : ∀ e ∈ entries, '\n' ∉ e ∧ NoLead e ∧ trimEnd e = e := by
    intro e he
    obtain ⟨l, hl, rfl⟩ := List.mem_map.1 (h3.mem_iff.1 he)
    exact ⟨fun hc => mem_linesOf hl (cleanLine_subset hc), cleanLine_noLead l, cleanLine_trimEnd l⟩
  -- an empty list is written like a list with one empty entry
  obtain ⟨es, hes, hne, hb, hs⟩ : ∃ es : List Str, (∀ e ∈ es, '\n' ∉ e ∧ NoLead e ∧ trimEnd e = e) ∧ es ≠ [] ∧
      symsBody entries = symsBody es ∧ es.Pairwise (fun a b => strLe a b = true) := by
    by_cases hn : entries = []
    · refine ⟨[[]], ?_, by simp, by rw [hn]; rfl, by simp⟩
      intro e he
      rw [List.mem_singleton.1 he]
      exact ⟨by simp, by intro c hc; simp at hc, rfl⟩
    · exact ⟨entries, hprop, hn, rfl, h4⟩
  rw [hb]
  rw [fmtSyms_iff]
  refine ⟨pre, symsBody es ++ symsEnd ++ post, symsBody es, post, es, ?_, ?_, ?_, hs, rfl, by simp⟩
  · have := h1.change (symsBody es ++ symsEnd ++ post)
    simpa using this
  · exact splitOnceStr_some (split_body es hne (fun e he => (hes e he).1) post)
  · rw [symsBody_lines es hne, linesOf_joinLines]
    · rw [List.map_map]
      refine List.Perm.of_eq ?_
      symm
      conv => rhs; rw [← List.map_id es]
      refine List.map_congr_left fun e he => ?_
      exact cleanLine_formatted (hes e he).2.1 (hes e he).2.2
    · simpa using hne
    · intro l hl
      obtain ⟨e, he, rfl⟩ := List.mem_map.1 hl
      simp only [List.mem_append, not_or]
      exact ⟨⟨by decide, (hes e he).1⟩, by decide⟩
    · intro l hl
      obtain ⟨e, he, rfl⟩ := List.mem_map.1 hl
      simp

/-- **C55.** Only the list is changed: if every line of the list holds one symbol, the new list has the same symbols,
sorted, one per line. -/
theorem fmtSyms_entries {text pre rest conf post : Str} {entries : List Str} (h1 : FirstAt symsStart text pre rest)
    (h2 : FirstAt symsEnd rest conf post)
    (he : ∀ e ∈ entries, e ≠ [] ∧ NoLead e ∧ ∀ c ∈ e.getLast?, isWs c = false ∧ c ≠ ',')
    (hne : entries ≠ []) (hl : (linesOf conf).length = entries.length)
    (hh : ∀ x ∈ (linesOf conf).zip entries, HoldsEntry x.2 x.1) :
    ∃ (sorted : List Str) (changed : Bool), sorted.Perm entries ∧ sorted.Pairwise (fun a b => strLe a b = true) ∧
      fmtSyms text = some (pre ++ symsStart ++ joinLines (sorted.map fun e => str!"    " ++ e ++ [',']) ++ symsEnd ++ post,
        changed) := by
  have hm : (linesOf conf).map cleanLine = entries := by
    generalize linesOf conf = ls at hl hh
    clear h1 h2 hne
    induction ls generalizing entries with
    | nil => cases entries <;> simp_all
    | cons l ls ih =>
      cases entries with
      | nil => simp at hl
      | cons e es =>
        rw [List.map_cons, ih (fun e he' => he e (List.mem_cons_of_mem _ he')) (by simpa using hl)
          (fun x hx => hh x (by simp [hx]))]
        have := he e (List.mem_cons_self ..)
        rw [cleanLine_holds this.1 this.2.1 this.2.2 (hh (l, e) (by simp))]
  have hsn : sortBy strLe entries ≠ [] := fun h => hne (List.length_eq_zero_iff.1 (by
    rw [← (sortBy_perm strLe entries).length_eq, h]; rfl))
  refine ⟨sortBy strLe entries,
    decide (text ≠ pre ++ symsStart ++ symsBody (sortBy strLe entries) ++ symsEnd ++ post),
    sortBy_perm _ _, sortBy_key_sorted id _, ?_⟩
  rw [← symsBody_lines _ hsn, fmtSyms_iff]
  refine ⟨pre, rest, conf, post, sortBy strLe entries, h1, h2, by rw [hm]; exact sortBy_perm _ _, sortBy_key_sorted id _,
    rfl, ?_⟩
  rw [decide_eq_true_eq]
  exact ne_comm

example : fmtSyms (str!"x\ngenerate! {\n  b ,\n    a\n}\nfn f() {\n}\n") =
    some (str!"x\ngenerate! {\n    a,\n    b,\n}\nfn f() {\n}\n", true) := by decide +kernel

/-! ## Violations -/

/-- An empty line in the list becomes a comma with nothing before it, and the list no longer parses. -/
theorem fmtSyms_blank_violation : fmtSyms (str!"generate! {\n    a,\n\n    b,\n}\n") =
    some (str!"generate! {\n    ,\n    a,\n    b,\n}\n", true) := by decide +kernel

/-- For an empty list the end of another item is taken as its end, and the code up to there is sorted as if it were the list. -/
theorem fmtSyms_empty_violation : fmtSyms (str!"generate! {\n}\nfn f() {\n    g();\n}\n") =
    some (str!"generate! {\n    fn f() {,\n    g();,\n    },\n}\n", true) := by decide +kernel

end Verif.Dev
