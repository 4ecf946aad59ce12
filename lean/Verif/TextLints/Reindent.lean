import Verif.TextLints.Model

/-!
# C13 — re-indenting a snippet changes only leading blanks
-/

namespace Verif.TextLints
open Verif

/-! ## Specification vocabulary -/

/-- The text of a line after its leading blanks (spaces and tabs). -/
def body (l : Str) : Str := l.dropWhile fun c => c == ' ' || c == '\t'

/-- The line with number `i` is the first line and is to be left alone. -/
def Ignored (ignoreFirst : Bool) (i : Nat) : Prop := ignoreFirst = true ∧ i = 0

/-! ## Lines and joining -/

theorem stripCr_eq (cur : Str) (h : '\r' ∉ cur) : stripCr cur = cur := by
  unfold stripCr
  split
  · simp at h
  · rfl

theorem linesGo_nl (cur l r : Str) (h1 : '\n' ∉ l) (h2 : '\r' ∉ l) (h3 : '\r' ∉ cur) :
    linesGo cur (l ++ '\n' :: r) = (cur.reverse ++ l) :: lines r := by
  induction l generalizing cur with
  | nil =>
    simp only [List.nil_append, linesGo, if_true, List.append_nil, lines]
    rw [stripCr_eq cur h3]
  | cons c cs ih =>
    have hc : c ≠ '\n' := fun e => h1 (by simp [e])
    have hc' : c ≠ '\r' := fun e => h2 (by simp [e])
    simp only [List.cons_append, linesGo, if_neg hc]
    rw [ih]
    · simp
    · exact fun h => h1 (by simp [h])
    · exact fun h => h2 (by simp [h])
    · simp only [List.mem_cons, not_or]; exact ⟨fun e => hc' e.symm, h3⟩

theorem linesGo_end (cur l : Str) (h1 : '\n' ∉ l) (h : cur.reverse ++ l ≠ []) :
    linesGo cur l = [cur.reverse ++ l] := by
  induction l generalizing cur with
  | nil =>
    cases cur with
    | nil => simp at h
    | cons c cs => simp [linesGo]
  | cons c cs ih =>
    have hc : c ≠ '\n' := fun e => h1 (by simp [e])
    simp only [linesGo, if_neg hc]
    rw [ih]
    · simp
    · exact fun h => h1 (by simp [h])
    · simp

/-- Lines free of line terminators. -/
def Clean (ls : List Str) : Prop := ∀ l ∈ ls, '\n' ∉ l ∧ '\r' ∉ l

theorem lines_joinNl (ls : List Str) (hc : Clean ls) (hl : ∃ l ∈ ls.getLast?, l ≠ []) :
    lines (joinNl ls) = ls := by
  induction ls with
  | nil => simp at hl
  | cons l rest ih =>
    have hcl := hc l (by simp)
    cases rest with
    | nil =>
      simp at hl
      simp only [joinNl, lines]
      have := linesGo_end [] l hcl.1 (by simpa using hl)
      simpa using this
    | cons l' rest' =>
      simp only [joinNl, lines]
      have := linesGo_nl [] l (joinNl (l' :: rest')) hcl.1 hcl.2 (by simp)
      rw [this, ih (fun l h => hc l (by simp [List.mem_cons.mp h])) (by simpa using hl)]
      simp

theorem linesGo_clean (cur s : Str) (h : '\r' ∉ s) (hcur : '\n' ∉ cur ∧ '\r' ∉ cur) :
    Clean (linesGo cur s) := by
  induction s generalizing cur with
  | nil =>
    cases cur with
    | nil => intro l hl; simp [linesGo] at hl
    | cons c cs =>
      intro l hl
      simp only [linesGo, List.isEmpty_cons, Bool.false_eq_true, if_false, List.mem_singleton] at hl
      subst hl
      simpa only [List.mem_reverse] using hcur
  | cons c cs ih =>
    have hcs : '\r' ∉ cs := fun e => h (by simp [e])
    unfold linesGo
    split
    · rename_i hnl
      intro l hl
      rcases List.mem_cons.mp hl with rfl | hl
      · rw [stripCr_eq cur hcur.2]
        simpa only [List.mem_reverse] using hcur
      · exact ih [] hcs (by simp) l hl
    · rename_i hnl
      refine ih (c :: cur) hcs ?_
      have : c ≠ '\r' := fun e => h (by simp [e])
      simp only [List.mem_cons, not_or]
      exact ⟨⟨fun e => hnl e.symm, hcur.1⟩, ⟨fun e => this e.symm, hcur.2⟩⟩

/-! ## One pass -/

theorem leading_le_length (ch : Char) (l : Str) : leading ch l ≤ l.length :=
  (List.takeWhile_prefix _).length_le

theorem drop_le_leading (ch : Char) (l : Str) (n : Nat) (h : n ≤ leading ch l) :
    l = List.replicate n ch ++ l.drop n := by
  induction n generalizing l with
  | zero => simp
  | succ n ih =>
    cases l with
    | nil => simp [leading] at h
    | cons c cs =>
      simp only [leading, List.takeWhile_cons] at h
      split at h
      · rename_i hc
        have hc : c = ch := by simpa using hc
        subst hc
        have := ih cs (by simpa [leading] using h)
        rw [List.replicate_succ, List.cons_append, List.drop_succ_cons, ← this]
      · simp at h

theorem leading_replicate (ch : Char) (n : Nat) (l : Str) :
    leading ch (List.replicate n ch ++ l) = n + leading ch l := by
  induction n with
  | zero => simp
  | succ n ih =>
    simp only [leading] at ih
    simp only [leading, List.replicate_succ, List.cons_append, List.takeWhile_cons, beq_self_eq_true,
      if_true, List.length_cons, ih]
    omega

theorem body_replicate (ch : Char) (hch : ch = ' ' ∨ ch = '\t') (n : Nat) (l : Str) :
    body (List.replicate n ch ++ l) = body l := by
  induction n with
  | zero => simp
  | succ n ih =>
    unfold body at ih
    rcases hch with rfl | rfl <;>
    simp [body, List.replicate_succ, ih]

theorem minLeading_le (ch : Char) (ls : List Str) (l : Str) (h : l ∈ ls) (hne : l ≠ []) :
    minLeading ch ls ≤ leading ch l := by
  unfold minLeading
  have hm : leading ch l ∈ (ls.filter fun l => !l.isEmpty).map (leading ch) :=
    List.mem_map.mpr ⟨l, List.mem_filter.mpr ⟨h, by simpa [List.isEmpty_iff] using hne⟩, rfl⟩
  cases hmin : ((ls.filter fun l => !l.isEmpty).map (leading ch)).min? with
  | none => rw [List.min?_eq_none_iff] at hmin; rw [hmin] at hm; simp at hm
  | some m => exact (List.min?_eq_some_iff.mp hmin).2 _ hm

theorem minLeading_attained (ch : Char) (ls : List Str) (h : ∃ l ∈ ls, l ≠ []) :
    ∃ l ∈ ls, l ≠ [] ∧ leading ch l = minLeading ch ls := by
  obtain ⟨l, hl, hne⟩ := h
  unfold minLeading
  have hm : leading ch l ∈ (ls.filter fun l => !l.isEmpty).map (leading ch) :=
    List.mem_map.mpr ⟨l, List.mem_filter.mpr ⟨hl, by simpa [List.isEmpty_iff] using hne⟩, rfl⟩
  cases hmin : ((ls.filter fun l => !l.isEmpty).map (leading ch)).min? with
  | none => rw [List.min?_eq_none_iff] at hmin; rw [hmin] at hm; simp at hm
  | some m =>
    obtain ⟨l', hl', e⟩ := List.mem_map.mp (List.min?_eq_some_iff.mp hmin).1
    obtain ⟨h1, h2⟩ := List.mem_filter.mp hl'
    exact ⟨l', h1, by simpa [List.isEmpty_iff] using h2, by simpa using e⟩

/-- Facts about shifting one line by a pass whose minimum is at most the line's own. -/
theorem shiftLine_spec (ch : Char) (hch : ch = ' ' ∨ ch = '\t') (x indent : Nat) (l : Str)
    (hx : l ≠ [] → x ≤ leading ch l) :
    body (shiftLine x indent l) = body l ∧
    (l = [] → shiftLine x indent l = []) ∧
    (l ≠ [] → shiftLine x indent l = [] → indent = 0) ∧
    ('\n' ∉ l ∧ '\r' ∉ l → '\n' ∉ shiftLine x indent l ∧ '\r' ∉ shiftLine x indent l) ∧
    (ch = ' ' → l ≠ [] → leading ' ' (shiftLine x indent l) + x = indent + leading ' ' l) := by
  unfold shiftLine
  by_cases he : l = []
  · subst he; simp
  · have he' : l.isEmpty = false := by simpa [List.isEmpty_iff] using he
    rw [he']
    simp only [Bool.false_eq_true, if_false]
    have hx := hx he
    by_cases hgt : x > indent
    · rw [if_pos hgt]
      have hd := drop_le_leading ch l (x - indent) (by omega)
      refine ⟨?_, fun h => absurd h he, ?_, ?_, ?_⟩
      · conv => rhs; rw [hd]
        rw [body_replicate ch hch]
      · intro _ h
        have := leading_le_length ch l
        have hl := congrArg List.length h
        simp at hl
        omega
      · intro ⟨h1, h2⟩
        exact ⟨fun h => h1 (List.mem_of_mem_drop h), fun h => h2 (List.mem_of_mem_drop h)⟩
      · rintro rfl _
        have hl : leading ' ' l = (x - indent) + leading ' ' (l.drop (x - indent)) := by
          rw [← leading_replicate, ← hd]
        omega
    · rw [if_neg hgt]
      refine ⟨body_replicate ' ' (Or.inl rfl) _ _, fun h => absurd h he, ?_, ?_, ?_⟩
      · intro _ h; simp at h; exact absurd h.2 he
      · intro ⟨h1, h2⟩
        constructor <;> intro h <;> rcases List.mem_append.mp h with h | h
        · have := List.eq_of_mem_replicate h; exact absurd this (by decide)
        · exact h1 h
        · have := List.eq_of_mem_replicate h; exact absurd this (by decide)
        · exact h2 h
      · intro _ _
        rw [leading_replicate]; omega

/-! ## Three passes over the lines that are not ignored -/

/-- One pass over lines none of which is ignored. -/
def pass (ch : Char) (indent : Nat) (ls : List Str) : List Str :=
  ls.map (shiftLine (minLeading ch ls) indent)

/-- Facts about one line `l` and what became of it, `o`. -/
structure Moved (indent : Nat) (l o : Str) : Prop where
  body_eq : body o = body l
  empty : l = [] → o = []
  emptied : l ≠ [] → o = [] → indent = 0

theorem Moved.trans {indent : Nat} {a b c : Str} (h1 : Moved indent a b) (h2 : Moved indent b c) :
    Moved indent a c where
  body_eq := h2.body_eq.trans h1.body_eq
  empty h := h2.empty (h1.empty h)
  emptied h hc := by
    by_cases hb : b = []
    · exact h1.emptied h hb
    · exact h2.emptied hb hc

theorem pass_moved (ch : Char) (hch : ch = ' ' ∨ ch = '\t') (indent : Nat) (ls : List Str) (i : Nat)
    (l : Str) (h : ls[i]? = some l) :
    ∃ o, (pass ch indent ls)[i]? = some o ∧ Moved indent l o ∧
      (ch = ' ' → l ≠ [] → leading ' ' o + minLeading ' ' ls = indent + leading ' ' l) := by
  have hm : l ∈ ls := List.mem_of_getElem? h
  have := shiftLine_spec ch hch (minLeading ch ls) indent l (fun hne => minLeading_le ch ls l hm hne)
  refine ⟨shiftLine (minLeading ch ls) indent l, by simp [pass, h], ⟨this.1, this.2.1, this.2.2.1⟩, ?_⟩
  rintro rfl; exact this.2.2.2.2 rfl

theorem pass_clean (ch : Char) (hch : ch = ' ' ∨ ch = '\t') (indent : Nat) (ls : List Str)
    (h : Clean ls) : Clean (pass ch indent ls) := by
  intro o ho
  obtain ⟨l, hl, rfl⟩ := List.mem_map.mp ho
  exact (shiftLine_spec ch hch _ indent l (fun hne => minLeading_le ch ls l hl hne)).2.2.2.1 (h l hl)

def passes (indent : Nat) (ls : List Str) : List Str :=
  pass ' ' indent (pass '\t' indent (pass ' ' indent ls))

theorem passes_length (indent : Nat) (ls : List Str) : (passes indent ls).length = ls.length := by
  simp [passes, pass]

theorem passes_moved (indent : Nat) (ls : List Str) (i : Nat) (l : Str) (h : ls[i]? = some l) :
    ∃ o, (passes indent ls)[i]? = some o ∧ Moved indent l o ∧ (l ≠ [] → indent ≤ leading ' ' o) := by
  obtain ⟨o1, h1, m1, _⟩ := pass_moved ' ' (Or.inl rfl) indent ls i l h
  obtain ⟨o2, h2, m2, _⟩ := pass_moved '\t' (Or.inr rfl) indent _ i o1 h1
  obtain ⟨o3, h3, m3, e3⟩ := pass_moved ' ' (Or.inl rfl) indent _ i o2 h2
  refine ⟨o3, h3, m1.trans (m2.trans m3), fun hne => ?_⟩
  by_cases he : o2 = []
  · have := (m1.trans m2).emptied hne he
    omega
  · have e := e3 rfl he
    have := minLeading_le ' ' _ o2 (List.mem_of_getElem? h2) he
    omega

theorem passes_attained (indent : Nat) (ls : List Str) (h : ∃ l ∈ ls, l ≠ []) :
    ∃ (i : Nat) (l o : Str), ls[i]? = some l ∧ l ≠ [] ∧ (passes indent ls)[i]? = some o ∧ leading ' ' o = indent := by
  by_cases hne : ∃ l ∈ pass '\t' indent (pass ' ' indent ls), l ≠ []
  · obtain ⟨l2, hm, hl2, hmin⟩ := minLeading_attained ' ' _ hne
    obtain ⟨i, hi⟩ := List.getElem?_of_mem hm
    obtain ⟨o3, h3, _, e3⟩ := pass_moved ' ' (Or.inl rfl) indent _ i l2 hi
    have hilt : i < ls.length := by
      have := (List.getElem?_eq_some_iff.mp hi).1
      simpa [pass] using this
    have hl : ls[i]? = some ls[i] := List.getElem?_eq_getElem hilt
    refine ⟨i, ls[i], o3, hl, ?_, h3, ?_⟩
    · intro hnil
      obtain ⟨o1, h1, m1, _⟩ := pass_moved ' ' (Or.inl rfl) indent ls i _ hl
      obtain ⟨o2, h2, m2, _⟩ := pass_moved '\t' (Or.inr rfl) indent _ i o1 h1
      rw [hi] at h2
      cases h2
      exact hl2 ((m1.trans m2).empty hnil)
    · have := e3 rfl hl2
      omega
  · obtain ⟨l, hl, hlne⟩ := h
    obtain ⟨i, hi⟩ := List.getElem?_of_mem hl
    obtain ⟨o1, h1, m1, _⟩ := pass_moved ' ' (Or.inl rfl) indent ls i l hi
    obtain ⟨o2, h2, m2, _⟩ := pass_moved '\t' (Or.inr rfl) indent _ i o1 h1
    obtain ⟨o3, h3, m3, _⟩ := pass_moved ' ' (Or.inl rfl) indent _ i o2 h2
    have ho2 : o2 = [] := by
      by_cases he : o2 = []
      · exact he
      · exact absurd ⟨o2, List.mem_of_getElem? h2, he⟩ hne
    have h0 := (m1.trans m2).emptied hlne ho2
    exact ⟨i, l, o3, hi, hlne, h3, by rw [m3.empty ho2, h0]; rfl⟩

/-! ## From texts to lists of lines -/

/-- The lines of a text that `reindent_multiline` may change. -/
def restLines (ignoreFirst : Bool) (ls : List Str) : List Str := ls.drop (if ignoreFirst then 1 else 0)

theorem reindentLines_eq (ls : List Str) (ignoreFirst : Bool) (indent : Nat) (ch : Char) :
    reindentLines ls ignoreFirst indent ch =
      ls.take (if ignoreFirst then 1 else 0) ++ pass ch indent (restLines ignoreFirst ls) := by
  cases ignoreFirst <;> cases ls <;> simp [reindentLines, pass, restLines]

theorem body_ne_nil {l : Str} (h : body l ≠ []) : l ≠ [] := by
  rintro rfl; exact h rfl

/-- What one pass does to a text, seen as the list of its lines. -/
theorem inner_lines (s : Str) (ls : List Str) (ignoreFirst : Bool) (indent : Option Nat) (ch : Char)
    (hch : ch = ' ' ∨ ch = '\t') (hs : lines s = ls) (hc : Clean ls)
    (hl : ∃ l ∈ ls.getLast?, body l ≠ []) :
    lines (reindentInner s ignoreFirst indent ch) =
        ls.take (if ignoreFirst then 1 else 0) ++
          pass ch (indent.getD 0) (restLines ignoreFirst ls) ∧
      Clean (ls.take (if ignoreFirst then 1 else 0) ++
          pass ch (indent.getD 0) (restLines ignoreFirst ls)) ∧
      ∃ l ∈ (ls.take (if ignoreFirst then 1 else 0) ++
          pass ch (indent.getD 0) (restLines ignoreFirst ls)).getLast?, body l ≠ [] := by
  have hclean : Clean (ls.take (if ignoreFirst then 1 else 0) ++
      pass ch (indent.getD 0) (restLines ignoreFirst ls)) := by
    intro l hl
    rcases List.mem_append.mp hl with h | h
    · exact hc l (List.mem_of_mem_take h)
    · exact pass_clean ch hch _ _ (fun l h => hc l (List.mem_of_mem_drop h)) l h
  have hlast : ∃ l ∈ (ls.take (if ignoreFirst then 1 else 0) ++
      pass ch (indent.getD 0) (restLines ignoreFirst ls)).getLast?, body l ≠ [] := by
    obtain ⟨l, hl, hb⟩ := hl
    rw [List.getLast?_append]
    cases hp : (restLines ignoreFirst ls).getLast? with
    | none =>
      have hr : restLines ignoreFirst ls = [] := List.getLast?_eq_none_iff.mp hp
      have : ls.take (if ignoreFirst then 1 else 0) = ls := by
        have := List.take_append_drop (if ignoreFirst then 1 else 0) ls
        unfold restLines at hr
        rwa [hr, List.append_nil] at this
      rw [this, hr]
      exact ⟨l, by simpa [pass] using hl, hb⟩
    | some l' =>
      have hll : l' = l := by
        have := List.take_append_drop (if ignoreFirst then 1 else 0) ls
        rw [← this, List.getLast?_append] at hl
        unfold restLines at hp
        rw [hp] at hl
        simpa using hl
      subst hll
      have hm : l' ∈ restLines ignoreFirst ls := List.mem_of_getLast? hp
      refine ⟨shiftLine (minLeading ch (restLines ignoreFirst ls)) (indent.getD 0) l', ?_, ?_⟩
      · simp [pass, List.getLast?_map, hp]
      · rw [(shiftLine_spec ch hch _ _ l' (fun hne => minLeading_le ch _ l' hm hne)).1]
        exact hb
  refine ⟨?_, hclean, hlast⟩
  unfold reindentInner
  rw [hs, reindentLines_eq]
  apply lines_joinNl _ hclean
  obtain ⟨l, h1, h2⟩ := hlast
  exact ⟨l, h1, body_ne_nil h2⟩

/-- The lines of the result of the three passes. -/
theorem multiline_lines (s : Str) (ignoreFirst : Bool) (indent : Option Nat) (hcr : '\r' ∉ s)
    (hl : ∃ l ∈ (lines s).getLast?, body l ≠ []) :
    lines (reindentMultiline s ignoreFirst indent) =
      (lines s).take (if ignoreFirst then 1 else 0) ++
        passes (indent.getD 0) (restLines ignoreFirst (lines s)) := by
  have hc : Clean (lines s) := linesGo_clean [] s hcr (by simp)
  obtain ⟨e1, c1, l1⟩ := inner_lines s _ ignoreFirst indent ' ' (Or.inl rfl) rfl hc hl
  obtain ⟨e2, c2, l2⟩ := inner_lines _ _ ignoreFirst indent '\t' (Or.inr rfl) e1 c1 l1
  obtain ⟨e3, _, _⟩ := inner_lines _ _ ignoreFirst indent ' ' (Or.inl rfl) e2 c2 l2
  unfold reindentMultiline
  rw [e3]
  -- each pass leaves the ignored line in front
  cases ignoreFirst with
  | false => simp [restLines, passes]
  | true =>
    cases hls : lines s with
    | nil => rw [hls] at hl; simp at hl
    | cons l0 rest => simp [restLines, passes]

/-! ## The property -/

/-- **C13 (partial).** Let a text without carriage returns end in a line that is not blank. Re-indenting
it yields a text with the same number of lines, and line by line: the text after the leading blanks is
the same; empty lines stay empty; the first line is unchanged if it is to be ignored; every other
non-empty line starts with at least the requested number of spaces, and (if there is any such line) at
least one of them with exactly that number.

Missing: texts with carriage returns and texts that end in blank lines, see
`reindent_loses_blank_lines` and `reindent_changes_cr`. -/
theorem reindent_partial (s : Str) (ignoreFirst : Bool) (indent : Option Nat) (hcr : '\r' ∉ s)
    (hlast : ∃ l ∈ (lines s).getLast?, body l ≠ []) :
    let ls := lines s
    let out := lines (reindentMultiline s ignoreFirst indent)
    out.length = ls.length ∧
    (∀ (i : Nat) (l : Str), ls[i]? = some l → ∃ o, out[i]? = some o ∧ body o = body l ∧
      (l = [] → o = []) ∧ (Ignored ignoreFirst i → o = l) ∧
      (¬ Ignored ignoreFirst i → l ≠ [] → indent.getD 0 ≤ leading ' ' o)) ∧
    ((∃ (i : Nat) (l : Str), ls[i]? = some l ∧ ¬ Ignored ignoreFirst i ∧ l ≠ []) →
      ∃ (i : Nat) (l o : Str), ls[i]? = some l ∧ ¬ Ignored ignoreFirst i ∧ l ≠ [] ∧
        out[i]? = some o ∧ leading ' ' o = indent.getD 0) := by
  intro ls out
  have hout : out = ls.take (if ignoreFirst then 1 else 0) ++
      passes (indent.getD 0) (restLines ignoreFirst ls) := multiline_lines s ignoreFirst indent hcr hlast
  rw [hout]
  cases ignoreFirst with
  | false =>
    have hrl : restLines false ls = ls := by simp [restLines]
    simp only [Bool.false_eq_true, if_false, List.take_zero, List.nil_append, hrl]
    refine ⟨passes_length _ _, ?_, ?_⟩
    · intro i l h
      obtain ⟨o, ho, m, hi⟩ := passes_moved (indent.getD 0) ls i l h
      exact ⟨o, ho, m.body_eq, m.empty, fun hg => absurd hg.1 (by simp), fun _ => hi⟩
    · rintro ⟨i, l, h, _, hne⟩
      obtain ⟨i, l, o, h1, h2, h3, h4⟩ := passes_attained (indent.getD 0) ls
        ⟨l, List.mem_of_getElem? h, hne⟩
      exact ⟨i, l, o, h1, fun hg => absurd hg.1 (by simp), h2, h3, h4⟩
  | true =>
    have hne : ls ≠ [] := by
      intro e
      obtain ⟨l, hl, _⟩ := hlast
      simp [ls] at e
      simp [e] at hl
    obtain ⟨l0, rest, hls⟩ := List.exists_cons_of_ne_nil hne
    have hrl : restLines true ls = rest := by simp [restLines, hls]
    rw [hrl]
    simp only [if_true, hls, List.take_succ_cons, List.take_zero, List.cons_append, List.nil_append]
    refine ⟨by simp [passes_length], ?_, ?_⟩
    · intro i l h
      cases i with
      | zero =>
        simp at h
        subst h
        exact ⟨l0, by simp, rfl, id, fun _ => rfl, fun hg => absurd ⟨rfl, rfl⟩ hg⟩
      | succ i =>
        obtain ⟨o, ho, m, hi⟩ := passes_moved (indent.getD 0) rest i l (by simpa using h)
        exact ⟨o, by simpa using ho, m.body_eq, m.empty, fun hg => absurd hg.2 (by simp), fun _ => hi⟩
    · rintro ⟨i, l, h, hg, hne⟩
      cases i with
      | zero => exact absurd ⟨rfl, rfl⟩ hg
      | succ i =>
        obtain ⟨i, l, o, h1, h2, h3, h4⟩ := passes_attained (indent.getD 0) rest
          ⟨l, List.mem_of_getElem? (by simpa using h), hne⟩
        exact ⟨i + 1, l, o, by simpa using h1, fun hg => absurd hg.2 (by simp), h2,
          by simpa using h3, h4⟩

/-- Non-vacuity: three lines, the first ignored, indentation four. -/
example : '\r' ∉ str!"if x {\n  y\n      z\n }" ∧
    (lines (str!"if x {\n  y\n      z\n }")).getLast? = some (str!" }") ∧ body (str!" }") ≠ [] ∧
    reindentMultiline (str!"if x {\n  y\n      z\n }") true (some 4) =
      str!"if x {\n     y\n         z\n    }" := by decide +kernel

/-- **C13 is violated** for texts that end in blank lines: the passes drop the last of them. -/
theorem reindent_loses_blank_lines : ∃ s : Str,
    (lines (reindentMultiline s false none)).length ≠ (lines s).length :=
  ⟨str!"a\n\n", by decide +kernel⟩

/-- **C13 is violated** for texts with carriage returns at the end of a line, which are dropped. -/
theorem reindent_changes_cr : ∃ (s l o : Str),
    (lines s)[0]? = some l ∧ (lines (reindentMultiline s false none))[0]? = some o ∧ body o ≠ body l :=
  ⟨str!"a\r\r\nb", str!"a\r", str!"a", by decide +kernel⟩

end Verif.TextLints
