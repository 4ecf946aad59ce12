import Verif.Safety.Steps

/-!
# Properties: safety comments before a line
-/

namespace Verif.Safety

open Verif.DocWords (bytes)

/-- ASCII only. -/
def ascii : Cls := ⟨Char.isWhitespace, Char.isWhitespace⟩

theorem ascii_sane : Sane ascii := ⟨by decide, by decide, by decide, by decide⟩

theorem check_cases {k : Cls} (hk : Sane k) {acc : Bool} {before : Word} {ls : List Word} {near : List Line} (h : Relevant k acc before ls near)
    (p : Nat) (doc : Bool) :
    check k acc before ls ≠ none ∧ (check k acc before ls = some (.yes p doc) ↔ Documented k (before ++ ls.flatten) near p doc) := by
  have htext := relevant_text h
  unfold check
  rw [lines_of hk h]
  cases near with
  | nil =>
    refine ⟨(fun h => by cases h), (fun h => by cases h), ?_⟩
    intro hd
    cases hd with
    | lines run _ _ _ h1 => cases run <;> cases h1
    | trailing _ _ h1 => cases h1
    | block run _ _ _ _ _ h1 => cases run <;> cases h1
  | cons l rest =>
    simp only [List.map_cons, Line.pos]
    by_cases hs : ['/', '/'].isPrefixOf l.text = true
    · rw [if_pos hs]
      have hs' : Slash l.text := List.isPrefixOf_iff_prefix.1 hs
      refine ⟨(fun h => by cases h), ?_⟩
      have := slash_iff hk p doc (l :: rest) false
      simp only [List.map_cons, Line.pos] at this
      rw [Option.some.injEq, this]
      constructor
      · rintro ⟨run, rs, m, pre, e1, e2, e3, e4, e5, e6, e7, e8⟩
        exact .lines run rs m pre e1 e2 e3 e4 e5 e6 e7 e8
      · intro hd
        cases hd with
        | lines run rs m pre e1 e2 e3 e4 e5 e6 e7 e8 => exact ⟨run, rs, m, pre, e1, e2, e3, e4, e5, e6, e7, e8⟩
        | trailing rs m e1 e2 =>
          simp only [List.cons.injEq] at e1
          rw [e1.1] at hs'
          exact absurd hs' e2
        | block run rs m c r pre e1 e2 => exact absurd hs' (e2 l rest rfl).1
    · rw [if_neg hs]
      have hs' : ¬ Slash l.text := fun h => hs (List.isPrefixOf_iff_prefix.2 h)
      have noLines : ∀ (run rs : List Line) (m : Line), l :: rest = run ++ m :: rs → (∀ n ∈ run, Slash n.text) → Slash m.text → False := by
        intro run rs m e1 e2 e3
        cases run with
        | nil =>
          simp only [List.nil_append, List.cons.injEq] at e1
          rw [← e1.1] at e3
          exact hs' e3
        | cons a run =>
          simp only [List.cons_append, List.cons.injEq] at e1
          have := e2 a (by simp)
          rw [← e1.1] at this
          exact hs' this
      unfold other
      rcases trailing_cases hk l with ⟨q, t1, t2⟩ | ⟨t1, t2⟩
      · rw [t1]
        simp only
        refine ⟨(fun h => by cases h), ?_⟩
        rw [Option.some.injEq, Res.yes.injEq]
        constructor
        · rintro ⟨rfl, rfl⟩
          exact .trailing rest l rfl hs' ((t2 q).2 rfl) rfl
        · intro hd
          cases hd with
          | lines run rs m pre e1 e2 e3 => exact (noLines run rs m e1 e2 e3).elim
          | trailing rs m e1 e2 e3 e4 =>
            simp only [List.cons.injEq] at e1
            rw [← e1.1] at e3
            exact ⟨((t2 p).1 e3).symm, e4.symm⟩
          | block run rs m c r pre e1 e2 => exact absurd ⟨q, (t2 q).2 rfl⟩ (e2 l rest rfl).2
      · rw [t1]
        simp only
        have hb := block_iff (k := k) (before ++ ls.flatten) p doc (l :: rest) htext
        simp only [List.map_cons, Line.pos] at hb
        refine ⟨hb.1, ?_⟩
        rw [hb.2]
        constructor
        · rintro ⟨run, rs, m, c, r, pre, e1, e2, e3, e4, e5, e6, e7, e8, e9⟩
          refine .block run rs m c r pre e1 ?_ e2 e3 e4 e5 e6 e7 e8 e9
          intro n xs hn
          simp only [List.cons.injEq] at hn
          rw [← hn.1]
          exact ⟨hs', t2⟩
        · intro hd
          cases hd with
          | lines run rs m pre e1 e2 e3 => exact (noLines run rs m e1 e2 e3).elim
          | trailing rs m e1 e2 e3 e4 =>
            simp only [List.cons.injEq] at e1
            rw [← e1.1] at e3
            exact absurd ⟨p, e3⟩ t2
          | block run rs m c r pre e1 _ e2 e3 e4 e5 e6 e7 e8 e9 => exact ⟨run, rs, m, c, r, pre, e1, e2, e3, e4, e5, e6, e7, e8, e9⟩

/-- C138: a safety comment is found, at `p`, exactly if there is one. -/
theorem found_iff {k : Cls} (hk : Sane k) {acc : Bool} {before : Word} {ls : List Word} {near : List Line} (h : Relevant k acc before ls near)
    (p : Nat) (doc : Bool) : check k acc before ls = some (.yes p doc) ↔ Documented k (before ++ ls.flatten) near p doc := (check_cases hk h p doc).2

example : check ascii true "fn f() {\n".toList ["    // Safety: fine\n".toList, "\n".toList, "    #[inline]\n".toList] = some (.yes 16 false) := by decide +kernel
example : check ascii true [] ["/*\n".toList, " SAFETY: fine\n".toList, "*/\n".toList] = some (.yes 4 false) := by decide +kernel
example : check ascii true [] ["let x = // SAFETY: fine\n".toList] = some (.yes 11 false) := by decide +kernel

/-- C138: no text makes the search panic. -/
theorem never_panics {k : Cls} (hk : Sane k) (acc : Bool) (before : Word) (ls : List Word) : check k acc before ls ≠ none := by
  obtain ⟨near, h⟩ := relevant_exists k acc ls before
  exact (check_cases hk h 0 false).1

example : check ascii true [] ["ß/*".toList, "ß//ß".toList] = some .no := by decide +kernel

/-- C138: the lines looked at are determined by the text, up to the comments found in them. -/
theorem documented_unique {k : Cls} (hk : Sane k) {acc : Bool} {before : Word} {ls : List Word} {near near' : List Line}
    (h : Relevant k acc before ls near) (h' : Relevant k acc before ls near') {p p' : Nat} {doc doc' : Bool}
    (hd : Documented k (before ++ ls.flatten) near p doc) (hd' : Documented k (before ++ ls.flatten) near' p' doc') : p = p' ∧ doc = doc' := by
  have e1 := (found_iff hk h p doc).2 hd
  have e2 := (found_iff hk h' p' doc').2 hd'
  rw [e1] at e2
  cases e2
  exact ⟨rfl, rfl⟩

/-- C138: at the position that is reported the text says `SAFETY:`, in any case. -/
theorem position {k : Cls} (hk : Sane k) (acc : Bool) (before : Word) (ls : List Word) (p : Nat) (doc : Bool)
    (h : check k acc before ls = some (.yes p doc)) : ∃ a b c, before ++ ls.flatten = a ++ b ++ c ∧ size a = p ∧ Says b := by
  obtain ⟨near, hr⟩ := relevant_exists k acc ls before
  have htext := relevant_text hr
  have hfirst : ∀ (x w pre rest : Word), FirstSafety w pre → p = size (x ++ pre) → before ++ ls.flatten = x ++ w ++ rest →
      ∃ a b c, before ++ ls.flatten = a ++ b ++ c ∧ size a = p ∧ Says b := by
    rintro x w pre rest ⟨⟨b, post, h1, h2⟩, _⟩ hp ht
    refine ⟨x ++ pre, b, post ++ rest, ?_, hp.symm, h2⟩
    rw [ht, h1]; simp
  cases (found_iff hk hr p doc).1 h with
  | lines run rest l pre e1 e2 e3 e4 e5 e6 e7 e8 =>
    obtain ⟨after, ha⟩ := htext l (by rw [e1]; simp)
    exact hfirst _ _ _ _ e5 e7 ha
  | trailing rest l e1 e2 e3 e4 =>
    obtain ⟨after, ha⟩ := htext l (by rw [e1]; simp)
    obtain ⟨pre, mk, w, b, post, h1, _, _, _, h5, h6⟩ := e3
    exact ⟨l.before ++ pre ++ mk ++ w, b, post ++ after, by rw [ha, h1]; simp, h6.symm, h5⟩
  | block run rest l c r pre e1 e2 e3 e4 e5 e6 e7 e8 e9 e10 => exact hfirst _ _ _ _ e8 e9 e5

example : ∃ p doc, check ascii true "ß\n".toList ["// ß safety: ok\n".toList] = some (.yes p doc) ∧ p = 9 := ⟨9, false, by decide +kernel, rfl⟩

/-- The last line that is neither empty nor a skipped attribute. -/
theorem last_line {k : Cls} {acc : Bool} {lead t : Word} (h1 : ∀ c ∈ lead, k.sp c = true) (h2 : ∀ c q, t = c :: q → k.sp c = false) (h3 : ¬ Skipped k acc t) :
    ∀ (above : List Word) (before : Word) (below : List Word),
    (∀ m ∈ below, ∃ a u, m = a ++ u ∧ (∀ c ∈ a, k.sp c = true) ∧ (∀ c q, u = c :: q → k.sp c = false) ∧ Skipped k acc u) →
    ∃ rest, Relevant k acc before (above ++ (lead ++ t) :: below) (⟨before ++ above.flatten ++ lead, t⟩ :: rest)
  | [], before, below, hb => by
    have key : ∀ (below : List Word) (x : Word), (∀ m ∈ below, ∃ a u, m = a ++ u ∧ (∀ c ∈ a, k.sp c = true) ∧ (∀ c q, u = c :: q → k.sp c = false) ∧ Skipped k acc u) →
        Relevant k acc x below [] := by
      intro below
      induction below with
      | nil => intro x _; exact .nil
      | cons m ms ih =>
        intro x hm
        obtain ⟨a, u, rfl, g1, g2, g3⟩ := hm m (by simp)
        exact .skip g1 g2 g3 (ih _ (fun m' h' => hm m' (List.mem_cons_of_mem _ h')))
    refine ⟨[], ?_⟩
    have := Relevant.keep (before := before) h1 h2 h3 (key below _ hb)
    simpa using this
  | l :: above, before, below, hb => by
    obtain ⟨a, d1, d2, d3⟩ := drop_split k.sp l
    obtain ⟨rest, ih⟩ := last_line h1 h2 h3 above (before ++ (a ++ l.dropWhile k.sp)) below hb
    have e : before ++ (a ++ l.dropWhile k.sp) ++ above.flatten ++ lead = before ++ (l :: above).flatten ++ lead := by
      rw [← d1]; simp
    rw [e] at ih
    rw [d1]
    simp only [List.cons_append]
    rw [← d1] at ih
    by_cases hs : Skipped k acc (l.dropWhile k.sp)
    · refine ⟨rest, ?_⟩
      have := Relevant.skip (before := before) d2 d3 hs (by rw [← d1]; exact ih)
      rw [← d1] at this ⊢
      exact this
    · refine ⟨rest ++ [⟨before ++ a, l.dropWhile k.sp⟩], ?_⟩
      have := Relevant.keep (before := before) d2 d3 hs (by rw [← d1]; exact ih)
      rw [← d1] at this ⊢
      exact this

/-- C138: a line comment that says `SAFETY:` is found, whatever is above it, and however many empty lines and attributes are below it. -/
theorem line_above {k : Cls} (hk : Sane k) {acc : Bool} (before lead t pre : Word) (above below : List Word)
    (h1 : ∀ c ∈ lead, k.sp c = true) (h2 : k.sp '/' = false) (hs : Slash t) (hf : ¬ Fence k t) (hp : FirstSafety t pre)
    (hb : ∀ m ∈ below, ∃ a u, m = a ++ u ∧ (∀ c ∈ a, k.sp c = true) ∧ (∀ c q, u = c :: q → k.sp c = false) ∧ Skipped k acc u) :
    ∃ doc, check k acc before (above ++ (lead ++ t) :: below) = some (.yes (size (before ++ above.flatten ++ lead ++ pre)) doc) := by
  obtain ⟨r, hr⟩ := hs
  have h3 : ∀ c q, t = c :: q → k.sp c = false := by
    rintro c q rfl
    simp only [List.cons_append, List.cons.injEq] at hr
    rw [← hr.1]; exact h2
  have h4 : ¬ Skipped k acc t := by
    rintro (h | ⟨_, ⟨u, h⟩ | ⟨u, h⟩, _⟩)
    · rw [h] at hr; cases hr
    · rw [← h] at hr; simp at hr
    · rw [← h] at hr; simp at hr
  obtain ⟨rest, hrel⟩ := last_line h1 h3 h4 above before below hb
  refine ⟨['/', '/', '/'].isPrefixOf t, (found_iff hk hrel _ _).2 ?_⟩
  exact .lines [] rest _ pre rfl (fun m h => by cases h) ⟨r, hr⟩ (.other hf .nil) hp (fun x m y h => by cases x <;> cases h) rfl
    (List.isPrefixOf_iff_prefix)

example : check ascii true [] ["foo();\n".toList, "// see above. safety: yes\n".toList, "#[a]\n".toList, " \n".toList] = some (.yes 21 false) := by
  decide +kernel

/-- C138: nothing is found if the last line that counts has no comment and there is no block comment at the beginning of a line. -/
theorem none_above {k : Cls} (hk : Sane k) {acc : Bool} {before : Word} {ls : List Word} {near : List Line} (h : Relevant k acc before ls near)
    (h1 : ∀ m xs, near = m :: xs → ¬ Slash m.text ∧ ¬ ∃ q, Trailing k m q) (h2 : ∀ m ∈ near, ¬ ['/', '*'] <+: m.text) : check k acc before ls = some .no := by
  cases hc : check k acc before ls with
  | none => exact absurd hc (never_panics hk acc before ls)
  | some r =>
    cases r with
    | no => rfl
    | yes p doc =>
      exfalso
      cases (found_iff hk h p doc).1 hc with
      | lines run rest l pre e1 e2 e3 =>
        cases run with
        | nil => exact (h1 l rest e1).1 e3
        | cons a run => exact (h1 a _ e1).1 (e2 a (by simp))
      | trailing rest l e1 e2 e3 => exact (h1 l rest e1).2 ⟨p, e3⟩
      | block run rest l c r pre e1 _ _ e3 => exact h2 l (by rw [e1]; simp) e3

example : check ascii true [] ["// SAFETY: for foo\n".toList, "unsafe { foo() };\n".toList] = some .no := by decide +kernel

/-! ## Findings -/

/-- A text in quotes in the line above is taken for a comment. -/
theorem string_taken : check ascii true [] ["let s = \"// safety: \";\n".toList] = some (.yes 12 false) := by decide +kernel

/-- The comment of the statement above is taken for that of this one, even if code follows it. -/
theorem other_statement : check ascii true [] ["unsafe { a() }; // SAFETY: for a\n".toList] = some (.yes 19 false) ∧
    check ascii true [] ["foo(/* SAFETY: for foo */); bar();\n".toList] = some (.yes 7 false) := by decide +kernel

/-- A line comment above an attribute is accepted, a block comment is not. -/
theorem block_above_attribute :
    check ascii true [] ["// SAFETY: ok\n".toList, "#[a]\n".toList] = some (.yes 3 false) ∧
    check ascii true [] ["/*\n".toList, "SAFETY: ok\n".toList, "*/\n".toList, "#[a]\n".toList] = some .no ∧
    check ascii true [] ["/*\n".toList, "SAFETY: ok\n".toList, "*/\n".toList] = some (.yes 3 false) := by decide +kernel

/-- A comment in a comment, at the beginning of a line, hides the outer one. -/
theorem nested_hides : check ascii true [] ["/* SAFETY: ok\n".toList, "/* because */\n".toList, "*/\n".toList] = some .no := by decide +kernel

end Verif.Safety
