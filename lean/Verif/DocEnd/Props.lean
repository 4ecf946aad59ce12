import Verif.DocEnd.Model

/-!
# Properties: paragraphs of documentation without punctuation at their end
-/

namespace Verif.DocEnd

/-! ## What a text ends with -/

theorem ignored_iff (ws : Char → Bool) (c : Char) : (isSymbol c.toNat || ws c) = true ↔ Ignored ws c := by
  unfold Ignored isSymbol symbols
  simp only [Bool.or_eq_true, Bool.and_eq_true, decide_eq_true_eq, List.mem_cons, List.not_mem_nil, or_false, exists_eq_or_imp, exists_eq_left, or_assoc]

theorem mark_iff (c : Char) : (c == '.' || c == '?' || c == '!' || c == '…' || c == ':') = true ↔ c ∈ marks := by
  unfold marks
  simp only [Bool.or_eq_true, beq_iff_eq, List.mem_cons, List.not_mem_nil, or_false, or_assoc]

theorem endsWithMark_append (a : List Char) (c : Char) : endsWithMark (a ++ [c]) = true ↔ c ∈ marks := by
  unfold endsWithMark
  rw [List.getLast?_concat]
  exact mark_iff c

theorem stripClosing_append (a : List Char) (c : Char) : stripClosing (a ++ [c]) = if c == ')' || c == '"' then some a else none := by
  unfold stripClosing
  rw [List.getLast?_concat, List.dropLast_concat]

theorem dropWhile_ignored (ws : Char → Bool) (j r : List Char) (h : ∀ d ∈ j, Ignored ws d) :
    (j ++ r).dropWhile (fun c => isSymbol c.toNat || ws c) = r.dropWhile (fun c => isSymbol c.toNat || ws c) := by
  induction j with
  | nil => rfl
  | cons d j ih =>
    rw [List.cons_append, List.dropWhile_cons, if_pos ((ignored_iff ws d).2 (h d (by simp)))]
    exact ih (fun x hx => h x (by simp [hx]))

theorem trimEnd_append (ws : Char → Bool) (a : List Char) (c : Char) (j : List Char) (hj : ∀ d ∈ j, Ignored ws d) (hc : ¬Ignored ws c) :
    trimEnd ws (a ++ c :: j) = a ++ [c] := by
  unfold trimEnd
  have e : (a ++ c :: j).reverse = j.reverse ++ c :: a.reverse := by simp
  rw [e, dropWhile_ignored ws _ _ (by simpa using hj), List.dropWhile_cons, if_neg (by rw [ignored_iff]; exact hc)]
  simp

theorem trimEnd_ignored (ws : Char → Bool) (j : List Char) (hj : ∀ d ∈ j, Ignored ws d) : trimEnd ws j = [] := by
  unfold trimEnd
  have := dropWhile_ignored ws j.reverse [] (by simpa using hj)
  rw [List.append_nil] at this
  rw [this]
  rfl

theorem closing_not_mark (c : Char) (h : c = ')' ∨ c = '"') : c ∉ marks := by
  rcases h with h | h <;> (rw [h]; decide)

/-- Every text ends with something. -/
theorem ends_exists (ws : Char → Bool) (s : List Char) : ∃ e, Ends ws s e := by
  have key : ∀ m : List Char, (∀ d ∈ m, Ignored ws d) ∨ ∃ j c a, m = j ++ c :: a ∧ (∀ d ∈ j, Ignored ws d) ∧ ¬Ignored ws c := by
    intro m
    induction m with
    | nil => exact Or.inl (by simp)
    | cons x m ih =>
      by_cases hx : Ignored ws x
      · rcases ih with ih | ⟨j, c, a, e, hj, hc⟩
        · left
          intro d hd
          rcases List.mem_cons.1 hd with hd | hd
          · rw [hd]; exact hx
          · exact ih d hd
        · right
          refine ⟨x :: j, c, a, by rw [e]; rfl, ?_, hc⟩
          intro d hd
          rcases List.mem_cons.1 hd with hd | hd
          · rw [hd]; exact hx
          · exact hj d hd
      · exact Or.inr ⟨[], x, m, rfl, by simp, hx⟩
  rcases key s.reverse with h | ⟨j, c, a, e, hj, hc⟩
  · exact ⟨.open_, .nothing s (by simpa using h)⟩
  · have es : s = a.reverse ++ c :: j.reverse := by
      have := congrArg List.reverse e
      simpa using this
    have hj' : ∀ d ∈ j.reverse, Ignored ws d := by simpa using hj
    rw [es]
    by_cases hm : c ∈ marks
    · exact ⟨.mark, .mark _ _ _ hj' hc hm⟩
    · by_cases hq : c = ')' ∨ c = '"'
      · cases a with
        | nil => exact ⟨.closed, .closed _ _ _ hj' hc hq (fun b m h => by simp at h)⟩
        | cons m a =>
          by_cases hmm : m ∈ marks
          · refine ⟨.closedMark, ?_⟩
            have := Ends.closedMark (ws := ws) a.reverse m c j.reverse hj' hc hq hmm
            simpa using this
          · refine ⟨.closed, .closed _ _ _ hj' hc hq ?_⟩
            intro b m' h
            rw [List.reverse_cons] at h
            have := List.append_inj' h rfl
            have e2 := this.2
            injection e2 with e3
            rw [← e3]
            exact hmm
      · exact ⟨.open_, .open_ _ _ _ hj' hc hm (fun h => hq (Or.inl h)) (fun h => hq (Or.inr h))⟩

/-- What an ending means for a text. -/
def ofEnding (hi : Nat) : Ending → Option Missing
  | .mark | .closedMark => none
  | .closed => some (.unfixable hi)
  | .open_ => some (.fixable hi)

theorem ofText_eq (ws : Char → Bool) (doc : List Char) (hi : Nat) (e : Ending) (h : Ends ws (doc.take hi) e) :
    ofText ws doc hi = ofEnding hi e := by
  unfold ofText
  generalize doc.take hi = s at h
  cases h with
  | mark a c j hj hc hm => rw [trimEnd_append ws a c j hj hc, if_pos ((endsWithMark_append a c).2 hm)]; rfl
  | closedMark a m c j hj hc hq hm =>
    have e1 : a ++ m :: c :: j = (a ++ [m]) ++ c :: j := by simp
    rw [e1, trimEnd_append ws _ c j hj hc, if_neg (by rw [endsWithMark_append]; exact closing_not_mark c hq), stripClosing_append,
      if_pos (by simpa using hq)]
    simp only
    rw [if_pos ((endsWithMark_append a m).2 hm)]
    rfl
  | closed a c j hj hc hq ha =>
    rw [trimEnd_append ws _ c j hj hc, if_neg (by rw [endsWithMark_append]; exact closing_not_mark c hq), stripClosing_append,
      if_pos (by simpa using hq)]
    simp only
    rw [if_neg]
    · rfl
    intro hm
    rcases List.eq_nil_or_concat a with h0 | ⟨b, m, h0⟩
    · rw [h0] at hm; cases hm
    · rw [h0, List.concat_eq_append, endsWithMark_append] at hm
      exact ha b m (by rw [h0, List.concat_eq_append]) hm
  | open_ a c j hj hc hm h1 h2 =>
    rw [trimEnd_append ws _ c j hj hc, if_neg (by rw [endsWithMark_append]; exact hm), stripClosing_append, if_neg (by simp [h1, h2])]; rfl
  | nothing _ hj => rw [trimEnd_ignored ws s hj]; rfl

theorem ofSpan_eq (ws : Char → Bool) (doc : List Char) (img : Bool) (hi : Nat) (e : Ending) (h : Ends ws (doc.take hi) e) :
    ofSpan ws doc img hi = if e = .mark ∨ img = true then none else some (.fixable hi) := by
  have key : endsWithMark (trimEnd ws (doc.take hi)) = decide (e = .mark) := by
    generalize doc.take hi = s at h
    cases h with
    | mark a c j hj hc hm => rw [trimEnd_append ws a c j hj hc, (endsWithMark_append a c).2 hm]; rfl
    | closedMark a m c j hj hc hq hm =>
      have e1 : a ++ m :: c :: j = (a ++ [m]) ++ c :: j := by simp
      rw [e1, trimEnd_append ws _ c j hj hc]
      exact Bool.eq_false_iff.2 (by rw [Ne, endsWithMark_append]; exact closing_not_mark c hq)
    | closed a c j hj hc hq ha =>
      rw [trimEnd_append ws _ c j hj hc]
      exact Bool.eq_false_iff.2 (by rw [Ne, endsWithMark_append]; exact closing_not_mark c hq)
    | open_ a c j hj hc hm h1 h2 =>
      rw [trimEnd_append ws _ c j hj hc]
      exact Bool.eq_false_iff.2 (by rw [Ne, endsWithMark_append]; exact hm)
    | nothing _ hj => rw [trimEnd_ignored ws s hj]; rfl
  unfold ofSpan
  rw [key]
  simp only [Bool.or_eq_true, decide_eq_true_eq]

/-! ## What the loop does to a document -/

/-- `current_paragraph` after inline events, from the specification. -/
def afterIn (l : List Inline) (cur : Option Missing) : Option Missing :=
  l.foldl (fun c e => match e with | .html | .startImage | .endImage => none | _ => c) cur

/-- The same, in lists and the like or not. -/
def after (ending : Nat → Ending) (inside : Bool) (l : List Inline) (cur : Option Missing) : Option Missing :=
  if inside then afterIn l cur else (decides ending l.reverse).getD cur

/-- The reports of a document and `current_paragraph` at its end. -/
def den (ending : Nat → Ending) : Bool → Doc → Option Missing → List Missing × Option Missing
  | _, .done, cur => ([], cur)
  | b, .para l r, cur =>
    ((if r.listingNext then [] else (after ending b l cur).toList) ++ (den ending b r (after ending b l cur)).1, (den ending b r (after ending b l cur)).2)
  | b, .bare e r, cur => den ending b r (after ending b [e] cur)
  | b, .listing i r, cur => ((den ending true i cur).1 ++ (den ending b r none).1, (den ending b r none).2)
  | b, .footnote i r, cur =>
    ((den ending true i cur).1 ++ (den ending b r (den ending true i cur).2).1, (den ending b r (den ending true i cur).2).2)
  | b, .aside i r, cur => ((den ending true i cur).1 ++ (den ending b r none).1, (den ending b r none).2)
  | b, .group i r, cur => ((den ending b i cur).1 ++ (den ending b r (den ending b i cur).2).1, (den ending b r (den ending b i cur).2).2)

variable (ws : Char → Bool) (doc : List Char) (ending : Nat → Ending)

theorem inline_in (st : St) (e : Inline) (h : st.depth ≠ 0) :
    ∃ f g, inline ws doc st e = ⟨st.depth, st.out, afterIn [e] st.cur, f, g⟩ := by
  cases e with
  | text lo hi => exact ⟨false, false, by simp [inline, h, afterIn]⟩
  | span lo hi => exact ⟨false, false, by simp [inline, h, afterIn]⟩
  | html => exact ⟨_, _, rfl⟩
  | startImage => exact ⟨_, _, rfl⟩
  | endImage => exact ⟨_, _, rfl⟩
  | other => exact ⟨_, _, rfl⟩

theorem inlines_in (l : List Inline) : ∀ (st : St), st.depth ≠ 0 →
    ∃ f g, (l.map Ev.inline).foldl (step ws doc) st = ⟨st.depth, st.out, afterIn l st.cur, f, g⟩ := by
  induction l with
  | nil => intro st _; exact ⟨st.isMissing, st.isImage, rfl⟩
  | cons e l ih =>
    intro st h
    obtain ⟨f, g, e1⟩ := inline_in ws doc st e h
    obtain ⟨f', g', e2⟩ := ih ⟨st.depth, st.out, afterIn [e] st.cur, f, g⟩ h
    refine ⟨f', g', ?_⟩
    rw [List.map_cons, List.foldl_cons]
    show List.foldl (step ws doc) (inline ws doc st e) _ = _
    rw [e1, e2]
    rfl

theorem inlines_out (he : ∀ hi, Ends ws (doc.take hi) (ending hi)) (st : St) (hd : st.depth = 0) (hi : st.isImage = false) (m : List Inline) :
    ∃ f, (m.reverse.map Ev.inline).foldl (step ws doc) st =
      ⟨0, st.out, (decides ending m).getD st.cur, f, decide (m.head? = some .endImage)⟩ := by
  induction m with
  | nil =>
    refine ⟨st.isMissing, ?_⟩
    cases st
    simp only at hd hi
    subst hd hi
    rfl
  | cons e m ih =>
    obtain ⟨f, ih⟩ := ih
    refine ⟨false, ?_⟩
    rw [List.reverse_cons, List.map_append, List.foldl_append, ih]
    show inline ws doc _ e = _
    cases e with
    | text lo h =>
      by_cases hl : lo < h
      · rw [decides, if_pos hl, inline, if_pos ⟨rfl, hl⟩, ofText_eq ws doc h _ (he h)]
        cases ending h <;> rfl
      · rw [decides, if_neg hl, inline, if_neg (fun k => hl k.2)]
        rfl
    | span lo h =>
      by_cases hl : lo < h
      · rw [decides, if_pos hl, inline, if_pos ⟨rfl, hl⟩, ofSpan_eq ws doc _ h _ (he h)]
        simp only [decide_eq_true_eq]
        by_cases hc : ending h = .mark ∨ m.head? = some .endImage
        · rw [if_pos hc, if_pos hc]; rfl
        · rw [if_neg hc, if_neg hc]; rfl
      · rw [decides, if_neg hl, inline, if_neg (fun k => hl k.2)]
        rfl
    | html => rfl
    | startImage => rfl
    | endImage => rfl
    | other => rfl

theorem inlines_run (he : ∀ hi, Ends ws (doc.take hi) (ending hi)) (inside : Bool) (st : St) (hd : st.depth = 0 ↔ inside = false) (l : List Inline) :
    ∃ f g, (Ev.inline .other :: l.map Ev.inline).foldl (step ws doc) st = ⟨st.depth, st.out, after ending inside l st.cur, f, g⟩ := by
  rw [List.foldl_cons]
  cases inside with
  | true =>
    have h0 : st.depth ≠ 0 := fun h => by have := hd.1 h; cases this
    exact inlines_in ws doc l { st with isMissing := false, isImage := false } h0
  | false =>
    have h0 := hd.2 rfl
    obtain ⟨f, e⟩ := inlines_out ws doc ending he { st with isMissing := false, isImage := false } h0 rfl l.reverse
    rw [List.reverse_reverse] at e
    refine ⟨f, decide (l.reverse.head? = some .endImage), ?_⟩
    rw [h0]
    exact e

/-- The loop gives the reports of `den`. -/
theorem run_den (he : ∀ hi, Ends ws (doc.take hi) (ending hi)) (d : Doc) : ∀ (inside : Bool) (st : St), 0 ≤ st.depth → (st.depth = 0 ↔ inside = false) →
    (inside = false → d.WellFormed) →
    ∃ f g, (events d).foldl (step ws doc) st =
      ⟨st.depth, (if st.isMissing && d.listingNext then st.out.dropLast else st.out) ++ (den ending inside d st.cur).1, (den ending inside d st.cur).2, f, g⟩ := by
  induction d with
  | done =>
    intro b st h0 hd hw
    exact ⟨st.isMissing, st.isImage, by simp [events, den, Doc.listingNext]⟩
  | para l r ih =>
    intro b st h0 hd hw
    obtain ⟨f, g, e1⟩ := inlines_run ws doc ending he b st hd l
    have e0 : events (.para l r) = (Ev.inline .other :: l.map Ev.inline) ++ (.endPara :: events r) := rfl
    rw [e0, List.foldl_append, e1, List.foldl_cons]
    cases hc : after ending b l st.cur with
    | none =>
      obtain ⟨f', g', e2⟩ := ih b ⟨st.depth, st.out, none, false, false⟩ h0 hd hw
      refine ⟨f', g', ?_⟩
      show List.foldl (step ws doc) ⟨st.depth, st.out, none, false, false⟩ _ = _
      rw [e2, den, hc]
      cases hr : r.listingNext <;> simp [Doc.listingNext]
    | some mp =>
      obtain ⟨f', g', e2⟩ := ih b ⟨st.depth, st.out ++ [mp], some mp, true, false⟩ h0 hd hw
      refine ⟨f', g', ?_⟩
      show List.foldl (step ws doc) ⟨st.depth, st.out ++ [mp], some mp, true, false⟩ _ = _
      rw [e2, den, hc]
      cases hr : r.listingNext <;> simp [Doc.listingNext]
  | bare e r ih =>
    intro b st h0 hd hw
    cases b with
    | false => exact absurd (hw rfl) (fun h => h)
    | true =>
      have hn : st.depth ≠ 0 := fun h => by have := hd.1 h; cases this
      obtain ⟨f, g, e1⟩ := inlines_in ws doc [e] st hn
      have e0 : events (.bare e r) = ([e].map Ev.inline) ++ events r := rfl
      rw [e0, List.foldl_append, e1]
      have e3 := inline_in ws doc st e hn
      have hf : ∃ g2, step ws doc st (.inline e) = ⟨st.depth, st.out, afterIn [e] st.cur, false, g2⟩ := by
        cases e with
        | text lo hi => exact ⟨false, by simp [step, inline, hn, afterIn]⟩
        | span lo hi => exact ⟨false, by simp [step, inline, hn, afterIn]⟩
        | html => exact ⟨_, rfl⟩
        | startImage => exact ⟨_, rfl⟩
        | endImage => exact ⟨_, rfl⟩
        | other => exact ⟨_, rfl⟩
      obtain ⟨g2, hf⟩ := hf
      obtain ⟨f', g', e2⟩ := ih true ⟨st.depth, st.out, afterIn [e] st.cur, false, g2⟩ h0 hd (fun h => by cases h)
      refine ⟨f', g', ?_⟩
      have e4 : (⟨st.depth, st.out, afterIn [e] st.cur, f, g⟩ : St) = ⟨st.depth, st.out, afterIn [e] st.cur, false, g2⟩ := by
        rw [← e1, ← hf]; rfl
      rw [e4, e2, den]
      simp [Doc.listingNext, after]
  | listing i r ihi ihr =>
    intro b st h0 hd hw
    have e0 : events (.listing i r) = (.startListing :: events i) ++ (.endBlock :: events r) := rfl
    obtain ⟨f, g, e1⟩ := ihi true ⟨st.depth + 1, if st.isMissing then st.out.dropLast else st.out, st.cur, false, false⟩ (by simp only; omega)
      (by simp only; constructor <;> intro h <;> first | omega | cases h) (fun h => by cases h)
    rw [e0, List.foldl_append, List.foldl_cons, List.foldl_cons]
    have e2 : step ws doc st .startListing = ⟨st.depth + 1, if st.isMissing then st.out.dropLast else st.out, st.cur, false, false⟩ := rfl
    rw [e2, e1]
    obtain ⟨f', g', e3⟩ := ihr b ⟨st.depth, (if st.isMissing then st.out.dropLast else st.out) ++ (den ending true i st.cur).1, none, false, false⟩ h0 hd hw
    refine ⟨f', g', ?_⟩
    have e4 : step ws doc ⟨st.depth + 1, (if st.isMissing then st.out.dropLast else st.out) ++ (den ending true i st.cur).1, (den ending true i st.cur).2, f, g⟩
        .endBlock = ⟨st.depth, (if st.isMissing then st.out.dropLast else st.out) ++ (den ending true i st.cur).1, none, false, false⟩ := by
      simp [step]
    simp only [Bool.false_and, Bool.false_eq_true, if_false] at e3 ⊢
    rw [e4, e3, den]
    simp [Doc.listingNext]
  | footnote i r ihi ihr =>
    intro b st h0 hd hw
    have e0 : events (.footnote i r) = (.startAside :: events i) ++ (.endFootnote :: events r) := rfl
    obtain ⟨f, g, e1⟩ := ihi true ⟨st.depth + 1, st.out, st.cur, false, false⟩ (by simp only; omega)
      (by simp only; constructor <;> intro h <;> first | omega | cases h) (fun h => by cases h)
    rw [e0, List.foldl_append, List.foldl_cons, List.foldl_cons]
    have e2 : step ws doc st .startAside = ⟨st.depth + 1, st.out, st.cur, false, false⟩ := rfl
    rw [e2, e1]
    obtain ⟨f', g', e3⟩ := ihr b ⟨st.depth, st.out ++ (den ending true i st.cur).1, (den ending true i st.cur).2, false, false⟩ h0 hd hw
    refine ⟨f', g', ?_⟩
    have e4 : step ws doc ⟨st.depth + 1, st.out ++ (den ending true i st.cur).1, (den ending true i st.cur).2, f, g⟩
        .endFootnote = ⟨st.depth, st.out ++ (den ending true i st.cur).1, (den ending true i st.cur).2, false, false⟩ := by
      simp [step]
    simp only [Bool.false_and, Bool.false_eq_true, if_false] at e3 ⊢
    rw [e4, e3, den]
    simp [Doc.listingNext]
  | aside i r ihi ihr =>
    intro b st h0 hd hw
    have e0 : events (.aside i r) = (.startAside :: events i) ++ (.endBlock :: events r) := rfl
    obtain ⟨f, g, e1⟩ := ihi true ⟨st.depth + 1, st.out, st.cur, false, false⟩ (by simp only; omega)
      (by simp only; constructor <;> intro h <;> first | omega | cases h) (fun h => by cases h)
    rw [e0, List.foldl_append, List.foldl_cons, List.foldl_cons]
    have e2 : step ws doc st .startAside = ⟨st.depth + 1, st.out, st.cur, false, false⟩ := rfl
    rw [e2, e1]
    obtain ⟨f', g', e3⟩ := ihr b ⟨st.depth, st.out ++ (den ending true i st.cur).1, none, false, false⟩ h0 hd hw
    refine ⟨f', g', ?_⟩
    have e4 : step ws doc ⟨st.depth + 1, st.out ++ (den ending true i st.cur).1, (den ending true i st.cur).2, f, g⟩
        .endBlock = ⟨st.depth, st.out ++ (den ending true i st.cur).1, none, false, false⟩ := by
      simp [step]
    simp only [Bool.false_and, Bool.false_eq_true, if_false] at e3 ⊢
    rw [e4, e3, den]
    simp [Doc.listingNext]
  | group i r ihi ihr =>
    intro b st h0 hd hw
    have e0 : events (.group i r) = (.inline .other :: events i) ++ (.inline .other :: events r) := rfl
    obtain ⟨f, g, e1⟩ := ihi b ⟨st.depth, st.out, st.cur, false, false⟩ h0 hd (fun h => (hw h).1)
    rw [e0, List.foldl_append, List.foldl_cons, List.foldl_cons]
    have e2 : step ws doc st (.inline .other) = ⟨st.depth, st.out, st.cur, false, false⟩ := rfl
    rw [e2, e1]
    obtain ⟨f', g', e3⟩ := ihr b ⟨st.depth, st.out ++ (den ending b i st.cur).1, (den ending b i st.cur).2, false, false⟩ h0 hd (fun h => (hw h).2)
    refine ⟨f', g', ?_⟩
    have e4 : step ws doc ⟨st.depth, st.out ++ (den ending b i st.cur).1, (den ending b i st.cur).2, f, g⟩
        (.inline .other) = ⟨st.depth, st.out ++ (den ending b i st.cur).1, (den ending b i st.cur).2, false, false⟩ := rfl
    simp only [Bool.false_and, Bool.false_eq_true, if_false] at e3 ⊢
    rw [e4, e3, den]
    simp [Doc.listingNext]

theorem reports_den (he : ∀ hi, Ends ws (doc.take hi) (ending hi)) (d : Doc) (hw : d.WellFormed) :
    isMissingPunctuation ws doc (events d) = (den ending false d none).1 := by
  obtain ⟨f, g, e⟩ := run_den ws doc ending he d false ⟨0, [], none, false, false⟩ (by simp) (by simp) (fun _ => hw)
  unfold isMissingPunctuation
  rw [e]
  simp

/-! ## Every paragraph that lacks a mark is reported -/

theorem den_complete (d : Doc) : ∀ cur, (missing ending d).Sublist (den ending false d cur).1 := by
  induction d with
  | done => intro cur; exact List.Sublist.refl _
  | para l r ih =>
    intro cur
    rw [missing, den]
    refine List.Sublist.append ?_ (ih _)
    by_cases hr : r.listingNext = true
    · rw [if_pos hr, if_pos hr]; exact List.Sublist.refl _
    · rw [if_neg hr, if_neg hr]
      unfold lacks after
      cases decides ending l.reverse with
      | none => exact List.nil_sublist _
      | some v => exact List.Sublist.refl _
  | bare e r ih => intro cur; exact ih _
  | listing i r _ ihr => intro cur; exact List.Sublist.trans (ihr none) (List.sublist_append_right _ _)
  | footnote i r _ ihr => intro cur; exact List.Sublist.trans (ihr _) (List.sublist_append_right _ _)
  | aside i r _ ihr => intro cur; exact List.Sublist.trans (ihr none) (List.sublist_append_right _ _)
  | group i r ihi ihr => intro cur; exact List.Sublist.append (ihi cur) (ihr _)

/-- Every paragraph that lacks a mark and is not followed by code or a list is reported, in the order of the document. -/
theorem complete (he : ∀ hi, Ends ws (doc.take hi) (ending hi)) (d : Doc) (hw : d.WellFormed) :
    (missing ending d).Sublist (isMissingPunctuation ws doc (events d)) := by
  rw [reports_den ws doc ending he d hw]
  exact den_complete ending d none

/-! ## Every report is about a paragraph that lacks a mark -/

theorem afterIn_sub (l : List Inline) : ∀ cur mp, afterIn l cur = some mp → cur = some mp := by
  induction l with
  | nil => intro cur mp h; exact h
  | cons e l ih =>
    intro cur mp h
    have h' := ih _ mp h
    cases e <;> first | exact h' | cases h'

theorem den_in_sound (d : Doc) : ∀ cur, (∀ mp ∈ (den ending true d cur).1, cur = some mp) ∧ (∀ mp, (den ending true d cur).2 = some mp → cur = some mp) := by
  induction d with
  | done => intro cur; exact ⟨by simp [den], fun _ h => h⟩
  | para l r ih =>
    intro cur
    have ha : ∀ mp, after ending true l cur = some mp → cur = some mp := afterIn_sub l cur
    obtain ⟨h1, h2⟩ := ih (after ending true l cur)
    refine ⟨?_, fun mp h => ha mp (h2 mp h)⟩
    intro mp h
    rw [den, List.mem_append] at h
    rcases h with h | h
    · by_cases hr : r.listingNext = true
      · rw [if_pos hr] at h; cases h
      · rw [if_neg hr, Option.mem_toList] at h
        exact ha mp h
    · exact ha mp (h1 mp h)
  | bare e r ih =>
    intro cur
    have ha : ∀ mp, after ending true [e] cur = some mp → cur = some mp := afterIn_sub [e] cur
    obtain ⟨h1, h2⟩ := ih (after ending true [e] cur)
    exact ⟨fun mp h => ha mp (h1 mp h), fun mp h => ha mp (h2 mp h)⟩
  | listing i r ihi ihr =>
    intro cur
    refine ⟨?_, fun mp h => by cases (ihr none).2 mp h⟩
    intro mp h
    rw [den, List.mem_append] at h
    rcases h with h | h
    · exact (ihi cur).1 mp h
    · cases (ihr none).1 mp h
  | footnote i r ihi ihr =>
    intro cur
    refine ⟨?_, fun mp h => (ihi cur).2 mp ((ihr _).2 mp h)⟩
    intro mp h
    rw [den, List.mem_append] at h
    rcases h with h | h
    · exact (ihi cur).1 mp h
    · exact (ihi cur).2 mp ((ihr _).1 mp h)
  | aside i r ihi ihr =>
    intro cur
    refine ⟨?_, fun mp h => by cases (ihr none).2 mp h⟩
    intro mp h
    rw [den, List.mem_append] at h
    rcases h with h | h
    · exact (ihi cur).1 mp h
    · cases (ihr none).1 mp h
  | group i r ihi ihr =>
    intro cur
    refine ⟨?_, fun mp h => (ihi cur).2 mp ((ihr _).2 mp h)⟩
    intro mp h
    rw [den, List.mem_append] at h
    rcases h with h | h
    · exact (ihi cur).1 mp h
    · exact (ihi cur).2 mp ((ihr _).1 mp h)

theorem den_sound (d : Doc) (hw : d.WellFormed) : ∀ cur,
    (∀ mp ∈ (den ending false d cur).1, cur = some mp ∨ mp ∈ lacking ending d) ∧
    (∀ mp, (den ending false d cur).2 = some mp → cur = some mp ∨ mp ∈ lacking ending d) := by
  induction d with
  | done => intro cur; exact ⟨by simp [den], fun _ h => Or.inl h⟩
  | para l r ih =>
    intro cur
    have ha : ∀ mp, after ending false l cur = some mp → cur = some mp ∨ mp ∈ lacking ending (.para l r) := by
      intro mp h
      rw [lacking, List.mem_append, Option.mem_toList]
      unfold after at h
      unfold lacks
      cases hd : decides ending l.reverse with
      | none => rw [hd] at h; exact Or.inl h
      | some v => rw [hd] at h; exact Or.inr (Or.inl h)
    have hr : ∀ mp, mp ∈ lacking ending r → mp ∈ lacking ending (.para l r) := fun mp h => by rw [lacking]; exact List.mem_append_right _ h
    obtain ⟨h1, h2⟩ := ih hw (after ending false l cur)
    constructor
    · intro mp h
      rw [den, List.mem_append] at h
      rcases h with h | h
      · by_cases hn : r.listingNext = true
        · rw [if_pos hn] at h; cases h
        · rw [if_neg hn, Option.mem_toList] at h
          exact ha mp h
      · rcases h1 mp h with h | h
        · exact ha mp h
        · exact Or.inr (hr mp h)
    · intro mp h
      rcases h2 mp h with h | h
      · exact ha mp h
      · exact Or.inr (hr mp h)
  | bare e r ih => exact absurd hw (fun h => h)
  | listing i r ihi ihr =>
    intro cur
    constructor
    · intro mp h
      rw [den, List.mem_append] at h
      rcases h with h | h
      · exact Or.inl ((den_in_sound ending i cur).1 mp h)
      · rcases (ihr hw none).1 mp h with h | h
        · cases h
        · exact Or.inr h
    · intro mp h
      rcases (ihr hw none).2 mp h with h | h
      · cases h
      · exact Or.inr h
  | footnote i r ihi ihr =>
    intro cur
    constructor
    · intro mp h
      rw [den, List.mem_append] at h
      rcases h with h | h
      · exact Or.inl ((den_in_sound ending i cur).1 mp h)
      · rcases (ihr hw _).1 mp h with h | h
        · exact Or.inl ((den_in_sound ending i cur).2 mp h)
        · exact Or.inr h
    · intro mp h
      rcases (ihr hw _).2 mp h with h | h
      · exact Or.inl ((den_in_sound ending i cur).2 mp h)
      · exact Or.inr h
  | aside i r ihi ihr =>
    intro cur
    constructor
    · intro mp h
      rw [den, List.mem_append] at h
      rcases h with h | h
      · exact Or.inl ((den_in_sound ending i cur).1 mp h)
      · rcases (ihr hw none).1 mp h with h | h
        · cases h
        · exact Or.inr h
    · intro mp h
      rcases (ihr hw none).2 mp h with h | h
      · cases h
      · exact Or.inr h
  | group i r ihi ihr =>
    intro cur
    have hl : ∀ mp, mp ∈ lacking ending i → mp ∈ lacking ending (.group i r) := fun mp h => by rw [lacking]; exact List.mem_append_left _ h
    have hr : ∀ mp, mp ∈ lacking ending r → mp ∈ lacking ending (.group i r) := fun mp h => by rw [lacking]; exact List.mem_append_right _ h
    constructor
    · intro mp h
      rw [den, List.mem_append] at h
      rcases h with h | h
      · rcases (ihi hw.1 cur).1 mp h with h | h
        · exact Or.inl h
        · exact Or.inr (hl mp h)
      · rcases (ihr hw.2 _).1 mp h with h | h
        · rcases (ihi hw.1 cur).2 mp h with h | h
          · exact Or.inl h
          · exact Or.inr (hl mp h)
        · exact Or.inr (hr mp h)
    · intro mp h
      rcases (ihr hw.2 _).2 mp h with h | h
      · rcases (ihi hw.1 cur).2 mp h with h | h
        · exact Or.inl h
        · exact Or.inr (hl mp h)
      · exact Or.inr (hr mp h)

/-- Every report is the end of a paragraph outside lists, footnotes and the like that lacks a mark. -/
theorem sound (he : ∀ hi, Ends ws (doc.take hi) (ending hi)) (d : Doc) (hw : d.WellFormed) (mp : Missing)
    (h : mp ∈ isMissingPunctuation ws doc (events d)) : mp ∈ lacking ending d := by
  rw [reports_den ws doc ending he d hw] at h
  rcases (den_sound ending d hw none).1 mp h with h | h
  · cases h
  · exact h

/-! ## Documents without paragraphs in lists -/

theorem den_noPara (d : Doc) (h : d.NoPara) : ∀ b cur, (den ending b d cur).1 = [] := by
  induction d with
  | done => intro b cur; rfl
  | para l r ih => exact absurd h (fun k => k)
  | bare e r ih => intro b cur; exact ih h _ _
  | listing i r ihi ihr => intro b cur; rw [den, ihi h.1, ihr h.2]; rfl
  | footnote i r ihi ihr => intro b cur; rw [den]; simp only; rw [ihi h.1, ihr h.2]; rfl
  | aside i r ihi ihr => intro b cur; rw [den, ihi h.1, ihr h.2]; rfl
  | group i r ihi ihr => intro b cur; rw [den]; simp only; rw [ihi h.1, ihr h.2]; rfl

theorem den_plain (d : Doc) (h : d.Plain ending) : ∀ cur, (den ending false d cur).1 = missing ending d := by
  induction d with
  | done => intro cur; rfl
  | para l r ih =>
    intro cur
    rw [den, missing]
    simp only
    rw [ih h.2]
    have : after ending false l cur = lacks ending l := by
      unfold after lacks
      have hd := h.1
      cases hv : decides ending l.reverse with
      | none => exact absurd hv hd
      | some v => rfl
    rw [this]
  | bare e r ih => intro cur; exact ih h _
  | listing i r ihi ihr => intro cur; rw [den, den_noPara ending i h.1, ihr h.2]; rfl
  | footnote i r ihi ihr => intro cur; rw [den]; simp only; rw [den_noPara ending i h.1, ihr h.2]; rfl
  | aside i r ihi ihr => intro cur; rw [den, den_noPara ending i h.1, ihr h.2]; rfl
  | group i r ihi ihr => intro cur; rw [den, missing]; simp only; rw [ihi h.1, ihr h.2]

/-- Exactly the paragraphs that lack a mark and are not followed by code or a list are reported, each once. Partial: every paragraph has text, code, a link, an
image or HTML, and there are no paragraphs in lists, footnotes and the like; see `loose_list`. -/
theorem exact_partial (he : ∀ hi, Ends ws (doc.take hi) (ending hi)) (d : Doc) (hw : d.WellFormed) (hp : d.Plain ending) :
    isMissingPunctuation ws doc (events d) = missing ending d := by
  rw [reports_den ws doc ending he d hw]
  exact den_plain ending d hp none

/-- After inserting a full stop the text ends with a mark. -/
theorem fixed (h : ws '.' = false) (s : List Char) : Ends ws (s ++ ['.']) .mark := by
  refine Ends.mark s '.' [] (by simp) ?_ (by decide)
  rintro (⟨p, hp, h1, h2⟩ | h1)
  · have hc : ('.' : Char).toNat = 46 := rfl
    rw [hc] at h1 h2
    revert h1 h2
    revert p
    decide
  · rw [h] at h1; cases h1

/-! ## Examples -/

/-- A white space test for the examples. -/
def blank (c : Char) : Bool := c == ' ' || c == '\n'

example : isMissingPunctuation blank ['H', 'i', '\n', '\n', 'B', 'y', 'e', '.'] (events (.para [.text 0 2] (.para [.text 4 8] .done))) = [.fixable 2] ∧
    isMissingPunctuation blank ['H', 'i', '\n', '\n', '-', ' ', 'a'] (events (.para [.text 0 2] (.listing (.group (.bare (.text 6 7) .done) .done) .done))) = [] ∧
    isMissingPunctuation blank ['(', 'H', 'i', ')'] (events (.para [.text 0 4] .done)) = [.unfixable 4] ∧
    isMissingPunctuation blank ['(', 'H', '!', ')'] (events (.para [.text 0 4] .done)) = [] := by decide +kernel

example : (Doc.para [.text 0 2] (.listing (.group (.bare (.text 6 7) .done) .done) .done)).WellFormed ∧
    (Doc.para [.text 0 2] (.listing (.group (.bare (.text 6 7) .done) .done) .done)).Plain (fun _ => .open_) ∧
    missing (fun _ => .open_) (Doc.para [.text 0 2] (.para [.text 4 7] .done)) = [.fixable 2, .fixable 7] :=
  ⟨trivial, ⟨by decide +kernel, ⟨trivial, trivial⟩, trivial⟩, by decide +kernel⟩

/-- A paragraph that is followed by a list whose items are paragraphs is reported, once for every such item: `current_paragraph` is not reset at the end
of a paragraph. -/
theorem loose_list :
    isMissingPunctuation blank ['H', 'i', '\n', '\n', '-', ' ', 'a', '\n', '\n', '-', ' ', 'b']
      (events (.para [.text 0 2] (.listing (.group (.para [.text 6 7] .done) (.group (.para [.text 11 12] .done) .done)) .done))) =
      [.fixable 2, .fixable 2] ∧
    missing (fun _ => .open_) (.para [.text 0 2] (.listing (.group (.para [.text 6 7] .done) (.group (.para [.text 11 12] .done) .done)) .done)) = [] := by
  decide +kernel

/-- The same for a paragraph followed by a footnote or by a paragraph with nothing that decides: it is reported twice. -/
theorem reported_twice :
    isMissingPunctuation blank ['H', 'i', '\n', '\n', '[', '^', '1', ']', ':', ' ', 'a', '.'] (events (.para [.text 0 2] (.footnote (.para [.text 10 12] .done) .done))) =
      [.fixable 2, .fixable 2] ∧
    isMissingPunctuation blank ['H', 'i', '\n', '\n', '[', '^', '1', ']'] (events (.para [.text 0 2] (.para [.other] .done))) = [.fixable 2, .fixable 2] := by
  decide +kernel

end Verif.DocEnd
