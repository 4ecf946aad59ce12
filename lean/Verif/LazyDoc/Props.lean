import Verif.LazyDoc.Model

/-!
# Properties: lines of documentation that continue a paragraph
-/

namespace Verif.LazyDoc

theorem count_eq (c : Char) (s : List Char) : count c s = occurs c s := by
  induction s with
  | nil => rfl
  | cons d s ih =>
    rw [occurs, ← ih]
    by_cases h : d = c
    · rw [if_pos h]
      simp only [count, List.filter_cons, h, beq_self_eq_true, if_true, List.length_cons]
      omega
    · rw [if_neg h]
      have hb : (d == c) = false := beq_false_of_ne h
      simp [count, List.filter_cons, hb]

theorem level_eq (cs : List Container) : level cs = quotes cs := by
  induction cs with
  | nil => rfl
  | cons c cs ih =>
    cases c with
    | quote => rw [quotes, ← ih]; simp [level, List.filter_cons]
    | list n => rw [quotes, ← ih]; simp [level, List.filter_cons]

theorem indentation_eq (cs : List Container) : indentation cs = columns cs := by
  induction cs with
  | nil => rfl
  | cons c cs ih =>
    cases c with
    | quote => rw [columns, ← ih]; simp [indentation]
    | list n => rw [columns, ← ih]; simp [indentation]

theorem occurs_append (c : Char) (a b : List Char) : occurs c (a ++ b) = occurs c a + occurs c b := by
  induction a with
  | nil => simp [occurs]
  | cons d a ih => rw [List.cons_append, occurs, occurs, ih]; omega

theorem occurs_replicate_self (n : Nat) : occurs ' ' (List.replicate n ' ') = n := by
  induction n with
  | zero => rfl
  | succ n ih => rw [List.replicate_succ, occurs, if_pos rfl, ih]; omega

theorem occurs_replicate_quote (n : Nat) : occurs '>' (List.replicate n ' ') = 0 := by
  induction n with
  | zero => rfl
  | succ n ih => rw [List.replicate_succ, occurs, if_neg (by decide), ih]

theorem startsWith_iff (t s : List Char) : startsWith t s = true ↔ ∃ r, s = t ++ r := by
  induction t generalizing s with
  | nil => exact ⟨fun _ => ⟨s, rfl⟩, fun _ => rfl⟩
  | cons c t ih =>
    cases s with
    | nil => exact ⟨(fun h => by cases h), fun ⟨r, h⟩ => by cases h⟩
    | cons d s =>
      rw [startsWith, Bool.and_eq_true, beq_iff_eq, ih]
      constructor
      · rintro ⟨h, r, e⟩
        exact ⟨r, by rw [h, e]; rfl⟩
      · rintro ⟨r, e⟩
        rw [List.cons_append] at e
        injection e with e1 e2
        exact ⟨e1.symm, r, e2⟩

theorem find_some (s : List Char) : ∀ i, find s = some i → occurs '>' (s.take (i + 1)) = 1 ∧ i + 1 ≤ s.length := by
  induction s with
  | nil => intro i h; cases h
  | cons c s ih =>
    intro i h
    rw [find] at h
    by_cases hc : (c == '>') = true
    · rw [if_pos hc] at h
      cases h
      rw [beq_iff_eq] at hc
      rw [hc]
      simp [occurs]
    · rw [if_neg hc, Option.map_eq_some_iff] at h
      obtain ⟨j, hj, e⟩ := h
      subst e
      obtain ⟨h1, h2⟩ := ih j hj
      rw [List.take_succ_cons, occurs, h1, List.length_cons]
      rw [beq_iff_eq] at hc
      rw [if_neg hc]
      omega

/-- What the loop has kept and suggested contains one marker for each quote it has seen. -/
theorem markers_count (cs : List Container) : ∀ (s : List Char) (keep : Nat) (sugg : List Char) (k : Nat) (t : List Char) (pre : List Char),
    pre.length = keep → markers cs s keep sugg = some (k, t) →
    occurs '>' ((pre ++ s).take k ++ t) = occurs '>' pre + occurs '>' sugg + quotes cs := by
  induction cs with
  | nil =>
    intro s keep sugg k t pre hp h
    cases h
    rw [← hp, List.take_left', occurs_append]
    · rfl
    · rfl
  | cons c cs ih =>
    intro s keep sugg k t pre hp h
    rw [markers] at h
    cases hT : toText c with
    | none => rw [hT] at h; cases h
    | some tx =>
      rw [hT] at h
      simp only at h
      have htx : occurs '>' tx + quotes cs = quotes (c :: cs) := by
        cases c with
        | quote => cases hT; simp [occurs, quotes]; omega
        | list n =>
          simp only [toText] at hT
          by_cases hn : n ≤ 18
          · rw [if_pos hn] at hT; cases hT; rw [occurs_replicate_quote, quotes]; omega
          · rw [if_neg hn] at hT; cases hT
      by_cases hs : startsWith tx s = true
      · rw [if_pos hs] at h
        obtain ⟨r, e⟩ := (startsWith_iff tx s).1 hs
        subst e
        rw [List.drop_left'] at h
        · have := ih r (keep + tx.length) sugg k t (pre ++ tx) (by simp [hp]) h
          rw [List.append_assoc] at this
          rw [this, occurs_append]
          omega
        · rfl
      · rw [if_neg hs] at h
        cases hf : findIn c s with
        | none =>
          rw [hf] at h
          simp only at h
          have := ih s keep (sugg ++ tx) k t pre hp h
          rw [this, occurs_append]
          omega
        | some i =>
          rw [hf] at h
          simp only at h
          cases c with
          | list n => cases hf
          | quote =>
            obtain ⟨h1, h2⟩ := find_some s i hf
            have := ih (s.drop (i + 1)) (keep + (i + 1)) sugg k t (pre ++ s.take (i + 1)) (by
              rw [List.length_append, List.length_take, hp]; omega) h
            rw [List.append_assoc, List.take_append_drop] at this
            rw [this, occurs_append, h1, quotes]
            omega

/-! ## Which lines are reported -/

/-- A line is not reported exactly when it has a marker for every quote and, in lists without quotes, the spaces of the items. -/
theorem silent_iff (s : List Char) (cs : List Container) :
    check s cs true = .silent ↔ quotes cs ≤ occurs '>' s ∧ (quotes cs ≠ 0 ∨ occurs ' ' s = columns cs) := by
  unfold check checkList
  simp only [count_eq, level_eq, indentation_eq, Bool.and_true]
  by_cases h1 : occurs '>' s < quotes cs
  · rw [if_pos (by simpa using h1)]
    constructor
    · intro h
      cases hm : markers cs s 0 [] with
      | none => rw [hm] at h; cases h
      | some p => rw [hm] at h; cases h
    · rintro ⟨h, _⟩
      omega
  · rw [if_neg (by simpa using h1)]
    by_cases h2 : quotes cs = 0
    · rw [if_neg (by simp [h2])]
      by_cases h3 : occurs ' ' s = columns cs
      · rw [if_neg (by simp [h3])]
        exact ⟨fun _ => ⟨by omega, Or.inr h3⟩, fun _ => rfl⟩
      · rw [if_pos (by simpa using h3)]
        constructor
        · intro h
          by_cases h4 : occurs ' ' s < columns cs
          · rw [if_pos h4] at h; cases h
          · rw [if_neg h4] at h; cases h
        · rintro ⟨_, h | h⟩
          · exact absurd h2 h
          · exact absurd h h3
    · rw [if_pos]
      · exact ⟨fun _ => ⟨by omega, Or.inl h2⟩, fun _ => rfl⟩
      · have h3 : occurs '>' s ≠ 0 := by omega
        simp [h2, h3]

/-- Without a place in the source nothing is reported. -/
theorem no_place (s : List Char) (cs : List Container) : check s cs false = .silent := by
  unfold check checkList
  simp

/-- After applying a suggestion the line is not reported again. -/
theorem settled (s : List Char) (cs : List Container) (r : Report) (h : check s cs true = .report r) : check (r.applied s) cs true = .silent := by
  rw [silent_iff]
  unfold check checkList at h
  simp only [count_eq, level_eq, indentation_eq, Bool.and_true] at h
  by_cases h1 : occurs '>' s < quotes cs
  · rw [if_pos (by simpa using h1)] at h
    cases hm : markers cs s 0 [] with
    | none => rw [hm] at h; cases h
    | some p =>
      rw [hm] at h
      cases h
      have := markers_count cs s 0 [] p.1 p.2 [] rfl hm
      simp only [List.nil_append, occurs] at this
      rw [Report.applied, this]
      omega
  · rw [if_neg (by simpa using h1)] at h
    by_cases h2 : quotes cs = 0
    · rw [if_neg (by simp [h2])] at h
      by_cases h3 : occurs ' ' s = columns cs
      · rw [if_neg (by simp [h3])] at h; cases h
      · rw [if_pos (by simpa using h3)] at h
        refine ⟨by omega, Or.inr ?_⟩
        by_cases h4 : occurs ' ' s < columns cs
        · rw [if_pos h4] at h
          cases h
          rw [Report.applied, occurs_append, occurs_replicate_self]
          omega
        · rw [if_neg h4] at h
          cases h
          rw [Report.applied, occurs_replicate_self]
    · rw [if_pos] at h
      · cases h
      · have h3 : occurs '>' s ≠ 0 := by omega
        simp [h2, h3]

/-! ## Lines with the usual markers -/

theorem dropSpaces_replicate (n : Nat) (s : List Char) : dropSpaces n (List.replicate n ' ' ++ s) = some s := by
  induction n with
  | zero => rfl
  | succ n ih => rw [List.replicate_succ, List.cons_append, dropSpaces, ih]

/-- The usual start continues the paragraph. -/
theorem strip_usual (cs : List Container) (s : List Char) : strip cs (usual cs ++ s) = some s := by
  induction cs with
  | nil => rfl
  | cons c cs ih =>
    cases c with
    | quote => exact ih
    | list n => rw [usual, List.append_assoc, strip, dropSpaces_replicate]; exact ih

/-- The containers whose markers can be written. -/
def Narrow (cs : List Container) : Prop := ∀ n, .list n ∈ cs → n ≤ 18

theorem toText_usual (c : Container) (cs : List Container) (h : Narrow (c :: cs)) : ∃ t, toText c = some t ∧ usual (c :: cs) = t ++ usual cs := by
  cases c with
  | quote => exact ⟨_, rfl, rfl⟩
  | list n => exact ⟨List.replicate n ' ', by rw [toText, if_pos (h n (by simp))], rfl⟩

theorem narrow_tail (c : Container) (cs : List Container) (h : Narrow (c :: cs)) : Narrow cs := fun n hn => h n (by simp [hn])

theorem markers_rest (cs : List Container) (h : Narrow cs) : ∀ keep sugg, markers cs [] keep sugg = some (keep, sugg ++ usual cs) := by
  induction cs with
  | nil => intro keep sugg; rw [markers, usual, List.append_nil]
  | cons c cs ih =>
    intro keep sugg
    obtain ⟨t, ht, hu⟩ := toText_usual c cs h
    rw [markers, ht]
    simp only
    by_cases hs : startsWith t [] = true
    · rw [if_pos hs]
      obtain ⟨r, e⟩ := (startsWith_iff t []).1 hs
      have htn : t = [] := (List.append_eq_nil_iff.1 e.symm).1
      rw [htn] at hu ⊢
      rw [hu]
      exact ih (narrow_tail c cs h) keep sugg
    · rw [if_neg hs]
      have hf : findIn c [] = none := by cases c <;> rfl
      rw [hf]
      simp only
      rw [ih (narrow_tail c cs h), hu, List.append_assoc]

theorem markers_usual (as : List Container) : ∀ (cs : List Container) (_ : Narrow (as ++ cs)) (keep : Nat),
    markers (as ++ cs) (usual as) keep [] = some (keep + (usual as).length, usual cs) := by
  induction as with
  | nil =>
    intro cs h keep
    exact markers_rest cs h keep []
  | cons c as ih =>
    intro cs h keep
    obtain ⟨t, ht, hu⟩ := toText_usual c (as ++ cs) h
    have hu' : usual (c :: as) = t ++ usual as := by
      cases c with
      | quote => cases ht; rfl
      | list n =>
        rw [toText, if_pos (h n (by simp))] at ht
        cases ht; rfl
    rw [List.cons_append, markers, ht, hu']
    simp only
    rw [if_pos ((startsWith_iff t _).2 ⟨_, rfl⟩), List.drop_left' rfl, ih cs (narrow_tail c _ h), List.length_append]
    congr 2
    omega

theorem usual_spaces (cs : List Container) (h : quotes cs = 0) : usual cs = List.replicate (columns cs) ' ' := by
  induction cs with
  | nil => rfl
  | cons c cs ih =>
    cases c with
    | quote => simp [quotes] at h
    | list n => rw [usual, columns, ih h, List.replicate_append_replicate]

theorem usual_append (as cs : List Container) : usual (as ++ cs) = usual as ++ usual cs := by
  induction as with
  | nil => rfl
  | cons c as ih =>
    cases c with
    | quote => rw [List.cons_append, usual, usual, ih]; rfl
    | list n => rw [List.cons_append, usual, usual, ih, List.append_assoc]

theorem quotes_append (as cs : List Container) : quotes (as ++ cs) = quotes as + quotes cs := by
  induction as with
  | nil => simp [quotes]
  | cons c as ih =>
    cases c with
    | quote => rw [List.cons_append, quotes, quotes, ih]; omega
    | list n => rw [List.cons_append, quotes, quotes, ih]

/-- The suggestion for a line that starts with the usual markers of the outer containers only (or with nothing) adds those of the others, so the line continues
the paragraph. -/
theorem completes (as cs : List Container) (h : Narrow (as ++ cs)) (r : Report) (hc : check (usual as) (as ++ cs) true = .report r) :
    r.applied (usual as) = usual (as ++ cs) ∧ strip (as ++ cs) (r.applied (usual as)) = some [] := by
  have key : r.applied (usual as) = usual (as ++ cs) := by
    unfold check checkList at hc
    simp only [count_eq, level_eq, indentation_eq, Bool.and_true] at hc
    by_cases h1 : occurs '>' (usual as) < quotes (as ++ cs)
    · rw [if_pos (by simpa using h1), markers_usual as cs h 0] at hc
      cases hc
      rw [Report.applied, Nat.zero_add, List.take_length, usual_append]
    · rw [if_neg (by simpa using h1)] at hc
      by_cases h2 : quotes (as ++ cs) = 0
      · rw [if_neg (by simp [h2])] at hc
        by_cases h3 : occurs ' ' (usual as) = columns (as ++ cs)
        · rw [if_neg (by simp [h3])] at hc; cases hc
        · rw [if_pos (by simpa using h3)] at hc
          by_cases h4 : occurs ' ' (usual as) < columns (as ++ cs)
          · rw [if_pos h4] at hc
            cases hc
            have ha : quotes as = 0 := by rw [quotes_append] at h2; omega
            rw [Report.applied, usual_spaces _ h2]
            rw [usual_spaces as ha, occurs_replicate_self] at h4 ⊢
            rw [List.replicate_append_replicate]
            congr 1
            omega
          · rw [if_neg h4] at hc
            cases hc
            rw [Report.applied, usual_spaces _ h2]
      · rw [if_pos] at hc
        · cases hc
        · have h3 : occurs '>' (usual as) ≠ 0 := by omega
          simp [h2, h3]
  refine ⟨key, ?_⟩
  rw [key]
  have := strip_usual (as ++ cs) []
  rwa [List.append_nil] at this

/-- There is a panic only if the text of an item starts more than 18 characters after its marker. -/
theorem no_panic (s : List Char) (cs : List Container) (p : Bool) (h : Narrow cs) : check s cs p ≠ .panic := by
  have hm : ∀ (cs : List Container), Narrow cs → ∀ s k g, markers cs s k g ≠ none := by
    intro cs
    induction cs with
    | nil => intro _ s k g h; cases h
    | cons c cs ih =>
      intro hn s k g
      obtain ⟨t, ht, _⟩ := toText_usual c cs hn
      rw [markers, ht]
      simp only
      by_cases hs : startsWith t s = true
      · rw [if_pos hs]; exact ih (narrow_tail c cs hn) _ _ _
      · rw [if_neg hs]
        cases findIn c s with
        | none => exact ih (narrow_tail c cs hn) _ _ _
        | some i => exact ih (narrow_tail c cs hn) _ _ _
  unfold check checkList
  split
  · cases hk : markers cs s 0 [] with
    | none => exact absurd hk (hm cs h s 0 [])
    | some q => intro k; cases k
  · split
    · intro k; cases k
    · split
      · split <;> (intro k; cases k)
      · intro k; cases k

example : check [] [.quote, .list 2] true = .report (.unquoted 0 ['>', ' ', ' ', ' ']) ∧
    check ['>', ' '] [.quote, .list 2, .quote] true = .report (.unquoted 2 [' ', ' ', '>', ' ']) ∧
    check [' '] [.list 3] true = .report (.lessIndented [' ', ' ']) ∧ check ['>', ' ', ' ', ' '] [.quote, .list 2] true = .silent := by decide +kernel

example : Narrow [.quote, .list 2] := by
  intro n h
  simp at h
  omega

/-! ## Cases in which the suggestion is wrong -/

/-- A marker that is not written in the usual way: the suggestion replaces the space after it, and the line does not continue the item. -/
theorem space_taken : check [' ', '>', ' '] [.quote, .list 2, .quote] true = .report (.unquoted 2 [' ', ' ', '>', ' ']) ∧
    strip [.quote, .list 2, .quote] (Report.applied [' ', '>', ' '] (.unquoted 2 [' ', ' ', '>', ' '])) = none := by decide +kernel

/-- A backslash in front of the text is not in the stream of events: with too many spaces the suggestion removes it, with too few it is separated from
what it escapes. -/
theorem escape_lost : check [' ', ' ', ' ', '\\'] [.list 2] true = .report (.moreIndented [' ', ' ']) ∧
    Report.applied [' ', ' ', ' ', '\\'] (.moreIndented [' ', ' ']) = [' ', ' '] ∧
    check ['\\'] [.list 2] true = .report (.lessIndented [' ', ' ']) ∧ Report.applied ['\\'] (.lessIndented [' ', ' ']) = ['\\', ' ', ' '] := by decide +kernel

/-- Quotes are counted, not looked at in their place, and in a quote the spaces of items are not checked: this line is lazy and not reported. -/
theorem lazy_missed : check ['>', ' '] [.quote, .list 2] true = .silent ∧ strip [.quote, .list 2] ['>', ' '] = none := by decide +kernel

/-- An item whose text starts far to the right lets the linter panic. -/
theorem wide_panics : check [] [.list 19, .quote] true = .panic := by decide +kernel

end Verif.LazyDoc
