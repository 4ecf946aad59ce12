import Verif.NumLit.Format

/-!
# Formatting yields the canonical form of a literal, with the same value
-/

namespace Verif.NumLit
open Verif

theorem pre_neg {l : Lit} (h : Input l) : l.radix.text ++ negText l.neg = negText l.neg ++ l.radix.text := by
  cases hn : l.neg with
  | false => simp [negText]
  | true => rw [h.neg hn]; rfl

theorem assemble_text {l : Lit} (h : Input l) (I : Str) (a1 : Bool) (F : Option Str) (a2 : Bool)
    (E : Option (Char × Sign × Str)) (a3 : Bool) :
    (assemble l I a1 F a2 E a3).text =
      l.radix.text ++ (negText l.neg ++ I) ++ us a1 ++
      (match F with | some f => '.' :: (f ++ us a2) | none => []) ++
      (match E with | some (m, s, d) => m :: (s.text ++ (d ++ us a3)) | none => []) := by
  rw [text_eq]
  have := pre_neg h
  rw [← List.append_assoc, ← List.append_assoc l.radix.text]
  show (negText l.neg ++ l.radix.text) ++ _ = _
  rw [← this]
  unfold tailText assemble
  cases F <;> cases E <;> simp

theorem grouping_pos (r : Radix) : 0 < r.grouping := by cases r <;> decide

theorem frac_head {f : Str} (size : Nat) (hs : 0 < size) (h : ∃ c ∈ f.head?, c ≠ '_') :
    ∃ c ∈ (grouped size size (digitsOf f)).head?, c ≠ '_' := by
  obtain ⟨c, hc, hcu⟩ := h
  refine ⟨c, ?_, hcu⟩
  rw [grouped_head _ _ _ hs]
  cases f with
  | nil => simp at hc
  | cons x xs =>
    simp at hc
    subst hc
    simp [digitsOf, hcu]

theorem ne_dot {r : Radix} {s t : Str} (h : DigitText r s) (hne : s ≠ []) :
    (t ++ s).getLast? ≠ some '.' := by
  rw [List.getLast?_append]
  cases hl : s.getLast? with
  | none => exact absurd (List.getLast?_eq_none_iff.mp hl) hne
  | some c =>
    simp only [Option.some_or]
    intro e
    have hm : c ∈ s := List.mem_of_getLast? hl
    exact digit_ne (x := '.') (h c hm) (by decide) (by decide) (by simpa using e)

theorem addSuffix_some (sx o : Str) (h : o.getLast? ≠ some '.') :
    addSuffix (some sx) o = o ++ '_' :: sx := by
  simp only [addSuffix, if_neg h]

theorem format_none {n : Num} {o : Str} (hs : n.suffix = none) (hu : n.unsuffixed = some o) :
    n.format = some o := by
  simp [Num.format, hu, hs, addSuffix]

theorem format_some {n : Num} {o sx : Str} (hs : n.suffix = some sx) (hu : n.unsuffixed = some o)
    (h : o.getLast? ≠ some '.') : n.format = some (o ++ '_' :: sx) := by
  simp [Num.format, hu, hs, addSuffix_some sx o h]

/-- Which optional underscores a printed literal can have: only before an exponent or a suffix. -/
def TailOK (suffix : Option Str) (a1 : Bool) (F : Option Str) (a2 : Bool)
    (E : Option (Char × Sign × Str)) (a3 : Bool) : Prop :=
  (a1 = true → F = none ∧ (E ≠ none ∨ suffix ≠ none)) ∧
  (a2 = true → F ≠ none ∧ (E ≠ none ∨ suffix ≠ none)) ∧
  (a3 = true → suffix ≠ none)

/-- The literal `l'` is the canonical form of `l`: its integer part and its fraction are grouped. -/
def Canonical (l : Lit) (suffix : Option Str) (l' : Lit) : Prop :=
  ∃ a1 F a2 E a3, l' = assemble l (printedInt l.radix (digitsOf l.int)) a1 F a2 E a3 ∧
    TailOK suffix a1 F a2 E a3 ∧ (F ≠ none ∨ E ≠ none → l.floatForm = true) ∧
    ∀ f ∈ F, ∃ ds, f = grouped 3 3 ds ∧ '_' ∉ ds ∧ ∀ c ∈ ds, IsDigit .decimal c

theorem format_core (l : Lit) (hwf : l.WF) (hneg : l.neg = true → l.radix = .decimal)
    (suffix : Option Str) (float : Bool) (hfloat : l.floatForm = true → float = true)
    (hdec : float = true → l.radix = .decimal) :
    ∃ l' : Lit, format l.text suffix float = some (l'.text ++ suffix.getD []) ∧
      l'.WF ∧ (suffix ≠ none → l'.Suffixable) ∧
      l'.radix = l.radix ∧ l'.neg = l.neg ∧ Canonical l suffix l' ∧ l'.value = l.value ∧
      (suffix = none → l'.floatForm = l.floatForm) := by
  have h : Input l := ⟨hwf, hneg⟩
  have hp := parse_parsed h suffix float hfloat hdec
  unfold format
  generalize parse l.text suffix float = n at hp
  have hI := int_printed h hp
  have hItext : DigitText l.radix (printedInt l.radix (digitsOf l.int)) :=
    printedInt_text (digitsOf_text (WF.int_text hwf))
  have hIhead := printedInt_head (r := l.radix) (not_mem_digitsOf l.int) (WF.int_digit hwf)
  obtain ⟨k, hIdig⟩ := printedInt_digits (r := l.radix) (not_mem_digitsOf l.int)
  have hIne : printedInt l.radix (digitsOf l.int) ≠ [] := by
    intro e; rw [e] at hIhead; simp at hIhead
  have hcan : ∀ a1 F a2 E a3, TailOK suffix a1 F a2 E a3 → (F ≠ none ∨ E ≠ none → l.floatForm = true) →
      (∀ f ∈ F, ∃ ds, f = grouped 3 3 ds ∧ '_' ∉ ds ∧ ∀ c ∈ ds, IsDigit .decimal c) →
      Canonical l suffix (assemble l (printedInt l.radix (digitsOf l.int)) a1 F a2 E a3) :=
    fun a1 F a2 E a3 h1 h2 h3 => ⟨a1, F, a2, E, a3, rfl, h1, h2, h3⟩
  have hzero : ∀ f ∈ some ['0'], ∃ ds, f = grouped 3 3 ds ∧ '_' ∉ ds ∧ ∀ c ∈ ds, IsDigit .decimal c := by
    intro f hf
    simp at hf
    subst hf
    exact ⟨['0'], rfl, by decide, by intro c hc; simp at hc; subst hc; exact zero_digit _⟩
  generalize hIg : printedInt l.radix (digitsOf l.int) = I at *
  have hsize := grouping_pos n.radix
  rcases hp.frac with ⟨hf, hnf⟩ | ⟨f, g, hf, hnf, hgf⟩
  · rcases hp.exp with ⟨he, hne⟩ | ⟨m, s, d, sep, ex, he, hne, hsep, hexd⟩
    · -- integer form
      have hval : ∀ b, (assemble l I b none false none false).value = l.value := fun b =>
        assemble_value hIdig (by rw [hf]) (by rw [he])
      have hok : ∀ b, (assemble l I b none false none false).Suffixable := fun b =>
        assemble_ok hItext hIhead (by simp) (by simp) (by simp)
      cases suffix with
      | none =>
        refine ⟨_, ?_, Or.inl (hok false), fun _ => hok false, rfl, rfl, hcan _ _ _ _ _ (by simp [TailOK]) (by simp) (by simp), hval _, ?_⟩
        · rw [assemble_text h]
          refine format_none hp.suffix ?_
          simp [Num.unsuffixed, us, hI, hnf, hne, hp.pre]
        · intro _; simp [assemble, Lit.floatForm, hf, he]
      | some sx =>
        refine ⟨_, ?_, Or.inl (hok true), fun _ => hok true, rfl, rfl, hcan _ _ _ _ _ (by simp [TailOK]) (by simp) (by simp), hval _, by simp⟩
        have hdot := ne_dot (t := l.radix.text ++ negText l.neg) hItext hIne
        rw [assemble_text h, format_some hp.suffix ?_ hdot]
        · simp [us]
        · simp [Num.unsuffixed, hI, hnf, hne, hp.pre]
    · -- exponent, no fraction
      have hrdec : l.radix = .decimal := WF.decimal hwf (by simp [Lit.floatForm, he])
      obtain ⟨hm, hdt, hdne⟩ := WF.exp_text hwf _ he
      simp only at hm hdt hdne
      have hexne : ex ≠ [] := by
        rintro rfl
        have := congrArg List.length hexd
        simp [digitsOf] at this
        have h0 : (digitsOf d).length = 0 := by unfold digitsOf; omega
        exact hdne (List.length_eq_zero_iff.mp h0)
      by_cases hz : ex = ['0']
      · -- exponent `0`, dropped
        have hs0 : s = .none ∧ digitsOf d = ['0'] := by
          subst hz
          have e : digitsOf ['0'] = ['0'] := by decide
          rw [e] at hexd
          cases s with
          | none => exact ⟨rfl, hexd.symm⟩
          | plus => simp [Sign.text] at hexd
          | minus => simp [Sign.text] at hexd
        have hexp0 : expVal l.exp = 0 := by
          rw [he]; simp only [expVal, hs0.1, hs0.2]; decide
        cases suffix with
        | none =>
          have hok : (assemble l I false (some ['0']) false none false).Suffixable :=
            assemble_ok hItext hIhead (fun _ => hrdec)
              (by
                intro f hf'
                simp at hf'
                subst hf'
                exact ⟨by intro c hc; simp at hc; subst hc; exact Or.inl (zero_digit _),
                  '0', by simp, by decide⟩) (by simp)
          refine ⟨_, ?_, Or.inl hok, fun _ => hok, rfl, rfl, hcan _ _ _ _ _ (by simp [TailOK]) (by simp [Lit.floatForm, he]) hzero,
            assemble_value_zero hIdig hrdec (by rw [hf]; rfl) hexp0, ?_⟩
          · rw [assemble_text h]
            refine format_none hp.suffix ?_
            simp [Num.unsuffixed, us, hI, hnf, hne, hp.pre, hp.suffix, hz]
          · intro _; simp [assemble, Lit.floatForm, he]
        | some sx =>
          have hok : (assemble l I true none false none false).Suffixable :=
            assemble_ok hItext hIhead (by simp) (by simp) (by simp)
          refine ⟨_, ?_, Or.inl hok, fun _ => hok, rfl, rfl, hcan _ _ _ _ _ (by simp [TailOK]) (by simp [Lit.floatForm, he]) (by simp),
            assemble_value hIdig (by rw [hf]) (by rw [hexp0]; rfl), by simp⟩
          have hdot := ne_dot (t := l.radix.text ++ negText l.neg) hItext hIne
          rw [assemble_text h, format_some hp.suffix ?_ hdot]
          · simp [us]
          · simp [Num.unsuffixed, hI, hnf, hne, hp.pre, hp.suffix, hz]
      · obtain ⟨E, hEp, hEd, hEt⟩ := exp_printed n.radix.grouping hdt hdne hexd
        have hEne : E ≠ [] := by
          rintro rfl
          exact hdne (by rw [← hEd]; rfl)
        have hok : ∀ a b, (assemble l I a none false (some (m, s, E)) b).Suffixable := fun a b =>
          assemble_ok hItext hIhead (fun _ => hrdec) (by simp)
            (by intro e he'; simp at he'; subst he'; exact ⟨hm, hEt, by rw [hEd]; exact hdne⟩)
        have hval : ∀ a b, (assemble l I a none false (some (m, s, E)) b).value = l.value := fun a b =>
          assemble_value hIdig (by rw [hf]) (by rw [he]; simp only [expVal, hEd])
        -- the underscore of the separator goes to the integer part
        have hsepU : ∃ a, sep = us a ++ [m] := by
          rcases hsep with e | e
          · exact ⟨false, e⟩
          · exact ⟨true, e⟩
        obtain ⟨a, hsep⟩ := hsepU
        cases suffix with
        | none =>
          refine ⟨_, ?_, Or.inl (hok a false), fun _ => hok a false, rfl, rfl, hcan _ _ _ _ _ (by simp [TailOK]) (by simp [Lit.floatForm, he]) (by simp), hval _ _, ?_⟩
          · rw [assemble_text h]
            refine format_none hp.suffix ?_
            simp [Num.unsuffixed, us, hI, hnf, hne, hp.pre, hp.suffix, hz, hexne, hEp, hsep]
          · intro _; simp [assemble, Lit.floatForm, he]
        | some sx =>
          refine ⟨_, ?_, Or.inl (hok a true), fun _ => hok a true, rfl, rfl, hcan _ _ _ _ _ (by simp [TailOK]) (by simp [Lit.floatForm, he]) (by simp), hval _ _, by simp⟩
          have hdot := ne_dot (t := l.radix.text ++ (negText l.neg ++ I) ++ (us a ++ [m]) ++ s.text) hEt hEne
          rw [assemble_text h, format_some hp.suffix ?_ hdot]
          · simp [us]
          · simp [Num.unsuffixed, hI, hnf, hne, hp.pre, hp.suffix, hz, hexne, hEp, hsep]
  · -- with a fraction
    have hrdec : l.radix = .decimal := WF.decimal hwf (by simp [Lit.floatForm, hf])
    obtain ⟨hft, hfcase⟩ := WF.frac_text hwf f hf
    have hF := frac_printed n.radix.grouping hsize hft hgf
    have hFt : DigitText .decimal (grouped n.radix.grouping n.radix.grouping (digitsOf f)) :=
      grouped_text (digitsOf_text hft)
    have hFd := grouped_digits n.radix.grouping n.radix.grouping (digitsOf f) (not_mem_digitsOf f)
    have hFhead : (∃ c ∈ f.head?, c ≠ '_') →
        ∃ c ∈ (grouped n.radix.grouping n.radix.grouping (digitsOf f)).head?, c ≠ '_' :=
      frac_head _ hsize
    have hFcan : ∀ f' ∈ some (grouped n.radix.grouping n.radix.grouping (digitsOf f)),
        ∃ ds, f' = grouped 3 3 ds ∧ '_' ∉ ds ∧ ∀ c ∈ ds, IsDigit .decimal c := by
      intro f' hf'
      simp at hf'
      subst hf'
      have h3 : n.radix.grouping = 3 := by rw [hp.radix, hrdec]; rfl
      rw [h3]
      exact ⟨digitsOf f, rfl, not_mem_digitsOf f, digitsOf_text hft⟩
    generalize hFg : grouped n.radix.grouping n.radix.grouping (digitsOf f) = F at *
    rcases hp.exp with ⟨he, hne⟩ | ⟨m, s, d, sep, ex, he, hne, hsep, hexd⟩
    · rcases hfcase with ⟨hf0, _⟩ | hfh
      · -- `1.`
        subst hf0
        have hF0 : F = [] := by rw [← hFg]; simp [digitsOf, grouped, cycleDigits]
        subst hF0
        have hok : ∀ a, (assemble l I a none false none false).Suffixable := fun a =>
          assemble_ok hItext hIhead (by simp) (by simp) (by simp)
        cases suffix with
        | none =>
          refine ⟨assemble l I false (some []) false none false, ?_,
            Or.inr ⟨rfl, rfl, hok false, hrdec⟩, by simp, rfl, rfl, hcan _ _ _ _ _ (by simp [TailOK]) (by simp [Lit.floatForm, hf]) hFcan,
            assemble_value hIdig (by rw [hf]) (by rw [he]), ?_⟩
          · rw [assemble_text h]
            refine format_none hp.suffix ?_
            simp [Num.unsuffixed, us, hI, hnf, hne, hp.pre, hp.suffix, hF]
          · intro _; simp [assemble, Lit.floatForm, hf]
        | some sx =>
          have hok0 : (assemble l I false (some ['0']) true none false).Suffixable :=
            assemble_ok hItext hIhead (fun _ => hrdec)
              (by
                intro f hf'
                simp at hf'
                subst hf'
                exact ⟨by intro c hc; simp at hc; subst hc; exact Or.inl (zero_digit _),
                  '0', by simp, by decide⟩) (by simp)
          refine ⟨_, ?_, Or.inl hok0, fun _ => hok0, rfl, rfl, hcan _ _ _ _ _ (by simp [TailOK]) (by simp [Lit.floatForm, hf]) hzero,
            assemble_value_zero hIdig hrdec (by rw [hf]; rfl) (by rw [he]; rfl), by simp⟩
          have hu : n.unsuffixed = some (l.radix.text ++ (negText l.neg ++ I) ++ ['.']) := by
            simp [Num.unsuffixed, hI, hnf, hne, hp.pre, hF]
          rw [assemble_text h]
          simp [Num.format, hu, hp.suffix, addSuffix, us]
      · have hFh := hFhead hfh
        have hFne : F ≠ [] := by intro e; rw [e] at hFh; simp at hFh
        have hok : ∀ b, (assemble l I false (some F) b none false).Suffixable := fun b =>
          assemble_ok hItext hIhead (fun _ => hrdec)
            (by intro f' hf'; simp at hf'; subst hf'; exact ⟨hFt, hFh⟩) (by simp)
        have hval : ∀ b, (assemble l I false (some F) b none false).value = l.value := fun b =>
          assemble_value hIdig (by rw [hf]; simpa using hFd) (by rw [he])
        cases suffix with
        | none =>
          refine ⟨_, ?_, Or.inl (hok false), fun _ => hok false, rfl, rfl, hcan _ _ _ _ _ (by simp [TailOK]) (by simp [Lit.floatForm, hf]) hFcan, hval _, ?_⟩
          · rw [assemble_text h]
            refine format_none hp.suffix ?_
            simp [Num.unsuffixed, us, hI, hnf, hne, hp.pre, hp.suffix, hF]
          · intro _; simp [assemble, Lit.floatForm, hf]
        | some sx =>
          refine ⟨_, ?_, Or.inl (hok true), fun _ => hok true, rfl, rfl, hcan _ _ _ _ _ (by simp [TailOK]) (by simp [Lit.floatForm, hf]) hFcan, hval _, by simp⟩
          have hdot := ne_dot (t := l.radix.text ++ (negText l.neg ++ I) ++ ['.']) hFt hFne
          rw [assemble_text h, format_some hp.suffix ?_ hdot]
          · simp [us]
          · simp [Num.unsuffixed, hI, hnf, hne, hp.pre, hp.suffix, hF]
    · have hfh : ∃ c ∈ f.head?, c ≠ '_' := by
        rcases hfcase with ⟨_, hc⟩ | hc
        · rw [he] at hc; simp at hc
        · exact hc
      have hFh := hFhead hfh
      have hFne : F ≠ [] := by intro e; rw [e] at hFh; simp at hFh
      obtain ⟨hm, hdt, hdne⟩ := WF.exp_text hwf _ he
      simp only at hm hdt hdne
      have hexne : ex ≠ [] := by
        rintro rfl
        have := congrArg List.length hexd
        simp [digitsOf] at this
        have h0 : (digitsOf d).length = 0 := by unfold digitsOf; omega
        exact hdne (List.length_eq_zero_iff.mp h0)
      have hFopt : ∀ f' ∈ some F, DigitText .decimal f' ∧ ∃ c ∈ f'.head?, c ≠ '_' := by
        intro f' hf'; simp at hf'; subst hf'; exact ⟨hFt, hFh⟩
      by_cases hz : ex = ['0']
      · have hs0 : s = .none ∧ digitsOf d = ['0'] := by
          subst hz
          have e : digitsOf ['0'] = ['0'] := by decide
          rw [e] at hexd
          cases s with
          | none => exact ⟨rfl, hexd.symm⟩
          | plus => simp [Sign.text] at hexd
          | minus => simp [Sign.text] at hexd
        have hexp0 : expVal l.exp = 0 := by
          rw [he]; simp only [expVal, hs0.1, hs0.2]; decide
        have hok : ∀ b, (assemble l I false (some F) b none false).Suffixable := fun b =>
          assemble_ok hItext hIhead (fun _ => hrdec) hFopt (by simp)
        have hval : ∀ b, (assemble l I false (some F) b none false).value = l.value := fun b =>
          assemble_value hIdig (by rw [hf]; simpa using hFd) (by rw [hexp0]; rfl)
        cases suffix with
        | none =>
          refine ⟨_, ?_, Or.inl (hok false), fun _ => hok false, rfl, rfl, hcan _ _ _ _ _ (by simp [TailOK]) (by simp [Lit.floatForm, hf]) hFcan, hval _, ?_⟩
          · rw [assemble_text h]
            refine format_none hp.suffix ?_
            simp [Num.unsuffixed, us, hI, hnf, hne, hp.pre, hp.suffix, hz, hF]
          · intro _; simp [assemble, Lit.floatForm, hf]
        | some sx =>
          refine ⟨_, ?_, Or.inl (hok true), fun _ => hok true, rfl, rfl, hcan _ _ _ _ _ (by simp [TailOK]) (by simp [Lit.floatForm, hf]) hFcan, hval _, by simp⟩
          have hdot := ne_dot (t := l.radix.text ++ (negText l.neg ++ I) ++ ['.']) hFt hFne
          rw [assemble_text h, format_some hp.suffix ?_ hdot]
          · simp [us]
          · simp [Num.unsuffixed, hI, hnf, hne, hp.pre, hp.suffix, hF, hz]
      · obtain ⟨E, hEp, hEd, hEt⟩ := exp_printed n.radix.grouping hdt hdne hexd
        have hEne : E ≠ [] := by
          rintro rfl
          exact hdne (by rw [← hEd]; rfl)
        have hok : ∀ a b, (assemble l I false (some F) a (some (m, s, E)) b).Suffixable := fun a b =>
          assemble_ok hItext hIhead (fun _ => hrdec) hFopt
            (by intro e he'; simp at he'; subst he'; exact ⟨hm, hEt, by rw [hEd]; exact hdne⟩)
        have hval : ∀ a b, (assemble l I false (some F) a (some (m, s, E)) b).value = l.value :=
          fun a b => assemble_value hIdig (by rw [hf]; simpa using hFd)
            (by rw [he]; simp only [expVal, hEd])
        have hsepU : ∃ a, sep = us a ++ [m] := by
          rcases hsep with e | e
          · exact ⟨false, e⟩
          · exact ⟨true, e⟩
        obtain ⟨a, hsep⟩ := hsepU
        cases suffix with
        | none =>
          refine ⟨_, ?_, Or.inl (hok a false), fun _ => hok a false, rfl, rfl, hcan _ _ _ _ _ (by simp [TailOK]) (by simp [Lit.floatForm, hf]) hFcan, hval _ _, ?_⟩
          · rw [assemble_text h]
            refine format_none hp.suffix ?_
            simp [Num.unsuffixed, us, hI, hnf, hne, hp.pre, hp.suffix, hz, hexne, hEp, hF, hsep]
          · intro _; simp [assemble, Lit.floatForm, he]
        | some sx =>
          refine ⟨_, ?_, Or.inl (hok a true), fun _ => hok a true, rfl, rfl, hcan _ _ _ _ _ (by simp [TailOK]) (by simp [Lit.floatForm, hf]) hFcan, hval _ _, by simp⟩
          have hdot := ne_dot (t := l.radix.text ++ (negText l.neg ++ I) ++ '.' :: F ++
            (us a ++ [m]) ++ s.text) hEt hEne
          rw [assemble_text h, format_some hp.suffix ?_ hdot]
          · simp [us]
          · simp [Num.unsuffixed, hI, hnf, hne, hp.pre, hp.suffix, hz, hexne, hEp, hF, hsep]

end Verif.NumLit
