import Verif.Pats.UnnestPerm

/-!
# What `eq_pat` says

Patterns judged equal stand for the same or-free patterns, if the left one lists none twice.
-/

namespace Verif.Unnest

/-- An element of a list of patterns. -/
def WFE (p : APat) : Prop := p = .rest ∨ WF p

theorem WFElems_iff {ps : List APat} : WFElems ps ↔ ∀ p ∈ ps, WFE p := by
  induction ps with
  | nil => simp [WFElems]
  | cons p ps ih => simp [WFElems, ih, WFE]

theorem WFAll_iff {ps : List APat} : WFAll ps ↔ ∀ p ∈ ps, WF p := by
  induction ps with
  | nil => simp [WFAll]
  | cons p ps ih => simp [WFAll, ih]

theorem expAny_flatMap (ps : List APat) : expAny ps = ps.flatMap exp := by
  induction ps with
  | nil => rfl
  | cons p ps ih => simp [expAny, ih]

theorem expEach_map (ps : List APat) : expEach ps = ps.map exp := by
  induction ps with
  | nil => rfl
  | cons p ps ih => simp [expEach, ih]

theorem exp_strip : ∀ r : APat, exp r.strip = exp r
  | .paren p => by rw [APat.strip, exp, exp_strip p]
  | .wild | .rest | .never | .ident .. | .leaf .. | .bind .. | .wrap .. | .slice _ | .tuple _ | .tupleStruct ..
  | .struct .. | .or _ => by rw [APat.strip]; simp

theorem WF_strip : ∀ {r : APat}, WF r → WF r.strip
  | .paren p, h => by rw [APat.strip]; exact WF_strip (by simpa [WF] using h)
  | .wild, h | .rest, h | .never, h | .ident .., h | .leaf .., h | .bind .., h | .wrap .., h | .slice _, h
  | .tuple _, h | .tupleStruct .., h | .struct .., h | .or _, h => by rw [APat.strip]; exact h; simp

theorem WFE_strip {r : APat} (h : WFE r) : WFE r.strip := by
  rcases h with rfl | h
  · exact .inl rfl
  · exact .inr (WF_strip h)

theorem WFE.wf {p : APat} (h : WFE p) (hn : p ≠ .rest) : WF p := h.resolve_left hn

theorem eqCover_iff {ls rs : List APat} : eqCover ls rs = true ↔ ∀ l ∈ ls, ∃ r ∈ rs, eqPat l r = true := by
  induction ls with
  | nil => simp [eqCover]
  | cons l ls ih => simp [eqCover, ih]

theorem eqFields_iff {fs : List (Nat × Bool)} {ls : List APat} {rf : List (Nat × Bool)} {rs : List APat} :
    eqFields fs ls rf rs = true ↔ ∀ a ∈ (fs.map (·.1)).zip ls, ∃ b ∈ (rf.map (·.1)).zip rs,
      a.1 = b.1 ∧ eqPat a.2 b.2 = true := by
  induction fs generalizing ls with
  | nil => simp [eqFields]
  | cons f fs ih => cases ls with
    | nil => simp [eqFields]
    | cons l ls =>
      rw [eqFields, Bool.and_eq_true, ih, List.any_eq_true]
      simp only [List.map_cons, List.zip_cons_cons, List.mem_cons, forall_eq_or_imp, Bool.and_eq_true, beq_iff_eq]

theorem mem_zip_snd {a : Nat × APat} {ns : List Nat} {ps : List APat} (h : a ∈ ns.zip ps) : a.2 ∈ ps :=
  (List.of_mem_zip h).2

mutual
/-- `eq_pat` says that two patterns stand for the same or-free patterns, if the left one lists none twice. -/
theorem eqPat_exp : ∀ (l r : APat), eqPat l r = true → WFE l → WFE r → (exp l).Nodup → (exp l).Perm (exp r)
  | .paren l, r, h, wl, wr, nd => by
    rw [eqPat] at h
    have wl : WF l := by simpa [WF] using wl.wf (by simp)
    rw [exp] at nd ⊢
    exact eqPat_exp l r h (.inr wl) wr nd
  | .wild, r, h, wl, wr, nd => by
    rw [eqPat] at h
    rw [← exp_strip r]
    split at h <;> try simp at h
    next e => rw [e]
  | .rest, r, h, wl, wr, nd => by
    rw [eqPat] at h
    rw [← exp_strip r]
    split at h <;> try simp at h
    next e => rw [e]
  | .never, r, h, wl, wr, nd => by simp [eqPat] at h
  | .ident .., r, h, wl, wr, nd => by
    rw [eqPat] at h
    rw [← exp_strip r]
    split at h <;> try simp at h
    next e => rw [e, h.1, h.2]
  | .leaf .., r, h, wl, wr, nd => by
    rw [eqPat] at h
    rw [← exp_strip r]
    split at h <;> try simp at h
    next e => rw [e, h.1, h.2]
  | .bind m x l, r, h, wl, wr, nd => by
    have wr := WFE_strip wr
    rw [eqPat] at h
    rw [← exp_strip r]
    split at h <;> try simp at h
    next r' e =>
      obtain ⟨⟨rfl, rfl⟩, h⟩ := h
      rw [e] at wr ⊢
      have wl : WF l := by simpa [WF] using wl.wf (by simp)
      have wr : WF r' := by simpa [WF] using wr.wf (by simp)
      rw [exp] at nd
      rw [exp, exp]
      exact (eqPat_exp l r' h (.inr wl) (.inr wr) (nodup_of_map nd)).map _
  | .wrap w l, r, h, wl, wr, nd => by
    have wr := WFE_strip wr
    rw [eqPat] at h
    rw [← exp_strip r]
    split at h <;> try simp at h
    next r' e =>
      obtain ⟨⟨rfl, _⟩, h⟩ := h
      rw [e] at wr ⊢
      have wl : WF l := by simpa [WF] using wl.wf (by simp)
      have wr : WF r' := by simpa [WF] using wr.wf (by simp)
      rw [exp] at nd
      rw [exp, exp]
      exact (eqPat_exp l r' h (.inr wl) (.inr wr) (nodup_of_map nd)).map _
  | .slice ls, r, h, wl, wr, nd => by
    have wr := WFE_strip wr
    rw [eqPat] at h
    rw [← exp_strip r]
    split at h <;> try simp at h
    next rs e =>
      rw [e] at wr ⊢
      have wl : WFElems ls := by simpa [WF] using wl.wf (by simp)
      have wr : WFElems rs := by simpa [WF] using wr.wf (by simp)
      rw [exp] at nd
      rw [exp, exp]
      exact (choices_perm (eqAll_exp ls rs h wl wr
        (choices_nodup_each (expElems_ne ls wl) (nodup_of_map nd)))).map _
  | .tuple ls, r, h, wl, wr, nd => by
    have wr := WFE_strip wr
    rw [eqPat] at h
    rw [← exp_strip r]
    split at h <;> try simp at h
    next rs e =>
      rw [e] at wr ⊢
      have wl : WFElems ls := by simpa [WF] using wl.wf (by simp)
      have wr : WFElems rs := by simpa [WF] using wr.wf (by simp)
      rw [exp] at nd
      rw [exp, exp]
      exact (choices_perm (eqAll_exp ls rs h wl wr
        (choices_nodup_each (expElems_ne ls wl) (nodup_of_map nd)))).map _
  | .tupleStruct c ls, r, h, wl, wr, nd => by
    have wr := WFE_strip wr
    rw [eqPat] at h
    rw [← exp_strip r]
    split at h <;> try simp at h
    next rs e =>
      obtain ⟨rfl, h⟩ := h
      rw [e] at wr ⊢
      have wl : WFElems ls := by simpa [WF] using wl.wf (by simp)
      have wr : WFElems rs := by simpa [WF] using wr.wf (by simp)
      rw [exp] at nd
      rw [exp, exp]
      exact (choices_perm (eqAll_exp ls rs h wl wr
        (choices_nodup_each (expElems_ne ls wl) (nodup_of_map nd)))).map _
  | .struct c lf ls d, r, h, wl, wr, nd => by
    have wr := WFE_strip wr
    rw [eqPat] at h
    rw [← exp_strip r]
    split at h <;> try simp at h
    next rf rs d' e =>
      obtain ⟨⟨⟨rfl, rfl⟩, hlen⟩, h⟩ := h
      rw [e] at wr ⊢
      have wl := wl.wf (by simp)
      have wr := wr.wf (by simp)
      rw [WF] at wl wr
      rw [exp] at nd
      have ndl := choices_nodup_each (expEach_ne ls wl.1) (nodup_of_map nd)
      rw [exp_struct _ _ _ _ wl.2.1, exp_struct _ _ _ _ wr.2.1]
      have h1 : (((lf.map (·.1)).zip ls)).map (·.1) = lf.map (·.1) := List.map_fst_zip (by simp [wl.2.1])
      refine fields_perm _ _ _ _ ?_ (by rw [h1]; exact wl.2.2) ?_
      · intro a ha
        obtain ⟨b, hb, e1, e2⟩ := eqFields_iff.1 h a ha
        refine ⟨b, hb, e1, eqMem_exp ls a.2 (mem_zip_snd ha) b.2 e2 (.inr ?_) (.inr ?_) ?_⟩
        · exact WFAll_iff.1 wl.1 _ (mem_zip_snd ha)
        · exact WFAll_iff.1 wr.1 _ (mem_zip_snd hb)
        · exact ndl _ (by rw [expEach_map]; exact List.mem_map.2 ⟨_, mem_zip_snd ha, rfl⟩)
      · simp only [List.length_zip, List.length_map]
        omega
  | .or ls, r, h, wl, wr, nd => by
    have wr := WFE_strip wr
    rw [eqPat] at h
    rw [← exp_strip r]
    split at h <;> try simp at h
    next rs e =>
      obtain ⟨hlen, h⟩ := h
      rw [e] at wr ⊢
      have wl := wl.wf (by simp)
      have wr := wr.wf (by simp)
      rw [WF] at wl wr
      rw [exp, expAny_flatMap] at nd
      rw [exp, exp, expAny_flatMap, expAny_flatMap]
      refine cover_perm exp ls rs ?_ (Nat.le_of_eq hlen.symm) (fun l hl => exp_ne l (WFAll_iff.1 wl.2 l hl)) nd
      intro l hl
      obtain ⟨r, hr, e⟩ := eqCover_iff.1 h l hl
      refine ⟨r, hr, eqMem_exp ls l hl r e (.inr (WFAll_iff.1 wl.2 l hl)) (.inr (WFAll_iff.1 wr.2 r hr)) ?_⟩
      exact (List.pairwise_flatMap.1 nd).1 l hl

theorem eqAll_exp : ∀ (ls rs : List APat), eqAll ls rs = true → WFElems ls → WFElems rs →
    (∀ l ∈ expEach ls, l.Nodup) → PermEach (expEach ls) (expEach rs)
  | [], [], _, _, _, _ => by simp [expEach, PermEach]
  | l :: ls, r :: rs, h, wl, wr, nd => by
    rw [eqAll, Bool.and_eq_true] at h
    rw [WFElems] at wl wr
    simp only [expEach, List.mem_cons, forall_eq_or_imp, PermEach] at nd ⊢
    exact ⟨eqPat_exp l r h.1 wl.1 wr.1 nd.1, eqAll_exp ls rs h.2 wl.2 wr.2 nd.2⟩
  | [], _ :: _, h, _, _, _ => by simp [eqAll] at h
  | _ :: _, [], h, _, _, _ => by simp [eqAll] at h

theorem eqMem_exp : ∀ (ls : List APat), ∀ l ∈ ls, ∀ r, eqPat l r = true → WFE l → WFE r → (exp l).Nodup →
    (exp l).Perm (exp r)
  | [], l, hl, _, _, _, _, _ => by simp at hl
  | l' :: ls, l, hl, r, h, wl, wr, nd => by
    by_cases e : l = l'
    · exact e ▸ eqPat_exp l' r (e ▸ h) (e ▸ wl) wr (e ▸ nd)
    · exact eqMem_exp ls l ((List.mem_cons.1 hl).resolve_left e) r h wl wr nd
end

end Verif.Unnest
