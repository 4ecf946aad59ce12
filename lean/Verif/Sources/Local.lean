import Verif.Sources.Lemmas

/-! The preparation of one source. -/

namespace Verif.Sources

open Model

/-- The directory holds these files, but maybe not those that select a toolchain. -/
def Near (e : Dir) (l : List (String × Nat)) : Prop :=
  ∀ f, ¬ Spec.Toolchain f → e.files f = filesOf l f

/-- What holds between runs about the directory of a source. -/
def Good (w : World) (s : Disk) : Source → Prop
  | .cratesIo n v => ∀ e, s.dir (dirOf (.cratesIo n v)) = some e →
      s.arch (dirOf (.cratesIo n v)) = true ∧ Near e (w.crate n v)
  | .git n u c => ∀ e, s.dir (dirOf (.git n u c)) = some e → e.origin = some u
  | .path _ _ => True

/-- Only the directory of a source matters. -/
theorem Good.congr {w : World} {s t : Disk} {src : Source} (h : Good w s src)
    (hd : t.dir (dirOf src) = s.dir (dirOf src)) (ha : t.arch (dirOf src) = s.arch (dirOf src)) :
    Good w t src := by
  cases src with
  | cratesIo n v => intro e he; rw [ha]; exact h e (hd ▸ he)
  | git n u c => intro e he; exact h e (hd ▸ he)
  | path n p => trivial

/-- Related sources want the same of their directory. -/
theorem Good.related {w : World} {s : Disk} {src src' : Source} (h : Good w s src)
    (hr : Spec.Related src src') (hd : dirOf src' = dirOf src) : Good w s src' := by
  cases src with
  | cratesIo n v =>
    cases src' with
    | cratesIo n' v' =>
      obtain ⟨rfl, rfl⟩ := hr
      exact h
    | git n' u c => cases hr
    | path n' p => trivial
  | git n u c =>
    cases src' with
    | cratesIo n' v' => cases hr
    | git n' u' c' =>
      cases hr
      intro e he
      exact h e (hd ▸ he)
    | path n' p => trivial
  | path n p =>
    cases src' with
    | cratesIo n' v' => cases hr
    | git n' u' c' => cases hr
    | path n' p => trivial

/-- The files that select a toolchain. -/
abbrev chain : List String := ["rust-toolchain", "rust-toolchain.toml"]

theorem mem_chain (f : String) : f ∈ chain ↔ Spec.Toolchain f := by
  simp [chain, Spec.Toolchain]

theorem prepOps_eq (w : World) (s : Disk) (src : Source) :
    prepOps w s src = extractOps w s src ++ chain.map (.rm (dirOf src)) := rfl

/-- After the files that select a toolchain are removed, the directory is as it should be. -/
theorem exactly_of {g : Files} {o : Option String} {l : List (String × Nat)} {e : Dir} (hn : Near e l)
    (h1 : ∀ f ∈ chain, g f = none) (h2 : ∀ f, f ∉ chain → g f = e.files f) :
    Spec.Exactly ⟨o, g⟩ l := by
  intro f x
  by_cases hf : f ∈ chain
  · have := (mem_chain f).1 hf
    simp only [h1 f hf]
    constructor
    · intro h; cases h
    · exact fun h => absurd this h.2
  · have hf' := fun h => hf ((mem_chain f).2 h)
    simp only [h2 f hf]
    rw [hn f hf', filesOf_iff]
    exact ⟨fun h => ⟨h, hf'⟩, fun h => h.1⟩

/-- Removing some of the files that select a toolchain keeps the condition. -/
theorem good_removes {w : World} {s : Disk} {src : Source} (h : Good w s src) (fs : List String)
    (hfs : ∀ f ∈ fs, f ∈ chain) : Good w (applyAll w s (fs.map (.rm (dirOf src)))) src := by
  cases hd : s.dir (dirOf src) with
  | none => rw [removes_none w fs s hd]; exact h
  | some e =>
    obtain ⟨g, g1, g2, g3, g4⟩ := removes w fs s e hd
    cases src with
    | cratesIo n v =>
      intro e' he'
      rw [g1] at he'
      cases he'
      obtain ⟨ha, hn⟩ := h e hd
      refine ⟨g4.trans ha, fun f hf => ?_⟩
      have : f ∉ fs := fun hm => hf ((mem_chain f).1 (hfs f hm))
      exact (g3 f this).trans (hn f hf)
    | git n u c =>
      intro e' he'
      rw [g1] at he'
      cases he'
      exact h e hd
    | path n p => trivial

/-- The archive and the directory of a version after unpacking. -/
theorem unpacked {w : World} {s : Disk} {n v : String} (hd : s.dir (dirOf (.cratesIo n v)) = none)
    (l : List (String × Nat)) (hl : l ≠ []) :
    (applyAll w s (.create (dirOf (.cratesIo n v)) :: .fetch (dirOf (.cratesIo n v)) ::
        l.map fun p => .extract (dirOf (.cratesIo n v)) p.1 p.2)).dir (dirOf (.cratesIo n v)) =
        some ⟨none, filesOf l⟩ ∧
      (applyAll w s (.create (dirOf (.cratesIo n v)) :: .fetch (dirOf (.cratesIo n v)) ::
        l.map fun p => .extract (dirOf (.cratesIo n v)) p.1 p.2)).arch (dirOf (.cratesIo n v)) = true := by
  have h := unpack w (d := dirOf (.cratesIo n v)) l hl (apply w s (.create (dirOf (.cratesIo n v)))) hd
  refine ⟨h.1, h.2.trans (put_same ..)⟩

/-- A source after its preparation. -/
theorem finished {w : World} {s : Disk} {src : Source} (h : Good w s src)
    (hc : ∀ n v, src = .cratesIo n v → w.crate n v ≠ [])
    (hg : ∀ n u c, src = .git n u c → w.repo u c ≠ none) :
    (∃ e, (applyAll w s (prepOps w s src)).dir (dirOf src) = some e ∧ Spec.Right w e src) ∧
      Good w (applyAll w s (prepOps w s src)) src := by
  rw [prepOps_eq, applyAll_append]
  have key : Good w (applyAll w s (extractOps w s src)) src ∧
      ∃ e l, (applyAll w s (extractOps w s src)).dir (dirOf src) = some e ∧ Near e l ∧
        ∀ e', Spec.Exactly e' l → Spec.Right w e' src := by
    cases src with
    | cratesIo n v =>
      simp only [extractOps]
      by_cases hn : (!s.arch (n ++ "-" ++ v) || (s.dir (n ++ "-" ++ v)).isNone) = true
      · rw [if_pos hn]
        have hd : s.dir (dirOf (.cratesIo n v)) = none := by
          cases hx : s.dir (dirOf (.cratesIo n v)) with
          | none => rfl
          | some e =>
            have ha := (h e hx).1
            simp only [dirOf] at hx ha
            simp [hx, ha] at hn
        have hu := unpacked (w := w) hd (w.crate n v) (hc n v rfl)
        refine ⟨?_, ⟨none, filesOf (w.crate n v)⟩, w.crate n v, hu.1, fun _ _ => rfl, fun _ h => h⟩
        intro e he
        refine ⟨hu.2, ?_⟩
        have := hu.1.symm.trans he
        cases this
        exact fun _ _ => rfl
      · rw [if_neg hn]
        refine ⟨h, ?_⟩
        cases hx : s.dir (n ++ "-" ++ v) with
        | none => simp [hx] at hn
        | some e => exact ⟨e, w.crate n v, hx, (h e hx).2, fun _ h => h⟩
    | git n u c =>
      have hrepo := hg n u c rfl
      cases hl : w.repo u c with
      | none => exact absurd hl hrepo
      | some l =>
        have hco : ∀ (t : Disk) fs, t.dir (n ++ "-git") = some ⟨some u, fs⟩ →
            (gitCheckout w t (n ++ "-git") c).dir (n ++ "-git") = some ⟨some u, filesOf l⟩ := by
          intro t fs ht
          simp only [gitCheckout, ht, hl]
          exact put_same ..
        have hdir : (applyAll w s (extractOps w s (.git n u c))).dir (dirOf (.git n u c)) =
            some ⟨some u, filesOf l⟩ := by
          simp only [extractOps]
          cases hx : s.dir (n ++ "-git") with
          | none =>
            simp only [Option.isNone_none, if_true]
            exact hco _ _ (put_same ..)
          | some e =>
            simp only [Option.isNone_some, Bool.false_eq_true, if_false]
            have ho : e.origin = some u := h e hx
            have : s.dir (n ++ "-git") = some ⟨some u, e.files⟩ := by rw [hx, ← ho]
            exact hco _ _ this
        refine ⟨?_, _, l, hdir, fun _ _ => rfl, fun e' he' => ⟨l, hl, he'⟩⟩
        intro e he
        rw [hdir] at he
        cases he
        rfl
    | path n p =>
      refine ⟨trivial, ⟨none, filesOf (w.localDir p)⟩, w.localDir p, ?_, fun _ _ => rfl, fun _ h => h⟩
      simp only [extractOps]
      rw [applyAll_append]
      generalize applyAll w s (if (s.dir n).isSome = true then [Op.rmdir n] else []) = t
      have := writes w .copy (fun _ _ _ _ => rfl) (w.localDir p) (apply w t (.mkdir n)) none
        (fun _ => none) (put_same ..)
      exact this.1
  obtain ⟨k1, e, l, k2, k3, k4⟩ := key
  refine ⟨?_, good_removes k1 chain fun _ h => h⟩
  obtain ⟨g, g1, g2, g3, -⟩ := removes w chain _ e k2
  exact ⟨_, g1, k4 _ (exactly_of k3 g2 g3)⟩

/-- A run was interrupted between two files of an archive. -/
def Torn : Option (List Op × List Op) → Prop
  | some (a, b) => (∃ d f x, a.getLast? = some (.extract d f x)) ∧ ∃ d f x, b.head? = some (.extract d f x)
  | none => False

/-- A prefix of the steps of a source, not ending between two files of an archive, keeps the
condition. -/
theorem good_take {w : World} {s : Disk} {src : Source} (h : Good w s src) (k : Nat)
    (ht : ¬ Torn (some ((prepOps w s src).take k, (prepOps w s src).drop k))) :
    Good w (applyAll w s ((prepOps w s src).take k)) src := by
  by_cases hk : k ≤ (extractOps w s src).length
  · have e1 : (prepOps w s src).take k = (extractOps w s src).take k := by
      rw [prepOps, List.take_append_of_le_length hk]
    have e2 : (prepOps w s src).drop k = (extractOps w s src).drop k ++ chain.map (.rm (dirOf src)) := by
      rw [prepOps_eq, List.drop_append_of_le_length hk]
    rw [e1, e2] at ht
    rw [e1]
    clear e1 e2
    cases src with
    | cratesIo n v =>
      simp only [extractOps] at ht hk ⊢
      by_cases hn : (!s.arch (n ++ "-" ++ v) || (s.dir (n ++ "-" ++ v)).isNone) = true
      · rw [if_pos hn] at ht hk ⊢
        have hd : s.dir (dirOf (.cratesIo n v)) = none := by
          cases hx : s.dir (dirOf (.cratesIo n v)) with
          | none => rfl
          | some e =>
            have ha := (h e hx).1
            simp only [dirOf] at hx ha
            simp [hx, ha] at hn
        match k with
        | 0 => exact h
        | 1 =>
          intro e he
          have : s.dir (dirOf (.cratesIo n v)) = some e := he
          rw [hd] at this
          cases this
        | j + 2 =>
          simp only [List.take_succ_cons, List.drop_succ_cons] at ht ⊢
          rw [← List.map_take]
          by_cases hj : j = 0
          · subst hj
            intro e he
            have : s.dir (dirOf (.cratesIo n v)) = some e := he
            rw [hd] at this
            cases this
          · by_cases hj' : (w.crate n v).length ≤ j
            · rw [List.take_of_length_le hj']
              have hne : w.crate n v ≠ [] ∨ w.crate n v = [] := by
                by_cases hq : w.crate n v = []
                · exact .inr hq
                · exact .inl hq
              rcases hne with hne | hne
              · have hu := unpacked (w := w) hd (w.crate n v) hne
                intro e he
                have := hu.1.symm.trans he
                cases this
                exact ⟨hu.2, fun _ _ => rfl⟩
              · rw [hne]
                intro e he
                have : s.dir (dirOf (.cratesIo n v)) = some e := he
                rw [hd] at this
                cases this
            · exfalso
              apply ht
              rw [← List.map_take, ← List.map_drop]
              obtain ⟨i, rfl⟩ : ∃ i, j = i + 1 := ⟨j - 1, by omega⟩
              have hlt : i + 1 < (w.crate n v).length := by omega
              refine ⟨⟨n ++ "-" ++ v, ((w.crate n v)[i]'(by omega)).1, ((w.crate n v)[i]'(by omega)).2, ?_⟩,
                ⟨n ++ "-" ++ v, ((w.crate n v)[i + 1]'hlt).1, ((w.crate n v)[i + 1]'hlt).2, ?_⟩⟩
              · generalize n ++ "-" ++ v = d
                rw [List.take_succ_eq_append_getElem (by omega)]
                simp only [List.map_append, List.map_cons, List.map_nil, ← List.cons_append,
                  List.getLast?_append, List.getLast?_singleton, Option.or_some, Option.getD_some, Option.some_or]
              · generalize n ++ "-" ++ v = d
                rw [List.drop_eq_getElem_cons hlt]
                rfl
      · rw [if_neg hn] at ht hk ⊢
        have : k = 0 := by simpa using hk
        subst this
        exact h
    | git n u c =>
      intro e he
      have hco : ∀ (t : Disk), (∀ e, t.dir (n ++ "-git") = some e → e.origin = some u) →
          ∀ e, (gitCheckout w t (n ++ "-git") c).dir (n ++ "-git") = some e → e.origin = some u := by
        intro t htt e1 hq
        simp only [gitCheckout] at hq
        split at hq
        · rename_i url fs hfs
          have := htt _ hfs
          simp only [Option.some.injEq] at this
          subst this
          split at hq <;> simp only at hq
          · rw [put_same] at hq; cases hq; rfl
          · rw [put_same] at hq; cases hq; rfl
        · exact htt e1 hq
      simp only [extractOps] at he hk
      cases hx : s.dir (n ++ "-git") with
      | none =>
        simp only [hx, Option.isNone_none, if_true] at he hk
        have hcl : ∀ e, (apply w s (.clone (n ++ "-git") u)).dir (n ++ "-git") = some e →
            e.origin = some u := by
          intro e he
          simp only [apply] at he
          rw [put_same] at he
          cases he
          rfl
        match k with
        | 0 => exact h e he
        | 1 => exact hcl e he
        | 2 => exact hco _ hcl e he
        | k + 3 => simp at hk
      | some e0 =>
        simp only [hx, Option.isNone_some, Bool.false_eq_true, if_false] at he hk
        match k with
        | 0 => exact h e he
        | 1 => exact hco s h e he
        | k + 2 => simp at hk
    | path n p => trivial
  · have hk' : (extractOps w s src).length ≤ k := by omega
    have hfull : Good w (applyAll w s (extractOps w s src)) src := by
      have := good_take h (extractOps w s src).length (by
        rw [prepOps_eq, List.drop_append_of_le_length (Nat.le_refl _)]
        simp [Torn])
      rw [prepOps, List.take_append_of_le_length (Nat.le_refl _), List.take_length] at this
      exact this
    rw [prepOps_eq, List.take_append, List.take_of_length_le hk', applyAll_append, ← List.map_take]
    exact good_removes hfull _ fun f hf => List.mem_of_mem_take hf
termination_by k
decreasing_by omega

end Verif.Sources
