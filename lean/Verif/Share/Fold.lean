import Verif.Share.Scan

/-!
# The second scan
-/

namespace Verif.Share

variable {nm : Id → Name} {out : Name → Id} {first : Block} {others : List Block}

/-- If the variable was declared in the middle of the block, its name has been declared again at the end. -/
def GoodUse (nm : Id → Name) (n m : Nat) (b : Block) (o : Nat) (u : Id) : Prop :=
  ∀ (a : Nat) (s : Stmt), b.stmts[a]? = some s → u ∈ s.binders → n ≤ a → a + m < b.stmts.length →
    ∃ (a' : Nat) (s' : Stmt), b.stmts.length - m ≤ a' ∧ a' < b.stmts.length - o ∧ b.stmts[a']? = some s' ∧
      nm u ∈ s'.binders.map nm

/-- The same for a statement of all blocks. -/
def GoodStmt (nm : Id → Name) (first : Block) (others : List Block) (n m o : Nat) : Prop :=
  ∀ b ∈ first :: others, ∀ s, back b.stmts o = some s → ∀ u ∈ s.code.uses, GoodUse nm n m b o u

/-- The same for the expression at the end. -/
def GoodTail (nm : Id → Name) (first : Block) (others : List Block) (n m : Nat) : Prop :=
  ∀ b ∈ first :: others, ∀ c, b.tail = some c → ∀ u ∈ c.uses, GoodUse nm n m b 0 u

/-- Corresponding lists of variables in all blocks. -/
structure Rel (nm : Id → Name) (out : Name → Id) (first : Block) (others : List Block) (o : Nat) (L : Locals)
    (us : List Id) (get : Nat → List Id) : Prop where
  first : ∀ u ∈ us, Resolves nm out first.stmts (first.stmts.length - o) u
  others : ∀ (j : Nat) (b : Block), others[j]? = some b → (get j).length = us.length ∧
    (∀ u ∈ get j, Resolves nm out b.stmts (b.stmts.length - o) u) ∧
    ∀ (k : Nat) u v, (get j)[k]? = some u → us[k]? = some v → u = v ∨ L u = some v

section
variable (hD : Distinct out (first :: others))
include hD

theorem rel_good {n q m k o : Nat} {L : Locals} (F : Folded nm first others n q k o m L) (hq : q < others.length)
    (hk : ∀ b ∈ others, k ≤ b.stmts.length) (hk0 : k + n ≤ first.stmts.length) (hmk : m ≤ k)
    (hT : ∀ o', o < o' → o' ≤ m → TextE nm first others o') {us : List Id} {get : Nat → List Id}
    (R : Rel nm out first others o L us get) :
    (∀ u ∈ us, GoodUse nm n m first o u) ∧
    ∀ (j : Nat) (b : Block), others[j]? = some b → ∀ u ∈ get j, GoodUse nm n m b o u := by
  have use : ∀ (i : Nat) u0, us[i]? = some u0 → Use (nm := nm) (out := out) (first := first) (others := others) o L u0 := by
    intro i u0 hi
    refine ⟨R.first u0 (List.mem_of_getElem? hi), fun j b hb => ?_⟩
    obtain ⟨h1, h2, h3⟩ := R.others j b hb
    have hlt : i < (get j).length := by rw [h1]; exact (List.getElem?_eq_some_iff.mp hi).1
    exact ⟨(get j)[i], h2 _ (List.getElem_mem hlt), h3 i _ u0 (List.getElem?_eq_getElem hlt) hi⟩
  refine ⟨fun u hu a s h hus hn hm => ?_, fun j b hb u hu a s h hus hn hm => ?_⟩
  · obtain ⟨i, hi, rfl⟩ := List.getElem_of_mem hu
    exact (no_middle hD F hq hk (use i _ (List.getElem?_eq_getElem hi)) h hus hn hm).elim
  · obtain ⟨h1, h2, h3⟩ := R.others j b hb
    obtain ⟨i, hi, rfl⟩ := List.getElem_of_mem hu
    have hi' : i < us.length := by omega
    exact no_middle' hD F hq hk hk0 hmk (use i _ (List.getElem?_eq_getElem hi')) hT hb
      (h3 i _ _ (List.getElem?_eq_getElem hi) (List.getElem?_eq_getElem hi')) h hus hn hm

/-- What the second scan says. -/
structure Done (n q k o init m : Nat) (L : Locals) : Prop where
  le : m ≤ init
  or : m = init ∨ m < o
  folded : Folded nm first others n q k 0 m L
  text : ∀ o', 0 < o' → o' ≤ m → TextE nm first others o'
  good : ∀ o', 0 < o' → o' ≤ o → o' ≤ m → GoodStmt nm first others n m o'

theorem foldEnd_spec {n q k : Nat} (hR : ∀ b ∈ first :: others, Resolved nm out b) (hq : q < others.length)
    (hk : ∀ b ∈ others, k ≤ b.stmts.length) (hk0 : k + n ≤ first.stmts.length) :
    ∀ (ss : List Stmt) (o init : Nat) (L : Locals), ss.length = o → first.stmts.drop (first.stmts.length - o) = ss →
    o ≤ init → init ≤ k → Folded nm first others n q k o init L →
    (∀ o', o < o' → o' ≤ init → TextE nm first others o') →
    Done (nm := nm) (first := first) (others := others) n q k o init (foldEnd nm others ss o init L).1
      (foldEnd nm others ss o init L).2
  | [], o, init, L, hl, hd, ho, hi, F, hT => by
    simp at hl
    subst hl
    simp only [foldEnd]
    exact ⟨Nat.le_refl _, .inl rfl, F, hT, fun o' h1 h2 => by omega⟩
  | s :: ss, o, init, L, hl, hd, ho, hi, F, hT => by
    have ho0 : 0 < o := by simp at hl; omega
    have hs : back first.stmts o = some s := by
      have := congrArg (·[0]?) hd
      refine back_iff.mpr ⟨by omega, ?_⟩
      simpa using this
    have hd' : first.stmts.drop (first.stmts.length - (o - 1)) = ss := by
      have := congrArg List.tail hd
      simp at this
      rw [← this]; congr 1; omega
    have hl' : ss.length = o - 1 := by simp at hl; omega
    have hne : (others.map fun b => back b.stmts o) ≠ [] := by
      intro h; simp at h; subst h; simp at hq
    obtain ⟨q', e, hnames⟩ := eqStmts_spec (nm := nm) (L := L) (s := s) hne
    simp only [foldEnd]
    generalize eqStmts nm L s (others.map fun b => back b.stmts o) = R at e hnames
    obtain ⟨r, L'⟩ := R
    have hget : ∀ {j : Nat} {t : Stmt}, (others.map fun b => back b.stmts o)[j]? = some (some t) →
        ∃ b, others[j]? = some b ∧ back b.stmts o = some t := by
      intro j t h
      simpa only [List.getElem?_map, Option.map_eq_some_iff] using h
    have hname : NameInv nm L' := by
      by_cases hqr : r = true ∨ 0 < q'
      · exact e.name F.name (hnames hqr)
      · intro l v hlv
        rcases e.pairs l v hlv with h | ⟨j, _, h, _⟩
        · exact F.name _ _ h
        · omega
    have hpair : ∀ l v, L' l = some v → PairS first others n q l v ∨ PairE nm first others k (o - 1) l v := by
      intro l v hlv
      rcases e.pairs l v hlv with h | ⟨j, t, h1, h2, h3, h4⟩
      · rcases F.pair l v h with h | ⟨j, b, o', s', t', p1, p2, p3, p4, p5, p6, p7⟩
        · exact .inl h
        · exact .inr ⟨j, b, o', s', t', p1, p2, p3, p4, p5, by omega, p7⟩
      · obtain ⟨b, hb, hb'⟩ := hget h2
        exact .inr ⟨j, b, o, t, s, hb, hb', hs, h3, h4, by omega, by omega, hnames (.inr (by omega))⟩
    -- variables of other statements of the second block are not touched
    have hother : ∀ b o' s' l, others[0]? = some b → o' ≠ o → back b.stmts o' = some s' → l ∈ s'.binders → L' l = L l := by
      intro b o' s' l hb hne h1 h2
      refine e.other l fun j t ht hm => ?_
      obtain ⟨b', hb', ht'⟩ := hget ht
      obtain ⟨w1, w2⟩ := back_iff.mp h1
      obtain ⟨w3, w4⟩ := back_iff.mp ht'
      obtain ⟨e1, e2⟩ := same_other hD hb hb' w2 w4 h2 hm
      subst e1
      rw [hb] at hb'; cases hb'
      omega
    cases r with
    | false =>
      simp only [Bool.false_eq_true, if_false]
      have F' : Folded nm first others n q k (o - 1) (o - 1) (L'.erase (forgotten others init o)) := by
        refine ⟨fun l v h => ?_, fun l v h => ?_, fun b o' s' l hb h1 h2 h3 h4 => .inl ?_⟩
        · unfold Locals.erase at h
          split at h
          · exact nomatch h
          · exact hname _ _ h
        · unfold Locals.erase at h
          split at h
          · exact nomatch h
          · exact hpair _ _ h
        · unfold Locals.erase
          by_cases hc : (forgotten others init o).contains l = true
          · rw [if_pos hc]
          · rw [if_neg hc]
            obtain ⟨w1, w2⟩ := back_iff.mp h3
            by_cases hin : o' ≤ init
            · refine (hc ?_).elim
              rw [List.contains_iff_mem]
              unfold forgotten
              cases others with
              | nil => simp at hb
              | cons b' rest =>
                simp at hb; subst hb
                simp only [List.mem_flatMap]
                refine ⟨s', ?_, h4⟩
                have hib : init ≤ b'.stmts.length := Nat.le_trans hi (hk b' (by simp))
                apply List.mem_of_getElem? (i := init - o')
                rw [List.getElem?_take_of_lt (by omega), List.getElem?_drop]
                have : b'.stmts.length - init + (init - o') = b'.stmts.length - o' := by omega
                rw [this]; exact w2
            · rw [hother b o' s' l hb (by omega) h3 h4]
              rcases F.head b o' s' l hb (by omega) h2 h3 h4 with h | ⟨h, _⟩
              · exact h
              · exact (hin h).elim
      have ih := foldEnd_spec hR hq hk hk0 ss (o - 1) (o - 1) _ hl' hd' (Nat.le_refl _) (by omega) F'
        (fun o' h1 h2 => by omega)
      have := ih.le
      exact ⟨by omega, .inr (by omega), ih.folded, ih.text, fun o' h1 h2 h3 => ih.good o' h1 (by omega) h3⟩
    | true =>
      simp only [if_true]
      have F' : Folded nm first others n q k (o - 1) init L' := by
        refine ⟨hname, hpair, fun b o' s' l hb h1 h2 h3 h4 => ?_⟩
        by_cases hoo : o' = o
        · subst hoo
          obtain ⟨r, h5, h6⟩ := e.head rfl s' (by rw [List.getElem?_map, hb]; simp [h3]) l h4
          exact .inr ⟨ho, s, r, hs, h5, h6⟩
        · rw [hother b o' s' l hb hoo h3 h4]
          exact F.head b o' s' l hb (by omega) h2 h3 h4
      have htext : TextE nm first others o := by
        intro b hb
        obtain ⟨j, hj, hjb⟩ := List.getElem_of_mem hb
        obtain ⟨t, h1, h2, _⟩ := e.text rfl F.name (hnames (.inl rfl)) j (back b.stmts o)
          (by rw [List.getElem?_map, List.getElem?_eq_getElem hj, hjb]; rfl)
        exact ⟨t, s, h1, hs, h2⟩
      have hT' : ∀ o', o - 1 < o' → o' ≤ init → TextE nm first others o' := by
        intro o' h1 h2
        by_cases hoo : o' = o
        · subst hoo; exact htext
        · exact hT o' (by omega) h2
      have ih := foldEnd_spec hR hq hk hk0 ss (o - 1) init L' hl' hd' (by omega) hi F' hT'
      refine ⟨ih.le, ?_, ih.folded, ih.text, fun o' h1 h2 h3 => ?_⟩
      · rcases ih.or with h | h
        · exact .inl h
        · exact .inr (by omega)
      · by_cases hoo : o' ≤ o - 1
        · exact ih.good o' h1 hoo h3
        · have hoo : o' = o := by omega
          subst hoo
          have hm : (foldEnd nm others ss (o' - 1) init L').1 = init := by
            rcases ih.or with h | h
            · exact h
            · omega
          rw [hm]
          obtain ⟨w1, w2⟩ := back_iff.mp hs
          -- a variable that this very statement declares is not used in it
          have notSelf : ∀ v ∈ s.code.uses, v ∉ s.binders := by
            intro v hv hv'
            rcases (hR first (by simp)).1 _ s v w2 hv with ⟨a, s', h0, h4, h5, _⟩ | ⟨h4, _⟩
            · have := same_first hD h4 w2 h5 hv'; omega
            · exact hD.outer 0 first _ s v (nm v) rfl w2 hv' h4.symm
          have R : Rel nm out first others o' L s.code.uses
              (fun j => ((others[j]?.bind fun b => back b.stmts o').map fun t => t.code.uses).getD []) := by
            refine ⟨fun u hu => (hR first (by simp)).1 _ s u w2 hu, fun j b hb => ?_⟩
            obtain ⟨t, h4, h5, h6⟩ := e.text rfl F.name (hnames (.inl rfl)) j (back b.stmts o')
              (by rw [List.getElem?_map, hb]; rfl)
            simp only [hb, Option.bind_some, h4, Option.map_some, Option.getD_some]
            refine ⟨h6, fun u hu => ?_, fun i u v hu hv => ?_⟩
            · obtain ⟨w3, w4⟩ := back_iff.mp h4
              exact (hR b (List.mem_cons_of_mem _ (List.mem_of_getElem? hb))).1 _ t u w4 hu
            · rcases e.rel rfl j t (by rw [List.getElem?_map, hb]; simp [h4]) i u v hu hv with h | h | h
              · exact .inl h
              · exact .inr h
              · exact (notSelf v (List.mem_of_getElem? hv) h).elim
          obtain ⟨g1, g2⟩ := rel_good hD F hq hk hk0 hi hT R
          intro b hb t ht u hu
          rcases List.mem_cons.mp hb with hb | hb
          · subst hb
            rw [hs] at ht; cases ht
            exact g1 u hu
          · obtain ⟨j, hj, hjb⟩ := List.getElem_of_mem hb
            have hjb' : others[j]? = some b := by rw [List.getElem?_eq_getElem hj, hjb]
            exact g2 j b hjb' u (by simpa only [hjb', Option.bind_some, ht, Option.map_some, Option.getD_some] using hu)
end

end Verif.Share
