import Verif.Share.Eq

/-!
# The invariants of both scans
-/

namespace Verif.Share

variable (nm : Id → Name) (out : Name → Id) (first : Block) (others : List Block)

/-- A pair from the first scan, which stopped at statement `i` and block `q`. -/
def PairS (i q : Nat) (l r : Id) : Prop :=
  ∃ (j : Nat) (b : Block) (a : Nat) (s t : Stmt), others[j]? = some b ∧ b.stmts[a]? = some s ∧ first.stmts[a]? = some t ∧
    l ∈ s.binders ∧ r ∈ t.binders ∧ (a < i ∨ (a = i ∧ j < q))

/-- A pair from the second scan, which is at the offset `o`. -/
def PairE (m o : Nat) (l r : Id) : Prop :=
  ∃ (j : Nat) (b : Block) (o' : Nat) (s t : Stmt), others[j]? = some b ∧ back b.stmts o' = some s ∧
    back first.stmts o' = some t ∧ l ∈ s.binders ∧ r ∈ t.binders ∧ o < o' ∧ o' ≤ m ∧
    NamesOk nm t (others.map fun b => back b.stmts o')

/-- The same text in all blocks, from the start. -/
def TextS (a : Nat) : Prop := ∀ b ∈ others, ∃ s t, b.stmts[a]? = some s ∧ first.stmts[a]? = some t ∧ s.text nm = t.text nm

/-- The same text in all blocks, from the end. -/
def TextE (o : Nat) : Prop :=
  ∀ b ∈ others, ∃ s t, back b.stmts o = some s ∧ back first.stmts o = some t ∧ s.text nm = t.text nm

theorem back_iff {ss : List Stmt} {o : Nat} {s : Stmt} : back ss o = some s ↔ o ≤ ss.length ∧ ss[ss.length - o]? = some s := by
  unfold back
  by_cases h : o ≤ ss.length
  · simp [h]
  · simp [h]

/-- The first scan. -/
structure Started (fa : Facts) (cond : List Id) (i : Nat) (L : Locals) : Prop where
  le : i ≤ first.stmts.length
  text : ∀ a, a < i → TextS nm first others a
  calm : ∀ a t, a < i → first.stmts[a]? = some t → t.binders.any fa.ordered = false ∧ modifies fa cond t = false
  name : NameInv nm L
  pair : ∃ q, q < others.length ∧ ∀ l r, L l = some r → PairS first others i q l r

theorem scanStart_spec {fa : Facts} {cond : List Id} (ho : others ≠ []) : ∀ (ss : List Stmt) (i : Nat) (L : Locals),
    first.stmts.drop i = ss → i ≤ first.stmts.length →
    (∀ a, a < i → TextS nm first others a) →
    (∀ a t, a < i → first.stmts[a]? = some t → t.binders.any fa.ordered = false ∧ modifies fa cond t = false) →
    NameInv nm L → (∀ l r, L l = some r → PairS first others i 0 l r) →
    Started nm first others fa cond (scanStart fa nm cond others ss i L).i (scanStart fa nm cond others ss i L).locals
  | [], i, L, hd, hl, ht, hc, hn, hp => by
    simp only [scanStart]
    exact ⟨hl, ht, hc, hn, 0, List.length_pos_iff.mpr ho, hp⟩
  | s :: ss, i, L, hd, hl, ht, hc, hn, hp => by
    have hs : first.stmts[i]? = some s := by
      have := congrArg (·[0]?) hd
      simpa using this
    have hd' : first.stmts.drop (i + 1) = ss := by
      have := congrArg List.tail hd
      simpa using this
    have stop : Started nm first others fa cond i L := ⟨hl, ht, hc, hn, 0, List.length_pos_iff.mpr ho, hp⟩
    simp only [scanStart]
    by_cases h1 : s.binders.any fa.ordered = true
    · rw [if_pos h1]; exact stop
    · rw [if_neg h1]
      by_cases h2 : modifies fa cond s = true
      · rw [if_pos h2]; exact stop
      · rw [if_neg h2]
        obtain ⟨q, e, hnames⟩ := eqStmts_spec (nm := nm) (L := L) (s := s) (os := others.map fun b => b.stmts[i]?)
          (by simpa using ho)
        generalize eqStmts nm L s (others.map fun b => b.stmts[i]?) = R at e hnames
        obtain ⟨r, L'⟩ := R
        have hname : NameInv nm L' := by
          by_cases hq : r = true ∨ 0 < q
          · exact e.name hn (hnames hq)
          · intro l v hlv
            rcases e.pairs l v hlv with h | ⟨j, _, h, _⟩
            · exact hn _ _ h
            · omega
        have hpair : ∀ q', (r = false → q' = q) → (r = true → True) → ∀ l v, L' l = some v →
            PairS first others i q' l v ∨ (r = true ∧ PairS first others (i + 1) 0 l v) := by
          intro q' hq' _ l v hlv
          rcases e.pairs l v hlv with h | ⟨j, t, h1, h2, h3, h4⟩
          · obtain ⟨j, b, a, s', t', h1, h2, h3, h4, h5, h6⟩ := hp l v h
            exact .inl ⟨j, b, a, s', t', h1, h2, h3, h4, h5, by omega⟩
          · simp only [List.getElem?_map, Option.map_eq_some_iff] at h2
            obtain ⟨b, hb, hb'⟩ := h2
            cases r with
            | true => exact .inr ⟨rfl, j, b, i, t, s, hb, hb', hs, h3, h4, by omega⟩
            | false => exact .inl ⟨j, b, i, t, s, hb, hb', hs, h3, h4, by have := hq' rfl; omega⟩
        simp only
        cases r with
        | false =>
          simp only [Bool.false_eq_true, if_false]
          refine ⟨hl, ht, hc, hname, q, by simpa using e.stop rfl, fun l v hlv => ?_⟩
          rcases hpair q (fun _ => rfl) (fun _ => trivial) l v hlv with h | h
          · exact h
          · exact nomatch h.1
        | true =>
          simp only [if_true]
          refine scanStart_spec ho ss (i + 1) L' hd' ?_ (fun a ha => ?_) (fun a t ha hat => ?_) hname fun l v hlv => ?_
          · have := (List.getElem?_eq_some_iff.mp hs).1; omega
          · by_cases hai : a < i
            · exact ht a hai
            · have : a = i := by omega
              subst this
              intro b hb
              obtain ⟨j, hj, hjb⟩ := List.getElem_of_mem hb
              obtain ⟨t, h1, h2, _⟩ := e.text rfl hn (hnames (.inl rfl)) j (b.stmts[a]?)
                (by rw [List.getElem?_map, List.getElem?_eq_getElem hj, hjb]; rfl)
              exact ⟨t, s, h1, hs, h2⟩
          · by_cases hai : a < i
            · exact hc a t hai hat
            · have : a = i := by omega
              subst this
              rw [hs] at hat; cases hat
              exact ⟨by simpa using h1, by simpa using h2⟩
          · rcases hpair 0 (fun h => nomatch h) (fun _ => trivial) l v hlv with h | h
            · obtain ⟨j, b, a, s', t', h1, h2, h3, h4, h5, h6⟩ := h
              exact ⟨j, b, a, s', t', h1, h2, h3, h4, h5, by omega⟩
            · exact h.2

/-- The second scan, which began at `m` and is at the offset `o`. -/
structure Folded (i q m o init : Nat) (L : Locals) : Prop where
  name : NameInv nm L
  pair : ∀ l r, L l = some r → PairS first others i q l r ∨ PairE nm first others m o l r
  head : ∀ b o' s l, others[0]? = some b → o < o' → o' ≤ m → back b.stmts o' = some s → l ∈ s.binders →
    L l = none ∨ (o' ≤ init ∧ ∃ t r, back first.stmts o' = some t ∧ r ∈ t.binders ∧ L l = some r)

variable {nm out first others}

theorem mem_blocks {j : Nat} {b : Block} (h : others[j]? = some b) : (first :: others)[j + 1]? = some b := by simpa using h

section
variable (hD : Distinct out (first :: others))
include hD

/-- Positions are unique. -/
theorem same_first {a a' : Nat} {s s' : Stmt} {u : Id} (h : first.stmts[a]? = some s) (h' : first.stmts[a']? = some s')
    (hu : u ∈ s.binders) (hu' : u ∈ s'.binders) : a = a' :=
  (hD.same 0 0 first first a a' s s' u rfl rfl h h' hu hu').2

theorem same_other {j j' : Nat} {b b' : Block} {a a' : Nat} {s s' : Stmt} {u : Id} (hj : others[j]? = some b)
    (hj' : others[j']? = some b') (h : b.stmts[a]? = some s) (h' : b'.stmts[a']? = some s') (hu : u ∈ s.binders)
    (hu' : u ∈ s'.binders) : j = j' ∧ a = a' := by
  have := hD.same (j + 1) (j' + 1) b b' a a' s s' u (mem_blocks hj) (mem_blocks hj') h h' hu hu'
  exact ⟨by omega, this.2⟩

theorem not_both {j : Nat} {b : Block} {a a' : Nat} {s s' : Stmt} {u : Id} (hj : others[j]? = some b)
    (h : b.stmts[a]? = some s) (h' : first.stmts[a']? = some s') (hu : u ∈ s.binders) (hu' : u ∈ s'.binders) : False := by
  have := hD.same (j + 1) 0 b first a a' s s' u (mem_blocks hj) rfl h h' hu hu'
  omega

/-- A resolved variable that was declared in the first block is not used in another one. -/
theorem not_foreign {j : Nat} {b : Block} {p a : Nat} {s : Stmt} {u : Id} (hj : others[j]? = some b)
    (hr : Resolves nm out b.stmts p u) (h : first.stmts[a]? = some s) (hu : u ∈ s.binders) : False := by
  rcases hr with ⟨a', s', _, h1, h2, _⟩ | ⟨h1, _⟩
  · exact not_both hD hj h1 h h2 hu
  · exact hD.outer 0 first a s u (nm u) rfl h hu h1.symm

/-- ... and the other way round. -/
theorem not_foreign' {j : Nat} {b : Block} {p a : Nat} {s : Stmt} {u : Id} (hj : others[j]? = some b)
    (hr : Resolves nm out first.stmts p u) (h : b.stmts[a]? = some s) (hu : u ∈ s.binders) : False := by
  rcases hr with ⟨a', s', _, h1, h2, _⟩ | ⟨h1, _⟩
  · exact not_both hD hj h h1 hu h2
  · exact hD.outer (j + 1) b a s u (nm u) (mem_blocks hj) h hu h1.symm

/-- A resolved variable that was declared in some other block was declared in this one. -/
theorem home {j j' : Nat} {b b' : Block} {p a : Nat} {s : Stmt} {u : Id} (hj : others[j]? = some b)
    (hr : Resolves nm out b.stmts p u) (hj' : others[j']? = some b') (h : b'.stmts[a]? = some s) (hu : u ∈ s.binders) :
    j = j' ∧ a < p ∧ ∀ a' s', a < a' → a' < p → b.stmts[a']? = some s' → nm u ∉ s'.binders.map nm := by
  rcases hr with ⟨a', s', h0, h1, h2, h3⟩ | ⟨h1, _⟩
  · obtain ⟨e1, e2⟩ := same_other hD hj hj' h1 h h2 hu
    subst e2
    exact ⟨e1, h0, h3⟩
  · exact (hD.outer (j' + 1) b' a s u (nm u) (mem_blocks hj') h hu h1.symm).elim

/-- The use of a variable: its counterparts in the other blocks. -/
structure Use (o : Nat) (L : Locals) (u0 : Id) : Prop where
  first : Resolves nm out first.stmts (first.stmts.length - o) u0
  others : ∀ (j : Nat) (b : Block), others[j]? = some b →
    ∃ u, Resolves nm out b.stmts (b.stmts.length - o) u ∧ (u = u0 ∨ L u = some u0)

/-- No statement at the end uses a variable from the middle of the first block. -/
theorem no_middle {n q m k o a : Nat} {L : Locals} {u0 : Id} {s : Stmt} (F : Folded nm first others n q k o m L)
    (hq : q < others.length) (hk : ∀ b ∈ others, k ≤ b.stmts.length)
    (U : Use (nm := nm) (out := out) (first := first) (others := others) o L u0)
    (h : first.stmts[a]? = some s) (hu : u0 ∈ s.binders) (hn : n ≤ a) (hm : a + m < first.stmts.length) : False := by
  obtain ⟨b1, hb1⟩ : ∃ b1, others[0]? = some b1 := ⟨others[0]'(by omega), List.getElem?_eq_getElem _⟩
  have hk1 := hk b1 (List.mem_of_getElem? hb1)
  obtain ⟨l1, r1, e1⟩ := U.others 0 b1 hb1
  have e1 : L l1 = some u0 := by
    rcases e1 with e1 | e1
    · subst e1; exact (not_foreign hD hb1 r1 h hu).elim
    · exact e1
  -- a pair that was found from the end has been forgotten
  have key : ∀ o' s', o < o' → o' ≤ k → back b1.stmts o' = some s' → l1 ∈ s'.binders → False := by
    intro o' s' h1 h2 h3 h4
    rcases F.head b1 o' s' l1 hb1 h1 h2 h3 h4 with h5 | ⟨h5, t, r, h6, h7, h8⟩
    · rw [h5] at e1; exact nomatch e1
    · rw [e1] at h8; cases h8
      obtain ⟨h9, h10⟩ := back_iff.mp h6
      have := same_first hD h h10 hu h7
      omega
  rcases F.pair l1 u0 e1 with ⟨j, b, a', s', t', p1, p2, p3, p4, p5, p6⟩ | ⟨j, b, o', s', t', p1, p2, p3, p4, p5, p6, p7, p8⟩
  · have ea := same_first hD h p3 hu p5
    subst ea
    obtain ⟨ej, hap, hlast⟩ := home hD hb1 r1 p1 p2 p4
    subst ej
    rw [hb1] at p1; cases p1
    have han : a = n := by omega
    have hq0 : 0 < q := by omega
    -- the block at which the first scan stopped
    obtain ⟨bq, hbq⟩ : ∃ bq, others[q]? = some bq := ⟨others[q], List.getElem?_eq_getElem hq⟩
    obtain ⟨lq, rq, eq⟩ := U.others q bq hbq
    have eq : L lq = some u0 := by
      rcases eq with eq | eq
      · subst eq; exact (not_foreign hD hbq rq h hu).elim
      · exact eq
    rcases F.pair lq u0 eq with ⟨j', b', a', s'', t'', q1, q2, q3, q4, q5, q6⟩ |
      ⟨j', b', o', s'', t'', q1, q2, q3, q4, q5, q6, q7, q8⟩
    · have := same_first hD h q3 hu q5
      have := (home hD hbq rq q1 q2 q4).1
      omega
    · obtain ⟨w1, w2⟩ := back_iff.mp q3
      have ea := same_first hD h w2 hu q5
      -- the second block declares the same name there
      have hlen1 : o' ≤ b1.stmts.length := by omega
      have ho0 : 0 < o' := by omega
      obtain ⟨x, hx⟩ : ∃ x, b1.stmts[b1.stmts.length - o']? = some x :=
        ⟨b1.stmts[b1.stmts.length - o'], List.getElem?_eq_getElem (by omega)⟩
      have hxn : nm l1 ∈ x.binders.map nm := by
        have := q8 0 x (by rw [List.getElem?_map, hb1]; simp [back, hlen1, hx])
        rcases this with this | this
        · rw [this, F.name l1 u0 e1]; exact List.mem_map_of_mem q5
        · rw [this] at q5; exact nomatch q5
      have halen : a < b1.stmts.length := (List.getElem?_eq_some_iff.mp p2).1
      by_cases hlt : a < b1.stmts.length - o'
      · exact hlast _ x hlt (by omega) hx hxn
      · refine key (b1.stmts.length - a) s' (by omega) (by omega) (back_iff.mpr ⟨by omega, ?_⟩) p4
        have : b1.stmts.length - (b1.stmts.length - a) = a := by omega
        rw [this]; exact p2
  · obtain ⟨w1, w2⟩ := back_iff.mp p2
    have := (home hD hb1 r1 p1 w2 p4).1
    subst this
    rw [hb1] at p1; cases p1
    exact key o' s' p6 p7 p2 p4

/-- A statement at the end only uses a variable from the middle of another block if the name has been declared again
since. -/
theorem no_middle' {n q m k o a j : Nat} {L : Locals} {u u0 : Id} {s : Stmt} {b : Block}
    (F : Folded nm first others n q k o m L) (hq : q < others.length) (hk : ∀ b ∈ others, k ≤ b.stmts.length)
    (hk0 : k + n ≤ first.stmts.length) (hmk : m ≤ k)
    (U : Use (nm := nm) (out := out) (first := first) (others := others) o L u0)
    (hT : ∀ o', o < o' → o' ≤ m → TextE nm first others o')
    (hj : others[j]? = some b) (e : u = u0 ∨ L u = some u0) (h : b.stmts[a]? = some s) (hu : u ∈ s.binders) (hn : n ≤ a)
    (hm : a + m < b.stmts.length) :
    ∃ a' s', b.stmts.length - m ≤ a' ∧ a' < b.stmts.length - o ∧ b.stmts[a']? = some s' ∧ nm u ∈ s'.binders.map nm := by
  have e : L u = some u0 := by
    rcases e with e | e
    · subst e; exact (not_foreign' hD hj U.first h hu).elim
    · exact e
  rcases F.pair u u0 e with ⟨j', b', a', s', t', p1, p2, p3, p4, p5, p6⟩ |
    ⟨j', b', o', s', t', p1, p2, p3, p4, p5, p6, p7, p8⟩
  · obtain ⟨ej, ea⟩ := same_other hD hj p1 h p2 hu p4
    subst ej; subst ea
    have ha0 := (List.getElem?_eq_some_iff.mp p3).1
    by_cases hmid : a + m < first.stmts.length
    · exact (no_middle hD F hq hk U p3 p5 hn hmid).elim
    · -- the variable is declared at the end of the first block
      have hao : a < first.stmts.length - o := by
        rcases U.first with ⟨a', s'', h0, h1, h2, _⟩ | ⟨h1, _⟩
        · have := same_first hD p3 h1 p5 h2; omega
        · exact (hD.outer 0 first a t' u0 (nm u0) rfl p3 p5 h1.symm).elim
      obtain ⟨x, y, hx, hy, hxy⟩ := hT (first.stmts.length - a) (by omega) (by omega) b (List.mem_of_getElem? hj)
      obtain ⟨hx1, hx2⟩ := back_iff.mp hx
      obtain ⟨hy1, hy2⟩ := back_iff.mp hy
      have e1 : first.stmts.length - (first.stmts.length - a) = a := by omega
      rw [e1, p3] at hy2; cases hy2
      refine ⟨_, x, ?_, ?_, hx2, ?_⟩
      · omega
      · omega
      · have : x.binders.map nm = t'.binders.map nm := by
          cases x <;> cases t' <;> simp_all [Stmt.text, Stmt.binders]
        rw [this, F.name u u0 e]; exact List.mem_map_of_mem p5
  · obtain ⟨w1, w2⟩ := back_iff.mp p2
    obtain ⟨w3, w4⟩ := back_iff.mp p3
    obtain ⟨ej, ea⟩ := same_other hD hj p1 h w2 hu p4
    subst ej
    rw [hj] at p1; cases p1
    exact (no_middle hD F hq hk U w4 p5 (by omega) (by omega)).elim
end

end Verif.Share
