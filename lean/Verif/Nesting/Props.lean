import Verif.Nesting.Model

/-!
# Properties: blocks that are nested too deeply
-/

namespace Verif.Nesting

/-- The depth after a node. -/
def into (d : Nat) (i : Info) : Nat := if i.kind = .file then 0 else if Counts i then d + 1 else d

theorem depth_append (a : List Info) (i : Info) : depth (a ++ [i]) = into (depth a) i := by
  unfold depth into
  rw [List.reverse_append, List.reverse_singleton, List.singleton_append]
  by_cases h : i.kind = .file
  · rw [if_pos h, List.takeWhile_cons_of_neg (by simp [h])]; rfl
  · rw [if_neg h, List.takeWhile_cons_of_pos (by simp [h])]
    by_cases hc : Counts i = true
    · rw [if_pos hc, List.countP_cons_of_pos hc]
    · rw [if_neg hc, List.countP_cons_of_neg hc]

/-- A node is reported when it is reached at a depth. -/
def Over (t d : Nat) (i : Info) : Prop := Counts i = true ∧ i.ext = false ∧ t < d + 1

/-- A path is followed to its last node, which is reported. -/
def Hit (t : Nat) : Nat → List Info → Prop
  | _, [] => False
  | d, [i] => i.kind ≠ .hidden ∧ Over t d i
  | d, i :: j :: p => i.kind ≠ .hidden ∧ ¬Over t d i ∧ Hit t (into d i) (j :: p)

theorem path_ne (T : Tree) (p : List Info) (h : Path T p) : p ≠ [] := by cases h <;> simp

theorem hit_cons (t d : Nat) (i : Info) (p : List Info) (hp : p ≠ []) :
    Hit t d (i :: p) ↔ i.kind ≠ .hidden ∧ ¬Over t d i ∧ Hit t (into d i) p := by
  cases p with
  | nil => exact absurd rfl hp
  | cons j p => rw [Hit]

theorem into_counts (d : Nat) (i : Info) (h : Counts i = true) : into d i = d + 1 := by
  have hk : i.kind ≠ .file := by
    intro e
    simp [Counts, e] at h
  rw [into, if_neg hk, if_pos h]

theorem tooDeep_append (t : Nat) (a : List Info) (i : Info) : TooDeep t (a ++ [i]) ↔ Over t (depth a) i := by
  constructor
  · rintro ⟨b, j, e, h1, h2, h3⟩
    have := List.append_inj' e rfl
    have e2 : i = j := by simpa using this.2
    rw [e2] at h3 ⊢
    rw [depth_append, into_counts _ _ h1] at h3
    exact ⟨h1, h2, h3⟩
  · rintro ⟨h1, h2, h3⟩
    exact ⟨a, i, rfl, h1, h2, by rw [depth_append, into_counts _ _ h1]; exact h3⟩

theorem not_tooDeep_nil (t : Nat) : ¬TooDeep t [] := by
  rintro ⟨a, i, e, _⟩
  simp at e

/-- Being followed is being the first that is too deep. -/
theorem hit_iff (t : Nat) (p : List Info) : ∀ a, Hit t (depth a) p ↔
    TooDeep t (a ++ p) ∧ p ≠ [] ∧ (∀ i ∈ p, i.kind ≠ .hidden) ∧ ∀ q r, p = q ++ r → q ≠ [] → r ≠ [] → ¬TooDeep t (a ++ q) := by
  induction p with
  | nil => intro a; simp [Hit]
  | cons i p ih =>
    intro a
    cases p with
    | nil =>
      rw [Hit, tooDeep_append]
      constructor
      · rintro ⟨h1, h2⟩
        refine ⟨h2, by simp, by simpa using h1, ?_⟩
        intro q r e hq hr
        have := congrArg List.length e
        cases q with
        | nil => exact absurd rfl hq
        | cons x q =>
          cases r with
          | nil => exact absurd rfl hr
          | cons y r => simp at this
      · rintro ⟨h1, _, h2, _⟩
        exact ⟨h2 i (by simp), h1⟩
    | cons j p =>
      rw [Hit, ← depth_append, ih (a ++ [i])]
      have e : a ++ [i] ++ j :: p = a ++ i :: j :: p := by simp
      rw [e]
      constructor
      · rintro ⟨h1, h2, h3, _, h4, h5⟩
        refine ⟨h3, by simp, ?_, ?_⟩
        · intro k hk
          rcases List.mem_cons.1 hk with hk | hk
          · rw [hk]; exact h1
          · exact h4 k hk
        · intro q r e2 hq hr
          cases q with
          | nil => exact absurd rfl hq
          | cons x q =>
            rw [List.cons_append] at e2
            injection e2 with e3 e4
            rw [← e3]
            by_cases hq2 : q = []
            · rw [hq2, tooDeep_append]; exact h2
            · have := h5 q r e4 hq2 hr
              rwa [List.append_assoc, List.singleton_append] at this
      · rintro ⟨h1, _, h2, h3⟩
        refine ⟨h2 i (by simp), ?_, h1, by simp, fun k hk => h2 k (List.mem_cons_of_mem _ hk), ?_⟩
        · have := h3 [i] (j :: p) rfl (by simp) (by simp)
          rwa [tooDeep_append] at this
        · intro q r e2 hq hr
          have := h3 (i :: q) r (by rw [e2]; rfl) (by simp) hr
          rwa [List.append_assoc, List.singleton_append]

theorem report_iff_hit (t : Nat) (p : List Info) : Report t p ↔ Hit t 0 p := by
  have := hit_iff t p []
  have e : depth [] = 0 := rfl
  rw [e] at this
  rw [this]
  unfold Report
  simp only [List.nil_append]
  constructor
  · rintro ⟨h1, h2, h3⟩
    refine ⟨h1, ?_, h2, fun q r e _ hr => h3 q r e hr⟩
    intro e
    rw [e] at h1
    exact not_tooDeep_nil t h1
  · rintro ⟨h1, _, h2, h3⟩
    refine ⟨h1, h2, fun q r e hr => ?_⟩
    by_cases hq : q = []
    · rw [hq]; exact not_tooDeep_nil t
    · exact h3 q r e hq hr

/-- Some node below is reported. -/
def Found (t d : Nat) (cs : List Tree) (n : Nat) : Prop := ∃ c ∈ cs, ∃ p i, Path c p ∧ Hit t d p ∧ p.getLast? = some i ∧ i.id = n

theorem found_node (t d : Nat) (i : Info) (cs : List Tree) (n : Nat) :
    Found t d [.node i cs] n ↔ i.kind ≠ .hidden ∧ (Over t d i ∧ i.id = n ∨ ¬Over t d i ∧ Found t (into d i) cs n) := by
  constructor
  · rintro ⟨c, hc, p, j, h1, h2, h3, h4⟩
    rw [List.mem_singleton] at hc
    rw [hc] at h1
    cases h1 with
    | here =>
      rw [Hit] at h2
      have : j = i := by simpa using h3.symm
      rw [this] at h4
      exact ⟨h2.1, Or.inl ⟨h2.2, h4⟩⟩
    | down _ _ c p hm hp =>
      have hne := path_ne c p hp
      rw [hit_cons _ _ _ _ hne] at h2
      refine ⟨h2.1, Or.inr ⟨h2.2.1, c, hm, p, j, hp, h2.2.2, ?_, h4⟩⟩
      rwa [List.getLast?_cons_of_ne_nil hne] at h3
  · rintro ⟨h1, h | ⟨h2, c, hm, p, j, hp, h3, h4, h5⟩⟩
    · exact ⟨_, List.mem_singleton.2 rfl, [i], i, .here i cs, by rw [Hit]; exact ⟨h1, h.1⟩, rfl, h.2⟩
    · have hne := path_ne c p hp
      refine ⟨_, List.mem_singleton.2 rfl, i :: p, j, .down i cs c p hm hp, ?_, ?_, h5⟩
      · rw [hit_cons _ _ _ _ hne]; exact ⟨h1, h2, h3⟩
      · rwa [List.getLast?_cons_of_ne_nil hne]

theorem found_cons (t d : Nat) (c : Tree) (cs : List Tree) (n : Nat) : Found t d (c :: cs) n ↔ Found t d [c] n ∨ Found t d cs n := by
  unfold Found
  simp

/-- The walk keeps the level and adds the nodes to report. -/
def Good (t : Nat) (f : St → St) (cs : List Tree) : Prop :=
  ∀ st, (f st).level = st.level ∧ ∀ n, n ∈ (f st).nodes ↔ n ∈ st.nodes ∨ Found t st.level cs n

theorem enter_good (t : Nat) (i : Info) (cs : List Tree) (hk : Counts i = true) (hh : i.kind ≠ .hidden) (ih : Good t (visitAll t cs) cs) :
    Good t (fun st => leave (enter t i cs { st with level := st.level + 1 })) [.node i cs] := by
  intro st
  have hi : into st.level i = st.level + 1 := into_counts _ _ hk
  by_cases ho : (decide (st.level + 1 > t) && !i.ext) = true
  · have hov : Over t st.level i := by
      rw [Bool.and_eq_true, decide_eq_true_eq] at ho
      exact ⟨hk, by simpa using ho.2, ho.1⟩
    have e : leave (enter t i cs { st with level := st.level + 1 }) = ⟨st.level, i.id :: st.nodes⟩ := by
      simp only [leave, enter, checkIndent]
      rw [if_pos ho]
      simp
    show (leave _).level = _ ∧ ∀ n, n ∈ (leave _).nodes ↔ _
    rw [e]
    refine ⟨rfl, fun n => ?_⟩
    rw [found_node]
    constructor
    · intro h
      rcases List.mem_cons.1 h with h | h
      · exact Or.inr ⟨hh, Or.inl ⟨hov, h.symm⟩⟩
      · exact Or.inl h
    · rintro (h | ⟨_, h | h⟩)
      · exact List.mem_cons_of_mem _ h
      · rw [← h.2]; exact List.mem_cons_self
      · exact absurd hov h.1
  · have hov : ¬Over t st.level i := by
      rintro ⟨_, h1, h2⟩
      apply ho
      rw [h1]
      simpa using h2
    have e : leave (enter t i cs { st with level := st.level + 1 }) = leave (visitAll t cs ⟨st.level + 1, st.nodes⟩) := by
      simp only [enter, checkIndent]
      rw [if_neg ho]
      simp
    show (leave _).level = _ ∧ ∀ n, n ∈ (leave _).nodes ↔ _
    rw [e]
    obtain ⟨h1, h2⟩ := ih ⟨st.level + 1, st.nodes⟩
    refine ⟨by rw [leave, h1]; rfl, fun n => ?_⟩
    have e3 : (leave (visitAll t cs ⟨st.level + 1, st.nodes⟩)).nodes = (visitAll t cs ⟨st.level + 1, st.nodes⟩).nodes := by rw [leave]
    rw [e3, h2 n, found_node, hi]
    constructor
    · rintro (h | h)
      · exact Or.inl h
      · exact Or.inr ⟨hh, Or.inr ⟨hov, h⟩⟩
    · rintro (h | ⟨_, h | h⟩)
      · exact Or.inl h
      · exact absurd h.1 hov
      · exact Or.inr h.2

theorem visit_node (t : Nat) (i : Info) (cs : List Tree) (ih : Good t (visitAll t cs) cs) : Good t (visit t (.node i cs)) [.node i cs] := by
  cases hk : i.kind with
  | block =>
    have := enter_good t i cs (by simp [Counts, hk]) (by simp [hk]) ih
    intro st
    rw [visit, hk]
    exact this st
  | opener =>
    have := enter_good t i cs (by simp [Counts, hk]) (by simp [hk]) ih
    intro st
    rw [visit, hk]
    exact this st
  | hidden =>
    intro st
    rw [visit, hk]
    refine ⟨rfl, fun n => ?_⟩
    rw [found_node]
    simp [hk]
  | file =>
    intro st
    rw [visit, hk]
    refine ⟨rfl, fun n => ?_⟩
    obtain ⟨_, h2⟩ := ih ⟨0, st.nodes⟩
    show n ∈ (visitAll t cs ⟨0, st.nodes⟩).nodes ↔ _
    rw [h2 n, found_node]
    have e : into st.level i = 0 := by simp [into, hk]
    have hov : ¬Over t st.level i := by
      rintro ⟨h, _⟩
      simp [Counts, hk] at h
    rw [e]
    simp [hk, hov]
  | plain =>
    intro st
    rw [visit, hk]
    obtain ⟨h1, h2⟩ := ih st
    refine ⟨h1, fun n => ?_⟩
    have hc : Counts i = false := by simp [Counts, hk]
    have e : into st.level i = st.level := by simp [into, hk, hc]
    have hov : ¬Over t st.level i := by
      rintro ⟨h, _⟩
      rw [hc] at h
      cases h
    show n ∈ (visitAll t cs st).nodes ↔ _
    rw [h2 n, found_node, e]
    simp [hk, hov]

mutual
theorem visit_good (t : Nat) : ∀ T, Good t (visit t T) [T]
  | .node i cs => visit_node t i cs (visitAll_good t cs)
theorem visitAll_good (t : Nat) : ∀ cs, Good t (visitAll t cs) cs
  | [] => fun st => ⟨by rw [visitAll], fun n => by rw [visitAll]; simp [Found]⟩
  | c :: cs => fun st => by
    obtain ⟨h1, h2⟩ := visit_good t c st
    obtain ⟨h3, h4⟩ := visitAll_good t cs (visit t c st)
    rw [visitAll]
    refine ⟨by rw [h3, h1], fun n => ?_⟩
    rw [h4 n, h2 n, h1, found_cons t st.level c cs, or_assoc]
end

/-- The nodes that are reported are exactly those that are too deep with none around them that is. -/
theorem reported_iff (t : Nat) (ht : t ≠ 0) (items : List Tree) (n : Nat) :
    n ∈ checkCrate t items ↔ ∃ T ∈ items, ∃ p i, Path T p ∧ Report t p ∧ p.getLast? = some i ∧ i.id = n := by
  rw [checkCrate, if_neg ht, (visitAll_good t items ⟨0, []⟩).2 n]
  unfold Found
  simp only [List.not_mem_nil, false_or, report_iff_hit]

/-- With the threshold zero, nothing is reported. -/
theorem zero_off (items : List Tree) (i : Info) : linted 0 items i = false := by
  rw [linted, checkCrate, if_pos rfl]; rfl

/-- The lint is given for exactly the nodes that have the number of one to report. -/
theorem linted_iff (t : Nat) (ht : t ≠ 0) (items : List Tree) (i : Info) :
    linted t items i = true ↔ ∃ T ∈ items, ∃ p j, Path T p ∧ Report t p ∧ p.getLast? = some j ∧ j.id = i.id := by
  rw [linted, List.contains_iff_mem, reported_iff t ht]

/-- Siblings do not matter: the level after a tree is the level before it. -/
theorem level_kept (t : Nat) (T : Tree) (st : St) : (visit t T st).level = st.level := (visit_good t T st).1

/-- Whatever is too deep is covered by a report, unless a macro made something on the way. -/
theorem covered (t : Nat) (ht : t ≠ 0) (items : List Tree) (T : Tree) (hT : T ∈ items) (p : List Info) (hp : Path T p)
    (hh : ∀ i ∈ p, i.kind ≠ .hidden) (hd : TooDeep t p) : ∃ q r i, p = q ++ r ∧ q.getLast? = some i ∧ linted t items i = true := by
  have key : ∀ (l : Nat) (p : List Info), p.length ≤ l → (∀ i ∈ p, i.kind ≠ .hidden) → TooDeep t p → ∃ q r, p = q ++ r ∧ Report t q := by
    intro l
    induction l with
    | zero =>
      intro p hl _ hd
      have : p = [] := List.eq_nil_of_length_eq_zero (by omega)
      rw [this] at hd
      exact absurd hd (not_tooDeep_nil t)
    | succ l ih =>
      intro p hl hh hd
      by_cases h : ∃ q r, p = q ++ r ∧ r ≠ [] ∧ TooDeep t q
      · obtain ⟨q, r, e, hr, hq⟩ := h
        have hlen : q.length ≤ l := by
          have h1 := congrArg List.length e
          rw [List.length_append] at h1
          have := List.length_pos_iff.2 hr
          omega
        obtain ⟨q2, r2, e2, h2⟩ := ih q hlen (fun i hi => hh i (by rw [e]; exact List.mem_append_left _ hi)) hq
        exact ⟨q2, r2 ++ r, by rw [e, e2, List.append_assoc], h2⟩
      · refine ⟨p, [], by simp, hd, hh, ?_⟩
        intro q r e hr hq
        exact h ⟨q, r, e, hr, hq⟩
  have pre : ∀ (T : Tree) (p : List Info), Path T p → ∀ q r, p = q ++ r → q ≠ [] → Path T q := by
    intro T p hp
    induction hp with
    | here i cs =>
      intro q r e hq
      cases q with
      | nil => exact absurd rfl hq
      | cons x q =>
        rw [List.cons_append] at e
        injection e with e1 e2
        have : q = [] := (List.append_eq_nil_iff.1 e2.symm).1
        rw [this, ← e1]
        exact .here i cs
    | down i cs c p hm _ ih =>
      intro q r e hq
      cases q with
      | nil => exact absurd rfl hq
      | cons x q =>
        rw [List.cons_append] at e
        injection e with e1 e2
        rw [← e1]
        by_cases h : q = []
        · rw [h]; exact .here i cs
        · exact .down i cs c q hm (ih q r e2 h)
  obtain ⟨q, r, e, hq⟩ := key p.length p (Nat.le_refl _) hh hd
  obtain ⟨a, i, ea, _⟩ := hq.1
  have hne : q ≠ [] := by rw [ea]; simp
  have hl : q.getLast? = some i := by rw [ea]; simp
  exact ⟨q, r, i, e, hl, (linted_iff t ht items i).2 ⟨T, hT, q, i, pre T p hp q r e hne, hq, hl, rfl⟩⟩

/-- Inside a report there is none. -/
theorem one_on_path (t : Nat) (p q r : List Info) (h : Report t p) (hq : Report t q) (e : p = q ++ r) : r = [] := by
  by_cases hr : r = []
  · exact hr
  · exact absurd hq.1 (h.2.2 q r e hr)

/-- A module in place with a function that has two blocks, the second with one inside; threshold 2. -/
def sample : List Tree :=
  [.node ⟨1, .opener, false⟩ [.node ⟨2, .plain, false⟩ [.node ⟨3, .block, false⟩ [.node ⟨4, .block, false⟩ [.node ⟨5, .block, false⟩ []], .node ⟨6, .plain, false⟩ []]]],
   .node ⟨7, .file, false⟩ [.node ⟨8, .plain, false⟩ [.node ⟨9, .block, false⟩ []]]]

example : checkCrate 2 sample = [4] := by simp [checkCrate, sample, visitAll, visit, enter, leave, checkIndent]

example : Report 2 [⟨1, .opener, false⟩, ⟨2, .plain, false⟩, ⟨3, .block, false⟩, ⟨4, .block, false⟩] := by
  rw [report_iff_hit]
  simp [Hit, Over, Counts, into]

end Verif.Nesting
