import Verif.Msrv.Model

/-!
# C08 — the MSRV in force is the innermost enclosing one
-/

namespace Verif.Msrv

/-! ## Specification -/

/-- The attributes of a node declare the version `v`: the first `clippy::msrv` attribute among them has a
value text that parses as `v`. -/
def Declares (parse : String → Option Version) (attrs : List Attr) (v : Version) : Prop :=
  ∃ pre a post text, attrs = pre ++ a :: post ∧ (∀ b ∈ pre, b.isMsrv = false) ∧ a.isMsrv = true ∧
    a.value = some text ∧ parse text = some v

/-- `r` is the version in force at a node, given the attributes of the node and of all its ancestors,
innermost first: that of the innermost declaration, or else the configured one. -/
def InForce (parse : String → Option Version) (conf : Option Version) (chain : List (List Attr))
    (r : Option Version) : Prop :=
  (∃ pre attrs post v, chain = pre ++ attrs :: post ∧ (∀ b ∈ pre, ∀ w, ¬ Declares parse b w) ∧
      Declares parse attrs v ∧ r = some v) ∨
  ((∀ b ∈ chain, ∀ w, ¬ Declares parse b w) ∧ r = conf)

mutual
/-- The nodes of a tree in the order of the walk, each with the attributes on the way to it. -/
def Tree.nodes (above : List (List Attr)) : Tree → List (Nat × List (List Attr))
  | .node id attrs children => (id, attrs :: above) :: nodesList (attrs :: above) children
def nodesList (above : List (List Attr)) : List Tree → List (Nat × List (List Attr))
  | [] => []
  | t :: ts => t.nodes above ++ nodesList above ts
end

/-- Numeric order of versions. -/
def Version.Le (a b : Version) : Prop :=
  a.major < b.major ∨ (a.major = b.major ∧ (a.minor < b.minor ∨ (a.minor = b.minor ∧ a.patch ≤ b.patch)))

/-! ## Lemmas -/

theorem parseAttrs_iff (parse : String → Option Version) (attrs : List Attr) (v : Version) :
    parseAttrs parse attrs = some v ↔ Declares parse attrs v := by
  unfold parseAttrs Declares
  constructor
  · intro h
    cases hf : attrs.find? (·.isMsrv) with
    | none => simp [hf] at h
    | some a =>
      rw [hf] at h
      obtain ⟨hp, pre, post, he, hpre⟩ := List.find?_eq_some_iff_append.mp hf
      cases hv : a.value with
      | none => simp [hv] at h
      | some text => exact ⟨pre, a, post, text, he, by simpa using hpre, hp, hv, by simpa [hv] using h⟩
  · rintro ⟨pre, a, post, text, he, hpre, hp, hv, hpt⟩
    have : attrs.find? (·.isMsrv) = some a :=
      List.find?_eq_some_iff_append.mpr ⟨hp, pre, post, he, by simpa using hpre⟩
    simp [this, hv, hpt]

theorem parseAttrs_none (parse : String → Option Version) (attrs : List Attr) :
    parseAttrs parse attrs = none ↔ ∀ v, ¬ Declares parse attrs v := by
  constructor
  · intro h v hd
    rw [← parseAttrs_iff, h] at hd
    simp at hd
  · intro h
    cases hp : parseAttrs parse attrs with
    | none => rfl
    | some v => exact absurd ((parseAttrs_iff ..).mp hp) (h v)

theorem forAttrs_inForce (parse : String → Option Version) (conf : Option Version)
    (chain : List (List Attr)) : InForce parse conf chain (forAttrs parse conf chain) := by
  unfold forAttrs
  cases h : chain.findSome? (parseAttrs parse) with
  | none =>
    refine Or.inr ⟨fun b hb => ?_, rfl⟩
    exact (parseAttrs_none parse b).mp (List.findSome?_eq_none_iff.mp h b hb)
  | some v =>
    obtain ⟨pre, a, post, he, ha, hpre⟩ := List.findSome?_eq_some_iff.mp h
    exact Or.inl ⟨pre, a, post, v, he, fun b hb => (parseAttrs_none parse b).mp (hpre b hb),
      (parseAttrs_iff ..).mp ha, rfl⟩

/-- The version in force is unique. -/
theorem inForce_unique (parse : String → Option Version) (conf : Option Version) :
    ∀ (chain : List (List Attr)) (r : Option Version), InForce parse conf chain r →
      r = forAttrs parse conf chain := by
  intro chain
  induction chain with
  | nil =>
    intro r h
    rcases h with ⟨pre, a, post, v, he, _⟩ | ⟨_, rfl⟩
    · simp at he
    · rfl
  | cons a chain ih =>
    intro r h
    cases hp : parseAttrs parse a with
    | some v =>
      have hd := (parseAttrs_iff ..).mp hp
      have hr : forAttrs parse conf (a :: chain) = some v := by simp [forAttrs, hp]
      rw [hr]
      rcases h with ⟨pre, b, post, w, he, hpre, hb, rfl⟩ | ⟨hn, _⟩
      · cases pre with
        | nil =>
          simp only [List.nil_append, List.cons.injEq] at he
          rw [← he.1, ← parseAttrs_iff, hp] at hb
          exact hb.symm
        | cons x xs =>
          simp only [List.cons_append, List.cons.injEq] at he
          exact absurd hd (by rw [he.1]; exact hpre x (by simp) v)
      · exact absurd hd (hn a (by simp) v)
    | none =>
      have hd := (parseAttrs_none ..).mp hp
      have hr : forAttrs parse conf (a :: chain) = forAttrs parse conf chain := by simp [forAttrs, hp]
      rw [hr]
      apply ih
      rcases h with ⟨pre, b, post, w, he, hpre, hb, rfl⟩ | ⟨hn, rfl⟩
      · cases pre with
        | nil =>
          simp only [List.nil_append, List.cons.injEq] at he
          rw [← he.1] at hb
          exact absurd hb (hd w)
        | cons x xs =>
          simp only [List.cons_append, List.cons.injEq] at he
          exact Or.inl ⟨xs, b, post, w, he.2, fun y hy => hpre y (by simp [hy]), hb, rfl⟩
      · exact Or.inr ⟨fun b hb => hn b (by simp [hb]), rfl⟩

mutual
theorem walk_spec (parse : String → Option Version) (conf : Option Version) :
    ∀ (t : Tree) (above : List (List Attr)) (st : List Version × Bool),
      st.1.head? = forAttrs parse conf above →
      (walk parse st t).1 = (t.nodes above).map (fun n => (n.1, forAttrs parse conf n.2)) ∧
      (walk parse st t).2.1 = st.1 ∧
      (walk parse st t).2.2 = (st.2 || (t.nodes above).any fun n => (parseAttrs parse (n.2.headD [])).isSome)
  | .node id attrs children, above, st, h => by
      cases hp : parseAttrs parse attrs with
      | none =>
        have h1 : checkAttributes parse attrs st = st := by simp [checkAttributes, hp]
        have h2 : ∀ st, checkAttributesPost parse attrs st = st := by simp [checkAttributesPost, hp]
        have hchain : forAttrs parse conf (attrs :: above) = forAttrs parse conf above := by
          simp [forAttrs, hp]
        obtain ⟨hl, hs, hb⟩ := walkList_spec parse conf children (attrs :: above) st (h.trans hchain.symm)
        simp only [walk, h1, h2, Tree.nodes, List.map_cons, hl, hs, hb, stackCurrent, h, hchain,
          List.any_cons, List.headD_cons, hp, Option.isSome_none, Bool.false_or, and_self]
      | some v =>
        have h1 : checkAttributes parse attrs st = (v :: st.1, true) := by simp [checkAttributes, hp]
        have h2 : ∀ st, checkAttributesPost parse attrs st = (st.1.tail, st.2) := by
          simp [checkAttributesPost, hp]
        have hchain : forAttrs parse conf (attrs :: above) = some v := by simp [forAttrs, hp]
        obtain ⟨hl, hs, hb⟩ :=
          walkList_spec parse conf children (attrs :: above) (v :: st.1, true) (by simp [hchain])
        simp only [walk, h1, h2, Tree.nodes, List.map_cons, hl, hs, hb, stackCurrent, hchain,
          List.any_cons, List.headD_cons, hp, Option.isSome_some, Bool.true_or, Bool.or_true,
          List.head?_cons, List.tail_cons, and_self]
theorem walkList_spec (parse : String → Option Version) (conf : Option Version) :
    ∀ (ts : List Tree) (above : List (List Attr)) (st : List Version × Bool),
      st.1.head? = forAttrs parse conf above →
      (walkList parse st ts).1 = (nodesList above ts).map (fun n => (n.1, forAttrs parse conf n.2)) ∧
      (walkList parse st ts).2.1 = st.1 ∧
      (walkList parse st ts).2.2 =
        (st.2 || (nodesList above ts).any fun n => (parseAttrs parse (n.2.headD [])).isSome)
  | [], above, st, _ => by simp [walkList, nodesList]
  | t :: ts, above, st, h => by
      obtain ⟨h1, h2, h3⟩ := walk_spec parse conf t above st h
      obtain ⟨h4, h5, h6⟩ := walkList_spec parse conf ts above (walk parse st t).2 (by rw [h2]; exact h)
      simp only [walkList, nodesList, List.map_append, List.any_append, h1, h2, h3, h4, h5, h6,
        Bool.or_assoc, and_self]
end

/-! ## The property -/

/-- **C08 (early passes).** Walk any syntax tree with the configured version at the bottom of the stack.
The walk visits exactly the nodes of the tree in order; at each of them the version in force is that of
the innermost enclosing declaration, or else the configured one; and after the walk the stack is what it
was before. -/
theorem early_in_force (parse : String → Option Version) (conf : Option Version) (seen : Bool) (t : Tree) :
    ((walk parse (stackFrom conf, seen) t).1.map (·.1) = (t.nodes []).map (·.1)) ∧
    (∀ (i : Nat) (id : Nat) (chain : List (List Attr)) (r : Option Version),
      (t.nodes [])[i]? = some (id, chain) → (walk parse (stackFrom conf, seen) t).1[i]? = some (id, r) →
      InForce parse conf chain r) ∧
    (walk parse (stackFrom conf, seen) t).2.1 = stackFrom conf := by
  have hst : (stackFrom conf).head? = forAttrs parse conf [] := by
    cases conf <;> simp [stackFrom, forAttrs]
  obtain ⟨h1, h2, _⟩ := walk_spec parse conf t [] (stackFrom conf, seen) hst
  refine ⟨by rw [h1]; simp, ?_, h2⟩
  intro i id chain r hn hr
  rw [h1, List.getElem?_map, hn] at hr
  simp only [Option.map_some, Option.some.injEq, Prod.mk.injEq, true_and] at hr
  rw [← hr]
  exact forAttrs_inForce ..

/-- **C08 (leaving a node).** Whatever the stack is when a node is entered, it is the same when the node
has been left. -/
theorem restored (parse : String → Option Version) (st : List Version × Bool) (t : Tree) :
    (walk parse st t).2.1 = st.1 :=
  (walk_spec parse st.1.head? t [] st (by simp [forAttrs])).2.1

theorem chain_nodes (t : Tree) : ∀ above n, n ∈ t.nodes above →
    ∀ a ∈ n.2, a ∈ above ∨ ∃ m ∈ t.nodes above, m.2.headD [] = a := by
  apply Tree.rec
    (motive_1 := fun t => ∀ above n, n ∈ t.nodes above →
      ∀ a ∈ n.2, a ∈ above ∨ ∃ m ∈ t.nodes above, m.2.headD [] = a)
    (motive_2 := fun ts => ∀ above n, n ∈ nodesList above ts →
      ∀ a ∈ n.2, a ∈ above ∨ ∃ m ∈ nodesList above ts, m.2.headD [] = a)
  · intro id attrs children ih above n hn a ha
    rw [Tree.nodes] at hn ⊢
    rcases List.mem_cons.mp hn with rfl | hn
    · rcases List.mem_cons.mp ha with rfl | ha
      · exact Or.inr ⟨_, List.mem_cons_self, rfl⟩
      · exact Or.inl ha
    · rcases ih (attrs :: above) n hn a ha with h | ⟨m, hm, he⟩
      · rcases List.mem_cons.mp h with rfl | h
        · exact Or.inr ⟨_, List.mem_cons_self, rfl⟩
        · exact Or.inl h
      · exact Or.inr ⟨m, List.mem_cons_of_mem _ hm, he⟩
  · intro above n hn
    simp [nodesList] at hn
  · intro t ts iht ihts above n hn a ha
    rw [nodesList] at hn ⊢
    rcases List.mem_append.mp hn with hn | hn
    · rcases iht above n hn a ha with h | ⟨m, hm, he⟩
      · exact Or.inl h
      · exact Or.inr ⟨m, List.mem_append_left _ hm, he⟩
    · rcases ihts above n hn a ha with h | ⟨m, hm, he⟩
      · exact Or.inl h
      · exact Or.inr ⟨m, List.mem_append_right _ hm, he⟩

/-- **C08 (late passes).** The late passes look the attributes up, but only if the early passes have seen
a declaration. The version they get at any node of the tree is the one in force there all the same. -/
theorem late_in_force (parse : String → Option Version) (conf : Option Version) (seen : Bool) (t : Tree)
    (id : Nat) (chain : List (List Attr)) (hn : (id, chain) ∈ t.nodes []) :
    InForce parse conf chain
      (lateAt parse conf (walk parse (stackFrom conf, seen) t).2.2 chain) := by
  have hst : (stackFrom conf).head? = forAttrs parse conf [] := by
    cases conf <;> simp [stackFrom, forAttrs]
  obtain ⟨_, _, h3⟩ := walk_spec parse conf t [] (stackFrom conf, seen) hst
  unfold lateAt
  cases hf : (walk parse (stackFrom conf, seen) t).2.2 with
  | true => simpa using forAttrs_inForce parse conf chain
  | false =>
    rw [h3] at hf
    simp only [Bool.or_eq_false_iff, List.any_eq_false] at hf
    refine Or.inr ⟨fun b hb => ?_, rfl⟩
    rw [← parseAttrs_none]
    rcases chain_nodes t [] _ hn b hb with h | ⟨m, hm, he⟩
    · simp at h
    · have := hf.2 m hm
      rw [he] at this
      simpa using this

/-- The comparison of versions is the numeric one. -/
theorem le_iff (a b : Version) : a.le b = true ↔ a.Le b := by
  unfold Version.le Version.Le
  by_cases h1 : a.major = b.major
  · by_cases h2 : a.minor = b.minor
    · simp [h1, h2]
    · simp [h1, h2]
  · simp [h1]

/-- **C08 (features).** A feature that appeared in version `required` may be used if and only if no version
is in force or the one in force is not older. -/
theorem meets_iff (current : Option Version) (required : Version) :
    meets current required = true ↔ ∀ v, current = some v → required.Le v := by
  cases current with
  | none => simp [meets]
  | some v => simp [meets, le_iff]

/-- **C08 (monotonicity).** What is allowed at a version is allowed at every later one, and with no version
at all. -/
theorem meets_mono {v w required : Version} (h : v.Le w) (hm : meets (some v) required = true) :
    meets (some w) required = true ∧ meets none required = true := by
  rw [meets_iff] at hm ⊢
  have := hm v rfl
  refine ⟨?_, rfl⟩
  intro x hx
  simp only [Option.some.injEq] at hx
  subst hx
  unfold Version.Le at *
  omega

/-- **C08 (library items).** An item may be suggested exactly if it has no stability attribute, or it is
stable and every version in force is at least the version it became stable in. -/
theorem stability_iff (rustc : Version) (current : Option Version) (level : Option Stability) :
    stabilityMet rustc current level = true ↔
      level = none ∨ ∃ s, (level = some (.since s) ∨ (level = some .sinceCurrent ∧ s = rustc)) ∧
        ∀ v, current = some v → s.Le v := by
  rcases level with _ | _ | v' | _ | _ <;> simp [stabilityMet, meets_iff]

/-- The same for library items. -/
theorem stability_mono (rustc : Version) {v w : Version} (level : Option Stability) (h : v.Le w)
    (hm : stabilityMet rustc (some v) level = true) : stabilityMet rustc (some w) level = true := by
  rcases level with _ | _ | v' | _ | _
  · rfl
  · exact hm
  · exact (meets_mono h hm).1
  · exact (meets_mono h hm).1
  · exact hm

/-! Non-vacuity: a tree with a declaration inside a declaration and a malformed one. -/

def sampleParse : String → Option Version
  | "1.50" => some ⟨1, 50, 0⟩
  | "1.70.1" => some ⟨1, 70, 1⟩
  | _ => none

def sampleTree : Tree :=
  .node 0 [] [.node 1 [⟨false, none⟩, ⟨true, some "1.50"⟩] [.node 2 [⟨true, some "1.70.1"⟩] [], .node 3 [] []],
    .node 4 [⟨true, some "x"⟩, ⟨true, some "1.50"⟩] []]

example : (walk sampleParse (stackFrom (some ⟨1, 30, 0⟩), false) sampleTree).1 =
    [(0, some ⟨1, 30, 0⟩), (1, some ⟨1, 50, 0⟩), (2, some ⟨1, 70, 1⟩), (3, some ⟨1, 50, 0⟩),
     (4, some ⟨1, 30, 0⟩)] := by decide

example : (2, [[⟨true, some "1.70.1"⟩], [⟨false, none⟩, ⟨true, some "1.50"⟩], []]) ∈ sampleTree.nodes [] := by
  decide

end Verif.Msrv
