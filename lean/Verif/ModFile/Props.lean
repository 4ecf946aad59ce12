import Verif.ModFile.Model

/-!
# Properties: where the contents of an inline module would go
-/

namespace Verif.ModFile

/-- The stacks when the modules around are `p`. -/
def stOf (src : List Nat) : List Mod → St → List Nat → St
  | [], st, _ => st
  | m :: p, st, at_ => stOf src p (push src at_ st m) (at_ ++ [m.name])

theorem stOf_append (src : List Nat) (p : List Mod) (m : Mod) : ∀ st at_, stOf src (p ++ [m]) st at_ = push src (at_ ++ names p) (stOf src p st at_) m := by
  induction p with
  | nil => intro st at_; simp [stOf, names]
  | cons x p ih =>
    intro st at_
    rw [List.cons_append, stOf, ih, stOf]
    simp [names]

theorem pop_push (src at_ : List Nat) (st : St) (m : Mod) : pop (push src at_ st m) m = st := by
  cases h : m.inline <;> simp [pop, push, h]

/-- What shall be reported below some modules. -/
def Expect (src : List Nat) (st : St) (at_ : List Nat) (cs : List Tree) (x : Nat × List Nat) : Prop :=
  ∃ c ∈ cs, ∃ p m, Path c (p ++ [m]) ∧ x ∈ report src (stOf src p st at_) m

theorem expect_node (src : List Nat) (st : St) (at_ : List Nat) (m : Mod) (cs : List Tree) (x : Nat × List Nat) :
    Expect src st at_ [.node m cs] x ↔ x ∈ report src st m ∨ Expect src (push src at_ st m) (at_ ++ [m.name]) cs x := by
  constructor
  · rintro ⟨c, hc, p, k, hp, hx⟩
    rw [List.mem_singleton] at hc
    rw [hc] at hp
    generalize hq : p ++ [k] = q at hp
    cases hp with
    | here =>
      cases p with
      | nil =>
        injection hq with hq _
        rw [hq] at hx
        exact Or.inl hx
      | cons y p => simp at hq
    | down _ _ c q hm hp =>
      cases p with
      | nil =>
        injection hq with _ hq
        rw [← hq] at hp
        cases hp
      | cons y p =>
        injection hq with h1 h2
        rw [h1] at hx
        exact Or.inr ⟨c, hm, p, k, by rw [← h2] at hp; exact hp, hx⟩
  · rintro (hx | ⟨c, hm, p, k, hp, hx⟩)
    · exact ⟨_, List.mem_singleton.2 rfl, [], m, .here m cs, hx⟩
    · exact ⟨_, List.mem_singleton.2 rfl, m :: p, k, .down m cs c _ hm hp, hx⟩

mutual
theorem visit_good (src : List Nat) : ∀ (T : Tree) (at_ : List Nat) (st : St),
    (visit src at_ T st).1 = st ∧ ∀ x, x ∈ (visit src at_ T st).2 ↔ Expect src st at_ [T] x
  | .node m cs, at_, st => by
    obtain ⟨h1, h2⟩ := visitAll_good src cs (at_ ++ [m.name]) (push src at_ st m)
    rw [visit]
    refine ⟨by rw [h1, pop_push], fun x => ?_⟩
    rw [List.mem_append, h2 x, expect_node]
theorem visitAll_good (src : List Nat) : ∀ (cs : List Tree) (at_ : List Nat) (st : St),
    (visitAll src at_ cs st).1 = st ∧ ∀ x, x ∈ (visitAll src at_ cs st).2 ↔ Expect src st at_ cs x
  | [], at_, st => ⟨by rw [visitAll], fun x => by rw [visitAll]; simp [Expect]⟩
  | c :: cs, at_, st => by
    obtain ⟨h1, h2⟩ := visit_good src c at_ st
    obtain ⟨h3, h4⟩ := visitAll_good src cs at_ st
    rw [visitAll, h1]
    refine ⟨h3, fun x => ?_⟩
    rw [List.mem_append, h2 x, h4 x]
    simp [Expect]
end

theorem inline_stack (src : List Nat) (p : List Mod) : ∀ st at_, (stOf src p st at_).inline.map Prod.fst = st.inline.map Prod.fst ++ names (p.filter Mod.inline) := by
  induction p with
  | nil => intro st at_; simp [stOf, names]
  | cons m p ih =>
    intro st at_
    rw [stOf, ih]
    cases h : m.inline <;> simp [push, h, names]

/-- The names up to the last module in a file. -/
def upToFile (p : List Mod) : List Nat := names (p.reverse.dropWhile Mod.inline).reverse

theorem file_folder (src : List Nat) (p : List Mod) : fileDir src (stOf src p ⟨[], []⟩ []) ++ extra (stOf src p ⟨[], []⟩ []) = src ++ upToFile p := by
  have key : ∀ (n : Nat) (p : List Mod), p.length = n → fileDir src (stOf src p ⟨[], []⟩ []) ++ extra (stOf src p ⟨[], []⟩ []) = src ++ upToFile p := by
    intro n
    induction n with
    | zero =>
      intro p h
      rw [List.eq_nil_of_length_eq_zero h]
      simp [stOf, fileDir, extra, upToFile, names]
    | succ n ih =>
      intro p h
      rcases List.eq_nil_or_concat p with h0 | ⟨q, m, e⟩
      · rw [h0] at h; simp at h
      · have e' : p = q ++ [m] := by simpa using e
        have hq : q.length = n := by rw [e'] at h; simpa using h
        rw [e', stOf_append, List.nil_append]
        cases hi : m.inline
        · cases hr : m.modRs <;> simp [push, hi, hr, fileDir, extra, upToFile, names]
        · have e2 : (push src (names q) (stOf src q ⟨[], []⟩ []) m).regular = (stOf src q ⟨[], []⟩ []).regular := by simp [push, hi]
          have e3 : upToFile (q ++ [m]) = upToFile q := by simp [upToFile, hi]
          have := ih q hq
          unfold fileDir extra at this ⊢
          rw [e2, e3]
          exact this
  exact key p.length p rfl

/-- The folder that is suggested: the names up to the last module in a file, and those of all inline modules around. -/
theorem folder_eq (src : List Nat) (p : List Mod) : modFolder src (stOf src p ⟨[], []⟩ []) = src ++ upToFile p ++ names (p.filter Mod.inline) := by
  unfold modFolder
  rw [← List.append_assoc, file_folder, inline_stack]
  rfl

/-- The test for modules for tests looks at all inline modules around. -/
theorem test_stack (src : List Nat) (p : List Mod) : ∀ st at_, insideTest (stOf src p st at_) = (insideTest st || p.any (fun m => m.inline && m.test)) := by
  induction p with
  | nil => intro st at_; simp [stOf]
  | cons m p ih =>
    intro st at_
    rw [stOf, ih, List.any_cons, ← Bool.or_assoc]
    congr 1
    cases hi : m.inline
    · simp [push, hi, insideTest]
    · simp [push, hi, insideTest, testOf]

/-- Exactly the inline modules that are not made by a macro, not for tests and not inside of an inline module for tests are reported, with this folder. -/
theorem reported_iff (src : List Nat) (mods : List Tree) (n : Nat) (f : List Nat) : (n, f) ∈ check src mods ↔
    ∃ T ∈ mods, ∃ p m, Path T (p ++ [m]) ∧ m.name = n ∧ m.inline = true ∧ m.exp = false ∧ (∀ x ∈ p ++ [m], x.inline = true → x.test = false) ∧
      f = src ++ upToFile p ++ names (p.filter Mod.inline) := by
  have key : ∀ p m, (n, f) ∈ report src (stOf src p ⟨[], []⟩ []) m ↔ (m.name = n ∧ m.inline = true ∧ m.exp = false ∧
      (∀ x ∈ p ++ [m], x.inline = true → x.test = false) ∧ f = src ++ upToFile p ++ names (p.filter Mod.inline)) := by
    intro p m
    rw [report, folder_eq]
    have ht : testOf (stOf src p ⟨[], []⟩ []) m = (p.any (fun m => m.inline && m.test) || m.test) := by
      rw [testOf, test_stack]; rfl
    rw [ht]
    have ha : p.any (fun m => m.inline && m.test) = false ↔ ∀ x ∈ p, x.inline = true → x.test = false := by
      rw [List.any_eq_false]
      refine forall_congr' fun x => forall_congr' fun _ => ?_
      cases x.inline <;> cases x.test <;> simp
    constructor
    · intro h
      split at h
      · rename_i hc
        rw [List.mem_singleton] at h
        injection h with e1 e2
        rw [Bool.and_eq_true, Bool.and_eq_true, Bool.not_eq_true', Bool.not_eq_true', Bool.or_eq_false_iff] at hc
        refine ⟨e1.symm, hc.1.1, hc.2, ?_, e2⟩
        intro x hx hxi
        rcases List.mem_append.1 hx with hx | hx
        · exact ha.1 hc.1.2.1 x hx hxi
        · rw [List.mem_singleton.1 hx]; exact hc.1.2.2
      · cases h
    · rintro ⟨e1, hi, he, hx, e2⟩
      have h1 := ha.2 (fun x hm => hx x (List.mem_append_left _ hm))
      have h2 := hx m (by simp) hi
      rw [h1, h2, hi, he, e1, e2]
      simp
  constructor
  · intro h
    obtain ⟨T, hT, p, m, hp, hx⟩ := ((visitAll_good src mods [] ⟨[], []⟩).2 _).1 h
    exact ⟨T, hT, p, m, hp, (key p m).1 hx⟩
  · rintro ⟨T, hT, p, m, hp, hx⟩
    exact ((visitAll_good src mods [] ⟨[], []⟩).2 _).2 ⟨T, hT, p, m, hp, (key p m).2 hx⟩

theorem filter_none (a : List Mod) (h : ∀ x ∈ a, x.inline = false) : a.filter Mod.inline = [] := by
  rw [List.filter_eq_nil_iff]
  intro x hx
  simp [h x hx]

/-- The folder is the one of the language if no module in a file lies inside of an inline module. Partial: otherwise it is not; see `inline_before_file`. -/
theorem right_folder_partial (src : List Nat) (p : List Mod) (h : FilesFirst p) : src ++ upToFile p ++ names (p.filter Mod.inline) = folder src p := by
  have key : ∀ (n : Nat) (p : List Mod), p.length = n → FilesFirst p → upToFile p ++ names (p.filter Mod.inline) = names p := by
    intro n
    induction n with
    | zero =>
      intro p hl _
      rw [List.eq_nil_of_length_eq_zero hl]
      rfl
    | succ n ih =>
      intro p hl hf
      rcases List.eq_nil_or_concat p with h0 | ⟨q, m, e⟩
      · rw [h0] at hl; simp at hl
      · have e' : p = q ++ [m] := by simpa using e
        have hq : q.length = n := by rw [e'] at hl; simpa using hl
        cases hi : m.inline
        · have hall := hf q m [] e' hi
          rw [e', List.filter_append, filter_none q hall]
          simp [upToFile, names, hi]
        · have hfq : FilesFirst q := by
            intro a x b e2 hx
            exact hf a x (b ++ [m]) (by rw [e', e2]; simp) hx
          have e3 : upToFile (q ++ [m]) = upToFile q := by simp [upToFile, hi]
          rw [e', e3, List.filter_append]
          have e4 : names (q.filter Mod.inline ++ [m].filter Mod.inline) = names (q.filter Mod.inline) ++ [m.name] := by simp [names, hi]
          have e5 : names (q ++ [m]) = names q ++ [m.name] := by simp [names]
          rw [e4, e5, ← List.append_assoc, ih q hq hfq]
  unfold folder
  rw [List.append_assoc, key p.length p rfl h]

/-- In a crate where no module in a file lies inside of an inline module, every report has the folder in which the language looks. Partial: see `inline_before_file`. -/
theorem reported_folder_partial (src : List Nat) (mods : List Tree) (hf : ∀ T ∈ mods, ∀ p, Path T p → FilesFirst p) (n : Nat) (f : List Nat)
    (h : (n, f) ∈ check src mods) : ∃ T ∈ mods, ∃ p m, Path T (p ++ [m]) ∧ m.name = n ∧ m.inline = true ∧ f = folder src p := by
  obtain ⟨T, hT, p, m, hp, hn, hi, _, _, e⟩ := (reported_iff src mods n f).1 h
  have hfp : FilesFirst p := fun a x b e2 hx => hf T hT _ hp a x (b ++ [m]) (by rw [e2]; simp) hx
  exact ⟨T, hT, p, m, hp, hn, hi, by rw [e, right_folder_partial src p hfp]⟩

/-- The folder is that of the language only then. -/
theorem right_folder_only (src : List Nat) (p a b : List Mod) (m x : Mod) (e : p = a ++ m :: b) (hm : m.inline = false) (hb : ∀ y ∈ b, y.inline = true)
    (hx : x ∈ a) (hxi : x.inline = true) : src ++ upToFile p ++ names (p.filter Mod.inline) ≠ folder src p := by
  intro h
  have hl := congrArg List.length h
  have hd : ∀ c : List Mod, (∀ y ∈ c, y.inline = true) → ∀ d, (c ++ m :: d).dropWhile Mod.inline = m :: d := by
    intro c
    induction c with
    | nil => intro _ d; simp [hm]
    | cons y c ih =>
      intro hc d
      rw [List.cons_append, List.dropWhile_cons, if_pos (hc y List.mem_cons_self)]
      exact ih (fun z hz => hc z (List.mem_cons_of_mem _ hz)) d
  have hu : upToFile p = names (a ++ [m]) := by
    unfold upToFile
    have : p.reverse = b.reverse ++ m :: a.reverse := by rw [e]; simp
    rw [this, hd b.reverse (fun y hy => hb y (List.mem_reverse.1 hy))]
    simp
  have hfb : b.filter Mod.inline = b := List.filter_eq_self.2 hb
  rw [hu, e] at hl
  simp [folder, names, hm, hfb] at hl
  have := hl x hx
  simp [hxi] at this

/-- A module in a file that is a `mod.rs` or not, with an inline module that has one inside. -/
def sample (modRs : Bool) : List Tree :=
  [.node ⟨1, false, modRs, false, false⟩ [.node ⟨2, true, false, false, false⟩ [.node ⟨3, true, false, false, false⟩ []]]]

example : check [0] (sample true) = [(2, [0, 1]), (3, [0, 1, 2])] ∧ check [0] (sample false) = [(2, [0, 1]), (3, [0, 1, 2])] := by
  constructor <;> simp [check, sample, visitAll, visit, report, push, testOf, insideTest, modFolder, fileDir, extra]

example : FilesFirst [⟨1, false, true, false, false⟩, ⟨2, true, false, false, false⟩] := by
  intro a m b e hm x hx
  cases a with
  | nil => cases hx
  | cons y a =>
    injection e with e1 e2
    cases a with
    | nil =>
      injection e2 with e2 _
      rw [← e2] at hm
      cases hm
    | cons z a => simp at e2

/-- A module in a file inside of an inline module: for what is inline there, the name of the outer inline module is added again. In `mod a { mod b; }` with `mod c {}` in
`a/b.rs`, the folder is `a/b/a`, not `a/b`. -/
theorem inline_before_file : check [0] [.node ⟨1, true, false, false, false⟩ [.node ⟨2, false, false, false, false⟩ [.node ⟨3, true, false, false, false⟩ []]]] =
      [(1, [0]), (3, [0, 1, 2, 1])] ∧
    folder [0] [⟨1, true, false, false, false⟩, ⟨2, false, false, false, false⟩] = [0, 1, 2] := by
  refine ⟨?_, rfl⟩
  simp [check, visitAll, visit, report, push, testOf, insideTest, modFolder, fileDir, extra]

end Verif.ModFile
