import Verif.Share.Props

/-!
# C96: a program that meets the hypotheses
-/

namespace Verif.Share

/-- A machine: operations below 10 only look at the first variable, 20 increases its first variable, all others write what
they were given to a log. -/
def demoExec (op : Nat) (ls : List Nat) (mem : Nat → Nat) (rest : List (List Nat)) :
    (Nat → Nat) × List (List Nat) × Flow Nat :=
  if op < 10 then (mem, rest, .val ((ls.map mem).headD 0))
  else if op = 20 then (fun l => if ls.head? = some l then mem l + 1 else mem l, rest ++ [op :: ls.map mem], .val op)
  else (mem, rest ++ [op :: ls.map mem], .val op)

def demoSys : Sys (List (List Nat)) Nat := ⟨demoExec, (· != 0), fun _ v i => v + i, 0⟩

/-- Only operation 20 needs a mutable reference.  An operation is its own hash. -/
def demoFacts : Facts := ⟨fun x => x == 99, fun op i => !(op == 20 && i == 0), fun s => s.code.op, fun c => c.op⟩

/-- Numbers from 100 on are declarations in blocks: their name is their last digit. -/
def demoName (u : Id) : Name := u % 10

def demoWorld : World (List (List Nat)) Nat := ⟨10, fun l => l, []⟩

theorem demo_frame : Frame demoSys demoFacts.imm := by
  intro op ls mem rest l h
  simp only [demoSys, demoExec]
  split
  · rfl
  · split
    · next h2 =>
      by_cases hl : ls.head? = some l
      · have := h 0 (by rw [List.head?_eq_getElem?] at hl; exact hl)
        simp [demoFacts, h2] at this
      · simp only [if_neg hl]
    · rfl

theorem demo_quiet {cs : List TCode} (h : ∀ c ∈ cs, c.op < 10) : Quiet demoSys cs := by
  intro c hc
  refine ⟨fun vs => vs.headD 0, fun ls mem rest => ?_⟩
  simp only [demoSys, demoExec, if_pos (h c hc)]

/-- `if x1 { let x2 = 11(x1); 12(x2); let x3 = 13(); 14(x2, x3); let x3 = 15(); 16(x3) } else ..` -/
def demoFirst : Block :=
  ⟨[.let_ 0 0 [102] ⟨11, [1]⟩, .expr 1 ⟨12, [102]⟩, .let_ 2 0 [103] ⟨13, []⟩, .expr 3 ⟨14, [102, 103]⟩,
    .let_ 4 0 [113] ⟨15, [102]⟩], some ⟨16, [113]⟩⟩
def demoOther : Block :=
  ⟨[.let_ 5 0 [202] ⟨11, [1]⟩, .expr 6 ⟨12, [202]⟩, .expr 7 ⟨20, [202]⟩, .let_ 8 0 [213] ⟨15, [202]⟩], some ⟨16, [213]⟩⟩
def demoConds : List Code := [⟨5, [1]⟩]

theorem demo_scan : scan demoFacts demoName demoConds demoFirst [demoOther] = ⟨2, some 1⟩ := by decide +kernel

/-- Bounded search for a declaration. -/
def resolvesB (out : Name → Id) (ss : List Stmt) (p : Nat) (u : Id) : Bool :=
  ((List.range p).any fun a => match ss[a]? with
    | some s => s.binders.contains u && (List.range p).all fun a' => a' ≤ a || match ss[a']? with
      | some s' => !(s'.binders.map demoName).contains (demoName u)
      | none => true
    | none => false) ||
  (u == out (demoName u) && (List.range p).all fun a' => match ss[a']? with
      | some s' => !(s'.binders.map demoName).contains (demoName u)
      | none => true)

theorem resolvesB_spec {out : Name → Id} {ss : List Stmt} {p : Nat} {u : Id} (h : resolvesB out ss p u = true) :
    Resolves demoName out ss p u := by
  unfold resolvesB at h
  rw [Bool.or_eq_true] at h
  rcases h with h | h
  · rw [List.any_eq_true] at h
    obtain ⟨a, ha, h⟩ := h
    cases hs : ss[a]? with
    | none => simp [hs] at h
    | some s =>
      simp only [hs, Bool.and_eq_true, List.contains_iff_mem] at h
      refine .inl ⟨a, s, List.mem_range.mp ha, hs, h.1, fun a' s' h1 h2 h3 => ?_⟩
      have := List.all_eq_true.mp h.2 a' (List.mem_range.mpr h2)
      simp only [h3, Bool.or_eq_true, decide_eq_true_eq, Bool.not_eq_true'] at this
      rcases this with this | this
      · omega
      · intro hm
        rw [List.contains_iff_mem.mpr hm] at this
        exact nomatch this
  · rw [Bool.and_eq_true, beq_iff_eq] at h
    refine .inr ⟨h.1, fun a' s' h2 h3 => ?_⟩
    have := List.all_eq_true.mp h.2 a' (List.mem_range.mpr h2)
    simp only [h3, Bool.not_eq_true'] at this
    intro hm
    rw [List.contains_iff_mem.mpr hm] at this
    exact nomatch this

def resolvedB (out : Name → Id) (b : Block) : Bool :=
  ((List.range b.stmts.length).all fun p => match b.stmts[p]? with
    | some s => s.code.uses.all (resolvesB out b.stmts p)
    | none => true) &&
  match b.tail with
  | some c => c.uses.all (resolvesB out b.stmts b.stmts.length)
  | none => true

theorem resolvedB_spec {out : Name → Id} {b : Block} (h : resolvedB out b = true) : Resolved demoName out b := by
  unfold resolvedB at h
  rw [Bool.and_eq_true] at h
  refine ⟨fun p s u hs hu => ?_, fun c u hc hu => ?_⟩
  · have := List.all_eq_true.mp h.1 p (List.mem_range.mpr (List.getElem?_eq_some_iff.mp hs).1)
    simp only [hs] at this
    exact resolvesB_spec (List.all_eq_true.mp this u hu)
  · have := h.2
    simp only [hc] at this
    exact resolvesB_spec (List.all_eq_true.mp this u hu)

/-- All declarations with their places. -/
def declsB (bs : List Block) : List (Id × Nat × Nat) :=
  (List.range bs.length).flatMap fun j => match bs[j]? with
    | some b => (List.range b.stmts.length).flatMap fun a => match b.stmts[a]? with
      | some s => s.binders.map fun u => (u, j, a)
      | none => []
    | none => []

theorem mem_declsB {bs : List Block} {j : Nat} {b : Block} {a : Nat} {s : Stmt} {u : Id} (hb : bs[j]? = some b)
    (hs : b.stmts[a]? = some s) (hu : u ∈ s.binders) : (u, j, a) ∈ declsB bs := by
  unfold declsB
  refine List.mem_flatMap.mpr ⟨j, List.mem_range.mpr (List.getElem?_eq_some_iff.mp hb).1, ?_⟩
  simp only [hb]
  refine List.mem_flatMap.mpr ⟨a, List.mem_range.mpr (List.getElem?_eq_some_iff.mp hs).1, ?_⟩
  simp only [hs]
  exact List.mem_map.mpr ⟨u, hu, rfl⟩

def distinctB (bs : List Block) : Bool :=
  (declsB bs).all fun d => 100 ≤ d.1 && (declsB bs).all fun e => d.1 != e.1 || d == e

/-- Outside of the blocks, the number of a variable is its name. -/
def demoOut (x : Name) : Id := x % 10

theorem distinctB_spec {bs : List Block} (h : distinctB bs = true) : Distinct demoOut bs := by
  unfold distinctB at h
  refine ⟨fun j b a s u x h1 h2 h3 h4 => ?_, fun j j' b b' a a' s s' u h1 h2 h3 h4 h5 h6 => ?_⟩
  · have := List.all_eq_true.mp h _ (mem_declsB h1 h2 h3)
    simp only [Bool.and_eq_true, decide_eq_true_eq] at this
    have h5 : @LE.le Nat _ 100 u := this.1
    have h6 : @Eq Nat (@HMod.hMod Nat Nat Nat _ x 10) u := h4
    have h7 := Nat.mod_lt (show Nat from x) (show 10 > 0 by decide)
    rw [h6] at h7
    exact absurd h5 (Nat.not_le.mpr (Nat.lt_of_lt_of_le h7 (by decide)))
  · have := List.all_eq_true.mp h _ (mem_declsB h1 h3 h5)
    rw [Bool.and_eq_true] at this
    have := List.all_eq_true.mp this.2 _ (mem_declsB h2 h4 h6)
    simpa using this

theorem plain_first {b : Block} (h : (b.stmts.map Stmt.site).Nodup) : Plain b := by
  intro a a' s s' h1 h2 h3
  obtain ⟨l1, e1⟩ := List.getElem?_eq_some_iff.mp h1
  obtain ⟨l2, e2⟩ := List.getElem?_eq_some_iff.mp h2
  have := List.getElem_inj (i := a) (j := a') (h₀ := by simpa using l1) (h₁ := by simpa using l2) h
  rw [← this]
  simp [e1, e2, h3]

theorem demo_valid : Valid demoName demoOut demoConds demoFirst [demoOther] := by
  refine ⟨rfl, by simp [demoConds], distinctB_spec (by decide +kernel), fun b hb => ?_, ?_, plain_first (by decide +kernel)⟩
  · simp only [List.mem_cons, List.not_mem_nil, or_false] at hb
    rcases hb with rfl | rfl <;> exact resolvedB_spec (by decide +kernel)
  · decide +kernel

/-- Both theorems apply. -/
example : (moveBoth demoName demoConds demoFirst [demoOther] 2 1).run demoSys (fun x => x) demoWorld =
    (original demoName demoConds demoFirst [demoOther]).run demoSys (fun x => x) demoWorld := by
  refine both_same_partial demo_valid (demo_quiet (by decide +kernel)) demo_frame demo_scan ?_ (by decide +kernel) ?_
  · rintro a s x ha hs ⟨c, hc, u, hu, rfl⟩
    simp only [demoConds, List.mem_singleton] at hc; subst hc
    simp only [List.mem_singleton] at hu; subst hu
    have : a = 0 ∨ a = 1 := by omega
    rcases this with rfl | rfl <;> (simp [demoFirst] at hs; subst hs; decide)
  · rintro x ⟨c, hc, u, hu, rfl⟩
    simp only [demoConds, List.mem_singleton] at hc; subst hc
    simp only [List.mem_singleton] at hu; subst hu
    exact ⟨by decide, fun y hy => hy⟩

example : (moveStart demoName demoConds demoFirst [demoOther] 2).run demoSys (fun x => x) demoWorld =
    (original demoName demoConds demoFirst [demoOther]).run demoSys (fun x => x) demoWorld := by
  refine start_same_partial demo_valid (demo_quiet (by decide +kernel)) demo_frame (by rw [demo_scan]) ?_ ?_
  · rintro a s x ha hs ⟨c, hc, u, hu, rfl⟩
    simp only [demoConds, List.mem_singleton] at hc; subst hc
    simp only [List.mem_singleton] at hu; subst hu
    have : a = 0 ∨ a = 1 := by omega
    rcases this with rfl | rfl <;> (simp [demoFirst] at hs; subst hs; decide)
  · rintro x ⟨c, hc, u, hu, rfl⟩
    simp only [demoConds, List.mem_singleton] at hc; subst hc
    simp only [List.mem_singleton] at hu; subst hu
    exact ⟨by decide, fun y hy => hy⟩

/-- The program does something. -/
example : ((original demoName demoConds demoFirst [demoOther]).run demoSys (fun x => x) demoWorld).1.rest =
    [[11, 1], [12, 11], [13], [14, 11, 13], [15, 11], [16, 15]] := by decide +kernel

example : demoFacts.ordered 102 = false :=
  start_unordered_partial (nm := demoName) (conds := demoConds) (first := demoFirst) (others := [demoOther])
    (s := .let_ 0 0 [102] ⟨11, [1]⟩) demo_valid.plain (by simp) (by decide +kernel) (by decide)

/-! ## Findings -/

/-- What a program writes. -/
def logOf (p : Prog) (w : World (List (List Nat)) Nat) : List (List Nat) := (p.run demoSys (fun x => x) w).1.rest

def zeroWorld : World (List (List Nat)) Nat := ⟨10, fun _ => 0, []⟩

/-- `if x1 { let x1 = 11(); 12() } else { let x1 = 11(); 13() }`: behind the moved declaration, the condition reads another
variable. -/
theorem shadows_condition :
    let first : Block := ⟨[.let_ 0 0 [101] ⟨11, []⟩, .expr 1 ⟨12, []⟩], none⟩
    let other : Block := ⟨[.let_ 2 0 [201] ⟨11, []⟩, .expr 3 ⟨13, []⟩], none⟩
    scan demoFacts demoName demoConds first [other] = ⟨1, some 0⟩ ∧
    Valid demoName demoOut demoConds first [other] ∧
    logOf (original demoName demoConds first [other]) zeroWorld = [[11], [13]] ∧
    logOf (moveStart demoName demoConds first [other] 1) zeroWorld = [[11], [12]] := by
  refine ⟨by decide +kernel, ?_, by decide +kernel, by decide +kernel⟩
  refine ⟨rfl, by simp [demoConds], distinctB_spec (by decide +kernel), fun b hb => ?_, by decide +kernel,
    plain_first (by decide +kernel)⟩
  simp only [List.mem_cons, List.not_mem_nil, or_false] at hb
  rcases hb with rfl | rfl <;> exact resolvedB_spec (by decide +kernel)

/-- `if 17() { 11(); 12() } else { 11(); 13() }`: the condition has effects. -/
theorem before_condition :
    let conds : List Code := [⟨17, []⟩]
    let first : Block := ⟨[.expr 0 ⟨11, []⟩, .expr 1 ⟨12, []⟩], none⟩
    let other : Block := ⟨[.expr 2 ⟨11, []⟩, .expr 3 ⟨13, []⟩], none⟩
    scan demoFacts demoName conds first [other] = ⟨1, some 0⟩ ∧
    Valid demoName demoOut conds first [other] ∧
    logOf (original demoName conds first [other]) zeroWorld = [[17], [11], [12]] ∧
    logOf (moveStart demoName conds first [other] 1) zeroWorld = [[11], [17], [12]] := by
  refine ⟨by decide +kernel, ?_, by decide +kernel, by decide +kernel⟩
  refine ⟨rfl, by simp, distinctB_spec (by decide +kernel), fun b hb => ?_, by decide +kernel,
    plain_first (by decide +kernel)⟩
  simp only [List.mem_cons, List.not_mem_nil, or_false] at hb
  rcases hb with rfl | rfl <;> exact resolvedB_spec (by decide +kernel)

/-- `if x1 { 11(); 12(); 11() } else { 11() }`: the same statement is the start and the end of the second block. -/
theorem start_end_overlap :
    let first : Block := ⟨[.expr 0 ⟨11, []⟩, .expr 1 ⟨12, []⟩, .expr 2 ⟨11, []⟩], none⟩
    let other : Block := ⟨[.expr 3 ⟨11, []⟩], none⟩
    scan demoFacts demoName demoConds first [other] = ⟨1, some 1⟩ ∧
    Valid demoName demoOut demoConds first [other] ∧
    logOf (original demoName demoConds first [other]) zeroWorld = [[11]] ∧
    logOf (moveBoth demoName demoConds first [other] 1 1) zeroWorld = [[11], [11]] := by
  refine ⟨by decide +kernel, ?_, by decide +kernel, by decide +kernel⟩
  refine ⟨rfl, by simp [demoConds], distinctB_spec (by decide +kernel), fun b hb => ?_, by decide +kernel,
    plain_first (by decide +kernel)⟩
  simp only [List.mem_cons, List.not_mem_nil, or_false] at hb
  rcases hb with rfl | rfl <;> exact resolvedB_spec (by decide +kernel)

/-- `if x1 { 11(); let x9 = guard(); 14() } else { 12(); 14() }`: the variable that must be dropped at the end of its branch
(number 99) is behind the first difference, and so it is not seen: `14()` is to be moved behind its drop. -/
theorem guard_unseen :
    let first : Block := ⟨[.expr 0 ⟨11, []⟩, .let_ 1 0 [99] ⟨13, []⟩, .expr 2 ⟨14, []⟩], none⟩
    let other : Block := ⟨[.expr 3 ⟨12, []⟩, .expr 4 ⟨14, []⟩], none⟩
    demoFacts.ordered 99 = true ∧ (scan demoFacts demoName demoConds first [other]).endd = some 1 ∧
    (scan demoFacts demoName demoConds ⟨first.stmts.drop 1, none⟩ [⟨other.stmts.drop 1, none⟩]).endd = none := by
  decide +kernel

/-- `if x1 { m!(x2, 11()); 14(x2) } else { m!(x2, 12()); 14(x2) }`, where `m!(x, e)` is `let x = 10(); e;`: the declaration
stays because its macro call differs, but `14(x2)` is still to be moved behind the `if`, where `x2` is another variable. -/
theorem macro_leaves_use :
    let first : Block := ⟨[.let_ 0 0 [102] ⟨10, []⟩, .expr 0 ⟨11, []⟩, .expr 1 ⟨14, [102]⟩], none⟩
    let other : Block := ⟨[.let_ 2 0 [202] ⟨10, []⟩, .expr 2 ⟨12, []⟩, .expr 3 ⟨14, [202]⟩], none⟩
    scan demoFacts demoName demoConds first [other] = ⟨0, some 1⟩ ∧
    (∀ b ∈ [first, other], Resolved demoName demoOut b) ∧ Distinct demoOut [first, other] ∧
    logOf (original demoName demoConds first [other]) zeroWorld = [[10], [12], [14, 10]] ∧
    logOf (moveBoth demoName demoConds first [other] 0 1) zeroWorld = [[10], [12], [14, 0]] := by
  refine ⟨by decide +kernel, fun b hb => ?_, distinctB_spec (by decide +kernel), by decide +kernel, by decide +kernel⟩
  simp only [List.mem_cons, List.not_mem_nil, or_false] at hb
  rcases hb with rfl | rfl <;> exact resolvedB_spec (by decide +kernel)

end Verif.Share
