import Verif.Fill.Model

/-!
# Properties: vectors that are made and then filled with zeros
-/

namespace Verif.Fill

/-- Calls give their number and count; as much is allocated as is asked for. -/
def tidy : Sem := ⟨fun k s => (k + s.world, { s with world := s.world + 1 }), fun n _ => n⟩
/-- The same, but at least eight elements are allocated. -/
def roomy : Sem := ⟨tidy.call, fun n _ => max n 8⟩
/-- Vectors of three elements. -/
def start : St := ⟨fun _ => [7, 7, 7], fun _ => 4, fun _ => 5, 0⟩

/-! ## What the visitor finds -/

theorem walk_without (st : Vis) (hf : st.found = false) :
    ∀ n s, sizeOf s ≤ n → Without st.target s → walkExpr st s = st ∧ walkBlock st s = st := by
  intro n
  induction n with
  | zero => intro s h; cases s <;> simp at h
  | succ n ih =>
    intro s h hw
    cases s with
    | alloc i v sz => simp [walkExpr, walkBlock, atAlloc, Without] at hw ⊢; exact fun h => absurd h hw
    | armAlloc i v sz => simp [walkExpr, walkBlock, atAlloc, Without] at hw ⊢; exact fun h => absurd h hw
    | resize => simp [walkExpr, walkBlock]
    | extend => simp [walkExpr, walkBlock]
    | other => simp [walkExpr, walkBlock]
    | nil => simp [walkExpr, walkBlock]
    | within b =>
        have := ih b (by simp at h; omega) hw
        refine ⟨?_, by simp [walkBlock]⟩
        rw [walkExpr]
        unfold visitBlock
        simp [hf, this.2]
    | last s =>
        have := ih s (by simp at h; omega) hw
        simp [walkExpr, walkBlock, this.1]
    | cons s rest =>
        have h1 := ih s (by simp at h; omega) hw.1
        have h2 := ih rest (by simp at h; omega) hw.2
        simp [walkExpr, walkBlock, visitStmt, hf, h1.1, h2.2]

theorem walk_pre (st : Vis) (hf : st.found = false) (pre : List S) (post : S) (hp : ∀ s ∈ pre, Without st.target s) :
    walkBlock st (stmts pre post) = walkBlock st post := by
  induction pre with
  | nil => rfl
  | cons s pre ih =>
    have h1 := (walk_without st hf _ s (Nat.le_refl _) (hp s (by simp))).1
    simp only [stmts, walkBlock, visitStmt, hf, h1, Bool.false_eq_true, if_false]
    exact ih (fun t ht => hp t (by simp [ht]))

theorem search_target (st : Vis) (t : S) : (search st t).target = st.target := by
  cases t <;> simp [search] <;> split <;> rfl

theorem walk_next (st : Vis) (hf : st.found = false) (hs : st.slow = none) (v : Nat) (size : Option Ex) (t rest : S)
    (hr : Without st.target rest) :
    walkBlock st (.cons (.alloc st.target v size) (.cons t rest)) = { search { st with found := true } t with found := false } := by
  have h : ({ search { st with found := true } t with found := false } : Vis).target = st.target := search_target _ t
  simp only [walkBlock, visitStmt, hf, walkExpr, atAlloc, if_true, Bool.false_eq_true, if_false]
  exact (walk_without _ rfl _ rest (Nat.le_refl _) (by rw [h]; exact hr)).2

theorem search_iff (st : Vis) (hs : st.slow = none) (t : S) (f : Nat) (n : Option Ex) :
    (search st t).slow.map (fun f => (f, (search st t).size)) = some (f, n) ↔
      ∃ len, Fills t f st.var len ∧
        ((st.size = none ∧ n = some len) ∨ ∃ e, st.size = some e ∧ n = some e ∧ (len = e ∨ ∃ u, len = .cap u)) := by
  obtain ⟨var, target, size, slow, found⟩ := st
  simp only at hs
  subst hs
  have key : ∀ len : Ex, (fits size len = true ↔ size = none ∨ ∃ e, size = some e ∧ (len = e ∨ ∃ u, len = .cap u)) := by
    intro len
    cases size with
    | none => simp [fits]
    | some e => cases len <;> simp [fits, isCapacity]
  constructor
  · intro h
    have hh : ∃ id v len zero, (t = .resize id v len zero ∨ t = .extend id v len zero) ∧ v = var ∧ zero = true ∧
        fits size len = true ∧ id = f ∧ newSize size len = n := by
      cases t with
      | resize id v len zero =>
          by_cases hc : v = var ∧ zero = true ∧ fits size len = true
          · rw [search, if_pos hc] at h
            simp only [Option.map_some, Option.some.injEq, Prod.mk.injEq] at h
            exact ⟨id, v, len, zero, Or.inl rfl, hc.1, hc.2.1, hc.2.2, h.1, h.2⟩
          · rw [search, if_neg hc] at h; cases h
      | extend id v len zero =>
          by_cases hc : v = var ∧ zero = true ∧ fits size len = true
          · rw [search, if_pos hc] at h
            simp only [Option.map_some, Option.some.injEq, Prod.mk.injEq] at h
            exact ⟨id, v, len, zero, Or.inr rfl, hc.1, hc.2.1, hc.2.2, h.1, h.2⟩
          · rw [search, if_neg hc] at h; cases h
      | _ => simp [search] at h
    obtain ⟨id, v, len, zero, ht, rfl, rfl, hfit, rfl, rfl⟩ := hh
    refine ⟨len, ?_, ?_⟩
    · rcases ht with rfl | rfl
      · exact .resize _ _ _
      · exact .extend _ _ _
    · rcases (key len).1 hfit with h0 | ⟨e, h0, h1⟩
      · subst h0; exact Or.inl ⟨rfl, rfl⟩
      · subst h0; exact Or.inr ⟨e, rfl, rfl, h1⟩
  · rintro ⟨len, ht, h⟩
    have hfit : fits size len = true := (key len).2 (by
      rcases h with ⟨h, _⟩ | ⟨e, h, _, h2⟩
      · exact Or.inl h
      · exact Or.inr ⟨e, h, h2⟩)
    have hn : newSize size len = n := by
      rcases h with ⟨h, h1⟩ | ⟨e, h, h1, _⟩
      · subst h; exact h1.symm
      · subst h; exact h1.symm
    cases ht with
    | resize =>
      rw [search, if_pos ⟨rfl, rfl, hfit⟩]
      simp [hn]
    | extend =>
      rw [search, if_pos ⟨rfl, rfl, hfit⟩]
      simp [hn]

/-- C131: exactly the following is reported when a statement follows in the block of the allocation: that statement
fills the same vector with zeros, to the length that was asked for — or to some capacity. -/
theorem reported_iff (pre : List S) (a v : Nat) (size : Option Ex) (t rest : S) (hp : ∀ s ∈ pre, Without a s)
    (hr : Without a rest) (f : Nat) (n : Option Ex) :
    check (stmts pre (.cons (.alloc a v size) (.cons t rest))) a v size = some (f, n) ↔
      ∃ len, Fills t f v len ∧
        ((size = none ∧ n = some len) ∨ ∃ e, size = some e ∧ n = some e ∧ (len = e ∨ ∃ u, len = .cap u)) := by
  have h1 := walk_pre ⟨v, a, size, none, false⟩ rfl pre (.cons (.alloc a v size) (.cons t rest)) hp
  have h2 := walk_next ⟨v, a, size, none, false⟩ rfl rfl v size t rest hr
  simp only at h2
  rw [check, h1, h2]
  exact search_iff ⟨v, a, size, none, true⟩ rfl t f n

example : check (stmts [.other 1] (.cons (.alloc 2 0 (some (.var 3))) (.cons (.resize 4 0 (.var 3) true) .nil))) 2 0
    (some (.var 3)) = some (4, some (.var 3)) := by
  rw [reported_iff _ _ _ _ _ _ (by simp [Without]) (by simp [Without])]
  exact ⟨_, .resize _ _ _, Or.inr ⟨_, rfl, rfl, Or.inl rfl⟩⟩

/-- C131: a vector that is not filled at once is not reported. -/
theorem other_between (pre : List S) (a v k : Nat) (size : Option Ex) (rest : S) (hp : ∀ s ∈ pre, Without a s)
    (hr : Without a rest) : check (stmts pre (.cons (.alloc a v size) (.cons (.other k) rest))) a v size = none := by
  cases h : check (stmts pre (.cons (.alloc a v size) (.cons (.other k) rest))) a v size with
  | none => rfl
  | some r =>
    obtain ⟨len, hl, _⟩ := (reported_iff pre a v size (.other k) rest hp hr r.1 r.2).1 h
    cases hl

example : ∀ s ∈ [S.other 1, .within (.last (.other 2))], Without 7 s := by simp [Without]

/-- C131: nor is one when the statement that fills it is inside the next statement. -/
theorem nested_after (pre : List S) (a v : Nat) (size : Option Ex) (b rest : S) (hp : ∀ s ∈ pre, Without a s)
    (hr : Without a rest) : check (stmts pre (.cons (.alloc a v size) (.cons (.within b) rest))) a v size = none := by
  cases h : check (stmts pre (.cons (.alloc a v size) (.cons (.within b) rest))) a v size with
  | none => rfl
  | some r =>
    obtain ⟨len, hl, _⟩ := (reported_iff pre a v size (.within b) rest hp hr r.1 r.2).1 h
    cases hl

example : check (.cons (.alloc 1 0 none) (.cons (.within (.cons (.resize 2 0 (.lit 3) true) .nil)) .nil)) 1 0 none = none :=
  nested_after [] 1 0 none _ .nil (by simp) (by simp [Without])

/-! ## What the suggestion does -/

theorem Same.refl (s : St) : Same s s := ⟨rfl, rfl, rfl⟩

/-- Full claim: `vec![0; n]` gives what allocating and filling gave. Proved (apart from capacities) when the length does
nothing and does not look at the vector, and is not a capacity. -/
theorem filled_same_partial (I : Sem) (pre : List S) (a v : Nat) (size : Option Ex) (t rest : S)
    (hp : ∀ s ∈ pre, Without a s) (hr : Without a rest) (f : Nat) (n : Option Ex)
    (h : check (stmts pre (.cons (.alloc a v size) (.cons t rest))) a v size = some (f, n))
    (hq : ∀ len, Fills t f v len → Quiet I len v) (hc : ∀ u, ¬ Fills t f v (.cap u)) :
    ∃ len, n = some len ∧ ∀ s, Same (runFill I t (runAlloc I v size s)) (runVec I v len s) := by
  obtain ⟨len, ht, hn⟩ := (reported_iff pre a v size t rest hp hr f n).1 h
  have hq := hq len ht
  have hsz : n = some len ∧ (size = none ∨ size = some len) := by
    rcases hn with ⟨h0, h1⟩ | ⟨e, h0, h1, h2 | ⟨u, h2⟩⟩
    · exact ⟨h1, Or.inl h0⟩
    · subst h2; exact ⟨h1, Or.inr h0⟩
    · subst h2; exact absurd ht (hc u)
  refine ⟨len, hsz.1, fun s => ?_⟩
  have halloc : ∃ c, runAlloc I v size s = s.put v [] c := by
    rcases hsz.2 with h0 | h0
    · subst h0; exact ⟨0, rfl⟩
    · subst h0
      refine ⟨I.room (len.eval I s).1 s, ?_⟩
      simp only [runAlloc, (hq s [] 0).1]
  obtain ⟨c, hal⟩ := halloc
  rw [hal]
  have e1 := (hq s [] c).1
  have e2 := (hq s [] c).2.1
  have e3 := (hq s [] c).2.2
  cases ht with
  | resize =>
    refine ⟨?_, ?_, ?_⟩
    · funext u
      simp only [runFill, runResize, runVec, e1, e2, e3]
      by_cases hu : u = v <;> simp [St.put, hu]
    · simp only [runFill, runResize, runVec, e1, e3]
      rfl
    · simp only [runFill, runResize, runVec, e1, e3]
      rfl
  | extend =>
    refine ⟨?_, ?_, ?_⟩
    · funext u
      simp only [runFill, runExtend, runVec, e1, e2, e3]
      by_cases hu : u = v <;> simp [St.put, hu]
    · simp only [runFill, runExtend, runVec, e1, e3]
      rfl
    · simp only [runFill, runExtend, runVec, e1, e3]
      rfl

example (I : Sem) : Quiet I (.var 3) 0 := fun s l c => ⟨rfl, rfl, rfl⟩
example : ∀ u, ¬ Fills (.resize 4 0 (.var 3) true) 4 0 (.cap u) := by intro u h; cases h

/-- C131: a literal or another variable is always a good length. -/
theorem plain_quiet (I : Sem) (v : Nat) (e : Ex) (h : (∃ n, e = .lit n) ∨ (∃ k, e = .var k) ∨ ∃ u, u ≠ v ∧ e = .len u) :
    Quiet I e v := by
  rcases h with ⟨n, rfl⟩ | ⟨k, rfl⟩ | ⟨u, hu, rfl⟩
  · exact fun s l c => ⟨rfl, rfl, rfl⟩
  · exact fun s l c => ⟨rfl, rfl, rfl⟩
  · refine fun s l c => ⟨rfl, ?_, rfl⟩
    simp [Ex.eval, St.put, hu]

example : (1 : Nat) ≠ 0 := by decide

/-! ## Findings -/

/-- Any method `capacity` is taken for the capacity of this vector: `let mut v = Vec::with_capacity(3);
v.resize(w.capacity(), 0);` becomes `vec![0; 3]`. -/
theorem other_capacity : ∃ t, check (.cons (.alloc 1 0 (some (.lit 3))) (.cons t .nil)) 1 0 (some (.lit 3)) = some (2, some (.lit 3)) ∧
    ¬ Same (runFill tidy t (runAlloc tidy 0 (some (.lit 3)) start)) (runVec tidy 0 (.lit 3) start) := by
  refine ⟨.resize 2 0 (.cap 9) true, by simp [check, walkBlock, visitStmt, walkExpr, atAlloc, search, fits, newSize, isCapacity], fun h => ?_⟩
  have := congrFun h.1 0
  revert this
  decide +kernel

/-- More may be allocated than was asked for: then `v.resize(v.capacity(), 0)` makes a longer vector. -/
theorem own_capacity : ∃ t, check (.cons (.alloc 1 0 (some (.lit 3))) (.cons t .nil)) 1 0 (some (.lit 3)) = some (2, some (.lit 3)) ∧
    ¬ Same (runFill roomy t (runAlloc roomy 0 (some (.lit 3)) start)) (runVec roomy 0 (.lit 3) start) := by
  refine ⟨.resize 2 0 (.cap 0) true, by simp [check, walkBlock, visitStmt, walkExpr, atAlloc, search, fits, newSize, isCapacity], fun h => ?_⟩
  have := congrFun h.1 0
  revert this
  decide +kernel

/-- A call for the length is made once instead of twice. -/
theorem call_once : ∃ t, check (.cons (.alloc 1 0 (some (.call 3))) (.cons t .nil)) 1 0 (some (.call 3)) = some (2, some (.call 3)) ∧
    ¬ Same (runFill tidy t (runAlloc tidy 0 (some (.call 3)) start)) (runVec tidy 0 (.call 3) start) := by
  refine ⟨.resize 2 0 (.call 3) true, by simp [check, walkBlock, visitStmt, walkExpr, atAlloc, search, fits, newSize, isCapacity], fun h => ?_⟩
  have := h.2.2
  revert this
  decide +kernel

/-- `v = Vec::new(); v.resize(v.len(), 0);`: in `v = vec![0; v.len()]` the length is that of the old vector. -/
theorem old_length : ∃ t, check (.cons (.alloc 1 0 none) (.cons t .nil)) 1 0 none = some (2, some (.len 0)) ∧
    ¬ Same (runFill tidy t (runAlloc tidy 0 none start)) (runVec tidy 0 (.len 0) start) := by
  refine ⟨.resize 2 0 (.len 0) true, by simp [check, walkBlock, visitStmt, walkExpr, atAlloc, search, fits, newSize, isCapacity], fun h => ?_⟩
  have := congrFun h.1 0
  revert this
  decide +kernel

/-- When the expression at the end of the block has a block, its first statement counts as the next one: everything from
the allocation to there is replaced, also the `if c {` between them. -/
theorem cut_last (a v f : Nat) (len : Ex) (rest : S) :
    check (.cons (.alloc a v none) (.last (.within (.cons (.resize f v len true) rest)))) a v none = some (f, some len) := by
  simp [check, walkBlock, visitStmt, walkExpr, visitBlock, atAlloc, search, fits, newSize]

/-- The same after a `match` with the allocation in an arm: the end of the `match` is replaced too. -/
theorem cut_arm (a v f : Nat) (len : Ex) :
    check (.cons (.armAlloc a v none) (.cons (.resize f v len true) .nil)) a v none = some (f, some len) := by
  simp [check, walkBlock, visitStmt, walkExpr, atAlloc, search, fits, newSize]

example : check (.cons (.alloc 1 0 none) (.last (.within (.cons (.resize 2 0 (.lit 3) true) .nil)))) 1 0 none =
    some (2, some (.lit 3)) := cut_last 1 0 2 (.lit 3) .nil

end Verif.Fill
