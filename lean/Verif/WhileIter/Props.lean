import Verif.WhileIter.Frame
import Verif.WhileIter.After

/-!
# `while let Some(x) = p.next()` as a `for` loop
-/

namespace Verif.WhileIter

theorem check_parse {mutRef : Bool} {fn p b : Expr} {s : Sugg} (hc : check mutRef fn p b = some s) :
    ∃ fs x mv, parse p [] true = some (fs, x, mv) ∧ usesIter x fs b = false ∧
      (s = .byValue → mv = true ∧ fs = [] ∧ needsBorrow x [] fn = false) := by
  unfold check at hc
  split at hc
  · exact nomatch hc
  · rename_i fs x mv hp
    split at hc
    · exact nomatch hc
    · rename_i hu
      refine ⟨fs, x, mv, hp, by simpa using hu, ?_⟩
      intro hs
      split at hc
      · cases hc; exact nomatch hs
      · rename_i hn
        simp only [Bool.or_eq_true, not_or, Bool.not_eq_true, Bool.not_eq_false', List.isEmpty_iff] at hn
        obtain ⟨⟨⟨_, h2⟩, rfl⟩, h4⟩ := hn
        exact ⟨h2, rfl, h4⟩

/-- The body of the loop does not access the iterator, which is borrowed all the time in the `for` loop.
Missing: bodies in which a field is selected through a call of `deref` that the compiler puts in (see
`deref_missed`). -/
theorem body_apart_partial (mutRef : Bool) (fn p b : Expr) (s : Sugg) (hc : check mutRef fn p b = some s)
    (pl : Place) (hp : (place p).1 = some pl) (hb : noAuto b = true ∨ pl.fields = []) :
    ∀ q, (pl.var, q) ∈ accs b → ¬ Overlap pl.fields q := by
  obtain ⟨fs, x, mv, h1, h2, _⟩ := check_parse hc
  obtain ⟨p', ex, e1, e2, _, _⟩ := parse_place p _ _ _ _ _ h1
  rw [hp] at e1
  cases e1
  have hfs : fs = p'.reverse := by cases ex <;> simpa using e2
  subst hfs
  intro q hq
  exact (visit_clear x p' b false hb h2).accs (x, q) hq rfl

/-- The `for` loop does the same if nothing that an index in the iterator's place reads is touched by the
body.  Missing: bodies that change an index (see `index_changes`). -/
theorem loop_same_partial (mutRef : Bool) (fn p b : Expr) (s : Sugg) (hc : check mutRef fn p b = some s)
    (x : Var) (hacc : ∀ a ∈ operands p, ∀ c ∈ accs b, a.1 = c.1 → ¬ Overlap a.2 c.2)
    (hdecl : ∀ a ∈ operands p, a.1 ≠ x ∧ a.1 ∉ decls b) (k : Nat) (σ : St) :
    eval k (.here x p b) σ = evalFor k x p b σ := by
  obtain ⟨fs, y, mv, h1, _, _⟩ := check_parse hc
  obtain ⟨_, _, _, _, _, h4⟩ := parse_place p _ _ _ _ _ h1
  exact same_rounds k x p b h4 hacc hdecl σ

/-- Without an index the loops always do the same. -/
theorem loop_same (mutRef : Bool) (fn p b : Expr) (s : Sugg) (hc : check mutRef fn p b = some s)
    (x : Var) (hop : operands p = []) (k : Nat) (σ : St) : eval k (.here x p b) σ = evalFor k x p b σ :=
  loop_same_partial mutRef fn p b s hc x (by simp [hop]) (by simp [hop]) k σ

/-- An iterator that is moved into the `for` loop is not accessed afterwards.  Missing: `let`-`else` (see
`else_missed`), and loops in a closure that is called once (see `closure_missed`). -/
theorem moved_partial (mutRef : Bool) (fn p b : Expr) (hc : check mutRef fn p b = some .byValue)
    (hh : has fn = true) (hs : Scoped fn) (hn : noElse fn = true) (hcl : inClosure fn = false ∨ repeated fn = true)
    (pl : Place) (hp : (place p).1 = some pl) : ∀ q, (pl.var, q) ∉ later fn := by
  obtain ⟨fs, x, mv, h1, _, h3⟩ := check_parse hc
  obtain ⟨_, rfl, hnb⟩ := h3 rfl
  obtain ⟨p', ex, e1, _, _, _⟩ := parse_place p _ _ _ _ _ h1
  rw [hp] at e1
  cases e1
  unfold needsBorrow at hnb
  intro q hq
  cases he : enclosing fn with
  | none =>
    have hr : repeated fn = false := by
      cases hx : repeated fn with
      | false => rfl
      | true => have := repeated_enclosing fn hx; rw [he] at this; exact nomatch this
    have hic : inClosure fn = false := by
      rcases hcl with h | h
      · exact h
      · rw [hr] at h; exact nomatch h
    simp only [he, closureBody_none fn hic, Option.getD] at hnb
    exact (after_clear x fn hh hr hnb).2 _ hq rfl (Or.inl List.nil_prefix)
  | some l =>
    simp only [he, Bool.or_eq_false_iff, Bool.not_eq_false'] at hnb
    obtain ⟨k, e', rfl, h2, h3, h4, h5, h6⟩ := lift x fn l hs he
    have hnest : nested x [] (.one k e') ⟨false, false, false⟩ = nested x [] e' ⟨false, false, false⟩ := by
      rcases h2 with rfl | rfl <;> simp [nested]
    rw [hnest] at hnb
    have hl := nested_learnt x e' ⟨false, false, false⟩ (h5 hn) h4 rfl rfl hnb.1
    rcases hl.found hnb.2 with hf | hf
    · exact nomatch hf
    · exact (h6 hf hl.clear).2 _ hq rfl

/-! ### Examples and counterexamples -/

/-- `it.next()` in the loop over `its[i]`, with the body `i = 1` -/
def roundRobin : Expr := .index (.path 0) (.path 1)

def setIndex : Expr := .two .set (.lit 1) (.path 1)

/-- Two iterators. -/
def twoIters : St where
  mem _ := 0
  its l := if l = (0, [.idx 0]) then [1, 2] else if l = (0, [.idx 1]) then [3] else []

/-- The index changes in the loop, but the `for` loop does not look at it again: it takes the second
element from the first iterator, not the one from the second iterator. -/
theorem index_changes :
    check false (.here 2 roundRobin setIndex) roundRobin setIndex = some .byRef ∧
    (eval 5 (.here 2 roundRobin setIndex) twoIters).map (fun r => r.2.2.its (0, [.idx 0])) = some [2] ∧
    (evalFor 5 2 roundRobin setIndex twoIters).map (fun r => r.2.2.its (0, [.idx 0])) = some [] := by
  decide +kernel

/-- `while let Some(x) = w.it.next() { w.n = 1 }` where `n` is a field of what `w` derefs to: the call of
`deref_mut` borrows all of `w`, with the iterator. -/
theorem deref_missed :
    check false (.here 2 (.field (.path 0) 0) (.two .set (.lit 1) (.field (.auto (.path 0)) 1)))
      (.field (.path 0) 0) (.two .set (.lit 1) (.field (.auto (.path 0)) 1)) = some .byRef ∧
    (place (.field (.path 0) 0)).1 = some ⟨0, [0], true⟩ ∧
    (0, []) ∈ accs (.two .set (.lit 1) (.field (.auto (.path 0)) 1)) ∧ Overlap [0] [] :=
  ⟨by decide +kernel, by decide +kernel, by decide +kernel, Or.inr List.nil_prefix⟩

/-- `loop { let mut it = ..; while let Some(x) = it.next() { break } let Some(y) = f() else { it.next() } }` -/
def elseFn : Expr :=
  .one .loop (.two .seq (.one (.bind 0) (.lit 1)) (.two .seq (.here 2 (.path 0) .brk)
    (.two (.letElse 3) (.lit 0) (.one .next (.path 0)))))

/-- The iterator is moved although the `else` block still needs it. -/
theorem else_missed :
    check false elseFn (.path 0) .brk = some .byValue ∧ (0, []) ∈ later elseFn := by
  decide +kernel

/-- `let mut it = ..; f(|| while let Some(x) = it.next() { break }); it.next()` -/
def closureFn : Expr :=
  .two .seq (.one (.bind 0) (.lit 1)) (.two .seq (.one (.closure true) (.here 2 (.path 0) .brk))
    (.one .next (.path 0)))

/-- The iterator is moved although it is still needed after the closure. -/
theorem closure_missed :
    check false closureFn (.path 0) .brk = some .byValue ∧ (0, []) ∈ later closureFn := by
  decide +kernel

/-- An iterator declared in an outer loop and used for the last time. -/
def goodFn : Expr :=
  .one .loop (.two .seq (.one (.bind 0) (.lit 1)) (.two .seq (.here 2 (.path 0) (.two .set (.path 2) (.path 4)))
    (.one .next (.path 4))))

example : check false goodFn (.path 0) (.two .set (.path 2) (.path 4)) = some .byValue := by decide +kernel

example : ∀ q, (0, q) ∉ later goodFn :=
  moved_partial false goodFn (.path 0) (.two .set (.path 2) (.path 4)) (by decide +kernel) rfl
    (by simp [goodFn, Scoped, inner, decls, accs, place, flush, Place.access]) rfl (Or.inl rfl) ⟨0, [], true⟩ rfl

/-- `while let Some(x) = s.its[i].next() { s.n = x; .. }`: a part of `s` is borrowed, another one used. -/
example : check false (.here 2 (.index (.field (.path 0) 5) (.path 1)) (.two .set (.path 2) (.field (.path 0) 6)))
    (.index (.field (.path 0) 5) (.path 1)) (.two .set (.path 2) (.field (.path 0) 6)) = some .byRef := by
  decide +kernel

example (k : Nat) (σ : St) :
    eval k (.here 2 (.index (.field (.path 0) 5) (.path 1)) (.two .set (.path 2) (.field (.path 0) 6))) σ =
    evalFor k 2 (.index (.field (.path 0) 5) (.path 1)) (.two .set (.path 2) (.field (.path 0) 6)) σ :=
  loop_same_partial false (.here 2 (.index (.field (.path 0) 5) (.path 1)) (.two .set (.path 2) (.field (.path 0) 6)))
    _ _ .byRef (by decide +kernel) 2
    (by simp [operands, accs, place, flush, Place.access, Place.select])
    (by simp [operands, place, flush, Place.access, decls]) k σ

example (k : Nat) (σ : St) : eval k (.here 2 (.path 0) (.one .next (.path 1))) σ =
    evalFor k 2 (.path 0) (.one .next (.path 1)) σ :=
  loop_same false (.here 2 (.path 0) (.one .next (.path 1))) _ _ .byValue (by decide +kernel) 2 rfl k σ

example : ∀ q, (0, q) ∈ accs (.two .set (.path 2) (.field (.path 0) 6)) → ¬ Overlap [5] q :=
  body_apart_partial false (.here 2 (.field (.path 0) 5) (.two .set (.path 2) (.field (.path 0) 6)))
    (.field (.path 0) 5) _ .byRef (by decide +kernel) ⟨0, [5], true⟩ rfl (Or.inl rfl)

example : check false (.lit 0) (.field (.path 0) 5) (.one .next (.field (.field (.path 0) 5) 1)) = none := by
  decide +kernel

end Verif.WhileIter
