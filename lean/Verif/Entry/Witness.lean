import Verif.Entry.Props

/-!
# Examples, and programs for which the lint is wrong
-/

namespace Verif.Entry

/-- A small system: `op 0` counts and returns the counter, `op 1` returns from the function, `op 2` panics, `op 3` leaves
a loop; the key is always 7. -/
def demo : Sys Nat Nat where
  key s := (s, 7)
  otherKey s := (s, 8)
  ofKey k := k
  part _ _ := 0
  asm _ s := (s, .val 0)
  op n vs s :=
    match n with
    | 0 => ({ s with rest := s.rest + 1 }, .val (s.rest + 1))
    | 1 => (s, .ret)
    | 2 => (s, .panic)
    | 3 => (s, .leave 0)
    | _ => (s, .val (vs.foldl (· + ·) n))
  truth v := v != 0
  test p v _ := p == v
  bind _ _ s := s
  loop body s :=
    match body s with
    | (s, .val _) => (s, .val 0)
    | (s, .leave 0) => (s, .val 0)
    | (s, .leave (j + 1)) => (s, .leave j)
    | (s, .ret) => (s, .ret)
    | (s, .panic) => (s, .panic)
  unit := 0
  opt := fun o => match o with
    | none => 0
    | some v => v + 1
  raw old _ := old.getD 0

def facts : Facts := ⟨fun n d => n != 1 && (n != 3 || decide (0 < d)), fun _ => true, false, false, false⟩

/-- The laws hold for the small system. -/
theorem demo_law : Law demo facts.movable 7 (fun _ => True) (fun _ => True) where
  key _ _ := rfl
  ofKey := trivial
  unit := trivial
  op n vs s _ _ := by
    refine ⟨trivial, ?_, fun _ _ => trivial⟩
    simp only [demo]; split <;> rfl
  bind _ _ _ _ _ := ⟨trivial, rfl⟩
  loop body P h s hs := by
    refine ⟨?_, fun _ _ => trivial⟩
    have := (h s hs).1
    simp only [demo]
    split <;> simp_all
  stays n d vs s hm := by
    simp only [facts, Bool.and_eq_true, bne_iff_ne, Bool.or_eq_true, decide_eq_true_eq] at hm
    simp only [demo]
    split
    · exact ⟨(fun h => nomatch h), (fun _ h => nomatch h)⟩
    · exact (hm.1 rfl).elim
    · exact ⟨(fun h => nomatch h), (fun _ h => nomatch h)⟩
    · refine ⟨(fun h => nomatch h), fun j h => ?_⟩
      cases h
      rcases hm.2 with h | h
      · exact (h rfl).elim
      · exact h
    · exact ⟨(fun h => nomatch h), (fun _ h => nomatch h)⟩
  loopStays body d h s := by
    have := h s
    simp only [demo]
    split
    · exact ⟨(fun h => nomatch h), (fun _ h => nomatch h)⟩
    · exact ⟨(fun h => nomatch h), (fun _ h => nomatch h)⟩
    · next j hb =>
      refine ⟨(fun h => nomatch h), fun i hi => ?_⟩
      cases hi
      rw [hb] at this
      exact Nat.lt_of_succ_lt_succ (this.2 _ rfl)
    · next hb => rw [hb] at this; exact (this.1 rfl).elim
    · exact ⟨(fun h => nomatch h), (fun _ h => nomatch h)⟩

/-- No key has a value. -/
def empty : World Nat Nat := ⟨fun _ => none, 0⟩
/-- The key 7 has the value 1. -/
def one : World Nat Nat := empty.set 7 1

/-- A call. -/
abbrev call (n : Nat) : Ex := .op n .nil

/-- `if !m.contains_key(&k) { f(); if c() { m.insert(k, v()); } else { m.insert(k, w()); } }` -/
def nested : Check :=
  ⟨true, .semi (call 0) (.tail (.ite (call 5) (.blk (.semi (.ins true (call 0)) .done))
    (.blk (.semi (.ins true (call 4)) .done)))), none⟩

/-- `if !m.contains_key(&k) { m.insert(k, f()); 4() } else { 5(); m.insert(k, g()); 6() }` -/
def twoSided : Check :=
  ⟨true, .semi (.ins true (call 0)) (.tail (call 4)),
    some (.blk (.semi (call 0) (.tail (.op 5 (.cons (.ins true (call 0)) .nil)))))⟩

/-- `if !m.contains_key(&k) { if c() { m.insert(k, v()); return; } }` -/
def early : Check :=
  ⟨true, .tail (.when (call 5) (.blk (.semi (.ins true (call 0)) (.semi (call 1) .done)))), none⟩

example : ∃ n, check facts nested = .sugg (.orInsertWith n) ∧ idleB nested.thn = false := ⟨_, rfl, rfl⟩
example : ∃ a b, check facts twoSided = .sugg (.both a b) := ⟨_, _, rfl⟩
example : ∃ a, check facts early = .sugg (.ifLet false a none) ∧ idleB early.thn = false := ⟨_, rfl, rfl⟩

/-- The theorem applies to all of these. -/
example (s : World Nat Nat) : ∃ n, check facts nested = .sugg n ∧ Agree false (run demo nested s) (runNew demo n s) :=
  ⟨_, rfl, entry_same_partial (fa := facts) demo_law (c := nested) trivial (fun _ h => nomatch h) (fun _ => rfl) rfl⟩
example (s : World Nat Nat) : ∃ n, check facts twoSided = .sugg n ∧ Agree true (run demo twoSided s) (runNew demo n s) :=
  ⟨_, rfl, entry_same_partial (fa := facts) demo_law (c := twoSided) trivial (fun _ h => nomatch h) (fun h => nomatch h) rfl⟩
example (s : World Nat Nat) : ∃ n, check facts early = .sugg n ∧ Agree false (run demo early s) (runNew demo n s) :=
  ⟨_, rfl, entry_same_partial (fa := facts) demo_law (c := early) trivial (fun _ h => nomatch h) (fun _ => rfl) rfl⟩
/-- ... and they do something. -/
example : ((run demo nested empty).1.map 7, (run demo nested one).1.map 7) = (some 2, some 1) := by decide +kernel
example : (run demo early empty).1.map 7 = some 1 := by decide +kernel
example : ∃ n, check facts twoSided = .sugg n ∧ n.usesMovedKey = false :=
  ⟨_, rfl, key_not_moved_partial (fa := facts) (c := twoSided) rfl rfl rfl⟩

/-! ### Findings -/

/-- **The lint crashes**: `if !m.contains_key(&f()) { f(); }` — the only edit is the semicolon, but the first edit is
taken to be an insertion (`/repo/clippy_lints/src/entry.rs:622-624`). -/
theorem crashes : check facts ⟨true, .semi .key .done, none⟩ = .crash := rfl

/-- The same with the map: `if !m.contains_key(&k) { m; }`. -/
theorem crashes_map : check facts ⟨true, .semi (.part 0) .done, none⟩ = .crash := rfl

/-- `if !m.contains_key(&f()) { g(); f(); }` -/
def noInsertion : Check := ⟨true, .semi (call 0) (.semi .key .done), none⟩

/-- **A value is inserted although there was no insertion**: the suggestion is
`m.entry(f()).or_insert_with(|| { g(); f() })`. -/
theorem never_inserted : check facts noInsertion = .sugg (.orInsertWith (.semi (call 0) (.tail .key))) ∧
    (run demo noInsertion empty).1.map 7 = none ∧
    (runNew demo (.orInsertWith (.semi (call 0) (.tail .key))) empty).1.map 7 = some 7 :=
  ⟨rfl, rfl, rfl⟩

/-- `if !m.contains_key(&k) { if c() { m.insert(k, v()); } else { let x; } }` -/
def declaration : Check :=
  ⟨true, .tail (.ite (call 2) (.blk (.semi (.ins true (call 0)) .done)) (.blk (.decl .done))), none⟩

/-- **A declaration does not count as a path without an insertion**: the closure ends with `let x;` there. -/
theorem declared : ∃ b, check facts declaration = .sugg (.orInsertWith b) ∧ idleB declaration.thn = true := ⟨_, rfl, rfl⟩

/-- With another system, in which the condition is false: a unit is inserted. -/
theorem declared_inserts : ∃ b, check facts ⟨true, .tail (.ite .key (.blk (.semi (.ins true (call 0)) .done))
      (.blk (.decl .done))), none⟩ = .sugg (.orInsertWith b) ∧
    (run { demo with ofKey := fun _ => 0 } ⟨true, .tail (.ite .key (.blk (.semi (.ins true (call 0)) .done))
      (.blk (.decl .done))), none⟩ empty).1.map 7 = none ∧
    (runNew { demo with ofKey := fun _ => 0 } (.orInsertWith b) empty).1.map 7 = some 0 := ⟨_, rfl, rfl, rfl⟩

/-- `if !m.contains_key(&k) { m.insert(k, f()); }` -/
def simple : Check := ⟨true, .semi (.ins true (call 4)) .done, none⟩

/-- **A key with side effects**: `if !m.contains_key(&next()) { m.insert(next(), v); }` is reported; the key was
evaluated twice, now only once. -/
theorem key_twice : ∃ n, check facts simple = .sugg n ∧
    (run { demo with key := fun s => ({ s with rest := s.rest + 1 }, s.rest) } simple empty).1.map 1 = some 4 ∧
    (runNew { demo with key := fun s => ({ s with rest := s.rest + 1 }, s.rest) } n empty).1.map 1 = none :=
  ⟨_, rfl, rfl, rfl⟩

/-- `if !m.contains_key(&k) { k += 1; m.insert(k, v); }` -/
def changed : Check := ⟨true, .semi (.op 0 (.cons .key .nil)) (.semi (.ins true (call 4)) .done), none⟩

/-- **A key that has been changed**: the value is now inserted for the old key. -/
theorem key_changed : ∃ n, check facts changed = .sugg n ∧
    (run { demo with key := fun s => (s, s.rest) } changed empty).1.map 1 = some 4 ∧
    (runNew { demo with key := fun s => (s, s.rest) } n empty).1.map 1 = none ∧
    (runNew { demo with key := fun s => (s, s.rest) } n empty).1.map 0 = some 4 :=
  ⟨_, rfl, rfl, rfl, rfl⟩

/-- `if !m.contains_key(&k) { m.insert(k, v[0]); }`: an index counts as an expression without side effects. -/
def index : Check := ⟨true, .semi (.ins true (call 2)) .done, none⟩

/-- **The value is evaluated in any case**, and panics although the key was there. -/
theorem value_panics : check { facts with effects := fun _ => false } index = .sugg (.orInsert (call 2)) ∧
    (run demo index one).2 = .val 0 ∧ (runNew demo (.orInsert (call 2)) one).2 = .panic := ⟨rfl, rfl, rfl⟩

/-- `if !m.contains_key(&k) { log(&k); m.insert(k, v()); }` -/
def logged : Check := ⟨true, .semi (.op 0 (.cons .key .nil)) (.semi (.ins true (call 4)) .done), none⟩

/-- **Without `else` the key is used after it was moved**, which does not compile. -/
theorem key_used_after_move : facts.keyCopy = false ∧ ∃ n, check facts logged = .sugg n ∧ n.usesMovedKey = true :=
  ⟨rfl, _, rfl, rfl⟩

end Verif.Entry
