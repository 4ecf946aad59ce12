import Verif.Bulk.Model

/-! Popping, filling and taking: the properties. -/

namespace Verif.Bulk

open Model

variable {W : Type}

/-! ## Loops that pop -/

/-- Emptiness is what `pop` notices, and the name `element` binds a variable. -/
structure Lawful (M : Sem W) (element : Nat) : Prop where
  empty : ∀ v w, M.isEmpty v w = (M.pop v w).isNone
  name : ∀ x, M.bind element x = some (Env.set · element x)

/-- The receiver does nothing. -/
def Quiet (M : Sem W) (r : Nat) : Prop := ∀ e w, (M.recv r e w).2 = w

/-- Arguments that neither do anything nor notice that something is popped. -/
def Calm (M : Sem W) (e : Env) (r : Nat) : Arg → Prop
  | .pop _ => False
  | .code k => ∀ w, (M.code k e w).2 = w ∧
      ∀ x w', M.pop (M.recv r e w).1 (M.recv r e w).2 = some (x, w') → M.code k e w' = ((M.code k e w).1, w')
  | .var _ => True

/-- Arguments that don't mention the variable. -/
def Ignores (M : Sem W) (element : Nat) : Arg → Prop
  | .pop r => ∀ e x w, M.recv r (Env.set e element x) w = M.recv r e w
  | .code k => ∀ e x w, M.code k (Env.set e element x) w = M.code k e w
  | .var y => y ≠ element

/-- What keeps a loop that pops right: the pattern always matches and there is no `else`; the arguments before the pop are calm, and nothing
mentions the new variable. -/
def Plain (M : Sem W) (e : Env) (element r : Nat) (rest : Nat) : First → Prop
  | .letPop _ pat els => els = none ∧ ∀ x, (M.bind pat x).isSome
  | .call args => (∀ a ∈ args, Ignores M element a) ∧ (∀ e x w, M.block rest (Env.set e element x) w = M.block rest e w) ∧
      ∃ before after, args = before ++ .pop r :: after ∧ ∀ a ∈ before, Calm M e r a
  | .other _ => True

theorem evalArgs_ignores (M : Sem W) (e : Env) (element : Nat) (x : Int) (as : List Arg) (h : ∀ a ∈ as, Ignores M element a) :
    ∀ w, evalArgs M (Env.set e element x) as w = evalArgs M e as w := by
  induction as with
  | nil => intro w; rfl
  | cons a as ih =>
    intro w
    have ih' := ih (fun b hb => h b (List.mem_cons_of_mem _ hb))
    have ha := h a (List.mem_cons_self ..)
    cases a with
    | pop r => simp only [evalArgs]; rw [ha e x w]; cases M.pop (M.recv r e w).1 (M.recv r e w).2 <;> simp only [ih']
    | code k => simp only [evalArgs]; rw [ha e x w]; simp only [ih']
    | var y => simp only [evalArgs, ih', Env.set, if_neg (show ¬ y = element from ha)]

theorem replaceFirst_calm (M : Sem W) (e : Env) (r element : Nat) (before after : List Arg) (h : ∀ a ∈ before, Calm M e r a) :
    replaceFirst r element (before ++ .pop r :: after) = some (before ++ .var element :: after) := by
  induction before with
  | nil => simp [replaceFirst, isPop]
  | cons a as ih =>
    have ih' := ih (fun b hb => h b (List.mem_cons_of_mem _ hb))
    have ha := h a (List.mem_cons_self ..)
    cases a with
    | pop _ => exact ha.elim
    | code k => simp [replaceFirst, isPop, ih']
    | var y => simp [replaceFirst, isPop, ih']

/-- The pop can come first. -/
theorem evalArgs_first (M : Sem W) (e : Env) (r element : Nat) (hq : Quiet M r) (x : Int) (before after : List Arg)
    (hc : ∀ a ∈ before, Calm M e r a) (hi : ∀ a ∈ before ++ .pop r :: after, Ignores M element a) :
    ∀ w w', M.pop (M.recv r e w).1 (M.recv r e w).2 = some (x, w') →
      evalArgs M e (before ++ .pop r :: after) w = evalArgs M (Env.set e element x) (before ++ .var element :: after) w' := by
  induction before with
  | nil =>
    intro w w' hp
    have := evalArgs_ignores M e element x after (fun a ha => hi a (by simp [ha])) w'
    simp only [List.nil_append, evalArgs, hp, this, Env.set, if_true]
  | cons a as ih =>
    intro w w' hp
    have ih' := ih (fun b hb => hc b (List.mem_cons_of_mem _ hb)) (fun b hb => hi b (List.mem_cons_of_mem _ hb))
    have ha := hc a (List.mem_cons_self ..)
    have hia := hi a (List.mem_cons_self ..)
    cases a with
    | pop _ => exact ha.elim
    | code k =>
      obtain ⟨h1, h2⟩ := ha w
      have h3 := h2 x w' hp
      have h4 : M.code k (Env.set e element x) w' = ((M.code k e w).1, w') := by rw [hia e x w', h3]
      simp only [List.cons_append, evalArgs, h1, h4, ih' w w' hp]
    | var y =>
      simp only [List.cons_append, evalArgs, ih' w w' hp, Env.set, if_neg (show ¬ y = element from hia)]

/-- **C122.** A plain loop that pops does the same as the suggested `while let`, however often it runs. -/
theorem while_partial (M : Sem W) (element : Nat) (hM : Lawful M element) (e : Env) (r : Nat) (hq : Quiet M r) (first : First) (rest : Nat)
    (s : WhileLet) (h : checkWhile element r first = some s) (hp : Plain M e element r rest first) :
    ∀ n w, runWhileLet M e r s.pat s.body rest n w = runWhile M e r first rest n w := by
  intro n
  induction n with
  | zero => intro w; rfl
  | succ n ih =>
    intro w
    have hw : (M.recv r e w).2 = w := hq e w
    simp only [runWhileLet, runWhile, hM.empty]
    cases hpop : M.pop (M.recv r e w).1 (M.recv r e w).2 with
    | none => simp
    | some q =>
      obtain ⟨x, w'⟩ := q
      cases first with
      | other k => simp [checkWhile] at h
      | letPop r' pat els =>
        simp only [checkWhile] at h
        by_cases hr : r' = r
        · rw [if_pos hr] at h
          obtain ⟨he, hb⟩ := hp
          cases h
          subst hr
          subst he
          have hb' := hb x
          cases hbx : M.bind pat x with
          | none => simp [hbx] at hb'
          | some f =>
            have h2 : M.pop (M.recv r' e (M.recv r' e w).2).1 (M.recv r' e (M.recv r' e w).2).2 = some (x, w') := by rw [hw]; exact hpop
            simp only [Option.isNone_some, Bool.false_eq_true, if_false, runBody, h2, hbx, runNewBody]
            rcases M.block rest (f e) w' with ⟨x1, w1⟩
            cases x1 <;> simp only [ih]
        · rw [if_neg hr] at h; exact absurd h (by simp)
      | call args =>
        obtain ⟨hi, hrest, before, after, ha, hc⟩ := hp
        subst ha
        simp only [checkWhile, replaceFirst_calm M e r element before after hc, Option.some.injEq] at h
        subst h
        have h2 : M.pop (M.recv r e (M.recv r e w).2).1 (M.recv r e (M.recv r e w).2).2 = some (x, w') := by rw [hw]; exact hpop
        have h3 := evalArgs_first M e r element hq x before after hc hi _ _ h2
        simp only [hM.name, Option.isNone_some, Bool.false_eq_true, if_false, runBody, runNewBody, h3]
        rcases evalArgs M (Env.set e element x) (before ++ .var element :: after) w' with ⟨o, w1⟩
        cases o with
        | none => rfl
        | some vs =>
          simp only [hrest]
          rcases M.block rest e (M.call vs w1) with ⟨x1, w2⟩
          cases x1 <;> simp only [ih]

/-- A vector and the calls so far; receiver 1 takes note of being looked at. Code 0 is the length, code 1 the variable 0, block 1 is
`continue`. Pattern 1 matches what is positive. -/
def demo : Sem (List Int × List (List Int)) where
  recv r _ w := if r = 1 then (0, (w.1, w.2 ++ [[]])) else (0, w)
  isEmpty _ w := w.1.isEmpty
  pop _ w := w.1.getLast?.map fun x => (x, (w.1.dropLast, w.2))
  code k e w := if k = 0 then (w.1.length, w) else if k = 1 then (e 0, w) else (7, w)
  block k _ w := if k = 1 then (.next, w) else (.normal, w)
  bind p x := if p = 1 then (if 0 < x then some (Env.set · 1 x) else none) else some (Env.set · p x)
  call vs w := (w.1, w.2 ++ [vs])

theorem demo_lawful : Lawful demo 0 where
  empty v w := by simp only [demo]; cases hw : w.1 with
    | nil => rfl
    | cons a l => cases h : (a :: l).getLast? with
      | none => simp at h
      | some x => rfl
  name x := rfl

example : checkWhile 0 0 (.call [.code 2, .pop 0, .code 0]) = some ⟨0, .call [.code 2, .var 0, .code 0]⟩ := by decide +kernel

example : Plain demo (fun _ => 0) 0 0 0 (.call [.code 2, .pop 0, .code 0]) ∧ Quiet demo 0 ∧
    runWhile demo (fun _ => 0) 0 (.call [.code 2, .pop 0, .code 0]) 0 9 ([5, 6], []) = some (false, ([], [[7, 6, 1], [7, 5, 0]])) := by
  refine ⟨⟨?_, fun _ _ _ => rfl, [.code 2], [.code 0], rfl, ?_⟩, fun _ _ => rfl, by decide +kernel⟩
  · intro a ha
    simp only [List.mem_cons, List.not_mem_nil, or_false] at ha
    rcases ha with rfl | rfl | rfl <;> intro e x w <;> rfl
  · intro a ha
    simp only [List.mem_cons, List.not_mem_nil, or_false] at ha
    subst ha
    exact fun w => ⟨rfl, fun x w' _ => rfl⟩

/-- **C122.** Arguments before the pop see the vector without the element: `f(v.len(), v.pop().unwrap())`. -/
theorem argument_wrong : ∃ (first : First) (s : WhileLet), checkWhile 0 0 first = some s ∧
    runWhile demo (fun _ => 0) 0 first 0 9 ([5, 6], []) = some (false, ([], [[2, 6], [1, 5]])) ∧
    runWhileLet demo (fun _ => 0) 0 s.pat s.body 0 9 ([5, 6], []) = some (false, ([], [[1, 6], [0, 5]])) :=
  ⟨.call [.code 0, .pop 0], ⟨0, .call [.code 0, .var 0]⟩, by decide +kernel, by decide +kernel, by decide +kernel⟩

/-- **C122.** `let Some(x) = v.pop().unwrap() else { continue };` passes over elements, the suggested loop ends at them. -/
theorem else_wrong : ∃ (first : First) (s : WhileLet), checkWhile 0 0 first = some s ∧
    runWhile demo (fun _ => 0) 0 first 0 9 ([5, -1, 6], []) = some (false, ([], [])) ∧
    runWhileLet demo (fun _ => 0) 0 s.pat s.body 0 9 ([5, -1, 6], []) = some (false, ([5], [])) :=
  ⟨.letPop 0 1 (some 1), ⟨1, .rest⟩, by decide +kernel, by decide +kernel, by decide +kernel⟩

/-- **C122.** A variable `element` of the program is hidden. -/
theorem element_wrong : ∃ (first : First) (s : WhileLet), checkWhile 0 0 first = some s ∧
    runWhile demo (fun _ => 0) 0 first 0 9 ([5], []) = some (false, ([], [[0, 5]])) ∧
    runWhileLet demo (fun _ => 0) 0 s.pat s.body 0 9 ([5], []) = some (false, ([], [[5, 5]])) :=
  ⟨.call [.code 1, .pop 0], ⟨0, .call [.code 1, .var 0]⟩, by decide +kernel, by decide +kernel, by decide +kernel⟩

/-- **C122.** A receiver with effects is evaluated half as often. -/
theorem receiver_wrong : ∃ (first : First) (s : WhileLet), checkWhile 0 1 first = some s ∧
    runWhile demo (fun _ => 0) 1 first 0 9 ([5], []) = some (false, ([], [[], [], []])) ∧
    runWhileLet demo (fun _ => 0) 1 s.pat s.body 0 9 ([5], []) = some (false, ([], [[], []])) :=
  ⟨.letPop 1 2 none, ⟨2, .rest⟩, by decide +kernel, by decide +kernel, by decide +kernel⟩

/-- **C122.** The loops that are found: the first statement takes an element of the same vector. -/
theorem while_found (element r : Nat) (first : First) :
    (checkWhile element r first).isSome ↔ (∃ pat els, first = .letPop r pat els) ∨ ∃ args, first = .call args ∧ .pop r ∈ args := by
  have hr : ∀ args, (replaceFirst r element args).isSome ↔ Arg.pop r ∈ args := by
    intro args
    induction args with
    | nil => simp [replaceFirst]
    | cons a as ih =>
      cases a with
      | pop r' =>
        by_cases h : r' = r
        · subst h; simp [replaceFirst, isPop]
        · simp [replaceFirst, isPop, h, ih, Ne.symm h]
      | code k => simp [replaceFirst, isPop, ih]
      | var y => simp [replaceFirst, isPop, ih]
  cases first with
  | letPop r' pat els =>
    by_cases h : r' = r
    · subst h; simp [checkWhile]
    · simp [checkWhile, h]
  | call args =>
    have h := hr args
    cases hc : replaceFirst r element args with
    | none => rw [hc] at h; simp [checkWhile, hc]; simpa using h
    | some as => rw [hc] at h; simp [checkWhile, hc]; simpa using h
  | other k => simp [checkWhile]

example : checkWhile 0 0 (.letPop 0 2 none) = some ⟨2, .rest⟩ ∧ checkWhile 0 0 (.letPop 3 2 none) = none ∧
    checkWhile 0 0 (.call [.pop 1]) = none := by decide +kernel

/-! ## Conditional pops -/

/-- No pattern below the variable, nothing after the inner `if`, and a condition that doesn't leave the function. -/
def Simple (M : CondSem W) : Form → Prop
  | .isSomeAnd _ => True
  | .mapUnwrapOr _ => True
  | .letChain sub p => sub = none ∧ ∀ x w, ∃ b w', M.cond p x w = (.val b, w')
  | .ifLet sub p tail => sub = none ∧ tail = none ∧ ∀ x w, ∃ b w', M.cond p x w = (.val b, w')

theorem tryKind_of (c : Coll) (look take m : Meth) (f : Form) (p : Nat) (h : checkPopIf c look take f = some (m, p)) :
    ∃ k : Kind, look = k.peek ∧ take = k.pop ∧ k.isItem c = true ∧ m = k.popIf ∧ p = predicate f := by
  obtain ⟨k, _, hk⟩ := List.exists_of_findSome?_eq_some h
  simp only [tryKind] at hk
  by_cases hc : look = k.peek ∧ take = k.pop ∧ k.isItem c = true
  · rw [if_pos hc] at hk
    cases hk
    exact ⟨k, hc.1, hc.2.1, hc.2.2, rfl, rfl⟩
  · rw [if_neg hc] at hk; exact absurd hk (by simp)

/-- **C122.** The three methods of a finding belong to the collection and are about the same end of it. -/
theorem same_end (c : Coll) (look take m : Meth) (f : Form) (p : Nat) (h : checkPopIf c look take f = some (m, p)) (l : List Int) :
    c.split look l = c.split m l ∧ c.split take l = c.split m l ∧ (c.split m l).isSome := by
  obtain ⟨k, h1, h2, h3, h4, _⟩ := tryKind_of c look take m f p h
  subst h1 h2 h4
  cases k <;> cases c <;> first | exact absurd h3 (by decide) | exact ⟨rfl, rfl, rfl⟩

/-- **C122.** A simple conditional pop does the same as the suggested `pop_if`. -/
theorem pop_if_partial (M : CondSem W) (c : Coll) (look take m : Meth) (f : Form) (p : Nat) (h : checkPopIf c look take f = some (m, p))
    (hs : Simple M f) (l : List Int) (w : W) : (runForm M c look take f l w).isSome ∧ runPopIf M c m p l w = runForm M c look take f l w := by
  obtain ⟨h1, h2, h3⟩ := same_end c look take m f p h l
  have hp : p = predicate f := by
    obtain ⟨_, _, _, _, _, h6⟩ := tryKind_of c look take m f p h
    exact h6
  subst hp
  cases hm : c.split m l with
  | none => simp [hm] at h3
  | some o =>
    rw [hm] at h1 h2
    cases o with
    | none => cases f <;> simp [runForm, runPopIf, h1, h2, hm]
    | some q =>
      obtain ⟨x, left⟩ := q
      cases f with
      | isSomeAnd p =>
        simp only [runForm, runPopIf, h1, h2, hm, predicate]
        rcases M.cond p x w with ⟨o, w'⟩
        rcases o with b | b <;> cases b <;> simp
      | mapUnwrapOr p =>
        simp only [runForm, runPopIf, h1, h2, hm, predicate]
        rcases M.cond p x w with ⟨o, w'⟩
        rcases o with b | b <;> cases b <;> simp
      | letChain sub p =>
        obtain ⟨rfl, hc⟩ := hs
        obtain ⟨b, w', hb⟩ := hc x w
        simp only [runForm, runPopIf, h1, h2, hm, predicate, hb, subFits]
        cases b <;> simp
      | ifLet sub p tail =>
        obtain ⟨rfl, rfl, hc⟩ := hs
        obtain ⟨b, w', hb⟩ := hc x w
        simp only [runForm, runPopIf, h1, h2, hm, predicate, hb, subFits]
        cases b <;> simp

/-- The world counts what runs; condition 0 is `*x > 5`, condition 1 leaves the function, pattern 0 is `1..=3`. -/
def condDemo : CondSem Nat where
  cond p x w := if p = 0 then (.val (decide (5 < x)), w) else if p = 1 then (.ret true, w) else (.val (decide (0 < x)), w)
  sub _ x := decide (1 ≤ x ∧ x ≤ 3)
  code _ w := w + 1

example : checkPopIf .vec .last .pop (.ifLet none 0 none) = some (.popIf, 0) ∧ Simple condDemo (.ifLet none 0 none) ∧
    runForm condDemo .vec .last .pop (.ifLet none 0 none) [1, 9] 0 = some (false, [1], 0) :=
  ⟨by decide +kernel, ⟨rfl, rfl, fun x w => ⟨_, w, rfl⟩⟩, by decide +kernel⟩

example : checkPopIf .deque .front .popFront (.isSomeAnd 0) = some (.popFrontIf, 0) ∧ checkPopIf .deque .front .popBack (.isSomeAnd 0) = none ∧
    checkPopIf .heap .peek .pop (.isSomeAnd 0) = some (.popIf, 0) := by decide +kernel

/-- **C122.** What follows the inner `if` gets lost. -/
theorem tail_wrong : ∃ (f : Form) (m : Meth) (p : Nat), checkPopIf .vec .last .pop f = some (m, p) ∧
    runForm condDemo .vec .last .pop f [1, 9] 0 = some (false, [1], 1) ∧ runPopIf condDemo .vec m p [1, 9] 0 = some (false, [1], 0) :=
  ⟨.ifLet none 0 (some 0), .popIf, 0, by decide +kernel, by decide +kernel, by decide +kernel⟩

/-- **C122.** The pattern below the variable gets lost: `if let Some(x @ 1..=3) = v.last() && *x > 0`. -/
theorem sub_wrong : ∃ (f : Form) (m : Meth) (p : Nat), checkPopIf .vec .last .pop f = some (m, p) ∧
    runForm condDemo .vec .last .pop f [1, 9] 0 = some (false, [1, 9], 0) ∧ runPopIf condDemo .vec m p [1, 9] 0 = some (false, [1], 0) :=
  ⟨.letChain (some 0) 2, .popIf, 2, by decide +kernel, by decide +kernel, by decide +kernel⟩

/-- **C122.** A `return` in the condition leaves only the closure afterwards. -/
theorem closure_wrong : ∃ (f : Form) (m : Meth) (p : Nat), checkPopIf .vec .last .pop f = some (m, p) ∧
    runForm condDemo .vec .last .pop f [1, 9] 0 = some (true, [1, 9], 0) ∧ runPopIf condDemo .vec m p [1, 9] 0 = some (false, [1], 0) :=
  ⟨.letChain none 1, .popIf, 1, by decide +kernel, by decide +kernel, by decide +kernel⟩

/-- **C122.** Every form is found for each of the four ends that can be looked at and popped, with the condition as it is. -/
theorem pop_if_found (f : Form) : ∃ p, checkPopIf .vec .last .pop f = some (.popIf, p) ∧ checkPopIf .heap .peek .pop f = some (.popIf, p) ∧
    checkPopIf .deque .back .popBack f = some (.popBackIf, p) ∧ checkPopIf .deque .front .popFront f = some (.popFrontIf, p) :=
  ⟨predicate f, rfl, rfl, rfl, rfl⟩

/-! ## Filling a slice -/

/-- Values that may be evaluated at any time don't look at the elements, and values that don't mention a variable don't depend on it. -/
structure FillLawful (V : Vals) (eager : Nat → Bool) (uses : Nat → Nat → Bool) : Prop where
  still : ∀ v, eager v = true → ∀ e s s', s.length = s'.length → V v e s = V v e s'
  unused : ∀ v x, uses v x = false → ∀ e n s, V v (Env.set e x n) s = V v e s

/-- The index is the variable of the loop. -/
def Indexed : Fill → Prop
  | .index x _ _ i _ => i = x
  | .iter _ _ _ => True

theorem runIndex_prefix (V : Vals) (e : Env) (x v : Nat) (c : Int) (len : Nat)
    (hc : ∀ n s, s.length = len → V v (Env.set e x n) s = c) :
    ∀ (k : Nat) (pre suf : List Int), k = suf.length → pre.length + suf.length = len →
      runIndex V e x x v (List.range' pre.length k) (pre ++ suf) = some (pre ++ suf.map fun _ => c) := by
  intro k
  induction k with
  | zero => intro pre suf h _; cases suf with
    | nil => simp [runIndex]
    | cons a l => simp at h
  | succ k ih =>
    intro pre suf h hl
    cases suf with
    | nil => simp at h
    | cons a l =>
      have hv := hc pre.length (pre ++ a :: l) (by simpa using hl)
      have h1 := ih (pre ++ [c]) l (by simpa using h) (by simp at hl ⊢; omega)
      have hset : (pre ++ a :: l).set pre.length c = (pre ++ [c]) ++ l := by simp
      have hcond : (0 : Int) ≤ (Env.set e x (pre.length : Nat)) x ∧ (Env.set e x (pre.length : Nat)) x < ((pre ++ a :: l).length : Nat) := by
        simp [Env.set]; omega
      have hx : ((Env.set e x (pre.length : Nat)) x).toNat = pre.length := by simp [Env.set]
      have h2 : assignAt V (Env.set e x (pre.length : Nat)) x v (pre ++ a :: l) = some ((pre ++ [c]) ++ l) := by
        rw [assignAt, if_pos hcond, hx, hv, hset]
      simp only [List.range'_succ, runIndex, h2]
      simp only [List.length_append, List.length_cons, List.length_nil] at h1
      rw [h1]; simp

theorem runIter_prefix (V : Vals) (e : Env) (x v : Nat) (c : Int) (len : Nat)
    (hc : ∀ n s, s.length = len → V v (Env.set e x n) s = c) :
    ∀ (k : Nat) (pre suf : List Int), k = suf.length → pre.length + suf.length = len →
      runIter V e x v (List.range' pre.length k) (pre ++ suf) = pre ++ suf.map fun _ => c := by
  intro k
  induction k with
  | zero => intro pre suf h _; cases suf with
    | nil => simp [runIter]
    | cons a l => simp at h
  | succ k ih =>
    intro pre suf h hl
    cases suf with
    | nil => simp at h
    | cons a l =>
      have hv := hc ((pre ++ a :: l).getD pre.length 0) (pre ++ a :: l) (by simpa using hl)
      have h1 := ih (pre ++ [c]) l (by simpa using h) (by simp at hl ⊢; omega)
      have hset : (pre ++ a :: l).set pre.length c = (pre ++ [c]) ++ l := by simp
      simp only [List.range'_succ, runIter, hv, hset]
      simp only [List.length_append, List.length_cons, List.length_nil] at h1
      rw [h1]; simp

/-- **C122.** A loop over a slice whose index is its variable does the same as `fill`, and doesn't panic. -/
theorem fill_partial (V : Vals) (eager : Nat → Bool) (uses : Nat → Nat → Bool) (hV : FillLawful V eager uses) (f : Fill) (v : Nat)
    (h : checkFill eager uses f = some v) (hi : Indexed f) (e : Env) (s : List Int) : f.run V e s = some (runFill V e v s) := by
  cases f with
  | index x start inclusive i v' =>
    simp only [checkFill] at h
    by_cases hc : inclusive = false ∧ start = 0 ∧ eager v' = true ∧ (!uses v' i) = true
    · rw [if_pos hc] at h
      obtain ⟨rfl, rfl, he, hu⟩ := hc
      cases h
      have hix : i = x := hi
      subst hix
      have hu' : uses v i = false := by simpa using hu
      have := runIndex_prefix V e i v (V v e s) s.length
        (fun n s' hs => by rw [hV.unused v i hu']; exact hV.still v he e s' s hs) s.length [] s rfl (by simp)
      simpa [Fill.run, runFill] using this
    · rw [if_neg hc] at h; exact absurd h (by simp)
  | iter x y v' =>
    simp only [checkFill] at h
    by_cases hc : y = x ∧ eager v' = true ∧ (!uses v' x) = true
    · rw [if_pos hc] at h
      obtain ⟨rfl, he, hu⟩ := hc
      cases h
      have hu' : uses v y = false := by simpa using hu
      have := runIter_prefix V e y v (V v e s) s.length
        (fun n s' hs => by rw [hV.unused v y hu']; exact hV.still v he e s' s hs) s.length [] s rfl (by simp)
      simp only [Fill.run, if_true, runFill, List.range_eq_range']
      simpa using this
    · rw [if_neg hc] at h; exact absurd h (by simp)

/-- Value 0 is 7, value 1 the variable 1. -/
def fillDemo : Vals := fun v e _ => if v = 0 then 7 else e 1

theorem fillDemo_lawful : FillLawful fillDemo (fun _ => true) (fun v x => v != 0 && x == 1) where
  still _ _ _ _ _ _ := rfl
  unused v x h e n s := by
    simp only [fillDemo, Env.set]
    by_cases hv : v = 0
    · simp [hv]
    · have hx : ¬ (1 = x) := by intro hx; subst hx; simp [hv] at h
      simp [hv, hx]

example : checkFill (fun _ => true) (fun v x => v != 0 && x == 1) (.index 0 0 false 0 1) = some 1 ∧ Indexed (.index 0 0 false 0 1) ∧
    Fill.run fillDemo (fun _ => 4) [1, 2, 3] (.index 0 0 false 0 1) = some [4, 4, 4] ∧
    Fill.run fillDemo (fun _ => 4) [1, 2, 3] (.iter 0 0 1) = some [4, 4, 4] :=
  ⟨by decide +kernel, rfl, by decide +kernel, by decide +kernel⟩

/-- **C122.** The index may be another variable: `for x in 0..s.len() { s[j] = 7; }` assigns one element, `s.fill(7)` all. -/
theorem other_index_wrong : ∃ (f : Fill) (v : Nat), checkFill (fun _ => true) (fun v x => v != 0 && x == 1) f = some v ∧
    f.run fillDemo (fun _ => 1) [1, 2, 3] = some [1, 7, 3] ∧ runFill fillDemo (fun _ => 1) v [1, 2, 3] = [7, 7, 7] :=
  ⟨.index 0 0 false 5 0, 0, by decide +kernel, by decide +kernel, by decide +kernel⟩

/-- **C122.** Loops that fill with a value that may be evaluated at any time and doesn't mention their variable are found. -/
theorem fill_found (eager : Nat → Bool) (uses : Nat → Nat → Bool) (x v : Nat) (he : eager v = true) (hu : uses v x = false) :
    checkFill eager uses (.index x 0 false x v) = some v ∧ checkFill eager uses (.iter x x v) = some v := by
  simp [checkFill, he, hu]

end Verif.Bulk
