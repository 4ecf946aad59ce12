import Verif.Ctrl.ReturnProps
import Verif.Ctrl.Demo

/-!
# Needless `return`: examples and counterexamples
-/

namespace Verif.Ctrl.Return
open Verif.Ctrl

private def yes : Expr → Bool := fun _ => true
private def no : Expr → Bool := fun _ => false

/-- The number `n`. -/
private def num (n : Nat) : Expr := .prim (n + 3) [] .nil

private def retN (n : Nat) : Expr := .ret (.cons (num n) .nil)

private def blk (b : Stmts) : Expr := .block none b

/-- `{ if read() { return 5; } else { say(1); return 6; }; }` -/
private def body1 : Stmts :=
  .semi (.ite (.test readE) (blk (.semi (retN 5) .done))
    (blk (.semi (sayE 1) (.semi (retN 6) .done)))) .done

/-- `{ if read() { 5 } else { say(1); return 6; } }` -/
private def body2 : Stmts :=
  .tail (.ite (.test readE) (blk (.tail (num 5)))
    (blk (.semi (sayE 1) (.semi (retN 6) .done))))

private theorem body2_mem : body2 ∈ editsFn yes no no body1 := List.mem_cons_self

/-- Both `return`s are reported. -/
example : (editsFn yes no no body1).length = 2 := by decide +kernel

example : retsS body1 = retsS body2 + 1 := one_return_less yes no no body2_mem

private theorem gives1 : Gives (S := demo) (fun v => v = (5 : Nat) ∨ v = (6 : Nat))
    (call (evalB 0 body1 demoEnv)) := by
  rintro ⟨o, i⟩ v w' h
  cases hi : List.head! i with
  | zero =>
    simp [call, evalB, body1, hoist, evalS, eval, evalC, evalL, readE, blk, sayE, retN, num, M.bind, M.run,
      M.pure, M.throw, demo, hi] at h
    cases h; exact .inr rfl
  | succ n =>
    simp [call, evalB, body1, hoist, evalS, eval, evalC, evalL, readE, blk, sayE, retN, num, M.bind, M.run,
      M.pure, M.throw, demo, hi] at h
    cases h; exact .inl rfl

private theorem gives2 : Gives (S := demo) (fun v => v = (5 : Nat) ∨ v = (6 : Nat))
    (call (evalB 0 body2 demoEnv)) := by
  rintro ⟨o, i⟩ v w' h
  cases hi : List.head! i with
  | zero =>
    simp [call, evalB, body2, hoist, evalS, eval, evalC, evalL, readE, blk, sayE, retN, num, M.bind, M.run,
      M.pure, M.throw, demo, hi] at h
    cases h; exact .inr rfl
  | succ n =>
    simp [call, evalB, body2, hoist, evalS, eval, evalC, evalL, readE, blk, sayE, retN, num, M.bind, M.run,
      M.pure, M.throw, demo, hi] at h
    cases h; exact .inl rfl

/-- The hypotheses of `fn_same_partial` are met. -/
example : call (evalB (S := demo) 0 body1 demoEnv) = call (evalB (S := demo) 0 body2 demoEnv) :=
  fn_same_partial yes no no body2_mem 0 demoEnv (T := fun v => v = (5 : Nat) ∨ v = (6 : Nat))
    (.inr (by rintro (h | h) <;> cases h)) gives1 gives2

/-- `|| return 5` becomes `|| 5`, `|| return` becomes `|| {}`. -/
example : editsClosure yes no no (retN 5) = [some (num 5)] ∧
    editsClosure yes no no (.ret .nil) = [some Expr.unit] := ⟨rfl, rfl⟩

/-- In an arm `return` becomes `()` when the `match` has that type, and is left alone otherwise. -/
example : editsFn yes no yes (.tail (.mtch (.var 0) (.arm 0 [1] (.ret .nil) .nil))) =
      [.tail (.mtch (.var 0) (.arm 0 [1] Expr.unit .nil))] ∧
    editsFn yes no no (.tail (.mtch (.var 0) (.arm 0 [1] (.ret .nil) .nil))) = [] := ⟨rfl, rfl⟩

/-- `{ if read() { return; } else { 5 }; }`: a function without a value. -/
private def mixed : Stmts :=
  .semi (.ite (.test readE) (blk (.semi (.ret .nil) .done)) (blk (.tail (num 5)))) .done

/-- `{ if read() { } else { 5 } }` -/
private def mixed' : Stmts :=
  .tail (.ite (.test readE) (blk .done) (blk (.tail (num 5))))

/-- **C75 does not hold as stated:** a function whose value is always `()` is edited so that it has
another value: without the semicolon the branches no longer agree. -/
theorem edit_changes_type : ∃ b b' : Stmts, b' ∈ editsFn (fun _ => true) (fun _ => false)
      (fun _ => false) b ∧
    (∀ w, (call (evalB (S := demo) 0 b demoEnv) w).1 = .ok demo.unit) ∧
    ∃ w, (call (evalB (S := demo) 0 b' demoEnv) w).1 ≠ .ok demo.unit := by
  refine ⟨mixed, mixed', List.mem_cons_self, ?_, ([], [0]), ?_⟩
  · rintro ⟨o, i⟩
    cases hi : List.head! i <;>
    simp [call, evalB, mixed, hoist, evalS, eval, evalC, evalL, readE, blk, num, M.bind, M.run,
      M.pure, M.throw, demo, hi]
  · intro h
    have : (5 : Nat) = 0 := by injection h
    cases this

/-- The same with `return ()` in an arm: only a `return` without a value asks for the type. -/
example : editsFn yes no no
      (.semi (.mtch (.var 0) (.arm 1 [1] (.ret (.cons Expr.unit .nil)) (.arm 0 [1] (num 5) .nil))) .done) =
    [.tail (.mtch (.var 0) (.arm 1 [1] Expr.unit (.arm 0 [1] (num 5) .nil)))] := rfl

/-- `return match x { … } + 1` gets parentheses, `return match x { … }.f()` needs none. -/
example : written (.binary .blockLike) = .other ∧ Whole (written (.method .blockLike)) :=
  ⟨rfl, (written_whole_partial _).mpr rfl⟩

/-- **C75, text, does not hold in general:** `return match x { … }[0];`, `return { f }(x);` and
`return { a }..b` lose their `return` without gaining parentheses. -/
theorem text_breaks : ¬Whole (written (.index .blockLike)) ∧ ¬Whole (written (.call .blockLike)) ∧
    ¬Whole (written (.range .blockLike)) ∧ ¬Whole (written (.range (.binary .blockLike))) := by
  refine ⟨?_, ?_, ?_, ?_⟩ <;> (unfold Whole; decide)

end Verif.Ctrl.Return
