import Verif.BoolIf.Model

/-!
# Conditions and boolean literals (C118)
-/

namespace Verif.BoolIf

variable {W : Type} {M : Meaning W}

theorem eval_peel : ∀ (e : Expr) (w : W), eval M (Model.peelBlocks e) w = eval M e w := by
  intro e
  induction e with
  | block e ih => intro w; simp only [Model.peelBlocks, eval, ih]
  | _ => intros; rfl

theorem fetch_eval {e : Expr} {b : Bool} (h : Model.fetchBoolExpr e = some b) (w : W) : eval M e w = (.val (.bool b), w) := by
  rw [← eval_peel]
  unfold Model.fetchBoolExpr at h
  split at h
  · rename_i b' hp
    rw [hp, Option.some.inj h]
    rfl
  · cases h

theorem peel_ret : ∀ (e : Expr) {r : Expr} {v : Val} {w w' : W}, Model.peelBlocksWithStmt e = .ret r → eval M r w = (.val v, w') →
    eval M e w = (.ret v, w') := by
  intro e
  induction e with
  | block e ih => intro r v w w' h hr; simp only [eval]; exact ih h hr
  | semi e ih => intro r v w w' h hr; simp only [eval, ih h hr, andThen]
  | ret e _ => intro r v w w' h hr; cases h; simp only [eval, hr, andThen]
  | _ => intro r v w w' h; cases h

/-- What a branch does. -/
def Model.Found.out : Model.Found → Out
  | .bool b => .val (.bool b)
  | .retBool b => .ret (.bool b)

theorem fetchBlock_eval {e : Expr} {f : Model.Found} (h : Model.fetchBoolBlock e = some f) (w : W) : eval M e w = (f.out, w) := by
  unfold Model.fetchBoolBlock at h
  split at h
  · rename_i r hp
    cases hf : Model.fetchBoolExpr r with
    | none => simp [hf] at h
    | some b =>
      simp only [hf, Option.map_some, Option.some.injEq] at h
      subst h
      exact peel_ret e hp (fetch_eval hf w)
  · cases hf : Model.fetchBoolExpr e with
    | none => simp [hf] at h
    | some b =>
      simp only [hf, Option.map_some, Option.some.injEq] at h
      subst h
      exact fetch_eval hf w

theorem ite_eval {c t e : Expr} {f g : Out} (ht : ∀ w, eval M t w = (f, w)) (he : ∀ w, eval M e w = (g, w)) (w : W) :
    eval M (.ite c t e) w = andThen (eval M c w) fun v => branch v (fun w => (f, w)) (fun w => (g, w)) := by
  simp only [eval]
  congr 1
  funext v w'
  cases v with
  | bool b => cases b <;> simp [branch, ht, he]
  | _ => rfl

/-- The replacement of an `if` with boolean literals does what the `if` does. -/
theorem bools_same {c t e x : Expr} (h : Model.checkBools c t e = some (.replace x)) (hc : Bools M c) (w : W) :
    eval M x w = eval M (.ite c t e) w := by
  unfold Model.checkBools at h
  split at h <;> simp only [Option.some.injEq, reduceCtorEq, Model.Report.replace.injEq] at h <;>
  · rename_i ht he
    subst h
    rw [ite_eval (fetchBlock_eval ht) (fetchBlock_eval he)]
    rcases hr : eval M c w with ⟨o, w'⟩
    cases o with
    | val v =>
      obtain ⟨b, rfl⟩ := hc _ _ _ hr
      cases b <;> simp [Model.reduce, eval, hr, andThen, branch, Val.not, Model.Found.out]
    | _ => simp [Model.reduce, eval, hr, andThen]

/-- An `if` that is said to always have a value has it, or returns it, whatever the condition, if the condition has a value. -/
theorem always_same {c t e : Expr} {b : Bool} (h : Model.checkBools c t e = some (.always b)) (hc : Bools M c) {w w' : W} {v : Val}
    (hv : eval M c w = (.val v, w')) : asBody (eval M (.ite c t e) w) = (.val (.bool b), w') := by
  obtain ⟨x, rfl⟩ := hc _ _ _ hv
  unfold Model.checkBools at h
  split at h <;> simp only [Option.some.injEq, reduceCtorEq, Model.Report.always.injEq] at h <;>
  · rename_i ht he
    subst h
    rw [ite_eval (fetchBlock_eval ht) (fetchBlock_eval he), hv]
    cases x <;> simp [andThen, branch, Model.Found.out, asBody]

theorem peel_assign : ∀ (e : Expr) {p : Nat} {r : Expr} {w : W}, Units M → Model.peelBlocksWithStmt e = .assign p r →
    eval M e w = eval M (.semi (.assign p r)) w := by
  intro e
  induction e with
  | block e ih => intro p r w hu h; simp only [eval]; exact ih hu h
  | semi e ih =>
    intro p r w hu h
    have := ih (w := w) hu h
    rw [eval, this]
    simp only [eval]
    rcases andThen (eval M r w) (M.store p) with ⟨o, w'⟩
    cases o <;> rfl
  | assign q e _ =>
    intro p r w hu h
    cases h
    simp only [eval]
    rcases hr : eval M e w with ⟨o, w'⟩
    cases o with
    | val v =>
      simp only [andThen]
      rcases hs : M.store q v w' with ⟨o, w''⟩
      cases o with
      | val u => rw [hu _ _ _ _ _ hs]
      | _ => rfl
    | _ => rfl
  | _ => intro p r w _ h; cases h

theorem fetchAssign_eval {e : Expr} {p : Nat} {b : Bool} (hu : Units M) (h : Model.fetchAssign e = some (p, b)) (w : W) :
    eval M e w = eval M (.semi (.assign p (.bool b))) w := by
  unfold Model.fetchAssign at h
  split at h
  · rename_i q r hp
    cases hf : Model.fetchBoolExpr r with
    | none => simp [hf] at h
    | some x =>
      simp only [hf, Option.map_some, Option.some.injEq, Prod.mk.injEq] at h
      obtain ⟨rfl, rfl⟩ := h
      rw [peel_assign e hu hp]
      simp only [eval, fetch_eval hf]
  · cases h

/-- The assignment that replaces an `if` with two assignments of literals does what the `if` does. -/
theorem assigns_same {c t e x : Expr} (h : Model.checkAssigns c t e = some x) (hc : Bools M c) (hu : Units M) (w : W) :
    eval M x w = eval M (.ite c t e) w := by
  unfold Model.checkAssigns at h
  split at h
  · rename_i p a q b ht he
    by_cases hpq : p = q
    · subst hpq
      rw [if_pos rfl] at h
      have ht' := fetchAssign_eval (M := M) hu ht
      have he' := fetchAssign_eval (M := M) hu he
      have hi : eval M (.ite c t e) w = andThen (eval M c w) fun v =>
          branch v (eval M (.semi (.assign p (.bool a)))) (eval M (.semi (.assign p (.bool b)))) := by
        simp only [eval]
        congr 1
        funext v w'
        cases v with
        | bool y => cases y <;> simp [branch, ht', he', eval]
        | _ => rfl
      rw [hi]
      rcases hr : eval M c w with ⟨o, w'⟩
      cases o with
      | val v =>
        obtain ⟨y, rfl⟩ := hc _ _ _ hr
        by_cases hab : a = b
        · subst hab
          rw [if_pos rfl] at h
          cases h
          cases y <;> simp [eval, hr, andThen, branch]
        · rw [if_neg hab] at h
          cases h
          cases a <;> cases b <;> first | exact absurd rfl hab | (cases y <;> simp [eval, hr, andThen, branch, Val.not])
      | _ =>
        by_cases hab : a = b
        · rw [if_pos hab] at h
          cases h
          simp [eval, hr, andThen]
        · rw [if_neg hab] at h
          cases h
          cases a <;> simp [eval, hr, andThen]
    · rw [if_neg hpq] at h
      cases h
  · cases h

/-- The value with a constructor around it, or not. -/
def wrapped : Option Nat → Val → Val
  | none, v => v
  | some k, v => .wrap k v

theorem wrapper_eval {e : Expr} {f : Option Nat} {b : Bool} (h : Model.fetchBoolAndWrapper e = some (f, b)) (w : W) :
    eval M e w = (.val (wrapped f (.bool b)), w) := by
  rw [← eval_peel]
  unfold Model.fetchBoolAndWrapper at h
  split at h
  · rename_i x hp
    cases h
    rw [hp]
    rfl
  · rename_i k a hp
    cases hf : Model.fetchBoolExpr a with
    | none => simp [hf] at h
    | some x =>
      simp only [hf, Option.map_some, Option.some.injEq, Prod.mk.injEq] at h
      obtain ⟨rfl, rfl⟩ := h
      rw [hp]
      simp only [eval, fetch_eval hf, andThen, wrapped]
  · cases h

/-- The end of a block: the `if` that returns, and the expression after it. -/
theorem guard_same {init : List Expr} {last tail x : Expr} (h : Model.checkBlock init last tail = some x)
    (hc : ∀ c t, last = .ifThen c t → Bools M c) (w : W) : asBody (eval M x w) = asBody (eval M (.seq last tail) w) := by
  unfold Model.checkBlock at h
  split at h
  · cases h
  · rename_i c r hg
    obtain ⟨t, rfl, hp⟩ : ∃ t, last = .ifThen c t ∧ Model.peelBlocksWithStmt t = .ret r := by
      unfold Model.guardOf at hg
      split at hg
      · split at hg
        · rename_i hp; cases hg; exact ⟨_, rfl, hp⟩
        · cases hg
      · cases hg
    split at h
    · rename_i f a g b hr ht
      split at h
      · rename_i hab
        obtain ⟨hab, rfl⟩ := hab
        have hret : ∀ w, eval M t w = (.ret (wrapped f (.bool a)), w) := fun w => peel_ret t hp (wrapper_eval hr w)
        have htail : ∀ w, eval M tail w = (.val (wrapped f (.bool b)), w) := fun w => wrapper_eval ht w
        split at h
        · cases h
        · rcases hv : eval M c w with ⟨o, w'⟩
          cases o with
          | val v =>
            obtain ⟨y, rfl⟩ := hc c t rfl _ _ _ hv
            cases f <;> cases a <;> cases b <;> first | exact absurd rfl hab | (cases h; cases y <;>
              simp [eval, hv, andThen, branch, hret, htail, asBody, wrapped, Val.not])
          | _ => cases f <;> cases a <;> cases h <;> simp [eval, hv, andThen, asBody]
      · cases h
    · cases h

/-- Chains of `if`s that return are left alone: what counts is the statement right before the last one. -/
theorem chain_silent (init : List Expr) (c r last tail : Expr) : Model.checkBlock (init ++ [.ifThen c (.block (.semi (.ret r)))]) last tail = none := by
  unfold Model.checkBlock
  split
  · rfl
  · split
    · split
      · simp [Model.guardOf, Model.peelBlocksWithStmt]
      · rfl
    · rfl

/-- Statements that aren't an `if` don't hide the end of a block, whatever comes before them. -/
theorem chain_other (init : List Expr) (s last tail : Expr) (h : ∀ c t, s ≠ .ifThen c t) :
    Model.checkBlock (init ++ [s]) last tail = Model.checkBlock [] last tail := by
  have hg : Model.guardOf s = none := by
    cases s <;> first | rfl | exact absurd rfl (h _ _)
  simp [Model.checkBlock, hg]

example : Model.checkBlock [.ifThen (.other 0) (.ret (.bool true)), .other 1] (.ifThen (.other 2) (.ret (.bool true))) (.bool false) =
    some (.other 2) := by decide +kernel

theorem asBody_andThen {r s : Out × W} {f : Val → W → Out × W} {g : Val → W → Out × W} (h : r = s) (hfg : ∀ v w, asBody (f v w) = asBody (g v w)) :
    asBody (andThen r f) = asBody (andThen s g) := by
  subst h
  rcases r with ⟨o, w⟩
  cases o <;> simp [andThen, hfg]

theorem branch_body {v : Val} {a b d e : W → Out × W} {w : W} (h1 : asBody (a w) = asBody (d w)) (h2 : asBody (b w) = asBody (e w)) :
    asBody (branch v a b w) = asBody (branch v d e w) := by
  cases v with
  | bool x => cases x <;> simp [branch, h1, h2]
  | _ => rfl

/-- At the end of a function, it doesn't matter whether a value is returned. -/
theorem tail_same {x y : Expr} (h : ∀ w, asBody (eval M x w) = asBody (eval M y w)) :
    ∀ (t : Tail) (w : W), asBody (eval M (t.fill x) w) = asBody (eval M (t.fill y) w) := by
  intro t
  induction t with
  | hole => exact h
  | block t ih => exact ih
  | seq a t ih => intro w; simp only [Tail.fill, eval]; exact asBody_andThen rfl fun _ w => ih w
  | thenOf c t e ih => intro w; simp only [Tail.fill, eval]; exact asBody_andThen rfl fun _ w => branch_body (ih w) rfl
  | elseOf c t e ih => intro w; simp only [Tail.fill, eval]; exact asBody_andThen rfl fun _ w => branch_body rfl (ih w)

theorem blockOf_last (init : List Expr) (x : Expr) : blockOf init x = (init.foldr Tail.seq .hole).fill x := by
  induction init with
  | nil => rfl
  | cons s ss ih => simp only [blockOf, List.foldr_cons, Tail.fill, ih]

theorem tail_seq (init : List Expr) (last tail : Expr) : blockOf (init ++ [last]) tail = blockOf init (.seq last tail) := by
  induction init with
  | nil => rfl
  | cons s ss ih => simp only [List.cons_append, blockOf, ih]

/-- A block at the end of a function gives the same result after the replacement of its early return. Missing: blocks elsewhere, for which the
suggestion is made, too, and is wrong; see `inner_block`. -/
theorem guard_partial {init : List Expr} {last tail x : Expr} (h : Model.checkBlock init last tail = some x)
    (hc : ∀ c t, last = .ifThen c t → Bools M c) (T : Tail) (w : W) :
    asBody (eval M (T.fill (blockOf init x)) w) = asBody (eval M (T.fill (blockOf (init ++ [last]) tail)) w) := by
  refine tail_same (fun w => ?_) T w
  rw [tail_seq, blockOf_last, blockOf_last]
  exact tail_same (guard_same h hc) _ w

/-- `!{ if c { return true; } false }` becomes `!{ c }`, and the function no longer returns `true` but goes on with the value. -/
theorem inner_block : ∃ last tail x, Model.checkBlock [] last tail = some x ∧
    ∃ M : Meaning Unit, (∀ c, Bools M (.bool c)) ∧
      asBody (eval M (.not (blockOf [last] tail)) ()) = (.val (.bool true), ()) ∧ asBody (eval M (.not x) ()) = (.val (.bool false), ()) := by
  refine ⟨.ifThen (.bool true) (.semi (.ret (.bool true))), .bool false, .bool true, by decide +kernel,
    ⟨fun _ w => (.leave 0, w), fun _ _ w => (.leave 0, w), fun _ _ w => (.leave 0, w)⟩, ?_, ?_, ?_⟩
  · intro c w v w' h
    simp only [eval, Prod.mk.injEq, Out.val.injEq] at h
    exact ⟨c, h.1.symm⟩
  · rfl
  · rfl

example : Model.checkBools (.other 0) (.block (.bool false)) (.block (.bool true)) = some (.replace (.not (.other 0))) := by decide +kernel

example : Model.checkAssigns (.other 0) (.semi (.assign 3 (.bool true))) (.semi (.assign 3 (.bool false))) =
    some (.semi (.assign 3 (.other 0))) := by decide +kernel

example : Model.checkBools (.other 0) (.semi (.ret (.bool true))) (.semi (.ret (.bool true))) = some (.always true) := by decide +kernel

example : Model.checkBlock [.other 1] (.ifThen (.other 0) (.semi (.ret (.wrap 7 (.bool false))))) (.wrap 7 (.bool true)) =
    some (.wrap 7 (.not (.other 0))) := by decide +kernel

end Verif.BoolIf
