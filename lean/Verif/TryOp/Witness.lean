import Verif.TryOp.Props

/-!
# Cases of `question_mark`: what the theorems cover, and what they can't
-/

namespace Verif.TryOp.Witness
open Verif.TryOp

/-- Write through a reference. -/
def write (w : Nat → Val) : Val → Nat → Val
  | .refIn true p => fun n => if n = p then .some (.int 5) else w n
  | _ => w

/-- Places hold options and results.  Body `1` writes through variable `0`, the others are numbers; pattern `0`
binds variable `9` with `ref`. -/
def demo (conv : Val → Val) : Sem where
  W := Nat → Val
  get := fun n w => w n
  eval := fun _ w => (.some (.int 7), w)
  conv := conv
  inner := fun n l v env => if n = 0 then env.set 9 (refTo false l v) else env
  refut := fun _ _ _ _ => none
  pat := fun _ _ _ _ => none
  guard := fun _ _ => true
  other := fun n env w => if n = 1 then (.val .unit, write w (env 0)) else (.val (.int n), w)

/-- The facts for code in which everything has one type. -/
def facts (k : Kind) (copy semi : Bool) : Facts where
  kind := fun _ => k
  isRef := fun _ => false
  isLocal := fun s => match s with | .place _ => true | .temp _ => false
  copy := fun _ => copy
  isCall := fun _ => false
  pure := fun _ => true
  elseClause := false
  needsSemi := semi

def env0 : Env := fun _ => .int 0

/-- `return None;` in a block, and `return o;`. -/
def retNoneB : Body := .semi (.ret .none)
def retSrcB : Body := .semi (.ret (.src (.place 0)))

def opt (v : Val) : Nat → Val := fun _ => .some v
def nope : Nat → Val := fun _ => .none
def good (v : Val) : Nat → Val := fun _ => .ok v
def bad (v : Val) : Nat → Val := fun _ => .err v

/-! ## The hypotheses can be met -/

/-- A world in which everything is an option, so that the facts are true. -/
def optSem : Sem where
  W := Bool
  get := fun _ w => if w then .some (.int 3) else .none
  eval := fun _ w => (if w then .some (.int 3) else .none, w)
  conv := id
  inner := fun _ _ _ env => env
  refut := fun _ _ _ _ => none
  pat := fun _ _ _ _ => none
  guard := fun _ _ => true
  other := fun n _ w => (.val (.int n), w)

/-- The same for results. -/
def resSem (conv : Val → Val) : Sem where
  W := Bool
  get := fun _ w => if w then .ok (.int 3) else .err (.int 4)
  eval := fun _ w => (if w then .ok (.int 3) else .err (.int 4), w)
  conv := conv
  inner := fun _ _ _ env => env
  refut := fun _ _ _ _ => none
  pat := fun _ _ _ _ => none
  guard := fun _ _ => true
  other := fun n _ w => (.val (.int n), w)

theorem optSem_ok (copy semi : Bool) : FactsOk (facts .option copy semi) optSem where
  kind := fun s w _ => by
    cases s <;> cases w <;> first | exact HasKind.some _ | exact HasKind.none
  local_ := fun s h => by
    cases s with
    | place n => exact ⟨n, rfl⟩
    | temp => cases h
  pure := fun s w _ => by cases s <;> rfl

theorem resSem_ok (conv : Val → Val) (copy semi : Bool) : FactsOk (facts .result copy semi) (resSem conv) where
  kind := fun s w _ => by
    cases s <;> cases w <;> first | exact HasKind.ok _ | exact HasKind.err _
  local_ := fun s h => by
    cases s with
    | place n => exact ⟨n, rfl⟩
    | temp => cases h
  pure := fun s w _ => by cases s <;> rfl

/-- `if o.is_none() { return None; }` -/
example (w : Bool) : Same true false
    (runCode optSem (.ifIs (.place 0) .isNone retNoneB none) env0 w)
    (runEdit optSem (.tryE (.src (.place 0)) (some false) true) env0 w) :=
  is_same_partial (optSem_ok false true) (by decide +kernel) (.inl (.semi (.ret .none)))
    (fun h => by cases h) env0 w

/-- `if o.is_none() { None } else { o }` at the end of a function. -/
example (w : Bool) : Same false true
    (runCode optSem (.ifIs (.place 0) .isNone (.blk .none) (some (.blk (.src (.place 0))))) env0 w)
    (runEdit optSem (.someTry (.place 0)) env0 w) :=
  is_same_partial (optSem_ok false true) (by decide +kernel) (.inr ⟨rfl, rfl, .blk .none, rfl⟩)
    (fun h => by cases h) env0 w

/-- `if r.is_err() { return r; }` -/
example (w : Bool) : Same true false
    (runCode (resSem id) (.ifIs (.place 0) .isErr retSrcB none) env0 w)
    (runEdit (resSem id) (.tryE (.src (.place 0)) none true) env0 w) :=
  is_same_partial (resSem_ok id true true) (by decide +kernel) (.inl (.semi (.ret (.src _))))
    (fun _ => ⟨.semi (.ret (.src _)), rfl, rfl, fun _ => rfl⟩) env0 w

/-- `if let Some(x) = o { 42 } else { return None; }` -/
example (w : Bool) : Same false false
    (runCode optSem (.ifLet (.ctor .some (.bind ⟨none, 0⟩)) (.place 0) (.blk (.other 42)) (some retNoneB)) env0 w)
    (runEdit optSem (.letTry (.bind ⟨none, 0⟩) (.src (.place 0)) (.blk (.other 42))) env0 w) :=
  if_let_same_partial (optSem_ok false false) (by decide +kernel) (fun h => by cases h) (fun h => by cases h)
    (fun _ e h => by cases h; exact .semi (.valued (.ret .none))) (.inl rfl) (fun h => by cases h)
    (fun h => by cases h) (fun h => by cases h) env0 w

/-- `if let Some(ref x) = o { x } else { return None; }` -/
example (w : Bool) : Same false false
    (runCode optSem (.ifLet (.ctor .some (.bind ⟨some false, 0⟩)) (.place 0) (.blk (.var 0)) (some retNoneB)) env0 w)
    (runEdit optSem (.tryE (.src (.place 0)) (some false) false) env0 w) :=
  if_let_same_partial (optSem_ok false false) (by decide +kernel) (fun h => by cases h) (fun h => by cases h)
    (fun _ e h => by cases h; exact .semi (.valued (.ret .none))) (.inr ⟨rfl, .blk .var⟩) (fun h => by cases h)
    (fun h => by cases h) (fun h => by cases h) env0 w

/-- `if let Err(e) = r { return Err(e); }` -/
example (w : Bool) : Same true false
    (runCode (resSem id) (.ifLet (.ctor .err (.bind ⟨none, 0⟩)) (.place 0) (.semi (.ret (.errOf 0))) none) env0 w)
    (runEdit (resSem id) (.tryE (.src (.place 0)) none true) env0 w) :=
  if_let_same_partial (resSem_ok id false true) (by decide +kernel) (fun _ => rfl) (fun _ => rfl)
    (fun h => by cases h) (.inl rfl) (fun _ e h => by cases h) (fun _ _ => .semi (.ret (.errOf _)))
    (fun _ _ => rfl) env0 w

/-- `if let Ok(x) = r { x } else { return r; }` -/
example (w : Bool) : Same false false
    (runCode (resSem id) (.ifLet (.ctor .ok (.bind ⟨none, 0⟩)) (.place 0) (.blk (.var 0)) (some retSrcB)) env0 w)
    (runEdit (resSem id) (.tryE (.src (.place 0)) none false) env0 w) :=
  if_let_same_partial (resSem_ok id false false) (by decide +kernel) (fun h => by cases h) (fun h => by cases h)
    (fun h => by cases h) (.inl rfl)
    (fun _ e h => by cases h; exact ⟨.semi (.ret (.src _)), .semi (.ret (.src _)), .blk .var⟩)
    (fun _ h => by cases h) (fun _ _ => rfl) env0 w

/-- `match r { Err(e) => return Err(e.into()), Ok(x) => 42 }`, with errors that are converted. -/
example (w : Bool) :
    runCode (resSem Val.some) (.mtch (.src (.place 0))
      ⟨.ctor .err (.bind ⟨none, 1⟩), false, .ret (.errInto 1)⟩
      ⟨.ctor .ok (.bind ⟨none, 0⟩), false, .other 42⟩) env0 w =
    runEdit (resSem Val.some) (.letTry (.bind ⟨none, 0⟩) (.src (.place 0)) (.other 42)) env0 w :=
  match_same_partial (resSem_ok _ false false) (by decide +kernel) rfl
    (fun c b h => by cases h; rfl) (fun c b h => by cases h; rfl)
    (.inr ⟨fun b _ => .ret (.into 1), fun b h => by cases h⟩) env0 w

/-- `let Some(ref x @ ref y) = o else { return None };` -/
example (w : Bool) :
    runCode optSem (.letElse (.ctor .some (.bindAtRef ⟨some false, 0⟩ false 1)) (.place 0) retNoneB (.var 1)) env0 w =
    runEdit optSem (.letTryRef (.bindAtRef ⟨none, 0⟩ false 1) (.place 0) false (.var 1)) env0 w :=
  let_else_same_partial (optSem_ok false false) (by decide +kernel) (fun c q h => by cases h; exact .both false 0 1) env0 w

/-! ## What goes wrong -/

/-- `let y = if o.is_none() { None } else { o };` becomes `Some(o?)`, which returns from the function. -/
theorem no_return :
    check (facts .option false false) (.ifIs (.place 0) .isNone (.blk .none) (some (.blk (.src (.place 0))))) =
      some (.someTry (.place 0)) ∧
    (runCode (demo id) (.ifIs (.place 0) .isNone (.blk .none) (some (.blk (.src (.place 0))))) env0 nope).1 =
      .val .none ∧
    (runEdit (demo id) (.someTry (.place 0)) env0 nope).1 = .ret .none := by
  refine ⟨by decide +kernel, rfl, rfl⟩

/-- `if o.is_none() { None; }` does nothing, `o.as_ref()?;` returns. -/
theorem no_return_stmt :
    check (facts .option false true) (.ifIs (.place 0) .isNone (.semi .none) none) =
      some (.tryE (.src (.place 0)) (some false) true) ∧
    (runCode (demo id) (.ifIs (.place 0) .isNone (.semi .none) none) env0 nope).1 = .val .unit ∧
    (runEdit (demo id) (.tryE (.src (.place 0)) (some false) true) env0 nope).1 = .ret .none := by
  refine ⟨by decide +kernel, rfl, rfl⟩

/-- `if let Ok(x) = r { 42 } else { return r; }` becomes `r?`: the branch is lost. -/
theorem branch_lost :
    check (facts .result true false)
      (.ifLet (.ctor .ok (.bind ⟨none, 0⟩)) (.place 0) (.blk (.other 42)) (some retSrcB)) =
      some (.tryE (.src (.place 0)) none false) ∧
    (runCode (demo id) (.ifLet (.ctor .ok (.bind ⟨none, 0⟩)) (.place 0) (.blk (.other 42)) (some retSrcB)) env0
      (good (.int 7))).1 = .val (.int 42) ∧
    (runEdit (demo id) (.tryE (.src (.place 0)) none false) env0 (good (.int 7))).1 = .val (.int 7) := by
  refine ⟨by decide +kernel, rfl, rfl⟩

/-- `if let Ok(x) = r { x } else { return Err(x); }` with another `x` from outside becomes `r?`, which returns
the error of `r`. -/
theorem outer_variable :
    check (facts .result true false)
      (.ifLet (.ctor .ok (.bind ⟨none, 0⟩)) (.place 0) (.blk (.var 0)) (some (.semi (.ret (.errOf 0))))) =
      some (.tryE (.src (.place 0)) none false) ∧
    (runCode (demo id) (.ifLet (.ctor .ok (.bind ⟨none, 0⟩)) (.place 0) (.blk (.var 0))
      (some (.semi (.ret (.errOf 0))))) env0 (bad (.int 7))).1 = .ret (.err (.int 0)) ∧
    (runEdit (demo id) (.tryE (.src (.place 0)) none false) env0 (bad (.int 7))).1 = .ret (.err (.int 7)) := by
  refine ⟨by decide +kernel, rfl, rfl⟩

/-- `if let Ok(x) = r { … } else { Err(x) }`, without `return`, becomes `r?` too. -/
theorem no_return_err :
    check (facts .result true false)
      (.ifLet (.ctor .ok (.bind ⟨none, 0⟩)) (.place 0) (.blk (.other 42)) (some (.blk (.errOf 0)))) =
      some (.tryE (.src (.place 0)) none false) ∧
    (runCode (demo id) (.ifLet (.ctor .ok (.bind ⟨none, 0⟩)) (.place 0) (.blk (.other 42))
      (some (.blk (.errOf 0)))) env0 (bad (.int 7))).1 = .val (.err (.int 0)) ∧
    (runEdit (demo id) (.tryE (.src (.place 0)) none false) env0 (bad (.int 7))).1 = .ret (.err (.int 7)) := by
  refine ⟨by decide +kernel, rfl, rfl⟩

/-- `if let Some(ref mut x) = o { *x = 5; } else { return None; }` becomes `{ let ref mut x = o?; *x = 5; }`:
`o` keeps its old value. -/
theorem ref_mut_copy :
    check (facts .option true true)
      (.ifLet (.ctor .some (.bind ⟨some true, 0⟩)) (.place 0) (.blk (.other 1)) (some retNoneB)) =
      some (.letTry (.bind ⟨some true, 0⟩) (.src (.place 0)) (.blk (.other 1))) ∧
    (runCode (demo id) (.ifLet (.ctor .some (.bind ⟨some true, 0⟩)) (.place 0) (.blk (.other 1)) (some retNoneB))
      env0 (opt (.int 7))).2 0 = .some (.int 5) ∧
    (runEdit (demo id) (.letTry (.bind ⟨some true, 0⟩) (.src (.place 0)) (.blk (.other 1))) env0
      (opt (.int 7))).2 0 = .some (.int 7) := by
  refine ⟨by decide +kernel, rfl, rfl⟩

/-- `match &mut o { Some(x) => { *x = 5; } None => return None }` becomes `{ let x = &mut o?; *x = 5; }`:
`o` keeps its old value. -/
theorem addr_copy :
    check (facts .option true true) (.mtch (.addr true 0)
      ⟨.ctor .some (.bind ⟨none, 0⟩), false, .blk (.other 1)⟩ ⟨.none, false, .ret .none⟩) =
      some (.letTry (.bind ⟨none, 0⟩) (.addr true 0) (.blk (.other 1))) ∧
    (runCode (demo id) (.mtch (.addr true 0)
      ⟨.ctor .some (.bind ⟨none, 0⟩), false, .blk (.other 1)⟩ ⟨.none, false, .ret .none⟩)
      env0 (opt (.int 7))).2 0 = .some (.int 5) ∧
    (runEdit (demo id) (.letTry (.bind ⟨none, 0⟩) (.addr true 0) (.blk (.other 1))) env0
      (opt (.int 7))).2 0 = .some (.int 7) := by
  refine ⟨by decide +kernel, rfl, rfl⟩

/-- `match o { Some(x) => x, None => return None }` for a reference `o` becomes `o?`, which is not accepted. -/
theorem reference_stuck :
    check { facts .option true false with isRef := fun _ => true } (.mtch (.src (.place 1))
      ⟨.ctor .some (.bind ⟨none, 0⟩), false, .var 0⟩ ⟨.none, false, .ret .none⟩) =
      some (.tryE (.src (.place 1)) none false) ∧
    (runCode (demo id) (.mtch (.src (.place 1))
      ⟨.ctor .some (.bind ⟨none, 0⟩), false, .var 0⟩ ⟨.none, false, .ret .none⟩) env0
      (fun n => if n = 1 then .refPl false 0 else .some (.int 7))).1 = .val (.refIn false 0) ∧
    (runEdit (demo id) (.tryE (.src (.place 1)) none false) env0
      (fun n => if n = 1 then .refPl false 0 else .some (.int 7))).1 = .stuck := by
  refine ⟨by decide +kernel, rfl, rfl⟩

/-- `if r.is_err() { return r; } else { r }` becomes `Some(r?)`. -/
theorem some_result :
    check (facts .result true false) (.ifIs (.place 0) .isErr retSrcB (some (.blk (.src (.place 0))))) =
      some (.someTry (.place 0)) ∧
    (runCode (demo id) (.ifIs (.place 0) .isErr retSrcB (some (.blk (.src (.place 0))))) env0
      (good (.int 7))).1 = .val (.ok (.int 7)) ∧
    (runEdit (demo id) (.someTry (.place 0)) env0 (good (.int 7))).1 = .val (.some (.int 7)) := by
  refine ⟨by decide +kernel, rfl, rfl⟩

/-- `if r.is_err() { return r; }` becomes `r.as_ref()?;` if `r` is not `Copy`: a reference to the error is
returned. -/
theorem err_reference :
    check (facts .result false true) (.ifIs (.place 0) .isErr retSrcB none) =
      some (.tryE (.src (.place 0)) (some false) true) ∧
    (runCode (demo id) (.ifIs (.place 0) .isErr retSrcB none) env0 (bad (.int 7))).1 = .ret (.err (.int 7)) ∧
    (runEdit (demo id) (.tryE (.src (.place 0)) (some false) true) env0 (bad (.int 7))).1 =
      .ret (.err (.refIn false 0)) := by
  refine ⟨by decide +kernel, rfl, rfl⟩

/-- `let Some((ref x, _)) = o else { return None };` becomes `let (ref x, _) = o?;`: a reference to a copy. -/
theorem hidden_ref :
    check (facts .option true false) (.letElse (.ctor .some (.irref 0)) (.place 0) retNoneB (.var 9)) =
      some (.letTry (.irref 0) (.src (.place 0)) (.var 9)) ∧
    (runCode (demo id) (.letElse (.ctor .some (.irref 0)) (.place 0) retNoneB (.var 9)) env0
      (opt (.int 7))).1 = .val (.refIn false 0) ∧
    (runEdit (demo id) (.letTry (.irref 0) (.src (.place 0)) (.var 9)) env0 (opt (.int 7))).1 =
      .val (.refTemp false (.int 7)) := by
  refine ⟨by decide +kernel, rfl, rfl⟩

end Verif.TryOp.Witness
