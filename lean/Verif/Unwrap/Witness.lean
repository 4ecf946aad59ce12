import Verif.Unwrap.Props

/-!
# Concrete functions
-/

namespace Verif.Unwrap.Witness
open Verif.Unwrap

/-- `x.is_some()` and `x.is_none()` for a variable. -/
def isSome (x : Nat) : E := .check .option true (.var (.loc x))
def isNone (x : Nat) : E := .check .option false (.var (.loc x))
/-- `x.unwrap()` -/
def unwrap (id x : Nat) : E := .unwrap id .unwrap (.var (.loc x)) .blank
/-- `{ e; }` -/
def block (e : E) : E := .seq e .blank

/-- `if x.is_some() && c { x.unwrap(); x.as_mut().unwrap(); } else { x.unwrap(); }` -/
def okBody : E := .ite (.bin .and (isSome 0) .blank) (.seq (unwrap 1 0) (.unwrap 2 .unwrap (.asMut true (.var (.loc 0))) .blank)) (block (unwrap 3 0))

/-- The hypotheses of `verdict_partial` can be met, with reported calls which are executed. -/
example : okBody.std = true ∧ okBody.ids.Nodup ∧ (checkFn okBody).map (fun r => (r.id, r.unnecessary)) = [(1, true), (2, true)] ∧
    ∃ σ σ' t, eval 9 okBody σ (.val (.bool true)) σ' t ∧ ⟨1, true⟩ ∈ t := by
  refine ⟨by decide, by decide, by decide, fun _ => .variant true 0, Store.put (fun _ => .variant true 0) (.loc 0, []) (.variant true 0),
    [⟨1, true⟩, ⟨2, true⟩], ?_, by simp⟩
  · refine .inl ⟨.bool true, fun _ => .variant true 0, [], _, ?_, ?_, rfl⟩
    · refine .inl ⟨.bool true, fun _ => .variant true 0, [], [], ?_, ⟨⟨_, rfl⟩, rfl, rfl⟩, rfl⟩
      exact .inl ⟨.variant true 0, fun _ => .variant true 0, [], [], ⟨rfl, rfl, rfl⟩, ⟨rfl, rfl, rfl⟩, rfl⟩
    · refine .inl ⟨.bool true, fun _ => .variant true 0, [⟨1, true⟩], [⟨2, true⟩], ?_, ?_, rfl⟩
      · refine .inl ⟨.variant true 0, fun _ => .variant true 0, [], [⟨1, true⟩], ⟨rfl, rfl, rfl⟩, ?_, rfl⟩
        exact .inl ⟨.bool true, fun _ => .variant true 0, [], [⟨1, true⟩], ⟨⟨_, rfl⟩, rfl, rfl⟩, ⟨rfl, rfl, ⟨.bool true, rfl⟩⟩, rfl⟩
      · refine .inl ⟨.variant true 0, _, [], [⟨2, true⟩], ⟨true, 0, 0, rfl, rfl, rfl, rfl⟩, ?_, rfl⟩
        exact .inl ⟨.bool true, _, [], [⟨2, true⟩], ⟨⟨_, rfl⟩, rfl, rfl⟩, ⟨rfl, rfl, ⟨.bool true, rfl⟩⟩, rfl⟩

/-- `s.f`, where `s` is a struct -/
def sf : E := .field (.var (.loc 0)) 0

/-- `if s.f.is_none() { *s.as_mut() = Some(1); s.f.unwrap(); }`, where `s.as_mut()` is a method of the user's type -/
def asMutBody : E := .ite (.check .option false sf) (.seq (.asMut false (.var (.loc 0))) (.unwrap 1 .unwrap sf .blank)) .blank

/-- **C66, violated:** a call is reported to panic always though it needn't panic: a method `as_mut` of the user's type isn't seen to change the
field. -/
theorem wrong_as_mut : (checkFn asMutBody).map (fun r => (r.id, r.unnecessary)) = [(1, false)] ∧
    ∃ σ o σ' t, eval 9 asMutBody σ o σ' t ∧ ⟨1, true⟩ ∈ t := by
  refine ⟨by decide, fun _ => .struct [.variant false 0], .val (.bool true), fun x => if x = 0 then .struct [.variant true 1] else .struct [.variant false 0],
    [⟨1, true⟩], ?_, by simp⟩
  refine .inl ⟨.bool true, fun _ => .struct [.variant false 0], [], _, ?_, ?_, rfl⟩
  · refine .inl ⟨.variant false 0, fun _ => .struct [.variant false 0], [], [], ?_, ⟨rfl, rfl, rfl⟩, rfl⟩
    exact .inl ⟨.struct [.variant false 0], fun _ => .struct [.variant false 0], [], [], ⟨rfl, rfl, rfl⟩, ⟨rfl, rfl, rfl⟩, rfl⟩
  · refine .inl ⟨.bool true, fun x => if x = 0 then .struct [.variant true 1] else .struct [.variant false 0], [], [⟨1, true⟩], ?_, ?_, rfl⟩
    · exact ⟨⟨_, rfl⟩, ⟨.struct [.variant true 1], rfl⟩, rfl⟩
    · refine .inl ⟨.variant true 1, fun x => if x = 0 then .struct [.variant true 1] else .struct [.variant false 0], [], [⟨1, true⟩], ?_, ?_, rfl⟩
      · exact .inl ⟨.struct [.variant true 1], _, [], [], ⟨rfl, rfl, rfl⟩, ⟨rfl, rfl, rfl⟩, rfl⟩
      · exact .inl ⟨.bool true, _, [], [⟨1, true⟩], ⟨⟨_, rfl⟩, rfl, rfl⟩, ⟨rfl, rfl, ⟨.bool true, rfl⟩⟩, rfl⟩

/-- `if m & x.is_some() { x.unwrap(); }`, where `&` is an operator of the user's type -/
def overloadedBody : E := .ite (.bin (.bitAnd false) .blank (isSome 0)) (block (unwrap 1 0)) .blank

/-- **C66, violated:** a call is reported as unnecessary though it panics, if `&` is overloaded. -/
theorem wrong_overloaded : (checkFn overloadedBody).map (fun r => (r.id, r.unnecessary)) = [(1, true)] ∧
    ∃ σ o σ' t, eval 9 overloadedBody σ o σ' t ∧ ⟨1, false⟩ ∈ t := by
  refine ⟨by decide, fun _ => .variant false 0, .halt, fun _ => .variant false 0, [⟨1, false⟩], ?_, by simp⟩
  refine .inl ⟨.bool true, fun _ => .variant false 0, [], [⟨1, false⟩], ?_, ?_, rfl⟩
  · refine .inl ⟨.other 0, fun _ => .variant false 0, [], [], ⟨⟨_, rfl⟩, rfl, rfl⟩, ?_, rfl⟩
    refine .inl ⟨.bool false, fun _ => .variant false 0, [], [], ?_, ⟨⟨_, rfl⟩, rfl, rfl⟩, rfl⟩
    exact .inl ⟨.variant false 0, fun _ => .variant false 0, [], [], ⟨rfl, rfl, rfl⟩, ⟨rfl, rfl, rfl⟩, rfl⟩
  · refine .inr ⟨by simp, ?_⟩
    refine .inl ⟨.variant false 0, fun _ => .variant false 0, [], [⟨1, false⟩], ⟨rfl, rfl, rfl⟩, ?_, rfl⟩
    exact .inl ⟨.bool true, fun _ => .variant false 0, [], [⟨1, false⟩], ⟨⟨_, rfl⟩, rfl, rfl⟩, ⟨rfl, rfl, rfl⟩, rfl⟩

/-- `if x.is_none() { f() } else { x.unwrap() }` becomes `if let Some(<item>) = x { f() } else { x.unwrap() }`. -/
example : (checkFn (.ite (isNone 0) .blank (block (unwrap 1 0)))).map (fun r => (r.id, r.check.els, r.pat)) = [(1, true, some ⟨.option, true⟩)] ∧
    (checkFn (.ite (isSome 0) (block (unwrap 1 0)) .blank)).map (fun r => (r.id, r.check.els, r.pat)) = [(1, false, some ⟨.option, true⟩)] := by
  decide

end Verif.Unwrap.Witness
