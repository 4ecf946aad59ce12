import Verif.LetIf.Syntax
import Verif.LateInit.Spec

/-!
# Spec: what the two statements do
-/

namespace Verif.LetIf

open LateInit

/-- The branch for `else`. -/
def Els.branch : Els → Branch
  | .none => ⟨.unit, [], .none⟩
  | .block b => b
  | .other => ⟨.unit, [], .none⟩

/-- The declaration. -/
def Seq.decl (s : Seq) : Item :=
  match s.init with
  | none => .simple (.decl s.x)
  | some d => .simple (.init s.x false d)

/-- The `if`; a condition selects branch 0 if it holds. -/
def Seq.cond_ (s : Seq) : Item := .choice s.cond [s.then_, s.els.branch]

/-- The code is a constant: it changes nothing and always has the same value. -/
def Const {σ : Type} (S : Sys σ) (c : Code) : Prop := ∃ v, ∀ st w, S.exec c st w = (st, w, some v)

end Verif.LetIf
