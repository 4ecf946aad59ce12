import Verif.HirEq.Model

/-!
# What is expected from equality and hash of syntax trees
-/

namespace Verif.HirEq

mutual
/-- A piece of syntax and all its subtrees. -/
def subs : N → List N
  | .mk k cs => .mk k cs :: subsL cs
/-- The subtrees of several pieces. -/
def subsL : List N → List N
  | [] => []
  | n :: ns => subs n ++ subsL ns
end

/-- The places where equal pieces need not have the same hash, excluded. The first part: no block which is compared as something else. Then: no
operator whose operands may be exchanged, no `unsafe` block, no `..` in a struct pattern, no lifetime in a reference type, no struct or tuple
call as a const argument; the name of a lifetime is determined by its kind; names compared by resolution are resolved the usual way. -/
def plainHere (c : Cfg) (nameOf : Nat → Nat) (e : N) : Prop :=
  reduce e = e ∧
  match e with
  | .mk (.expr _ (.binary op)) [l, _] => swapOp l.prim op = none
  | .mk (.expr _ (.methodCall s)) _ => c.byRes = true → s.res = .err
  | .mk (.qTypeRel s) _ => c.byRes = true → s.res = .err
  | .mk (.path (.locl _) _) _ => True
  | .mk (.path _ segs) cs => segs.length = cs.length ∧ (c.byRes = true → (genericTail segs).isSome = true)
  | .mk (.blk u _ _) _ => u = false
  | .mk (.pStruct rest) _ => rest = false
  | .mk (.tRef l _) _ => l = ⟨0, 0⟩
  | .mk (.gLifetime l) _ => l.name = nameOf l.kind
  | .mk (.cStruct _) _ | .mk .cTupleCall _ => False
  | _ => True

/-- No subtree is one of the exceptions. -/
def Plain (c : Cfg) (nameOf : Nat → Nat) (e : N) : Prop := ∀ s ∈ subs e, plainHere c nameOf s

/-- The constant evaluator looks at the syntax only: what it knows about an expression is a function `F` of the kind and of what is hashed. -/
def constHere (c : Cfg) (F : Nat → List Tok → Option Nat) : N → Prop
  | .mk (.expr i k) cs => i.cst = F k.tag (hashE k (hashL c cs))
  | _ => True

/-- The constant evaluator looks at the syntax only, in all subtrees. -/
def ConstBy (c : Cfg) (F : Nat → List Tok → Option Nat) (e : N) : Prop := ∀ s ∈ subs e, constHere c F s

end Verif.HirEq
