import Verif.Pushes.Syntax

/-!
# What a body does

An operation may do anything to the locals it mentions that can be changed, and nothing to others: a vector that the body uses directly is not
borrowed elsewhere. A closure is run any number of times where it is written.
-/

namespace Verif.Pushes

inductive Val
  | num (n : Nat)
  | vec (xs : List Nat)
deriving DecidableEq, Repr

/-- What locals hold. -/
abbrev St := Nat → Option Val

def St.put (σ : St) (x : Nat) (w : Val) : St := fun y => if y = x then some w else σ y

inductive Out
  | vals (ws : List Val)
  | jump (j : Jump)
deriving DecidableEq, Repr

/-- The code has this local somewhere. -/
def Mentions (x : Nat) : Code → Prop
  | .lit _ | .const _ | .nil | .done => False
  | .path y => y = x
  | .op _ a | .jmp _ a | .closure a | .loop a | .block a | .tail a => Mentions x a
  | .ite a b c | .mat a b c => Mentions x a ∨ Mentions x b ∨ Mentions x c
  | .push a b | .cons a b | .stmt _ a b => Mentions x a ∨ Mentions x b
  | .bind y a b => y = x ∨ Mentions x a ∨ Mentions x b

/-- The local, or something made from it, can be in the value of the code: what is done by statements before isn't in it. -/
def Handed (x : Nat) : Code → Prop
  | .lit _ | .const _ | .nil | .done | .jmp _ _ | .push _ _ => False
  | .path y => y = x
  | .closure a | .loop a => Mentions x a
  | .op _ a | .block a | .tail a => Handed x a
  | .ite _ a b => Handed x a ∨ Handed x b
  | .mat s a b => Handed x s ∨ Handed x a ∨ Handed x b
  | .cons a b => Handed x a ∨ Handed x b
  | .stmt _ _ b => Handed x b
  | .bind y a b => y = x ∨ Handed x a ∨ Handed x b

/-- What an operation on these arguments may change. -/
def Touch (D : Decls) (args : Code) (σ τ : St) : Prop :=
  ∀ x, τ x ≠ σ x → Handed x args ∧ (D.isMut x = true ∨ D.isCell x = true ∨ τ x = none)

/-- Running code. `K` are the values of constants. -/
inductive Run (D : Decls) (K : Nat → Nat) : St → Code → St → Out → Prop
  | lit {σ n} : Run D K σ (.lit n) σ (.vals [.num n])
  | const {σ k} : Run D K σ (.const k) σ (.vals [.num (K k)])
  | path {σ x w} : σ x = some w → Run D K σ (.path x) σ (.vals [w])
  | nil {σ} : Run D K σ .nil σ (.vals [])
  | cons {σ σ₁ σ₂ e es vs ws} : Run D K σ e σ₁ (.vals vs) → Run D K σ₁ es σ₂ (.vals ws) →
      Run D K σ (.cons e es) σ₂ (.vals (vs ++ ws))
  | consFst {σ σ₁ e es j} : Run D K σ e σ₁ (.jump j) → Run D K σ (.cons e es) σ₁ (.jump j)
  | consSnd {σ σ₁ σ₂ e es vs j} : Run D K σ e σ₁ (.vals vs) → Run D K σ₁ es σ₂ (.jump j) →
      Run D K σ (.cons e es) σ₂ (.jump j)
  | op {σ σ₁ σ₂ k args vs w} : Run D K σ args σ₁ (.vals vs) → Touch D args σ₁ σ₂ →
      Run D K σ (.op k args) σ₂ (.vals [w])
  | opJump {σ σ₁ k args j} : Run D K σ args σ₁ (.jump j) → Run D K σ (.op k args) σ₁ (.jump j)
  | jmp {σ σ₁ j args vs} : Run D K σ args σ₁ (.vals vs) → Run D K σ (.jmp j args) σ₁ (.jump j)
  | jmpJump {σ σ₁ j i args} : Run D K σ args σ₁ (.jump i) → Run D K σ (.jmp j args) σ₁ (.jump i)
  | closureEnd {σ b w} : Run D K σ (.closure b) σ (.vals [w])
  | closureVal {σ σ₁ σ₂ b vs o} : Run D K σ b σ₁ (.vals vs) → Run D K σ₁ (.closure b) σ₂ o →
      Run D K σ (.closure b) σ₂ o
  | closureRet {σ σ₁ σ₂ b o} : Run D K σ b σ₁ (.jump .ret) → Run D K σ₁ (.closure b) σ₂ o →
      Run D K σ (.closure b) σ₂ o
  | iteThen {σ σ₁ σ₂ c t e n o} : Run D K σ c σ₁ (.vals [.num (n + 1)]) → Run D K σ₁ t σ₂ o →
      Run D K σ (.ite c t e) σ₂ o
  | iteElse {σ σ₁ σ₂ c t e o} : Run D K σ c σ₁ (.vals [.num 0]) → Run D K σ₁ e σ₂ o →
      Run D K σ (.ite c t e) σ₂ o
  | iteJump {σ σ₁ c t e j} : Run D K σ c σ₁ (.jump j) → Run D K σ (.ite c t e) σ₁ (.jump j)
  | loopBrk {σ σ₁ b w} : Run D K σ b σ₁ (.jump .brk) → Run D K σ (.loop b) σ₁ (.vals [w])
  | loopRet {σ σ₁ b} : Run D K σ b σ₁ (.jump .ret) → Run D K σ (.loop b) σ₁ (.jump .ret)
  | loopCont {σ σ₁ σ₂ b o} : Run D K σ b σ₁ (.jump .cont) → Run D K σ₁ (.loop b) σ₂ o → Run D K σ (.loop b) σ₂ o
  | loopVal {σ σ₁ σ₂ b vs o} : Run D K σ b σ₁ (.vals vs) → Run D K σ₁ (.loop b) σ₂ o → Run D K σ (.loop b) σ₂ o
  | matFst {σ σ₁ σ₂ s a b vs o} : Run D K σ s σ₁ (.vals vs) → Run D K σ₁ a σ₂ o → Run D K σ (.mat s a b) σ₂ o
  | matSnd {σ σ₁ σ₂ s a b vs o} : Run D K σ s σ₁ (.vals vs) → Run D K σ₁ b σ₂ o → Run D K σ (.mat s a b) σ₂ o
  | matJump {σ σ₁ s a b j} : Run D K σ s σ₁ (.jump j) → Run D K σ (.mat s a b) σ₁ (.jump j)
  | block {σ σ₁ b o} : Run D K σ b σ₁ o → Run D K σ (.block b) σ₁ o
  | push {σ σ₁ v i n xs} : Run D K σ i σ₁ (.vals [.num n]) → σ₁ v = some (.vec xs) → D.isMut v = true →
      Run D K σ (.push (.path v) i) (σ₁.put v (.vec (xs ++ [n]))) (.vals [.num 0])
  | pushPlace {σ σ₁ σ₂ σ₃ r i vs ws} : (∀ v, r ≠ .path v) → Run D K σ r σ₁ (.vals vs) → Run D K σ₁ i σ₂ (.vals ws) →
      Touch D r σ₂ σ₃ → Run D K σ (.push r i) σ₃ (.vals [.num 0])
  | pushFst {σ σ₁ r i j} : Run D K σ r σ₁ (.jump j) → Run D K σ (.push r i) σ₁ (.jump j)
  | pushSnd {σ σ₁ σ₂ r i vs j} : Run D K σ r σ₁ (.vals vs) → Run D K σ₁ i σ₂ (.jump j) →
      Run D K σ (.push r i) σ₂ (.jump j)
  | stmt {σ σ₁ σ₂ s e rest vs o} : Run D K σ e σ₁ (.vals vs) → Run D K σ₁ rest σ₂ o → Run D K σ (.stmt s e rest) σ₂ o
  | stmtJump {σ σ₁ s e rest j} : Run D K σ e σ₁ (.jump j) → Run D K σ (.stmt s e rest) σ₁ (.jump j)
  | bind {σ σ₁ σ₂ x i rest w o} : Run D K σ i σ₁ (.vals [w]) → Run D K (σ₁.put x w) rest σ₂ o →
      Run D K σ (.bind x i rest) σ₂ o
  | bindJump {σ σ₁ x i rest j} : Run D K σ i σ₁ (.jump j) → Run D K σ (.bind x i rest) σ₁ (.jump j)
  | tail {σ σ₁ e o} : Run D K σ e σ₁ o → Run D K σ (.tail e) σ₁ o
  | done {σ} : Run D K σ .done σ (.vals [.num 0])

/-- `n` iterations: each is the whole body, or is left with `continue`. -/
inductive Iterations (D : Decls) (K : Nat → Nat) (body : Code) : Nat → St → St → Prop
  | zero {σ} : Iterations D K body 0 σ σ
  | whole {σ σ₁ σ₂ vs n} : Run D K σ body σ₁ (.vals vs) → Iterations D K body n σ₁ σ₂ → Iterations D K body (n + 1) σ σ₂
  | cont {σ σ₁ σ₂ n} : Run D K σ body σ₁ (.jump .cont) → Iterations D K body n σ₁ σ₂ → Iterations D K body (n + 1) σ σ₂

/-- No `return`, outside of closures. -/
def NoRet : Code → Prop
  | .lit _ | .const _ | .nil | .done | .path _ | .closure _ => True
  | .jmp j a => j ≠ .ret ∧ NoRet a
  | .op _ a | .loop a | .block a | .tail a => NoRet a
  | .ite a b c | .mat a b c => NoRet a ∧ NoRet b ∧ NoRet c
  | .push a b | .cons a b | .stmt _ a b | .bind _ a b => NoRet a ∧ NoRet b

/-- The code isn't left early. -/
def NoJump : Code → Prop
  | .lit _ | .const _ | .nil | .done | .path _ | .closure _ => True
  | .jmp _ _ => False
  | .loop a => NoRet a
  | .op _ a | .block a | .tail a => NoJump a
  | .ite a b c | .mat a b c => NoJump a ∧ NoJump b ∧ NoJump c
  | .push a b | .cons a b | .stmt _ a b | .bind _ a b => NoJump a ∧ NoJump b

/-- The statements `recv.push(item);` in the code, but not in branches, loops and closures, in `let`s, in the last expressions of blocks and in
such statements. -/
def pushes : Code → List (Code × Code)
  | .stmt true (.push r i) rest => (r, i) :: pushes rest
  | .stmt _ e rest => pushes e ++ pushes rest
  | .bind _ _ rest => pushes rest
  | .op _ a | .jmp _ a | .block a => pushes a
  | .push a b | .cons a b => pushes a ++ pushes b
  | _ => []

/-- The locals at the same places. -/
def uses : Code → List Nat
  | .stmt true (.push _ _) rest => uses rest
  | .stmt _ e rest => uses e ++ uses rest
  | .bind _ _ rest => uses rest
  | .path x => [x]
  | .op _ a | .jmp _ a | .block a => uses a
  | .push a b | .cons a b => uses a ++ uses b
  | _ => []

/-- There are branches or loops at these places. -/
def Branches : Code → Prop
  | .stmt true (.push _ _) rest => Branches rest
  | .stmt _ e rest => Branches e ∨ Branches rest
  | .bind _ _ rest => Branches rest
  | .ite _ _ _ | .loop _ | .mat _ _ _ => True
  | .op _ a | .jmp _ a | .block a => Branches a
  | .push a b | .cons a b => Branches a ∨ Branches b
  | _ => False

/-- The parts left out: `let`s, last expressions and closures. -/
inductive Left : Code → Code → Prop
  | bind {x i rest} : Left (.bind x i rest) (.bind x i .done)
  | afterBind {x i rest c} : Left rest c → Left (.bind x i rest) c
  | tail {e} : Left (.tail e) (.tail e)
  | closure {b} : Left (.closure b) (.closure b)
  | stmt {s e rest c} : Left e c → Left (.stmt s e rest) c
  | afterStmt {s e rest c} : Left rest c → Left (.stmt s e rest) c
  | op {k a c} : Left a c → Left (.op k a) c
  | block {a c} : Left a c → Left (.block a) c
  | pushFst {a b c} : Left a c → Left (.push a b) c
  | pushSnd {a b c} : Left b c → Left (.push a b) c
  | consFst {a b c} : Left a c → Left (.cons a b) c
  | consSnd {a b c} : Left b c → Left (.cons a b) c

/-- The value of an item that is always the same. -/
inductive Fixed (D : Decls) (K : Nat → Nat) : Code → Nat → Prop
  | lit {n} : Fixed D K (.lit n) n
  | const {k} : Fixed D K (.const k) (K k)
  | litLocal {x n} : D.isMut x = false → D.init x = some (.lit n) → Fixed D K (.path x) n
  | constLocal {x k} : D.isMut x = false → D.init x = some (.const k) → Fixed D K (.path x) (K k)

/-- Every `let x` in the code has this initialiser. -/
def LetsAre (x : Nat) (init : Option Code) : Code → Prop
  | .lit _ | .const _ | .nil | .done | .path _ => True
  | .op _ a | .jmp _ a | .closure a | .loop a | .block a | .tail a => LetsAre x init a
  | .ite a b c | .mat a b c => LetsAre x init a ∧ LetsAre x init b ∧ LetsAre x init c
  | .push a b | .cons a b | .stmt _ a b => LetsAre x init a ∧ LetsAre x init b
  | .bind y a b => (y = x → init = some a) ∧ LetsAre x init a ∧ LetsAre x init b

/-- What may be assumed of a local that is pushed: it holds nothing or what its initialiser gives. -/
def Starts (D : Decls) (K : Nat → Nat) (σ : St) : Code → Prop
  | .path x => σ x = none ∨ ∃ n, Fixed D K (.path x) n ∧ σ x = some (.num n)
  | _ => True

end Verif.Pushes
