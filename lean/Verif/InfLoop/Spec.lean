import Verif.InfLoop.Syntax

/-!
# Running loops with labels
-/

namespace Verif.InfLoop

/-- Values, states and operations.  An operation that panics or does not end has no result. -/
structure Sem where
  V : Type
  W : Type
  unit : V
  truth : V → Bool
  op : Nat → List V → W → Option (V × W)
  /-- A pattern matches and binds its variables. -/
  pat : Nat → V → W → Option W

/-- Leaving an expression. -/
inductive Jump (V : Type) where
  | brk (l : Option Label) (v : V)
  | cont (l : Option Label)
  | ret (v : V)

/-- How an expression ends. -/
inductive Out (V A : Type) where
  | val (a : A)
  | jump (j : Jump V)

section
variable (S : Sem)

abbrev Res (A : Type) := Option (Out S.V A × S.W)

/-- Go on with the value. -/
def andThen {A B : Type} (r : Res S A) (k : A → S.W → Res S B) : Res S B :=
  match r with
  | some (.val v, w) => k v w
  | some (.jump j, w) => some (.jump j, w)
  | none => none

/-- The jump goes to the innermost loop, if that has label `l`. -/
def toLoop (l : Option Label) : Option Label → Bool
  | none => true
  | some k => decide (l = some k)

/-- A block takes a `break` with its label. -/
def catchBreak (l : Option Label) : Res S S.V → Res S S.V
  | some (.jump (.brk (some k) v), w) =>
    if l = some k then some (.val v, w) else some (.jump (.brk (some k) v), w)
  | r => r

/-- After the body of a loop. -/
def again (l : Option Label) (k : S.W → Res S S.V) : Res S S.V → Res S S.V
  | some (.val _, w) => k w
  | some (.jump (.cont l'), w) => if toLoop l l' then k w else some (.jump (.cont l'), w)
  | some (.jump (.brk l' v), w) => if toLoop l l' then some (.val v, w) else some (.jump (.brk l' v), w)
  | some (.jump (.ret v), w) => some (.jump (.ret v), w)
  | none => none

/-- The block after `else` has to jump. -/
def onlyJump : Res S S.V → Res S S.V
  | some (.jump j, w) => some (.jump j, w)
  | _ => none

mutual
/-- At most `n` steps deep. -/
def run : Nat → Ex → S.W → Res S S.V
  | 0, _, _ => none
  | _ + 1, .ret, w => some (.jump (.ret S.unit), w)
  | n + 1, .retVal e, w => andThen S (run n e w) fun v w => some (.jump (.ret v), w)
  | n + 1, .become e, w => andThen S (run n e w) fun v w => some (.jump (.ret v), w)
  | _ + 1, .cont l, w => some (.jump (.cont l), w)
  | _ + 1, .brk l, w => some (.jump (.brk l S.unit), w)
  | n + 1, .brkVal l e, w => andThen S (run n e w) fun v w => some (.jump (.brk l v), w)
  | n + 1, .ifThen c t, w => andThen S (run n c w) fun v w =>
      if S.truth v then run n t w else some (.val S.unit, w)
  | n + 1, .ifElse c t e, w => andThen S (run n c w) fun v w => if S.truth v then run n t w else run n e w
  | n + 1, .mtch s as, w => andThen S (run n s w) fun v w => runArms n as v w
  | n + 1, .loop l b, w => again S l (fun w => run n (.loop l b) w) (runBlock n b w)
  | n + 1, .block l b, w => catchBreak S l (runBlock n b w)
  | n + 1, .lazy and a b, w => andThen S (run n a w) fun v w =>
      if S.truth v = and then run n b w else some (.val v, w)
  | n + 1, .op k args, w => andThen S (runAll n args w) fun vs w => (S.op k vs w).map fun r => (.val r.1, r.2)
/-- Operands from left to right. -/
def runAll : Nat → Exs → S.W → Res S (List S.V)
  | 0, _, _ => none
  | _ + 1, .nil, w => some (.val [], w)
  | n + 1, .cons e es, w => andThen S (run n e w) fun v w =>
      andThen S (runAll n es w) fun vs w => some (.val (v :: vs), w)
/-- The first arm that matches. -/
def runArms : Nat → Arms → S.V → S.W → Res S S.V
  | 0, _, _, _ => none
  | _ + 1, .nil, _, _ => none
  | n + 1, .arm p b as, v, w => match S.pat p v w with
    | some w' => run n b w'
    | none => runArms n as v w
  | n + 1, .guarded p g b as, v, w => match S.pat p v w with
    | some w' => andThen S (run n g w') fun t w' => if S.truth t then run n b w' else runArms n as v w'
    | none => runArms n as v w
/-- A block. -/
def runBlock : Nat → Stmts → S.W → Res S S.V
  | 0, _, _ => none
  | _ + 1, .nil, w => some (.val S.unit, w)
  | n + 1, .last e, w => run n e w
  | n + 1, .expr e s, w => andThen S (run n e w) fun _ w => runBlock n s w
  | n + 1, .let_ p e s, w => andThen S (run n e w) fun v w => (S.pat p v w).bind fun w => runBlock n s w
  | n + 1, .letElse p e els s, w => andThen S (run n e w) fun v w =>
      match S.pat p v w with
      | some w' => runBlock n s w'
      | none => onlyJump S (runBlock n els w)
end

/-- The loop is never left: it runs forever, or panics. -/
def Forever (l : Option Label) (b : Stmts) : Prop := ∀ n w, run S n (.loop l b) w = none

/-- An expression that does not jump. -/
def NoJump (e : Ex) : Prop := ∀ n w j w', run S n e w ≠ some (.jump j, w')
end

/-- Without a label. -/
def without (l : Option Label) (ls : List Label) : List Label := ls.filter fun k => decide (l ≠ some k)

def brkLabel : Option Label → List Label
  | some l => [l]
  | none => []

mutual
/-- The labels of `break` in inner loops which are not inside; `inner`: we are in one. -/
def free (inner : Bool) : Ex → List Label
  | .ret => []
  | .retVal e => free inner e
  | .become e => free inner e
  | .cont _ => []
  | .brk l => if inner then brkLabel l else []
  | .brkVal l e => (if inner then brkLabel l else []) ++ free inner e
  | .ifThen c t => free inner c ++ free inner t
  | .ifElse c t e => free inner c ++ (free inner t ++ free inner e)
  | .mtch s as => free inner s ++ freeArms inner as
  | .loop l b => without l (freeBlock true b)
  | .block l b => without l (freeBlock inner b)
  | .lazy _ a b => free inner a ++ free inner b
  | .op _ args => freeAll inner args
def freeAll (inner : Bool) : Exs → List Label
  | .nil => []
  | .cons e es => free inner e ++ freeAll inner es
def freeArms (inner : Bool) : Arms → List Label
  | .nil => []
  | .arm _ b as => free inner b ++ freeArms inner as
  | .guarded _ g b as => free inner g ++ (free inner b ++ freeArms inner as)
def freeBlock (inner : Bool) : Stmts → List Label
  | .nil => []
  | .last e => free inner e
  | .expr e s => free inner e ++ freeBlock inner s
  | .let_ _ e s => free inner e ++ freeBlock inner s
  | .letElse _ e els s => free inner e ++ (freeBlock inner els ++ freeBlock inner s)
end

/-- The labels around a loop which a `break` in one of its inner loops goes to. -/
def beyond (l : Option Label) (b : Stmts) : List Label := without l (freeBlock false b)

/-- `become`, and values of `break`: these are not looked at. -/
inductive Hidden where
  | become (e : Ex)
  | value (e : Ex)

mutual
/-- The hidden parts of an expression. -/
def hidden : Ex → List Hidden
  | .ret => []
  | .retVal e => hidden e
  | .become e => .become e :: hidden e
  | .cont _ => []
  | .brk _ => []
  | .brkVal _ e => .value e :: hidden e
  | .ifThen c t => hidden c ++ hidden t
  | .ifElse c t e => hidden c ++ (hidden t ++ hidden e)
  | .mtch s as => hidden s ++ hiddenArms as
  | .loop _ b => hiddenBlock b
  | .block _ b => hiddenBlock b
  | .lazy _ a b => hidden a ++ hidden b
  | .op _ args => hiddenAll args
def hiddenAll : Exs → List Hidden
  | .nil => []
  | .cons e es => hidden e ++ hiddenAll es
def hiddenArms : Arms → List Hidden
  | .nil => []
  | .arm _ b as => hidden b ++ hiddenArms as
  | .guarded _ g b as => hidden g ++ (hidden b ++ hiddenArms as)
def hiddenBlock : Stmts → List Hidden
  | .nil => []
  | .last e => hidden e
  | .expr e s => hidden e ++ hiddenBlock s
  | .let_ _ e s => hidden e ++ hiddenBlock s
  | .letElse _ e els s => hidden e ++ (hiddenBlock els ++ hiddenBlock s)
end

/-- No `become`, and values of `break` do not jump. -/
def Harmless (S : Sem) : Hidden → Prop
  | .become _ => False
  | .value e => NoJump S e

end Verif.InfLoop
