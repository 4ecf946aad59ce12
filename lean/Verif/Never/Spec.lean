import Verif.Never.Syntax

/-!
# Running expressions with jumps
-/

namespace Verif.Never

/-- Values, states and operations.  An operation that panics or does not end has no result. -/
structure Sem where
  V : Type
  W : Type
  unit : V
  truth : V → Bool
  op : Nat → List V → W → Option (V × W)
  /-- A pattern matches and binds its variables. -/
  pat : Nat → V → W → Option W

/-- Leaving an expression. -/
inductive Jump (V : Type) where
  | brk (l : Id) (v : V)
  | cont (l : Id)
  | ret (v : V)

/-- How an expression ends. -/
inductive Out (V A : Type) where
  | val (a : A)
  | jump (j : Jump V)

section
variable (S : Sem)

abbrev Res (A : Type) := Option (Out S.V A × S.W)

/-- Go on with the value. -/
def andThen {A B : Type} (r : Res S A) (k : A → S.W → Res S B) : Res S B :=
  match r with
  | some (.val v, w) => k v w
  | some (.jump j, w) => some (.jump j, w)
  | none => none

/-- A block takes a `break` to it. -/
def catchBreak (l : Id) : Res S S.V → Res S S.V
  | some (.jump (.brk k v), w) => if k = l then some (.val v, w) else some (.jump (.brk k v), w)
  | r => r

/-- After the body of a loop. -/
def again (l : Id) (k : S.W → Res S S.V) : Res S S.V → Res S S.V
  | some (.val _, w) => k w
  | some (.jump (.cont l'), w) => if l' = l then k w else some (.jump (.cont l'), w)
  | some (.jump (.brk l' v), w) => if l' = l then some (.val v, w) else some (.jump (.brk l' v), w)
  | some (.jump (.ret v), w) => some (.jump (.ret v), w)
  | none => none

/-- The block after `else` has to jump. -/
def onlyJump : Res S S.V → Res S S.V
  | some (.jump j, w) => some (.jump j, w)
  | _ => none

mutual
/-- At most `n` steps deep. -/
def run : Nat → Ex → S.W → Res S S.V
  | 0, _, _ => none
  | n + 1, .temps e, w => run n e w
  | _ + 1, .ret, w => some (.jump (.ret S.unit), w)
  | n + 1, .retVal e, w => andThen S (run n e w) fun v w => some (.jump (.ret v), w)
  | _ + 1, .cont l, w => some (.jump (.cont l), w)
  | _ + 1, .brk l, w => some (.jump (.brk l S.unit), w)
  | n + 1, .brkVal l e, w => andThen S (run n e w) fun v w => some (.jump (.brk l v), w)
  | n + 1, .ifThen c t, w => andThen S (run n c w) fun v w =>
      if S.truth v then run n t w else some (.val S.unit, w)
  | n + 1, .ifElse c t e, w => andThen S (run n c w) fun v w => if S.truth v then run n t w else run n e w
  | n + 1, .mtch s as, w => andThen S (run n s w) fun v w => runArms n as v w
  | n + 1, .loop l b, w => again S l (fun w => run n (.loop l b) w) (runBlock n b w)
  | n + 1, .block (some l) b, w => catchBreak S l (runBlock n b w)
  | n + 1, .block none b, w => runBlock n b w
  | n + 1, .lazy and a b, w => andThen S (run n a w) fun v w =>
      if S.truth v = and then run n b w else some (.val v, w)
  | n + 1, .op k args, w => andThen S (runAll n args w) fun vs w => (S.op k vs w).map fun r => (.val r.1, r.2)
/-- Operands from left to right. -/
def runAll : Nat → Exs → S.W → Res S (List S.V)
  | 0, _, _ => none
  | _ + 1, .nil, w => some (.val [], w)
  | n + 1, .cons e es, w => andThen S (run n e w) fun v w =>
      andThen S (runAll n es w) fun vs w => some (.val (v :: vs), w)
/-- The first arm that matches. -/
def runArms : Nat → Arms → S.V → S.W → Res S S.V
  | 0, _, _, _ => none
  | _ + 1, .nil, _, _ => none
  | n + 1, .arm p b as, v, w => match S.pat p v w with
    | some w' => run n b w'
    | none => runArms n as v w
  | n + 1, .guarded p g b as, v, w => match S.pat p v w with
    | some w' => andThen S (run n g w') fun t w' => if S.truth t then run n b w' else runArms n as v w'
    | none => runArms n as v w
/-- A block. -/
def runBlock : Nat → Stmts → S.W → Res S S.V
  | 0, _, _ => none
  | _ + 1, .nil, w => some (.val S.unit, w)
  | n + 1, .last e, w => run n e w
  | n + 1, .expr e s, w => andThen S (run n e w) fun _ w => runBlock n s w
  | n + 1, .let_ p e s, w => andThen S (run n e w) fun v w => (S.pat p v w).bind fun w => runBlock n s w
  | n + 1, .letElse p e els s, w => andThen S (run n e w) fun v w =>
      match S.pat p v w with
      | some w' => runBlock n s w'
      | none => onlyJump S (runBlock n els w)
end

/-- However long it runs, it never ends with a value. -/
def NoValue (e : Ex) : Prop := ∀ n w v w', run S n e w ≠ some (.val v, w')
end

mutual
/-- The targets inside of an expression. -/
def ids : Ex → List Id
  | .temps e => ids e
  | .ret => []
  | .retVal e => ids e
  | .cont _ => []
  | .brk _ => []
  | .brkVal _ e => ids e
  | .ifThen c t => ids c ++ ids t
  | .ifElse c t e => ids c ++ (ids t ++ ids e)
  | .mtch s as => ids s ++ idsArms as
  | .loop l b => l :: idsBlock b
  | .block (some l) b => l :: idsBlock b
  | .block none b => idsBlock b
  | .lazy _ a b => ids a ++ ids b
  | .op _ args => idsAll args
def idsAll : Exs → List Id
  | .nil => []
  | .cons e es => ids e ++ idsAll es
def idsArms : Arms → List Id
  | .nil => []
  | .arm _ b as => ids b ++ idsArms as
  | .guarded _ g b as => ids g ++ (ids b ++ idsArms as)
def idsBlock : Stmts → List Id
  | .nil => []
  | .last e => ids e
  | .expr e s => ids e ++ idsBlock s
  | .let_ _ e s => ids e ++ idsBlock s
  | .letElse _ e els s => ids e ++ (idsBlock els ++ idsBlock s)
end

mutual
/-- The expressions which may be skipped: the right sides of `&&` and `||`. -/
def lazies : Ex → List Ex
  | .temps e => lazies e
  | .ret => []
  | .retVal e => lazies e
  | .cont _ => []
  | .brk _ => []
  | .brkVal _ e => lazies e
  | .ifThen c t => lazies c ++ lazies t
  | .ifElse c t e => lazies c ++ (lazies t ++ lazies e)
  | .mtch s as => lazies s ++ laziesArms as
  | .loop _ b => laziesBlock b
  | .block _ b => laziesBlock b
  | .lazy _ a b => b :: lazies a ++ lazies b
  | .op _ args => laziesAll args
def laziesAll : Exs → List Ex
  | .nil => []
  | .cons e es => lazies e ++ laziesAll es
def laziesArms : Arms → List Ex
  | .nil => []
  | .arm _ b as => lazies b ++ laziesArms as
  | .guarded _ g b as => lazies g ++ (lazies b ++ laziesArms as)
def laziesBlock : Stmts → List Ex
  | .nil => []
  | .last e => lazies e
  | .expr e s => lazies e ++ laziesBlock s
  | .let_ _ e s => lazies e ++ laziesBlock s
  | .letElse _ e els s => lazies e ++ (laziesBlock els ++ laziesBlock s)
end

def Exs.toList : Exs → List Ex
  | .nil => []
  | .cons e es => e :: es.toList

/-- No jumps, and operations that end. -/
inductive Quiet (opNever : Nat → Bool) : Ex → Prop where
  | temps {e : Ex} : Quiet opNever e → Quiet opNever (.temps e)
  | lazy (and : Bool) {a b : Ex} : Quiet opNever a → Quiet opNever b → Quiet opNever (.lazy and a b)
  | op (n : Nat) {args : Exs} : opNever n = false → (∀ e ∈ args.toList, Quiet opNever e) →
    Quiet opNever (.op n args)

end Verif.Never
