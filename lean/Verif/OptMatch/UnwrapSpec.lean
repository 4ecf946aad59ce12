import Verif.OptMatch.Spec

/-!
# What `unwrap_or`, `unwrap_or_default`, `ok` and `err` do
-/

namespace Verif.OptMatch

variable {S : Sem}

/-- The value inside of `Some` or `Ok`; nothing for `None` and `Err`. -/
def inside : Val → Option (Option Val)
  | .none => some none
  | .err _ => some none
  | .some v => some (some v)
  | .ok v => some (some v)
  | _ => none

/-- The receiver of `ok` and `err`: references are followed, then `as_ref` or `as_mut`. -/
def receiverRes (w : S.W) (t : Ty) (p : Place) (ad : Adaptor) : Option (Bool × Val) :=
  (follow w t p .start).bind fun r =>
    match r.1, read w r.2.1 with
    | .res _ _, some (.ok v) => some (true,
        match ad with
        | .asIs => v
        | .asRef => .ref false (r.2.1.step .inner)
        | .asMut => .ref true (r.2.1.step .inner))
    | .res _ _, some (.err v) => some (false,
        match ad with
        | .asIs => v
        | .asRef => .ref false (r.2.1.step .inner)
        | .asMut => .ref true (r.2.1.step .inner))
    | _, _ => none

/-- The method call; `dflt` is the default value of the type. -/
def evalCall (k : Nat) (ρ : Env) (dflt : Val) (s : Scrut) (c : Call) : M S Val :=
  Ctrl.M.bind (evalPlace k ρ s.base s.isPlace) fun p => fun w =>
    match c with
    | .unwrapOr b =>
      match (read w (borrow s.addrs p)).bind inside with
      | none => (.error .abort, w)
      | some o => Ctrl.M.bind (evalBody k b ρ) (fun d => Ctrl.M.pure (o.getD d)) w
    | .unwrapOrDefault =>
      match (read w (borrow s.addrs p)).bind inside with
      | none => (.error .abort, w)
      | some o => (.ok (o.getD dflt), w)
    | .ok ad =>
      match receiverRes w s.fullTy (borrow s.addrs p) ad with
      | none => (.error .abort, w)
      | some (isOk, v) => (.ok (if isOk then .some v else .none), w)
    | .err ad =>
      match receiverRes w s.fullTy (borrow s.addrs p) ad with
      | none => (.error .abort, w)
      | some (isOk, v) => (.ok (if isOk then .none else .some v), w)

/-- A body that has the value `v` everywhere, and does nothing. -/
def Always (S : Sem) (k : Nat) (b : Body) (v : Val) : Prop :=
  ∀ (ρ : Env) (w : S.W), evalBody (S := S) k b ρ w = (.ok v, w)

/-- Whether there is `x @ p` right inside of a constructor. -/
def subPat : Pat → Bool
  | .some (.bindAt _ _ _) => true
  | .ok (.bindAt _ _ _) => true
  | _ => false

end Verif.OptMatch
