import Verif.Splitn.Syntax

/-!
# Model: `needless_splitn`, `manual_split_once`, `suspicious_splitn`

`/repo/clippy_lints/src/methods/str_splitn.rs` and `suspicious_splitn.rs`.  A call is listed as `next`, `nth`, `skip` if it is
that of `Iterator`, and so on; all others are `other`.
-/

namespace Verif.Splitn

/-- `IterUsageKind`, `/repo/clippy_lints/src/methods/str_splitn.rs:255-259`. -/
inductive Kind where
  | nth (n : Nat)
  | nextTuple
  deriving DecidableEq, Repr

/-- `UnwrapKind`, `/repo/clippy_lints/src/methods/str_splitn.rs:261-265`. -/
inductive Unwrap where
  | unwrap
  | questionMark
  deriving DecidableEq, Repr

/-- `IterUsage`, `/repo/clippy_lints/src/methods/str_splitn.rs:267-272`; instead of the span, what follows it. -/
structure Usage where
  kind : Kind
  unwrap : Option Unwrap
  rest : List Parent
  deriving DecidableEq, Repr

/-- The second part of `parse_iter_usage`, `/repo/clippy_lints/src/methods/str_splitn.rs:331-369`. -/
def parseUnwrap (kind : Kind) : List Parent → Usage
  | ⟨.try_, true⟩ :: ps => ⟨kind, some .questionMark, ps⟩
  | ⟨.unwrap, true⟩ :: ps => ⟨kind, some .unwrap, ps⟩
  | ps => ⟨kind, none, ps⟩

/-- `parse_iter_usage`, `/repo/clippy_lints/src/methods/str_splitn.rs:274-370`. -/
def parse : List Parent → Option Usage
  | ⟨.next, true⟩ :: ps => some (parseUnwrap (.nth 0) ps)
  | ⟨.tuple n, true⟩ :: ps => if n = 2 then some ⟨.nextTuple, none, ps⟩ else none
  | ⟨.nth k, true⟩ :: ps => some (parseUnwrap (.nth k) ps)
  | ⟨.skip k, true⟩ :: ⟨.next, true⟩ :: ps => some (parseUnwrap (.nth k) ps)
  | _ => none

/-- `needless`, `/repo/clippy_lints/src/methods/str_splitn.rs:32-35`. -/
def needless (count : Nat) : Kind → Bool
  | .nth n => decide (n + 1 < count)
  | .nextTuple => decide (2 < count)

/-- `lint_needless`, `/repo/clippy_lints/src/methods/str_splitn.rs:48-65`. -/
def needlessSugg (reverse : Bool) (ps : List Parent) : Chain := ⟨if reverse then .rsplit else .split, ps.map Parent.node⟩

/-- `split_once` or `rsplit_once`. -/
def onceBase (reverse : Bool) : Base := if reverse then .rsplitOnce else .splitOnce

/-- `check_manual_split_once`, `/repo/clippy_lints/src/methods/str_splitn.rs:67-113`. -/
def manualSugg (reverse : Bool) (u : Usage) : Option Chain :=
  match u.kind with
  | .nextTuple => some ⟨onceBase reverse, (if reverse then [.mapSwap] else []) ++ u.rest.map Parent.node⟩
  | .nth 1 =>
    let field := if reverse then 0 else 1
    match u.unwrap with
    | some .unwrap => some ⟨onceBase reverse, [.unwrap, .field field] ++ u.rest.map Parent.node⟩
    | some .questionMark => some ⟨onceBase reverse, [.try_, .field field] ++ u.rest.map Parent.node⟩
    | none => some ⟨onceBase reverse, [.mapField field] ++ u.rest.map Parent.node⟩
  | .nth _ => none

/-- `check`, `/repo/clippy_lints/src/methods/str_splitn.rs:19-46`, if the call is followed by others in the expression;
`msrv`: is `split_once` available? -/
def check (reverse : Bool) (count : Nat) (msrv : Bool) (ps : List Parent) : Option Chain :=
  if count < 2 then none
  else
    match parse ps with
    | some u =>
      if needless count u.kind then some (needlessSugg reverse ps)
      else if count == 2 && msrv then manualSugg reverse u
      else none
    | none => none

/-- `indirect_usage`, `/repo/clippy_lints/src/methods/str_splitn.rs:199-253`: the name and the kind of unwrapping. -/
def indirectUsage (it : Name) : Stmt → Option (Name × Unwrap)
  | .use x simple r ps =>
    if simple && r == it then
      match parse ps with
      | some ⟨.nth 0, some k, []⟩ => some (x, k)
      | _ => none
    else none
  | _ => none

/-- `local_used_after_expr`: names can be declared again. -/
def usedIn (it : Name) : List Stmt → Bool
  | [] => false
  | .use x _ r _ :: ss => r == it || (x != it && usedIn it ss)
  | .code _ us bs :: ss => us.contains it || (!bs.contains it && usedIn it ss)
  | .pair a b _ :: ss => a != it && b != it && usedIn it ss

/-- The declarations of both pieces, `/repo/clippy_lints/src/methods/str_splitn.rs:146-172`. -/
def pairStmt (reverse : Bool) (first second : Name) (k : Unwrap) : Stmt :=
  let n := match k with
    | .unwrap => Node.unwrap
    | .questionMark => Node.try_
  if reverse then .pair second first ⟨onceBase reverse, [n]⟩ else .pair first second ⟨onceBase reverse, [n]⟩

/-- `check_manual_split_once_indirect`, `/repo/clippy_lints/src/methods/str_splitn.rs:122-183`: `it` is declared by
`let mut it = s.splitn(2, p);`; the statements after that, and what replaces them and the declaration. -/
def checkIndirect (reverse : Bool) (count : Nat) (msrv : Bool) (it : Name) (ss : List Stmt) : Option (List Stmt) :=
  if count == 2 && msrv then
    match ss with
    | s1 :: s2 :: rest =>
      match indirectUsage it s1, indirectUsage it s2 with
      | some (x, k), some (y, k') =>
        -- a variable of the same name in the second statement would be another one
        if x != it && k == k' && x != y && !(y != it && usedIn it rest) then some (pairStmt reverse x y k :: rest) else none
      | _, _ => none
    | _ => none
  else none

/-- `suspicious_splitn`, `/repo/clippy_lints/src/methods/suspicious_splitn.rs:9-41`, for receivers other than empty
literals: is the message that the iterator is empty, or that it returns everything at once? -/
def suspicious (count : Nat) : Option Bool :=
  if count ≤ 1 then some (count == 0) else none

end Verif.Splitn
