import Verif.Local.Syntax

/-!
# When two programs contain the same expression
-/

namespace Verif.Local

/-- Spaces, comments and empty statements. -/
inductive Blank : Tok → Prop
  | whitespace : Blank .whitespace
  | lineComment : Blank .lineComment
  | blockComment : Blank .blockComment
  | semi : Blank .semi

/-- There is nothing but an opening brace. -/
def Nothing (text : List Tok) : Prop :=
  ∃ a b, text = a ++ .openBrace :: b ∧ (∀ t ∈ a, Blank t) ∧ (∀ t ∈ b, Blank t)

mutual
/-- Expressions of two programs that look the same at `c`: they differ in what comes out of macros, and in code that
is hidden by attributes `#[cfg(…)]` or by macros without result. -/
inductive Agree (c : Ctxt) : Ex → Ex → Prop
  | macro {ec ec' : Ctxt} {k k' : Kind} : ec ≠ c → ec' ≠ c → Agree c (.mk ec k) (.mk ec' k')
  | same {k k' : Kind} (ec : Ctxt) : AgreeKind c k k' → Agree c (.mk ec k) (.mk ec k')
inductive AgreeKind (c : Ctxt) : Kind → Kind → Prop
  | constBlock {e e' : Ex} : Agree c e e' → AgreeKind c (.constBlock e) (.constBlock e')
  | temps {e e' : Ex} : Agree c e e' → AgreeKind c (.temps e) (.temps e')
  | path (segs : List Ctxt) (p : Nat) : AgreeKind c (.path segs p) (.path segs p)
  | pathMacro {segs segs' : List Ctxt} {p p' : Nat} : (∃ s ∈ segs, s ≠ c) → (∃ s ∈ segs', s ≠ c) →
      AgreeKind c (.path segs p) (.path segs' p')
  | block {e e' : Ex} (bc : Ctxt) (text : Option (List Tok)) (stmts : Bool) : Agree c e e' →
      AgreeKind c (.block bc text stmts e) (.block bc text stmts e')
  | blockMacro {bc bc' : Ctxt} {text text' : Option (List Tok)} {stmts stmts' : Bool} {e e' : Ex} : bc ≠ c → bc' ≠ c →
      AgreeKind c (.block bc text stmts e) (.block bc' text' stmts' e')
  | blockHidden {bc : Ctxt} {text text' : List Tok} {stmts stmts' : Bool} {e e' : Ex} : ¬ Nothing text →
      ¬ Nothing text' → AgreeKind c (.block bc (some text) stmts e) (.block bc (some text') stmts' e')
  | blockUnknown {bc : Ctxt} {stmts stmts' : Bool} {e e' : Ex} :
      AgreeKind c (.block bc none stmts e) (.block bc none stmts' e')
  | unitBlock (bc : Ctxt) : AgreeKind c (.unitBlock bc) (.unitBlock bc)
  | lit (lc : Ctxt) (v : Const) : AgreeKind c (.lit lc v) (.lit lc v)
  | litMacro {lc lc' : Ctxt} {v v' : Const} : lc ≠ c → lc' ≠ c → AgreeKind c (.lit lc v) (.lit lc' v')
  | arr {es es' : Elems} : AgreeElems c es es' → AgreeKind c (.arr es) (.arr es')
  | tup {es es' : Elems} : AgreeElems c es es' → AgreeKind c (.tup es) (.tup es')
  | rep {e e' : Ex} (n : Len) : Agree c e e' → AgreeKind c (.rep e n) (.rep e' n)
  | un {e e' : Ex} (op : UnOp) (ty : Nat) : Agree c e e' → AgreeKind c (.un op ty e) (.un op ty e')
  | ifThen {co co' t t' : Ex} : Agree c co co' → Agree c t t' → AgreeKind c (.ifThen co t) (.ifThen co' t')
  | ifElse {co co' t t' e e' : Ex} : Agree c co co' → Agree c t t' → Agree c e e' →
      AgreeKind c (.ifElse co t e) (.ifElse co' t' e')
  | bin {l l' r r' : Ex} (op : BinOp) (ty : Nat) : Agree c l l' → Agree c r r' →
      AgreeKind c (.bin op ty l r) (.bin op ty l' r')
  | call (fc : Ctxt) (f : Nat) : AgreeKind c (.call fc f) (.call fc f)
  | callMacro {fc fc' : Ctxt} {f f' : Nat} : fc ≠ c → fc' ≠ c → AgreeKind c (.call fc f) (.call fc' f')
  | idx {a a' i i' : Ex} : Agree c a a' → Agree c i i' → AgreeKind c (.idx a i) (.idx a' i')
  | ref {e e' : Ex} : Agree c e e' → AgreeKind c (.ref e) (.ref e')
  | field {e e' : Ex} (fc : Ctxt) (plain : Bool) (f : Nat) : Agree c e e' →
      AgreeKind c (.field e fc plain f) (.field e' fc plain f)
  | fieldMacro {e e' : Ex} {fc fc' : Ctxt} {plain plain' : Bool} {f f' : Nat} : fc ≠ c → fc' ≠ c → Agree c e e' →
      AgreeKind c (.field e fc plain f) (.field e' fc' plain' f')
  | other : AgreeKind c .other .other
inductive AgreeElems (c : Ctxt) : Elems → Elems → Prop
  | nil : AgreeElems c .nil .nil
  | cons {e e' : Ex} {es es' : Elems} (cfg : Bool) : Agree c e e' → AgreeElems c es es' →
      AgreeElems c (.cons cfg e es) (.cons cfg e' es')
  | left {e : Ex} {es es' : Elems} : AgreeElems c es es' → AgreeElems c (.cons true e es) es'
  | right {e : Ex} {es es' : Elems} : AgreeElems c es es' → AgreeElems c es (.cons true e es')
end

mutual
/-- The three things that are not seen by the code, inside of what was written at `c`: lengths with names, elements with
attributes, and functions whose names come out of macros. -/
def unseen (c : Ctxt) : Ex → Bool
  | .mk ec k => decide (ec = c) && unseenKind c k
def unseenKind (c : Ctxt) : Kind → Bool
  | .constBlock e => unseen c e
  | .temps e => unseen c e
  | .path _ _ => false
  | .block bc _ _ e => decide (bc = c) && unseen c e
  | .unitBlock _ => false
  | .lit _ _ => false
  | .arr es => unseenElems c es
  | .tup es => unseenElems c es
  | .rep _ (.named _) => true
  | .rep e (.num _) => unseen c e
  | .un _ _ e => unseen c e
  | .ifThen co t => unseen c co || unseen c t
  | .ifElse co t e => unseen c co || unseen c t || unseen c e
  | .bin _ _ l r => unseen c l || unseen c r
  | .call fc _ => decide (fc ≠ c)
  | .idx a i => unseen c a || unseen c i
  | .ref e => unseen c e
  | .field e _ _ _ => unseen c e
  | .other => false
def unseenElems (c : Ctxt) : Elems → Bool
  | .nil => false
  | .cons cfg e es => cfg || unseen c e || unseenElems c es
end

mutual
/-- All of the expression is written at `c`, its names satisfy `known`, and nothing is hidden. -/
inductive Own (c : Ctxt) (known : Nat → Bool) : Ex → Prop
  | mk {k : Kind} : OwnKind c known k → Own c known (.mk c k)
inductive OwnKind (c : Ctxt) (known : Nat → Bool) : Kind → Prop
  | constBlock {e : Ex} : Own c known e → OwnKind c known (.constBlock e)
  | temps {e : Ex} : Own c known e → OwnKind c known (.temps e)
  | path {segs : List Ctxt} {p : Nat} : (∀ s ∈ segs, s = c) → known p = true → OwnKind c known (.path segs p)
  | block {text : List Tok} {stmts : Bool} {e : Ex} : Nothing text → Own c known e →
      OwnKind c known (.block c (some text) stmts e)
  | unitBlock : OwnKind c known (.unitBlock c)
  | lit (v : Const) : OwnKind c known (.lit c v)
  | arr {es : Elems} : OwnElems c known es → OwnKind c known (.arr es)
  | tup {es : Elems} : OwnElems c known es → OwnKind c known (.tup es)
  | rep {e : Ex} (n : Nat) : Own c known e → OwnKind c known (.rep e (.num n))
  | un {e : Ex} (op : UnOp) (ty : Nat) : Own c known e → OwnKind c known (.un op ty e)
  | ifThen {co t : Ex} : Own c known co → Own c known t → OwnKind c known (.ifThen co t)
  | ifElse {co t e : Ex} : Own c known co → Own c known t → Own c known e → OwnKind c known (.ifElse co t e)
  | bin {l r : Ex} (op : BinOp) (ty : Nat) : Own c known l → Own c known r → OwnKind c known (.bin op ty l r)
  | call (f : Nat) : OwnKind c known (.call c f)
  | idx {a i : Ex} : Own c known a → Own c known i → OwnKind c known (.idx a i)
  | ref {e : Ex} : Own c known e → OwnKind c known (.ref e)
  | field {e : Ex} (plain : Bool) (f : Nat) : Own c known e → OwnKind c known (.field e c plain f)
  | other : OwnKind c known .other
inductive OwnElems (c : Ctxt) (known : Nat → Bool) : Elems → Prop
  | nil : OwnElems c known .nil
  | cons {e : Ex} {es : Elems} (cfg : Bool) : Own c known e → OwnElems c known es → OwnElems c known (.cons cfg e es)
end

end Verif.Local
