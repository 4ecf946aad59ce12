import Verif.Ranges.Model

/-! C26 (`int_plus_one`), C27 (`manual_range_contains`) and C28 (range lints). -/

namespace Verif.Ranges
open Verif.RInt

/-! ### Specification -/

/-- Evaluation in the integer type `t` with overflow checks; `ρ` gives the values of the other
subexpressions. -/
def eval (t : IT) (ρ : Nat → Res) : Expr → Res
  | .lit n => .ok n
  | .neg e => (eval t ρ e).bind t.neg
  | .add l r => (eval t ρ l).bind fun a => (eval t ρ r).bind (t.add a)
  | .sub l r => (eval t ρ l).bind fun a => (eval t ρ r).bind (t.sub a)
  | .atom i => ρ i

/-- The value of `l op r`. -/
def evalCmp (t : IT) (ρ : Nat → Res) (op : Cmp) (l r : Expr) : Except Panic Bool :=
  (eval t ρ l).bind fun a => (eval t ρ r).bind fun b => .ok (intOrd.holds op a b)

def LeOrGe.cmp : LeOrGe → Cmp
  | .le => .le
  | .ge => .ge

/-- `v` is in `a..b` or `a..=b`. -/
def Limits.mem (k : Limits) (a b v : Int) : Prop :=
  match k with
  | .halfOpen => a ≤ v ∧ v < b
  | .closed => a ≤ v ∧ v ≤ b

/-- Does indexing a slice of length `len` with `a..b` or `a..=b` succeed? (`max` is `usize::MAX`;
`a..=b` indexes like `a..b+1`.) -/
def Limits.indexOk (k : Limits) (max a b len : Nat) : Prop :=
  match k with
  | .halfOpen => a ≤ b ∧ b ≤ len
  | .closed => b ≠ max ∧ a ≤ b + 1 ∧ b + 1 ≤ len

/-! ### C26 -/

theorem isOne_eq {e : Expr} (h : isOne e = true) : e = .lit 1 := by
  unfold isOne at h; split at h <;> simp_all

theorem isNegOne_eq {e : Expr} (h : isNegOne e = true) : e = .neg (.lit 1) := by
  unfold isNegOne at h
  split at h
  · rw [isOne_eq h]
  · simp at h

theorem bind_ok {α β : Type} {x : Except Panic α} {f : α → Except Panic β} {v : β} (h : x.bind f = .ok v) :
    ∃ a, x = .ok a ∧ f a = .ok v := by
  cases x with
  | error e => simp [Except.bind] at h
  | ok a => exact ⟨a, rfl, h⟩

theorem checked_ok {t : IT} {a v : Int} (h : t.checked a = .ok v) : v = a := by
  unfold IT.checked at h
  split at h <;> simp at h
  exact h.symm

theorem plusOne_eval {t : IT} {ρ : Nat → Res} {e x : Expr} (h : asXPlusOne e = some x) {v : Int}
    (hv : eval t ρ e = .ok v) : eval t ρ x = .ok (v - 1) := by
  unfold asXPlusOne at h
  split at h
  · rename_i l r
    simp only [eval] at hv
    obtain ⟨a, ha, hv⟩ := bind_ok hv
    obtain ⟨b, hb, hv⟩ := bind_ok hv
    have := checked_ok hv
    split at h
    · rename_i h1
      rw [isOne_eq h1] at hb
      simp only [eval] at hb
      cases hb; cases h
      rw [ha, this]; congr 1; omega
    · split at h <;> simp at h
      rename_i h1
      rw [isOne_eq h1] at ha
      simp only [eval] at ha
      cases ha
      subst h
      rw [hb, this]; congr 1; omega
  · simp at h

theorem minusOne_eval {t : IT} {ρ : Nat → Res} {e x : Expr} (h : asXMinusOne e = some x) {v : Int}
    (hv : eval t ρ e = .ok v) : eval t ρ x = .ok (v + 1) := by
  unfold asXMinusOne at h
  split at h
  · split at h <;> simp at h
    rename_i h1
    subst h
    simp only [eval] at hv
    obtain ⟨a, ha, hv⟩ := bind_ok hv
    obtain ⟨b, hb, hv⟩ := bind_ok hv
    have := checked_ok hv
    rw [isOne_eq h1] at hb
    simp only [eval] at hb
    cases hb
    rw [ha, this]; congr 1; omega
  · split at h <;> simp at h
    rename_i h1
    subst h
    simp only [eval] at hv
    obtain ⟨a, ha, hv⟩ := bind_ok hv
    obtain ⟨b, hb, hv⟩ := bind_ok hv
    have h2 := checked_ok hv
    rw [isNegOne_eq h1] at ha
    simp only [eval, Except.bind, IT.neg] at ha
    have := checked_ok ha
    rw [hb, h2]; congr 1; omega
  · simp at h

/-- **C26.** If `l >= r` (or `l <= r`) evaluates without overflow, the suggested strict comparison
evaluates without overflow to the same boolean, in every integer type and for all values. -/
theorem intPlusOne_sound {k : LeOrGe} {l r l' r' : Expr} (h : checkBinop k l r = some (l', r')) (t : IT)
    (ρ : Nat → Res) {b : Bool} (hv : evalCmp t ρ k.cmp l r = .ok b) :
    evalCmp t ρ (newOp k) l' r' = .ok b := by
  unfold evalCmp at hv
  obtain ⟨x, hx, hv⟩ := bind_ok hv
  obtain ⟨y, hy, hv⟩ := bind_ok hv
  simp only [Except.ok.injEq] at hv
  subst hv
  cases k <;> simp only [checkBinop] at h
  · split at h
    · rename_i h1
      cases h
      simp only [evalCmp, plusOne_eval h1 hx, hy, Except.bind, newOp, LeOrGe.cmp, intOrd_holds]
      congr 1; rw [decide_eq_decide]; omega
    · cases h1 : asXMinusOne r <;> simp [h1] at h
      obtain ⟨rfl, rfl⟩ := h
      simp only [evalCmp, minusOne_eval h1 hy, hx, Except.bind, newOp, LeOrGe.cmp, intOrd_holds]
      congr 1; rw [decide_eq_decide]; omega
  · split at h
    · rename_i h1
      cases h
      simp only [evalCmp, minusOne_eval h1 hx, hy, Except.bind, newOp, LeOrGe.cmp, intOrd_holds]
      congr 1; rw [decide_eq_decide]; omega
    · cases h1 : asXPlusOne r <;> simp [h1] at h
      obtain ⟨rfl, rfl⟩ := h
      simp only [evalCmp, plusOne_eval h1 hy, hx, Except.bind, newOp, LeOrGe.cmp, intOrd_holds]
      congr 1; rw [decide_eq_decide]; omega

/-- `-1 + x >= y` with `x = 5`, `y = 4`. -/
example : checkBinop .ge (.add (.neg (.lit 1)) (.atom 0)) (.atom 1) = some (.atom 0, .atom 1) ∧
    evalCmp ⟨true, 32⟩ (fun i => .ok (5 - i)) .ge (.add (.neg (.lit 1)) (.atom 0)) (.atom 1) = .ok true :=
  ⟨rfl, rfl⟩

/-! ### C27 -/

/-- The value of an operand. -/
def Operand.val {α} (ρ : Nat → α) : Operand α → Option α
  | .var i => some (ρ i)
  | .const v => some v
  | .other => none

/-- The value of a condition: `ρ` gives the variables, `β` the other atoms; comparisons with operands that
are neither variables nor constants have any fixed value (`β` at the comparison's text length). -/
def Cond.val {α} (P : POrd α) (and : Bool) (ρ : Nat → α) (β : Nat → Bool) : Cond α → Bool
  | .cmp t op l r =>
    match l.val ρ, r.val ρ with
    | some a, some b => P.holds op a b
    | _, _ => β t.length
  | .atom _ i => β i
  | .bin _ l r => if and then l.val P and ρ β && r.val P and ρ β else l.val P and ρ β || r.val P and ρ β

/-- The value of `(lo..hi).contains(&x)`, possibly closed, possibly negated. -/
def Sugg.val {α} (P : POrd α) (s : Sugg α) (x : α) : Bool :=
  (P.holds .le s.lo x && (if s.closed then P.holds .le x s.hi else P.holds .lt x s.hi)) ^^ s.negated

theorem bounds_val {α} {P : POrd α} {and : Bool} {ρ : Nat → α} {β : Nat → Bool} {c : Cond α} {b : Bounds α}
    (h : c.bounds = some b) :
    (b.ord = .lt ∧ c.val P and ρ β = (if b.inc then P.holds .le (ρ b.id) b.val else P.holds .lt (ρ b.id) b.val)) ∨
    (b.ord = .gt ∧ c.val P and ρ β = (if b.inc then P.holds .le b.val (ρ b.id) else P.holds .lt b.val (ρ b.id))) := by
  have flip : ∀ a b : α, P.holds .gt a b = P.holds .lt b a := by
    intro a b
    simp only [POrd.holds]
    rw [Bool.eq_iff_iff]; simp [P.gt_iff]
  have flip' : ∀ a b : α, P.holds .ge a b = P.holds .le b a := by
    intro a b
    simp only [POrd.holds]
    rw [Bool.eq_iff_iff]
    simp only [Bool.or_eq_true, beq_iff_eq, P.gt_iff]
    constructor <;> (rintro (h | h); exact .inl h; exact .inr (P.eq_symm h))
  cases c <;> simp only [Cond.bounds] at h <;> try contradiction
  rename_i t op l r
  unfold rangeBounds at h
  cases op <;> simp only at h <;> try contradiction
  all_goals
    cases l <;> cases r <;> simp at h
    all_goals
      subst h
      simp [Cond.val, Operand.val, flip, flip', Ordering.swap]

theorem contains_val {α} {P : POrd α} {ρ : Nat → α} {β : Nat → Bool} {float and : Bool} {l r : Cond α}
    {bl br : Bounds α} (hl : l.bounds = some bl) (hr : r.bounds = some br) {s : Sugg α}
    (ht : and = true ∨ float = true ∨ P.Total) (h : contains P.cmp float and bl br = some s) :
    s.val P (ρ bl.id) = if and then l.val P and ρ β && r.val P and ρ β else l.val P and ρ β || r.val P and ρ β := by
  unfold contains at h
  split at h
  · simp at h
  rename_i hid
  have hid' : bl.id = br.id := Decidable.byContradiction fun e => hid (.inl e)
  have hord : bl.ord ≠ br.ord := fun e => hid (.inr e)
  have vl := bounds_val (P := P) (and := and) (ρ := ρ) (β := β) hl
  have vr := bounds_val (P := P) (and := and) (ρ := ρ) (β := β) hr
  rw [← hid'] at vr
  simp only at h
  split at h
  · rename_i h1
    simp only [h1.1, if_true]
    rcases vl with ⟨lo, vl⟩ | ⟨lo, vl⟩ <;> rcases vr with ⟨ro, vr⟩ | ⟨ro, vr⟩
    · rw [lo, ro] at hord; exact absurd rfl hord
    · rw [ro] at h
      simp at h
      obtain ⟨hi, rfl⟩ := h
      rw [h1.1] at vl vr
      simp [Sugg.val, vl, vr, hi, Bool.and_comm]
    · rw [ro] at h
      simp at h
      obtain ⟨hi, rfl⟩ := h
      rw [h1.1] at vl vr
      simp [Sugg.val, vl, vr, hi]
    · rw [lo, ro] at hord; exact absurd rfl hord
  · split at h
    · rename_i _ h2
      split at h
      · simp at h
      rename_i hfl
      have ha : and = false := by simpa using h2.1
      have tot : P.Total := by
        rcases ht with e | e | e
        · rw [ha] at e; contradiction
        · exact absurd e hfl
        · exact e
      -- in a total order, `<` and `>=` are opposites
      have neg : ∀ a b, P.holds .le a b = !P.holds .lt b a := by
        intro a b
        obtain ⟨o, ho⟩ := tot a b
        have hd := P.dual a b
        rw [ho] at hd
        cases o <;> simp [POrd.holds, ho, hd, Ordering.swap]
      rcases vl with ⟨lo, vl⟩ | ⟨lo, vl⟩ <;> rcases vr with ⟨ro, vr⟩ | ⟨ro, vr⟩
      · rw [lo, ro] at hord; exact absurd rfl hord
      · rw [lo] at h
        simp at h
        obtain ⟨hi, rfl⟩ := h
        rw [ha] at vl vr
        cases hb : br.inc <;> simp [Sugg.val, vl, vr, hi, ha, neg, hb]
      · rw [lo] at h
        simp at h
        obtain ⟨hi, rfl⟩ := h
        rw [ha] at vl vr
        cases hb : bl.inc <;> simp [Sugg.val, vl, vr, hi, ha, neg, hb, Bool.or_comm]
      · rw [lo, ro] at hord; exact absurd rfl hord
    · simp at h

/-- Conditions as the parser builds them: the operators associate to the left, so a right operand that is
again such a condition is in parentheses; and the text of every comparison and atom has as many
opening as closing parentheses. -/
def Cond.Parsed {α} : Cond α → Prop
  | .cmp t _ _ _ => parensMatch t = true
  | .atom t _ => parensMatch t = true
  | .bin _ l r => l.Parsed ∧ r.Parsed ∧ ∀ l' r', r ≠ .bin false l' r'

/-- The source text `left op right` after the replacement of the text from the operand found `n` steps
down in `left` up to the end. -/
def applied {α} (op sugg : List Char) : Nat → Cond α → List Char
  | 0, _ => sugg
  | n + 1, .bin p l newL => (if p then ['('] else []) ++ l.text op ++ op ++ applied op sugg n newL
  | _ + 1, _ => sugg

theorem parsed_match {α} {op : List Char} (hop : parensMatch op = true) {c : Cond α} (h : c.Parsed) :
    parensMatch (c.text op) = true := by
  induction c with
  | cmp => exact h
  | atom => exact h
  | bin p l r ihl ihr =>
    have hl := ihl h.1
    have hr := ihr h.2.1
    cases p <;> simp [parensMatch, Cond.text, List.count_append] at * <;> omega

/-- After a closing parenthesis in between nothing is found. -/
theorem checkContains_closed {α} {cmp : α → α → Option Ordering} {float and : Bool} {op mid : List Char}
    {right : Cond α} {d : Nat} {p : Bool} {l r : Cond α} (hop : parensMatch op = true)
    (hr : right.Parsed) (hnl : r.Parsed)
    (hmid : mid.count '(' < mid.count ')' ∨ p = true ∧ mid.count '(' ≤ mid.count ')') :
    checkContains cmp float and op mid right d (.bin p l r) = [] := by
  have h1 := parsed_match hop hr
  have h2 := parsed_match hop hnl
  rw [checkContains]
  apply if_neg
  cases p <;> simp [parensMatch, List.count_append] at * <;> omega

/-- **C27 (partial).** Every suggestion for `left op right` turns the source text into the text of a condition
that has the same value as the original, for all values of the variables, all comparison directions and
all operators. It is missing: negated ranges for types that contain floats but are not floats
(`negated_partial_order`), and parentheses in character or string literals (`paren_literal`). -/
theorem rangeContains_partial {α} (P : POrd α) {float and : Bool} {op : List Char} {left right : Cond α}
    (hop : parensMatch op = true) (hl : left.Parsed) (hr : right.Parsed)
    (ht : and = true ∨ float = true ∨ P.Total) {d : Nat} {s : Sugg α}
    (h : (d, s) ∈ checkContains P.cmp float and op op right 0 left) (sugg : List Char) :
    ∃ (x : Nat) (result : Nat → Cond α), ∀ (i : Nat),
      (result i).text op = applied op sugg d left ∧
      ∀ (ρ : Nat → α) (β : Nat → Bool), β i = s.val P (ρ x) →
        (result i).val P and ρ β = (Cond.bin false left right).val P and ρ β := by
  cases left with
  | atom t j => simp [checkContains, Cond.bounds] at h
  | cmp t o a b =>
    simp only [checkContains] at h
    split at h
    case h_2 => simp at h
    rename_i bl br e1 e2
    cases hc : contains P.cmp float and bl br <;> simp [hc] at h
    obtain ⟨rfl, rfl⟩ := h
    refine ⟨bl.id, fun i => .atom sugg i, fun i => ⟨rfl, fun ρ β hβ => ?_⟩⟩
    have := contains_val (ρ := ρ) (β := β) e1 e2 ht hc
    simp only [Cond.val] at *
    rw [hβ, this]
  | bin p l newL =>
    have hmo : op.count '(' = op.count ')' := by simpa [parensMatch] using hop
    cases p with
    | true => rw [checkContains_closed hop hr hl.2.1 (.inr ⟨rfl, by omega⟩)] at h; simp at h
    | false =>
      rw [checkContains] at h
      simp only [Bool.false_eq_true, if_false, List.nil_append] at h
      by_cases hm : parensMatch (newL.text op ++ op ++ right.text op) = true
      case neg => rw [if_neg hm] at h; simp at h
      rw [if_pos hm] at h
      cases newL with
      | bin p' l' n' =>
        cases p' with
        | false => exact absurd rfl (hl.2.2 _ _)
        | true =>
          rw [checkContains_closed hop hr hl.2.1.2.1 (.inr ⟨rfl, by omega⟩)] at h
          simp at h
      | atom t j => simp [checkContains, Cond.bounds] at h
      | cmp t o a b =>
        simp only [checkContains] at h
        split at h
        case h_2 => simp at h
        rename_i bl br e1 e2
        cases hc : contains P.cmp float and bl br <;> simp [hc] at h
        obtain ⟨rfl, rfl⟩ := h
        refine ⟨bl.id, fun i => .bin false l (.atom sugg i), fun i => ⟨by simp [applied, Cond.text], ?_⟩⟩
        intro ρ β hβ
        have := contains_val (ρ := ρ) (β := β) e1 e2 ht hc
        simp only [Cond.val] at *
        rw [hβ, this]
        cases and <;> simp [Bool.and_assoc, Bool.or_assoc]

/-- `a && x >= 5 && x < 10`. -/
example :
    let left : Cond Int := .bin false (.atom str!"a" 7) (.cmp str!"x >= 5" .ge (.var 0) (.const 5))
    let right : Cond Int := .cmp str!"x < 10" .lt (.var 0) (.const 10)
    left.Parsed ∧ right.Parsed ∧
    checkContains intOrd.cmp false true str!" && " str!" && " right 0 left = [(1, ⟨5, 10, false, false⟩)] := by
  refine ⟨⟨by simp [Cond.Parsed]; decide, by simp [Cond.Parsed]; decide, by simp⟩, ?_, by rfl⟩
  simp [Cond.Parsed]; decide

/-- `10 < x || 5 > x` for an integer: `!(5..=10).contains(&x)`. -/
example :
    checkContains intOrd.cmp false false str!" || " str!" || " (.cmp str!"5 > x" .gt (.const 5) (.var 0)) 0
      (.cmp str!"10 < x" .lt (.const 10) (.var 0)) = [(0, ⟨5, 10, true, true⟩)] := by rfl

/-- **C27 (violation).** Only values of float type are exempt from the negated form. For `x: &f64` (the type
of `&1.0` is a reference, so `float` is false) the condition `x < &1.0 || x > &2.0` is false for a NaN,
but the suggested `!(&1.0..=&2.0).contains(&x)` is true. -/
theorem negated_partial_order :
    let left : Cond (Option Int) := .cmp str!"x < &1.0" .lt (.var 0) (.const (some 1))
    let right : Cond (Option Int) := .cmp str!"x > &2.0" .gt (.var 0) (.const (some 2))
    let s : Sugg (Option Int) := ⟨some 1, some 2, true, true⟩
    (0, s) ∈ checkContains floatOrd.cmp false false str!" || " str!" || " right 0 left ∧
    (Cond.bin false left right).val floatOrd false (fun _ => none) (fun _ => false) = false ∧
    s.val floatOrd none = true := by
  refine ⟨?_, by decide, by decide⟩
  have : checkContains floatOrd.cmp false false str!" || " str!" || "
      (.cmp str!"x > &2.0" .gt (.var 0) (.const (some 2))) 0
      (.cmp str!"x < &1.0" .lt (.var 0) (.const (some 1))) = [(0, (⟨some 1, some 2, true, true⟩ : Sugg (Option Int)))] := by rfl
  simp only [this, List.mem_singleton]

/-- Text without its one-character literals (`'('`). -/
def dropCharLits : List Char → List Char
  | '\'' :: _ :: '\'' :: rest => dropCharLits rest
  | c :: rest => c :: dropCharLits rest
  | [] => []

/-- **C27 (violation).** Counting parentheses in the source also counts those in literals: the suggestion for
`(b && x >= '(') && x <= 'z'` replaces `x >= '(') && x <= 'z'`, which leaves the parenthesis before
`b` unclosed. -/
theorem paren_literal :
    let left : Cond Int := .bin true (.atom str!"b" 8) (.cmp str!"x >= '('" .ge (.var 0) (.const 40))
    let right : Cond Int := .cmp str!"x <= 'z'" .le (.var 0) (.const 122)
    checkContains intOrd.cmp false true str!" && " str!" && " right 0 left = [(1, ⟨40, 122, true, false⟩)] ∧
    applied str!" && " str!"('('..='z').contains(&x)" 1 left = str!"(b && ('('..='z').contains(&x)" ∧
    parensMatch (dropCharLits ((Cond.bin false left right).text str!" && ")) = true ∧
    parensMatch (dropCharLits (applied str!" && " str!"('('..='z').contains(&x)" 1 left)) = false := by
  refine ⟨by rfl, by decide +kernel, by decide +kernel, by decide +kernel⟩

/-! ### C28 -/

/-- **C28 (`range_plus_one`, `range_minus_one`).** If the end of the range evaluates without overflow, the
suggested end does too, and the suggested range has exactly the same values, whatever the start is. -/
theorem rangeSwitch_sound {k k' : Limits} {e e' : Expr} (h : rangeSwitch k e = some (k', e')) (t : IT)
    (ρ : Nat → Res) {b : Int} (hb : eval t ρ e = .ok b) :
    ∃ b', eval t ρ e' = .ok b' ∧ ∀ a v, k.mem a b v ↔ k'.mem a b' v := by
  cases k <;> simp only [rangeSwitch] at h
  · cases hy : yPlusOne e <;> simp [hy] at h
    obtain ⟨rfl, rfl⟩ := h
    rename_i y
    have : asXPlusOne e = some y ∨ ∃ r, e = .add (.lit 1) r ∧ y = r := by
      unfold yPlusOne at hy
      split at hy
      · split at hy
        · rename_i h1
          rw [isOne_eq h1]
          exact .inr ⟨_, rfl, (Option.some.inj hy).symm⟩
        · split at hy <;> simp at hy
          rename_i h2
          subst hy
          exact .inl (by simp [asXPlusOne, h2])
      · simp at hy
    have hv : eval t ρ y = .ok (b - 1) := by
      rcases this with h1 | ⟨r, rfl, rfl⟩
      · exact plusOne_eval h1 hb
      · simp only [eval, Except.bind] at hb
        obtain ⟨c, hc, hb⟩ := bind_ok hb
        have := checked_ok hb
        rw [hc, this]; congr 1; omega
    exact ⟨_, hv, fun a v => by simp only [Limits.mem]; omega⟩
  · cases hy : yMinusOne e <;> simp [hy] at h
    obtain ⟨rfl, rfl⟩ := h
    rename_i y
    have : asXMinusOne e = some y := by
      unfold yMinusOne at hy
      split at hy
      · simpa [asXMinusOne] using hy
      · simp at hy
    exact ⟨_, minusOne_eval this hb, fun a v => by simp only [Limits.mem]; omega⟩

example : rangeSwitch .halfOpen (.add (.atom 0) (.lit 1)) = some (.closed, .atom 0) ∧
    rangeSwitch .closed (.sub (.atom 0) (.lit 1)) = some (.halfOpen, .atom 0) ∧
    eval ⟨false, 8⟩ (fun _ => .ok 254) (.add (.atom 0) (.lit 1)) = .ok 255 := ⟨rfl, rfl, rfl⟩

theorem compare_cases (a b : Int) : (compare a b = .lt ↔ a < b) ∧ (compare a b = .gt ↔ b < a) := by
  simp only [compare, compareOfLessAndEq]
  constructor <;> (split <;> (try split) <;> simp <;> omega)

/-- **C28 (`reversed_empty_ranges`).** A range reported as empty contains no value. -/
theorem reversedEmpty_empty {k : Limits} {a b : Int} {indexing forLoop sugg : Bool}
    (h : reversedEmpty k (compare a b) indexing forLoop = some (.empty sugg)) (v : Int) : ¬ k.mem a b v := by
  have hc := compare_cases a b
  unfold reversedEmpty at h
  split at h
  · rename_i he
    cases k <;> simp only [isEmptyRange, decide_eq_true_eq, decide_not, Bool.not_eq_true',
      decide_eq_false_iff_not] at he <;> simp only [Limits.mem]
    · rw [hc.1] at he; omega
    · rw [hc.2] at he; omega
  · simp at h

/-- **C28 (`reversed_empty_ranges`, partial).** When the lint says that indexing will panic, indexing a slice of
any length panics, *unless* the range is `n+1..=n` (`reversed_index`). -/
theorem reversedEmpty_panics_partial {k : Limits} {a b : Nat} {indexing forLoop : Bool}
    (h : reversedEmpty k (compare (a : Int) b) indexing forLoop = some .panics)
    (hk : ¬(k = .closed ∧ a = b + 1)) (max len : Nat) : ¬ k.indexOk max a b len := by
  have hc := compare_cases (a : Int) b
  unfold reversedEmpty at h
  split at h
  · rename_i he
    split at h
    · split at h
      · rename_i hne
        cases k <;> simp only [isEmptyRange, decide_eq_true_eq, decide_not, Bool.not_eq_true',
          decide_eq_false_iff_not] at he <;> simp only [Limits.indexOk]
        · rw [hc.1] at he
          have : (a : Int) ≠ b := by
            intro e
            have : compare (a : Int) b = .eq := by rw [e]; simp
            exact hne this
          omega
        · rw [hc.2] at he
          simp at hk
          omega
      · simp at h
    · split at h <;> simp at h
  · simp at h

/-- **C28 (violation).** `v[3..=2]` is reported: "using it to index a slice will panic at run-time". It does
not panic: it is the empty slice at position 3, if the slice has at least 3 elements. -/
theorem reversed_index :
    reversedEmpty .closed (compare (3 : Int) 2) true false = some .panics ∧
    ∀ max, 2 < max → Limits.closed.indexOk max 3 2 3 := by
  refine ⟨by decide, fun max h => ?_⟩
  simp only [Limits.indexOk]; omega

example : reversedEmpty .closed (compare (10 : Int) 0) false false = some (.empty true) ∧
    reversedEmpty .halfOpen (compare (3 : Int) 1) true false = some .panics := by decide

end Verif.Ranges
