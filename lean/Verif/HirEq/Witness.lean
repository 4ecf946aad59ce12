import Verif.HirEq.EvalProps
import Verif.HirEq.SearchProps

/-!
# Concrete expressions

Cases which meet the hypotheses of the theorems about equality and hash, and cases which show where the properties fail.
-/

namespace Verif.HirEq.Witness
open Verif.HirEq

/-- An expression of a primitive type about which no constant is known. -/
def ex (k : EK) (cs : List N) : N := .mk (.expr ⟨0, true, none⟩ k) cs
/-- No generic arguments. -/
def noGen : N := .mk (.gargs 0) [.mk .list [], .mk .list []]
/-- The path of a variable. -/
def varQ (x : Nat) : N := .mk .qResolved [.mk .optNone [], .mk (.path (.locl x) [⟨x, .locl x⟩]) [noGen]]
/-- A variable. -/
def var (x : Nat) : N := ex .path [varQ x]
/-- A literal. -/
def lit (n : Nat) : N := ex (.lit n) []
/-- A binary operation. -/
def bin (op : BinOp) (a b : N) : N := ex (.binary op) [a, b]
/-- `let x = e;` -/
def letV (x : Nat) (e : N) : N := .mk (.letS 0) [.mk .optSome [e], .mk .optNone [], .mk .optNone [], .mk (.pBinding 0 x) [.mk .optNone []]]
/-- `{ ss; e }` -/
def block (ss : List N) (e : N) : N := ex (.block none) [.mk (.blk false .other []) [.mk .list ss, .mk .optSome [e]]]

/-- Integers; a condition holds if it isn't `0`. -/
def ints : Interp Int where
  lit n := some n
  item _ := none
  kind ns := if ns = [50] then some .const else none
  un _ v := some (-v)
  bin op a b := match op with
    | .add => some (a + b)
    | .sub => some (a - b)
    | .mul => some (a * b)
    | .div => if b = 0 then none else some (a.tdiv b)
    | .eq => some (if a = b then 1 else 0)
    | .ne => some (if a = b then 0 else 1)
    | .lt => some (if a < b then 1 else 0)
    | .gt => some (if b < a then 1 else 0)
    | .le => some (if a ≤ b then 1 else 0)
    | .ge => some (if b ≤ a then 1 else 0)
    | _ => none
  ref _ _ v := some v
  tup _ := some 0
  array _ := none
  field _ _ := none
  index _ _ := none
  cast _ v := some v
  asBool v := some (v != 0)
  ofBool b := if b then 1 else 0
  bindAs _ v := some v
  split _ _ := none
  cval _ n := n

theorem ints_lawful : Lawful ints := by
  intro a b
  simp [ints, eq_comm]

theorem ints_comm (op : BinOp) (h : op ∈ [BinOp.add, .mul, .bitAnd, .bitXor, .bitOr]) (a b : Int) : ints.bin op a b = ints.bin op b a := by
  simp only [List.mem_cons, List.not_mem_nil, or_false] at h
  rcases h with rfl | rfl | rfl | rfl | rfl <;> simp [ints, Int.add_comm, Int.mul_comm]

/-- Nothing is known about the values of expressions, and the name `50` stands for constants. -/
def noConst : N → Bool
  | .mk (.expr i _) _ => i.cst.isNone
  | .mk (.path (.locl _) _) _ => true
  | .mk (.path res segs) _ => res.item.map Prod.fst == ints.kind (segs.map Seg.name)
  | _ => true

theorem ints_ok (e : N) (h : (subs e).all noConst = true) : Ok ints e := by
  intro s hs
  have hn := List.all_eq_true.mp h s hs
  obtain ⟨k, cs⟩ := s
  cases k <;> try trivial
  case expr i k =>
    simp only [noConst, Option.isNone_iff_eq_none] at hn
    refine ⟨?_, fun _ => hn, ?_⟩
    · intro c hc; rw [hn] at hc; cases hc
    · intro op a b _ _ _ ho n m ρ ρ' v w _ _
      exact ints_comm op ho v w
  case path res segs =>
    intro hl
    cases res <;> first | exact absurd rfl (hl _) | simpa [noConst] using hn

/-- `{ let a = x; a + 1 }` and `{ let b = x; 1 + b }` -/
def sumL : N := block [letV 1 (var 0)] (bin .add (var 1) (lit 1))
def sumR : N := block [letV 2 (var 0)] (bin .add (lit 1) (var 2))

/-- The hypotheses of `equal_value_partial` can be met: two blocks with their own variables, operands exchanged. -/
example : Equal Cfg.value sumL sumR ∧ Ok ints sumL ∧ Ok ints sumR ∧ Fresh [(.var 0, (7 : Int))] [(.var 0, 7)] [sumL] [sumR] ∧
    eval ints 9 [(.var 0, 7)] sumL = some 8 ∧ eval ints 9 [(.var 0, 7)] sumR = some 8 := by
  refine ⟨⟨12, by decide +kernel⟩, ints_ok _ (by decide +kernel), ints_ok _ (by decide +kernel), ?_, by decide +kernel, by decide +kernel⟩
  have e1 : bindersL [sumL] = [.var 1] := by decide +kernel
  have e2 : bindersL [sumR] = [.var 2] := by decide +kernel
  exact ⟨by rw [e1]; decide, by rw [e2]; decide, by rw [e1, e2]; decide, by rw [e1]; decide, by rw [e2]; decide⟩

/-- A type. -/
def ty : N := .mk .tPath [.mk .qResolved [.mk .optNone [], .mk (.path (.other 1) [⟨60, .err⟩]) [noGen]]]
/-- `const N: i32 = e;`, where the name `N` is `50` -/
def constV (x : Nat) (e : N) : N := .mk (.constItem 50 x) [ty, e]
/-- `N`, a constant or static -/
def named (k : DefKind) (x : Nat) : N := ex .path [.mk .qResolved [.mk .optNone [], .mk (.path (.defn k x) [⟨50, .defn k x⟩]) [noGen]]]
/-- `{ const N: i32 = e; N + x }` -/
def withConst (x : Nat) (e : N) : N := block [constV x e] (bin .add (named .const x) (var 0))

/-- The hypotheses of `equal_value_partial` can be met: two blocks with their own constants of the same name, as in
`{ const N: i32 = 3; N + x }`. -/
example : Equal Cfg.value (withConst 1 (lit 3)) (withConst 2 (lit 3)) ∧ Ok ints (withConst 1 (lit 3)) ∧ Ok ints (withConst 2 (lit 3)) ∧
    Fresh [(.var 0, (7 : Int))] [(.var 0, 7)] [withConst 1 (lit 3)] [withConst 2 (lit 3)] ∧
    eval ints 9 [(.var 0, 7)] (withConst 1 (lit 3)) = some 10 ∧ eval ints 9 [(.var 0, 7)] (withConst 2 (lit 3)) = some 10 := by
  refine ⟨⟨12, by decide +kernel⟩, ints_ok _ (by decide +kernel), ints_ok _ (by decide +kernel), ?_, by decide +kernel, by decide +kernel⟩
  have e1 : bindersL [withConst 1 (lit 3)] = [.item 1] := by decide +kernel
  have e2 : bindersL [withConst 2 (lit 3)] = [.item 2] := by decide +kernel
  exact ⟨by rw [e1]; decide, by rw [e2]; decide, by rw [e1, e2]; decide, by rw [e1]; decide, by rw [e2]; decide⟩

/-- Two constants with the same name but from different places aren't equal. -/
theorem named_apart : ¬ Equal Cfg.value (named .const 1) (named .const 2) := by
  rintro ⟨n, e⟩
  match n, e with
  | 0, e | 1, e | 2, e => exact absurd e (by decide +kernel)
  | n + 3, e => exact absurd e Bool.false_ne_true

/-- **C65, violated:** a constant and a static of the same name (from different modules) are equal, whatever their values: if the kinds differ
only the names are compared. -/
theorem equal_other_kind : Equal Cfg.value (named .const 1) (named .static 2) ∧
    eval ints 9 [(.item 1, 7), (.item 2, 8)] (named .const 1) = some 7 ∧
    eval ints 9 [(.item 1, 7), (.item 2, 8)] (named .static 2) = some 8 :=
  ⟨⟨12, by decide +kernel⟩, by decide +kernel, by decide +kernel⟩

/-- `x != 0 && 10 / x > 1` and `10 / x > 1 && x != 0` -/
def guardL : N := bin .and (bin .ne (var 0) (lit 0)) (bin .gt (bin .div (lit 10) (var 0)) (lit 1))
def guardR : N := bin .and (bin .gt (bin .div (lit 10) (var 0)) (lit 1)) (bin .ne (var 0) (lit 0))

/-- **C65, violated:** an expression can be equal to one which panics. The operands of `&&` are exchanged though the first one guards the
second one. -/
theorem equal_not_defined : Equal Cfg.value guardL guardR ∧ Ok ints guardL ∧ Ok ints guardR ∧ Fresh [(.var 0, (0 : Int))] [(.var 0, 0)] [guardL] [guardR] ∧
    eval ints 9 [(.var 0, 0)] guardL = some 0 ∧ ∀ n, eval ints n [(.var 0, 0)] guardR = none := by
  have e1 : bindersL [guardL] = [] := by decide +kernel
  have e2 : bindersL [guardR] = [] := by decide +kernel
  refine ⟨⟨12, by decide +kernel⟩, ints_ok _ (by decide +kernel), ints_ok _ (by decide +kernel), ?_, by decide +kernel, ?_⟩
  · exact ⟨by rw [e1]; decide, by rw [e2]; decide, by rw [e1]; simp, by rw [e1]; simp, by rw [e2]; simp⟩
  · intro n
    match n with
    | 0 | 1 | 2 | 3 => rfl
    | n + 4 => rfl

/-- `2u32 * v` and `v * 2u32`, where `v` has a type of the user: only the type of the first operand is looked at. -/
def scaleL : N := bin .mul (lit 2) (.mk (.expr ⟨1, false, none⟩ .path) [varQ 0])
def scaleR : N := bin .mul (.mk (.expr ⟨1, false, none⟩ .path) [varQ 0]) (lit 2)

/-- **C65, violated:** equality isn't symmetric: `2u32 * v` equals `v * 2u32`, but not the other way round. -/
theorem equal_not_symmetric : Equal Cfg.value scaleL scaleR ∧ ¬ Equal Cfg.value scaleR scaleL := by
  refine ⟨⟨12, by decide +kernel⟩, ?_⟩
  rintro ⟨n, h⟩
  match n, h with
  | 0, h | 1, h => exact absurd h (by decide +kernel)
  | n + 2, h => exact absurd h Bool.false_ne_true

/-- Multiplication which isn't commutative: a number by a vector is a vector (here the numbers from 1000 on), a vector by a number isn't defined
the same way. -/
def vecs : Interp Int := { ints with bin := fun op a b => match op with
  | .mul => if a < 1000 ∧ 1000 ≤ b then some (a * b) else if 1000 ≤ a ∧ b < 1000 then some (a * b + 1) else some (a * b)
  | op => ints.bin op a b }

/-- **C65, violated:** expressions which are equal but whose values differ, if the user's operators aren't commutative. -/
theorem equal_other_value : Lawful vecs ∧ Equal Cfg.value scaleL scaleR ∧ eval vecs 9 [(.var 0, 1500)] scaleL = some 3000 ∧
    eval vecs 9 [(.var 0, 1500)] scaleR = some 3001 := by
  refine ⟨?_, ⟨12, by decide +kernel⟩, by decide +kernel, by decide +kernel⟩
  intro a b
  simpa [vecs] using ints_lawful a b

/-! ### Jumps -/

mutual
/-- For each `break` with a label: how many of the enclosing labelled blocks and loops it skips. `ls` are the enclosing labels. -/
def jumps (ls : List Nat) : N → List (Option Nat)
  | .mk (.expr _ (.brk (some l))) cs => ls.idxOf? l :: jumpsL ls cs
  | .mk (.expr _ (.block (some l))) cs => jumpsL (l :: ls) cs
  | .mk (.expr _ (.loop (some l) _)) cs => jumpsL (l :: ls) cs
  | .mk _ cs => jumpsL ls cs
/-- The jumps in several pieces. -/
def jumpsL (ls : List Nat) : List N → List (Option Nat)
  | [] => []
  | n :: ns => jumps ls n ++ jumpsL ls ns
end

/-- `'l: { ss }` -/
def labelled (l : Nat) (ss : List N) : N := ex (.block (some l)) [.mk (.blk false .other []) [.mk .list ss, .mk .optNone []]]
/-- `'a: { 'b: { break 'a; } x = 1; }` and `'b: { 'a: { break 'a; } x = 1; }` -/
def jumpL : N := labelled 1 [.mk .exprS [labelled 2 [.mk .semiS [ex (.brk (some 1)) [.mk .optNone []]]]], .mk .semiS [ex .assign [var 0, lit 1]]]
def jumpR : N := labelled 2 [.mk .exprS [labelled 1 [.mk .semiS [ex (.brk (some 1)) [.mk .optNone []]]]], .mk .semiS [ex .assign [var 0, lit 1]]]

/-- **C65, violated:** two blocks are equal though the jump leaves both in one and only the inner one in the other, which then runs the
assignment: the labels of blocks aren't compared. -/
theorem equal_other_jumps : Equal Cfg.default jumpL jumpR ∧ jumps [] jumpL = [some 1] ∧ jumps [] jumpR = [some 0] :=
  ⟨⟨12, by decide +kernel⟩, by decide +kernel, by decide +kernel⟩

/-- `S { a: 1, b: 2 }` and `S { b: 1, a: 2 }` as const arguments. -/
def structL : N := .mk (.cStruct [1, 2]) [varQ 0, .mk (.cLit 1 false) [], .mk (.cLit 2 false) []]
def structR : N := .mk (.cStruct [2, 1]) [varQ 0, .mk (.cLit 1 false) [], .mk (.cLit 2 false) []]

/-- **C65, violated:** the names of the fields of a struct in a const argument aren't compared, nor is the number of fields. -/
theorem equal_other_fields : Equal Cfg.default structL structR ∧ Equal Cfg.default (.mk (.cStruct []) [varQ 0]) structR :=
  ⟨⟨12, by decide +kernel⟩, ⟨12, by decide +kernel⟩⟩

/-! ### Hashes -/

/-- The hypotheses of `equal_hash_partial` can be met: `{ let a = x; a - 1 }` and `{ let b = x; b - 1 }`. -/
example : let l := block [letV 1 (var 0)] (bin .sub (var 1) (lit 1)); let r := block [letV 2 (var 0)] (bin .sub (var 2) (lit 1))
    Equal Cfg.default l r ∧ Plain Cfg.default id l ∧ Plain Cfg.default id r ∧ ConstBy Cfg.default (fun _ _ => none) l ∧
      ConstBy Cfg.default (fun _ _ => none) r := by
  refine ⟨⟨12, by decide +kernel⟩, ?_, ?_, ?_, ?_⟩ <;>
    simp [Plain, ConstBy, subs, subsL, block, letV, bin, var, lit, varQ, noGen, ex, plainHere, constHere, reduce, swapOp, N.prim]

/-- **C63, violated:** `a == b` equals `b == a`, and `a < b` equals `b > a`, but the hashes differ. -/
theorem hash_swapped : (Equal Cfg.default (bin .eq (var 0) (lit 1)) (bin .eq (lit 1) (var 0)) ∧
      hashN Cfg.default (bin .eq (var 0) (lit 1)) ≠ hashN Cfg.default (bin .eq (lit 1) (var 0))) ∧
    Equal Cfg.default (bin .lt (var 0) (var 1)) (bin .gt (var 1) (var 0)) ∧
      hashN Cfg.default (bin .lt (var 0) (var 1)) ≠ hashN Cfg.default (bin .gt (var 1) (var 0)) :=
  ⟨⟨⟨12, by decide +kernel⟩, by decide +kernel⟩, ⟨12, by decide +kernel⟩, by decide +kernel⟩

/-- `{}`, `unsafe { e }` -/
def emptyBlock : N := ex (.block none) [.mk (.blk false .bare []) [.mk .list [], .mk .optNone []]]
def unsafeBlock (u : Bool) : N := ex (.block none) [.mk (.blk u .other []) [.mk .list [], .mk .optSome [var 0]]]

/-- **C63, violated:** `{}` equals `()`, and `unsafe { e }` equals `{ e }`, but the hashes differ. -/
theorem hash_blocks : (Equal Cfg.default emptyBlock (ex .tup []) ∧ hashN Cfg.default emptyBlock ≠ hashN Cfg.default (ex .tup [])) ∧
    Equal Cfg.default (unsafeBlock true) (unsafeBlock false) ∧ hashN Cfg.default (unsafeBlock true) ≠ hashN Cfg.default (unsafeBlock false) :=
  ⟨⟨⟨12, by decide +kernel⟩, by decide +kernel⟩, ⟨12, by decide +kernel⟩, by decide +kernel⟩

/-- **C63, violated:** `S { a }` equals `S { a, .. }`, and `&'a T` equals `&'b T`, but the hashes differ. -/
theorem hash_patterns_types :
    (let p (b : Bool) : N := .mk (.pStruct b) [varQ 0, .mk (.pField 1) [.mk .pWild []]]
     Equal Cfg.default (p true) (p false) ∧ hashN Cfg.default (p true) ≠ hashN Cfg.default (p false)) ∧
    (let t (l : Nat) : N := .mk (.tRef ⟨l, l⟩ false) [.mk .tPath [varQ 0]]
     Equal Cfg.default (t 1) (t 2) ∧ hashN Cfg.default (t 1) ≠ hashN Cfg.default (t 2)) :=
  ⟨⟨⟨12, by decide +kernel⟩, by decide +kernel⟩, ⟨12, by decide +kernel⟩, by decide +kernel⟩

/-- The comparison as a function; these expressions aren't deeper than 12. -/
def eqB (a b : N) : Bool := (eqN Cfg.value 12 St.init a b).1

/-- **C64, violated:** `a == b` and `b == a` are reported if they are the only two conditions, and aren't if there is a third one, for every
hash function which tells their hashes apart. -/
theorem search_depends_on_others (H : List Tok → Nat) (h : H (hashN Cfg.value (bin .eq (var 0) (lit 1))) ≠ H (hashN Cfg.value (bin .eq (lit 1) (var 0))))
    (h2 : H (hashN Cfg.value (bin .eq (var 0) (lit 1))) ≠ H (hashN Cfg.value (var 3)))
    (h3 : H (hashN Cfg.value (bin .eq (lit 1) (var 0))) ≠ H (hashN Cfg.value (var 3))) :
    searchSame (fun e => H (hashN Cfg.value e)) eqB [bin .eq (var 0) (lit 1), bin .eq (lit 1) (var 0)] =
      [[bin .eq (var 0) (lit 1), bin .eq (lit 1) (var 0)]] ∧
    searchSame (fun e => H (hashN Cfg.value e)) eqB [bin .eq (var 0) (lit 1), bin .eq (lit 1) (var 0), var 3] = [] := by
  constructor
  · have : eqB (bin .eq (var 0) (lit 1)) (bin .eq (lit 1) (var 0)) = true := by decide +kernel
    simp [searchSame, this]
  · simp only [searchSame, List.foldl_cons, List.foldl_nil, insertBucket]
    rw [if_neg h]
    simp only [insertBucket]
    rw [if_neg h2, if_neg h3]
    simp

end Verif.HirEq.Witness
