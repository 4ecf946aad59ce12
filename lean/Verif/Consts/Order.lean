import Verif.Consts.Props

/-! C19: the ordering of constants; C20: minimum and maximum constants. -/

namespace Verif.Consts
open Verif.RInt

/-! ### Specification -/

/-- The number a `FullInt` stands for. -/
def FullInt.toInt : FullInt → Int
  | .s i => i
  | .u n => n

/-- Comparable values.  References compare like the values they refer to. -/
inductive SVal
  | int (v : Int) | bool (b : Bool) | char (c : Nat) | str (s : List Nat)
  | tuple (vs : List SVal) | array (vs : List SVal)

mutual
/-- Rust's `PartialOrd` on values of one type: numbers by size, strings, tuples and arrays by the first
difference. -/
def SVal.cmp : SVal → SVal → Option Ordering
  | .int a, .int b => some (compare a b)
  | .bool a, .bool b => some (compare a b)
  | .char a, .char b => some (compare a b)
  | .str a, .str b => some (compare a b)
  | .tuple a, .tuple b => lexCmp a b
  | .array a, .array b => lexCmp a b
  | _, _ => none
def lexCmp : List SVal → List SVal → Option Ordering
  | [], [] => some .eq
  | [], _ :: _ => some .lt
  | _ :: _, [] => some .gt
  | a :: as, b :: bs =>
    match SVal.cmp a b with
    | some .eq => lexCmp as bs
    | o => o
end

mutual
/-- The value a constant of the given type stands for. -/
def denote (S : Sess) : Ty → Constant → Option SVal
  | .int t, .int n => some (.int (IT.ofBits ⟨true, t.targetBits S⟩ n))
  | .uint _, .int n => some (.int n)
  | .bool, .bool b => some (.bool b)
  | .char, .char c => some (.char c)
  | .str, .str s => some (.str s)
  | .ref .str, .str s => some (.str s)
  | .tuple ts, .tuple cs => (denoteTuple S ts cs).map .tuple
  | .array t, .vec cs => (denoteVec S t cs).map .array
  | .array t, .rep c n => (denote S t c).map fun v => .array (List.replicate n v)
  | .ref t, .ref c => denote S t c
  | _, _ => none
def denoteTuple (S : Sess) : List Ty → List Constant → Option (List SVal)
  | [], [] => some []
  | t :: ts, c :: cs =>
    match denote S t c, denoteTuple S ts cs with
    | some v, some vs => some (v :: vs)
    | _, _ => none
  | _, _ => none
def denoteVec (S : Sess) (t : Ty) : List Constant → Option (List SVal)
  | [] => some []
  | c :: cs =>
    match denote S t c, denoteVec S t cs with
    | some v, some vs => some (v :: vs)
    | _, _ => none
end

mutual
/-- No `[x; 0]` inside the constant. -/
def NoEmptyRepeat : Constant → Prop
  | .vec cs => NoEmptyRepeats cs
  | .tuple cs => NoEmptyRepeats cs
  | .rep c n => 0 < n ∧ NoEmptyRepeat c
  | .ref c => NoEmptyRepeat c
  | _ => True
def NoEmptyRepeats : List Constant → Prop
  | [] => True
  | c :: cs => NoEmptyRepeat c ∧ NoEmptyRepeats cs
end

/-! ### `FullInt` -/

theorem compare_nat_int (a b : Nat) : compare (a : Int) (b : Int) = compare a b := by
  simp only [compare, compareOfLessAndEq]
  simp [Int.ofNat_lt, Int.ofNat_inj]

/-- **C19 (`FullInt`).** Comparing two `FullInt`s of any mix of signedness is comparing the numbers. -/
theorem fullInt_cmp (a b : FullInt) : a.cmp b = compare a.toInt b.toInt := by
  have su : ∀ (s : Int) (u : Nat), cmpSU s u = compare s (u : Int) := by
    intro s u
    unfold cmpSU
    split
    · rename_i h
      rw [← compare_nat_int, Int.toNat_of_nonneg h]
    · rename_i h
      have : s < (u : Int) := by omega
      simp [compare, compareOfLessAndEq, this]
  cases a <;> cases b <;> simp only [FullInt.cmp, FullInt.toInt]
  · exact su _ _
  · rw [su]
    exact (Std.OrientedCmp.eq_swap (cmp := (compare : Int → Int → Ordering))).symm
  · exact (compare_nat_int _ _).symm

example : (FullInt.u 5).cmp (.s (-1)) = .gt ∧ (FullInt.s 7).cmp (.u 7) = .eq := by decide

/-- **C19 (total order).** `FullInt::cmp` is a total order on the numbers. -/
theorem fullInt_total (a b c : FullInt) :
    (a.cmp b = .eq ↔ a.toInt = b.toInt) ∧ b.cmp a = (a.cmp b).swap ∧
    (a.cmp b ≠ .gt → b.cmp c ≠ .gt → a.cmp c ≠ .gt) := by
  simp only [fullInt_cmp, compare, compareOfLessAndEq]
  refine ⟨?_, ?_, ?_⟩
  · split <;> (try split) <;> simp <;> omega
  · split <;> (try split) <;> (try split) <;> (try split) <;> simp <;> omega
  · split <;> (try split) <;> (try split) <;> (try split) <;> (try split) <;> (try split) <;> simp <;> omega

/-- **C19 (`int_value`).** The `FullInt` of a constant is the value the constant stands for. -/
theorem intValue_sound {S : Sess} (hS : S.Native) {ty : Ty} {c : Constant} {v : Int}
    (h : Rep S ty c (.int v)) : ∃ f, intValue S c ty = some f ∧ f.toInt = v := by
  cases c <;> simp only [Rep] at h
  obtain ⟨t, ht, hv, rfl⟩ := h
  cases ty <;> simp [Ty.it] at ht <;> subst ht
  · rename_i t
    exact ⟨_, rfl, sextW_toBits (by have := t.bounds hS; omega) (t.bounds hS).2.2 hv⟩
  · exact ⟨_, rfl, toBits_unsigned hv⟩

/-- **C19 (`eval_int`).** When `eval_int` gives a number for a well-typed integer expression, the
expression evaluates to that number (literals such as `-128i8` included). -/
theorem evalInt_sound {S : Sess} (hS : S.Native) {consts : String → Option Constant}
    {env : String → Val} {e : Expr} (hw : WT S consts env e) (hs : ShiftsOk S consts e) {f}
    (h : evalInt S consts e = some f) : run S env e = .ok (.int f.toInt) := by
  have gen : ∀ {ty : Ty} {t}, e.ty = ty → ty.it S = some t →
      ((eval S consts e).bind fun c => intValue S c ty) = some f → run S env e = .ok (.int f.toInt) := by
    intro ty t hty ht h
    simp only [Option.bind_eq_some_iff] at h
    obtain ⟨c, hc, h⟩ := h
    obtain ⟨v, hv, hr⟩ := eval_sound_partial hS hw hs hc
    rw [hty] at hr
    cases v with
    | bool b =>
      cases c <;> simp only [Rep] at hr
      rw [hr.1] at ht; simp [Ty.it] at ht
    | int v =>
      obtain ⟨f', hf, hfv⟩ := intValue_sound hS hr
      rw [hf] at h
      simp at h
      rw [hv, ← h, hfv]
  have gen' : (match e.ty with
    | .int t => (eval S consts e).bind fun c => intValue S c (.int t)
    | .uint t => (eval S consts e).bind fun c => intValue S c (.uint t)
    | _ => none) = some f → run S env e = .ok (.int f.toInt) := by
    intro h
    split at h
    · rename_i t ht; exact gen ht rfl h
    · rename_i t ht; exact gen ht rfl h
    · simp at h
  cases e
  case lit n ty => simp [evalInt] at h; subst h; rfl
  case negLit n ty =>
    simp [evalInt] at h
    subst h
    obtain ⟨t, ht, hsg, hn⟩ := hw
    obtain ⟨h8, h128⟩ := Ty.it_bounds hS ht
    have hin : I128.In (-n) := by
      obtain ⟨sg, w⟩ := t
      simp only at hsg
      subst hsg
      exact in_i128 (w := w) (by simp at h8; omega) h128 hn
    have : I128.wrap (-I128.wrap n) = -n := by
      rw [← I128.wrap_of_in (by decide) hin]
      simp only [IT.wrap]
      congr 2
      have h1 := I128.wrap_emod n
      simp only [IT.wrap] at h1
      rw [Int.neg_emod_eq_sub_emod, Int.sub_emod, h1, ← Int.sub_emod, ← Int.neg_emod_eq_sub_emod]
    simp only [run, FullInt.toInt, this]
  all_goals exact gen' h

/-! ### `partial_cmp` -/

theorem lexCmp_replicate {v w : SVal} {n m : Nat} (hn : 0 < n) (hm : 0 < m) {o : Ordering}
    (h : (match v.cmp w with | some .eq => some (compare n m) | o => o) = some o) :
    lexCmp (List.replicate n v) (List.replicate m w) = some o := by
  cases hc : v.cmp w with
  | none => simp [hc] at h
  | some c =>
    cases c with
    | eq =>
      simp only [hc, Option.some.injEq] at h
      subst h
      clear hn hm
      induction n generalizing m with
      | zero => cases m <;> simp [List.replicate, lexCmp, compare, compareOfLessAndEq]
      | succ n ih =>
        cases m with
        | zero => simp [List.replicate, lexCmp, compare, compareOfLessAndEq]
        | succ m =>
          simp only [List.replicate, lexCmp, hc, ih]
          simp [compare, compareOfLessAndEq]
    | lt =>
      obtain ⟨n, rfl⟩ : ∃ k, n = k + 1 := ⟨n - 1, by omega⟩
      obtain ⟨m, rfl⟩ : ∃ k, m = k + 1 := ⟨m - 1, by omega⟩
      simp only [hc] at h
      simp [List.replicate, lexCmp, hc]; simpa using h
    | gt =>
      obtain ⟨n, rfl⟩ : ∃ k, n = k + 1 := ⟨n - 1, by omega⟩
      obtain ⟨m, rfl⟩ : ∃ k, m = k + 1 := ⟨m - 1, by omega⟩
      simp only [hc] at h
      simp [List.replicate, lexCmp, hc]; simpa using h

mutual
/-- **C19 (`Constant::partial_cmp`).** When clippy orders two constants of a type, that is the order of the
values they stand for.  Missing: arrays written `[x; 0]` (see `empty_repeat`). -/
theorem partialCmp_partial {S : Sess} (hS : S.Native) : ∀ (a b : Constant) (ty : Ty) {x y : SVal} {o : Ordering},
    NoEmptyRepeat a → NoEmptyRepeat b → denote S ty a = some x → denote S ty b = some y →
    partialCmp S ty a b = some (some o) → x.cmp y = some o
  | .int l, .int r, ty, x, y, o, _, _, hx, hy, h => by
      cases ty <;> simp [denote] at hx hy <;> subst hx hy
      · rename_i t
        have hb := t.bounds hS
        simp only [partialCmp, sext, sextW_eq (show 0 < t.targetBits S by omega) hb.2.2, Option.some.injEq] at h
        simpa [SVal.cmp] using h
      · simp only [partialCmp, Option.some.injEq] at h
        simpa [SVal.cmp, compare_nat_int] using h
  | .bool l, .bool r, ty, x, y, o, _, _, hx, hy, h => by
      cases ty <;> simp [denote] at hx hy
      subst hx hy
      simpa [partialCmp, SVal.cmp] using h
  | .char l, .char r, ty, x, y, o, _, _, hx, hy, h => by
      cases ty <;> simp [denote] at hx hy
      subst hx hy
      simpa [partialCmp, SVal.cmp] using h
  | .str l, .str r, ty, x, y, o, _, _, hx, hy, h => by
      have : x = .str l ∧ y = .str r := by
        unfold denote at hx hy
        split at hx <;> simp_all
      obtain ⟨rfl, rfl⟩ := this
      simpa [partialCmp, SVal.cmp] using h
  | .ref l, .ref r, ty, x, y, o, hn1, hn2, hx, hy, h => by
      cases ty
      case ref t =>
        rw [denote] at hx hy
        simp only [partialCmp] at h
        exact partialCmp_partial hS l r t hn1 hn2 hx hy h
      all_goals simp [denote] at hx
  | .tuple l, .tuple r, ty, x, y, o, hn1, hn2, hx, hy, h => by
      cases ty <;> simp [denote] at hx hy
      rename_i ts
      obtain ⟨xs, hxs, rfl⟩ := hx
      obtain ⟨ys, hys, rfl⟩ := hy
      simp only [partialCmp] at h
      split at h
      · split at h
        · simp only [SVal.cmp]
          exact cmpTuple_partial hS l r ts hn1 hn2 hxs hys h
        · simp at h
      · simp at h
  | .vec l, .vec r, ty, x, y, o, hn1, hn2, hx, hy, h => by
      cases ty <;> simp [denote] at hx hy
      rename_i t
      obtain ⟨xs, hxs, rfl⟩ := hx
      obtain ⟨ys, hys, rfl⟩ := hy
      simp only [partialCmp] at h
      simp only [SVal.cmp]
      exact cmpVec_partial hS l r t hn1 hn2 hxs hys h
  | .rep lv ls, .rep rv rs, ty, x, y, o, hn1, hn2, hx, hy, h => by
      cases ty <;> simp [denote] at hx hy
      rename_i t
      obtain ⟨v, hv, rfl⟩ := hx
      obtain ⟨w, hw, rfl⟩ := hy
      simp only [NoEmptyRepeat] at hn1 hn2
      simp only [partialCmp] at h
      simp only [SVal.cmp]
      apply lexCmp_replicate hn1.1 hn2.1
      cases hp : partialCmp S t lv rv with
      | none => simp [hp] at h
      | some p =>
        cases p with
        | none => simp [hp] at h
        | some p =>
          have := partialCmp_partial hS lv rv t hn1.2 hn2.2 hv hw hp
          rw [this]
          cases p <;> simpa [hp] using h
  | .int _, .bool _, _, _, _, _, _, _, _, _, h | .int _, .char _, _, _, _, _, _, _, _, _, h
  | .int _, .str _, _, _, _, _, _, _, _, _, h | .int _, .vec _, _, _, _, _, _, _, _, _, h
  | .int _, .tuple _, _, _, _, _, _, _, _, _, h | .int _, .rep _ _, _, _, _, _, _, _, _, _, h
  | .int _, .ref _, _, _, _, _, _, _, _, _, h
  | .bool _, .int _, _, _, _, _, _, _, _, _, h | .bool _, .char _, _, _, _, _, _, _, _, _, h
  | .bool _, .str _, _, _, _, _, _, _, _, _, h | .bool _, .vec _, _, _, _, _, _, _, _, _, h
  | .bool _, .tuple _, _, _, _, _, _, _, _, _, h | .bool _, .rep _ _, _, _, _, _, _, _, _, _, h
  | .bool _, .ref _, _, _, _, _, _, _, _, _, h
  | .char _, .int _, _, _, _, _, _, _, _, _, h | .char _, .bool _, _, _, _, _, _, _, _, _, h
  | .char _, .str _, _, _, _, _, _, _, _, _, h | .char _, .vec _, _, _, _, _, _, _, _, _, h
  | .char _, .tuple _, _, _, _, _, _, _, _, _, h | .char _, .rep _ _, _, _, _, _, _, _, _, _, h
  | .char _, .ref _, _, _, _, _, _, _, _, _, h
  | .str _, .int _, _, _, _, _, _, _, _, _, h | .str _, .bool _, _, _, _, _, _, _, _, _, h
  | .str _, .char _, _, _, _, _, _, _, _, _, h | .str _, .vec _, _, _, _, _, _, _, _, _, h
  | .str _, .tuple _, _, _, _, _, _, _, _, _, h | .str _, .rep _ _, _, _, _, _, _, _, _, _, h
  | .str _, .ref _, _, _, _, _, _, _, _, _, h
  | .vec _, .int _, _, _, _, _, _, _, _, _, h | .vec _, .bool _, _, _, _, _, _, _, _, _, h
  | .vec _, .char _, _, _, _, _, _, _, _, _, h | .vec _, .str _, _, _, _, _, _, _, _, _, h
  | .vec _, .tuple _, _, _, _, _, _, _, _, _, h | .vec _, .rep _ _, _, _, _, _, _, _, _, _, h
  | .vec _, .ref _, _, _, _, _, _, _, _, _, h
  | .tuple _, .int _, _, _, _, _, _, _, _, _, h | .tuple _, .bool _, _, _, _, _, _, _, _, _, h
  | .tuple _, .char _, _, _, _, _, _, _, _, _, h | .tuple _, .str _, _, _, _, _, _, _, _, _, h
  | .tuple _, .vec _, _, _, _, _, _, _, _, _, h | .tuple _, .rep _ _, _, _, _, _, _, _, _, _, h
  | .tuple _, .ref _, _, _, _, _, _, _, _, _, h
  | .rep _ _, .int _, _, _, _, _, _, _, _, _, h | .rep _ _, .bool _, _, _, _, _, _, _, _, _, h
  | .rep _ _, .char _, _, _, _, _, _, _, _, _, h | .rep _ _, .str _, _, _, _, _, _, _, _, _, h
  | .rep _ _, .vec _, _, _, _, _, _, _, _, _, h | .rep _ _, .tuple _, _, _, _, _, _, _, _, _, h
  | .rep _ _, .ref _, _, _, _, _, _, _, _, _, h
  | .ref _, .int _, _, _, _, _, _, _, _, _, h | .ref _, .bool _, _, _, _, _, _, _, _, _, h
  | .ref _, .char _, _, _, _, _, _, _, _, _, h | .ref _, .str _, _, _, _, _, _, _, _, _, h
  | .ref _, .vec _, _, _, _, _, _, _, _, _, h | .ref _, .tuple _, _, _, _, _, _, _, _, _, h
  | .ref _, .rep _ _, _, _, _, _, _, _, _, _, h => by simp [partialCmp] at h

theorem cmpTuple_partial {S : Sess} (hS : S.Native) : ∀ (l r : List Constant) (ts : List Ty) {x y : List SVal} {o : Ordering},
    NoEmptyRepeats l → NoEmptyRepeats r → denoteTuple S ts l = some x → denoteTuple S ts r = some y →
    cmpTuple S ts l r = some (some o) → lexCmp x y = some o
  | [], r, ts, x, y, o, _, _, hx, hy, h => by
      cases ts <;> simp [denoteTuple] at hx
      subst hx
      cases r <;> simp [denoteTuple] at hy
      subst hy
      simpa [cmpTuple, lexCmp] using h
  | a :: l, r, ts, x, y, o, hn1, hn2, hx, hy, h => by
      cases ts with
      | nil => simp [denoteTuple] at hx
      | cons t ts =>
        cases r with
        | nil => simp [denoteTuple] at hy
        | cons b r =>
          simp only [NoEmptyRepeats] at hn1 hn2
          simp only [denoteTuple] at hx hy
          split at hx <;> simp at hx
          split at hy <;> simp at hy
          subst hx hy
          rename_i v vs h1 h2 _ _ w ws h3 h4
          simp only [cmpTuple] at h
          simp only [lexCmp]
          cases hp : partialCmp S t a b with
          | none => simp [hp] at h
          | some p =>
            cases p with
            | none => simp [hp] at h
            | some p =>
              have e := partialCmp_partial hS a b t hn1.1 hn2.1 h1 h3 hp
              rw [e]
              cases p
              · simpa [hp] using h
              · rw [hp] at h
                exact cmpTuple_partial hS l r ts hn1.2 hn2.2 h2 h4 h
              · simpa [hp] using h

theorem cmpVec_partial {S : Sess} (hS : S.Native) : ∀ (l r : List Constant) (t : Ty) {x y : List SVal} {o : Ordering},
    NoEmptyRepeats l → NoEmptyRepeats r → denoteVec S t l = some x → denoteVec S t r = some y →
    cmpVec S t l r = some (some o) → lexCmp x y = some o
  | [], r, t, x, y, o, _, _, hx, hy, h => by
      simp [denoteVec] at hx
      subst hx
      cases r with
      | nil =>
        simp [denoteVec] at hy
        subst hy
        simpa [cmpVec, lexCmp] using h
      | cons b r =>
        simp only [denoteVec] at hy
        split at hy <;> simp at hy
        subst hy
        simpa [cmpVec, lexCmp, compare, compareOfLessAndEq] using h
  | a :: l, [], t, x, y, o, hn1, hn2, hx, hy, h => by
      simp only [denoteVec] at hx hy
      split at hx <;> simp at hx hy
      subst hx hy
      simpa [cmpVec, lexCmp, compare, compareOfLessAndEq] using h
  | a :: l, b :: r, t, x, y, o, hn1, hn2, hx, hy, h => by
      simp only [NoEmptyRepeats] at hn1 hn2
      simp only [denoteVec] at hx hy
      split at hx <;> simp at hx
      split at hy <;> simp at hy
      subst hx hy
      rename_i v vs h1 h2 _ _ w ws h3 h4
      simp only [cmpVec] at h
      simp only [lexCmp]
      cases hp : partialCmp S t a b with
      | none => simp [hp] at h
      | some p =>
        cases p with
        | none => simp [hp] at h
        | some p =>
          have e := partialCmp_partial hS a b t hn1.1 hn2.1 h1 h3 hp
          rw [e]
          cases p
          · simpa [hp] using h
          · rw [hp] at h
            exact cmpVec_partial hS l r t hn1.2 hn2.2 h2 h4 h
          · simpa [hp] using h
end

/-- `(-1i8, [3u8; 4])` and `(1i8, [2u8; 4])`. -/
example :
    let ty : Ty := .tuple [.int .i8, .array (.uint .u8)]
    let a : Constant := .tuple [.int 255, .rep (.int 3) 4]
    let b : Constant := .tuple [.int 1, .rep (.int 2) 4]
    partialCmp native64 ty a b = some (some .lt) ∧ NoEmptyRepeat a ∧ NoEmptyRepeat b ∧
      (denote native64 ty a).isSome ∧ (denote native64 ty b).isSome := by
  refine ⟨by decide +kernel, ?_, ?_, by decide +kernel, by decide +kernel⟩ <;>
    simp [NoEmptyRepeat, NoEmptyRepeats]

/-- Violation of C19: the empty arrays `[1u8; 0]` and `[2u8; 0]` are equal, but `partial_cmp` says the
first is smaller. -/
theorem empty_repeat :
    let ty : Ty := .array (.uint .u8)
    partialCmp native64 ty (.rep (.int 1) 0) (.rep (.int 2) 0) = some (some .lt) ∧
    ∃ x y, denote native64 ty (.rep (.int 1) 0) = some x ∧ denote native64 ty (.rep (.int 2) 0) = some y ∧
      x.cmp y = some .eq :=
  ⟨by decide +kernel, .array [], .array [], rfl, rfl, rfl⟩

/-! ### C20: extreme values -/

theorem toBits_inj {t : IT} (h : 0 < t.bits) {a b : Int} (ha : t.In a) (hb : t.In b) :
    t.toBits a = t.toBits b ↔ a = b := by
  constructor
  · intro e
    rw [← t.ofBits_toBits h ha, e, t.ofBits_toBits h hb]
  · intro e; rw [e]

theorem shifted_min {w : Nat} (h0 : 0 < w) (h : w ≤ 128) :
    (-(2 ^ 127) : Int) / 2 ^ (128 - w) = -(2 ^ (w - 1)) := by
  have hp := two_pow_pos (128 - w)
  have e : (2 : Int) ^ 127 = 2 ^ (w - 1) * 2 ^ (128 - w) := by
    rw [← Int.pow_add]; congr 1; omega
  rw [e, ← Int.neg_mul, Int.mul_ediv_cancel _ (by omega)]

theorem shifted_max {w : Nat} (h0 : 0 < w) (h : w ≤ 128) :
    ((2 ^ 127 - 1) : Int) / 2 ^ (128 - w) = 2 ^ (w - 1) - 1 := by
  have hp := two_pow_pos (128 - w)
  have e : (2 : Int) ^ 127 = 2 ^ (w - 1) * 2 ^ (128 - w) := by
    rw [← Int.pow_add]; congr 1; omega
  have : ((2 ^ 127 - 1) : Int) = (2 ^ (128 - w) - 1) + (2 ^ (w - 1) - 1) * 2 ^ (128 - w) := by
    rw [e, Int.sub_mul]; omega
  rw [this, Int.add_mul_ediv_right _ _ (by omega), Int.ediv_eq_zero_of_lt (by omega) (by omega)]
  omega

theorem IT.min_in (t : IT) : t.In t.min := by
  have h1 := two_pow_pos (t.bits - 1)
  have h2 := two_pow_pos t.bits
  unfold IT.In IT.min IT.max
  split <;> omega

theorem IT.max_in (t : IT) : t.In t.max := by
  have h1 := two_pow_pos (t.bits - 1)
  have h2 := two_pow_pos t.bits
  unfold IT.In IT.min IT.max
  split <;> omega

/-- **C20.** The detection used by `absurd_extreme_comparisons` is exact: a constant standing for `v` is
called the minimum (maximum) of its integer type iff `v` is. -/
theorem detectExtreme_iff {S : Sess} (hS : S.Native) {ty : Ty} {t : IT} (ht : ty.it S = some t)
    {c : Constant} {v : Int} (h : Rep S ty c (.int v)) :
    (detectExtreme S ty c = some .minimum ↔ v = t.min) ∧
    (detectExtreme S ty c = some .maximum ↔ v = t.max) := by
  obtain ⟨h8, h128⟩ := Ty.it_bounds hS ht
  cases c <;> simp only [Rep] at h
  obtain ⟨t', ht', hv, rfl⟩ := h
  rw [ht] at ht'
  cases ht'
  have hmin := (toBits_inj (t := t) (by omega) hv (IT.min_in t))
  have hmax := (toBits_inj (t := t) (by omega) hv (IT.max_in t))
  have hne : t.min ≠ t.max := by
    have h1 := two_pow_pos (t.bits - 1)
    have h2 : (1 : Int) < 2 ^ t.bits := by
      have := Nat.one_lt_two_pow (n := t.bits) (by omega)
      exact_mod_cast this
    unfold IT.min IT.max
    split <;> omega
  cases ty <;> simp [Ty.it] at ht <;> subst ht <;> simp only [detectExtreme]
  · rename_i t
    simp only at h8 h128
    rw [shifted_min (by omega) h128, shifted_max (by omega) h128]
    simp only [unsext, unsextW_toBits h128 true]
    simp only [IT.min, IT.max, if_true] at hmin hmax hne ⊢
    rw [← hmin, ← hmax]
    have hx : IT.toBits ⟨true, t.targetBits S⟩ (-(2 ^ (t.targetBits S - 1))) ≠
        IT.toBits ⟨true, t.targetBits S⟩ (2 ^ (t.targetBits S - 1) - 1) := by
      intro e
      exact hne ((toBits_inj (by simp; omega) (IT.min_in ⟨true, t.targetBits S⟩) (IT.max_in ⟨true, t.targetBits S⟩)).1 e)
    constructor
    · split
      · simp_all
      · split <;> simp_all
    · split
      · rename_i e; rw [e]; simp [hx]
      · split <;> simp_all
  · rename_i t
    simp only at h8 h128
    have hb := toBits_unsigned hv
    have hclip : clip S (2 ^ 128 - 1) t = 2 ^ t.targetBits S - 1 := by
      rw [clip, clipW_eq h128]
      have e := npow_split h128
      have hp := Nat.two_pow_pos (128 - t.targetBits S)
      have hw := Nat.two_pow_pos (t.targetBits S)
      obtain ⟨k, hk⟩ : ∃ k, 2 ^ (128 - t.targetBits S) = k + 1 := ⟨2 ^ (128 - t.targetBits S) - 1, by omega⟩
      rw [hk, Nat.mul_add, Nat.mul_one] at e
      have : 2 ^ 128 - 1 = (2 ^ t.targetBits S - 1) + 2 ^ t.targetBits S * k := by omega
      rw [this, Nat.add_mul_mod_self_left, Nat.mod_eq_of_lt (by omega)]
    have cw := cast_two_pow (t.targetBits S)
    have hw := Nat.two_pow_pos (t.targetBits S)
    rw [hclip]
    simp only [IT.min, IT.max, Bool.false_eq_true, if_false] at hne ⊢
    constructor
    · split
      · simp; omega
      · split <;> simp <;> omega
    · split
      · simp; omega
      · split <;> simp <;> omega

example : detectExtreme native64 (.int .i8) (.int 0x80) = some .minimum ∧
    Rep native64 (.int .i8) (.int 0x80) (.int (-128)) :=
  ⟨by decide +kernel, _, rfl, by decide, by decide⟩

/-- **C20 (`is_numeric_min`, `is_numeric_max`).** For unsigned types and for `i128` the classification is
exact.  Missing: the narrower signed types, where `is_numeric_min` never recognises the minimum
(`numeric_min_missed`). -/
theorem isNumeric_partial {S : Sess} (hS : S.Native) {ty : Ty} {t : IT} (ht : ty.it S = some t)
    (hw : t.signed = true → t.bits = 128) {c : Constant} {v : Int} (h : Rep S ty c (.int v)) :
    (isNumericMin S c ty = true ↔ v = t.min) ∧ (isNumericMax S c ty = true ↔ v = t.max) := by
  obtain ⟨h8, h128⟩ := Ty.it_bounds hS ht
  cases c <;> simp only [Rep] at h
  obtain ⟨t', ht', hv, rfl⟩ := h
  rw [ht] at ht'
  cases ht'
  cases ty <;> simp [Ty.it] at ht <;> subst ht <;> simp only [isNumericMin, isNumericMax, decide_eq_true_eq]
  · rename_i t
    have hw := hw rfl
    simp only at hw
    have e : I128.wrap (IT.toBits ⟨true, t.targetBits S⟩ v) = v := by
      rw [hw] at hv ⊢
      show I128.wrap (I128.toBits v) = v
      have h2 : I128.ofBits (I128.toBits v) = v := I128.ofBits_toBits (by decide) hv
      rw [IT.wrap]
      conv => rhs; rw [← h2]
      apply I128.ofBits_congr
      have h3 := I128.toBits_lt v
      have h4 := I128.toBits_cast v
      have : ((I128.toBits v : Nat) : Int) % 2 ^ I128.bits = I128.toBits v := by
        rw [h4, Int.emod_emod]
      rw [this]; simp
    rw [e]
    simp [IT.min, IT.max]
  · rename_i t
    have hb := toBits_unsigned hv
    have cw := cast_two_pow (t.targetBits S)
    have hw := Nat.two_pow_pos (t.targetBits S)
    simp only [IT.min, IT.max, Bool.false_eq_true, if_false]
    omega

example : isNumericMax native64 (.int 255) (.uint .u8) = true ∧
    Rep native64 (.uint .u8) (.int 255) (.int 255) :=
  ⟨by decide, _, rfl, by decide, by decide⟩

/-- **C20 (`is_numeric_max`).** The maximum is recognised exactly, for every integer type. -/
theorem isNumericMax_iff {S : Sess} (hS : S.Native) {ty : Ty} {t : IT} (ht : ty.it S = some t)
    {c : Constant} {v : Int} (h : Rep S ty c (.int v)) : isNumericMax S c ty = true ↔ v = t.max := by
  by_cases hw : t.signed = true → t.bits = 128
  · exact (isNumeric_partial hS ht hw h).2
  have hw1 : t.signed = true := by cases hs : t.signed <;> simp_all
  have hw2 : t.bits ≠ 128 := fun e => hw fun _ => e
  obtain ⟨h8, h128⟩ := Ty.it_bounds hS ht
  cases c <;> simp only [Rep] at h
  obtain ⟨t', ht', hv, rfl⟩ := h
  rw [ht] at ht'
  cases ht'
  have hmax := toBits_inj (t := t) (by omega) hv (IT.max_in t)
  have hl := t.toBits_lt v
  have hle : 2 ^ t.bits ≤ 2 ^ 127 := Nat.pow_le_pow_right (by decide) (by omega)
  have hm : (t.toBits t.max : Int) = 2 ^ (t.bits - 1) - 1 := by
    have hp := two_pow_pos (t.bits - 1)
    have h2 := two_pow_succ (n := t.bits) (by omega)
    rw [t.toBits_cast, IT.max, if_pos hw1, Int.emod_eq_of_lt (by omega) (by omega)]
  cases ty <;> simp [Ty.it] at ht <;> subst ht <;> simp at hw1
  rename_i t
  simp only [isNumericMax, decide_eq_true_eq]
  simp only at hl hle hm
  rw [I128.wrap_of_in (by decide)]
  · rw [← hmax]; omega
  · simp only [IT.In, IT.min, IT.max, I128, if_true]
    have : (2 : Int) ^ (128 - 1) = 170141183460469231731687303715884105728 := by decide
    omega

example : isNumericMax native64 (.int 127) (.int .i8) = true ∧
    Rep native64 (.int .i8) (.int 127) (.int 127) :=
  ⟨by decide +kernel, _, rfl, by decide, by decide⟩

/-- **C20 (violation).** The minimum of `i8`, `i16`, `i32`, `i64` and `isize` is never recognised by
`is_numeric_min`: the zero-extended bits are compared with the sign-extended limit. -/
theorem numeric_min_missed {S : Sess} (hS : S.Native) {t : IntTy} (ht : t ≠ .i128) {c : Constant} {v : Int}
    (h : Rep S (.int t) c (.int v)) : isNumericMin S c (.int t) = false := by
  obtain ⟨hb, h8, h128⟩ := t.bounds hS
  have h64 : t.targetBits S ≤ 64 := by
    obtain ⟨_, h2⟩ := hS
    cases t <;> simp [IntTy.targetBits] at ht ⊢ <;> omega
  cases c <;> simp only [Rep] at h
  obtain ⟨t', ht', hv, rfl⟩ := h
  simp only [Ty.it, Option.some.injEq] at ht'
  subst ht'
  simp only [isNumericMin, decide_eq_false_iff_not]
  have hl := IT.toBits_lt ⟨true, t.targetBits S⟩ v
  simp only at hl
  have hle : 2 ^ t.targetBits S ≤ 2 ^ 64 := Nat.pow_le_pow_right (by decide) h64
  rw [I128.wrap_of_in (by decide)]
  · have := two_pow_pos (t.targetBits S - 1); omega
  · simp only [IT.In, IT.min, IT.max, I128, if_true]
    have : (2 : Int) ^ (128 - 1) = 170141183460469231731687303715884105728 := by decide
    omega

example : Rep native64 (.int .i8) (.int 0x80) (.int (-128)) ∧ (IT.min ⟨true, 8⟩ = -128) :=
  ⟨⟨_, rfl, by decide, by decide⟩, by decide⟩

/-- **C20 (`new_numeric_min`, `new_numeric_max`).** Read back with `int_value`, the constants made for the
extremes of an integer type are those extremes (this is how they are used). -/
theorem newNumeric_value {S : Sess} (hS : S.Native) {ty : Ty} {t : IT} (ht : ty.it S = some t) :
    (∃ c f, newNumericMin S ty = some c ∧ intValue S c ty = some f ∧ f.toInt = t.min) ∧
    (∃ c f, newNumericMax S ty = some c ∧ intValue S c ty = some f ∧ f.toInt = t.max) := by
  obtain ⟨h8, h128⟩ := Ty.it_bounds hS ht
  have back : ∀ {w : Nat} {v : Int}, 0 < w → w ≤ 128 → IT.In ⟨true, w⟩ v → sextW w (U128.toBits v) = v := by
    intro w v h0 h hv
    rw [sextW_eq h0 h]
    apply IT.emod_inj ⟨true, w⟩ h0 (IT.ofBits_in _ h0 _) hv
    rw [IT.ofBits_emod, IT.toBits_cast]
    exact emod_pow h v
  cases ty <;> simp [Ty.it] at ht <;> subst ht <;> simp only at h8 h128
  · exact ⟨⟨_, _, rfl, rfl, back (by omega) h128 (IT.min_in _)⟩, ⟨_, _, rfl, rfl, back (by omega) h128 (IT.max_in _)⟩⟩
  · rename_i t
    refine ⟨⟨_, _, rfl, rfl, rfl⟩, ⟨_, _, rfl, rfl, ?_⟩⟩
    have cw := cast_two_pow (t.targetBits S)
    have hw := Nat.two_pow_pos (t.targetBits S)
    simp only [IT.max, FullInt.toInt, Bool.false_eq_true, if_false]
    omega

end Verif.Consts
