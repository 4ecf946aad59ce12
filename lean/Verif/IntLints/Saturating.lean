import Verif.IntLints.Spec

/-! C32: `implicit_saturating_add` and `implicit_saturating_sub`. -/

namespace Verif.IntLints
open Verif.RInt

/-! ### Specification -/

/-- The value of type `t` nearest to `v`: `saturating_add` and `saturating_sub` give it for the exact sum or
difference. -/
def saturate (t : IT) (v : Int) : Int := if v < t.min then t.min else if t.max < v then t.max else v

/-- The value of `l op r`. -/
def evalCmp (t : IT) (ρ : Nat → Res) (op : Cmp) (l r : E) : Except Panic Bool :=
  (eval t ρ l).bind fun a => (eval t ρ r).bind fun b => .ok (intOrd.holds op a b)

/-- The value of the target `x` after `if c { x += d }`. -/
def condAdd (t : IT) (c : Bool) (x d : Int) : Res := if c then t.checked (x + d) else .ok x

/-- The value of `if l op r { a } else { b }`. -/
def evalIf (t : IT) (ρ : Nat → Res) (op : Cmp) (l r a b : E) : Res :=
  (evalCmp t ρ op l r).bind fun c => if c then eval t ρ a else eval t ρ b

/-- The constant evaluator is right about integers (C18): it gives the bit pattern of the value. -/
def SoundConst (t : IT) (ρ : Nat → Res) (constant : E → Option Nat) : Prop :=
  ∀ e c v, constant e = some c → eval t ρ e = .ok v → t.toBits v = c

/-! ### Proofs -/

theorem holds_int (op : Cmp) (a b : Int) : intOrd.holds op a b = true ↔
    match op with | .eq => a = b | .ne => a ≠ b | .lt => a < b | .le => a ≤ b | .gt => a > b | .ge => a ≥ b := by
  cases op <;> simp only [POrd.holds, intOrd, compare, compareOfLessAndEq] <;>
    (split <;> (try split) <;> simp <;> omega)

theorem min_le_max (t : IT) : t.min ≤ t.max := by
  unfold IT.min IT.max
  have := two_pow_pos t.bits
  have := two_pow_pos (t.bits - 1)
  split <;> omega

theorem max_in (t : IT) : t.In t.max := ⟨min_le_max t, Int.le_refl _⟩
theorem min_in (t : IT) : t.In t.min := ⟨Int.le_refl _, min_le_max t⟩

theorem cond_ok {t : IT} {ρ : Nat → Res} {op : Cmp} {l r : E} {c : Bool} (h : evalCmp t ρ op l r = .ok c) :
    ∃ a b, eval t ρ l = .ok a ∧ eval t ρ r = .ok b ∧ c = intOrd.holds op a b := by
  unfold evalCmp at h
  obtain ⟨a, ha, h⟩ := bind_ok h
  obtain ⟨b, hb, h⟩ := bind_ok h
  injection h with h
  exact ⟨a, b, ha, hb, h.symm⟩

/-- **C32, `implicit_saturating_add`.** When the lint fires on `if l op r { x += 1 }` and the condition evaluates,
then the statement does not overflow and leaves in `x` what `x = x.saturating_add(1)` does. -/
theorem saturatingAdd_sound {t : IT} (h0 : 0 < t.bits) {ρ : Nat → Res} {constant : E → Option Nat}
    (hc : SoundConst t ρ constant) {op : Cmp} {l r target : E} {x : Int} {c : Bool}
    (h : saturatingAdd constant (t.toBits t.max) op l r target = true) (hx : eval t ρ target = .ok x)
    (hin : ∀ e v, e ∈ [l, r, target] → eval t ρ e = .ok v → t.In v) (hcond : evalCmp t ρ op l r = .ok c) :
    condAdd t c x 1 = .ok (saturate t (x + 1)) := by
  obtain ⟨a, b, ha, hb, rfl⟩ := cond_ok hcond
  have xin := hin target x (by simp) hx
  have key : ∀ {k}, (k = true ↔ x < t.max) → condAdd t k x 1 = .ok (saturate t (x + 1)) := by
    intro k hk
    have m := min_le_max t
    unfold condAdd saturate
    cases k
    · have : x = t.max := by have := xin.2; have : ¬ x < t.max := fun h => by simpa using hk.2 h
                             omega
      subst this
      rw [if_neg (by simp), if_neg (by omega), if_pos (by omega)]
    · have hlt := hk.1 rfl
      have h1 := xin.1
      rw [if_pos rfl, if_neg (by omega), if_neg (by omega)]
      unfold IT.checked
      rw [if_pos ⟨by omega, by omega⟩]
  have isMax : ∀ {e v c}, e ∈ [l, r, target] → constant e = some c → eval t ρ e = .ok v → c = t.toBits t.max → v = t.max := by
    intro e v c hm h1 h2 h3
    have h4 := hc e c v h1 h2
    rw [h3] at h4
    apply t.emod_inj h0 (hin _ _ hm h2) (max_in t)
    rw [← t.toBits_cast, ← t.toBits_cast, h4]
  apply key
  have hx2 := xin.2
  unfold saturatingAdd at h
  simp only at h
  cases hr : constant r with
  | some c =>
    simp only [hr, decide_eq_true_eq] at h
    obtain ⟨hop, hmax, rfl⟩ := h
    have := isMax (by simp) hr hb hmax
    rw [hx] at ha
    injection ha with ha
    subst ha this
    rcases hop with rfl | rfl <;> rw [holds_int] <;> simp <;> omega
  | none =>
    simp only [hr] at h
    cases hl : constant l with
    | none => simp [hl] at h
    | some c =>
      simp only [hl] at h
      have fin : (c = t.toBits t.max ∧ r = target) → a = t.max ∧ b = x := by
        rintro ⟨hmax, rfl⟩
        rw [hx] at hb
        injection hb with hb
        exact ⟨isMax (by simp) hl ha hmax, hb.symm⟩
      cases op <;> simp only [decide_eq_true_eq] at h
      case eq => simp at h
      case ne => obtain ⟨rfl, rfl⟩ := fin h.2; rw [holds_int]; simp; omega
      case lt => simp at h
      case le => simp at h
      case gt => obtain ⟨rfl, rfl⟩ := fin h.2; rw [holds_int]
      case ge => simp at h

/-- `if x != u8::MAX { x += 1 }` with `x = 255`. -/
example :
    let t : IT := ⟨false, 8⟩
    let constant : E → Option Nat := fun e => match e with | .lit n => some n | _ => none
    saturatingAdd constant (t.toBits t.max) .ne (.atom 0) (.lit 255) (.atom 0) = true ∧
    evalCmp t (fun _ => .ok 255) .ne (.atom 0) (.lit 255) = .ok false ∧
    (∀ e v, e ∈ [E.atom 0, .lit 255, .atom 0] → eval t (fun _ => .ok 255) e = .ok v → t.In v) ∧
    SoundConst t (fun _ => .ok 255) constant := by
  refine ⟨by decide, rfl, ?_, ?_⟩
  · intro e v he hv
    have : v = 255 := by
      simp only [List.mem_cons, List.not_mem_nil, or_false] at he
      rcases he with rfl | rfl | rfl
      · injection hv with hv; exact hv.symm
      · exact lit_ok hv
      · injection hv with hv; exact hv.symm
    subst this
    decide
  intro e c v h hv
  simp only at h
  split at h
  · injection h with h
    subst h
    have := checked_ok hv
    obtain ⟨rfl, h1, h2⟩ := this
    simp [IT.max] at h2
    simp [IT.toBits]; omega
  · simp at h

/-- The value of the number a variable is compared with. -/
def Num.val (t : IT) : Num → Option Int
  | .lit n => some n
  | .min => some t.min
  | .other => none

/-- **C32, `implicit_saturating_sub` without `else`.** When the lint fires on `if x op n { x -= 1 }` (or with the
operands exchanged), the statement does not overflow and leaves in `x` what `x = x.saturating_sub(1)` does. -/
theorem condCheck_sound {t : IT} {op : Cmp} {varLeft : Bool} {num : Num} {n x : Int}
    (h : condCheck t.signed op varLeft num = true) (hn : num.val t = some n) (hx : t.In x) :
    condAdd t (if varLeft then intOrd.holds op x n else intOrd.holds op n x) x (-1) =
      .ok (saturate t (x - 1)) := by
  have key : ∀ {k}, (k = true ↔ t.min < x) → condAdd t k x (-1) = .ok (saturate t (x - 1)) := by
    intro k hk
    have m := min_le_max t
    have h1 := hx.1
    have h2 := hx.2
    unfold condAdd saturate
    cases k
    · have : x = t.min := by have : ¬ t.min < x := fun h => by simpa using hk.2 h
                             omega
      subst this
      rw [if_neg (by simp), if_pos (by omega)]
    · have hlt := hk.1 rfl
      rw [if_pos rfl, if_neg (by omega), if_neg (by omega)]
      unfold IT.checked
      rw [if_pos ⟨by omega, by omega⟩]
      rfl
  unfold condCheck at h
  simp only [Bool.and_eq_true] at h
  obtain ⟨hop, hnum⟩ := h
  have hmin : n = t.min := by
    unfold numCheck at hnum
    split at hnum
    · simp at hnum
      simp [Num.val] at hn
      rw [min_unsigned hnum]; exact hn.symm
    · simp [Num.val] at hn; exact hn.symm
    · simp at hnum
  subst hmin
  apply key
  have h1 := hx.1
  cases varLeft
  · simp only [Bool.false_eq_true, if_false, decide_eq_true_eq] at hop ⊢
    rcases hop with rfl | rfl <;> rw [holds_int] <;> simp <;> omega
  · simp only [if_true, decide_eq_true_eq] at hop ⊢
    rcases hop with rfl | rfl <;> rw [holds_int] <;> simp <;> omega

example : condCheck false .gt true (.lit 0) = true ∧ condCheck true .ne false .min = true ∧
    condCheck true .gt true (.lit 0) = false := by decide

/-- **C32 (violation).** The suggestion prints only the first segment of the path of the target: for
`if m::COUNT > 0 { m::COUNT -= 1 }` it assigns to `m`. -/
theorem path_truncated :
    (∀ s, printedPath [s] = some ("::".intercalate [s])) ∧
    printedPath ["m", "COUNT"] = some "m" ∧ "::".intercalate ["m", "COUNT"] = "m::COUNT" :=
  ⟨fun _ => rfl, rfl, rfl⟩

/-- What is said about `if cond { ifB } else { elseB }`: `big.saturating_sub(little)` is a replacement, or
(`inverted`) the branch that subtracts panics for all values for which it is taken, except equal ones. -/
def SubLint.Says (t : IT) (ρ : Nat → Res) (orig : Res) : SubLint → Prop
  | .saturating big little => ∃ b l, eval t ρ big = .ok b ∧ eval t ρ little = .ok l ∧
      orig = .ok (saturate t (b - l))
  | .inverted big little => ∃ b l, eval t ρ big = .ok b ∧ eval t ρ little = .ok l ∧
      (l < b → orig = .error .overflow) ∧ (b < l → orig = .ok 0)

theorem checkSub_says {t : IT} (hs : t.signed = false) {ρ : Nat → Res} {big little ifB elseB : E}
    {s : SubLint} (h : checkSub big little ifB elseB = some s) {b l : Int} (hb : eval t ρ big = .ok b)
    (hl : eval t ρ little = .ok l) (bin : t.In b) (lin : t.In l) {c : Bool}
    (hgt : l < b → c = true) (hlt : b < l → c = false) :
    s.Says t ρ (if c then eval t ρ ifB else eval t ρ elseB) := by
  unfold checkSub at h
  split at h
  · rename_i he
    have he := isLit_eq he
    subst he
    have z : eval t ρ (.lit 0) = .ok 0 := by
      simp only [eval, IT.checked]
      rw [if_pos]
      · rfl
      · have := two_pow_pos t.bits
        exact ⟨by rw [min_unsigned hs]; simp, by rw [max_unsigned hs]; simp; omega⟩
    have b1 := bin.1
    have b2 := bin.2
    have l1 := lin.1
    have l2 := lin.2
    have m0 := min_unsigned hs
    split at h
    · rename_i x y
      split at h
      · rename_i hxy
        obtain ⟨rfl, rfl⟩ := hxy
        injection h with h
        subst h
        refine ⟨b, l, hb, hl, ?_⟩
        have sub : eval t ρ (.bin .sub x y) = t.checked (b - l) := by
          simp only [eval, hb, hl, Except.bind, Op.run, IT.sub]
        rw [sub, z]
        unfold saturate
        cases c
        · have hle : b ≤ l := by
            rcases Int.lt_or_le l b with h | h
            · simpa using hgt h
            · exact h
          rw [if_neg (by simp)]
          split
          · rw [m0]
          · rw [if_neg (by omega)]; congr 1; omega
        · have hle : l ≤ b := by
            rcases Int.lt_or_le b l with h | h
            · simpa using hlt h
            · exact h
          rw [if_pos rfl, if_neg (by omega), if_neg (by omega)]
          unfold IT.checked
          rw [if_pos ⟨by omega, by omega⟩]
      · split at h
        · rename_i hxy
          obtain ⟨rfl, rfl⟩ := hxy
          injection h with h
          subst h
          refine ⟨b, l, hb, hl, ?_, ?_⟩
          · intro hlt'
            rw [hgt hlt']
            simp only [if_true, eval, hb, hl, Except.bind, Op.run, IT.sub, IT.checked]
            rw [if_neg]
            intro h
            have := h.1
            omega
          · intro hlt'
            rw [hlt hlt']
            simpa using z
        · simp at h
    · simp at h
  · simp at h

theorem checkSubtraction_says {t : IT} (hs : t.signed = false) {ρ : Nat → Res}
    {big little ifB elseB : E} {s : SubLint} (h : checkSubtraction big little ifB elseB = some s) {b l : Int}
    (hb : eval t ρ big = .ok b) (hl : eval t ρ little = .ok l) (bin : t.In b) (lin : t.In l) {c : Bool}
    (hgt : l < b → c = true) (hlt : b < l → c = false) :
    s.Says t ρ (if c then eval t ρ ifB else eval t ρ elseB) := by
  unfold checkSubtraction at h
  split at h
  · split at h
    · simp at h
    · have := checkSub_says hs (c := !c) h hl hb lin bin (by simpa using hlt) (by simpa using hgt)
      cases c <;> simpa using this
  · exact checkSub_says hs h hb hl bin lin hgt hlt

/-- **C32, `implicit_saturating_sub` with `else`.** When the lint fires on `if l op r { .. } else { .. }` over
unsigned operands, the conditional has the value of the suggested `saturating_sub` (and does not overflow);
when it calls the check inverted, the conditional overflows whenever the operands differ and the subtraction is
reached. -/
theorem manualCheck_sound {t : IT} {ρ : Nat → Res} {op : Cmp} {l r ifB elseB : E} {s : SubLint}
    (h : manualCheck t.signed op l r ifB elseB = some s) {a b : Int} (ha : eval t ρ l = .ok a)
    (hb : eval t ρ r = .ok b) (ain : t.In a) (bin : t.In b) : s.Says t ρ (evalIf t ρ op l r ifB elseB) := by
  have e : evalIf t ρ op l r ifB elseB =
      if intOrd.holds op a b then eval t ρ ifB else eval t ρ elseB := by
    simp only [evalIf, evalCmp, ha, hb, Except.bind]
  rw [e]
  unfold manualCheck at h
  split at h
  · simp at h
  · rename_i hs
    have hs : t.signed = false := by simpa using hs
    have f : ∀ {p : Bool}, ¬ p = true → p = false := by intro p; cases p <;> simp
    cases op <;> simp only at h <;> (try (simp at h; done))
    case gt | ge =>
      apply checkSubtraction_says hs h ha hb ain bin
      · intro h; rw [holds_int]; simp; omega
      · intro h; apply f; rw [holds_int]; simp; omega
    case lt | le =>
      apply checkSubtraction_says hs h hb ha bin ain
      · intro h; rw [holds_int]; simp; omega
      · intro h; apply f; rw [holds_int]; simp; omega

/-- `if a < b { 0 } else { a - b }` is `a.saturating_sub(b)`. -/
example : manualCheck false .lt (.atom 0) (.atom 1) (.lit 0) (.bin .sub (.atom 0) (.atom 1)) =
    some (.saturating (.atom 0) (.atom 1)) ∧
    manualCheck false .gt (.atom 0) (.atom 1) (.bin .sub (.atom 1) (.atom 0)) (.lit 0) =
    some (.inverted (.atom 0) (.atom 1)) := by decide

end Verif.IntLints
