import Verif.IntLints.Spec

/-! C33: `manual_rotate`. -/

namespace Verif.IntLints
open Verif.RInt

/-! ### Specification -/

/-- `r` is `n` (a pattern of `w` bits) rotated by `k` places: bit `i` goes to bit `i + k` (left) or `i - k`
(right), modulo the width. -/
def IsRotation (w : Nat) (dir : Dir) (n k r : Nat) : Prop :=
  r < 2 ^ w ∧ ∀ i < w, match dir with
    | .left => r.testBit ((i + k) % w) = n.testBit i
    | .right => r.testBit i = n.testBit ((i + k) % w)

/-- The value of an amount. Negative amounts, which are possible in signed types, make the shift panic, as the
subtraction does here. -/
def Amount.eval (σ : Nat → Nat) : Amount → Except Panic Nat
  | .lit n => .ok n
  | .var i => .ok (σ i)
  | .sub m o => (m.eval σ).bind fun a => (o.eval σ).bind fun b => if a < b then .error .overflow else .ok (a - b)
  | .xor m o => (m.eval σ).bind fun a => (o.eval σ).bind fun b => .ok (a ^^^ b)
  | .add m o => (m.eval σ).bind fun a => (o.eval σ).bind fun b => .ok (a + b)

def Dir.run (t : IT) (x : Int) : Dir → Int → Res
  | .left => t.shl x
  | .right => t.shr x

/-- The value of `(x ldir la) op (x rdir ra)`, where `op` is `+` or `|`. -/
def rotateOriginal (t : IT) (σ : Nat → Nat) (plus : Bool) (x : Int) (ldir : Dir) (la : Amount) (rdir : Dir)
    (ra : Amount) : Res :=
  (la.eval σ).bind fun a => (ldir.run t x a).bind fun l =>
  (ra.eval σ).bind fun b => (rdir.run t x b).bind fun r =>
  if plus then t.add l r else .ok (t.or l r)

/-- The constant evaluator is right about amounts. -/
def SoundAmount (σ : Nat → Nat) (constant : Amount → Option Nat) : Prop :=
  ∀ a n v, constant a = some n → a.eval σ = .ok v → v = n

/-! ### Proofs -/

theorem testBit_big {n w i : Nat} (h : n < 2 ^ w) (hi : w ≤ i) : n.testBit i = false :=
  Nat.testBit_lt_two_pow (Nat.lt_of_lt_of_le h (Nat.pow_le_pow_right (by omega) hi))

/-- The bits of `(n << k) | (n >> (w - k))`. -/
theorem rotate_bits {w n k i : Nat} (hk : 0 < k) (hkw : k < w) (hn : n < 2 ^ w) (hi : i < w) :
    (n * 2 ^ k % 2 ^ w ||| n / 2 ^ (w - k)).testBit i =
      if i < k then n.testBit (i + (w - k)) else n.testBit (i - k) := by
  rw [Nat.testBit_or, Nat.testBit_mod_two_pow, ← Nat.shiftLeft_eq, Nat.testBit_shiftLeft,
    ← Nat.shiftRight_eq_div_pow, Nat.testBit_shiftRight]
  by_cases h : i < k
  · have : ¬ i ≥ k := by omega
    simp only [this, decide_false, Bool.false_and, Bool.and_false, Bool.false_or, if_pos h]
    rw [Nat.add_comm]
  · have h2 : n.testBit (w - k + i) = false := testBit_big hn (by omega)
    simp [h, hi, h2]; omega

theorem mod_right {i w : Nat} (h1 : w ≤ i) (h2 : i < 2 * w) : i % w = i - w := by
  rw [Nat.mod_eq_sub_mod h1, Nat.mod_eq_of_lt (by omega)]

theorem rotation_left {w n k : Nat} (hk : 0 < k) (hkw : k < w) (hn : n < 2 ^ w) :
    IsRotation w .left n k (n * 2 ^ k % 2 ^ w ||| n / 2 ^ (w - k)) := by
  refine ⟨Nat.or_lt_two_pow (Nat.mod_lt _ (Nat.two_pow_pos _)) (Nat.lt_of_le_of_lt (Nat.div_le_self _ _) hn), ?_⟩
  intro i hi
  simp only
  rw [rotate_bits hk hkw hn (Nat.mod_lt _ (by omega))]
  by_cases h : i + k < w
  · rw [Nat.mod_eq_of_lt h, if_neg (by omega)]
    congr 1; omega
  · rw [mod_right (by omega) (by omega), if_pos (by omega)]
    congr 1; omega

theorem rotation_right {w n k : Nat} (hk : 0 < k) (hkw : k < w) (hn : n < 2 ^ w) :
    IsRotation w .right n (w - k) (n * 2 ^ k % 2 ^ w ||| n / 2 ^ (w - k)) := by
  refine ⟨Nat.or_lt_two_pow (Nat.mod_lt _ (Nat.two_pow_pos _)) (Nat.lt_of_le_of_lt (Nat.div_le_self _ _) hn), ?_⟩
  intro i hi
  simp only
  rw [rotate_bits hk hkw hn hi]
  by_cases h : i < k
  · rw [if_pos h, Nat.mod_eq_of_lt (by omega)]
  · rw [if_neg h, mod_right (by omega) (by omega)]
    congr 1; omega

/-- The shifted parts do not overlap. -/
theorem add_eq_or {w n k : Nat} (hkw : k < w) (hn : n < 2 ^ w) :
    n * 2 ^ k % 2 ^ w + n / 2 ^ (w - k) = (n * 2 ^ k % 2 ^ w ||| n / 2 ^ (w - k)) := by
  have e : n * 2 ^ k % 2 ^ w = 2 ^ k * (n % 2 ^ (w - k)) := by
    have : 2 ^ w = 2 ^ k * 2 ^ (w - k) := by rw [← Nat.pow_add]; congr 1; omega
    rw [this, Nat.mul_comm n, Nat.mul_mod_mul_left]
  have h : n / 2 ^ (w - k) < 2 ^ k := by
    rw [Nat.div_lt_iff_lt_mul (Nat.two_pow_pos _), ← Nat.pow_add]
    have : k + (w - k) = w := by omega
    rwa [this]
  rw [e, Nat.two_pow_add_eq_or_of_lt h]

/-- The unsigned shifts as operations on bit patterns. -/
theorem shl_ok {t : IT} (hs : t.signed = false) {x : Int} (hx : t.In x) {k : Nat} {v : Int}
    (h : t.shl x k = .ok v) : k < t.bits ∧ v = (t.toBits x * 2 ^ k % 2 ^ t.bits : Nat) := by
  unfold IT.shl at h
  split at h
  · rename_i hk
    injection h with h
    refine ⟨by omega, ?_⟩
    rw [← h, IT.wrap_eq, IT.ofBits]
    simp only [hs, Bool.false_eq_true, false_and, if_false]
    rw [Nat.mod_eq_of_lt (t.toBits_lt _), t.toBits_cast]
    have := toBits_unsigned hs hx
    simp [this]
  · simp at h

theorem shr_ok {t : IT} (hs : t.signed = false) {x : Int} (hx : t.In x) {k : Nat} {v : Int}
    (h : t.shr x k = .ok v) : k < t.bits ∧ v = (t.toBits x / 2 ^ k : Nat) := by
  unfold IT.shr at h
  split at h
  · rename_i hk
    injection h with h
    refine ⟨by omega, ?_⟩
    rw [← h]
    have := toBits_unsigned hs hx
    simp [this]
  · simp at h

/-- The two shifts of the original, combined. -/
theorem combine_ok {t : IT} (hs : t.signed = false) {x : Int} (hx : t.In x) {k : Nat} {plus : Bool}
    {l r v : Int} (hkw : k < t.bits) (hl : l = (t.toBits x * 2 ^ k % 2 ^ t.bits : Nat))
    (hr : r = (t.toBits x / 2 ^ (t.bits - k) : Nat))
    (h : (if plus then t.add l r else .ok (t.or l r)) = .ok v) :
    v = (t.toBits x * 2 ^ k % 2 ^ t.bits ||| t.toBits x / 2 ^ (t.bits - k) : Nat) := by
  have hn := t.toBits_lt x
  cases plus
  · simp only [Bool.false_eq_true, if_false] at h
    injection h with h
    have b1 : t.toBits l = t.toBits x * 2 ^ k % 2 ^ t.bits := by
      have := t.toBits_cast l
      have hlt := Nat.mod_lt (t.toBits x * 2 ^ k) (Nat.two_pow_pos t.bits)
      rw [hl] at this ⊢
      generalize t.toBits x * 2 ^ k % 2 ^ t.bits = q at *
      rw [Int.emod_eq_of_lt (by omega) (by rw [← cast_two_pow]; omega)] at this
      omega
    have b2 : t.toBits r = t.toBits x / 2 ^ (t.bits - k) := by
      have := t.toBits_cast r
      have hlt := Nat.lt_of_le_of_lt (Nat.div_le_self (t.toBits x) (2 ^ (t.bits - k))) hn
      rw [hr] at this ⊢
      generalize t.toBits x / 2 ^ (t.bits - k) = q at *
      rw [Int.emod_eq_of_lt (by omega) (by rw [← cast_two_pow]; omega)] at this
      omega
    rw [← h, IT.or, b1, b2, IT.ofBits]
    simp only [hs, Bool.false_eq_true, false_and, if_false]
    rw [Nat.mod_eq_of_lt]
    exact Nat.or_lt_two_pow (Nat.mod_lt _ (Nat.two_pow_pos _)) (Nat.lt_of_le_of_lt (Nat.div_le_self _ _) hn)
  · simp only [if_true] at h
    have := (checked_ok h).1
    rw [this, hl, hr, ← add_eq_or hkw hn]
    simp

/-- No `minuend ^ s` is taken for `width - s`. -/
def NoXor : Amount → Prop
  | .xor _ _ => False
  | _ => True

theorem or_comm' (t : IT) (a b : Int) : t.or a b = t.or b a := by simp only [IT.or, Nat.or_comm]

/-- Whatever branch is taken, the amounts add up to the width and the result is one of them. -/
theorem rotate_amounts {σ : Nat → Nat} {constant : Amount → Option Nat} (hc : SoundAmount σ constant) {w : Nat}
    {ldir rdir d : Dir} {la ra s : Amount} {a b : Nat} (ha : la.eval σ = .ok a) (hb : ra.eval σ = .ok b)
    (hxl : NoXor la) (hxr : NoXor ra) (hw : b < w) (hw' : a < w)
    (h : manualRotate constant w ldir la rdir ra = some (d, s)) :
    ldir ≠ rdir ∧ a + b = w ∧ ((d = ldir ∧ s = la) ∨ (d = rdir ∧ s = ra)) := by
  have binop : rotateBinop constant w ldir la rdir ra = some (d, s) →
      a + b = w ∧ ((d = ldir ∧ s = la) ∨ (d = rdir ∧ s = ra)) := by
    intro h
    unfold rotateBinop at h
    have fin : ∀ {a1 m a2 : Amount} {op : AOp} {x : Nat} {dir : Dir}, op ≠ .xor → a1.eval σ = .ok x →
        rotateMinuend constant w a1 op m a2 dir = some (d, s) →
        (op = .sub ∧ constant m = some w ∧ a1 = a2) ∧ d = dir ∧ s = a1 := by
      intro a1 m a2 op x dir hop hx h
      unfold rotateMinuend at h
      cases hm : constant m with
      | none => simp [hm] at h
      | some mv =>
        simp only [hm] at h
        split at h
        · rename_i hcond
          simp only [Option.some.injEq, Prod.mk.injEq] at h
          obtain ⟨he, ⟨hsub, hmv⟩ | ⟨hx, _⟩⟩ := hcond
          · exact ⟨⟨hsub, by rw [hmv], he⟩, h.1.symm, h.2.symm⟩
          · exact absurd hx hop
        · simp at h
    have sum : ∀ {m o : Amount} {x y : Nat}, constant m = some w → o.eval σ = .ok x →
        (Amount.sub m o).eval σ = .ok y → x + y = w := by
      intro m o x y hm ho hy
      simp only [Amount.eval] at hy
      obtain ⟨m', hm', hy⟩ := bind_ok hy
      obtain ⟨o', ho', hy⟩ := bind_ok hy
      rw [ho] at ho'
      injection ho' with ho'
      subst ho'
      have := hc m w m' hm hm'
      subst this
      split at hy
      · simp at hy
      · injection hy with hy; omega
    cases ra with
    | sub m o =>
      simp only [Amount.bin?] at h
      obtain ⟨⟨_, hm, rfl⟩, hd, hs⟩ := fin (by simp) ha h
      exact ⟨sum hm ha hb, .inl ⟨hd, hs⟩⟩
    | xor m o => exact absurd hxr (by simp [NoXor])
    | add m o =>
      simp only [Amount.bin?] at h
      obtain ⟨⟨h, _⟩, _⟩ := fin (by simp) ha h
      simp at h
    | lit _ | var _ =>
      cases la with
      | sub m o =>
        simp only [Amount.bin?] at h
        obtain ⟨⟨_, hm, rfl⟩, hd, hs⟩ := fin (by simp) hb h
        have := sum hm hb ha
        exact ⟨by omega, .inr ⟨hd, hs⟩⟩
      | xor m o => exact absurd hxl (by simp [NoXor])
      | add m o =>
        simp only [Amount.bin?] at h
        obtain ⟨⟨h, _⟩, _⟩ := fin (by simp) hb h
        simp at h
      | lit _ | var _ => simp [Amount.bin?] at h
  unfold manualRotate at h
  split at h
  · simp at h
  · rename_i hne
    refine ⟨hne, ?_⟩
    split at h
    · rename_i lv rv hlv hrv
      split at h
      · rename_i hsum
        have := hc _ _ _ hlv ha
        have := hc _ _ _ hrv hb
        refine ⟨by omega, ?_⟩
        split at h
        · simp only [Option.some.injEq, Prod.mk.injEq] at h; exact .inl ⟨h.1.symm, h.2.symm⟩
        · simp only [Option.some.injEq, Prod.mk.injEq] at h; exact .inr ⟨h.1.symm, h.2.symm⟩
      · exact binop h
    · exact binop h

/-- **C33 (partial).** When the lint fires on `(x << a) op (x >> b)` for an unsigned `x` (in either order, with
`|` or `+`) and the original does not panic, its value is `x` rotated in the suggested direction by the
suggested amount. Missing: signed types (`rotate_signed`) and amounts written `31 ^ s` (`rotate_xor`). -/
theorem manualRotate_partial {t : IT} (hs : t.signed = false) {σ : Nat → Nat} {constant : Amount → Option Nat}
    (hc : SoundAmount σ constant) {plus : Bool} {x v : Int} (hx : t.In x) {ldir rdir d : Dir} {la ra s : Amount}
    (hxl : NoXor la) (hxr : NoXor ra) (h : manualRotate constant t.bits ldir la rdir ra = some (d, s))
    (ho : rotateOriginal t σ plus x ldir la rdir ra = .ok v) :
    ∃ k r, s.eval σ = .ok k ∧ v = (r : Nat) ∧ IsRotation t.bits d (t.toBits x) k r := by
  unfold rotateOriginal at ho
  obtain ⟨a, ha, ho1⟩ := bind_ok ho
  obtain ⟨l, hl, ho2⟩ := bind_ok ho1
  obtain ⟨b, hb, ho3⟩ := bind_ok ho2
  obtain ⟨r, hr, ho4⟩ := bind_ok ho3
  clear ho ho1 ho2 ho3
  have hn := t.toBits_lt x
  have lt : ∀ {dir : Dir} {k : Nat} {v : Int}, dir.run t x k = .ok v → k < t.bits := by
    intro dir k v h
    cases dir
    · exact (shl_ok hs hx h).1
    · exact (shr_ok hs hx h).1
  obtain ⟨hne, hsum, hds⟩ := rotate_amounts hc ha hb hxl hxr (lt hr) (lt hl) h
  have la' := lt hl
  have lb' := lt hr
  cases ldir <;> cases rdir <;> simp only [ne_eq, not_true_eq_false] at hne
  · obtain ⟨_, hl⟩ := shl_ok hs hx hl
    obtain ⟨_, hr⟩ := shr_ok hs hx hr
    have eb : b = t.bits - a := by omega
    subst eb
    have hv := combine_ok hs hx la' hl hr ho4
    rcases hds with ⟨rfl, rfl⟩ | ⟨rfl, rfl⟩
    · exact ⟨a, _, ha, hv, rotation_left (by omega) la' hn⟩
    · exact ⟨t.bits - a, _, hb, hv, rotation_right (by omega) la' hn⟩
  · obtain ⟨_, hl⟩ := shr_ok hs hx hl
    obtain ⟨_, hr⟩ := shl_ok hs hx hr
    have eb : a = t.bits - b := by omega
    subst eb
    have ho' : (if plus then t.add r l else .ok (t.or r l)) = .ok v := by
      rw [← ho4, or_comm' t r l, IT.add, IT.add, Int.add_comm]
    have hv := combine_ok hs hx lb' hr hl ho'
    rcases hds with ⟨rfl, rfl⟩ | ⟨rfl, rfl⟩
    · exact ⟨t.bits - b, _, ha, hv, rotation_right (by omega) lb' hn⟩
    · exact ⟨b, _, hb, hv, rotation_left (by omega) lb' hn⟩

/-- Literals only. -/
def litConst : Amount → Option Nat
  | .lit n => some n
  | _ => none

theorem litConst_sound (σ : Nat → Nat) : SoundAmount σ litConst := by
  intro a n v h hv
  cases a <;> simp [litConst] at h
  subst h
  simp [Amount.eval] at hv
  exact hv.symm

/-- `(x << s) | (x >> (8 - s))` with `x = 0x81: u8` and `s = 1`. -/
example :
    manualRotate litConst 8 .left (.var 0) .right (.sub (.lit 8) (.var 0)) = some (.left, .var 0) ∧
    rotateOriginal ⟨false, 8⟩ (fun _ => 1) false 0x81 .left (.var 0) .right (.sub (.lit 8) (.var 0)) = .ok 3 :=
  ⟨by decide, rfl⟩

/-- **C33 (violation).** For `x: i8 = -128`, `(x << 1) | (x >> 7)` is -1 (the right shift keeps the sign), but
`x.rotate_left(1)` is 1. -/
theorem rotate_signed :
    let t : IT := ⟨true, 8⟩
    manualRotate litConst 8 .left (.lit 1) .right (.lit 7) = some (.left, .lit 1) ∧
    rotateOriginal t (fun _ => 0) false (-128) .left (.lit 1) .right (.lit 7) = .ok (-1) ∧
    IsRotation 8 .left (t.toBits (-128)) 1 (t.toBits 1) ∧
    ¬ IsRotation 8 .left (t.toBits (-128)) 1 (t.toBits (-1)) := by
  refine ⟨by decide, rfl, ⟨by decide, by decide⟩, ?_⟩
  intro h
  have := h.2 0 (by omega)
  revert this
  decide

/-- **C33 (violation).** `(x << s) | (x >> (7 ^ s))` is not a rotation of a `u8`: for `x = 0x80` and `s = 0` it is
`0x81`, while `x.rotate_left(0)` is `0x80`. -/
theorem rotate_xor :
    let t : IT := ⟨false, 8⟩
    manualRotate litConst 8 .left (.var 0) .right (.xor (.lit 7) (.var 0)) = some (.left, .var 0) ∧
    rotateOriginal t (fun _ => 0) false 0x80 .left (.var 0) .right (.xor (.lit 7) (.var 0)) = .ok 0x81 ∧
    ¬ IsRotation 8 .left (t.toBits 0x80) 0 (t.toBits 0x81) := by
  refine ⟨by decide, rfl, ?_⟩
  intro h
  have := h.2 0 (by omega)
  revert this
  decide

end Verif.IntLints
