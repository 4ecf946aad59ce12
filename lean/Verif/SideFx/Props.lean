import Verif.SideFx.Model
import Verif.SideFx.Spec

/-!
# C77: arithmetic that is not reported does not panic
-/

namespace Verif.SideFx

open Verif.RInt

/-! ### Integers -/

theorem tmod_in {t : IT} {a b : Int} (ha : t.In a) : t.In (a.tmod b) := by
  have hmin : t.min ≤ 0 := by
    unfold IT.min; split
    · have := two_pow_pos (t.bits - 1); omega
    · omega
  have hmax : 0 ≤ t.max := by
    unfold IT.max
    have := two_pow_pos (t.bits - 1)
    have := two_pow_pos t.bits
    split <;> omega
  obtain ⟨h1, h2⟩ := ha
  have hle : (a.tmod b).natAbs ≤ a.natAbs := by rw [Int.natAbs_tmod]; exact Nat.mod_le _ _
  rcases Int.le_total 0 a with h | h
  · have p : 0 ≤ a.tmod b := Int.tmod_nonneg b h
    exact ⟨by omega, by omega⟩
  · have p : 0 ≤ (-a).tmod b := Int.tmod_nonneg b (by omega)
    rw [Int.neg_tmod] at p
    exact ⟨by omega, by omega⟩
theorem shr_in {t : IT} {a : Int} (ha : t.In a) (n : Nat) : t.In (a / 2 ^ n) := by
  have hmin : t.min ≤ 0 := by
    unfold IT.min; split
    · have := two_pow_pos (t.bits - 1); omega
    · omega
  have hmax : 0 ≤ t.max := by
    unfold IT.max
    have := two_pow_pos (t.bits - 1)
    have := two_pow_pos t.bits
    split <;> omega
  obtain ⟨h1, h2⟩ := ha
  have hp := two_pow_pos n
  have e := Int.emod_add_mul_ediv a (2 ^ n)
  have l := Int.emod_nonneg a (Int.ne_of_gt hp)
  rcases Int.le_total 0 a with h | h
  · have p : 0 ≤ a / 2 ^ n := Int.ediv_nonneg h (by omega)
    have q : a / 2 ^ n ≤ a := Int.ediv_le_self _ h
    exact ⟨by omega, by omega⟩
  · have p : a / 2 ^ n ≤ 0 := by
      have := Int.ediv_le_ediv hp h; simpa using this
    have q : a ≤ a / 2 ^ n := by
      rw [Int.le_ediv_iff_mul_le hp]
      have : a * 2 ^ n ≤ a * 1 := Int.mul_le_mul_of_nonpos_left h (by omega)
      omega
    exact ⟨by omega, by omega⟩

section
variable {P : Platform} {Γ : Nat → Ty}

theorem bits_ge (hP : P.Usual) (t : ITy) : 8 ≤ (t.it P).bits := by
  have h := hP.bits
  unfold ITy.it Width.bits
  dsimp only
  split <;> omega

theorem toBits_small {t : IT} (h : 8 ≤ t.bits) {n : Nat} (hn : t.In n) : t.toBits n = n := by
  unfold IT.toBits
  have : (n : Int) < 2 ^ t.bits := by
    have h2 := hn.2
    unfold IT.max at h2
    have e := two_pow_succ (n := t.bits) (by omega)
    have p := two_pow_pos (t.bits - 1)
    split at h2 <;> omega
  rw [Int.emod_eq_of_lt (by omega) this]; simp

theorem one_in {t : IT} (h : 8 ≤ t.bits) : t.In 1 := by
  unfold IT.In IT.min IT.max
  have p := two_pow_pos (t.bits - 1)
  have e := two_pow_succ (n := t.bits) (by omega)
  have p2 : (2 : Int) ^ (t.bits - 1) = 2 * 2 ^ (t.bits - 1 - 1) := two_pow_succ (by omega)
  have p3 := two_pow_pos (t.bits - 1 - 1)
  split <;> omega

theorem zero_in (t : IT) : t.In 0 := by
  unfold IT.In IT.min IT.max
  have p := two_pow_pos (t.bits - 1)
  have p2 := two_pow_pos t.bits
  split <;> omega

/-- Small bit patterns stand for themselves. -/
theorem bits_eq {t : IT} (h : 8 ≤ t.bits) {v : Int} (hv : t.In v) {n : Nat} (hn : t.In n)
    (e : t.toBits v = n) : v = n := by
  rw [← t.ofBits_toBits (by omega) hv, e, ← toBits_small h hn, t.ofBits_toBits (by omega) hn]
  rw [toBits_small h hn]

theorem bits_unsigned {t : IT} (hs : t.signed = false) {v : Int} (hv : t.In v) :
    ((t.toBits v : Nat) : Int) = v := by
  rw [t.toBits_cast]
  unfold IT.In IT.min IT.max at hv
  simp only [hs] at hv
  exact Int.emod_eq_of_lt (by simpa using hv.1) (by have := hv.2; simp at this; omega)

theorem in_unsigned {t : IT} (hs : t.signed = false) {v : Int} : t.In v ↔ 0 ≤ v ∧ v < 2 ^ t.bits := by
  unfold IT.In IT.min IT.max
  simp only [hs, Bool.false_eq_true, if_false]
  omega

theorem in_signed {t : IT} (hs : t.signed = true) {v : Int} :
    t.In v ↔ -2 ^ (t.bits - 1) ≤ v ∧ v < 2 ^ (t.bits - 1) := by
  unfold IT.In IT.min IT.max
  simp only [hs, if_true]
  omega

theorem wrap_le {t : IT} (hs : t.signed = false) {v : Int} (hv : 0 ≤ v) : 0 ≤ t.wrap v ∧ t.wrap v ≤ v := by
  have e : t.wrap v = v % 2 ^ t.bits := by
    rw [t.wrap_eq]
    unfold IT.ofBits
    simp only [hs, Bool.false_eq_true, false_and, if_false]
    rw [Nat.mod_eq_of_lt (t.toBits_lt v), t.toBits_cast]
  rw [e]
  have p := two_pow_pos t.bits
  have q : 0 ≤ 2 ^ t.bits * (v / 2 ^ t.bits) := Int.mul_nonneg (by omega) (Int.ediv_nonneg hv (by omega))
  have r := Int.emod_add_mul_ediv v (2 ^ t.bits)
  exact ⟨Int.emod_nonneg _ (Int.ne_of_gt p), by omega⟩

/-! ### Values belong to their types -/

theorem checked_in {t : IT} {x v : Int} (h : t.checked x = .ok v) : t.In v := by
  unfold IT.checked at h
  split at h
  next hi => cases h; exact hi
  next => cases h

theorem intOp_in (hP : P.Usual) {s : ITy} {op : BinOp} (ho : ∀ n, op ≠ .other n) {a b u v : Int}
    (ha : (s.it P).In a) (h : intOp (s.it P) u op a b = .ok v) : (s.it P).In v := by
  cases op with
  | add => exact checked_in h
  | sub => exact checked_in h
  | mul => exact checked_in h
  | div =>
    simp only [intOp, IT.div] at h
    split at h
    · cases h
    · exact checked_in h
  | rem =>
    simp only [intOp, IT.rem] at h
    split at h
    · cases h
    · split at h
      · cases h; exact tmod_in ha
      · cases h
  | shl =>
    simp only [intOp, IT.shl] at h
    split at h
    · cases h; exact IT.wrap_in _ (by have := bits_ge hP s; omega) _
    · cases h
  | shr =>
    simp only [intOp, IT.shr] at h
    split at h
    · cases h; exact shr_in ha _
    · cases h
  | other n => exact absurd rfl (ho n)

theorem native_int {ta tb : Ty} {s : ITy} (h : native ta tb = .int s) :
    ta = .int s ∧ ((∃ s', tb = .int s') ∨ ∃ s', tb = .nonZero s') := by
  unfold native at h
  split at h <;> cases h
  · exact ⟨rfl, .inl ⟨_, rfl⟩⟩
  · exact ⟨rfl, .inr ⟨_, rfl⟩⟩

theorem native_wrap {ta tb : Ty} (h : native ta tb = .wrap) : ta = .wrapLike := by
  unfold native at h
  split at h <;> first | rfl | (exact absurd h (by intro h; cases h))

theorem evalBin_ty (hP : P.Usual) {ρ : State} (ht : Typed P Γ ρ) {op : BinOp} {ta tb t : Ty}
    {a b u v : Int} (hw : opTyped op t ta tb) (ha : HasTy P ta a) (hu : HasTy P t u)
    (h : evalBin P ρ op ta tb t a b u = .ok v) : HasTy P t v := by
  unfold evalBin at h
  split at h
  next s hn =>
    obtain ⟨rfl, _⟩ := native_int hn
    by_cases ho : ∀ n, op ≠ .other n
    · rw [hw.1 ho s hn]; exact intOp_in hP ho ha h
    · cases op with
      | other n => simp only [intOp] at h; cases h; exact hu
      | _ => exact absurd (by intro n hc; cases hc) ho
  next =>
    split at h
    · cases h
    · cases h; exact hu
  next => cases h; exact hu
  next =>
    split at h
    · cases h; exact hu
    · exact ht.userOp _ _ _ _ _ _ _ h

theorem bind_ok {x : Res} {f : Int → Res} {v : Int} (h : x.bind f = .ok v) : ∃ a, x = .ok a ∧ f a = .ok v := by
  cases x with
  | ok a => exact ⟨a, rfl, h⟩
  | error p => cases h

theorem evalNeg_ty {ρ : State} (ht : Typed P Γ ρ) {t : Ty} {a u v : Int} (hu : HasTy P t u)
    (h : evalNeg P ρ t a u = .ok v) : HasTy P t v := by
  unfold evalNeg at h
  split at h
  · exact checked_in h
  · cases h; exact hu
  · cases h; exact hu
  · cases h; exact hu
  · exact ht.userNeg _ _ _ h

/-- A value belongs to the type of its expression. -/
theorem eval_ty (hP : P.Usual) {ρ : State} (ht : Typed P Γ ρ) :
    ∀ (e : Ex) {v : Int}, WF P Γ e → eval P ρ e = .ok v → HasTy P e.ty v
  | .lit _ n t, v, hw, h => by
    simp only [WF, litTyped] at hw
    obtain ⟨s, rfl, hi⟩ := hw
    simp only [eval] at h; cases h; exact hi
  | .loc _ x t, v, hw, h => by
    simp only [WF] at hw; simp only [eval] at h
    cases h; subst hw; exact ht.loc x
  | .bound _ x t e, v, hw, h => by
    simp only [WF] at hw; simp only [eval] at h
    cases h; rw [show (Ex.bound _ x t e).ty = Γ x from hw.1]; exact ht.loc x
  | .un sp op t e, v, hw, h => by
    simp only [WF] at hw; simp only [eval] at h
    obtain ⟨a, ha, h⟩ := bind_ok h
    show HasTy P t v
    unfold evalUn at h
    cases op with
    | neg => exact evalNeg_ty ht (ht.other sp t) h
    | not =>
      simp only at h
      cases h
      split
      · exact IT.ofBits_in _ (by have := bits_ge hP ‹_›; omega) _
      · exact ht.other sp _
    | deref =>
      simp only at h
      cases h
      rcases hw.2 with hw2 | hw2
      · cases hw2.1
      · rw [hw.1]; exact eval_ty hP ht e hw2 ha
  | .ref _ e, v, hw, h => by
    simp only [WF] at hw; simp only [eval] at h
    exact eval_ty hP ht e hw h
  | .conv sp _ t e, v, hw, h => by
    simp only [eval] at h
    obtain ⟨a, ha, h⟩ := bind_ok h
    cases h
    show HasTy P t _
    unfold evalConv
    split
    next t' _ _ => exact IT.wrap_in _ (by have := bits_ge hP t'; omega) _
    · exact ht.other sp _
  | .bin sp asg op t a b, v, hw, h => by
    simp only [WF] at hw; simp only [eval] at h
    obtain ⟨x, hx, h⟩ := bind_ok h
    obtain ⟨y, hy, h⟩ := bind_ok h
    obtain ⟨z, hz, h⟩ := bind_ok h
    cases h
    show HasTy P t _
    cases asg with
    | true => exact ht.other sp t
    | false => exact evalBin_ty hP ht (hw.1 rfl) (eval_ty hP ht a hw.2.2.1 hx) (ht.other sp t) hz
  | .method sp m t r .nil, v, hw, h => by
    simp only [WF] at hw; simp only [eval] at h
    obtain ⟨x, hx, h⟩ := bind_ok h
    cases h
    show HasTy P t _
    split
    next hg =>
      have hr := eval_ty hP ht r hw.1 hx
      have hm := hw.2.2
      simp only [methTyped] at hm
      cases hrt : r.ty with
      | nonZero s =>
        rw [hm hg.1 s hrt]
        rw [hrt] at hr
        exact hr.1
      | _ => rw [hrt] at hg; exact absurd hg.2 (by simp [isNZ])
    next => exact ht.other sp t
  | .method sp m t r (.cons arg es), v, hw, h => by
    simp only [WF] at hw; simp only [eval] at h
    obtain ⟨x, hx, h⟩ := bind_ok h
    obtain ⟨y, hy, h⟩ := bind_ok h
    show HasTy P t v
    have hm := hw.2.2
    unfold evalMeth at h
    split at h
    next op =>
      obtain ⟨z, hz, h⟩ := bind_ok h
      cases h; exact ht.other sp t
    next op =>
      simp only [methTyped] at hm
      exact evalBin_ty hP ht hm (eval_ty hP ht r hw.1 hx) (ht.other sp t) h
    next =>
      split at h
      · cases h
      · cases h; exact ht.other sp t
    next => cases h; exact ht.other sp t
  | .node sp t _, v, _, h => by simp only [eval] at h; cases h; exact ht.other sp t
  | .constItem sp t _, v, _, h => by simp only [eval] at h; cases h; exact ht.other sp t
  | .fnItem sp t _, v, _, h => by simp only [eval] at h; cases h; exact ht.other sp t

/-! ### What an operand stands for -/

theorem peelRefs_fst : ∀ e : Ex, (peelRefs e).1 = unref e
  | .ref _ e => by simp only [peelRefs, unref]; exact peelRefs_fst e
  | .lit _ _ _ => rfl
  | .loc _ _ _ => rfl
  | .bound _ _ _ _ => rfl
  | .un _ _ _ _ => rfl
  | .conv _ _ _ _ => rfl
  | .bin _ _ _ _ _ _ => rfl
  | .method _ _ _ _ _ => rfl
  | .node _ _ _ => rfl
  | .constItem _ _ _ => rfl
  | .fnItem _ _ _ => rfl

theorem peelRefs_snd (e : Ex) : ((peelRefs e).2 != 0) = isRef e := by
  cases e <;> simp [peelRefs, isRef]

theorem exprOrInit_eq : ∀ e : Ex, exprOrInit e = initOf e
  | .bound _ _ _ e => by simp only [exprOrInit, initOf]; exact exprOrInit_eq e
  | .ref _ _ => rfl
  | .lit _ _ _ => rfl
  | .loc _ _ _ => rfl
  | .un _ _ _ _ => rfl
  | .conv _ _ _ _ => rfl
  | .bin _ _ _ _ _ _ => rfl
  | .method _ _ _ _ _ => rfl
  | .node _ _ _ => rfl
  | .constItem _ _ _ => rfl
  | .fnItem _ _ _ => rfl

theorem actual_eq (e : Ex) : actual e = source e := by
  unfold actual source; rw [peelRefs_fst, exprOrInit_eq]

theorem unref_val (ρ : State) : ∀ e : Ex, eval P ρ (unref e) = eval P ρ e ∧ (unref e).ty = e.ty ∧
    (WF P Γ e → WF P Γ (unref e)) ∧ (Past P Γ e ρ → Past P Γ (unref e) ρ)
  | .ref _ e => by
    have ih := unref_val ρ e
    simp only [unref, eval, Ex.ty, WF, Past]
    exact ih
  | .lit _ _ _ => ⟨rfl, rfl, id, id⟩
  | .loc _ _ _ => ⟨rfl, rfl, id, id⟩
  | .bound _ _ _ _ => ⟨rfl, rfl, id, id⟩
  | .un _ _ _ _ => ⟨rfl, rfl, id, id⟩
  | .conv _ _ _ _ => ⟨rfl, rfl, id, id⟩
  | .bin _ _ _ _ _ _ => ⟨rfl, rfl, id, id⟩
  | .method _ _ _ _ _ => ⟨rfl, rfl, id, id⟩
  | .node _ _ _ => ⟨rfl, rfl, id, id⟩
  | .constItem _ _ _ => ⟨rfl, rfl, id, id⟩
  | .fnItem _ _ _ => ⟨rfl, rfl, id, id⟩

theorem initOf_val : ∀ (e : Ex) {ρ : State} {v : Int}, Typed P Γ ρ → Past P Γ e ρ →
    eval P ρ e = .ok v → ∃ ρ', Typed P Γ ρ' ∧ Past P Γ (initOf e) ρ' ∧ eval P ρ' (initOf e) = .ok v
  | .bound _ x t e, ρ, v, ht, hp, h => by
    simp only [Past] at hp
    obtain ⟨ρ', ht', hp', h'⟩ := hp
    simp only [eval] at h
    rw [h] at h'
    simp only [initOf]
    exact initOf_val e ht' hp' h'
  | .ref _ _, ρ, v, ht, hp, h => ⟨ρ, ht, hp, h⟩
  | .lit _ _ _, ρ, v, ht, hp, h => ⟨ρ, ht, hp, h⟩
  | .loc _ _ _, ρ, v, ht, hp, h => ⟨ρ, ht, hp, h⟩
  | .un _ _ _ _, ρ, v, ht, hp, h => ⟨ρ, ht, hp, h⟩
  | .conv _ _ _ _, ρ, v, ht, hp, h => ⟨ρ, ht, hp, h⟩
  | .bin _ _ _ _ _ _, ρ, v, ht, hp, h => ⟨ρ, ht, hp, h⟩
  | .method _ _ _ _ _, ρ, v, ht, hp, h => ⟨ρ, ht, hp, h⟩
  | .node _ _ _, ρ, v, ht, hp, h => ⟨ρ, ht, hp, h⟩
  | .constItem _ _ _, ρ, v, ht, hp, h => ⟨ρ, ht, hp, h⟩
  | .fnItem _ _ _, ρ, v, ht, hp, h => ⟨ρ, ht, hp, h⟩

theorem initOf_ty : ∀ (e : Ex), WF P Γ e → (initOf e).ty = e.ty ∧ WF P Γ (initOf e)
  | .bound _ x t e, hw => by
    simp only [WF] at hw
    have ih := initOf_ty e hw.2.2
    simp only [initOf]
    exact ⟨by rw [ih.1, hw.2.1]; rfl, ih.2⟩
  | .ref _ _, hw => ⟨rfl, hw⟩
  | .lit _ _ _, hw => ⟨rfl, hw⟩
  | .loc _ _ _, hw => ⟨rfl, hw⟩
  | .un _ _ _ _, hw => ⟨rfl, hw⟩
  | .conv _ _ _ _, hw => ⟨rfl, hw⟩
  | .bin _ _ _ _ _ _, hw => ⟨rfl, hw⟩
  | .method _ _ _ _ _, hw => ⟨rfl, hw⟩
  | .node _ _ _, hw => ⟨rfl, hw⟩
  | .constItem _ _ _, hw => ⟨rfl, hw⟩
  | .fnItem _ _ _, hw => ⟨rfl, hw⟩

theorem source_ty {e : Ex} (hw : WF P Γ e) : (source e).ty = e.ty ∧ WF P Γ (source e) := by
  have h0 : State := ⟨fun _ => 0, fun _ _ => 0, fun _ _ _ _ _ _ => .ok 0, fun _ _ => .ok 0⟩
  have hu := unref_val (P := P) (Γ := Γ) h0 e
  have hi := initOf_ty (unref e) (hu.2.2.1 hw)
  exact ⟨by unfold source; rw [hi.1, hu.2.1], hi.2⟩

theorem source_val {e : Ex} {ρ : State} {v : Int} (ht : Typed P Γ ρ) (hp : Past P Γ e ρ)
    (h : eval P ρ e = .ok v) :
    ∃ ρ', Typed P Γ ρ' ∧ Past P Γ (source e) ρ' ∧ eval P ρ' (source e) = .ok v := by
  have hu := unref_val (P := P) (Γ := Γ) ρ e
  exact initOf_val (unref e) ht (hu.2.2.2 hp) (by rw [hu.1]; exact h)

/-- The value of an operand that stands for a constant. -/
theorem always_val {e : Ex} {ρ : State} {v c : Int} (ht : Typed P Γ ρ) (hp : Past P Γ e ρ)
    (h : eval P ρ e = .ok v) (hc : Always P Γ (source e) c) : v = c := by
  obtain ⟨ρ', ht', hp', h'⟩ := source_val ht hp h
  rw [hc ρ' ht' hp'] at h'
  cases h'; rfl

/-! ### Literals -/

theorem peelUnary_lit : ∀ {e : Ex} {sp n t}, peelUnary e = .lit sp n t → endsInLit e = true
  | .un _ _ _ e, sp, n, t, h => by
    simp only [peelUnary] at h; simp only [endsInLit]; exact peelUnary_lit h
  | .lit _ _ _, sp, n, t, h => rfl
  | .ref _ _, sp, n, t, h => by simp [peelUnary] at h
  | .loc _ _ _, sp, n, t, h => by simp [peelUnary] at h
  | .bound _ _ _ _, sp, n, t, h => by simp [peelUnary] at h
  | .conv _ _ _ _, sp, n, t, h => by simp [peelUnary] at h
  | .bin _ _ _ _ _ _, sp, n, t, h => by simp [peelUnary] at h
  | .method _ _ _ _ _, sp, n, t, h => by simp [peelUnary] at h
  | .node _ _ _, sp, n, t, h => by simp [peelUnary] at h
  | .constItem _ _ _, sp, n, t, h => by simp [peelUnary] at h
  | .fnItem _ _ _, sp, n, t, h => by simp [peelUnary] at h

variable {const? : Ex → Option Nat} {local? : Ex → Bool} {conf : Conf}

theorem literal_known {e : Ex} (h : (literalInteger const? e).isSome = true) : known const? e = true := by
  unfold literalInteger at h
  unfold known
  split at h
  next hl => rw [peelUnary_lit hl]; rfl
  next => rw [h]; simp

/-- A literal without an operator, or a constant. -/
theorem literal_val (hP : P.Usual) (hc : ConstSound P Γ const?) {e : Ex} {n : Nat} (hw : WF P Γ e)
    (hs : signedLit e = false) (h : literalInteger const? e = some n) :
    ∃ v s, Always P Γ e v ∧ e.ty = .int s ∧ (s.it P).toBits v = n := by
  unfold literalInteger at h
  split at h
  next sp k t hl =>
    cases h
    have he := peelUnary_lit hl
    unfold signedLit at hs
    rw [he] at hs
    cases e with
    | lit sp' n' t' =>
      simp only [peelUnary] at hl
      cases hl
      simp only [WF, litTyped] at hw
      obtain ⟨s, rfl, hi⟩ := hw
      exact ⟨n, s, fun ρ _ _ => rfl, rfl, toBits_small (bits_ge hP s) hi⟩
    | _ => simp [isLit] at hs
  next => exact hc e n h

/-! ### Operators -/

theorem checked_ok {t : IT} {x : Int} (h : t.In x) : ∃ z, t.checked x = .ok z := by
  unfold IT.checked; rw [if_pos h]; exact ⟨_, rfl⟩

theorem tdiv_in {t : IT} (hb : 8 ≤ t.bits) {x y : Int} (hx : t.In x) (hy : t.In y) (h0 : y ≠ -1) :
    t.In (x.tdiv y) := by
  have hmin : t.min ≤ 0 := by
    unfold IT.min; split
    · have := two_pow_pos (t.bits - 1); omega
    · omega
  have hmax : 0 ≤ t.max := by
    unfold IT.max
    have := two_pow_pos (t.bits - 1)
    have := two_pow_pos t.bits
    split <;> omega
  have hle := Int.natAbs_tdiv_le_natAbs x y
  rcases Int.lt_or_le y 0 with hn | hn
  · have hs : t.signed = true := by
      cases h : t.signed with
      | true => rfl
      | false => exact absurd ((in_unsigned h).1 hy).1 (by omega)
    have hd : (x.tdiv y).natAbs = x.natAbs / y.natAbs := Int.natAbs_tdiv x y
    have hd2 : x.natAbs / y.natAbs ≤ x.natAbs / 2 := Nat.div_le_div_left (by omega) (by omega)
    have p := two_pow_pos (t.bits - 1)
    have p2 : (2 : Int) ^ (t.bits - 1) = 2 * 2 ^ (t.bits - 1 - 1) := two_pow_succ (by omega)
    have p3 := two_pow_pos (t.bits - 1 - 1)
    have hx' := (in_signed hs).1 hx
    rw [in_signed hs]
    omega
  · rcases Int.le_total 0 x with h | h
    · have p := Int.tdiv_nonneg h hn
      obtain ⟨h1, h2⟩ := hx
      exact ⟨by omega, by omega⟩
    · have p := Int.tdiv_nonneg (a := -x) (b := y) (by omega) hn
      rw [Int.neg_tdiv] at p
      obtain ⟨h1, h2⟩ := hx
      exact ⟨by omega, by omega⟩

theorem div_ok {t : IT} (hb : 8 ≤ t.bits) {x y : Int} (hx : t.In x) (hy : t.In y) (h0 : y ≠ 0)
    (h1 : y ≠ -1) : (∃ z, t.div x y = .ok z) ∧ ∃ z, t.rem x y = .ok z := by
  have h := tdiv_in hb hx hy h1
  unfold IT.div IT.rem
  rw [if_neg h0, if_neg h0, if_pos h]
  exact ⟨checked_ok h, _, rfl⟩

/-- The sum or product of a constant and a converted number fits. -/
theorem fits_in (hP : P.Usual) {n : Nat} {s : ITy} (h : fits P n (.int s) = true) (hn : n < 2 ^ 128) :
    s.signed = false ∧ (s.it P).In n := by
  obtain ⟨sg, w⟩ := s
  cases sg with
  | true => simp [fits] at h
  | false =>
    refine ⟨rfl, (in_unsigned rfl).2 ⟨by omega, ?_⟩⟩
    have key : ∀ k : Nat, n < 2 ^ k → (n : Int) < 2 ^ k := by
      intro k hk; exact_mod_cast hk
    cases w with
    | w8 => simp [fits] at h
    | w16 => simp only [fits, decide_eq_true_eq] at h; exact key 16 h
    | w32 => simp only [fits, decide_eq_true_eq] at h; exact key 32 h
    | w64 => simp only [fits, decide_eq_true_eq] at h; exact key 64 h
    | w128 => exact key 128 hn
    | size => simp only [fits, decide_eq_true_eq] at h; rw [hP.same] at h; exact key P.target h

theorem combine_lt {op : BinOp} {a b r : Nat} (h : combine op a b = some r) :
    r < 2 ^ 128 ∧ (op = .add ∧ r = a + b ∨ op = .mul ∧ r = a * b) := by
  unfold combine at h
  split at h
  · split at h
    next hl => cases h; exact ⟨hl, .inl ⟨rfl, rfl⟩⟩
    · cases h
  · split at h
    next hl => cases h; exact ⟨hl, .inr ⟨rfl, rfl⟩⟩
    · cases h
  · cases h

/-- What is converted from a smaller type is small. -/
theorem conv_small (hP : P.Usual) {e : Ex} {m : Nat} {s : ITy} (hw : WF P Γ e) (hs : s.signed = false)
    (ht : e.ty = .int s) (h : (originalTy e).bind (maxInt P) = some m) {ρ : State} (hρ : Typed P Γ ρ)
    {v : Int} (hv : eval P ρ e = .ok v) : 0 ≤ v ∧ v ≤ m := by
  cases e with
  | conv sp f t e =>
    simp only [originalTy, Option.bind_some] at h
    simp only [Ex.ty] at ht
    subst ht
    cases het : e.ty with
    | int u =>
      rw [het] at h
      simp only [maxInt] at h
      split at h
      · cases h
      next hu =>
        cases h
        simp only [eval] at hv
        obtain ⟨a, ha, hv⟩ := bind_ok hv
        cases hv
        simp only [WF] at hw
        have hin := eval_ty hP hρ e hw ha
        rw [het] at hin ⊢
        have hu' : (u.it P).signed = false := by simpa [ITy.it] using hu
        have ha' := (in_unsigned hu').1 hin
        have hwr := wrap_le (t := s.it P) hs ha'.1
        simp only [evalConv]
        refine ⟨hwr.1, Int.le_trans hwr.2 ?_⟩
        have hb : (u.it P).bits = u.w.bits P.host := by unfold ITy.it; rw [hP.same]
        have h2 := ha'.2
        rw [hb] at h2
        have hpow : ((2 ^ u.w.bits P.host : Nat) : Int) = 2 ^ u.w.bits P.host := cast_two_pow _
        have hp := Nat.two_pow_pos (u.w.bits P.host)
        omega
    | _ => rw [het] at h; simp [maxInt] at h
  | _ => simp [originalTy] at h

theorem smaller_sound (hP : P.Usual) (hc : ConstSound P Γ const?) {op : BinOp} {a b : Ex} {s : ITy}
    (hwa : WF P Γ a) (hwb : WF P Γ b) (hta : a.ty = .int s) (htb : b.ty = .int s)
    (hp : signedLit (source a) = false)
    (h : smaller P const? op (source a) (source a).ty (source b) = true) {ρ : State}
    (hρ : Typed P Γ ρ) (hpa : Past P Γ a ρ) (hpb : Past P Γ b ρ) {x y : Int}
    (hx : eval P ρ a = .ok x) (hy : eval P ρ b = .ok y) :
    (op = .add ∧ (s.it P).In (x + y)) ∨ (op = .mul ∧ (s.it P).In (x * y)) := by
  unfold smaller at h
  split at h
  next n0 n1 h0 h1 =>
    cases hr : combine op n0 n1 with
    | none => rw [hr] at h; simp at h
    | some r =>
      rw [hr] at h
      simp only [Option.any_some] at h
      obtain ⟨hlt, hcase⟩ := combine_lt hr
      obtain ⟨hsta, hswa⟩ := source_ty hwa
      obtain ⟨hstb, hswb⟩ := source_ty hwb
      rw [hsta, hta] at h
      obtain ⟨hs, hin⟩ := fits_in hP h hlt
      obtain ⟨c, s', hal, hty, hbits⟩ := literal_val hP hc hswa hp h0
      have hxc := always_val hρ hpa hx hal
      have hsx := eval_ty hP hρ a hwa hx
      rw [hta] at hsx
      rw [hsta, hta] at hty
      cases hty
      have hxn : x = n0 := by
        have := bits_unsigned (t := s.it P) hs hsx
        rw [hxc, hbits] at this
        rw [hxc]; exact this.symm
      obtain ⟨ρ', hρ', hp', hy'⟩ := source_val hρ hpb hy
      have hsm := conv_small hP hswb hs (by rw [hstb, htb]) h1 hρ' hy'
      have hr2 := (in_unsigned (t := s.it P) hs).1 hin
      rcases hcase with ⟨rfl, rfl⟩ | ⟨rfl, rfl⟩
      · refine .inl ⟨rfl, (in_unsigned hs).2 ⟨by omega, ?_⟩⟩
        have := hr2.2
        push_cast at this
        omega
      · refine .inr ⟨rfl, (in_unsigned hs).2 ⟨?_, ?_⟩⟩
        · rw [hxn]; exact Int.mul_nonneg (by omega) hsm.1
        · have := hr2.2
          push_cast at this
          rw [hxn]
          exact Int.lt_of_le_of_lt (Int.mul_le_mul_of_nonneg_left hsm.2 (by omega)) this
  next => cases h

theorem allowedBinary_mem {p : Str × Str} (h : p ∈ conf.allowedBinary) :
    (p = (str!"f32", str!"f32") ∨ p = (str!"f64", str!"f64") ∨
      p = (str!"std::string::String", str!"str") ∨
      p = (str!"std::string::String", str!"std::string::String")) ∨
    p ∈ conf.binary ∨ (p.1 ∈ conf.allowed ∧ p.2 = str!"*") ∨ (p.1 = str!"*" ∧ p.2 ∈ conf.allowed) := by
  unfold Conf.allowedBinary at h
  simp only [List.mem_append, List.mem_map, List.mem_cons, List.not_mem_nil, or_false] at h
  rcases h with ((h | h) | ⟨s, hs, rfl⟩) | ⟨s, hs, rfl⟩
  · exact .inl h
  · exact .inr (.inl h)
  · exact .inr (.inr (.inl ⟨hs, rfl⟩))
  · exact .inr (.inr (.inr ⟨rfl, hs⟩))

theorem hasBinary_listed {ta tb : Ty} (h : conf.hasBinary ta tb = true) : Listed conf ta tb := by
  unfold Conf.hasBinary at h
  simp only [Bool.or_eq_true, List.contains_iff_mem] at h
  unfold Listed
  rcases h with (h | h) | h
  · rcases allowedBinary_mem h with (h | h | h | h) | h | h | h
    · obtain ⟨h1, h2⟩ := Prod.mk.inj h
      exact .inr (.inr (.inr (.inr (.inl ⟨h1.trans h2.symm, .inl h1⟩))))
    · obtain ⟨h1, h2⟩ := Prod.mk.inj h
      exact .inr (.inr (.inr (.inr (.inl ⟨h1.trans h2.symm, .inr h1⟩))))
    · obtain ⟨h1, h2⟩ := Prod.mk.inj h
      exact .inr (.inr (.inr (.inl ⟨h1, .inl h2⟩)))
    · obtain ⟨h1, h2⟩ := Prod.mk.inj h
      exact .inr (.inr (.inr (.inl ⟨h1, .inr h2⟩)))
    · exact .inl ⟨_, h, .inl rfl, .inl rfl⟩
    · exact .inr (.inl h.1)
    · exact .inr (.inr (.inl h.2))
  · rcases allowedBinary_mem h with (h | h | h | h) | h | h | h
    · exact absurd (Prod.mk.inj h).2 (by decide)
    · exact absurd (Prod.mk.inj h).2 (by decide)
    · exact absurd (Prod.mk.inj h).2 (by decide)
    · exact absurd (Prod.mk.inj h).2 (by decide)
    · exact .inl ⟨_, h, .inl rfl, .inr rfl⟩
    · exact .inr (.inl h.1)
    · exact .inr (.inr (.inr (.inr (.inr h.2))))
  · rcases allowedBinary_mem h with (h | h | h | h) | h | h | h
    · exact absurd (Prod.mk.inj h).1 (by decide)
    · exact absurd (Prod.mk.inj h).1 (by decide)
    · exact absurd (Prod.mk.inj h).1 (by decide)
    · exact absurd (Prod.mk.inj h).1 (by decide)
    · exact .inl ⟨_, h, .inr rfl, .inl rfl⟩
    · exact .inr (.inr (.inr (.inr (.inr h.1))))
    · exact .inr (.inr (.inl h.2))

theorem hasUnary_listed {t : Ty} (h : conf.hasUnary t = true) : ListedUn conf t := by
  unfold Conf.hasUnary Conf.allowedUnary at h
  simp only [List.contains_iff_mem, List.mem_append] at h
  rcases h with (h | h) | h
  · exact .inr (.inr h)
  · exact .inl h
  · exact .inr (.inl h)

theorem nonZeroU_ty {t : Ty} (h : isNonZeroU t = true) : ∃ s, t = .nonZero s ∧ s.signed = false := by
  cases t with
  | nonZero s => exact ⟨s, rfl, by simpa [isNonZeroU] using h⟩
  | _ => simp [isNonZeroU] at h

theorem isInteger_ty {t : Ty} (h : isInteger t = true) : ∃ s, t = .int s := by
  cases t with
  | int s => exact ⟨s, rfl⟩
  | _ => simp [isInteger] at h

theorem smaller_op {op : BinOp} {a b : Ex} {t : Ty} (h : smaller P const? op a t b = true) :
    (op = .add ∨ op = .mul) ∧ (literalInteger const? a).isSome = true ∧
      ∃ s, originalTy b = some (.int s) := by
  unfold smaller at h
  split at h
  next n0 n1 h0 h1 =>
    cases hr : combine op n0 n1 with
    | none => rw [hr] at h; simp at h
    | some r =>
      refine ⟨?_, by rw [h0]; rfl, ?_⟩
      · rcases (combine_lt hr).2 with h | h
        · exact .inl h.1
        · exact .inr h.1
      · cases ho : originalTy b with
        | none => rw [ho] at h1; cases h1
        | some u =>
          rw [ho, Option.bind_some] at h1
          cases u with
          | int s => exact ⟨s, rfl⟩
          | _ => simp [maxInt] at h1
  next => cases h

/-- `NonZero::get() - 1`. -/
theorem get_pos (hP : P.Usual) {e : Ex} (hw : WF P Γ e) (h : isNonZeroGet e = true) {ρ : State}
    (hρ : Typed P Γ ρ) {v : Int} (hv : eval P ρ e = .ok v) : 1 ≤ v := by
  cases e with
  | method sp m t r args =>
    cases m with
    | get =>
      cases args with
      | nil =>
        simp only [isNonZeroGet] at h
        obtain ⟨s, hs, hu⟩ := nonZeroU_ty h
        simp only [eval] at hv
        obtain ⟨a, ha, hv⟩ := bind_ok hv
        rw [hs] at hv
        simp only [isNZ, and_self, if_true] at hv
        cases hv
        simp only [WF] at hw
        have hr := eval_ty hP hρ r hw.1 ha
        rw [hs] at hr
        have h1 := ((in_unsigned (t := s.it P) hu).1 hr.1).1
        have h2 := hr.2
        omega
      | cons _ _ => simp [isNonZeroGet] at h
    | _ => simp [isNonZeroGet] at h
  | _ => simp [isNonZeroGet] at h

theorem intOp_shift {t : IT} {op : BinOp} (hs : op = .shl ∨ op = .shr) {x y u : Int}
    (h : 0 ≤ y ∧ y < t.bits) : ∃ z, intOp t u op x y = .ok z := by
  rcases hs with rfl | rfl
  · simp only [intOp, IT.shl, if_pos h]; exact ⟨_, rfl⟩
  · simp only [intOp, IT.shr, if_pos h]; exact ⟨_, rfl⟩

theorem literals_sound (hP : P.Usual) (hc : ConstSound P Γ const?) {op : BinOp} {a b : Ex} {s : ITy}
    (hwa : WF P Γ a) (hwb : WF P Γ b) (hta : a.ty = .int s) (htb : b.ty = .int s)
    (ho : BinOk P Γ const? op a b) (hk : bothKnown const? a b = false)
    (h : literalsOk op (literalInteger const? (source a)) (literalInteger const? (source b))
      ((peelRefs a).2 != 0 || (peelRefs b).2 != 0) = true) {ρ : State}
    (hρ : Typed P Γ ρ) (hpa : Past P Γ a ρ) (hpb : Past P Γ b ρ) {x y : Int}
    (hx : eval P ρ a = .ok x) (hy : eval P ρ b = .ok y) (u : Int) :
    ∃ z, intOp (s.it P) u op x y = .ok z := by
  have hb := bits_ge hP s
  have hxi := eval_ty hP hρ a hwa hx
  have hyi := eval_ty hP hρ b hwb hy
  rw [hta] at hxi; rw [htb] at hyi
  obtain ⟨hsta, hswa⟩ := source_ty hwa
  obtain ⟨hstb, hswb⟩ := source_ty hwb
  obtain ⟨hpl, hpr⟩ := ho.plain hk
  rw [peelRefs_snd, peelRefs_snd] at h
  cases hla : literalInteger const? (source a) with
  | none =>
    cases hlb : literalInteger const? (source b) with
    | none => rw [hla, hlb] at h; cases h
    | some n =>
      rw [hla, hlb] at h
      obtain ⟨c, s', hal, hty, hbits⟩ := literal_val hP hc hswb hpr hlb
      have hyc := always_val hρ hpb hy hal
      rw [hstb, htb] at hty
      cases hty
      simp only [literalsOk, Bool.or_eq_true, Bool.and_eq_true, beq_iff_eq, bne_iff_ne, isDivRem] at h
      rcases h with (⟨hop, hn⟩ | ⟨hop, hn⟩) | ⟨hop, hn⟩
      · have hy0 : y ≠ 0 := by
          rintro h0
          apply hn
          rw [← hbits, ← hyc, h0]
          exact toBits_small hb (n := 0) (zero_in _)
        have hy1 : y ≠ -1 := by
          rintro h1
          exact ho.div hk hop (by rw [hyc] at h1; rw [h1] at hal; exact hal)
        have hd := div_ok hb hxi hyi hy0 hy1
        rcases hop with rfl | rfl
        · exact hd.1
        · exact hd.2
      · subst hn
        have hy0 : y = 0 := by
          rw [hyc]
          exact bits_eq hb (by rw [← hyc]; exact hyi) (n := 0) (zero_in _) hbits
        subst hy0
        rcases hop with rfl | rfl
        · simp only [intOp, IT.add]; exact checked_ok (by rw [Int.add_zero]; exact hxi)
        · simp only [intOp, IT.sub]; exact checked_ok (by rw [Int.sub_zero]; exact hxi)
      · subst hop
        simp only [intOp, IT.mul]
        rcases hn with hn | hn
        · subst hn
          have hy0 : y = 0 := by
            rw [hyc]; exact bits_eq hb (by rw [← hyc]; exact hyi) (n := 0) (zero_in _) hbits
          subst hy0
          exact checked_ok (by rw [Int.mul_zero]; exact zero_in _)
        · subst hn
          have hy1 : y = 1 := by
            rw [hyc]; exact bits_eq hb (by rw [← hyc]; exact hyi) (n := 1) (one_in hb) hbits
          subst hy1
          exact checked_ok (by rw [Int.mul_one]; exact hxi)
  | some n =>
    cases hlb : literalInteger const? (source b) with
    | some k =>
      rw [hla, hlb] at h
      simp only [literalsOk] at h
      exfalso
      unfold bothKnown at hk
      rw [literal_known (const? := const?) (by rw [hla]; rfl), literal_known (const? := const?) (by rw [hlb]; rfl)] at hk
      cases h1 : isRef a <;> cases h2 : isRef b <;> rw [h1, h2] at h hk <;> simp at h hk
    | none =>
      rw [hla, hlb] at h
      obtain ⟨c, s', hal, hty, hbits⟩ := literal_val hP hc hswa hpl hla
      have hxc := always_val hρ hpa hx hal
      rw [hsta, hta] at hty
      cases hty
      simp only [literalsOk, Bool.or_eq_true, Bool.and_eq_true, beq_iff_eq] at h
      rcases h with ⟨hop, hn⟩ | ⟨hop, hn⟩
      · subst hn
        have hx0 : x = 0 := by
          rw [hxc]; exact bits_eq hb (by rw [← hxc]; exact hxi) (n := 0) (zero_in _) hbits
        rcases hop with rfl | rfl
        · subst hx0
          simp only [intOp, IT.add]; exact checked_ok (by rw [Int.zero_add]; exact hyi)
        · exact absurd (by rw [hxc] at hx0; rw [hx0] at hal; exact hal) (ho.sub hk rfl)
      · subst hop
        simp only [intOp, IT.mul]
        rcases hn with hn | hn
        · subst hn
          have hx0 : x = 0 := by
            rw [hxc]; exact bits_eq hb (by rw [← hxc]; exact hxi) (n := 0) (zero_in _) hbits
          subst hx0
          exact checked_ok (by rw [Int.zero_mul]; exact zero_in _)
        · subst hn
          have hx1 : x = 1 := by
            rw [hxc]; exact bits_eq hb (by rw [← hxc]; exact hxi) (n := 1) (one_in hb) hbits
          subst hx1
          exact checked_ok (by rw [Int.one_mul]; exact hyi)

theorem conv_cases {e : Ex} {s : ITy} (h : originalTy e = some (.int s)) :
    (∃ s', e.ty = .int s') ∨ strangeConv e := by
  cases e with
  | conv sp f t e =>
    simp only [originalTy, Option.some.injEq] at h
    by_cases ht : ∃ s', t = .int s'
    · exact .inl ht
    · exact .inr ⟨⟨s, h⟩, fun s' hs' => ht ⟨s', hs'⟩⟩
  | _ => simp [originalTy] at h

/-- An operator that is not reported has a value. -/
theorem bin_sound (hP : P.Usual) (hc : ConstSound P Γ const?) (hn : NoInts conf) {e : Ex} {op : BinOp}
    {a b : Ex} (hq : manageBin P conf const? local? e op a b = false) (hl : local? e = false) {t' : Ty}
    (hty : opTyped op t' a.ty b.ty) (hwa : WF P Γ a) (hwb : WF P Γ b) (ho : BinOk P Γ const? op a b)
    {ρ : State} (hρ : Typed P Γ ρ) (htr : Trusts conf ρ) (hpa : Past P Γ a ρ) (hpb : Past P Γ b ρ)
    {x y : Int} (hx : eval P ρ a = .ok x) (hy : eval P ρ b = .ok y) (t : Ty) (u : Int) :
    ∃ z, evalBin P ρ op a.ty b.ty t x y u = .ok z := by
  cases hk : bothKnown const? a b with
  | true => exact ho.accepted hk ρ hρ hpa hpb x y hx hy t u
  | false =>
    obtain ⟨hsta, hswa⟩ := source_ty hwa
    obtain ⟨hstb, hswb⟩ := source_ty hwb
    obtain ⟨hpl, hpr⟩ := ho.plain hk
    have hxi := eval_ty hP hρ a hwa hx
    have hyi := eval_ty hP hρ b hwb hy
    unfold manageBin at hq
    rw [actual_eq, actual_eq, hsta, hstb] at hq
    rw [if_neg (by rw [hl]; simp)] at hq
    by_cases har : isArith op = true
    · rw [if_neg (by rw [har]; simp)] at hq
      have hoth : isOther op = false := by cases op <;> simp_all [isArith, isOther]
      have hlt : ∀ {e : Ex}, WF P Γ e → signedLit e = false → (literalInteger const? e).isSome = true →
          ∃ s, e.ty = .int s := by
        intro e hw hs h
        obtain ⟨n, hn⟩ := Option.isSome_iff_exists.1 h
        obtain ⟨_, s, _, h, _⟩ := literal_val hP hc hw hs hn
        exact ⟨s, h⟩
      by_cases hnz : (op == .sub && isNonZeroGet (source a) && literalInteger const? (source b) == some 1) = true
      · simp only [Bool.and_eq_true, beq_iff_eq] at hnz
        obtain ⟨⟨rfl, hg⟩, hone⟩ := hnz
        obtain ⟨c, s, hal, hts, hbits⟩ := literal_val hP hc hswb hpr hone
        obtain ⟨ρ', hρ', hp', hx'⟩ := source_val hρ hpa hx
        have hx1 := get_pos hP hswa hg hρ' hx'
        have hyc := always_val hρ hpb hy hal
        rw [hstb] at hts
        rw [hts] at hyi
        have hb := bits_ge hP s
        have hy1 : y = 1 := by
          rw [hyc]; exact bits_eq hb (by rw [← hyc]; exact hyi) (n := 1) (one_in hb) hbits
        have hta : ∃ s', a.ty = .int s' ∧ s'.signed = false := by
          rw [← hsta]
          revert hg hswa
          cases source a with
          | method sp m tm r args =>
            cases m with
            | get =>
              cases args with
              | nil =>
                intro hw hg
                simp only [isNonZeroGet] at hg
                obtain ⟨s', hs', hu'⟩ := nonZeroU_ty hg
                simp only [WF, methTyped] at hw
                exact ⟨s', hw.2.2 trivial s' hs', hu'⟩
              | cons _ _ => intro _ h; simp [isNonZeroGet] at h
            | _ => intro _ h; simp [isNonZeroGet] at h
          | _ => intro _ h; simp [isNonZeroGet] at h
        obtain ⟨s', hs', hu'⟩ := hta
        rw [hs'] at hxi
        have hxi' := (in_unsigned (t := s'.it P) hu').1 hxi
        unfold evalBin
        rw [hs', hts]
        simp only [native, intOp, IT.sub]
        exact checked_ok ((in_unsigned (t := s'.it P) hu').2 ⟨by omega, by omega⟩)
      · rw [if_neg hnz] at hq
        cases hna : native a.ty b.ty with
        | float => unfold evalBin; rw [hna]; exact ⟨_, rfl⟩
        | wrap =>
          unfold evalBin; rw [hna]
          dsimp only
          split
          next hbad =>
            exfalso
            have hwl : a.ty = .wrapLike := native_wrap hna
            have hdr : isDivRem op = true := by
              rcases hbad.1 with rfl | rfl <;> rfl
            have c1 : conf.hasBinary a.ty b.ty = false :=
              eq_false_of_ne_true fun h => hn.wrap _ _ hna (hasBinary_listed h)
            have hnz2 : isNonZeroU b.ty = false := by
              apply eq_false_of_ne_true
              intro h
              obtain ⟨s, hs, _⟩ := nonZeroU_ty h
              rw [hwl, hs] at hna; simp [native] at hna
            have c2 : specific a.ty op b.ty = false := by
              unfold specific
              rw [hnz2, hwl, hdr]; rfl
            have nsm : ∀ {x y : Ex} {t : Ty}, smaller P const? op x t y = false := by
              intro x y t
              apply eq_false_of_ne_true
              intro h
              rcases (smaller_op h).1 with rfl | rfl <;> simp at hbad
            rw [c1, c2, nsm, nsm] at hq
            have c3 : intsOk const? op a b = false := by
              unfold intsOk
              rw [actual_eq, hsta, hwl]; rfl
            rw [c3] at hq
            simp at hq
          next => exact ⟨_, rfl⟩
        | user =>
          have hu := ho.user (by rw [hna]; trivial)
          unfold evalBin; rw [hna]
          dsimp only
          rw [if_neg (by rw [hoth]; simp)]
          have c2 : specific a.ty op b.ty = false := by
            unfold specific
            have : isNonZeroU b.ty = false := by
              apply eq_false_of_ne_true
              intro h
              obtain ⟨s, hs, _⟩ := nonZeroU_ty h
              exact hu.2.1 s hs
            rw [this, if_neg (by simp), if_neg (by simpa using hu.1)]
          have nat : ∀ s s', a.ty = .int s → b.ty = .int s' → False := by
            intro s s' h1 h2
            rw [h1, h2] at hna; cases hna
          have c3 : smaller P const? op (source a) a.ty (source b) = false := by
            apply eq_false_of_ne_true
            intro h
            obtain ⟨_, h1, s, h2⟩ := smaller_op h
            obtain ⟨s1, hs1⟩ := hlt hswa hpl h1
            rcases conv_cases h2 with ⟨s2, hs2⟩ | h2
            · exact nat s1 s2 (by rw [← hsta]; exact hs1) (by rw [← hstb]; exact hs2)
            · exact hu.2.2.2 h2
          have c4 : smaller P const? op (source b) b.ty (source a) = false := by
            apply eq_false_of_ne_true
            intro h
            obtain ⟨_, h1, s, h2⟩ := smaller_op h
            obtain ⟨s1, hs1⟩ := hlt hswb hpr h1
            rcases conv_cases h2 with ⟨s2, hs2⟩ | h2
            · exact nat s2 s1 (by rw [← hsta]; exact hs2) (by rw [← hstb]; exact hs1)
            · exact hu.2.2.1 h2
          have c5 : intsOk const? op a b = false := by
            apply eq_false_of_ne_true
            intro h
            unfold intsOk at h
            rw [actual_eq, actual_eq, hsta, hstb] at h
            simp only [Bool.and_eq_true] at h
            obtain ⟨s1, h1⟩ := isInteger_ty h.1.1
            obtain ⟨s2, h2⟩ := isInteger_ty h.1.2
            exact nat s1 s2 h1 h2
          rw [c2, c3, c4, c5] at hq
          cases hbn : conf.hasBinary a.ty b.ty with
          | true => exact htr.bin _ _ _ _ _ _ (hasBinary_listed hbn)
          | false => rw [hbn] at hq; simp at hq
        | int s =>
          obtain ⟨hta, htb⟩ := native_int hna
          have c1 : conf.hasBinary a.ty b.ty = false :=
            eq_false_of_ne_true fun h => hn.int _ _ _ hna (hasBinary_listed h)
          rw [c1] at hq
          have hb := bits_ge hP s
          unfold evalBin; rw [hna]
          dsimp only
          rw [hta] at hxi
          rcases htb with ⟨s', htb⟩ | ⟨s', htb⟩
          · rw [htb] at hyi
            have c2 : specific a.ty op b.ty = false := by
              unfold specific; rw [hta, htb]; rfl
            rw [c2] at hq
            by_cases hsh : op = .shl ∨ op = .shr
            · exact intOp_shift hsh (ho.shift hsh s hna ρ hρ hpb y hy)
            · have hss : s = s' := hty.2.1 s s' hta htb (fun h => hsh (.inl h)) (fun h => hsh (.inr h))
              subst hss
              cases h3 : smaller P const? op (source a) a.ty (source b) with
              | true =>
                have h3' : smaller P const? op (source a) (source a).ty (source b) = true := by
                  rw [hsta]; exact h3
                rcases smaller_sound hP hc hwa hwb hta htb hpl h3' hρ hpa hpb hx hy with ⟨rfl, h⟩ | ⟨rfl, h⟩
                · exact checked_ok h
                · exact checked_ok h
              | false =>
                cases h4 : smaller P const? op (source b) b.ty (source a) with
                | true =>
                  have h4' : smaller P const? op (source b) (source b).ty (source a) = true := by
                    rw [hstb]; exact h4
                  rcases smaller_sound hP hc hwb hwa htb hta hpr h4' hρ hpb hpa hy hx with ⟨rfl, h⟩ | ⟨rfl, h⟩
                  · exact checked_ok (by rw [Int.add_comm]; exact h)
                  · exact checked_ok (by rw [Int.mul_comm]; exact h)
                | false =>
                  rw [h3, h4] at hq
                  simp only [Bool.or_self, Bool.false_eq_true, if_false] at hq
                  have h5 : intsOk const? op a b = true := by
                    cases h : intsOk const? op a b with
                    | true => rfl
                    | false => rw [h] at hq; simp at hq
                  unfold intsOk at h5
                  rw [actual_eq, actual_eq] at h5
                  simp only [Bool.and_eq_true, Bool.or_eq_true] at h5
                  rcases h5.2 with h6 | h6
                  · exact absurd (by simpa [isShift] using h6) hsh
                  · exact literals_sound hP hc hwa hwb hta htb ho hk h6 hρ hpa hpb hx hy u
          · obtain ⟨hss, hsu, hdr⟩ := hty.2.2 s s' hta htb
            subst hss
            rw [htb] at hyi
            have hy0 := ((in_unsigned (t := s.it P) hsu).1 hyi.1).1
            have hd := div_ok hb hxi hyi.1 hyi.2 (by omega)
            rcases hdr with rfl | rfl
            · exact hd.1
            · exact hd.2
    · cases op with
      | other n =>
        unfold evalBin
        split
        · exact ⟨_, rfl⟩
        · split
          next h => simp at h
          next => exact ⟨_, rfl⟩
        · exact ⟨_, rfl⟩
        · exact ⟨_, rfl⟩
      | _ => exact absurd rfl har

/-! ### The walk -/

/-- What has been reported stays so. -/
theorem enter_nil {c : Bool} {o : Out} {e : Ex} (h : (enter P conf const? local? c o e).1 = []) : o.1 = [] := by
  unfold enter at h
  split at h
  · exact h
  · split at h
    · simp at h
    · exact h

theorem leave_fst (sp : Nat) (o : Out) : (leave sp o).1 = o.1 := by
  unfold leave; split <;> rfl

mutual

theorem visit_nil {c : Bool} : ∀ {o : Out} (e : Ex), (visit P conf const? local? c o e).1 = [] → o.1 = []
  | o, .lit _ _ _, h => by simp only [visit, leave_fst] at h; exact enter_nil h
  | o, .loc _ _ _, h => by simp only [visit, leave_fst] at h; exact enter_nil h
  | o, .bound _ _ _ _, h => by simp only [visit, leave_fst] at h; exact enter_nil h
  | o, .un _ _ _ e, h => by simp only [visit, leave_fst] at h; exact enter_nil (visit_nil e h)
  | o, .ref _ e, h => by simp only [visit, leave_fst] at h; exact enter_nil (visit_nil e h)
  | o, .conv _ _ _ e, h => by simp only [visit, leave_fst] at h; exact enter_nil (visit_nil e h)
  | o, .bin _ asg _ _ a b, h => by
    simp only [visit] at h
    cases asg with
    | true => simp only [if_true, leave_fst] at h; exact enter_nil (visit_nil b (visit_nil a h))
    | false =>
      simp only [Bool.false_eq_true, if_false, leave_fst] at h
      exact enter_nil (visit_nil a (visit_nil b h))
  | o, .method _ _ _ r args, h => by
    simp only [visit, leave_fst] at h; exact enter_nil (visit_nil r (visitL_nil args h))
  | o, .node _ _ es, h => by simp only [visit, leave_fst] at h; exact enter_nil (visitL_nil es h)
  | o, .constItem _ _ e, h => by
    simp only [visit, leave_fst] at h; exact enter_nil (visit_nil e h)
  | o, .fnItem _ _ e, h => by simp only [visit, leave_fst] at h; exact enter_nil (visit_nil e h)

theorem visitL_nil {c : Bool} : ∀ {o : Out} (es : Exs), (visitL P conf const? local? c o es).1 = [] → o.1 = []
  | o, .nil, h => h
  | o, .cons e es, h => by simp only [visitL] at h; exact visit_nil e (visitL_nil es h)

end

/-- Nothing pending and nothing reported. -/
theorem enter_quiet {e : Ex} (h : (enter P conf const? local? false ([], none) e).1 = []) :
    check P conf const? local? e = none ∧ enter P conf const? local? false ([], none) e = ([], none) := by
  unfold enter at h ⊢
  rw [if_neg (by simp)] at h ⊢
  cases hc : check P conf const? local? e with
  | none => exact ⟨rfl, rfl⟩
  | some s => rw [hc] at h; simp at h

theorem leave_none (sp : Nat) : leave sp ([], none) = ([], none) := by
  unfold leave; rw [if_neg (by simp)]

theorem enter_const {o : Out} {e : Ex} : enter P conf const? local? true o e = o := by
  unfold enter; rw [if_pos (by simp)]

mutual

/-- Nothing is reported in a constant. -/
theorem visit_const : ∀ (e : Ex), visit P conf const? local? true ([], none) e = ([], none)
  | .lit _ _ _ => by simp only [visit, enter_const, leave_none]
  | .loc _ _ _ => by simp only [visit, enter_const, leave_none]
  | .bound _ _ _ _ => by simp only [visit, enter_const, leave_none]
  | .un _ _ _ e => by simp only [visit, enter_const, visit_const e, leave_none]
  | .ref _ e => by simp only [visit, enter_const, visit_const e, leave_none]
  | .conv _ _ _ e => by simp only [visit, enter_const, visit_const e, leave_none]
  | .bin _ _ _ _ a b => by
    simp only [visit, enter_const, visit_const a, visit_const b, leave_none, ite_self]
  | .method _ _ _ r args => by simp only [visit, enter_const, visit_const r, visitL_const args, leave_none]
  | .node _ _ es => by simp only [visit, enter_const, visitL_const es, leave_none]
  | .constItem _ _ e => by simp only [visit, enter_const, visit_const e, leave_none]
  | .fnItem _ _ e => by simp only [visit, enter_const, visit_const e, leave_none]

theorem visitL_const : ∀ (es : Exs), visitL P conf const? local? true ([], none) es = ([], none)
  | .nil => rfl
  | .cons e es => by simp only [visitL, visit_const e, visitL_const es]

end

mutual

theorem runtime_const : ∀ (e : Ex), noFn e = true → runtime true e = []
  | .lit _ _ _, _ => rfl
  | .loc _ _ _, _ => rfl
  | .bound _ _ _ _, _ => rfl
  | .un _ _ _ e, h => by simp only [noFn] at h; simp [runtime, runtime_const e h]
  | .ref _ e, h => by simp only [noFn] at h; simp [runtime, runtime_const e h]
  | .conv _ _ _ e, h => by simp only [noFn] at h; simp [runtime, runtime_const e h]
  | .bin _ _ _ _ a b, h => by
    simp only [noFn, Bool.and_eq_true] at h
    simp [runtime, runtime_const a h.1, runtime_const b h.2]
  | .method _ _ _ r args, h => by
    simp only [noFn, Bool.and_eq_true] at h
    simp [runtime, runtime_const r h.1, runtimeL_const args h.2]
  | .node _ _ es, h => by simp only [noFn] at h; simp [runtime, runtimeL_const es h]
  | .constItem _ _ e, h => by simp only [noFn] at h; simp [runtime, runtime_const e h]
  | .fnItem _ _ _, h => by simp [noFn] at h

theorem runtimeL_const : ∀ (es : Exs), noFnL es = true → runtimeL true es = []
  | .nil, _ => rfl
  | .cons e es, h => by
    simp only [noFnL, Bool.and_eq_true] at h
    simp [runtimeL, runtime_const e h.1, runtimeL_const es h.2]

end

/-- The expression has a value at every moment. -/
def Fine (P : Platform) (Γ : Nat → Ty) (conf : Conf) (e : Ex) : Prop :=
  ∀ ρ, Typed P Γ ρ → Trusts conf ρ → Past P Γ e ρ → ∃ v, eval P ρ e = .ok v

theorem bind_val {x : Res} {f : Int → Res} (hx : ∃ a, x = .ok a) (hf : ∀ a, x = .ok a → ∃ v, f a = .ok v) :
    ∃ v, x.bind f = .ok v := by
  obtain ⟨a, rfl⟩ := hx
  exact hf a rfl

theorem evalNeg_fine (hn : NoInts conf) {e : Ex} {t : Ty} (hq : manageNeg conf const? t e = false)
    {ρ : State} (htr : Trusts conf ρ) {x : Int}
    (hk : known const? e = true ∨ known const? (unref e) = true → ∀ v, ∃ z, evalNeg P ρ t x v = .ok z) (u : Int) :
    ∃ z, evalNeg P ρ t x u = .ok z := by
  unfold manageNeg at hq
  split at hq
  next h => exact hk (.inl (by unfold known; rw [h]; simp)) u
  next =>
    split at hq
    next h =>
      have hl := hasUnary_listed h
      unfold evalNeg
      split
      next s => exact absurd hl (hn.neg s)
      · exact ⟨_, rfl⟩
      · exact ⟨_, rfl⟩
      · exact ⟨_, rfl⟩
      · exact htr.neg _ _ hl
    next =>
      split at hq
      next h =>
        rw [peelRefs_fst] at h
        exact hk (.inr (literal_known h)) u
      next => cases hq

theorem bin_fine (hP : P.Usual) (hc : ConstSound P Γ const?) (hls : LocalSound P Γ local?) (hn : NoInts conf)
    {sp : Nat} {asg : Bool} {op : BinOp} {t : Ty} {a b : Ex}
    (hq : check P conf const? local? (.bin sp asg op t a b) = none) (hw : WF P Γ (.bin sp asg op t a b))
    (ho : BinOk P Γ const? op a b) (ha : Fine P Γ conf a) (hb : Fine P Γ conf b) :
    Fine P Γ conf (.bin sp asg op t a b) := by
  intro ρ hρ htr hp
  cases hl : local? (.bin sp asg op t a b) with
  | true =>
    obtain ⟨v, hv⟩ := hls _ hl
    exact ⟨v, hv ρ hρ hp⟩
  | false =>
    simp only [check] at hq
    have hq' : manageBin P conf const? local? (.bin sp asg op t a b) op a b = false := by
      cases h : manageBin P conf const? local? (.bin sp asg op t a b) op a b with
      | true => rw [h] at hq; simp at hq
      | false => rfl
    simp only [WF] at hw
    simp only [Past] at hp
    obtain ⟨t', hty⟩ : ∃ t', opTyped op t' a.ty b.ty := by
      cases asg with
      | true => exact ⟨_, hw.2.1 rfl⟩
      | false => exact ⟨_, hw.1 rfl⟩
    simp only [eval]
    refine bind_val (ha ρ hρ htr hp.1) fun x hx => bind_val (hb ρ hρ htr hp.2) fun y hy => ?_
    exact bind_val (bin_sound hP hc hn hq' hl hty hw.2.2.1 hw.2.2.2 ho hρ htr hp.1 hp.2 hx hy t _)
      fun z _ => ⟨_, rfl⟩

theorem meth_fine (hP : P.Usual) (hc : ConstSound P Γ const?) (hls : LocalSound P Γ local?) (hn : NoInts conf)
    {sp : Nat} {m : Meth} {t : Ty} {r : Ex} {args : Exs}
    (hq : check P conf const? local? (.method sp m t r args) = none) (hw : WF P Γ (.method sp m t r args))
    (ho : MethOk P Γ const? local? m r args) (hr : Fine P Γ conf r)
    (ha : ∀ arg es, args = .cons arg es → Fine P Γ conf arg) :
    Fine P Γ conf (.method sp m t r args) := by
  intro ρ hρ htr hp
  cases args with
  | nil =>
    simp only [Past] at hp
    simp only [eval]
    exact bind_val (hr ρ hρ htr hp) fun x _ => ⟨_, rfl⟩
  | cons arg es =>
    cases hl : local? (.method sp m t r (.cons arg es)) with
    | true =>
      obtain ⟨v, hv⟩ := hls _ hl
      exact ⟨v, hv ρ hρ hp⟩
    | false =>
      simp only [Past] at hp
      simp only [eval]
      refine bind_val (hr ρ hρ htr hp.1) fun x hx => bind_val (ha arg es rfl ρ hρ htr hp.2) fun y hy => ?_
      simp only [check] at hq
      unfold manageMethod at hq
      simp only [WF, WFL] at hw
      cases m with
      | sugar asg op =>
        obtain ⟨⟨s, hs⟩, hlr, hmem, hbo⟩ := ho
        rw [if_neg (by rw [hlr]; simp), if_neg (by rw [hs]; simp [isInteger])] at hq
        simp only at hq
        have hsug : sugarOp op = true := by
          simp only [List.mem_cons, List.not_mem_nil, or_false] at hmem
          rcases hmem with rfl | rfl | rfl | rfl | rfl <;> rfl
        have hq' : manageBin P conf const? local? (.method sp (.sugar asg op) t r (.cons arg es)) op r arg = false := by
          cases h : manageBin P conf const? local? (.method sp (.sugar asg op) t r (.cons arg es)) op r arg with
          | true => rw [h, hsug] at hq; simp at hq
          | false => rfl
        obtain ⟨t', hty⟩ : ∃ t', opTyped op t' r.ty arg.ty := by
          have hm := hw.2.2
          cases asg with
          | true => exact ⟨_, hm⟩
          | false => exact ⟨_, hm⟩
        have hb := bin_sound hP hc hn hq' hl hty hw.1 hw.2.1.1 hbo hρ htr hp.1 hp.2 hx hy t (ρ.other sp t)
        cases asg with
        | true => exact bind_val hb fun z _ => ⟨_, rfl⟩
        | false => exact hb
      | divLike n =>
        obtain ⟨⟨s, hs⟩, hlr, hsl⟩ := ho
        rw [if_neg (by rw [hlr]; simp), if_neg (by rw [hs]; simp [isInteger])] at hq
        simp only at hq
        rw [peelRefs_fst] at hq
        cases hlit : literalInteger const? (unref arg) with
        | none => rw [hlit] at hq; simp at hq
        | some k =>
          rw [hlit] at hq
          simp only at hq
          have hu := unref_val (P := P) (Γ := Γ) ρ arg
          obtain ⟨c, s', hal, hty, hbits⟩ := literal_val hP hc (hu.2.2.1 hw.2.1.1) hsl hlit
          have hyc := hal ρ hρ (hu.2.2.2 hp.2)
          rw [hu.1, hy] at hyc
          cases hyc
          have hy0 : y ≠ 0 := by
            intro h0
            subst h0
            have : k = 0 := by
              rw [← hbits]; exact toBits_small (bits_ge hP s') (n := 0) (zero_in _)
            rw [if_pos this] at hq
            cases hq
          simp only [evalMeth, if_neg hy0]
          exact ⟨_, rfl⟩
      | get => exact ⟨_, rfl⟩
      | other n => exact ⟨_, rfl⟩

theorem lit_fine {sp n : Nat} {t : Ty} : Fine P Γ conf (.lit sp n t) := fun _ _ _ _ => ⟨_, rfl⟩

theorem neg_fine (hn : NoInts conf) {sp : Nat} {op : UnOp} {t : Ty} {e : Ex}
    (hq : check P conf const? local? (.un sp op t e) = none)
    (ht : op = .neg → known const? e = true ∨ known const? (unref e) = true →
      ∀ ρ, Typed P Γ ρ → Past P Γ e ρ → ∀ x, eval P ρ e = .ok x → ∀ v, ∃ z, evalNeg P ρ t x v = .ok z)
    (he : Fine P Γ conf e) : Fine P Γ conf (.un sp op t e) := by
  intro ρ hρ htr hp
  simp only [Past] at hp
  simp only [eval]
  refine bind_val (he ρ hρ htr hp) fun x hx => ?_
  cases op with
  | deref => exact ⟨_, rfl⟩
  | not => exact ⟨_, rfl⟩
  | neg =>
    simp only [check] at hq
    have hq' : manageNeg conf const? t e = false := by
      cases h : manageNeg conf const? t e with
      | true => rw [h] at hq; simp at hq
      | false => rfl
    exact evalNeg_fine hn hq' htr (fun hk v => ht rfl hk ρ hρ hp x hx v) _

/-- A piece of a body in which all is well. -/
def Good (P : Platform) (Γ : Nat → Ty) (conf : Conf) (o : Out) (e : Ex) : Prop :=
  o = ([], none) ∧ Fine P Γ conf e ∧ ∀ s ∈ runtime false e, Fine P Γ conf s

/-- The same for a list. -/
def GoodL (P : Platform) (Γ : Nat → Ty) (conf : Conf) (o : Out) (es : Exs) : Prop :=
  o = ([], none) ∧ (∀ e r, es = .cons e r → Fine P Γ conf e) ∧ ∀ s ∈ runtimeL false es, Fine P Γ conf s

mutual

/-- A walk without a report: every expression that runs has a value. -/
theorem visit_fine (hP : P.Usual) (hc : ConstSound P Γ const?) (hls : LocalSound P Γ local?) (hn : NoInts conf) :
    ∀ (e : Ex), (visit P conf const? local? false ([], none) e).1 = [] → WF P Γ e ∨ isLit e = true →
      Tame P Γ const? local? e → Good P Γ conf (visit P conf const? local? false ([], none) e) e
  | .lit sp n t, h, _, _ => by
    simp only [visit, leave_fst] at h
    refine ⟨by simp only [visit, (enter_quiet h).2, leave_none], fun _ _ _ _ => ⟨_, rfl⟩, ?_⟩
    intro s hs; simp only [runtime, Bool.false_eq_true, if_false, List.mem_singleton] at hs
    subst hs; exact fun _ _ _ _ => ⟨_, rfl⟩
  | .loc sp n t, h, _, _ => by
    simp only [visit, leave_fst] at h
    refine ⟨by simp only [visit, (enter_quiet h).2, leave_none], fun _ _ _ _ => ⟨_, rfl⟩, ?_⟩
    intro s hs; simp only [runtime, Bool.false_eq_true, if_false, List.mem_singleton] at hs
    subst hs; exact fun _ _ _ _ => ⟨_, rfl⟩
  | .bound sp n t i, h, _, _ => by
    simp only [visit, leave_fst] at h
    refine ⟨by simp only [visit, (enter_quiet h).2, leave_none], fun _ _ _ _ => ⟨_, rfl⟩, ?_⟩
    intro s hs; simp only [runtime, Bool.false_eq_true, if_false, List.mem_singleton] at hs
    subst hs; exact fun _ _ _ _ => ⟨_, rfl⟩
  | .un sp op t e, h, hw, ht => by
    simp only [visit, leave_fst] at h
    have he := enter_quiet (visit_nil e h)
    rw [he.2] at h
    simp only [Tame] at ht
    have hw' : WF P Γ e ∨ isLit e = true := by
      rcases hw with hw | hw
      · simp only [WF] at hw
        rcases hw.2 with hw | hw
        · exact .inr hw.2
        · exact .inl hw
      · cases hw
    obtain ⟨g1, g2, g3⟩ := visit_fine hP hc hls hn e h hw' ht.2
    have hf := neg_fine hn he.1 ht.1 g2
    refine ⟨by simp only [visit, he.2, g1, leave_none], hf, ?_⟩
    intro s hs
    simp only [runtime, Bool.false_eq_true, if_false, List.mem_append, List.mem_singleton] at hs
    rcases hs with rfl | hs
    · exact hf
    · exact g3 s hs
  | .ref sp e, h, hw, ht => by
    simp only [visit, leave_fst] at h
    have he := enter_quiet (visit_nil e h)
    rw [he.2] at h
    simp only [Tame] at ht
    have hw' : WF P Γ e ∨ isLit e = true := by
      rcases hw with hw | hw
      · simp only [WF] at hw; exact .inl hw
      · cases hw
    obtain ⟨g1, g2, g3⟩ := visit_fine hP hc hls hn e h hw' ht
    have hf : Fine P Γ conf (.ref sp e) := fun ρ a b c => g2 ρ a b c
    refine ⟨by simp only [visit, he.2, g1, leave_none], hf, ?_⟩
    intro s hs
    simp only [runtime, Bool.false_eq_true, if_false, List.mem_append, List.mem_singleton] at hs
    rcases hs with rfl | hs
    · exact hf
    · exact g3 s hs
  | .conv sp f t e, h, hw, ht => by
    simp only [visit, leave_fst] at h
    have he := enter_quiet (visit_nil e h)
    rw [he.2] at h
    simp only [Tame] at ht
    have hw' : WF P Γ e ∨ isLit e = true := by
      rcases hw with hw | hw
      · simp only [WF] at hw; exact .inl hw
      · cases hw
    obtain ⟨g1, g2, g3⟩ := visit_fine hP hc hls hn e h hw' ht
    have hf : Fine P Γ conf (.conv sp f t e) := fun ρ a b c => by
      simp only [eval]
      exact bind_val (g2 ρ a b c) fun x _ => ⟨_, rfl⟩
    refine ⟨by simp only [visit, he.2, g1, leave_none], hf, ?_⟩
    intro s hs
    simp only [runtime, Bool.false_eq_true, if_false, List.mem_append, List.mem_singleton] at hs
    rcases hs with rfl | hs
    · exact hf
    · exact g3 s hs
  | .bin sp asg op t a b, h, hw, ht => by
    have hw : WF P Γ (.bin sp asg op t a b) := by
      rcases hw with hw | hw
      · exact hw
      · cases hw
    have hw' := hw
    simp only [WF] at hw'
    simp only [Tame] at ht
    have key : check P conf const? local? (.bin sp asg op t a b) = none ∧
        visit P conf const? local? false ([], none) (.bin sp asg op t a b) = ([], none) ∧
        (Fine P Γ conf a ∧ ∀ s ∈ runtime false a, Fine P Γ conf s) ∧
        (Fine P Γ conf b ∧ ∀ s ∈ runtime false b, Fine P Γ conf s) := by
      simp only [visit] at h ⊢
      cases asg with
      | true =>
        simp only [if_true, leave_fst] at h ⊢
        have he := enter_quiet (visit_nil b (visit_nil a h))
        rw [he.2] at h
        obtain ⟨g1, g2⟩ := visit_fine hP hc hls hn b (visit_nil a h) (.inl hw'.2.2.2) ht.2.2
        rw [g1] at h
        obtain ⟨k1, k2⟩ := visit_fine hP hc hls hn a h (.inl hw'.2.2.1) ht.2.1
        exact ⟨he.1, by rw [he.2, g1, k1, leave_none], k2, g2⟩
      | false =>
        simp only [Bool.false_eq_true, if_false, leave_fst] at h ⊢
        have he := enter_quiet (visit_nil a (visit_nil b h))
        rw [he.2] at h
        obtain ⟨g1, g2⟩ := visit_fine hP hc hls hn a (visit_nil b h) (.inl hw'.2.2.1) ht.2.1
        rw [g1] at h
        obtain ⟨k1, k2⟩ := visit_fine hP hc hls hn b h (.inl hw'.2.2.2) ht.2.2
        exact ⟨he.1, by rw [he.2, g1, k1, leave_none], g2, k2⟩
    obtain ⟨hq, hv, ha, hb⟩ := key
    have hf := bin_fine hP hc hls hn hq hw ht.1 ha.1 hb.1
    refine ⟨hv, hf, ?_⟩
    intro s hs
    simp only [runtime, Bool.false_eq_true, if_false, List.mem_append, List.mem_singleton] at hs
    rcases hs with (rfl | hs) | hs
    · exact hf
    · exact ha.2 s hs
    · exact hb.2 s hs
  | .method sp m t r args, h, hw, ht => by
    have hw : WF P Γ (.method sp m t r args) := by
      rcases hw with hw | hw
      · exact hw
      · cases hw
    have hw' := hw
    simp only [WF] at hw'
    simp only [Tame] at ht
    simp only [visit, leave_fst] at h
    have he := enter_quiet (visit_nil r (visitL_nil args h))
    rw [he.2] at h
    obtain ⟨g1, g2, g3⟩ := visit_fine hP hc hls hn r (visitL_nil args h) (.inl hw'.1) ht.2.1
    rw [g1] at h
    obtain ⟨k1, k2, k3⟩ := visitL_fine hP hc hls hn args h hw'.2.1 ht.2.2
    have hf := meth_fine hP hc hls hn he.1 hw ht.1 g2 k2
    refine ⟨by simp only [visit, he.2, g1, k1, leave_none], hf, ?_⟩
    intro s hs
    simp only [runtime, Bool.false_eq_true, if_false, List.mem_append, List.mem_singleton] at hs
    rcases hs with (rfl | hs) | hs
    · exact hf
    · exact g3 s hs
    · exact k3 s hs
  | .node sp t es, h, hw, ht => by
    have hw : WFL P Γ es := by
      rcases hw with hw | hw
      · simpa only [WF] using hw
      · cases hw
    simp only [Tame] at ht
    simp only [visit, leave_fst] at h
    have he := enter_quiet (visitL_nil es h)
    rw [he.2] at h
    obtain ⟨k1, _, k3⟩ := visitL_fine hP hc hls hn es h hw ht
    refine ⟨by simp only [visit, he.2, k1, leave_none], fun _ _ _ _ => ⟨_, rfl⟩, ?_⟩
    intro s hs
    simp only [runtime, Bool.false_eq_true, if_false, List.mem_append, List.mem_singleton] at hs
    rcases hs with rfl | hs
    · exact fun _ _ _ _ => ⟨_, rfl⟩
    · exact k3 s hs
  | .constItem sp t e, h, _, ht => by
    simp only [Tame] at ht
    simp only [visit, leave_fst] at h
    have he := enter_quiet (visit_nil e h)
    refine ⟨by simp only [visit, he.2, visit_const, leave_none], fun _ _ _ _ => ⟨_, rfl⟩, ?_⟩
    intro s hs
    simp only [runtime, runtime_const e ht] at hs
    cases hs
  | .fnItem sp t e, h, hw, ht => by
    have hw : WF P Γ e := by
      rcases hw with hw | hw
      · simpa only [WF] using hw
      · cases hw
    simp only [Tame] at ht
    simp only [visit, leave_fst] at h
    have he := enter_quiet (visit_nil e h)
    rw [he.2] at h
    obtain ⟨k1, _, k3⟩ := visit_fine hP hc hls hn e h (.inl hw) ht
    refine ⟨by simp only [visit, he.2, k1, leave_none], fun _ _ _ _ => ⟨_, rfl⟩, ?_⟩
    intro s hs
    simp only [runtime] at hs
    exact k3 s hs

theorem visitL_fine (hP : P.Usual) (hc : ConstSound P Γ const?) (hls : LocalSound P Γ local?) (hn : NoInts conf) :
    ∀ (es : Exs), (visitL P conf const? local? false ([], none) es).1 = [] → WFL P Γ es →
      TameL P Γ const? local? es → GoodL P Γ conf (visitL P conf const? local? false ([], none) es) es
  | .nil, _, _, _ => by
    refine ⟨rfl, (fun _ _ h => by cases h), ?_⟩
    intro s hs; simp only [runtimeL] at hs; cases hs
  | .cons e es, h, hw, ht => by
    simp only [WFL] at hw
    simp only [TameL] at ht
    simp only [visitL] at h
    obtain ⟨g1, g2, g3⟩ := visit_fine hP hc hls hn e (visitL_nil es h) (.inl hw.1) ht.1
    rw [g1] at h
    obtain ⟨k1, k2, k3⟩ := visitL_fine hP hc hls hn es h hw.2 ht.2
    refine ⟨by simp only [visitL, g1, k1], ?_, ?_⟩
    · intro e' r' he; cases he; exact g2
    · intro s hs
      simp only [runtimeL, List.mem_append] at hs
      rcases hs with hs | hs
      · exact g3 s hs
      · exact k3 s hs

end

/-- **C77, in part.**  When the lint reports nothing in a body, then no arithmetic in it overflows,
divides by zero or panics in another way when the program runs.

Left out: shifts; literals with operators like `-1`; `0 - x`; division by `-1`; methods with
constants as receivers; operators of users' types together with the types the lint always lets
through; functions inside of constants; machines whose `usize` differs from that of the machine
clippy runs on.  Each of these is a counterexample in `Witness.lean`. -/
theorem silent_safe_partial (hP : P.Usual) (hc : ConstSound P Γ const?) (hls : LocalSound P Γ local?)
    (hn : NoInts conf) {body : Ex} (h : reports P conf const? local? body = []) (hw : WF P Γ body)
    (ht : Tame P Γ const? local? body) {e : Ex} (he : e ∈ runtime false body) {ρ : State}
    (hρ : Typed P Γ ρ) (htr : Trusts conf ρ) (hp : Past P Γ e ρ) : ∃ v, eval P ρ e = .ok v :=
  (visit_fine hP hc hls hn body h (.inl hw) ht).2.2 e he ρ hρ htr hp

/-! ### What a report hides -/

theorem enter_append (c : Bool) (l : List Nat) (st : Option Nat) (e : Ex) :
    enter P conf const? local? c (l, st) e =
      (l ++ (enter P conf const? local? c ([], st) e).1, (enter P conf const? local? c ([], st) e).2) := by
  unfold enter
  by_cases h : (c || st.isSome) = true
  · rw [if_pos h, if_pos h]; simp
  · rw [if_neg h, if_neg h]
    cases check P conf const? local? e <;> simp

theorem leave_append (sp : Nat) (l m : List Nat) (st : Option Nat) :
    leave sp (l ++ m, st) = (l ++ (leave sp (m, st)).1, (leave sp (m, st)).2) := by
  unfold leave
  by_cases h : st = some sp
  · rw [if_pos h, if_pos h]
  · rw [if_neg h, if_neg h]

theorem leave_append' (sp : Nat) (o : Out) (l : List Nat) :
    leave sp (l ++ o.1, o.2) = (l ++ (leave sp o).1, (leave sp o).2) := leave_append sp l o.1 o.2

mutual

theorem visit_append (c : Bool) : ∀ (e : Ex) (l : List Nat) (st : Option Nat),
    visit P conf const? local? c (l, st) e =
      (l ++ (visit P conf const? local? c ([], st) e).1, (visit P conf const? local? c ([], st) e).2)
  | .lit _ _ _, l, st => by
    simp only [visit]; rw [enter_append c l st, leave_append']
  | .loc _ _ _, l, st => by
    simp only [visit]; rw [enter_append c l st, leave_append']
  | .bound _ _ _ _, l, st => by
    simp only [visit]; rw [enter_append c l st, leave_append']
  | .un _ _ _ e, l, st => by
    simp only [visit]; rw [enter_append c l st, visit_append' c e, leave_append']
  | .ref _ e, l, st => by
    simp only [visit]; rw [enter_append c l st, visit_append' c e, leave_append']
  | .conv _ _ _ e, l, st => by
    simp only [visit]; rw [enter_append c l st, visit_append' c e, leave_append']
  | .bin _ asg _ _ a b, l, st => by
    cases asg with
    | true =>
      simp only [visit, if_true]
      rw [enter_append c l st, visit_append' c b, visit_append' c a, leave_append']
    | false =>
      simp only [visit, Bool.false_eq_true, if_false]
      rw [enter_append c l st, visit_append' c a, visit_append' c b, leave_append']
  | .method _ _ _ r args, l, st => by
    simp only [visit]; rw [enter_append c l st, visit_append' c r, visitL_append' c args, leave_append']
  | .node _ _ es, l, st => by
    simp only [visit]; rw [enter_append c l st, visitL_append' c es, leave_append']
  | .constItem _ _ e, l, st => by
    simp only [visit]; rw [enter_append c l st, visit_append' true e, leave_append']
  | .fnItem _ _ e, l, st => by
    simp only [visit]; rw [enter_append c l st, visit_append' c e, leave_append']

theorem visit_append' (c : Bool) : ∀ (e : Ex) (l : List Nat) (o : Out),
    visit P conf const? local? c (l ++ o.1, o.2) e =
      (l ++ (visit P conf const? local? c o e).1, (visit P conf const? local? c o e).2)
  | e, l, o => by
    rw [visit_append c e (l ++ o.1), show o = (o.1, o.2) from rfl, visit_append c e o.1]
    simp

theorem visitL_append' (c : Bool) : ∀ (es : Exs) (l : List Nat) (o : Out),
    visitL P conf const? local? c (l ++ o.1, o.2) es =
      (l ++ (visitL P conf const? local? c o es).1, (visitL P conf const? local? c o es).2)
  | .nil, _, _ => rfl
  | .cons e es, l, o => by
    simp only [visitL]
    rw [visit_append' c e, visitL_append' c es]

end

theorem leave_one (sp s : Nat) {o : Out} (h : o.2 = some s ∨ o.2 = none) :
    ((leave sp o).2 = some s ∨ (leave sp o).2 = none) ∧ (sp = s → (leave sp o).2 = none) := by
  unfold leave
  by_cases hs : o.2 = some sp
  · rw [if_pos hs]; exact ⟨.inr rfl, fun _ => rfl⟩
  · rw [if_neg hs]
    refine ⟨h, fun e => ?_⟩
    rcases h with h | h
    · rw [e] at hs; exact absurd h hs
    · exact h

theorem enter_some (c : Bool) (o : Out) (e : Ex) {s : Nat} (h : o.2 = some s) :
    (enter P conf const? local? c o e).2 = some s := by
  unfold enter; rw [if_pos (by rw [h]; simp)]; exact h

theorem enter_none (c : Bool) (o : Out) (e : Ex) (h : o.2 = none) :
    (enter P conf const? local? c o e).2 = none ∨
      (enter P conf const? local? c o e).2 = check P conf const? local? e := by
  unfold enter
  split
  · exact .inl h
  · split
    next hc => exact .inr hc.symm
    next => exact .inl h

/-- A report is at the expression or at the first argument. -/
theorem check_span {e : Ex} {s : Nat} (h : check P conf const? local? e = some s) :
    s = e.span ∨ ∃ sp m t r arg es, e = .method sp m t r (.cons arg es) ∧ s = arg.span := by
  unfold check at h
  split at h
  · split at h <;> cases h; exact .inl rfl
  · split at h <;> cases h; exact .inl rfl
  next sp m t r arg es =>
    unfold manageMethod at h
    repeat' split at h
    all_goals first
      | cases h; done
      | (cases h; exact .inl rfl)
      | (cases h; exact .inr ⟨_, _, _, _, _, _, rfl, rfl⟩)
  · cases h

/-- While something is pending it stays so or is done; nothing new is left pending. -/
def Keeps (f : Out → Out) : Prop :=
  (∀ s o, o.2 = some s ∨ o.2 = none → (f o).2 = some s ∨ (f o).2 = none) ∧ ∀ o, o.2 = none → (f o).2 = none

/-- It is done behind its expression. -/
def Ends (sp : Nat) (f : Out → Out) : Prop := ∀ o, o.2 = some sp ∨ o.2 = none → (f o).2 = none

theorem keeps_comp {f g : Out → Out} (hf : Keeps f) (hg : Keeps g) : Keeps (fun o => g (f o)) :=
  ⟨fun s o h => hg.1 s _ (hf.1 s o h), fun o h => hg.2 _ (hf.2 o h)⟩

theorem keeps_id : Keeps (fun o => o) := ⟨fun _ _ h => h, fun _ h => h⟩

theorem step {c : Bool} {e : Ex} {f : Out → Out} (hf : Keeps f)
    (h : ∀ s, check P conf const? local? e = some s → s = e.span ∨ Ends s f) :
    Keeps (fun o => leave e.span (f (enter P conf const? local? c o e))) ∧
      Ends e.span (fun o => leave e.span (f (enter P conf const? local? c o e))) := by
  have none_case : ∀ o : Out, o.2 = none →
      (leave e.span (f (enter P conf const? local? c o e))).2 = none := by
    intro o ho
    rcases enter_none (P := P) (conf := conf) (const? := const?) (local? := local?) c o e ho with h' | h'
    · exact (leave_one e.span e.span (.inr (hf.2 _ h'))).2 rfl
    · cases hc : check P conf const? local? e with
      | none => rw [hc] at h'; exact (leave_one e.span e.span (.inr (hf.2 _ h'))).2 rfl
      | some s =>
        rw [hc] at h'
        rcases h s hc with hs | hs
        · subst hs; exact (leave_one e.span e.span (hf.1 _ _ (.inl h'))).2 rfl
        · exact (leave_one e.span e.span (.inr (hs _ (.inl h')))).2 rfl
  refine ⟨⟨fun s o ho => ?_, none_case⟩, fun o ho => ?_⟩
  · rcases ho with ho | ho
    · exact (leave_one e.span s (hf.1 s _ (.inl (enter_some c o e ho)))).1
    · exact .inr (none_case o ho)
  · rcases ho with ho | ho
    · exact (leave_one e.span e.span (hf.1 _ _ (.inl (enter_some c o e ho)))).2 rfl
    · exact none_case o ho

/-- Only method calls are reported elsewhere. -/
theorem own {e : Ex} (h : ∀ sp m t r arg es, e ≠ .method sp m t r (.cons arg es)) (f : Out → Out) :
    ∀ s, check P conf const? local? e = some s → s = e.span ∨ Ends s f := by
  intro s hs
  rcases check_span hs with h' | ⟨sp, m, t, r, arg, es, he, _⟩
  · exact .inl h'
  · exact absurd he (h _ _ _ _ _ _)

mutual

theorem visit_settles (c : Bool) : ∀ (e : Ex),
    Keeps (fun o => visit P conf const? local? c o e) ∧ Ends e.span (fun o => visit P conf const? local? c o e)
  | .lit sp n t => by
    simp only [visit]
    exact step (e := .lit sp n t) keeps_id (own (by intros; simp) _)
  | .loc sp n t => by
    simp only [visit]
    exact step (e := .loc sp n t) keeps_id (own (by intros; simp) _)
  | .bound sp n t i => by
    simp only [visit]
    exact step (e := .bound sp n t i) keeps_id (own (by intros; simp) _)
  | .un sp op t e => by
    simp only [visit]
    exact step (e := .un sp op t e) (visit_settles c e).1 (own (by intros; simp) _)
  | .ref sp e => by
    simp only [visit]
    exact step (e := .ref sp e) (visit_settles c e).1 (own (by intros; simp) _)
  | .conv sp f t e => by
    simp only [visit]
    exact step (e := .conv sp f t e) (visit_settles c e).1 (own (by intros; simp) _)
  | .bin sp asg op t a b => by
    cases asg with
    | true =>
      simp only [visit, if_true]
      exact step (e := .bin sp true op t a b) (keeps_comp (visit_settles c b).1 (visit_settles c a).1)
        (own (by intros; simp) _)
    | false =>
      simp only [visit, Bool.false_eq_true, if_false]
      exact step (e := .bin sp false op t a b) (keeps_comp (visit_settles c a).1 (visit_settles c b).1)
        (own (by intros; simp) _)
  | .method sp m t r args => by
    simp only [visit]
    refine step (e := .method sp m t r args)
      (f := fun o => visitL P conf const? local? c (visit P conf const? local? c o r) args)
      (keeps_comp (visit_settles c r).1 (visitL_settles c args).1) fun s hs => ?_
    rcases check_span hs with h | ⟨_, _, _, _, arg, es, he, h⟩
    · exact .inl h
    · cases he
      subst h
      exact .inr fun o ho => (visitL_settles c (.cons arg es)).2 arg es rfl _ ((visit_settles c r).1.1 _ _ ho)
  | .node sp t es => by
    simp only [visit]
    exact step (e := .node sp t es) (visitL_settles c es).1 (own (by intros; simp) _)
  | .constItem sp t e => by
    simp only [visit]
    exact step (e := .constItem sp t e) (visit_settles true e).1 (own (by intros; simp) _)
  | .fnItem sp t e => by
    simp only [visit]
    exact step (e := .fnItem sp t e) (visit_settles c e).1 (own (by intros; simp) _)

theorem visitL_settles (c : Bool) : ∀ (es : Exs), Keeps (fun o => visitL P conf const? local? c o es) ∧
    ∀ e r, es = .cons e r → Ends e.span (fun o => visitL P conf const? local? c o es)
  | .nil => by
    simp only [visitL]
    exact ⟨keeps_id, by intro e r h; cases h⟩
  | .cons e es => by
    simp only [visitL]
    refine ⟨keeps_comp (visit_settles c e).1 (visitL_settles c es).1, ?_⟩
    intro e' r' h
    cases h
    exact fun o ho => (visitL_settles c es).1.2 _ ((visit_settles c e).2 o ho)

end

/-- The reports of each. -/
def eachReport (P : Platform) (conf : Conf) (const? : Ex → Option Nat) (local? : Ex → Bool) : Exs → List Nat
  | .nil => []
  | .cons e es => reports P conf const? local? e ++ eachReport P conf const? local? es

theorem visitL_each : ∀ (es : Exs) (l : List Nat), visitL P conf const? local? false (l, none) es =
    (l ++ eachReport P conf const? local? es, none)
  | .nil, l => by simp [visitL, eachReport]
  | .cons e es, l => by
    simp only [visitL, eachReport]
    rw [visit_append false e l none, (visit_settles false e).1.2 ([], none) rfl, visitL_each es]
    simp [reports]

/-- **C77.**  A report never hides what follows: the reports in a sequence of statements are those of
each statement taken alone. -/
theorem reports_node (sp : Nat) (t : Ty) (es : Exs) :
    reports P conf const? local? (.node sp t es) = eachReport P conf const? local? es := by
  have hq : enter P conf const? local? false ([], none) (.node sp t es) = ([], none) := by
    simp [enter, check]
  simp only [reports, visit, leave_fst, hq]
  rw [visitL_each]
  simp

/-- **C77.**  Inside of an operation without a report, operands are reported as if they stood alone. -/
theorem reports_operands (sp : Nat) (asg : Bool) (op : BinOp) (t : Ty) (a b : Ex)
    (h : check P conf const? local? (.bin sp asg op t a b) = none) :
    ∀ s, s ∈ reports P conf const? local? (.bin sp asg op t a b) ↔
      s ∈ reports P conf const? local? a ∨ s ∈ reports P conf const? local? b := by
  have hq : enter P conf const? local? false ([], none) (.bin sp asg op t a b) = ([], none) := by
    simp [enter, h]
  have one : ∀ e1 e2 : Ex, (visit P conf const? local? false (visit P conf const? local? false ([], none) e1) e2).1 =
      reports P conf const? local? e1 ++ reports P conf const? local? e2 := by
    intro e1 e2
    have := visitL_each (P := P) (conf := conf) (const? := const?) (local? := local?) (.cons e1 (.cons e2 .nil)) []
    simp only [visitL, eachReport] at this
    rw [this]; simp
  intro s
  cases asg with
  | true =>
    simp only [reports, visit, if_true, leave_fst, hq]
    rw [one b a, List.mem_append]
    exact Or.comm
  | false =>
    simp only [reports, visit, Bool.false_eq_true, if_false, leave_fst, hq]
    rw [one a b, List.mem_append]
    exact Iff.rfl

/-- **C77.**  An integer divided by a literal other than zero is not reported. -/
theorem div_literal_quiet (sp : Nat) (asg : Bool) (op : BinOp) (t : Ty) (a : Ex) (k n : Nat) (s s' : ITy)
    (ho : op = .div ∨ op = .rem) (ha : a.ty = .int s) (hs : (source a).ty = .int s)
    (hk : known const? (source a) = false) (h0 : n ≠ 0) :
    check P conf const? local? (.bin sp asg op t a (.lit k n (.int s'))) = none := by
  have hl : literalInteger const? (actual a) = none := by
    cases hl : literalInteger const? (actual a) with
    | none => rfl
    | some m => rw [actual_eq] at hl; rw [literal_known (by rw [hl]; rfl)] at hk; cases hk
  have hi : intsOk const? op a (.lit k n (.int s')) = true := by
    unfold intsOk
    rw [hl, actual_eq, hs]
    have : literalInteger const? (actual (.lit k n (.int s'))) = some n := rfl
    rw [this]
    rcases ho with rfl | rfl <;>
      simp [isInteger, actual, peelRefs, exprOrInit, Ex.ty, literalsOk, isDivRem, h0]
  have : manageBin P conf const? local? (.bin sp asg op t a (.lit k n (.int s'))) op a (.lit k n (.int s')) =
      false := by
    unfold manageBin
    rw [hi]
    simp
  simp [check, this]

end

end Verif.SideFx
