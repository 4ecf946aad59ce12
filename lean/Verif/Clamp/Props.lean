import Verif.Clamp.Model

/-
C30: what the replacement by `clamp` computes.
Specification: the meaning of the source shapes and of `[target =] input.clamp(min, max)`.
-/

namespace Verif.Clamp

open Verif

/-! ### Specification -/

/-- Values of the places. -/
abbrev State (α : Type) := Nat → α

def State.set {α} (s : State α) (p : Nat) (v : α) : State α := fun q => if q = p then v else s q

/-- The value of an operand. -/
def E.eval {α} (t : Ty α) (s : State α) : E α → α
  | .place p => s p
  | .lit n => t.ofLit n
  | .const _ v => v
  | .other k _ => t.other k s

/-- The value of a condition; operators that are not comparisons may do anything. -/
def Bin.eval {α} (t : Ty α) (any : State α → Bool) (s : State α) (b : Bin α) : Bool :=
  match b.op with
  | .cmp c => t.ord.holds c (b.left.eval t s) (b.right.eval t s)
  | .other => any s

def isNaN {α} (t : Ty α) (a : α) : Bool := t.float && !(t.ord.cmp a a == some .eq)

/-- `Ord::max`, and `f64::max`, which prefers the operand that is not NaN. -/
def maxV {α} (t : Ty α) (a b : α) : α :=
  if isNaN t a then b else if isNaN t b then a else if t.ord.holds .lt b a then a else b

/-- `Ord::min`, and `f64::min`. -/
def minV {α} (t : Ty α) (a b : α) : α :=
  if isNaN t a then b else if isNaN t b then a else if t.ord.holds .lt b a then b else a

def M.app {α} (t : Ty α) : M → α → α → α
  | .min => minV t
  | .max => maxV t

def Fn.app {α} (t : Ty α) : Fn → α → α → α
  | .cmp m | .ord m => m.app t

/-- `x.clamp(lo, hi)`, which panics (`none`) unless `lo <= hi`. -/
def clamp {α} (t : Ty α) (x lo hi : α) : Option α :=
  if t.ord.holds .le lo hi then
    some (if t.ord.holds .lt x lo then lo else if t.ord.holds .gt x hi then hi else x)
  else none

/-- What running a piece of code gives: a value, or new values of the places. -/
inductive Outcome (α : Type) where
  | val (v : α)
  | state (s : State α)

/-- The meaning of the source shapes. -/
def Prog.run {α} (t : Ty α) (any : State α → Bool) (s : State α) : Prog α → Outcome α
  | .ifElse c1 e1 c2 e2 last =>
    .val (if c1.eval t any s then e1.eval t s else if c2.eval t any s then e2.eval t s
      else last.eval t s)
  | .methods input m1 a1 m2 a2 => .val (m2.app t (m1.app t (input.eval t s) (a1.eval t s)) (a2.eval t s))
  | .calls outer inner i1 i2 arg swapped =>
    .val (if swapped then outer.app t (arg.eval t s) (inner.app t (i1.eval t s) (i2.eval t s))
      else outer.app t (inner.app t (i1.eval t s) (i2.eval t s)) (arg.eval t s))
  | .arms v b1 c1 e1 b2 c2 e2 b3 last =>
    .val (if c1.eval t any (s.set b1 (v.eval t s)) then e1.eval t (s.set b1 (v.eval t s))
      else if c2.eval t any (s.set b2 (v.eval t s)) then e2.eval t (s.set b2 (v.eval t s))
      else last.eval t (s.set b3 (v.eval t s)))
  | .ifAssign c1 p1 e1 c2 p2 e2 =>
    .state (if c1.eval t any s then s.set p1 (e1.eval t s)
      else if c2.eval t any s then s.set p2 (e2.eval t s) else s)
  | .twoIf c1 p1 e1 c2 p2 e2 =>
    let s' := if c1.eval t any s then s.set p1 (e1.eval t s) else s
    .state (if c2.eval t any s' then s'.set p2 (e2.eval t s') else s')

/-- The meaning of the suggestion; `none` is a panic. -/
def Suggestion.run {α} (t : Ty α) (s : State α) (g : Suggestion α) : Option (Outcome α) :=
  (clamp t (g.params.input.eval t s) (g.params.min.eval t s) (g.params.max.eval t s)).map fun v =>
    match g.target with
    | some p => .state (s.set p v)
    | none => .val v

/-- The same value, or two values that compare equal. -/
def Same {α} (t : Ty α) (a b : α) : Prop := a = b ∨ t.ord.cmp a b = some .eq

def SameOut {α} (t : Ty α) : Outcome α → Outcome α → Prop
  | .val a, .val b => Same t a b
  | .state s, .state s' => ∀ p, Same t (s p) (s' p)
  | _, _ => False

/-- On unsigned integers `x == 0` and `x < 1` are the same. -/
def Ty.UintLaw {α} (t : Ty α) : Prop :=
  t.uint = true → ∀ v, (t.ord.holds .eq v (t.ofLit 0) = t.ord.holds .lt v (t.ofLit 1))

/-- The full property. -/
def ClampSound {α} [DecidableEq α] (t : Ty α) (p : Prog α) : Prop :=
  ∀ g, lint t p = some g → ∀ (any : State α → Bool) (s : State α),
    ∃ o, g.run t s = some o ∧ SameOut t o (p.run t any s)

/-- The assigned place is what the first condition compares (for the assigning shapes). -/
def Prog.ComparesTarget {α} : Prog α → Prop
  | .ifAssign c1 p1 _ _ _ _ | .twoIf c1 p1 _ _ _ _ => c1.left = .place p1 ∨ c1.right = .place p1
  | _ => True

/-- Shapes that call `min` and `max`. -/
def Prog.callsMinMax {α} : Prog α → Bool
  | .methods .. | .calls .. => true
  | _ => false

/-! ### Lemmas -/

section
variable {α : Type} (t : Ty α)

theorem cmp_self_total (ht : t.ord.Total) (a : α) : t.ord.cmp a a = some .eq := by
  obtain ⟨o, h⟩ := ht a a
  have := t.ord.dual a a
  rw [h] at this
  cases o with
  | eq => exact h
  | lt => cases this
  | gt => cases this

theorem isNaN_total (ht : t.ord.Total) (a : α) : isNaN t a = false := by
  simp [isNaN, cmp_self_total t ht a]

theorem eval_place (s : State α) (p : Nat) : E.eval t s (.place p) = s p := rfl

theorem konst_eval {e : E α} {v : α} (h : e.konst? t = some v) (s : State α) : e.eval t s = v := by
  cases e <;> simp_all [E.konst?, E.eval]

variable {t}

theorem minLess_spec {p : Params α} (h : minLessThanMax t p = true) : ∃ lo hi,
    p.min.konst? t = some lo ∧ p.max.konst? t = some hi ∧ t.ord.holds .le lo hi = true := by
  unfold minLessThanMax at h
  split at h
  case h_1 mx mn h1 h2 =>
    refine ⟨mn, mx, h2, h1, ?_⟩
    split at h
    case h_1 o ho => cases o <;> simp_all [POrd.holds]
    case h_2 => simp at h
  case h_2 => simp at h

theorem normalize_sound [DecidableEq α] (hu : t.UintLaw) (any) (s : State α) (b : Bin α) (e : E α) :
    (normalize t b e).eval t any s = b.eval t any s := by
  unfold normalize
  split
  case isFalse => rfl
  case isTrue h =>
    simp only [Bool.and_eq_true, decide_eq_true_eq] at h
    obtain ⟨⟨hop, hut⟩, he⟩ := h
    split
    case h_2 => rfl
    case h_1 input hi =>
      unfold zeroCmpInput at hi
      have hl := hu hut
      split at hi
      case isTrue hr =>
        cases hi
        simp only [Bin.eval, hop, hr, he, E.eval]
        exact (hl _).symm
      case isFalse =>
        split at hi
        case isFalse => cases hi
        case isTrue hr =>
          cases hi
          have h0 : E.eval t s (.lit 0) = t.ofLit 0 := rfl
          have h1 : E.eval t s (.lit 1) = t.ofLit 1 := rfl
          simp only [Bin.eval, hop, hr, he, h0, h1]
          rw [← hl]
          simp only [POrd.holds]
          rw [t.ord.dual (E.eval t s b.right) (t.ofLit 0)]
          cases t.ord.cmp (E.eval t s b.right) (t.ofLit 0) with
          | none => rfl
          | some o => cases o <;> rfl

theorem normalize_place [DecidableEq α] {b : Bin α} {q : Nat} (e : E α)
    (h : b.left = .place q ∨ b.right = .place q) :
    (normalize t b e).left = .place q ∨ (normalize t b e).right = .place q := by
  unfold normalize
  split
  case isFalse => exact h
  case isTrue =>
    split
    case h_2 => exact h
    case h_1 input hi =>
      left
      show input = .place q
      unfold zeroCmpInput at hi
      split at hi
      case isTrue hr =>
        cases hi
        rcases h with h | h
        · exact h
        · rw [hr] at h; cases h
      case isFalse =>
        split at hi
        case isFalse => cases hi
        case isTrue hr =>
          cases hi
          rcases h with h | h
          · rw [hr] at h; cases h
          · exact h

theorem flip_sound (any) (s : State α) (b : Bin α) : b.flip.eval t any s = b.eval t any s ∨
    ¬ isOrdOp b.op := by
  rcases b with ⟨op, l, r⟩
  cases op with
  | other => exact .inr (by simp [isOrdOp, isUpper, isLower])
  | cmp c =>
    cases c <;> simp only [isOrdOp, isUpper, isLower, Bin.flip, flipOp, Bin.eval, POrd.holds] <;>
      first
      | (exact .inr (by decide))
      | (refine .inl ?_
         rw [t.ord.dual (E.eval t s l) (E.eval t s r)]
         cases t.ord.cmp (E.eval t s l) (E.eval t s r) with
         | none => rfl
         | some o => cases o <;> rfl)

/-- What a successful match of the two conditions says. -/
structure Matched (t : Ty α) (b1 b2 : Bin α) (e1 e2 : E α) (ids : Option (Nat × Nat)) (p : Params α) where
  l1 : E α
  l2 : E α
  o1 : Cmp
  o2 : Cmp
  c1 : ∀ any s, b1.eval t any s = t.ord.holds o1 (l1.eval t s) (e1.eval t s)
  c2 : ∀ any s, b2.eval t any s = t.ord.holds o2 (l2.eval t s) (e2.eval t s)
  sides : (isUpper (.cmp o1) = true ∧ isLower (.cmp o2) = true ∧ p.max = e1 ∧ p.min = e2) ∨
    (isLower (.cmp o1) = true ∧ isUpper (.cmp o2) = true ∧ p.min = e1 ∧ p.max = e2)
  input : ids = none → l1 = l2 ∧ p.input = l1
  binds : ∀ a b, ids = some (a, b) → l1 = .place a ∧ l2 = .place b
  operand : (l1 = b1.left ∧ e1 = b1.right) ∨ (l1 = b1.right ∧ e1 = b1.left)

theorem upper_cmp {o : Op} (h : isUpper o = true) : ∃ c, o = .cmp c := by
  cases o <;> simp_all [isUpper]

theorem lower_cmp {o : Op} (h : isLower o = true) : ∃ c, o = .cmp c := by
  cases o <;> simp_all [isLower]

theorem check_matched [DecidableEq α] {b1 b2 : Bin α} {e1 e2 : E α} {ids} {p : Params α}
    (h : check b1 b2 e1 e2 ids = some p) :
    isUpper b1.op = true ∧ isLower b2.op = true ∧ refersToInput b1.left b2.left ids = true ∧
      b1.right = e1 ∧ b2.right = e2 ∧ p = ⟨b1.left, e2, e1⟩ := by
  unfold check at h
  split at h
  case isFalse => cases h
  case isTrue hc =>
    simp only [Bool.and_eq_true, beq_iff_eq] at hc
    cases h
    exact ⟨hc.1.1.1.1, hc.1.1.1.2, hc.1.1.2, hc.1.2, hc.2, rfl⟩

theorem tryCase_matched [DecidableEq α] {b1 b2 : Bin α} {e1 e2 : E α} {ids} {p : Params α}
    (h : tryCase b1 b2 e1 e2 ids = some p) : Nonempty (Matched t b1 b2 e1 e2 ids p) := by
  unfold tryCase at h
  rw [Option.or_eq_some_iff] at h
  rcases h with h | ⟨_, h⟩
  · obtain ⟨u, l, r, h1, h2, rfl⟩ := check_matched h
    obtain ⟨c1, hc1⟩ := upper_cmp u
    obtain ⟨c2, hc2⟩ := lower_cmp l
    refine ⟨⟨b1.left, b2.left, c1, c2, ?_, ?_, .inl ⟨hc1 ▸ u, hc2 ▸ l, rfl, rfl⟩, ?_, ?_,
      .inl ⟨rfl, h1.symm⟩⟩⟩
    · intro any s; simp only [Bin.eval, hc1, h1]
    · intro any s; simp only [Bin.eval, hc2, h2]
    · rintro rfl
      simp only [refersToInput, beq_iff_eq] at r
      exact ⟨r, rfl⟩
    · rintro a b rfl
      simpa [refersToInput] using r
  · obtain ⟨u, l, r, h1, h2, rfl⟩ := check_matched h
    obtain ⟨c2, hc2⟩ := upper_cmp u
    obtain ⟨c1, hc1⟩ := lower_cmp l
    refine ⟨⟨b1.left, b2.left, c1, c2, ?_, ?_, .inr ⟨hc1 ▸ l, hc2 ▸ u, rfl, rfl⟩, ?_, ?_,
      .inl ⟨rfl, h2.symm⟩⟩⟩
    · intro any s; simp only [Bin.eval, hc1, h2]
    · intro any s; simp only [Bin.eval, hc2, h1]
    · rintro rfl
      simp only [Option.map_none, refersToInput, beq_iff_eq] at r
      exact ⟨r.symm, r⟩
    · rintro a b rfl
      simp only [Option.map_some, Prod.swap, refersToInput, Bool.and_eq_true, beq_iff_eq] at r
      exact ⟨r.2, r.1⟩

theorem Matched.unflip {b1 b2 : Bin α} {e1 e2 : E α} {ids} {p : Params α}
    {b1' b2' : Bin α} (m : Matched t b1' b2' e1 e2 ids p)
    (h1 : b1' = b1 ∨ (b1' = b1.flip ∧ isOrdOp b1.op = true))
    (h2 : b2' = b2 ∨ (b2' = b2.flip ∧ isOrdOp b2.op = true)) :
    Nonempty (Matched t b1 b2 e1 e2 ids p) := by
  refine ⟨⟨m.l1, m.l2, m.o1, m.o2, ?_, ?_, m.sides, m.input, m.binds, ?_⟩⟩
  · intro any s
    rw [← m.c1 any s]
    rcases h1 with rfl | ⟨rfl, h⟩
    · rfl
    · rcases flip_sound (t := t) any s b1 with hf | hf
      · exact hf.symm
      · exact absurd h hf
  · intro any s
    rw [← m.c2 any s]
    rcases h2 with rfl | ⟨rfl, h⟩
    · rfl
    · rcases flip_sound (t := t) any s b2 with hf | hf
      · exact hf.symm
      · exact absurd h hf
  · rcases h1 with rfl | ⟨rfl, h⟩
    · exact m.operand
    · exact m.operand.symm

/-- As `Matched`, without relating the operands of the first condition to the result. -/
structure Clamps (t : Ty α) (b1 b2 : Bin α) (e1 e2 : E α) (ids : Option (Nat × Nat)) (p : Params α) where
  l1 : E α
  l2 : E α
  o1 : Cmp
  o2 : Cmp
  c1 : ∀ any s, b1.eval t any s = t.ord.holds o1 (l1.eval t s) (e1.eval t s)
  c2 : ∀ any s, b2.eval t any s = t.ord.holds o2 (l2.eval t s) (e2.eval t s)
  sides : (isUpper (.cmp o1) = true ∧ isLower (.cmp o2) = true ∧ p.max = e1 ∧ p.min = e2) ∨
    (isLower (.cmp o1) = true ∧ isUpper (.cmp o2) = true ∧ p.min = e1 ∧ p.max = e2)
  input : ids = none → l1 = l2 ∧ p.input = l1
  binds : ∀ a b, ids = some (a, b) → l1 = .place a ∧ l2 = .place b
  operand : ∀ q, (b1.left = .place q ∨ b1.right = .place q) → (e1.konst? t).isSome → l1 = .place q

theorem metaPattern_clamps [DecidableEq α] (hu : t.UintLaw) {b1 b2 : Bin α} {e1 e2 : E α} {ids}
    {p : Params α} (h : metaPattern t b1 b2 e1 e2 ids = some p) :
    Nonempty (Clamps t b1 b2 e1 e2 ids p) := by
  unfold metaPattern at h
  split at h
  case isTrue => cases h
  case isFalse =>
    split at h
    case isFalse => cases h
    case isTrue ho =>
      rw [Bool.and_eq_true] at ho
      have key : Nonempty (Matched t (normalize t b1 e1) (normalize t b2 e2) e1 e2 ids p) := by
        unfold tryCases at h
        rw [Option.or_eq_some_iff, Option.or_eq_some_iff, Option.or_eq_some_iff] at h
        rcases h with h | ⟨_, h | ⟨_, h | ⟨_, h⟩⟩⟩
        · exact tryCase_matched h
        · obtain ⟨m⟩ := tryCase_matched (t := t) h
          exact m.unflip (.inr ⟨rfl, ho.1⟩) (.inr ⟨rfl, ho.2⟩)
        · obtain ⟨m⟩ := tryCase_matched (t := t) h
          exact m.unflip (.inr ⟨rfl, ho.1⟩) (.inl rfl)
        · obtain ⟨m⟩ := tryCase_matched (t := t) h
          exact m.unflip (.inl rfl) (.inr ⟨rfl, ho.2⟩)
      obtain ⟨m⟩ := key
      refine ⟨⟨m.l1, m.l2, m.o1, m.o2, ?_, ?_, m.sides, m.input, m.binds, ?_⟩⟩
      · intro any s; rw [← normalize_sound hu any s b1 e1]; exact m.c1 any s
      · intro any s; rw [← normalize_sound hu any s b2 e2]; exact m.c2 any s
      · intro q hq hk
        have hop := m.operand
        have hne : e1 ≠ .place q := by rintro rfl; simp [E.konst?] at hk
        rcases hop with ⟨a, b⟩ | ⟨a, b⟩ <;> rcases normalize_place e1 hq with hq | hq
        · rw [a, hq]
        · exact absurd (b.trans hq) hne
        · exact absurd (b.trans hq) hne
        · rw [a, hq]

/-! #### Order facts -/

theorem le_not_lt {x lo hi : α} (hl : t.ord.holds .le lo hi = true) (h1 : t.ord.cmp x lo = some .lt) :
    t.ord.cmp x hi = some .lt := by
  simp only [POrd.holds, Bool.or_eq_true, beq_iff_eq] at hl
  rcases hl with hl | hl
  · exact t.ord.lt_trans h1 hl
  · rw [← t.ord.eq_right hl]; exact h1

theorem le_not_gt {x lo hi : α} (hl : t.ord.holds .le lo hi = true) (h1 : t.ord.cmp x hi = some .gt) :
    t.ord.cmp x lo = some .gt := by
  simp only [POrd.holds, Bool.or_eq_true, beq_iff_eq] at hl
  rcases hl with hl | hl
  · exact t.ord.gt_iff.2 (t.ord.lt_trans hl (t.ord.gt_iff.1 h1))
  · rw [t.ord.eq_right hl]; exact h1

/-- The value `clamp` gives. -/
def clampV (t : Ty α) (x lo hi : α) : α :=
  if t.ord.holds .lt x lo then lo else if t.ord.holds .gt x hi then hi else x

theorem clamp_eq {x lo hi : α} (hl : t.ord.holds .le lo hi = true) :
    clamp t x lo hi = some (clampV t x lo hi) := by
  simp only [clamp, hl, if_true, clampV]

theorem clampV_lower {x lo hi : α} {o : Cmp} (ho : isLower (.cmp o) = true)
    (hl : t.ord.holds .le lo hi = true) (h : t.ord.holds o x lo = true) :
    Same t (clampV t x lo hi) lo := by
  have h' : t.ord.cmp x lo = some .lt ∨ t.ord.cmp x lo = some .eq := by
    cases o <;> simp_all [isLower, POrd.holds]
  rcases h' with h' | h'
  · exact .inl (by simp [clampV, POrd.holds, h'])
  · simp only [clampV, POrd.holds, h']
    have : t.ord.cmp x hi ≠ some .gt := by
      intro hg; rw [le_not_gt hl hg] at h'; cases h'
    simp [this, Same, h']

theorem clampV_upper {x lo hi : α} {o : Cmp} (ho : isUpper (.cmp o) = true)
    (hl : t.ord.holds .le lo hi = true) (h : t.ord.holds o x hi = true) :
    Same t (clampV t x lo hi) hi := by
  have h' : t.ord.cmp x hi = some .gt ∨ t.ord.cmp x hi = some .eq := by
    cases o <;> simp_all [isUpper, POrd.holds]
  have hlt : t.ord.cmp x lo ≠ some .lt := by
    intro hg
    have := le_not_lt hl hg
    rcases h' with h' | h' <;> rw [h'] at this <;> cases this
  rcases h' with h' | h'
  · exact .inl (by simp [clampV, POrd.holds, h', hlt])
  · simp [clampV, POrd.holds, h', hlt, Same]

theorem clampV_inside {x lo hi : α} {o1 o2 : Cmp} (h1 : isLower (.cmp o1) = true)
    (h2 : isUpper (.cmp o2) = true) (hl : t.ord.holds o1 x lo = false) (hh : t.ord.holds o2 x hi = false) :
    clampV t x lo hi = x := by
  have a : t.ord.cmp x lo ≠ some .lt := by cases o1 <;> simp_all [isLower, POrd.holds]
  have b : t.ord.cmp x hi ≠ some .gt := by cases o2 <;> simp_all [isUpper, POrd.holds]
  simp [clampV, POrd.holds, a, b]

/-- Choosing by two conditions computes the clamped value. -/
theorem choose_clamp {x lo hi r1 r2 : α} {o1 o2 : Cmp} (hl : t.ord.holds .le lo hi = true)
    (hs : (isUpper (.cmp o1) = true ∧ isLower (.cmp o2) = true ∧ hi = r1 ∧ lo = r2) ∨
      (isLower (.cmp o1) = true ∧ isUpper (.cmp o2) = true ∧ lo = r1 ∧ hi = r2)) :
    Same t (clampV t x lo hi)
      (if t.ord.holds o1 x r1 then r1 else if t.ord.holds o2 x r2 then r2 else x) := by
  rcases hs with ⟨u, l, rfl, rfl⟩ | ⟨l, u, rfl, rfl⟩
  · split
    case isTrue h => exact clampV_upper u hl h
    case isFalse h =>
      split
      case isTrue h' => exact clampV_lower l hl h'
      case isFalse h' => exact .inl (clampV_inside l u (by simpa using h') (by simpa using h))
  · split
    case isTrue h => exact clampV_lower l hl h
    case isFalse h =>
      split
      case isTrue h' => exact clampV_upper u hl h'
      case isFalse h' => exact .inl (clampV_inside l u (by simpa using h) (by simpa using h'))

theorem Same.trans_eq {a b c : α} (h : Same t a b) (h' : t.ord.cmp b c = some .eq) : Same t a c := by
  rcases h with rfl | h
  · exact .inr h'
  · exact .inr ((t.ord.eq_left h c).trans h')

/-- Applying the two tests one after the other computes the clamped value. -/
theorem sequence_clamp {x lo hi r1 r2 : α} {o1 o2 : Cmp} (hl : t.ord.holds .le lo hi = true)
    (hs : (isUpper (.cmp o1) = true ∧ isLower (.cmp o2) = true ∧ hi = r1 ∧ lo = r2) ∨
      (isLower (.cmp o1) = true ∧ isUpper (.cmp o2) = true ∧ lo = r1 ∧ hi = r2)) :
    Same t (clampV t x lo hi)
      (if t.ord.holds o2 (if t.ord.holds o1 x r1 then r1 else x) r2 then r2
        else if t.ord.holds o1 x r1 then r1 else x) := by
  by_cases h : t.ord.holds o1 x r1 = true
  · simp only [h, if_true]
    have hle : t.ord.cmp lo hi = some .lt ∨ t.ord.cmp lo hi = some .eq := by
      simpa [POrd.holds] using hl
    rcases hs with ⟨u, l, rfl, rfl⟩ | ⟨l, u, rfl, rfl⟩
    · have hc := clampV_upper u hl h
      split
      case isFalse => exact hc
      case isTrue h' =>
        refine hc.trans_eq ?_
        rcases hle with e | e
        · have e' := t.ord.gt_iff.2 e
          cases o2 <;> simp_all [isLower, POrd.holds]
        · exact t.ord.eq_symm e
    · have hc := clampV_lower l hl h
      split
      case isFalse => exact hc
      case isTrue h' =>
        refine hc.trans_eq ?_
        rcases hle with e | e
        · cases o2 <;> simp_all [isUpper, POrd.holds]
        · exact e
  · have := choose_clamp (x := x) hl hs
    simp only [Bool.not_eq_true] at h
    simpa [h] using this

/-- Both orders of both calls, for `max` then `min` and for `min` then `max`. -/
theorem minmax_clamp (ht : t.ord.Total) {x lo hi : α} (hl : t.ord.holds .le lo hi = true) :
    (∀ y, y = maxV t x lo ∨ y = maxV t lo x → Same t (clampV t x lo hi) (minV t y hi) ∧
      Same t (clampV t x lo hi) (minV t hi y)) ∧
    (∀ y, y = minV t x hi ∨ y = minV t hi x → Same t (clampV t x lo hi) (maxV t y lo) ∧
      Same t (clampV t x lo hi) (maxV t lo y)) := by
  have hle : t.ord.cmp lo hi = some .lt ∨ t.ord.cmp lo hi = some .eq := by
    simpa [POrd.holds] using hl
  have self := cmp_self_total t ht
  have d1 := t.ord.dual x lo
  have d2 := t.ord.dual x hi
  have d3 := t.ord.dual lo hi
  obtain ⟨o1, h1⟩ := ht x lo
  obtain ⟨o2, h2⟩ := ht x hi
  have a1 : t.ord.cmp x lo = some .lt → t.ord.cmp x hi = some .lt := le_not_lt hl
  have a2 : t.ord.cmp x hi = some .gt → t.ord.cmp x lo = some .gt := le_not_gt hl
  have a3 : t.ord.cmp lo hi = some .eq → t.ord.cmp x lo = t.ord.cmp x hi := fun h => t.ord.eq_right h x
  rw [h1] at d1 a1 a2 a3
  rw [h2] at d2 a1 a2 a3
  have nan := isNaN_total t ht
  refine ⟨?_, ?_⟩ <;> rintro y (rfl | rfl) <;> refine ⟨?_, ?_⟩ <;>
    rcases hle with h3 | h3 <;> cases o1 <;> cases o2 <;>
    first
    | (have a := a1 rfl; cases a; done)
    | (have a := a2 rfl; cases a; done)
    | (have a := a3 h3; cases a; done)
    | (rw [h3] at d3
       simp [minV, maxV, clampV, POrd.holds, Same, Ordering.swap, nan, self, h1, h2, h3, d1, d2, d3]; done)

/-! ### The property -/

/-- C30, the proved part.  Whenever the lint fires, the suggested `clamp` call does not panic and
gives the value (or leaves the variables) the code gave, up to values that compare equal.  The
`min`/`max` shapes need a type without NaN; the assigning shapes need the assigned place to be the
one that is compared (the lint does not check it, see `two_if_violation`, `if_assign_violation`). -/
theorem manual_clamp_sound_partial [DecidableEq α] (t : Ty α) (hu : t.UintLaw) (p : Prog α)
    (htot : p.callsMinMax = true → t.ord.Total) (htarget : p.ComparesTarget) : ClampSound t p := by
  intro g hg any s
  unfold lint at hg
  split at hg
  case h_2 => cases hg
  case h_1 g' hp =>
    split at hg
    case isFalse => cases hg
    case isTrue hm =>
      cases hg
      obtain ⟨lo, hi, hlo, hhi, hle⟩ := minLess_spec hm
      have elo := konst_eval t hlo
      have ehi := konst_eval t hhi
      have hcl : ∀ x, clamp t x (g.params.min.eval t s) (g.params.max.eval t s)
          = some (clampV t x lo hi) := by
        intro x; rw [elo, ehi]; exact clamp_eq hle
      simp only [Suggestion.run, hcl, Option.map_some]
      refine ⟨_, rfl, ?_⟩
      cases p with
      | ifElse c1 e1 c2 e2 last =>
        simp only [pattern, ifElsePattern] at hp
        split at hp
        case h_2 => cases hp
        case h_1 q hq =>
          split at hp
          case isFalse => cases hp
          case isTrue hin =>
            cases hp
            obtain ⟨m⟩ := metaPattern_clamps hu hq
            obtain ⟨h12, hi1⟩ := m.input rfl
            simp only [Prog.run, SameOut, m.c1, m.c2, ← hin, hi1, ← h12]
            refine choose_clamp hle ?_
            rcases m.sides with ⟨a, b, c, d⟩ | ⟨a, b, c, d⟩
            · exact .inl ⟨a, b, by rw [← c, ehi], by rw [← d, elo]⟩
            · exact .inr ⟨a, b, by rw [← c, elo], by rw [← d, ehi]⟩
      | methods input m1 a1 m2 a2 =>
        have ht := htot rfl
        cases m1 <;> cases m2 <;> simp only [pattern, methodsPattern] at hp <;> cases hp
        · simp only [Prog.run, SameOut, M.app, elo, ehi]
          exact ((minmax_clamp ht hle).2 _ (.inl rfl)).1
        · simp only [Prog.run, SameOut, M.app]
          rw [elo, ehi]
          exact ((minmax_clamp ht hle).1 _ (.inl rfl)).1
      | calls outer inner i1 i2 arg swapped =>
        have ht := htot rfl
        simp only [pattern, callsPattern] at hp
        split at hp
        case h_2 => cases hp
        case h_1 input innerArg hci =>
          split at hp
          case h_2 => cases hp
          case h_1 mn mx hmm =>
            cases hp
            have hperm : (i1 = input ∧ i2 = innerArg) ∨ (i1 = innerArg ∧ i2 = input) := by
              unfold callInput at hci
              split at hci <;> cases hci
              · exact .inr ⟨rfl, rfl⟩
              · exact .inl ⟨rfl, rfl⟩
            have hmm' : (inner.app t = maxV t ∧ outer.app t = minV t ∧ mn = innerArg ∧ mx = arg) ∨
                (inner.app t = minV t ∧ outer.app t = maxV t ∧ mn = arg ∧ mx = innerArg) := by
              unfold callMinMax at hmm
              split at hmm <;> cases hmm <;> simp [Fn.app, M.app]
            simp only [Prog.run, SameOut]
            rcases hmm' with ⟨fi, fo, rfl, rfl⟩ | ⟨fi, fo, rfl, rfl⟩ <;> rw [fi, fo] <;>
              rcases hperm with ⟨rfl, rfl⟩ | ⟨rfl, rfl⟩ <;> simp only at elo ehi <;> rw [elo, ehi] <;>
              cases swapped
            · exact ((minmax_clamp ht hle).1 _ (.inl rfl)).1
            · exact ((minmax_clamp ht hle).1 _ (.inl rfl)).2
            · exact ((minmax_clamp ht hle).1 _ (.inr rfl)).1
            · exact ((minmax_clamp ht hle).1 _ (.inr rfl)).2
            · exact ((minmax_clamp ht hle).2 _ (.inl rfl)).1
            · exact ((minmax_clamp ht hle).2 _ (.inl rfl)).2
            · exact ((minmax_clamp ht hle).2 _ (.inr rfl)).1
            · exact ((minmax_clamp ht hle).2 _ (.inr rfl)).2
      | arms v b1 c1 e1 b2 c2 e2 b3 last =>
        simp only [pattern, armsPattern] at hp
        split at hp
        case isFalse => cases hp
        case isTrue hlast =>
          split at hp
          case h_2 => cases hp
          case h_1 q hq =>
            cases hp
            obtain ⟨m⟩ := metaPattern_clamps hu hq
            obtain ⟨hb1, hb2⟩ := m.binds _ _ rfl
            have hset : ∀ b, (s.set b (v.eval t s)) b = v.eval t s := by intro b; simp [State.set]
            simp only [Prog.run, SameOut, m.c1, m.c2, hb1, hb2, hlast, eval_place, hset]
            rcases m.sides with ⟨a, b, c, d⟩ | ⟨a, b, c, d⟩
            · simp only [c, d] at elo ehi
              simp only [elo, ehi]
              exact choose_clamp hle (.inl ⟨a, b, rfl, rfl⟩)
            · simp only [c, d] at elo ehi
              simp only [elo, ehi]
              exact choose_clamp hle (.inr ⟨a, b, rfl, rfl⟩)
      | ifAssign c1 p1 e1 c2 p2 e2 =>
        simp only [pattern, ifAssignPattern] at hp
        split at hp
        case h_2 => cases hp
        case h_1 q hq =>
          split at hp
          case isFalse => cases hp
          case isTrue hpp =>
            cases hp
            subst hpp
            obtain ⟨m⟩ := metaPattern_clamps hu hq
            obtain ⟨h12, hi1⟩ := m.input rfl
            have hk : (e1.konst? t).isSome := by
              rcases m.sides with ⟨_, _, c, d⟩ | ⟨_, _, c, d⟩
              · rw [← c, hhi]; rfl
              · rw [← c, hlo]; rfl
            have hl1 := m.operand p1 htarget hk
            simp only [Prog.run, SameOut, m.c1, m.c2, hi1, ← h12, hl1, eval_place]
            have key := choose_clamp (x := s p1) (r1 := e1.eval t s) (r2 := e2.eval t s) hle (by
              rcases m.sides with ⟨a, b, c, d⟩ | ⟨a, b, c, d⟩
              · exact .inl ⟨a, b, by rw [← c, ehi], by rw [← d, elo]⟩
              · exact .inr ⟨a, b, by rw [← c, elo], by rw [← d, ehi]⟩)
            intro r
            by_cases hr : r = p1
            · subst hr
              simp only [State.set, if_true]
              split <;> simp_all [State.set]
              split <;> simp_all [State.set]
            · left
              split <;> simp [State.set, hr]
              split <;> simp [State.set, hr]
      | twoIf c1 p1 e1 c2 p2 e2 =>
        simp only [pattern, twoIfPattern] at hp
        split at hp
        case isFalse => cases hp
        case isTrue hpp =>
          split at hp
          case h_2 => cases hp
          case h_1 q hq =>
            cases hp
            subst hpp
            obtain ⟨m⟩ := metaPattern_clamps hu hq
            obtain ⟨h12, hi1⟩ := m.input rfl
            have hk : (e1.konst? t).isSome := by
              rcases m.sides with ⟨_, _, c, d⟩ | ⟨_, _, c, d⟩
              · rw [← c, hhi]; rfl
              · rw [← c, hlo]; rfl
            have hl1 := m.operand p1 htarget hk
            obtain ⟨r1, r2, hr1, hr2, hs⟩ : ∃ r1 r2, (∀ s, e1.eval t s = r1) ∧ (∀ s, e2.eval t s = r2) ∧
                ((isUpper (.cmp m.o1) = true ∧ isLower (.cmp m.o2) = true ∧ hi = r1 ∧ lo = r2) ∨
                (isLower (.cmp m.o1) = true ∧ isUpper (.cmp m.o2) = true ∧ lo = r1 ∧ hi = r2)) := by
              rcases m.sides with ⟨a, b, c, d⟩ | ⟨a, b, c, d⟩
              · exact ⟨hi, lo, by rw [← c]; exact ehi, by rw [← d]; exact elo, .inl ⟨a, b, rfl, rfl⟩⟩
              · exact ⟨lo, hi, by rw [← c]; exact elo, by rw [← d]; exact ehi, .inr ⟨a, b, rfl, rfl⟩⟩
            have key := sequence_clamp (x := s p1) hle hs
            simp only [Prog.run, SameOut, m.c1, m.c2, ← h12, hl1, eval_place, hr1, hr2]
            intro r
            by_cases hr : r = p1
            · subst hr
              by_cases h1 : t.ord.holds m.o1 (s r) r1 = true
              · simp only [h1, if_true] at key ⊢
                have : (s.set r r1) r = r1 := by simp [State.set]
                simp only [this]
                by_cases h2 : t.ord.holds m.o2 r1 r2 = true
                · simpa [h2, State.set] using key
                · simpa [h2, State.set] using key
              · simp only [h1] at key ⊢
                by_cases h2 : t.ord.holds m.o2 (s r) r2 = true
                · simpa [h2, State.set] using key
                · simpa [h2, State.set] using key
            · left
              by_cases h1 : t.ord.holds m.o1 (s p1) r1 = true
              · simp only [h1, if_true]
                split <;> simp [State.set, hr]
              · simp only [h1]
                simp only [Bool.false_eq_true, if_false]
                split <;> simp [State.set, hr]

end

/-- On a type whose equal values are identical, `Same` is equality. -/
theorem same_eq {α} {t : Ty α} (h : ∀ a b, t.ord.cmp a b = some .eq → a = b) {a b : α}
    (hs : Same t a b) : a = b := hs.elim id (h a b)

/-! ### Instances and violations -/

/-- Signed integers. -/
def intTy : Ty Int := ⟨intOrd, false, false, fun n => n, fun _ s => s 0⟩

theorem intTy_eq (a b : Int) (h : intTy.ord.cmp a b = some .eq) : a = b := by
  have hh := intOrd_holds .eq a b
  have h' : intOrd.cmp a b = some .eq := h
  simpa [POrd.holds, h'] using hh

/-- `<` on unsigned integers. -/
def natOrd : POrd Nat where
  cmp a b := intOrd.cmp a b
  dual a b := intOrd.dual a b
  lt_trans := intOrd.lt_trans
  eq_left h c := intOrd.eq_left h c

/-- Unsigned integers. -/
def natTy : Ty Nat := ⟨natOrd, true, false, id, fun _ s => s 0⟩

theorem natTy_law : natTy.UintLaw := by
  intro _ v
  have h1 := intOrd_holds .eq v 0
  have h2 := intOrd_holds .lt v 1
  simp only at h1 h2
  show intOrd.holds .eq v 0 = intOrd.holds .lt v 1
  rw [h1, h2]
  by_cases h : v = 0
  · subst h; rfl
  · simp [h]; omega

/-- Floats, `none` being NaN. -/
def floatTy : Ty (Option Int) := ⟨floatOrd, false, true, fun n => some n, fun _ s => s 0⟩

/-- `if x == 0 { x = 1 } else if 10 <= x { x = 10 }` on an unsigned integer meets the hypotheses of
`manual_clamp_sound_partial` and is linted. -/
example : natTy.UintLaw ∧
    (Prog.ifAssign ⟨.cmp .eq, .place 0, .lit 0⟩ 0 (.lit 1) ⟨.cmp .le, .lit 10, .place 0⟩ 0
      (.lit 10) : Prog Nat).ComparesTarget ∧
    ∃ g, lint natTy (.ifAssign ⟨.cmp .eq, .place 0, .lit 0⟩ 0 (.lit 1)
      ⟨.cmp .le, .lit 10, .place 0⟩ 0 (.lit 10)) = some g ∧
      g.params = ⟨.place 0, .lit 1, .lit 10⟩ ∧ g.target = some 0 :=
  ⟨natTy_law, .inl rfl, _, rfl, rfl, rfl⟩

/-- `cmp::min(10, cmp::max(x, 3))` likewise, on signed integers. -/
example : intTy.ord.Total ∧ ∃ g, lint intTy (.calls (.cmp .min) (.cmp .max) (.place 0) (.lit 3)
    (.lit 10) true) = some g ∧ g.params = ⟨.place 0, .lit 3, .lit 10⟩ := ⟨intOrd_total, _, rfl, rfl⟩

/-- The property fails: `if y < 0 { x = 0 } if y > 10 { x = 10 }` is rewritten to
`x = x.clamp(0, 10)`; with `x = 20`, `y = 5` the code leaves `x` alone and the suggestion sets it
to 10. -/
theorem two_if_violation : ¬ ClampSound intTy
    (.twoIf ⟨.cmp .lt, .place 1, .lit 0⟩ 0 (.lit 0) ⟨.cmp .gt, .place 1, .lit 10⟩ 0 (.lit 10)) := by
  intro h
  obtain ⟨o, h1, h2⟩ := h _ rfl (fun _ => false) (fun p => if p = 0 then 20 else 5)
  cases h1
  have := same_eq intTy_eq (h2 0)
  revert this
  decide +kernel

/-- The property fails: `if y < 0 { x = 0 } else if y > 10 { x = 10 }` is rewritten to
`x = y.clamp(0, 10)`; with `x = 7`, `y = 5` the code leaves `x` alone and the suggestion sets it
to 5. -/
theorem if_assign_violation : ¬ ClampSound intTy
    (.ifAssign ⟨.cmp .lt, .place 1, .lit 0⟩ 0 (.lit 0) ⟨.cmp .gt, .place 1, .lit 10⟩ 0 (.lit 10)) := by
  intro h
  obtain ⟨o, h1, h2⟩ := h _ rfl (fun _ => false) (fun p => if p = 0 then 7 else 5)
  cases h1
  have := same_eq intTy_eq (h2 0)
  revert this
  decide +kernel

/-- On floats `x.max(0.0).min(10.0)` is 0 for NaN and `x.clamp(0.0, 10.0)` is NaN.  The lint prints
a note about it. -/
theorem float_min_max_violation : ¬ ClampSound floatTy
    (.methods (.place 0) .max (.lit 0) .min (.lit 10)) := by
  intro h
  obtain ⟨o, h1, h2⟩ := h _ rfl (fun _ => false) (fun _ => none)
  cases h1
  rcases h2 with h2 | h2 <;> revert h2 <;> decide +kernel

end Verif.Clamp
