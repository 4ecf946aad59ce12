import Verif.BoolMatch.Model
import Verif.BoolMatch.Spec

/-!
# The replaced condition has the same value
-/

namespace Verif.BoolMatch
open Needless (Pat Pats Val Env matchPat matchPats strip)

variable {S : Sem}

theorem strip_val : ∀ (v : Val) (m m' : Bool), (strip v m).1 = (strip v m').1
  | .unit, _, _ | .int _, _, _ | .float _ _, _, _ | .ctor _ _, _, _ => rfl
  | .ref _, _, _ => rfl

theorem holds_ref (x : Variant) (v : Val) : holds x (.ref v) = holds x v := by
  simp only [holds, strip]
  rw [strip_val v true false]

theorem holds_derefV (x : Variant) (v : Val) : holds x (derefV v) = holds x v := by
  cases v <;> first | rfl | exact (holds_ref x _).symm

/-- `holds` for values of the type. -/
theorem holds_made {x : Variant} {v : Val} (h : Made x (strip v false).1) : holds x v = true := by
  obtain ⟨vs, h, _⟩ := h
  simp [holds, h]

theorem holds_sibling {x : Variant} {v : Val} (h : Made x.sibling (strip v false).1) :
    holds x v = false := by
  obtain ⟨vs, h, _⟩ := h
  cases x <;> simp [holds, h, Variant.sibling, Variant.ctor]

theorem sibling_other (x : Variant) : otherVariant x = x.sibling := by cases x <;> rfl

theorem sibling_sibling (x : Variant) : x.sibling.sibling = x := by cases x <;> rfl

theorem ofType_sibling {x : Variant} {v : Val} (h : OfType x v) : OfType x.sibling v := by
  cases h with
  | inl h => right; rw [sibling_sibling]; exact h
  | inr h => left; exact h

theorem ctorVariant_ctor {c : Nat} {x : Variant} (h : ctorVariant c = some x) :
    c = x.ctor ∧ x.fields = 1 := by
  unfold ctorVariant at h
  split at h <;> first | (cases h; exact ⟨rfl, rfl⟩) | cases h

theorem oneWild_eq {ps : Pats} (h : oneWild ps = true) : ps = .cons .wild .nil := by
  unfold oneWild at h
  split at h
  · rfl
  · cases h

/-- A pattern that is a variant: it matches what the method is true for. -/
def Tests (p : Pat) : Prop :=
  match p with
  | .ctor _ ps => oneWild ps = true
  | .path _ => True
  | _ => False

theorem eqv_nil {c : Nat} {v : Val} : Needless.eqv (.ctor c []) v = true ↔ v = .ctor c [] := by
  constructor
  · intro h
    cases v with
    | ctor d vs =>
      simp only [Needless.eqv, Bool.and_eq_true, beq_iff_eq] at h
      cases vs with
      | nil => rw [h.1]
      | cons _ _ => simp [Needless.eqvL] at h
    | _ => simp [Needless.eqv] at h
  · rintro rfl
    simp [Needless.eqv, Needless.eqvL]

theorem variant_matches (hS : Paths S) {p : Pat} {x : Variant} {v : Val} {ρ : Env}
    (hp : patVariant p = some x) (ht : Tests p) (hv : OfType x v) :
    matchPat S.toSem p v false ρ = if holds x v then some ρ else none := by
  cases p with
  | ctor c ps =>
    simp only [patVariant] at hp
    obtain ⟨hc, hf⟩ := ctorVariant_ctor hp
    simp only [Tests] at ht
    rw [oneWild_eq ht]
    cases hv with
    | inl h =>
      rw [holds_made h]
      obtain ⟨vs, h, hl⟩ := h
      rw [hf] at hl
      match vs, hl with
      | [u], _ =>
        simp only [matchPat]
        rw [show strip v false = ((strip v false).1, (strip v false).2) from rfl, h]
        simp [hc, matchPats, matchPat]
    | inr h =>
      rw [holds_sibling h]
      obtain ⟨vs, h, hl⟩ := h
      simp only [matchPat]
      rw [show strip v false = ((strip v false).1, (strip v false).2) from rfl, h]
      have : c ≠ x.sibling.ctor := by subst hc; cases x <;> simp [Variant.ctor, Variant.sibling]
      simp [this]
  | path k =>
    simp only [patVariant, pathVariant] at hp
    have key : ∀ y : Variant, y.fields = 0 → S.const k = .ctor y.ctor [] → y = x →
        matchPat S.toSem (.path k) v false ρ = if holds x v then some ρ else none := by
      rintro y hf hk rfl
      simp only [matchPat, hk]
      cases hv with
      | inl h =>
        rw [holds_made h]
        obtain ⟨vs, h, hl⟩ := h
        rw [hf] at hl
        match vs, hl with
        | [], _ => rw [h, if_pos (eqv_nil.2 rfl)]; simp
      | inr h =>
        rw [holds_sibling h]
        obtain ⟨vs, h, hl⟩ := h
        rw [h, if_neg]
        · simp
        · rw [eqv_nil]
          intro h
          cases y <;> simp [Variant.ctor, Variant.sibling] at h
    split at hp
    · next h => cases hp; subst h; exact key .none rfl hS.none rfl
    · split at hp
      · next h => cases hp; subst h; exact key .pending rfl hS.pending rfl
      · cases hp
  | _ => simp [patVariant] at hp

theorem lit_run {b : Body} {l : Bool} (h : litOf b = some l) (ρ : Env) (w : S.W) :
    b.run S ρ w = (l, w) := by
  cases b <;> simp [litOf] at h
  subst h; rfl

/-- The result of `byLits`. -/
theorem byLits_cases {l r x : Variant} {bl br : Body} {g0 g1 g : Option Nat}
    (h : byLits l r bl br g0 g1 = some (x, g)) :
    (litOf bl = some true ∧ litOf br = some false ∧ x = l ∧ g = g0) ∨
      (litOf bl = some false ∧ litOf br = some true ∧ x = r ∧ g = g1) := by
  unfold byLits at h
  split at h
  · next h1 h2 => cases h; exact .inl ⟨h1, h2, rfl, rfl⟩
  · next h1 h2 => cases h; exact .inr ⟨h1, h2, rfl, rfl⟩
  · cases h

/-- Two patterns, one for each variant, or the second is `_`. -/
structure Two (a b : BArm) (l : Variant) : Prop where
  first : patVariant a.pat = some l
  tests : Tests a.pat
  second : (patVariant b.pat = some l.sibling ∧ Tests b.pat) ∨ b.pat = .wild

theorem second_matches (hS : Paths S) {a b : BArm} {l : Variant} {v : Val} {ρ : Env}
    (h : Two a b l) (hv : OfType l v) (hf : holds l v = false) :
    matchPat S.toSem b.pat v false ρ = some ρ := by
  cases h.second with
  | inl h' =>
    rw [variant_matches hS h'.1 h'.2 (ofType_sibling hv)]
    have : holds l.sibling v = true := by
      cases hv with
      | inl h => rw [holds_made h] at hf; cases hf
      | inr h => exact holds_made h
    simp [this]
  | inr h' => rw [h']; simp [matchPat]

theorem second_fails (hS : Paths S) {a b : BArm} {l : Variant} {v : Val} {ρ : Env}
    (h : Two a b l) (hv : OfType l v) (hf : holds l v = true) (hb : b.pat ≠ .wild) :
    matchPat S.toSem b.pat v false ρ = none := by
  cases h.second with
  | inl h' =>
    rw [variant_matches hS h'.1 h'.2 (ofType_sibling hv)]
    have : holds l.sibling v = false := by
      cases hv with
      | inl h => exact holds_sibling (x := l.sibling) (by rw [sibling_sibling]; exact h)
      | inr h => rw [holds_sibling h] at hf; cases hf
    simp [this]
  | inr h' => exact absurd h' hb

theorem forMatch_cases {a b : BArm} {l r x : Variant} {g : Option Nat} (hr : r = l.sibling)
    (ha : Tests a.pat) (hb : Tests b.pat) (h : forMatch a b l r = some (x, g)) :
    ∃ y, Two a b y ∧
      ((litOf a.body = some true ∧ litOf b.body = some false ∧ x = y) ∨
        (litOf a.body = some false ∧ litOf b.body = some true ∧ x = y.sibling)) ∧
      (g = a.guard ∨ g = b.guard) := by
  subst hr
  unfold forMatch at h
  split at h
  · next hc =>
    refine ⟨l, ⟨hc.1, ha, .inl ⟨hc.2, hb⟩⟩, ?_⟩
    rcases byLits_cases h with ⟨h1, h2, h3, h4⟩ | ⟨h1, h2, h3, h4⟩
    · exact ⟨.inl ⟨h1, h2, h3⟩, .inl h4⟩
    · exact ⟨.inr ⟨h1, h2, h3⟩, .inr h4⟩
  · split at h
    · next hc =>
      refine ⟨l.sibling, ⟨hc.1, ha, .inl ⟨by rw [sibling_sibling]; exact hc.2, hb⟩⟩, ?_⟩
      rcases byLits_cases h with ⟨h1, h2, h3, h4⟩ | ⟨h1, h2, h3, h4⟩
      · exact ⟨.inr ⟨h2, h1, by rw [sibling_sibling]; exact h3⟩, .inl h4⟩
      · exact ⟨.inl ⟨h2, h1, h3⟩, .inr h4⟩
    · cases h

theorem or_some {α} {a b : Option α} {x : α} (h : a.or b = some x) : a = some x ∨ b = some x := by
  cases a with
  | none => exact .inr h
  | some y => exact .inl h

/-- What `foundGood` has seen. -/
def Found (a b : BArm) (x : Variant) (g : Option Nat) : Prop :=
  ∃ y, Two a b y ∧
    ((litOf a.body = some true ∧ litOf b.body = some false ∧ x = y) ∨
      (litOf a.body = some false ∧ litOf b.body = some true ∧ x = y.sibling)) ∧
    ((b.pat ≠ .wild ∧ (g = a.guard ∨ g = b.guard)) ∨
      (b.pat = .wild ∧ g = if litOf a.body = some true then a.guard else b.guard))

theorem foundGood_cases {a b : BArm} {x : Variant} {g : Option Nat} (h : foundGood a b = some (x, g)) :
    Found a b x g := by
  unfold foundGood at h
  have hgood : Tests a.pat → b.pat = .wild → goodMethod a b = some (x, g) → Found a b x g := by
    intro ha hb h
    unfold goodMethod at h
    cases hp : patVariant a.pat with
    | none => rw [hp] at h; cases h
    | some y =>
      rw [hp] at h
      simp only [Option.bind_some] at h
      refine ⟨y, ⟨hp, ha, .inr hb⟩, ?_⟩
      rcases byLits_cases h with ⟨h1, h2, h3, h4⟩ | ⟨h1, h2, h3, h4⟩
      · exact ⟨.inl ⟨h1, h2, h3⟩, .inr ⟨hb, by rw [if_pos h1]; exact h4⟩⟩
      · refine ⟨.inr ⟨h1, h2, by rw [← sibling_other]; exact h3⟩, .inr ⟨hb, ?_⟩⟩
        rw [if_neg (by rw [h1]; simp)]; exact h4
  have hfor : ∀ {l r : Variant}, r = l.sibling → Tests a.pat → Tests b.pat → b.pat ≠ .wild →
      forMatch a b l r = some (x, g) → Found a b x g := by
    intro l r hr ha hb hw h
    obtain ⟨y, h1, h2, h3⟩ := forMatch_cases hr ha hb h
    exact ⟨y, h1, h2, .inl ⟨hw, h3⟩⟩
  split at h
  · next h1 h2 =>
    split at h
    · next hw =>
      simp only [Bool.and_eq_true] at hw
      rcases or_some h with h | h
      · exact hfor rfl (by rw [h1]; exact hw.1) (by rw [h2]; exact hw.2) (by rw [h2]; simp) h
      · exact hfor rfl (by rw [h1]; exact hw.1) (by rw [h2]; exact hw.2) (by rw [h2]; simp) h
    · cases h
  · next h1 h2 =>
    split at h
    · next hw =>
      rcases or_some h with h | h
      · exact hfor rfl (by rw [h1]; exact hw) (by rw [h2]; trivial) (by rw [h2]; simp) h
      · exact hfor rfl (by rw [h1]; exact hw) (by rw [h2]; trivial) (by rw [h2]; simp) h
    · cases h
  · next h1 h2 =>
    split at h
    · next hw =>
      rcases or_some h with h | h
      · exact hfor rfl (by rw [h1]; trivial) (by rw [h2]; exact hw) (by rw [h2]; simp) h
      · exact hfor rfl (by rw [h1]; trivial) (by rw [h2]; exact hw) (by rw [h2]; simp) h
    · cases h
  · next h1 h2 =>
    split at h
    · next hw => exact hgood (by rw [h1]; exact hw) h2 h
    · cases h
  · next h1 h2 => exact hgood (by rw [h1]; trivial) h2 h
  · cases h

/-- A value of the variant. -/
def sample (x : Variant) : Val := .ctor x.ctor (List.replicate x.fields .unit)

theorem sample_made (x : Variant) : Made x (strip (sample x) false).1 :=
  ⟨_, rfl, by simp⟩

theorem holds_ofType {x : Variant} {v : Val} (h : OfType x v) :
    holds x.sibling v = !holds x v := by
  cases h with
  | inl h =>
    rw [holds_made h, holds_sibling (x := x.sibling) (by rw [sibling_sibling]; exact h)]; rfl
  | inr h => rw [holds_sibling h, holds_made h]; rfl

/-- If the compiler accepts the arms, then the guards are where they can be. -/
theorem no_guards (hS : Paths S) {a b : BArm} {l : Variant} {ρ : Env} (h2 : Two a b l)
    (hex : ∀ v, OfType l v → Taken S ρ [a, b] v) :
    b.guard = none ∧ (b.pat ≠ .wild → a.guard = none) := by
  constructor
  · obtain ⟨c, hc, hg, hm⟩ := hex (sample l.sibling) (.inr (sample_made _))
    simp only [List.mem_cons, List.not_mem_nil, or_false] at hc
    cases hc with
    | inl hc =>
      subst hc
      rw [variant_matches hS h2.first h2.tests (.inr (sample_made _)),
        holds_sibling (sample_made _)] at hm
      simp at hm
    | inr hc => rw [← hc]; exact hg
  · intro hb
    obtain ⟨c, hc, hg, hm⟩ := hex (sample l) (.inl (sample_made _))
    simp only [List.mem_cons, List.not_mem_nil, or_false] at hc
    cases hc with
    | inl hc => rw [← hc]; exact hg
    | inr hc =>
      subst hc
      rw [second_fails hS h2 (.inl (sample_made _)) (holds_made (sample_made _)) hb] at hm
      simp at hm

theorem found_same (hS : Paths S) {a b : BArm} {x : Variant} {g : Option Nat} {v : Val} {ρ : Env}
    {w : S.W} (h : foundGood a b = some (x, g)) (hv : OfType x v)
    (hex : ∀ v, OfType x v → Taken S ρ [a, b] v)
    (hg : a.guard = none ∨ a.body = .lit true) :
    runArms S v ρ [a, b] w = some (if holds x v then runGuard S g ρ w else (false, w)) := by
  obtain ⟨y, h2, hl, hgd⟩ := foundGood_cases h
  have hxy : x = y ∨ x = y.sibling := by rcases hl with h | h; exact .inl h.2.2; exact .inr h.2.2
  have hvy : OfType y v := by
    rcases hxy with rfl | rfl
    · exact hv
    · have := ofType_sibling hv; rw [sibling_sibling] at this; exact this
  have hexy : ∀ v, OfType y v → Taken S ρ [a, b] v := by
    intro u hu
    rcases hxy with rfl | rfl
    · exact hex u hu
    · exact hex u (ofType_sibling hu)
  obtain ⟨hbg, hag⟩ := no_guards hS h2 hexy
  have hm := variant_matches (ρ := ρ) hS h2.first h2.tests hvy
  rcases hl with ⟨la, lb, rfl⟩ | ⟨la, lb, rfl⟩
  · have hgg : g = a.guard := by
      rcases hgd with ⟨hw, h | h⟩ | ⟨hw, h⟩
      · exact h
      · rw [h, hbg, hag hw]
      · rw [h, if_pos la]
    subst hgg
    simp only [runArms, hm]
    by_cases hh : holds x v = true
    · simp only [hh, if_true]
      cases hga : a.guard with
      | none => simp [runGuard, lit_run la]
      | some n =>
        have hbw : b.pat = .wild := by
          rcases hgd with ⟨hw, _⟩ | ⟨hw, _⟩
          · rw [hag hw] at hga; cases hga
          · exact hw
        simp only [runGuard, hbw, matchPat, hbg]
        rw [lit_run la, lit_run lb]
        by_cases hr : (S.guard n ρ w).1 = true
        · rw [if_pos hr, ← hr]
        · rw [if_neg hr]
          simp only [Bool.not_eq_true] at hr
          rw [← hr]
    · simp only [Bool.not_eq_true] at hh
      simp only [hh, second_matches hS h2 hvy hh, hbg]
      simp [lit_run lb]
  · have hag' : a.guard = none := by
      rcases hg with h | h
      · exact h
      · rw [h] at la; simp [litOf] at la
    have hgg : g = none := by
      rcases hgd with ⟨hw, h | h⟩ | ⟨hw, h⟩
      · rw [h, hag']
      · rw [h, hbg]
      · rw [h, if_neg (by rw [la]; simp), hbg]
    subst hgg
    simp only [runArms, hm, holds_ofType hvy]
    by_cases hh : holds y v = true
    · simp [hh, hag', lit_run la]
    · simp only [Bool.not_eq_true] at hh
      simp only [hh, second_matches hS h2 hvy hh, hbg]
      simp [lit_run lb, runGuard]

theorem stripAddr_val (s : Scrut) (w : S.W) (x : Variant) :
    holds x (scrutVal S (stripAddr s) w).1 = holds x (scrutVal S s w).1 ∧
      (scrutVal S (stripAddr s) w).2 = (scrutVal S s w).2 := by
  cases s <;> simp [stripAddr, scrutVal, holds_ref]

theorem stripBoth_val (s : Scrut) (w : S.W) (x : Variant) :
    holds x (scrutVal S (stripBoth s) w).1 = holds x (scrutVal S s w).1 ∧
      (scrutVal S (stripBoth s) w).2 = (scrutVal S s w).2 := by
  cases s <;> simp [stripBoth, scrutVal, holds_ref, holds_derefV]

/-- `redundant_pattern_matching` on `match`: the call of the method, with `&& guard`, has the value of the
match.  Missing: a guard on a first arm with the value `false` (`guard_dropped`). -/
theorem match_same_partial (hS : Paths S) {hasLet : Nat → Bool} {s : Scrut} {arms : List BArm} {e : Call}
    {ρ : Env} {w : S.W} (h : checkMatch hasLet s arms = some e)
    (hv : OfType e.method (scrutVal S s w).1)
    (hex : ∀ v, OfType e.method v → Taken S ρ arms v)
    (hg : ∀ a ∈ arms.head?, a.guard = none ∨ a.body = .lit true) :
    runMatch S s ρ arms w = some (runCall S e ρ w) := by
  unfold checkMatch at h
  split at h
  · next a b =>
    split at h
    · next x g hf =>
      split at h
      · cases h
      · cases h
        simp only [runMatch, runCall]
        obtain ⟨h1, h2⟩ := stripAddr_val (S := S) s w x
        rw [h1, h2]
        exact found_same hS hf hv hex (hg a (by simp))
    · cases h
  · cases h

theorem firstWild_eq {ps : Pats} (h : firstWild ps = true) : ∃ qs, ps = .cons .wild qs := by
  unfold firstWild at h
  split at h
  · exact ⟨_, rfl⟩
  · cases h

theorem findMethod_matches (hS : Paths S) {p : LetPat} {x : Variant} {v : Val} (h : findMethod p = some x)
    (hf : Fits p) (hv : OfType x v) : letMatches S p v = holds x v := by
  unfold findMethod at h
  split at h
  · split at h
    · next c ps hw =>
      obtain ⟨qs, rfl⟩ := firstWild_eq hw
      simp only [Fits] at hf
      subst hf
      simp only [letMatches]
      rw [variant_matches hS (p := .ctor c (.cons .wild .nil)) h rfl hv]
      cases holds x v <;> rfl
    · cases h
  · next k =>
    simp only [letMatches]
    rw [variant_matches hS (p := .path k) h trivial hv]
    cases holds x v <;> rfl
  · next c =>
    obtain ⟨hc, _⟩ := ctorVariant_ctor h
    simp only [letMatches, holds, hc]
    cases (strip v false).1 with
    | ctor d vs => simp only; rw [Bool.beq_comm]
    | _ => rfl
  · cases h

theorem letMatches_peel {p : LetPat} {v : Val} (hr : ∀ q, p = .ref q → IsRef v) {x : Variant}
    (h : letMatches S (peelRef p) (derefV v) = holds x v) (h' : letMatches S (peelRef p) v = holds x v) :
    letMatches S p v = holds x v := by
  cases p with
  | ref q =>
    have := hr q rfl
    cases v with
    | ref u => exact h
    | _ => exact this.elim
  | _ => exact h'

theorem ofType_ref {x : Variant} {v : Val} (h : OfType x (.ref v)) : OfType x v := by
  simp only [OfType, strip] at h ⊢
  rw [strip_val v true false] at h
  exact h

theorem ofType_derefV {x : Variant} {v : Val} (h : OfType x v) : OfType x (derefV v) := by
  cases v with
  | ref u => exact ofType_ref h
  | _ => exact h

/-- `redundant_pattern_matching` on `if let` and `while let`: the call of the method has the value of the
condition. -/
theorem let_same (hS : Paths S) {next : Bool} {s : Scrut} {p : LetPat} {e : Call} {ρ : Env} {w : S.W}
    (h : checkLet next s p = some e) (hv : OfType e.method (scrutVal S s w).1)
    (hf : Fits p) (hr : ∀ q, p = .ref q → IsRef (scrutVal S s w).1) :
    runLet S s p w = runCall S e ρ w := by
  unfold checkLet at h
  split at h
  · next x hx =>
    split at h
    · cases h
    · cases h
      have hf' : Fits (peelRef p) := by cases p <;> exact hf
      simp only [runLet, runCall]
      obtain ⟨h1, h2⟩ := stripBoth_val (S := S) s w x
      rw [h1, h2, letMatches_peel hr
        ((findMethod_matches hS hx hf' (ofType_derefV hv)).trans (holds_derefV x _))
        (findMethod_matches hS hx hf' hv)]
      cases holds x (scrutVal S s w).1 <;> rfl
  · cases h

/-! ### `matches!` -/

theorem boolLit_run {b : Body} {l : Bool} (h : boolLit b = some l) (ρ : Env) (w : S.W) :
    b.run S ρ w = (l, w) := by
  cases b <;> simp [boolLit] at h <;> subst h <;> rfl

theorem structural_ref {p : Pat} {v : Val} {ρ : Env} (hp : Structural p) (hv : IsRef v) :
    matchPat S.toSem p (.ref v) false ρ = matchPat S.toSem p v false ρ := by
  cases v with
  | ref u => cases p <;> first | rfl | exact hp.elim
  | _ => exact hv.elim

theorem firstOf_ref {v : Val} {ρ : Env} (hv : IsRef v) : ∀ {ps : List Pat}, (∀ p ∈ ps, Structural p) →
    firstOf S (.ref v) ρ ps = firstOf S v ρ ps
  | [], _ => rfl
  | p :: ps, h => by
    simp only [firstOf]
    rw [structural_ref (h p (List.mem_cons_self ..)) hv,
      firstOf_ref hv (fun q hq => h q (List.mem_cons_of_mem _ hq))]

/-- Arms with one value, without guards, and a last arm. -/
theorem arms_like {v : Val} {ρ : Env} {w : S.W} {b0 b1 : Bool} {last : BArm}
    (hl : boolLit last.body = some b1) (hw : last.pat = .wild) : ∀ {as : List BArm},
    (∀ a ∈ as, a.guard = none ∧ boolLit a.body = some b0) → Taken S ρ (as ++ [last]) v →
    runArms S v ρ (as ++ [last]) w =
      some (match firstOf S v ρ (as.map (·.pat)) with | some _ => (b0, w) | none => (b1, w))
  | [], _, ht => by
    obtain ⟨a, ha, hg, _⟩ := ht
    simp at ha
    subst ha
    simp [runArms, hw, matchPat, hg, firstOf, boolLit_run hl]
  | a :: as, h, ht => by
    obtain ⟨hg, hb⟩ := h a (List.mem_cons_self ..)
    simp only [List.cons_append, runArms, List.map_cons, firstOf]
    cases hm : matchPat S.toSem a.pat v false ρ with
    | some ρ' => simp [hg, boolLit_run hb]
    | none =>
      simp only
      refine arms_like hl hw (fun b hb => h b (List.mem_cons_of_mem _ hb)) ?_
      obtain ⟨c, hc, hg', hm'⟩ := ht
      simp only [List.cons_append, List.mem_cons] at hc
      rcases hc with rfl | hc
      · exact absurd hm hm'
      · exact ⟨c, hc, hg', hm'⟩

theorem stripRef_val {fa : Facts} {s : Scrut} {w : S.W} {ρ : Env} {ps : List Pat}
    (hs : stripRef fa s ≠ s → (∀ p ∈ ps, Structural p))
    (hr : ∀ n, fa.isRef n = true → IsRef (S.scrut n w).1) :
    firstOf S (scrutVal S (stripRef fa s) w).1 ρ ps = firstOf S (scrutVal S s w).1 ρ ps ∧
      (scrutVal S (stripRef fa s) w).2 = (scrutVal S s w).2 := by
  cases s with
  | addrOf n =>
    simp only [stripRef] at hs ⊢
    split
    · next h =>
      rw [if_pos h] at hs
      refine ⟨?_, rfl⟩
      simp only [scrutVal]
      rw [firstOf_ref (hr n h) (hs (by simp))]
    · exact ⟨rfl, rfl⟩
  | _ => exact ⟨rfl, rfl⟩

/-- `match_like_matches_macro` on `match`: `matches!` has the value of the match. -/
theorem like_same {fa : Facts} {s : Scrut} {first last : BArm} {middle : List BArm} {e : Macro} {ρ : Env}
    {w : S.W} (h : checkLike fa s first middle last = some e)
    (hex : Taken S ρ (first :: middle ++ [last]) (scrutVal S s w).1)
    (hr : ∀ n, fa.isRef n = true → IsRef (S.scrut n w).1)
    (hs : e.recv ≠ s → ∀ a ∈ first :: middle, Structural a.pat) :
    runMatch S s ρ (first :: middle ++ [last]) w = some (runMacro S e ρ w) := by
  unfold checkLike at h
  split at h
  · next b0 b1 h0 h1 =>
    split at h
    · next hc =>
      cases h
      simp only [Bool.and_eq_true] at hc
      obtain ⟨⟨⟨hne, hok⟩, hw⟩, _⟩ := hc
      have hne' : b1 = !b0 := by
        simp only [bne_iff_ne, ne_eq] at hne
        cases b0 <;> cases b1 <;> first | rfl | exact absurd rfl hne
      have hw' : last.pat = .wild := by
        unfold isWild at hw
        split at hw
        · assumption
        · cases hw
      have hs' : stripRef fa s ≠ s → ∀ p ∈ (first :: middle).map (·.pat), Structural p := by
        intro h p hp
        simp only [List.mem_map] at hp
        obtain ⟨a, ha, rfl⟩ := hp
        exact hs h a ha
      obtain ⟨e1, e2⟩ := stripRef_val (ρ := ρ) hs' hr
      simp only [runMatch, runMacro]
      rw [e1, e2]
      by_cases hg : ∀ a ∈ first :: middle, a.guard = none ∧ boolLit a.body = some b0
      · rw [arms_like h1 hw' hg hex]
        have hfg : first.guard = none := (hg first (List.mem_cons_self ..)).1
        cases firstOf S (scrutVal S s w).1 ρ ((first :: middle).map (·.pat)) with
        | none => simp [hne']
        | some ρ' => cases b0 <;> simp [hfg, runGuard]
      · have hmid : middle = [] := by
          unfold armsOk at hok
          simp only [Bool.or_eq_true, Bool.and_eq_true, List.isEmpty_iff] at hok
          rcases hok with hok | hok
          · exact hok.1
          · exfalso
            apply hg
            intro a ha
            have := List.all_eq_true.1 hok a ha
            simp at this
            exact ⟨by simpa using this.1.2, this.2⟩
        subst hmid
        simp only [List.cons_append, List.nil_append, List.map_cons, List.map_nil, firstOf, runArms]
        have hlast : last.guard = none ∨ (first.guard = none ∧
            matchPat S.toSem first.pat (scrutVal S s w).1 false ρ ≠ none) := by
          obtain ⟨c, hc, hg', hm'⟩ := hex
          simp at hc
          rcases hc with rfl | rfl
          · exact .inr ⟨hg', hm'⟩
          · exact .inl hg'
        cases hm : matchPat S.toSem first.pat (scrutVal S s w).1 false ρ with
        | none =>
          have hlg : last.guard = none := by
            rcases hlast with h | h
            · exact h
            · exact absurd hm h.2
          simp [hw', matchPat, hlg, boolLit_run h1, hne']
        | some ρ' =>
          simp only
          cases hfg : first.guard with
          | none => cases b0 <;> simp [boolLit_run h0, runGuard]
          | some g =>
            have hlg : last.guard = none := by
              rcases hlast with h | h
              · exact h
              · rw [h.1] at hfg; cases hfg
            simp only [hw', matchPat, hlg, boolLit_run h0, boolLit_run h1, runGuard]
            subst hne'
            cases hgr : (S.guard g ρ' (scrutVal S s w).2).1 <;> cases b0 <;> simp
    · cases h
  · cases h

/-- `match_like_matches_macro` on `if let`. -/
theorem like_if_same {fa : Facts} {s : Scrut} {p : Pat} {t e : Body} {m : Macro} {ρ : Env} {w : S.W}
    (h : checkLikeIf fa s p t e = some m)
    (hr : ∀ n, fa.isRef n = true → IsRef (S.scrut n w).1) (hs : m.recv ≠ s → Structural p) :
    runMatch S s ρ [⟨p, none, t⟩, ⟨.wild, none, e⟩] w = some (runMacro S m ρ w) := by
  unfold checkLikeIf at h
  split at h
  · next b0 b1 h0 h1 =>
    split at h
    · next hc =>
      cases h
      simp only [Bool.and_eq_true] at hc
      have hne' : b1 = !b0 := by
        have := hc.1
        cases b0 <;> cases b1 <;> first | rfl | (simp at this)
      obtain ⟨e1, e2⟩ := stripRef_val (S := S) (fa := fa) (s := s) (w := w) (ρ := ρ) (ps := [p])
        (fun h q hq => by simp at hq; subst hq; exact hs h) hr
      simp only [runMatch, runMacro]
      rw [e1, e2]
      have := arms_like (S := S) (v := (scrutVal S s w).1) (ρ := ρ) (w := (scrutVal S s w).2)
        (last := ⟨.wild, none, e⟩) h1 rfl (as := [⟨p, none, t⟩]) (b0 := b0) (by simp [h0])
        ⟨⟨.wild, none, e⟩, by simp, rfl, by simp [matchPat]⟩
      simp only [List.cons_append, List.nil_append, List.map_cons, List.map_nil] at this
      rw [this]
      subst hne'
      cases firstOf S (scrutVal S s w).1 ρ [p] with
      | none => simp
      | some ρ' => cases b0 <;> simp [runGuard]
    · cases h
  · cases h

end Verif.BoolMatch
