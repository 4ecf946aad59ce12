import Verif.OptMatch.Model
import Verif.OptMatch.Spec

/-!
# Patterns against places
-/

namespace Verif.OptMatch

variable {S : Sem}

theorem at_append (v : Val) (π : List Step) (s : Step) :
    v.at (π ++ [s]) = (v.at π).bind fun u => u.at [s] := by
  induction π generalizing v with
  | nil => simp only [List.nil_append, Val.at, Option.bind_some]
  | cons a π ih =>
    cases v <;> cases a <;> simp only [List.cons_append, Val.at, Option.bind_none, ih]

theorem read_step (w : S.W) (p : Place) (s : Step) :
    read w (p.step s) = (read w p).bind fun u => u.at [s] := by
  cases p with
  | mem n π =>
    simp only [Place.step, read]
    cases S.mem w n with
    | none => rfl
    | some v => simp only [Option.bind_some, at_append]
  | temp v π => simp only [Place.step, read, at_append]

theorem read_inner {w : S.W} {p : Place} {v : Val} (h : read w p = some (.some v)) :
    read w (p.step .inner) = some v := by
  rw [read_step, h]
  rfl

/-- The end of a chain of references. -/
theorem follow_end {w : S.W} {t : Ty} {p : Place} {mo : Mode} {r : Ty × Place × Mode}
    (h : follow w t p mo = some r) :
    refCount r.1 = 0 ∧ r.2.2.mt = (mo.mt && refMut t) ∧ r.2.2.byRef = (mo.byRef || refCount t != 0) ∧
      isOption t = isOption r.1 := by
  induction t generalizing p mo with
  | ref m t ih =>
    simp only [follow] at h
    split at h
    · next hr =>
      obtain ⟨h1, h2, h3, h4⟩ := ih h
      refine ⟨h1, ?_, ?_, ?_⟩
      · rw [h2]; simp only [refMut, Bool.and_assoc]
      · rw [h3]; simp [refCount]
      · rw [← h4]; rfl
    · cases h
  | atom => cases h; simp [refCount, refMut]
  | opt => cases h; simp [refCount, refMut]
  | res => cases h; simp [refCount, refMut]
  | pair => cases h; simp [refCount, refMut]

/-- The mode at the start matters only for the mode at the end. -/
theorem follow_mode {w : S.W} {t : Ty} {p : Place} {mo : Mode} {r : Ty × Place × Mode}
    (h : follow w t p mo = some r) (mo' : Mode) :
    ∃ mo'', follow w t p mo' = some (r.1, r.2.1, mo'') := by
  induction t generalizing p mo mo' with
  | ref m t ih =>
    simp only [follow] at h ⊢
    split at h
    · exact ih h _
    · cases h
  | atom => cases h; exact ⟨_, rfl⟩
  | opt => cases h; exact ⟨_, rfl⟩
  | res => cases h; exact ⟨_, rfl⟩
  | pair => cases h; exact ⟨_, rfl⟩

/-- Borrows in front of a place are followed first. -/
theorem follow_borrow {w : S.W} (ms : List Bool) (t : Ty) (p : Place) (mo : Mode)
    {r : Ty × Place × Mode} (h : follow w (ms.foldr .ref t) (borrow ms p) mo = some r) :
    ∃ mo', follow w t p .start = some (r.1, r.2.1, mo') := by
  induction ms generalizing mo with
  | nil => exact follow_mode h _
  | cons m ms ih =>
    simp only [List.foldr, borrow, follow, read, Val.at] at h
    exact ih _ h

/-- A pattern for `Some` below some `&`. -/
theorem some_pat {w : S.W} {P r : Pat} {n c : Nat} (h : parsePat P c = some (.some r n)) {t : Ty} {p : Place}
    {mo : Mode} (hmo : mo.byRef = false) {ρ : Env} {o : Option Env} (hm : matchPat w P t p mo ρ = some o) :
    ∃ t' q mo' b, follow w t p mo = some (.opt t', q, mo') ∧ c ≤ n ∧
      b = (refCount t != n - c) ∧
      ((read w q = some .none ∧ o = none) ∨
        ∃ v, read w q = some (.some v) ∧
          matchPat w r t' (q.step .inner) ⟨b, mo.mt && refMut t⟩ ρ = some o) := by
  induction P generalizing c t p mo with
  | some q ih =>
    simp only [parsePat, Option.some.injEq, OptionPat.some.injEq] at h
    obtain ⟨rfl, rfl⟩ := h
    simp only [matchPat] at hm
    cases hf : follow w t p mo with
    | none => rw [hf] at hm; cases hm
    | some f =>
      rw [hf] at hm
      obtain ⟨t1, q1, mo1⟩ := f
      obtain ⟨_, h2, h3, _⟩ := follow_end hf
      simp only at h2 h3
      simp only [Option.bind_some] at hm
      cases t1 with
      | opt t' =>
        cases hq : read w q1 with
        | none => rw [hq] at hm; cases hm
        | some u =>
          rw [hq] at hm
          cases u with
          | some v =>
            refine ⟨t', q1, mo1, _, rfl, Nat.le_refl _, rfl, .inr ⟨v, hq, ?_⟩⟩
            rw [hmo, Bool.false_or] at h3
            rw [Nat.sub_self, ← h2, ← h3]
            exact hm
          | none => cases hm; exact ⟨_, q1, mo1, _, rfl, Nat.le_refl _, rfl, .inl ⟨hq, rfl⟩⟩
          | _ => cases hm
      | _ => cases hm
  | ref m P ih =>
    simp only [parsePat] at h
    cases t with
    | ref m' t =>
      simp only [matchPat] at hm
      split at hm
      · next hmm =>
        subst hmm
        split at hm
        · next hr =>
          obtain ⟨t', q, mo', b, h1, h2, h3, h4⟩ := ih h rfl hm
          obtain ⟨mo'', h1'⟩ := follow_mode h1 ⟨true, mo.mt && m⟩
          refine ⟨t', q, mo'', _, ?_, by omega, rfl, ?_⟩
          · simp only [follow, hr]
            exact h1'
          · have hb : b = (refCount (.ref m t) != n - c) := by
              rw [h3]
              simp only [refCount]
              have : n - c = n - (c + 1) + 1 := by omega
              rw [this]
              simp only [bne]
              congr 1
              rw [Bool.eq_iff_iff]
              simp
            rw [← hb]
            simp only [refMut, ← Bool.and_assoc]
            exact h4
        · cases hm
      · cases hm
    | atom => simp only [matchPat] at hm; cases hm
    | opt => simp only [matchPat] at hm; cases hm
    | res => simp only [matchPat] at hm; cases hm
    | pair => simp only [matchPat] at hm; cases hm
  | wild => simp [parsePat] at h
  | none => simp [parsePat] at h
  | bind => simp [parsePat] at h
  | bindAt => simp [parsePat] at h
  | someRest => simp [parsePat] at h
  | ok => simp [parsePat] at h
  | err => simp [parsePat] at h
  | pair => simp [parsePat] at h
  | lit => simp [parsePat] at h
  | or => simp [parsePat] at h

/-- A pattern for `None` below some `&`. -/
theorem none_pat {w : S.W} {P : Pat} {c : Nat} (h : parsePat P c = some .none) {t : Ty} {p : Place}
    {mo : Mode} {ρ : Env} {o : Option Env} (hm : matchPat w P t p mo ρ = some o) :
    ∃ t' q mo', follow w t p mo = some (.opt t', q, mo') ∧
      ((read w q = some .none ∧ o = some ρ) ∨ ∃ v, read w q = some (.some v) ∧ o = none) := by
  induction P generalizing c t p mo with
  | none =>
    simp only [matchPat] at hm
    cases hf : follow w t p mo with
    | none => rw [hf] at hm; cases hm
    | some f =>
      rw [hf] at hm
      obtain ⟨t1, q1, mo1⟩ := f
      simp only [Option.bind_some] at hm
      cases t1 with
      | opt t' =>
        cases hq : read w q1 with
        | none => rw [hq] at hm; cases hm
        | some u =>
          rw [hq] at hm
          cases u with
          | some v => cases hm; exact ⟨_, q1, mo1, rfl, .inr ⟨_, hq, rfl⟩⟩
          | none => cases hm; exact ⟨_, q1, mo1, rfl, .inl ⟨hq, rfl⟩⟩
          | _ => cases hm
      | _ => cases hm
  | ref m P ih =>
    simp only [parsePat] at h
    cases t with
    | ref m' t =>
      simp only [matchPat] at hm
      split at hm
      · next hmm =>
        subst hmm
        split at hm
        · next hr =>
          obtain ⟨t', q, mo', h1, h4⟩ := ih h hm
          obtain ⟨mo'', h1'⟩ := follow_mode h1 ⟨true, mo.mt && m⟩
          refine ⟨t', q, mo'', ?_, h4⟩
          simp only [follow, hr]
          exact h1'
        · cases hm
      · cases hm
    | atom => simp only [matchPat] at hm; cases hm
    | opt => simp only [matchPat] at hm; cases hm
    | res => simp only [matchPat] at hm; cases hm
    | pair => simp only [matchPat] at hm; cases hm
  | wild => simp [parsePat] at h
  | some => simp [parsePat] at h
  | bind => simp [parsePat] at h
  | bindAt => simp [parsePat] at h
  | someRest => simp [parsePat] at h
  | ok => simp [parsePat] at h
  | err => simp [parsePat] at h
  | pair => simp [parsePat] at h
  | lit => simp [parsePat] at h
  | or => simp [parsePat] at h

/-- `_` below some `&`. -/
theorem wild_pat {w : S.W} {P : Pat} {c : Nat} (h : parsePat P c = some .wild) {t : Ty} {p : Place}
    {mo : Mode} {ρ : Env} {o : Option Env} (hm : matchPat w P t p mo ρ = some o) : o = some ρ := by
  induction P generalizing c t p mo with
  | wild => simp only [matchPat] at hm; cases hm; rfl
  | ref m P ih =>
    simp only [parsePat] at h
    cases t with
    | ref m' t =>
      simp only [matchPat] at hm
      split at hm
      · split at hm
        · exact ih h hm
        · cases hm
      · cases hm
    | atom => simp only [matchPat] at hm; cases hm
    | opt => simp only [matchPat] at hm; cases hm
    | res => simp only [matchPat] at hm; cases hm
    | pair => simp only [matchPat] at hm; cases hm
  | none => simp [parsePat] at h
  | some => simp [parsePat] at h
  | bind => simp [parsePat] at h
  | bindAt => simp [parsePat] at h
  | someRest => simp [parsePat] at h
  | ok => simp [parsePat] at h
  | err => simp [parsePat] at h
  | pair => simp [parsePat] at h
  | lit => simp [parsePat] at h
  | or => simp [parsePat] at h

/-- At the outside, no `&` and no `ref`. -/
def plainHead : Pat → Bool
  | .ref _ _ => false
  | .bind b _ => b.byRef.isNone
  | .bindAt b _ p => b.byRef.isNone && plainHead p
  | .or p q => plainHead p && plainHead q
  | _ => true

/-- A pattern against a place, by reference, is the same as the pattern against a reference to it. -/
theorem match_ref {w : S.W} (r : Pat) (h : plainHead r = true) (m : Bool) (t : Ty) (p : Place) (ρ : Env) :
    matchPat w r (.ref m t) (.temp (.ref m p) []) .start ρ = matchPat w r t p ⟨true, m⟩ ρ := by
  induction r generalizing ρ with
  | bind b x =>
    simp only [plainHead] at h
    simp only [matchPat, bound, Option.isNone_iff_eq_none.mp h, Mode.start, read, Val.at]
    rfl
  | bindAt b x q ih =>
    simp only [plainHead, Bool.and_eq_true] at h
    simp only [matchPat, bound, Option.isNone_iff_eq_none.mp h.1, Mode.start, read, Val.at]
    simp only [Bool.false_eq_true, if_false, if_true, Option.bind_some]
    exact ih h.2 _
  | or q q' ih ih' =>
    simp only [plainHead, Bool.and_eq_true] at h
    simp only [matchPat, ih h.1, ih' h.2]
  | ref => cases h
  | wild => rfl
  | none => simp [matchPat, follow, read, Val.at, Mode.start]
  | some => simp [matchPat, follow, read, Val.at, Mode.start]
  | someRest => simp [matchPat, follow, read, Val.at, Mode.start]
  | ok => simp [matchPat, follow, read, Val.at, Mode.start]
  | err => simp [matchPat, follow, read, Val.at, Mode.start]
  | pair => simp [matchPat, follow, read, Val.at, Mode.start]
  | lit => simp [matchPat, follow, read, Val.at, Mode.start]

/-- Two places with the same value. -/
theorem follow_same {w : S.W} {t : Ty} {p p' : Place} (hp : read w p = read w p') {mt mt' : Bool}
    (hs : mt = mt' ∨ t.shared = true) :
    follow w t p ⟨false, mt⟩ = follow w t p' ⟨false, mt'⟩ ∨
      (follow w t p ⟨false, mt⟩ = some (t, p, ⟨false, mt⟩) ∧
        follow w t p' ⟨false, mt'⟩ = some (t, p', ⟨false, mt'⟩)) := by
  cases t with
  | ref m t =>
    left
    simp only [follow, hp]
    have : (mt && m) = (mt' && m) := by
      rcases hs with rfl | hs
      · rfl
      · simp only [Ty.shared, Bool.and_eq_true, Bool.not_eq_true'] at hs
        rw [hs.1]; simp
    rw [this]
  | atom => right; exact ⟨rfl, rfl⟩
  | opt => right; exact ⟨rfl, rfl⟩
  | res => right; exact ⟨rfl, rfl⟩
  | pair => right; exact ⟨rfl, rfl⟩

theorem maxMut_none {a b : Option Bool} (h : maxMut a b = none) : a = none ∧ b = none := by
  cases a <;> cases b <;> simp [maxMut] at h ⊢

/-- A pattern without `ref` only depends on the value at the place. -/
theorem match_value {w : S.W} (r : Pat) (hr : explicitRef r = none) {t : Ty} {p p' : Place}
    (hp : read w p = read w p') {mt mt' : Bool} (hs : mt = mt' ∨ t.shared = true) (ρ : Env) :
    matchPat w r t p ⟨false, mt⟩ ρ = matchPat w r t p' ⟨false, mt'⟩ ρ := by
  have hstep : ∀ s, ∀ {p p' : Place}, read w p = read w p' → read w (p.step s) = read w (p'.step s) := by
    intro s p p' h
    rw [read_step, read_step, h]
  have hb : ∀ {t : Ty}, mt = mt' ∨ t.shared = true → (mt || t.shared) = (mt' || t.shared) := by
    intro t h
    rcases h with rfl | h
    · rfl
    · rw [h]; simp
  induction r generalizing t p p' ρ with
  | wild => rfl
  | bind b x =>
    simp only [explicitRef] at hr
    simp only [matchPat, bound, hr, hp, hb hs]
    rfl
  | bindAt b x q ih =>
    simp only [explicitRef] at hr
    obtain ⟨h1, h2⟩ := maxMut_none hr
    simp only [matchPat, bound, h1, hp, hb hs]
    simp only [Bool.false_eq_true, if_false]
    congr 1
    funext v
    exact ih h2 hp hs _
  | ref m q ih =>
    cases t with
    | ref m' t =>
      simp only [matchPat, hp]
      have : (mt && m') = (mt' && m') := by
        rcases hs with rfl | hs
        · rfl
        · simp only [Ty.shared, Bool.and_eq_true, Bool.not_eq_true'] at hs
          rw [hs.1]; simp
      split
      · next hm =>
        subst hm
        split
        · rw [this]
        · rfl
      · rfl
    | atom => rfl
    | opt => rfl
    | res => rfl
    | pair => rfl
  | none =>
    simp only [matchPat]
    rcases follow_same hp hs with h | ⟨h1, h2⟩
    · rw [h]
    · rw [h1, h2]
      simp only [Option.bind_some, hp]
  | someRest =>
    simp only [matchPat]
    rcases follow_same hp hs with h | ⟨h1, h2⟩
    · rw [h]
    · rw [h1, h2]
      simp only [Option.bind_some, hp]
  | lit n =>
    simp only [matchPat]
    rcases follow_same hp hs with h | ⟨h1, h2⟩
    · rw [h]
    · rw [h1, h2]
      simp only [Option.bind_some, hp]
  | some q ih =>
    simp only [explicitRef] at hr
    simp only [matchPat]
    rcases follow_same hp hs with h | ⟨h1, h2⟩
    · rw [h]
    · rw [h1, h2]
      simp only [Option.bind_some, hp]
      cases t with
      | opt t =>
        cases read w p' with
        | none => rfl
        | some u =>
          cases u with
          | some v =>
            have hs' : mt = mt' ∨ t.shared = true := hs
            exact ih hr (hstep .inner hp) hs' _
          | _ => rfl
      | _ => rfl
  | ok q ih =>
    simp only [explicitRef] at hr
    simp only [matchPat]
    rcases follow_same hp hs with h | ⟨h1, h2⟩
    · rw [h]
    · rw [h1, h2]
      simp only [Option.bind_some, hp]
      cases t with
      | res t e =>
        have hs' : mt = mt' ∨ t.shared = true := hs.imp id (fun h => by
          simp only [Ty.shared, Bool.and_eq_true] at h; exact h.1)
        cases read w p' with
        | none => rfl
        | some u =>
          cases u with
          | ok v => exact ih hr (hstep .inner hp) hs' _
          | _ => rfl
      | _ => rfl
  | err q ih =>
    simp only [explicitRef] at hr
    simp only [matchPat]
    rcases follow_same hp hs with h | ⟨h1, h2⟩
    · rw [h]
    · rw [h1, h2]
      simp only [Option.bind_some, hp]
      cases t with
      | res t e =>
        have hs' : mt = mt' ∨ e.shared = true := hs.imp id (fun h => by
          simp only [Ty.shared, Bool.and_eq_true] at h; exact h.2)
        cases read w p' with
        | none => rfl
        | some u =>
          cases u with
          | err v => exact ih hr (hstep .inner hp) hs' _
          | _ => rfl
      | _ => rfl
  | pair q q' ih ih' =>
    simp only [explicitRef] at hr
    obtain ⟨hr1, hr2⟩ := maxMut_none hr
    simp only [matchPat]
    rcases follow_same hp hs with h | ⟨h1, h2⟩
    · rw [h]
    · rw [h1, h2]
      simp only [Option.bind_some]
      cases t with
      | pair t e =>
        have hs1 : mt = mt' ∨ t.shared = true := hs.imp id (fun h => by
          simp only [Ty.shared, Bool.and_eq_true] at h; exact h.1)
        have hs2 : mt = mt' ∨ e.shared = true := hs.imp id (fun h => by
          simp only [Ty.shared, Bool.and_eq_true] at h; exact h.2)
        simp only [ih hr1 (hstep .fst hp) hs1]
        congr 1
        funext o
        cases o with
        | none => rfl
        | some ρ' => exact ih' hr2 (hstep .snd hp) hs2 _
      | _ => rfl
  | or q q' ih ih' =>
    simp only [explicitRef] at hr
    obtain ⟨hr1, hr2⟩ := maxMut_none hr
    simp only [matchPat, ih hr1 hp hs, ih' hr2 hp hs]

end Verif.OptMatch
