import Verif.LitFmt.Spec
import Verif.LitFmt.Model

/-!
# Numbers of arguments when some are removed
-/

namespace Verif.LitFmt

section
variable (R : List Nat)

/-- How many of the `j` indices from `k` on stay. -/
def cnt (k : Nat) : Nat → Nat
  | 0 => 0
  | j + 1 => (if R.contains k then 0 else 1) + cnt (k + 1) j

theorem cnt_succ : ∀ (j k : Nat), cnt R k (j + 1) = cnt R k j + if R.contains (k + j) then 0 else 1
  | 0, k => by simp [cnt]
  | j + 1, k => by
    have := cnt_succ j (k + 1)
    rw [cnt, this, cnt, Nat.add_right_comm k 1 j, ← Nat.add_assoc k j 1]
    omega

/-- The new index of an argument. -/
def rank (i : Nat) : Nat := cnt R 0 i

theorem rank_gone {i : Nat} (h : i ∈ R) : rank R (i + 1) = rank R i := by
  simp [rank, cnt_succ, h]

theorem rank_kept {i : Nat} (h : i ∉ R) : rank R (i + 1) = rank R i + 1 := by
  simp [rank, cnt_succ, h]

theorem keep_get : ∀ (as : List Arg) (k j : Nat) {a : Arg}, as[j]? = some a → k + j ∉ R →
    (keepFrom R k as)[cnt R k j]? = some a
  | [], _, _, _, h, _ => by simp at h
  | b :: as, k, 0, a, h, hk => by
    simp only [List.getElem?_cons_zero, Option.some.injEq] at h
    subst h
    have : k ∉ R := by simpa using hk
    simp [keepFrom, this, cnt]
  | b :: as, k, j + 1, a, h, hk => by
    simp only [List.getElem?_cons_succ] at h
    have ih := keep_get as (k + 1) j h (by rwa [Nat.add_right_comm])
    simp only [keepFrom, cnt]
    split
    · rw [Nat.zero_add]; exact ih
    · rw [Nat.add_comm 1, List.getElem?_cons_succ]; exact ih

theorem keep_onto : ∀ (as : List Arg) (k : Nat) {m : Nat}, m < (keepFrom R k as).length →
    ∃ j, j < as.length ∧ k + j ∉ R ∧ cnt R k j = m
  | [], _, _, h => by simp [keepFrom] at h
  | a :: as, k, m, h => by
    simp only [keepFrom] at h
    split at h
    · next g =>
      obtain ⟨j, h1, h2, h3⟩ := keep_onto as (k + 1) h
      exact ⟨j + 1, by simpa using h1, by rwa [← Nat.add_assoc, Nat.add_right_comm], by simp only [cnt, if_pos g, h3, Nat.zero_add]⟩
    · next g =>
      cases m with
      | zero => exact ⟨0, by simp, by simpa using g, rfl⟩
      | succ m =>
        obtain ⟨j, h1, h2, h3⟩ := keep_onto as (k + 1) (m := m) (by simpa using h)
        exact ⟨j + 1, by simpa using h1, by rwa [← Nat.add_assoc, Nat.add_right_comm],
          by simp only [cnt, if_neg g, h3, Nat.add_comm]⟩

theorem keep_name {x : Name} : ∀ (as : List Arg) (k : Nat) {j : Nat}, nameIdx x as = some j → k + j ∉ R →
    nameIdx x (keepFrom R k as) = some (cnt R k j)
  | [], _, _, h, _ => by simp [nameIdx] at h
  | a :: as, k, j, h, hk => by
    simp only [nameIdx] at h
    by_cases e : a.name = some x
    · rw [if_pos e] at h
      cases h
      have : k ∉ R := by simpa using hk
      simp [keepFrom, this, nameIdx, e, cnt]
    · rw [if_neg e] at h
      simp only [Option.map_eq_some_iff] at h
      obtain ⟨j, h1, rfl⟩ := h
      have ih := keep_name as (k + 1) h1 (by rwa [Nat.add_right_comm])
      simp only [keepFrom, cnt]
      split
      · rw [ih, Nat.zero_add]
      · simp only [nameIdx, if_neg e, ih, Option.map_some, Nat.add_comm]

theorem keep_noName {x : Name} : ∀ (as : List Arg) (k : Nat), nameIdx x as = none →
    nameIdx x (keepFrom R k as) = none
  | [], _, _ => rfl
  | a :: as, k, h => by
    simp only [nameIdx] at h
    split at h
    · cases h
    · next e =>
      simp only [Option.map_eq_none_iff] at h
      have ih := keep_noName as (k + 1) h
      simp only [keepFrom]
      split
      · exact ih
      · simp only [nameIdx, if_neg e, ih, Option.map_none]

theorem nameIdx_lt {x : Name} : ∀ {as : List Arg} {j : Nat}, nameIdx x as = some j → j < as.length
  | [], _, h => by simp [nameIdx] at h
  | a :: as, j, h => by
    simp only [nameIdx] at h
    split at h
    · cases h; simp
    · simp only [Option.map_eq_some_iff] at h
      obtain ⟨j, h1, rfl⟩ := h
      simpa using nameIdx_lt h1

theorem filter_lt_succ : ∀ (P : List Nat) (i : Nat),
    (P.filter (· < i + 1)).length = (P.filter (· < i)).length + P.count i
  | [], _ => rfl
  | p :: P, i => by
    have ih := filter_lt_succ P i
    simp only [List.filter_cons, List.count_cons]
    by_cases h : p < i
    · have h1 : p < i + 1 := by omega
      have h2 : ¬ p = i := by omega
      simp [h, h1, h2, ih]; omega
    · by_cases e : p = i
      · subst e; simp [ih]; omega
      · have h1 : ¬ p < i + 1 := by omega
        simp [h, h1, e, ih]

theorem count_nodup : ∀ {P : List Nat}, P.Nodup → ∀ i, P.count i = if P.contains i then 1 else 0
  | [], _, _ => rfl
  | p :: P, h, i => by
    rw [List.nodup_cons] at h
    have ih := count_nodup h.2 i
    rw [List.count_cons, ih]
    by_cases e : p = i
    · subst e
      simp [h.1]
    · simp [e, Ne.symm e]

/-- Counting down by the positions before gives the new index. -/
theorem decremented_eq (h : R.Nodup) (i : Nat) : decremented R i = rank R i := by
  have key : ∀ i, (R.filter (· < i)).length + rank R i = i := by
    intro i
    induction i with
    | zero => simp [rank, cnt]
    | succ i ih =>
      rw [filter_lt_succ, count_nodup h, rank, cnt_succ]
      have : cnt R 0 i = rank R i := rfl
      simp only [Nat.zero_add, this]
      split <;> omega
  unfold decremented
  have := key i
  omega

/-! ### References -/

/-- What a reference means afterwards. -/
def Target.map : Target → Target
  | .arg i => .arg (rank R i)
  | .captured x => .captured x

/-- The reference is to an argument that stays, or to a variable. -/
def Ref.stays (r : Ref) : Prop := ∀ i, r.target = .arg i → i ∉ R

def Ref.map (r : Ref) : Ref := ⟨newPos R r.pos, r.target.map R⟩

theorem locate_pos {args : List Arg} {n n' : Nat} {p : Pos} {r : Ref} (h : locate args n p = some (r, n')) :
    r.pos = p := by
  cases p with
  | implicit => simp only [locate] at h; split at h <;> simp at h; rw [← h.1]
  | number i => simp only [locate] at h; split at h <;> simp at h; rw [← h.1]
  | named x => simp only [locate] at h; split at h <;> simp at h <;> rw [← h.1]

variable {R} in
theorem locate_new (hR : R.Nodup) {args : List Arg} {n n' : Nat} {p : Pos} {r : Ref}
    (h : locate args n p = some (r, n')) (hs : r.stays R) :
    locate (keepFrom R 0 args) (rank R n) (newPos R p) = some (r.map R, rank R n') := by
  cases p with
  | implicit =>
    simp only [locate] at h
    split at h
    · next lt =>
      cases h
      have hn := hs n rfl
      have := keep_get R args 0 n (List.getElem?_eq_getElem lt) (by simpa using hn)
      have hl := (List.getElem?_eq_some_iff.1 this).1
      rw [rank_kept R hn]
      have hl' : rank R n < (keepFrom R 0 args).length := hl
      simp only [newPos, locate, if_pos hl', Ref.map, Target.map]
    · cases h
  | number i =>
    simp only [locate] at h
    split at h
    · next lt =>
      cases h
      have hn := hs i rfl
      have := keep_get R args 0 i (List.getElem?_eq_getElem lt) (by simpa using hn)
      have hl := (List.getElem?_eq_some_iff.1 this).1
      simp only [newPos, locate, decremented_eq R hR, rank, if_pos hl, Ref.map, Target.map]
    · cases h
  | named x =>
    simp only [locate] at h
    split at h
    · next i e =>
      cases h
      have hn := hs i rfl
      simp only [newPos, locate, keep_name R args 0 e (by simpa using hn)]
      rfl
    · next e =>
      cases h
      simp only [newPos, locate, keep_noName R args 0 e]
      rfl

variable {R} in
theorem locateOpt_new (hR : R.Nodup) {args : List Arg} {n n' : Nat} {p : Option Pos} {r : Option Ref}
    (h : locateOpt args n p = some (r, n')) (hs : ∀ q, r = some q → q.stays R) :
    locateOpt (keepFrom R 0 args) (rank R n) (p.map (newPos R)) = some (r.map (Ref.map R), rank R n') := by
  cases p with
  | none => cases h; rfl
  | some p =>
    simp only [locateOpt, Option.map_eq_some_iff] at h
    obtain ⟨⟨q, m⟩, h1, h2⟩ := h
    cases h2
    simp only [Option.map_some, locateOpt, locate_new hR h1 (hs q rfl)]

theorem locateOpt_pos {args : List Arg} {n n' : Nat} {p : Option Pos} {r : Option Ref}
    (h : locateOpt args n p = some (r, n')) : r.map Ref.pos = p := by
  cases p with
  | none => cases h; rfl
  | some p =>
    simp only [locateOpt, Option.map_eq_some_iff] at h
    obtain ⟨⟨q, m⟩, h1, h2⟩ := h
    cases h2
    simp only [Option.map_some, locate_pos h1]

/-- The placeholder refers to arguments that stay. -/
def RHole.stays (h : RHole) : Prop := ∀ r ∈ h.refs, r.stays R

def RHole.map (h : RHole) : RHole :=
  ⟨h.arg.map R, h.width.map (Ref.map R), h.prec.map (Ref.map R), h.display, h.spec⟩

theorem lowerHole_cases {args : List Arg} {n n' : Nat} {h : Hole} {r : RHole} (e : lowerHole args n h = some (r, n')) :
    ∃ n1 n2, locateOpt args n h.prec = some (r.prec, n1) ∧ locate args n1 h.arg = some (r.arg, n2) ∧
      locateOpt args n2 h.width = some (r.width, n') ∧ r.display = h.display ∧ r.spec = h.spec := by
  unfold lowerHole at e
  obtain ⟨⟨p, n1⟩, h1, e⟩ := Option.bind_eq_some_iff.mp e
  obtain ⟨⟨a, n2⟩, h2, e⟩ := Option.bind_eq_some_iff.mp e
  simp only [Option.map_eq_some_iff] at e
  obtain ⟨⟨w, n3⟩, h3, e⟩ := e
  cases e
  exact ⟨n1, n2, h1, h2, h3, rfl, rfl⟩

/-- With numbers for width and precision only beside a number, all numbers are changed. -/
theorem newHole_even {args : List Arg} {n n' : Nat} {h : Hole} {r : RHole} (e : lowerHole args n h = some (r, n'))
    (he : h.even = true) :
    newHole R r = ⟨newPos R h.arg, h.width.map (newPos R), h.prec.map (newPos R), h.display, h.spec⟩ := by
  obtain ⟨n1, n2, h1, h2, h3, h4, h5⟩ := lowerHole_cases e
  have e1 := locateOpt_pos h1
  have e2 := locate_pos h2
  have e3 := locateOpt_pos h3
  have other : ∀ p : Option Pos, (match p with | some (.number _) => false | _ => true) = true →
      p.map (newPos R) = p := by
    intro p hp
    cases p with
    | none => rfl
    | some p => cases p with
      | number i => cases hp
      | implicit => rfl
      | named x => rfl
  unfold newHole
  rw [e2, h4, h5]
  unfold Hole.even at he
  cases ha : h.arg with
  | number i =>
    simp only [← e1, ← e3, Option.map_map, Function.comp_def, newPos]
  | implicit =>
    simp only [ha, Bool.and_eq_true] at he
    simp only [e1, e3, newPos]
    rw [other _ he.1, other _ he.2]
  | named x =>
    simp only [ha, Bool.and_eq_true] at he
    simp only [e1, e3, newPos]
    rw [other _ he.1, other _ he.2]

variable {R} in
theorem lowerHole_new (hR : R.Nodup) {args : List Arg} {n n' : Nat} {h : Hole} {r : RHole}
    (e : lowerHole args n h = some (r, n')) (he : h.even = true) (hs : r.stays R) :
    lowerHole (keepFrom R 0 args) (rank R n) (newHole R r) = some (r.map R, rank R n') := by
  rw [newHole_even R e he]
  obtain ⟨n1, n2, h1, h2, h3, h4, h5⟩ := lowerHole_cases e
  have s1 := locateOpt_new hR h1 (fun q hq => hs q (by simp [RHole.refs, hq]))
  have s2 := locate_new hR h2 (hs r.arg (by simp [RHole.refs]))
  have s3 := locateOpt_new hR h3 (fun q hq => hs q (by simp [RHole.refs, hq]))
  simp only [lowerHole, s1, Option.bind_some, s2, s3, Option.map_some, ← h4, ← h5]
  rfl

theorem target_new {V : Type} {vars : Name → V} {exprs : Nat → V} {args : List Arg} {r : Ref} (hs : r.stays R)
    {v : Shown V} (h : r.target.eval vars exprs args = some v) :
    (r.map R).target.eval vars exprs (keepFrom R 0 args) = some v := by
  obtain ⟨p, t⟩ := r
  cases t with
  | arg i =>
    simp only [Target.eval] at h
    obtain ⟨a, h1, h2⟩ := Option.bind_eq_some_iff.mp h
    have := keep_get R args 0 i h1 (by simpa using hs i rfl)
    simp only [Ref.map, Target.map, Target.eval, rank, this, Option.bind_some, h2]
  | captured x => exact h

theorem count_new {V : Type} {vars : Name → V} {exprs : Nat → V} {args : List Arg} {r : Option Ref}
    (hs : ∀ q, r = some q → q.stays R) {v : Option V} (h : count vars exprs args r = some v) :
    count vars exprs (keepFrom R 0 args) (r.map (Ref.map R)) = some v := by
  cases r with
  | none => exact h
  | some q =>
    simp only [count] at h
    split at h
    · next w e =>
      cases h
      simp only [Option.map_some, count, target_new R (hs q rfl) e]
    · cases h

theorem hole_new {V : Type} {vars : Name → V} {exprs : Nat → V} {args : List Arg} {h : RHole} (hs : h.stays R)
    {o : List (Out V)} (e : h.eval vars exprs args = some o) :
    (h.map R).eval vars exprs (keepFrom R 0 args) = some o := by
  unfold RHole.eval at e
  obtain ⟨v, h1, e⟩ := Option.bind_eq_some_iff.mp e
  obtain ⟨w, h2, e⟩ := Option.bind_eq_some_iff.mp e
  simp only [Option.map_eq_some_iff] at e
  obtain ⟨p, h3, e⟩ := e
  have s1 := target_new R (hs h.arg (by simp [RHole.refs])) h1
  have s2 := count_new R (fun q hq => hs q (by simp [RHole.refs, hq])) h2
  have s3 := count_new R (fun q hq => hs q (by simp [RHole.refs, hq])) h3
  simp only [RHole.eval, RHole.map, s1, Option.bind_some, s2, s3, Option.map_some, e]

end

end Verif.LitFmt
