import Verif.Certain.Model
import Verif.Certain.Spec

/-!
# An expression whose type is called certain has one type
-/

namespace Verif.Certain

section Lattice

theorem meet_ne {a b : Cert} (h : a.meet b ≠ .uncertain) : a ≠ .uncertain ∧ b ≠ .uncertain := by
  cases a <;> cases b <;> simp_all [Cert.meet]

theorem join_ne {a b : Cert} (h : a.join b ≠ .uncertain) : a ≠ .uncertain ∨ b ≠ .uncertain := by
  cases a <;> cases b <;> simp_all [Cert.join]

theorem clear_ne {a : Cert} (h : a.clear ≠ .uncertain) : a ≠ .uncertain := by
  cases a <;> simp_all [Cert.clear]

theorem withId_ne {d : Nat} {a : Cert} (h : a.withId d ≠ .uncertain) : a ≠ .uncertain := by
  cases a <;> simp_all [Cert.withId]

theorem withOpt_ne {d : Option Nat} {a : Cert} (h : a.withOpt d a ≠ .uncertain) : a ≠ .uncertain := by
  cases d <;> cases a <;> simp_all [Cert.withOpt, Cert.withId]

theorem finish_ne {fa : Facts} {e : Ex} {c : Cert} (h : finish fa e c ≠ .uncertain) : c ≠ .uncertain := by
  unfold finish at h
  cases ha : fa.adt e <;> rw [ha] at h <;> cases c <;> simp_all [Cert.withOpt, Cert.withId, Cert.clear]

theorem joinClearing_ne {a b : Cert} (h : a.joinClearing b ≠ .uncertain) : a ≠ .uncertain ∨ b ≠ .uncertain := by
  rcases join_ne h with h | h
  · exact .inl (clear_ne h)
  · exact .inr (clear_ne h)

theorem isCertain_ne {a : Cert} (h : a.isCertain = true) : a ≠ .uncertain := by
  cases a <;> simp_all [Cert.isCertain]

theorem toId_ne {a : Cert} {q : Nat} (h : a.toId = some q) : a ≠ .uncertain := by
  cases a <;> simp_all [Cert.toId]

theorem binCert_ne {a b : Cert} (h : binCert a b ≠ .uncertain) : a ≠ .uncertain ∨ b ≠ .uncertain := by
  cases a <;> cases b <;> simp_all [binCert, Cert.meet]

theorem errCert_ne {fa : Facts} {p : Cert} {d : Nat} {b : Bool} (h : errCert fa p d b ≠ .uncertain) :
    p ≠ .uncertain ∧ ∃ q, fa.finds q d b = true := by
  unfold errCert at h
  cases hp : p.toId with
  | none => simp [hp] at h
  | some q =>
    refine ⟨toId_ne hp, q, ?_⟩
    cases hf : fa.finds q d b with
    | true => rfl
    | false => simp [hp, hf] at h

theorem ownCert_ne {D : Nat → Def} {p : Cert} {d : Nat} (h : ownCert D p d ≠ .uncertain) :
    (p ≠ .uncertain ∨ (D d).parents = 0) ∧ (D d).own = 0 := by
  unfold ownCert at h
  by_cases hc : ((p.isCertain || (D d).parents == 0) && ((D d).own == 0 && (D d).lifetimes == 0)) = true
  · simp only [Bool.and_eq_true, Bool.or_eq_true, beq_iff_eq] at hc
    refine ⟨?_, hc.2.1⟩
    rcases hc.1 with h1 | h1
    · exact .inl (isCertain_ne h1)
    · exact .inr h1
  · rw [if_neg hc] at h
    exact absurd rfl h

theorem typeId_ne {fa : Facts} {d : Nat} {c : Cert} (h : typeId fa d c ≠ .uncertain) : c ≠ .uncertain := by
  unfold typeId at h
  split at h
  · exact withOpt_ne h
  · exact withId_ne h

theorem defCert_ne {D : Nat → Def} {fa : Facts} {p : Cert} {d : Nat} {a : Cert} {b : Bool}
    (h : defCert D fa p d a b ≠ .uncertain) :
    ((p ≠ .uncertain ∨ (D d).parents = 0) ∧ (D d).own = 0) ∨ a ≠ .uncertain := by
  have hc : (ownCert D p d).joinClearing a ≠ .uncertain := by
    unfold defCert at h
    cases b
    · exact h
    · exact typeId_ne h
  rcases joinClearing_ne hc with h | h
  · exact .inl (ownCert_ne h)
  · exact .inr h

end Lattice

section Inst

variable {S : Sig}

mutual
theorem inst_inj {σ σ' : List Ty} {i : Nat} (hl : σ.length = σ'.length) : ∀ {s : Sch},
    inst S σ s = inst S σ' s → Occurs i s → σ[i]? = σ'[i]?
  | .var j, h, ho => by
    cases ho
    simp only [inst, List.getD_eq_getElem?_getD] at h
    by_cases hi : i < σ.length
    · have hi' : i < σ'.length := hl ▸ hi
      rw [List.getElem?_eq_getElem hi, List.getElem?_eq_getElem hi'] at h ⊢
      simpa using h
    · have hi' : ¬ i < σ'.length := hl ▸ hi
      rw [List.getElem?_eq_none (by omega), List.getElem?_eq_none (by omega)]
  | .con c ss, h, ho => by
    cases ho with
    | con hm ho =>
      simp only [inst, Ty.con.injEq, true_and] at h
      exact instAll_inj hl h hm ho
  | .proj _ _, _, ho => nomatch ho
theorem instAll_inj {σ σ' : List Ty} {i : Nat} (hl : σ.length = σ'.length) : ∀ {ss : List Sch},
    instAll S σ ss = instAll S σ' ss → ∀ {s : Sch}, s ∈ ss → Occurs i s → σ[i]? = σ'[i]?
  | [], _, _, hm, _ => nomatch hm
  | s :: ss, h, t, hm, ho => by
    simp only [instAll, List.cons.injEq] at h
    rcases List.mem_cons.mp hm with he | hm
    · rw [he] at ho
      exact inst_inj hl h.1 ho
    · exact instAll_inj hl h.2 hm ho
end

theorem list_ext {σ σ' : List Ty} {n : Nat} (h : σ.length = n) (h' : σ'.length = n)
    (he : ∀ i, i < n → σ[i]? = σ'[i]?) : σ = σ' := by
  apply List.ext_getElem?
  intro i
  by_cases hi : i < n
  · exact he i hi
  · rw [List.getElem?_eq_none (by omega), List.getElem?_eq_none (by omega)]

theorem take_drop_eq {σ σ' : List Ty} {n : Nat} (ht : σ.take n = σ'.take n) (hd : σ.drop n = σ'.drop n) : σ = σ' := by
  rw [← List.take_append_drop n σ, ht, hd, List.take_append_drop]

theorem take_eq {σ σ' : List Ty} {n : Nat} (he : ∀ i, i < n → σ[i]? = σ'[i]?) : σ.take n = σ'.take n := by
  apply List.ext_getElem?
  intro i
  by_cases hi : i < n
  · rw [List.getElem?_take_of_lt hi, List.getElem?_take_of_lt hi]
    exact he i hi
  · rw [List.getElem?_take_eq_none (by omega), List.getElem?_take_eq_none (by omega)]

end Inst

section Paths

variable {D : Nat → Def} {S : Sig} {fa : Facts}

/-- What is known of the path so far. -/
abbrev Known (p : Cert) (P : Ent → Prop) : Prop := p ≠ .uncertain → Uniq P ∧ ¬ P .start

/-- The parameters of the surroundings are fixed by the path in front. -/
theorem parents_eq (hD : Lawful D S) {P : Ent → Prop} {d : Nat} {x x' : Ent} {σ σ' : List Ty}
    (hl : σ.length = (D d).parents + (D d).own) (hl' : σ'.length = (D d).parents + (D d).own)
    (hu : Uniq P) (hs : ¬ P .start) (hm : (D d).parents ≠ 0 → ¬ P .modl) (hx : P x) (hx' : P x')
    (hf : Fits D S d σ x) (hf' : Fits D S d σ' x') : σ.take (D d).parents = σ'.take (D d).parents := by
  by_cases h0 : (D d).parents = 0
  · rw [h0, List.take_zero, List.take_zero]
  · have he := hu x x' hx hx'
    cases x with
    | start => exact absurd hx hs
    | modl => exact absurd hx (hm h0)
    | ty t =>
      rw [← he] at hf'
      simp only [Fits, h0, false_or] at hf hf'
      refine take_eq fun i hi => ?_
      exact inst_inj (S := S) (hl.trans hl'.symm) (hf.symm.trans hf') (hD.head d i hi)

theorem drop_nil {σ : List Ty} {n k : Nat} (hl : σ.length = n + k) (h : k = 0) : σ.drop n = [] :=
  List.drop_eq_nil_of_le (by omega)

/-- A segment whose path in front has one meaning, and which has no parameters of its own. -/
theorem next_own (hD : Lawful D S) {P : Ent → Prop} {d : Nat} {args : Args} (ho : (D d).own = 0)
    (hm : (D d).parents ≠ 0 → ¬ P .modl) (h : (Uniq P ∧ ¬ P .start) ∨ (D d).parents = 0) :
    Uniq (Next D S P d args) := by
  rintro _ _ ⟨x, σ, hx, hl, hf, -, rfl⟩ ⟨x', σ', hx', hl', hf', -, rfl⟩
  have he : σ = σ' := by
    refine take_drop_eq (n := (D d).parents) ?_ (by rw [drop_nil hl ho, drop_nil hl' ho])
    rcases h with ⟨hu, hs⟩ | h0
    · exact parents_eq hD hl hl' hu hs hm hx hx' hf hf'
    · rw [h0, List.take_zero, List.take_zero]
  rw [he]

theorem denArgs_eq {args : Args} {ts ts' : List Ty} {n : Nat} (hne : args ≠ .absent)
    (hu : ∀ hs, args = .given hs → Uniq (DenAll D S hs)) (hn : args = .given .nil → n = 0)
    (hl : ts.length = n) (hl' : ts'.length = n)
    (h : DenArgs D S args ts) (h' : DenArgs D S args ts') : ts = ts' := by
  have hnil : args = .given .nil → ts = ts' := fun he => by
    have h0 := hn he
    rw [List.length_eq_zero_iff.mp (hl.trans h0), List.length_eq_zero_iff.mp (hl'.trans h0)]
  cases h with
  | absent => exact absurd rfl hne
  | noTypes => exact hnil rfl
  | given h =>
    cases h' with
    | noTypes => exact hnil rfl
    | given h' => exact hu _ rfl _ _ h h'

/-- A segment with type arguments that stand for one row of types. -/
theorem next_args (hD : Lawful D S) {P : Ent → Prop} {err : Bool} {d : Nat} {args : Args} (hok : SegOk D P err d args)
    (hne : args ≠ .absent) (hu : ∀ hs, args = .given hs → Uniq (DenAll D S hs)) : Uniq (Next D S P d args) := by
  rintro _ _ ⟨x, σ, hx, hl, hf, ha, rfl⟩ ⟨x', σ', hx', hl', hf', ha', rfl⟩
  have he : σ = σ' := by
    unfold covered at ha ha'
    by_cases hv : (D d).variant = true
    · rw [if_pos hv] at ha ha'
      have ho := hD.variant d hv
      refine take_drop_eq (n := (D d).parents) ?_ (by rw [drop_nil hl ho, drop_nil hl' ho])
      refine denArgs_eq (n := (D d).parents) hne hu (fun h => ?_) ?_ ?_ ha ha'
      · have := hok.types h
        rwa [if_pos hv] at this
      · rw [List.length_take]; omega
      · rw [List.length_take]; omega
    · rw [if_neg hv] at ha ha'
      refine take_drop_eq (n := (D d).parents) ?_ ?_
      · rcases hok.parents hne with h | h | h
        · exact absurd h hv
        · rw [h, List.take_zero, List.take_zero]
        · exact parents_eq hD hl hl' h.1 h.2 hok.modl hx hx' hf hf'
      · refine denArgs_eq (n := (D d).own) hne hu (fun h => ?_) ?_ ?_ ha ha'
        · have := hok.types h
          rwa [if_neg hv] at this
        · rw [List.length_drop]; omega
        · rw [List.length_drop]; omega
  rw [he]

theorem next_start {P : Ent → Prop} {d : Nat} {args : Args} : ¬ Next D S P d args .start := by
  rintro ⟨_, _, _, _, _, _, h⟩
  cases h

theorem segs_defn {P : Ent → Prop} {err : Bool} {d : Nat} {args : Args} {rest : Segs} {x y : Ent} (hx : P x)
    (h : DenSegs D S (.defn err d args rest) x y) : ∃ z, Next D S P d args z ∧ DenSegs D S rest z y := by
  cases h with
  | defn σ hl hf ha h => exact ⟨_, ⟨x, σ, hx, hl, hf, ha, rfl⟩, h⟩

theorem den_path {s : Start} {segs : Segs} (h : Uniq (fun y => ∃ x, DenStart D S s x ∧ DenSegs D S segs x y)) :
    Uniq (Den D S (.path s segs)) := by
  intro t t' hd hd'
  cases hd with
  | path hx ht => cases hd' with
    | path hx' ht' =>
      have he := h _ _ ⟨_, hx, ht⟩ ⟨_, hx', ht'⟩
      cases he
      rfl

theorem den_app {c : Con} {hs : HTys} (h : Uniq (DenAll D S hs)) : Uniq (Den D S (.app c hs)) := by
  intro t t' hd hd'
  cases hd with
  | app ht => cases hd' with
    | app ht' => rw [h _ _ ht ht']

theorem visitAll_ne {hs : HTys} {c : Cert} (h : visitAll D fa hs c ≠ .uncertain) : c ≠ .uncertain := by
  cases hs with
  | nil => exact h
  | cons _ _ =>
    simp only [visitAll] at h
    split at h
    · exact absurd rfl h
    · assumption

variable (hD : Lawful D S)
include hD

mutual
theorem tyU : ∀ {h : HTy}, FineTy D S h → tyCert D fa h ≠ .uncertain → Uniq (Den D S h)
  | _, .infer, hc => by
    simp [tyCert] at hc
  | _, .path hs h, hc => by
    simp only [tyCert] at hc
    exact den_path (segsU h (startU hs) hc)
  | _, .app h, hc => by
    simp only [tyCert] at hc
    exact den_app (allU h hc)
theorem startU : ∀ {s : Start}, FineStart D S s → Known (startCert D fa s) (DenStart D S s)
  | _, .none => by
    intro hc
    simp [startCert] at hc
  | _, .ty hf => by
    intro hc
    simp only [startCert] at hc
    refine ⟨?_, (fun h => nomatch h)⟩
    intro _ _ hx hx'
    cases hx with
    | ty hd => cases hx' with
      | ty hd' => rw [tyU hf hc _ _ hd hd']
theorem segsU : ∀ {P : Ent → Prop} {segs : Segs} {b : Bool} {p : Cert}, FineSegs D S P segs → Known p P →
    segsCert D fa b p segs ≠ .uncertain → Uniq (fun y => ∃ x, P x ∧ DenSegs D S segs x y)
  | _, _, _, _, .nil, hk, hc => by
    simp only [segsCert] at hc
    rintro _ _ ⟨x, hx, h⟩ ⟨x', hx', h'⟩
    cases h
    cases h'
    exact (hk hc).1 _ _ hx hx'
  | _, _, b, p, .modl h, _, hc => by
    simp only [segsCert] at hc
    rintro y y' ⟨x, hx, hs⟩ ⟨x', hx', hs'⟩
    cases hs with
    | modl hs => cases hs' with
      | modl hs' =>
        exact segsU h (fun _ => ⟨fun _ _ h h' => h.trans h'.symm, (fun h => nomatch h)⟩) hc _ _ ⟨_, rfl, hs⟩ ⟨_, rfl, hs'⟩
  | _, _, b, p, .fixed h, _, hc => by
    simp only [segsCert] at hc
    rintro y y' ⟨x, hx, hs⟩ ⟨x', hx', hs'⟩
    cases hs with
    | fixed hs => cases hs' with
      | fixed hs' =>
        exact segsU h (fun _ => ⟨fun _ _ h h' => h.trans h'.symm, (fun h => nomatch h)⟩) hc _ _ ⟨_, rfl, hs⟩ ⟨_, rfl, hs'⟩
  | _, _, b, p, .unknown h, _, hc => by
    simp only [segsCert] at hc
    rintro y y' ⟨x, hx, hs⟩ ⟨x', hx', hs'⟩
    cases hs with
    | unknown hs => cases hs' with
      | unknown hs' =>
        exact segsU h (fun h => absurd rfl h) hc _ _ ⟨_, trivial, hs⟩ ⟨_, trivial, hs'⟩
  | P, .defn err d args rest, b, p, .defn ha hok h, hk, hc => by
    simp only [segsCert] at hc
    rintro y y' ⟨x, hx, hs⟩ ⟨x', hx', hs'⟩
    obtain ⟨z, hz, hs⟩ := segs_defn hx hs
    obtain ⟨z', hz', hs'⟩ := segs_defn hx' hs'
    refine segsU h (fun hne => ⟨?_, next_start⟩) hc _ _ ⟨z, hz, hs⟩ ⟨z', hz', hs'⟩
    cases err with
    | true =>
      simp only [if_true] at hne
      exact next_own hD (hok.own rfl) hok.modl (.inl (hk (errCert_ne hne).1))
    | false =>
      simp only [Bool.false_eq_true, if_false] at hne
      rcases defCert_ne hne with ⟨h1 | h1, ho⟩ | h1
      · exact next_own hD ho hok.modl (.inl (hk h1))
      · exact next_own hD ho hok.modl (.inr h1)
      · exact next_args hD hok (argsU ha h1).1 (argsU ha h1).2
theorem argsU : ∀ {args : Args}, FineArgs D S args → argsCert D fa args ≠ .uncertain →
    args ≠ .absent ∧ ∀ hs, args = .given hs → Uniq (DenAll D S hs)
  | _, .absent, hc => by
    simp [argsCert] at hc
  | _, .given h, hc => by
    simp only [argsCert] at hc
    refine ⟨(fun h => nomatch h), fun hs he => ?_⟩
    cases he
    exact allU h hc
theorem visitU : ∀ {h : HTy} {c : Cert}, FineTy D S h → visit D fa h c ≠ .uncertain → Uniq (Den D S h)
  | _, _, .infer, hc => by
    simp [visit] at hc
  | .path s segs, _, .path hs h, hc => by
    have hne : segsCert D fa true (startCert D fa s) segs ≠ .uncertain := by
      simp only [visit] at hc
      split at hc
      · exact absurd rfl hc
      · next hm => exact (meet_ne hm).2
    exact den_path (segsU h (startU hs) hne)
  | _, _, .app h, hc => by
    simp only [visit] at hc
    exact den_app (allU h hc)
theorem allU : ∀ {hs : HTys} {c : Cert}, FineTys D S hs → visitAll D fa hs c ≠ .uncertain → Uniq (DenAll D S hs)
  | _, _, .nil, _ => by
    rintro _ _ h h'
    cases h
    cases h'
    rfl
  | _, c, .cons hf hfs, hc => by
    simp only [visitAll] at hc
    split at hc
    · exact absurd rfl hc
    · have hv := visitAll_ne hc
      rintro _ _ h h'
      cases h with
      | cons hd hds => cases h' with
        | cons hd' hds' => rw [visitU hf hv _ _ hd hd', allU hfs hc _ _ hds hds']
end

end Paths

section Arguments

mutual
theorem mentions_appears {i : Nat} : ∀ {s : Sch}, mentions i s = true → Appears i s
  | .var j, h => by
    simp only [mentions, beq_iff_eq] at h
    rw [h]
    exact .var
  | .con c ss, h => by
    simp only [mentions] at h
    obtain ⟨s, hm, ha⟩ := mentionsAny_appears h
    exact .con hm ha
  | .proj p s, h => by
    simp only [mentions] at h
    exact .proj (mentions_appears h)
theorem mentionsAny_appears {i : Nat} : ∀ {ss : List Sch}, mentionsAny i ss = true → ∃ s ∈ ss, Appears i s
  | [], h => by simp [mentionsAny] at h
  | s :: ss, h => by
    simp only [mentionsAny, Bool.or_eq_true] at h
    rcases h with h | h
    · exact ⟨s, List.mem_cons_self, mentions_appears h⟩
    · obtain ⟨t, hm, ha⟩ := mentionsAny_appears h
      exact ⟨t, List.mem_cons_of_mem _ hm, ha⟩
end

theorem inferable_occurs {D : Nat → Def} {d : Nat} (h : inferable D d = true) (hr : ReadOff D d) {i : Nat}
    (hi : i < (D d).parents + (D d).own) : ∃ s ∈ (D d).inputs, Occurs i s := by
  simp only [inferable, Bool.and_eq_true, List.all_eq_true, List.mem_range] at h
  exact hr i (mentionsAny_appears (h.2 i hi))

end Arguments

section Exprs

variable {D : Nat → Def} {S : Sig} {fa : Facts}

theorem meetAll_ne {b : Bool} : ∀ {es : Exs} {c : Cert}, meetAll D fa b es c ≠ .uncertain → c ≠ .uncertain
  | .nil, _, h => h
  | .cons _ es, _, h => (meet_ne (meetAll_ne (es := es) (by simpa only [meetAll] using h))).1

theorem ann_uniq (hD : Lawful D S) {ann : Start} (hf : FineStart D S ann) (hc : startCert D fa ann ≠ .uncertain) :
    Uniq (Ann D S ann) := by
  cases hf with
  | none => simp [startCert] at hc
  | ty hf =>
    intro t t' h h'
    cases h with
    | ty h => cases h' with
      | ty h' => exact tyU hD hf (by simpa only [startCert] using hc) _ _ h h'

theorem call_uniq {d : Option Nat} {f : Ex} {es : Exs} (hu : Uniq (HasTy D S f)) : Uniq (HasTy D S (.call d f es)) := by
  intro t t' h h'
  cases h with
  | callFn hl hf hes => cases h' with
    | callFn hl' hf' hes' =>
      have he := hu _ _ hf hf'
      simp only [Ty.con.injEq, true_and] at he
      rw [he]
  | callVal hf ho => cases h' with
    | callVal hf' ho' =>
      rw [hu _ _ hf hf', ho'] at ho
      cases ho
      rfl

theorem call_args_uniq {d : Nat} {f : Ex} {es : Exs} (hi : inferable D d = true) (hr : ReadOff D d)
    (hu : Uniq (HasTys D S es)) : Uniq (HasTy D S (.call (some d) f es)) := by
  intro t t' h h'
  cases h with
  | callFn hl hf hes => cases h' with
    | callFn hl' hf' hes' =>
      rw [list_ext hl hl' fun i hlt => ?_]
      obtain ⟨s, hm, ho⟩ := inferable_occurs hi hr hlt
      exact instAll_inj (hl.trans hl'.symm) (hu _ _ hes hes') hm ho

theorem inherent_uniq (hD : Lawful D S) {r : Ex} {d : Nat} {args : Args} {es : Exs} (hi : (D d).inherent = true)
    (ho : (D d).own = 0) (hu : Uniq (HasTy D S r)) : Uniq (HasTy D S (.method r d args es)) := by
  intro t t' h h'
  cases h with
  | method hl hr hv ha hes => cases h' with
    | method hl' hr' hv' ha' hes' =>
      rw [← hu _ _ hr hr'] at hv'
      rw [list_ext hl hl' fun i hlt => ?_]
      obtain ⟨s, hs, hoc⟩ := hD.self _ d _ i hv hi (by omega)
      exact hD.recv _ d _ _ i s hv hv' hs hoc

theorem method_uniq (hD : Lawful D S) {r : Ex} {d : Nat} {args : Args} {es : Exs} (hi : inferable D d = true)
    (hro : ReadOff D d) (hu : Uniq (HasTy D S r)) (hus : Uniq (HasTys D S es)) :
    Uniq (HasTy D S (.method r d args es)) := by
  intro t t' h h'
  cases h with
  | method hl hr hv ha hes => cases h' with
    | method hl' hr' hv' ha' hes' =>
      rw [← hu _ _ hr hr'] at hv'
      rw [list_ext hl hl' fun i hlt => ?_]
      obtain ⟨s, hm, ho⟩ := inferable_occurs hi hro hlt
      cases hin : (D d).inputs with
      | nil => rw [hin] at hm; nomatch hm
      | cons s0 ss =>
        rw [hin] at hm hes hes'
        rcases List.mem_cons.mp hm with he | hm
        · exact hD.recv _ d _ _ i s hv hv' (by rw [hin, he]; rfl) ho
        · exact instAll_inj (hl.trans hl'.symm) (hus _ _ hes hes') hm ho

theorem bin_uniq {op : Nat} {l r : Ex} (hl : Uniq (HasTy D S l)) (hr : Uniq (HasTy D S r)) :
    Uniq (HasTy D S (.bin op l r)) := by
  intro t t' h h'
  cases h with
  | bin h1 h2 ho => cases h' with
    | bin h1' h2' ho' =>
      rw [hl _ _ h1 h1', hr _ _ h2 h2', ho'] at ho
      cases ho
      rfl

/-- All elements of an array have the type of the array. -/
abbrev ElemUniq (D : Nat → Def) (S : Sig) (es : Exs) : Prop :=
  ∀ ts ts' t t', HasTys D S es ts → (∀ u ∈ ts, u = t) → HasTys D S es ts' → (∀ u ∈ ts', u = t') → t = t'

/-- What the compiler's lookup finds is part of an `impl` without trait. -/
abbrev Finds (D : Nat → Def) (fa : Facts) : Prop := ∀ q d b, fa.finds q d b = true → (D d).inherent = true

variable (hD : Lawful D S) (hfi : Finds D fa)
include hD hfi

mutual
theorem exU : ∀ {b : Bool} {e : Ex}, Fine D S b e → cert D fa b e ≠ .uncertain → Uniq (HasTy D S e)
  | _, _, .un h, hc => by
    simp only [cert] at hc
    have hu := exU h (finish_ne hc)
    intro t t' h h'
    cases h with
    | un h ho => cases h' with
      | un h' ho' =>
        rw [hu _ _ h h', ho'] at ho
        cases ho
        rfl
  | _, _, .field h, hc => by
    simp only [cert] at hc
    have hu := exU h (finish_ne hc)
    intro t t' h h'
    cases h with
    | field h ho => cases h' with
      | field h' ho' =>
        rw [hu _ _ h h', ho'] at ho
        cases ho
        rfl
  | _, _, .idx h hi, hc => by
    simp only [cert] at hc
    have hu := exU h (finish_ne hc)
    rcases hi with hi | hi
    · intro t t' h h'
      cases h with
      | idx h hx ho => cases h' with
        | idx h' hx' ho' =>
          rw [hu _ _ h h', hi _ _ hx hx', ho'] at ho
          cases ho
          rfl
    · exact hi
  | _, _, .addr h, hc => by
    simp only [cert] at hc
    have hu := exU h (finish_ne hc)
    intro t t' h h'
    cases h with
    | addr h => cases h' with
      | addr h' => rw [hu _ _ h h']
  | _, _, .arr h, hc => by
    simp only [cert] at hc
    have hu := (joinU h (finish_ne hc)).resolve_left (fun h => h rfl)
    intro t t' h h'
    cases h with
    | arr h ha => cases h' with
      | arr h' ha' => rw [hu _ _ _ _ h ha h' ha']
  | _, _, .callee h, _ => call_uniq h
  | _, .call d f es, .call hf h hd, hc => by
    simp only [cert] at hc
    rcases joinClearing_ne (finish_ne hc) with h1 | h1
    · exact call_uniq (exU hf h1)
    · by_cases hi : inferableCall D d = true
      · rw [if_pos hi] at h1
        cases d with
        | none => simp [inferableCall] at hi
        | some k => exact call_args_uniq hi (hd k rfl) (exsU h h1)
      · rw [if_neg hi] at h1
        exact absurd rfl h1
  | _, .method r d args es, .inherent hr hi ho, hc => by
    simp only [cert] at hc
    refine inherent_uniq hD hi ho (exU hr ?_)
    rcases join_ne (finish_ne hc) with h1 | h1
    · exact withOpt_ne (errCert_ne h1).1
    · split at h1
      · exact withOpt_ne (meet_ne (meetAll_ne h1)).2
      · exact absurd rfl h1
  | _, .method r d args es, .method hr h hi hro, hc => by
    simp only [cert] at hc
    rcases join_ne (finish_ne hc) with h1 | h1
    · obtain ⟨q, hq⟩ := (errCert_ne h1).2
      rw [hfi q d _ hq] at hi
      cases hi
    · split at h1
      · next hin => exact method_uniq hD hin hro (exU hr (withOpt_ne (meet_ne (meetAll_ne h1)).2)) (exsU h h1)
      · exact absurd rfl h1
  | _, _, .tup h, hc => by
    simp only [cert] at hc
    have hu := exsU h (finish_ne hc)
    intro t t' h h'
    cases h with
    | tup h => cases h' with
      | tup h' => rw [hu _ _ h h']
  | _, _, .bin hl hr ho, hc => by
    simp only [cert] at hc
    rcases ho with ho | ho
    · rcases binCert_ne (finish_ne hc) with h1 | h1
      · exact bin_uniq (exU hl h1) (ho.mp (exU hl h1))
      · exact bin_uniq (ho.mpr (exU hr h1)) (exU hr h1)
    · exact ho
  | _, _, .num, hc => by
    simp only [cert] at hc
    exact absurd rfl (finish_ne hc)
  | _, _, .lit, _ => by
    intro t t' h h'
    cases h
    cases h'
    rfl
  | _, _, .cast hf, hc => by
    simp only [cert] at hc
    have hu := tyU hD hf (finish_ne hc)
    intro t t' h h'
    cases h with
    | cast h => cases h' with
      | cast h' => exact hu _ _ h h'
  | _, _, .ifElse ht he, hc => by
    simp only [cert] at hc
    intro t t' h h'
    cases h with
    | ifElse h1 h2 => cases h' with
      | ifElse h1' h2' =>
        rcases join_ne (finish_ne hc) with h | h
        · exact exU ht h _ _ h1 h1'
        · exact exU he h _ _ h2 h2'
  | _, _, .loc ha hi, hc => by
    simp only [cert] at hc
    intro t t' h h'
    cases h with
    | loc h1 h2 => cases h' with
      | loc h1' h2' =>
        rcases join_ne (clear_ne (finish_ne hc)) with h | h
        · exact ann_uniq hD ha h _ _ h1 h1'
        · exact initU hi h _ _ h2 h2'
  | _, _, .param ha, hc => by
    simp only [cert] at hc
    intro t t' h h'
    cases h with
    | param h1 => cases h' with
      | param h1' => exact ann_uniq hD ha (clear_ne (finish_ne hc)) _ _ h1 h1'
  | _, _, .path hf, hc => by
    simp only [cert] at hc
    intro t t' h h'
    cases hf with
    | path hs hsegs =>
      cases h with
      | path h => cases h' with
        | path h' => exact den_path (segsU hD hsegs (startU hD hs) (finish_ne hc)) _ _ h h'
  | _, _, .strct hf, hc => by
    simp only [cert] at hc
    intro t t' h h'
    cases hf with
    | path hs hsegs =>
      cases h with
      | strct h => cases h' with
        | strct h' => exact den_path (segsU hD hsegs (startU hD hs) (finish_ne hc)) _ _ h h'
  | _, _, .other, hc => by
    simp only [cert] at hc
    exact absurd rfl (finish_ne hc)
theorem initU : ∀ {init : Init}, FineInit D S init → initCert D fa init ≠ .uncertain → Uniq (HasInit D S init)
  | _, .none, hc => by simp [initCert] at hc
  | _, .some h, hc => by
    simp only [initCert] at hc
    have hu := exU h hc
    intro t t' h h'
    cases h with
    | some h => cases h' with
      | some h' => exact hu _ _ h h'
theorem exsU : ∀ {b : Bool} {es : Exs} {c : Cert}, Fines D S b es → meetAll D fa b es c ≠ .uncertain →
    Uniq (HasTys D S es)
  | _, _, _, .nil, _ => by
    intro t t' h h'
    cases h
    cases h'
    rfl
  | _, _, _, .cons h hs, hc => by
    simp only [meetAll] at hc
    have hu := exU h (meet_ne (meetAll_ne hc)).2
    have hus := exsU hs hc
    intro t t' h h'
    cases h with
    | cons h hs => cases h' with
      | cons h' hs' => rw [hu _ _ h h', hus _ _ hs hs']
theorem joinU : ∀ {b : Bool} {es : Exs} {c : Cert}, Fines D S b es → joinAll D fa b es c ≠ .uncertain →
    c ≠ .uncertain ∨ ElemUniq D S es
  | _, _, _, .nil, hc => .inl (by simpa only [joinAll] using hc)
  | _, _, _, .cons h hs, hc => by
    simp only [joinAll] at hc
    rcases joinU hs hc with h1 | h1
    · rcases join_ne h1 with h1 | h1
      · exact .inl h1
      · refine .inr fun ts ts' t t' ht ha ht' ha' => ?_
        have hu := exU h h1
        cases ht with
        | cons ht _ => cases ht' with
          | cons ht' _ =>
            rw [← ha _ List.mem_cons_self, ← ha' _ List.mem_cons_self]
            exact hu _ _ ht ht'
    · refine .inr fun ts ts' t t' ht ha ht' ha' => ?_
      cases ht with
      | cons _ ht => cases ht' with
        | cons _ ht' =>
          exact h1 _ _ _ _ ht (fun u hm => ha u (List.mem_cons_of_mem _ hm)) ht'
            (fun u hm => ha' u (List.mem_cons_of_mem _ hm))
end

/-- An expression whose type is called certain has at most one type.  Partial: `Fine` excludes the cases in which the
analysis is wrong (see the witnesses), and coercions are not modelled. -/
theorem certain_unique_partial {e : Ex} (hf : Fine D S false e) (hc : isCertain D fa e = true) {t t' : Ty}
    (h : HasTy D S e t) (h' : HasTy D S e t') : t = t' :=
  exU hD hfi hf (isCertain_ne hc) t t' h h'

end Exprs

end Verif.Certain
