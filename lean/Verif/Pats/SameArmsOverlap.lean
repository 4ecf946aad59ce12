import Verif.Pats.SameArmsSpec

/-!
# C38: patterns that match a common value are judged to overlap
-/

namespace Verif.Pats

variable (F : Con → Option Nat) (K : Val → Option Nat)

mutual
/-- The values a normalized pattern stands for. -/
def NM : NPat → Val → Prop
  | .wild, _ => True
  | .never, _ => False
  | .struct res names pats, v => ∃ c fs, v = .adt c fs ∧ c.shape = .record ∧ F c = res ∧ NMFields names pats fs
  | .tuple res pats, v => (∃ vs, v = .tuple vs ∧ res = none ∧ NMAll pats vs) ∨
      (∃ c fs, v = .adt c fs ∧ c.shape = .tuple ∧ F c = res ∧ NMAll pats (fs.map (·.2)))
  | .or ps, v => NMAny ps v
  | .path res, v => (∃ c fs, v = .adt c fs ∧ c.shape = .unit ∧ F c = res) ∨ (v.Scalar ∧ K v = res)
  | .litStr s, v => v = .str s
  | .litBytes bs, v => v = .slice (bs.map fun b : Nat => .int b)
  | .litInt n, v => v = .int n
  | .litBool b, v => v = .bool b
  | .range s e incl, v => ∃ x : Nat, (v = .int x ∨ (s = 0 ∧ x = 0 ∧ ∃ y : Int, v = .int y ∧ y < 0)) ∧
      rangeContains s e incl x = true
  | .slice ps, v => ∃ vs, v = .slice vs ∧ NMAll ps vs
  | .sliceRest front back, v => ∃ l m r, v = .slice (l ++ m ++ r) ∧ NMAll front l ∧ NMAll back r

def NMAll : List NPat → List Val → Prop
  | [], [] => True
  | p :: ps, v :: vs => NM p v ∧ NMAll ps vs
  | _, _ => False

def NMAny : List NPat → Val → Prop
  | [], _ => False
  | p :: ps, v => NM p v ∨ NMAny ps v

def NMFields : List Nat → List NPat → List (Nat × Val) → Prop
  | n :: ns, p :: ps, fs => (∃ v, fs.lookup n = some v ∧ NM p v) ∧ NMFields ns ps fs
  | _, _, _ => True
end

variable {F K}

theorem nmAll_length : ∀ {ps : List NPat} {vs : List Val}, NMAll F K ps vs → ps.length = vs.length
  | [], [], _ => rfl
  | [], _ :: _, h => by simp [NMAll] at h
  | _ :: _, [], h => by simp [NMAll] at h
  | p :: ps, v :: vs, h => by
    simp only [NMAll] at h
    simp [nmAll_length h.2]

theorem nmAll_append : ∀ {a : List NPat} {x : List Val} {b : List NPat} {y : List Val},
    NMAll F K a x → NMAll F K b y → NMAll F K (a ++ b) (x ++ y)
  | [], [], _, _, _, h => h
  | [], _ :: _, _, _, h, _ => by simp [NMAll] at h
  | _ :: _, [], _, _, h, _ => by simp [NMAll] at h
  | p :: ps, v :: vs, _, _, h, h' => by
    simp only [NMAll] at h
    exact ⟨h.1, nmAll_append h.2 h'⟩

theorem nmAll_wild : ∀ (vs : List Val), NMAll F K (List.replicate vs.length .wild) vs
  | [] => trivial
  | v :: vs => ⟨trivial, nmAll_wild vs⟩

theorem nmAny_iff : ∀ {ps : List NPat} {v : Val}, NMAny F K ps v ↔ ∃ p ∈ ps, NM F K p v
  | [], v => by simp [NMAny]
  | p :: ps, v => by simp [NMAny, nmAny_iff (ps := ps)]

theorem nmFields_iff : ∀ {ns : List Nat} {ps : List NPat} {fs : List (Nat × Val)},
    NMFields F K ns ps fs ↔ ∀ np ∈ ns.zip ps, ∃ v, fs.lookup np.1 = some v ∧ NM F K np.2 v
  | [], ps, fs => by simp [NMFields]
  | n :: ns, [], fs => by simp [NMFields]
  | n :: ns, p :: ps, fs => by simp [NMFields, nmFields_iff (ns := ns)]

theorem cross_ne {l r : List Env} (h : cross l r ≠ []) : l ≠ [] ∧ r ≠ [] := by
  constructor
  · rintro rfl; simp [cross] at h
  · rintro rfl; simp [cross] at h

theorem when_ne {b : Bool} (h : when b ≠ []) : b = true := by
  cases b
  · simp [when] at h
  · rfl

theorem normAll_length : ∀ ps : List SPat, (normAll ps).length = ps.length
  | [] => rfl
  | p :: ps => by simp [normAll, normAll_length ps]

theorem bindsAll_nil {ps : List SPat} (h : bindsAll ps [] ≠ []) : ps = [] := by
  cases ps with
  | nil => rfl
  | cons => simp [bindsAll] at h

/-- The patterns of a tuple with `..` expanded. -/
theorem nmAll_expand {front back : List NPat} {vs : List Val}
    (hlen : front.length + back.length ≤ vs.length)
    (h1 : NMAll F K front (vs.take front.length)) (h2 : NMAll F K back (vs.drop (vs.length - back.length))) :
    NMAll F K (expand vs.length front back) vs := by
  have e : vs = vs.take front.length ++ (vs.drop front.length).take (vs.length - (front.length + back.length)) ++
      vs.drop (vs.length - back.length) := by
    have e1 := (List.take_append_drop front.length vs).symm
    have e2 := (List.take_append_drop (vs.length - (front.length + back.length)) (vs.drop front.length)).symm
    rw [List.drop_drop] at e2
    rw [show front.length + (vs.length - (front.length + back.length)) = vs.length - back.length by omega] at e2
    rw [List.append_assoc, ← e2, ← e1]
  unfold expand
  have hm := nmAll_wild (F := F) (K := K)
    ((vs.drop front.length).take (vs.length - (front.length + back.length)))
  rw [show ((vs.drop front.length).take (vs.length - (front.length + back.length))).length =
    vs.length - (front.length + back.length) by simp; omega] at hm
  have := nmAll_append (nmAll_append h1 hm) h2
  rw [← e] at this
  exact this

theorem normLit_sound {l : Lit} {neg : Bool} {v : Val} (h : litMatches l neg v = true) :
    NM F K (normLit l neg) v := by
  cases neg
  case true => cases l <;> simp [normLit, NM]
  case false =>
    cases l <;> cases v <;> simp [litMatches] at h <;> simp [normLit, NM, h]
    rename_i bs vs
    obtain ⟨hl, ha⟩ := h
    induction vs generalizing bs with
    | nil => cases bs with
      | nil => rfl
      | cons => simp at hl
    | cons v vs ih =>
      cases bs with
      | nil => simp at hl
      | cons b bs =>
        have h1 := ha v b (by simp)
        have h2 := ih bs (by simpa using hl) (fun a c hac => ha a c (by simp [hac]))
        cases v <;> simp at h1
        simp [h1, h2]

theorem normRange_sound {l r : Option PExpr} {incl : Bool} {v : Val} (hp : PlainRange l r incl)
    (h : rangeMatches l r incl v = true) : NM F K (normRange l r incl) v := by
  cases v <;> simp only [rangeMatches, Bool.false_eq_true] at h
  rename_i y
  simp only [Bool.and_eq_true, decide_eq_true_eq] at h
  obtain ⟨⟨h0, h1⟩, h2⟩ := h
  have key : ∀ (s e : Nat) (i : Bool), (0 ≤ y → (s : Int) ≤ y ∧ if i then y ≤ e else y < e) →
      (y < 0 → s = 0 ∧ if i then True else e ≠ 0) → NM F K (.range s e i) (.int y) := by
    intro s e i hpos hneg
    simp only [NM]
    by_cases hy : y < 0
    · refine ⟨0, .inr ⟨(hneg hy).1, rfl, y, rfl, hy⟩, ?_⟩
      have := (hneg hy).2
      rw [(hneg hy).1]
      cases i <;> simp [rangeContains] at this ⊢
      omega
    · obtain ⟨n, rfl⟩ := Int.eq_ofNat_of_zero_le (Int.not_lt.1 hy)
      refine ⟨n, .inl rfl, ?_⟩
      have := hpos (by omega)
      cases i <;> simp [rangeContains] at this ⊢ <;> omega
  unfold normRange
  split
  · refine key _ _ _ (fun h => ⟨by omega, ?_⟩) (fun h => ⟨rfl, by simp⟩)
    simp; omega
  · simp [PExpr.value] at h1
    refine key _ _ _ (fun h => ⟨by omega, ?_⟩) (fun h => by omega)
    simp; omega
  · simp [PExpr.value] at h2
    refine key _ _ _ (fun h => ⟨by omega, ?_⟩) (fun h => ⟨rfl, ?_⟩)
    · cases incl <;> simp at h2 ⊢ <;> omega
    · cases incl
      · simp only [PlainRange] at hp; simpa using hp
      · simp
  · simp [PExpr.value] at h1 h2
    refine key _ _ _ (fun h => ⟨by omega, ?_⟩) (fun h => by omega)
    cases incl <;> simp at h2 ⊢ <;> omega
  · simp [NM]

mutual
/-- Normalization loses no value. -/
theorem norm_sound : ∀ (p : SPat) (v : Val), Plain F K p → binds p v ≠ [] → NM F K (norm p) v
  | .wild, v, _, _ => by simp [norm, NM]
  | .bind x p, v, hp, h => by
    simp only [binds] at h
    simp only [norm]
    exact norm_sound p v hp (fun e => h (by simp [e]))
  | .wrap p, v, hp, h => by
    simp only [norm]
    exact norm_sound p v hp (by simpa only [binds] using h)
  | .never, v, _, h => by simp [binds] at h
  | .struct res c ns ps, v, hp, h => by
    cases v <;> simp only [binds, ne_eq, not_true_eq_false] at h
    rename_i c' fs
    split at h
    case isFalse => exact absurd rfl h
    rename_i hc
    subst hc
    obtain ⟨h1, h2, h3⟩ := hp
    simp only [norm, NM]
    refine ⟨c, fs, rfl, h1, h2, ?_⟩
    have := normFields_sound ns ps fs h3 h
    rw [nmFields_iff] at this ⊢
    intro np hnp
    rw [← List.unzip_fst, ← List.unzip_snd, List.zip_unzip] at hnp
    exact this np ((sortBy_perm _ _).mem_iff.1 hnp)
  | .tupleStruct adt res c n front rest back, v, hp, h => by
    cases v <;> simp only [binds, ne_eq, not_true_eq_false] at h
    rename_i c' fs
    split at h
    case isFalse => exact absurd rfl h
    rename_i hc
    obtain ⟨rfl, rfl⟩ := hc
    obtain ⟨h1, h2, h3, h4, h5⟩ := hp
    have key : NMAll F K (expand fs.length (normAll front) (normAll back)) (fs.map (·.2)) := by
      have hl : (fs.map (·.2)).length = fs.length := by simp
      cases rest with
      | true =>
        simp only [if_true] at h
        split at h
        case isFalse => exact absurd rfl h
        rename_i hle
        obtain ⟨ha, hb⟩ := cross_ne h
        rw [← hl]
        refine nmAll_expand (by simpa [normAll_length] using hle) ?_ ?_
        · rw [normAll_length]; exact normAll_sound front _ h4 ha
        · rw [normAll_length, hl]; exact normAll_sound back _ h5 hb
      | false =>
        simp only [Bool.false_eq_true, if_false] at h
        obtain ⟨ha, hb⟩ := cross_ne h
        have := bindsAll_nil hb
        subst this
        have hf := normAll_sound front _ h4 ha
        have := nmAll_length hf
        rw [hl, normAll_length] at this
        simpa [expand, normAll, normAll_length, this] using hf
    cases adt with
    | none => simp [norm, NM]
    | some en =>
      cases en with
      | false =>
        simp only [norm, NM]
        exact .inr ⟨c, fs, rfl, h1, h3 rfl, key⟩
      | true =>
        cases res with
        | none => simp [norm, NM]
        | some x =>
          simp only [norm, NM]
          exact .inr ⟨c, fs, rfl, h1, h2 rfl, key⟩
  | .or ps, v, hp, h => by
    simp only [norm, NM]
    exact normAny_sound ps v hp.2 (by simpa only [binds] using h)
  | .path res c, v, hp, h => by
    cases v <;> simp only [binds, ne_eq, not_true_eq_false] at h
    rename_i c' fs
    have := when_ne h
    simp only [Bool.and_eq_true, decide_eq_true_eq] at this
    obtain ⟨rfl, _⟩ := this
    simp only [norm, NM]
    exact .inl ⟨c, fs, rfl, hp.1, hp.2⟩
  | .constPath res p, v, hp, h => by
    simp only [binds] at h
    obtain ⟨e, he⟩ := List.exists_mem_of_ne_nil _ h
    simp only [norm, NM]
    exact .inr (hp v e he).2
  | .tuple n front rest back, v, hp, h => by
    cases v <;> simp only [binds, ne_eq, not_true_eq_false] at h
    rename_i vs
    split at h
    case isFalse => exact absurd rfl h
    rename_i hc
    subst hc
    obtain ⟨h4, h5⟩ := hp
    simp only [norm, NM]
    refine .inl ⟨vs, rfl, trivial, ?_⟩
    cases rest with
    | true =>
      simp only [if_true] at h
      split at h
      case isFalse => exact absurd rfl h
      rename_i hle
      obtain ⟨ha, hb⟩ := cross_ne h
      refine nmAll_expand (by simpa [normAll_length] using hle) ?_ ?_
      · rw [normAll_length]; exact normAll_sound front _ h4 ha
      · rw [normAll_length]; exact normAll_sound back _ h5 hb
    | false =>
      simp only [Bool.false_eq_true, if_false] at h
      obtain ⟨ha, hb⟩ := cross_ne h
      have := bindsAll_nil hb
      subst this
      have hf := normAll_sound front _ h4 ha
      have := nmAll_length hf
      rw [normAll_length] at this
      simpa [expand, normAll, normAll_length, this] using hf
  | .lit l neg, v, _, h => by
    simp only [norm]
    exact normLit_sound (when_ne (by simpa only [binds] using h))
  | .range l r incl, v, hp, h => by
    simp only [norm]
    exact normRange_sound hp (when_ne (by simpa only [binds] using h))
  | .slice front rest back, v, hp, h => by
    cases v <;> simp only [binds, ne_eq, not_true_eq_false] at h
    rename_i vs
    obtain ⟨h4, h5⟩ := hp
    cases rest with
    | none =>
      obtain ⟨ha, hb⟩ := cross_ne h
      simp only [norm, NM]
      exact ⟨vs, rfl, normAll_sound front _ h4 ha⟩
    | some b =>
      simp only at h
      split at h
      case isFalse => exact absurd rfl h
      rename_i hle
      obtain ⟨ha, hb⟩ := cross_ne h
      obtain ⟨_, hb⟩ := cross_ne hb
      simp only [norm, NM]
      refine ⟨vs.take front.length, (vs.drop front.length).take (vs.length - (front.length + back.length)),
        vs.drop (vs.length - back.length), ?_, normAll_sound front _ h4 ha, normAll_sound back _ h5 hb⟩
      congr 1
      have e1 := (List.take_append_drop front.length vs).symm
      have e2 := (List.take_append_drop (vs.length - (front.length + back.length)) (vs.drop front.length)).symm
      rw [List.drop_drop] at e2
      rw [show front.length + (vs.length - (front.length + back.length)) = vs.length - back.length by omega] at e2
      rw [List.append_assoc, ← e2, ← e1]

theorem normAll_sound : ∀ (ps : List SPat) (vs : List Val), PlainAll F K ps → bindsAll ps vs ≠ [] →
    NMAll F K (normAll ps) vs
  | [], [], _, _ => trivial
  | [], _ :: _, _, h => by simp [bindsAll] at h
  | _ :: _, [], _, h => by simp [bindsAll] at h
  | p :: ps, v :: vs, hp, h => by
    simp only [bindsAll] at h
    obtain ⟨h1, h2⟩ := cross_ne h
    simp only [normAll, NMAll]
    exact ⟨norm_sound p v hp.1 h1, normAll_sound ps vs hp.2 h2⟩

theorem normAny_sound : ∀ (ps : List SPat) (v : Val), PlainAll F K ps → bindsAny ps v ≠ [] →
    NMAny F K (normAll ps) v
  | [], v, _, h => by simp [bindsAny] at h
  | p :: ps, v, hp, h => by
    simp only [bindsAny] at h
    simp only [normAll, NMAny]
    by_cases h1 : binds p v = []
    · rw [h1, List.nil_append] at h
      exact .inr (normAny_sound ps v hp.2 h)
    · exact .inl (norm_sound p v hp.1 h1)

theorem normFields_sound : ∀ (ns : List Nat) (ps : List SPat) (fs : List (Nat × Val)), PlainAll F K ps →
    bindsFields ns ps fs ≠ [] → NMFields F K ns (normAll ps) fs
  | [], _, _, _, _ => by simp [NMFields]
  | _ :: _, [], _, _, _ => by simp [NMFields, normAll]
  | n :: ns, p :: ps, fs, hp, h => by
    simp only [bindsFields] at h
    split at h
    · next v hv =>
      obtain ⟨h1, h2⟩ := cross_ne h
      simp only [normAll, NMFields]
      exact ⟨⟨v, hv, norm_sound p v hp.1 h1⟩, normFields_sound ns ps fs hp.2 h2⟩
    · exact absurd rfl h
end

/-! ## The overlap test -/

theorem size_pos : ∀ p : NPat, 0 < p.size
  | .wild | .never | .path _ | .litStr _ | .litBytes _ | .litInt _ | .litBool _ | .range _ _ _ => by
    simp [NPat.size]
  | .struct _ _ _ | .tuple _ _ | .or _ | .slice _ | .sliceRest _ _ => by simp only [NPat.size]; omega

theorem size_mem : ∀ {ps : List NPat} {p : NPat}, p ∈ ps → p.size ≤ sizeAll ps
  | q :: ps, p, h => by
    simp only [sizeAll]
    rcases List.mem_cons.1 h with rfl | h
    · omega
    · have := size_mem h; omega

theorem fieldPairs_mem : ∀ (fuel : Nat) (l r : List (Nat × NPat)) {pq : NPat × NPat},
    pq ∈ fieldPairs fuel l r → ∃ n, (n, pq.1) ∈ l ∧ (n, pq.2) ∈ r
  | 0, _, _, _, h => by simp [fieldPairs] at h
  | fuel + 1, [], r, _, h => by simp [fieldPairs] at h
  | fuel + 1, _ :: _, [], _, h => by simp [fieldPairs] at h
  | fuel + 1, (a, p) :: l, (b, q) :: r, pq, h => by
    simp only [fieldPairs] at h
    split at h
    · next hab =>
      subst hab
      rcases List.mem_cons.1 h with rfl | h
      · exact ⟨a, by simp, by simp⟩
      · obtain ⟨n, h1, h2⟩ := fieldPairs_mem fuel l r h
        exact ⟨n, by simp [h1], by simp [h2]⟩
    · split at h
      · obtain ⟨n, h1, h2⟩ := fieldPairs_mem fuel l _ h
        exact ⟨n, by simp [h1], h2⟩
      · obtain ⟨n, h1, h2⟩ := fieldPairs_mem fuel _ r h
        exact ⟨n, h1, by simp [h2]⟩

theorem nmAll_zip : ∀ {ps qs : List NPat} {vs : List Val} {pq : NPat × NPat}, NMAll F K ps vs →
    NMAll F K qs vs → pq ∈ ps.zip qs → pq.1 ∈ ps ∧ pq.2 ∈ qs ∧ ∃ v, NM F K pq.1 v ∧ NM F K pq.2 v
  | [], _, _, _, _, _, h => by simp at h
  | _ :: _, [], _, _, _, _, h => by simp at h
  | p :: ps, q :: qs, [], _, h, _, _ => by simp [NMAll] at h
  | p :: ps, q :: qs, v :: vs, pq, h1, h2, h => by
    simp only [NMAll] at h1 h2
    simp only [List.zip_cons_cons, List.mem_cons] at h
    rcases h with rfl | h
    · exact ⟨by simp, by simp, v, h1.1, h2.1⟩
    · obtain ⟨a, b, c⟩ := nmAll_zip h1.2 h2.2 h
      exact ⟨by simp [a], by simp [b], c⟩

theorem nmAll_split : ∀ {ps : List NPat} {x y : List Val}, NMAll F K ps (x ++ y) →
    NMAll F K (ps.take x.length) x ∧ NMAll F K (ps.drop x.length) y
  | ps, [], y, h => by simpa [NMAll] using h
  | [], v :: x, y, h => by simp [NMAll] at h
  | p :: ps, v :: x, y, h => by
    simp only [List.cons_append, NMAll] at h
    obtain ⟨h1, h2⟩ := nmAll_split h.2
    exact ⟨⟨h.1, h1⟩, h2⟩

/-- Patterns of two lists on prefixes of one list of values. -/
theorem nmAll_zip_prefix : ∀ {ps qs : List NPat} {x y x' y' : List Val} {pq : NPat × NPat},
    NMAll F K ps x → NMAll F K qs x' → x ++ y = x' ++ y' → pq ∈ ps.zip qs →
    pq.1 ∈ ps ∧ pq.2 ∈ qs ∧ ∃ v, NM F K pq.1 v ∧ NM F K pq.2 v
  | [], _, _, _, _, _, _, _, _, _, h => by simp at h
  | _ :: _, [], _, _, _, _, _, _, _, _, h => by simp at h
  | p :: ps, q :: qs, [], _, _, _, _, h, _, _, _ => by simp [NMAll] at h
  | p :: ps, q :: qs, _ :: _, _, [], _, _, _, h, _, _ => by simp [NMAll] at h
  | p :: ps, q :: qs, v :: x, y, w :: x', y', pq, h1, h2, he, h => by
    simp only [NMAll] at h1 h2
    simp only [List.cons_append, List.cons.injEq] at he
    obtain ⟨rfl, he⟩ := he
    simp only [List.zip_cons_cons, List.mem_cons] at h
    rcases h with rfl | h
    · exact ⟨by simp, by simp, v, h1.1, h2.1⟩
    · obtain ⟨a, b, c⟩ := nmAll_zip_prefix h1.2 h2.2 he h
      exact ⟨by simp [a], by simp [b], c⟩

theorem nmAll_reverse : ∀ {ps : List NPat} {vs : List Val}, NMAll F K ps vs → NMAll F K ps.reverse vs.reverse
  | [], [], _ => trivial
  | [], _ :: _, h => by simp [NMAll] at h
  | _ :: _, [], h => by simp [NMAll] at h
  | p :: ps, v :: vs, h => by
    simp only [NMAll] at h
    simp only [List.reverse_cons]
    exact nmAll_append (nmAll_reverse h.2) ⟨h.1, trivial⟩

theorem range_range {s1 e1 : Nat} {i1 : Bool} {s2 e2 : Nat} {i2 : Bool} {x y : Nat}
    (h1 : rangeContains s1 e1 i1 x = true) (h2 : rangeContains s2 e2 i2 y = true)
    (h : x = y) : rangeOverlaps s1 e1 i1 s2 e2 i2 = true := by
  subst h
  cases i1 <;> cases i2 <;> simp [rangeContains, rangeOverlaps] at * <;> omega

/-- **C38, overlap.** Two normalized patterns with a common value are judged to overlap. -/
theorem overlapsN_sound : ∀ (fuel : Nat) (a b : NPat) (v : Val), a.size + b.size < fuel → NM F K a v →
    NM F K b v → overlapsN fuel a b = true
  | 0, _, _, _, h, _, _ => by omega
  | fuel + 1, a, b, v, hf, ha, hb => by
    have orL : ∀ ps q, NM F K (.or ps) v → NM F K q v → (NPat.or ps).size + q.size ≤ fuel →
        (ps.any fun p => overlapsN fuel p q) = true := by
      intro ps q h1 h2 hs
      simp only [NM, nmAny_iff] at h1
      obtain ⟨p, hp, hv⟩ := h1
      simp only [NPat.size] at hs
      have := size_mem hp
      rw [List.any_eq_true]
      exact ⟨p, hp, overlapsN_sound fuel p q v (by omega) hv h2⟩
    have seqL : ∀ (l : List (NPat × NPat)),
        (∀ pq ∈ l, pq.1.size + pq.2.size < fuel ∧ ∃ w, NM F K pq.1 w ∧ NM F K pq.2 w) →
        (l.all fun pq => overlapsN fuel pq.1 pq.2) = true := by
      intro l h
      rw [List.all_eq_true]
      intro pq hpq
      obtain ⟨h1, w, h2, h3⟩ := h pq hpq
      exact overlapsN_sound fuel pq.1 pq.2 w h1 h2 h3
    have mixed : ∀ ps front back, NM F K (.slice ps) v → NM F K (.sliceRest front back) v →
        sizeAll ps + sizeAll front + sizeAll back < fuel →
        (if ps.length < front.length + back.length then false
          else ((ps.take front.length).zip front ++ (ps.drop (ps.length - back.length)).zip back).all
            fun pq => overlapsN fuel pq.1 pq.2) = true := by
      intro ps front back h1 h2 hs
      simp only [NM] at h1 h2
      obtain ⟨vs, rfl, h1⟩ := h1
      obtain ⟨l, m, r, hv, h2, h3⟩ := h2
      cases hv
      have e1 := nmAll_length h1
      have e2 := nmAll_length h2
      have e3 := nmAll_length h3
      simp only [List.length_append] at e1
      rw [if_neg (by omega)]
      rw [List.append_assoc] at h1
      obtain ⟨s1, s2⟩ := nmAll_split h1
      obtain ⟨s3, s4⟩ := nmAll_split s2
      rw [List.drop_drop] at s4
      apply seqL
      intro pq hpq
      rcases List.mem_append.1 hpq with hpq | hpq
      · rw [e2] at hpq
        obtain ⟨a, b, c⟩ := nmAll_zip s1 h2 hpq
        have := size_mem (List.mem_of_mem_take a)
        have := size_mem b
        exact ⟨by omega, c⟩
      · rw [show ps.length - back.length = l.length + m.length by omega] at hpq
        obtain ⟨a, b, c⟩ := nmAll_zip s4 h3 hpq
        have := size_mem (List.mem_of_mem_drop a)
        have := size_mem b
        exact ⟨by omega, c⟩
    cases a with
    | wild => simp [overlapsN]
    | never => simp [NM] at ha
    | or ps =>
      by_cases hbw : b = .wild
      · subst hbw; simp [overlapsN]
      · have : overlapsN (fuel + 1) (.or ps) b = ps.any fun p => overlapsN fuel p b := by
          cases b <;> first | rfl | exact absurd rfl hbw
        rw [this]
        exact orL ps b ha hb (by omega)
    | struct res ns ps =>
      cases b with
      | wild => simp [overlapsN]
      | or qs => simp only [overlapsN]; exact orL qs _ hb ha (by omega)
      | struct res' ns' ps' =>
        simp only [NM] at ha hb
        obtain ⟨c, fs, rfl, _, h1, h2⟩ := ha
        obtain ⟨c', fs', hv, _, h1', h2'⟩ := hb
        cases hv
        rw [h1] at h1'
        simp only [overlapsN, h1', ne_eq, not_true_eq_false, if_false]
        rw [nmFields_iff] at h2 h2'
        apply seqL
        intro pq hpq
        obtain ⟨n, m1, m2⟩ := fieldPairs_mem _ _ _ hpq
        obtain ⟨w, l1, w1⟩ := h2 _ m1
        obtain ⟨w', l2, w2⟩ := h2' _ m2
        rw [l1] at l2
        cases l2
        have := size_mem (List.of_mem_zip m1).2
        have := size_mem (List.of_mem_zip m2).2
        simp only [NPat.size] at hf
        exact ⟨by omega, w, w1, w2⟩
      | tuple res' ps' =>
        simp only [NM] at ha hb
        obtain ⟨c, fs, rfl, h1, _, _⟩ := ha
        rcases hb with ⟨vs, hv, _⟩ | ⟨c', fs', hv, h2, _⟩ <;> cases hv
        rw [h1] at h2; cases h2
      | path =>
        simp only [NM] at ha hb
        obtain ⟨c, fs, rfl, h1, _, _⟩ := ha
        rcases hb with ⟨c', fs', hv, h2, _⟩ | ⟨hv, _⟩
        · cases hv
          rw [h1] at h2; cases h2
        · simp [Val.Scalar] at hv
      | never => simp [NM] at hb
      | _ => simp [overlapsN]
    | tuple res ps =>
      cases b with
      | wild => simp [overlapsN]
      | or qs => simp only [overlapsN]; exact orL qs _ hb ha (by omega)
      | tuple res' ps' =>
        simp only [NM] at ha hb
        have key : res = res' ∧ ∃ vs, NMAll F K ps vs ∧ NMAll F K ps' vs := by
          rcases ha with ⟨vs, rfl, h1, h2⟩ | ⟨c, fs, rfl, _, h1, h2⟩ <;>
            rcases hb with ⟨vs', hv, h1', h2'⟩ | ⟨c', fs', hv, _, h1', h2'⟩ <;> cases hv
          · exact ⟨h1.trans h1'.symm, _, h2, h2'⟩
          · exact ⟨h1.symm.trans h1', _, h2, h2'⟩
        obtain ⟨rfl, vs, h2, h2'⟩ := key
        simp only [overlapsN, ne_eq, not_true_eq_false, if_false]
        apply seqL
        intro pq hpq
        obtain ⟨a, b, c⟩ := nmAll_zip h2 h2' hpq
        have := size_mem a
        have := size_mem b
        simp only [NPat.size] at hf
        exact ⟨by omega, c⟩
      | struct res' ns' ps' =>
        simp only [NM] at ha hb
        obtain ⟨c, fs, rfl, h1, _, _⟩ := hb
        rcases ha with ⟨vs, hv, _⟩ | ⟨c', fs', hv, h2, _⟩ <;> cases hv
        rw [h1] at h2; cases h2
      | path =>
        simp only [NM] at ha hb
        rcases ha with ⟨vs, rfl, h1, h2⟩ | ⟨c, fs, rfl, h0, h1, h2⟩ <;>
          rcases hb with ⟨c', fs', hv, h2', _⟩ | ⟨hv, _⟩
        · cases hv
        · simp [Val.Scalar] at hv
        · cases hv
          rw [h0] at h2'; cases h2'
        · simp [Val.Scalar] at hv
      | never => simp [NM] at hb
      | _ => simp [overlapsN]
    | path res =>
      cases b with
      | wild => simp [overlapsN]
      | or qs => simp only [overlapsN]; exact orL qs _ hb ha (by omega)
      | path res' =>
        simp only [NM] at ha hb
        simp only [overlapsN, beq_iff_eq]
        rcases ha with ⟨c, fs, rfl, _, h1⟩ | ⟨hs, h1⟩ <;> rcases hb with ⟨c', fs', hv, _, h1'⟩ | ⟨hs', h1'⟩
        · cases hv; rw [← h1, ← h1']
        · simp [Val.Scalar] at hs'
        · subst hv; simp [Val.Scalar] at hs
        · rw [← h1, ← h1']
      | tuple res' ps =>
        simp only [NM] at ha hb
        rcases hb with ⟨vs, rfl, h1, h2⟩ | ⟨c, fs, rfl, h0, h1, h2⟩ <;>
          rcases ha with ⟨c', fs', hv, h2', _⟩ | ⟨hv, _⟩
        · cases hv
        · simp [Val.Scalar] at hv
        · cases hv
          rw [h0] at h2'; cases h2'
        · simp [Val.Scalar] at hv
      | struct res' ns ps =>
        simp only [NM] at ha hb
        obtain ⟨c, fs, rfl, h1, _, _⟩ := hb
        rcases ha with ⟨c', fs', hv, h2, _⟩ | ⟨hv, _⟩
        · cases hv
          rw [h1] at h2; cases h2
        · simp [Val.Scalar] at hv
      | never => simp [NM] at hb
      | _ => simp [overlapsN]
    | litStr s =>
      cases b with
      | wild => simp [overlapsN]
      | or qs => simp only [overlapsN]; exact orL qs _ hb ha (by omega)
      | litStr s' =>
        simp only [NM] at ha hb
        subst ha; cases hb
        simp [overlapsN]
      | never => simp [NM] at hb
      | _ => simp [overlapsN]
    | litBytes s =>
      cases b with
      | wild => simp [overlapsN]
      | or qs => simp only [overlapsN]; exact orL qs _ hb ha (by omega)
      | litBytes s' =>
        simp only [NM] at ha hb
        subst ha
        simp only [Val.slice.injEq] at hb
        simp only [overlapsN, beq_iff_eq]
        clear orL seqL mixed hf
        induction s generalizing s' with
        | nil => cases s' with
          | nil => rfl
          | cons => simp at hb
        | cons x s ih => cases s' with
          | nil => simp at hb
          | cons y s' =>
            simp only [List.map_cons, List.cons.injEq, Val.int.injEq] at hb
            have := ih s' hb.2
            rw [this, show x = y by omega]
      | never => simp [NM] at hb
      | _ => simp [overlapsN]
    | litBool s =>
      cases b with
      | wild => simp [overlapsN]
      | or qs => simp only [overlapsN]; exact orL qs _ hb ha (by omega)
      | litBool s' =>
        simp only [NM] at ha hb
        subst ha; cases hb
        simp [overlapsN]
      | never => simp [NM] at hb
      | _ => simp [overlapsN]
    | litInt n =>
      cases b with
      | wild => simp [overlapsN]
      | or qs => simp only [overlapsN]; exact orL qs _ hb ha (by omega)
      | litInt m =>
        simp only [NM] at ha hb
        subst ha
        simp only [Val.int.injEq] at hb
        simp only [overlapsN, beq_iff_eq]
        omega
      | range s e i =>
        simp only [NM] at ha hb
        subst ha
        obtain ⟨x, hx | ⟨_, _, y, hy, hlt⟩, hc⟩ := hb
        · simp only [Val.int.injEq] at hx
          rw [show x = n by omega] at hc
          simpa [overlapsN] using hc
        · simp only [Val.int.injEq] at hy
          omega
      | never => simp [NM] at hb
      | _ => simp [overlapsN]
    | range s e i =>
      cases b with
      | wild => simp [overlapsN]
      | or qs => simp only [overlapsN]; exact orL qs _ hb ha (by omega)
      | litInt n =>
        simp only [NM] at ha hb
        subst hb
        obtain ⟨x, hx | ⟨_, _, y, hy, hlt⟩, hc⟩ := ha
        · simp only [Val.int.injEq] at hx
          rw [show x = n by omega] at hc
          simpa [overlapsN] using hc
        · simp only [Val.int.injEq] at hy
          omega
      | range s' e' i' =>
        simp only [NM] at ha hb
        obtain ⟨x, hx, hc⟩ := ha
        obtain ⟨x', hx', hc'⟩ := hb
        simp only [overlapsN]
        refine range_range hc hc' ?_
        rcases hx with rfl | ⟨_, rfl, y, rfl, hlt⟩ <;> rcases hx' with hv | ⟨_, rfl, y', hv, hlt'⟩
        · simp only [Val.int.injEq] at hv; omega
        · simp only [Val.int.injEq] at hv; omega
        · simp only [Val.int.injEq] at hv; omega
        · rfl
      | never => simp [NM] at hb
      | _ => simp [overlapsN]
    | slice ps =>
      cases b with
      | wild => simp [overlapsN]
      | or qs => simp only [overlapsN]; exact orL qs _ hb ha (by omega)
      | slice ps' =>
        simp only [NM] at ha hb
        obtain ⟨vs, rfl, h1⟩ := ha
        obtain ⟨vs', hv, h2⟩ := hb
        cases hv
        simp only [overlapsN, Bool.and_eq_true, beq_iff_eq]
        refine ⟨(nmAll_length h1).trans (nmAll_length h2).symm, ?_⟩
        apply seqL
        intro pq hpq
        obtain ⟨a, b, c⟩ := nmAll_zip h1 h2 hpq
        have := size_mem a
        have := size_mem b
        simp only [NPat.size] at hf
        exact ⟨by omega, c⟩
      | sliceRest front back =>
        simp only [overlapsN]
        simp only [NPat.size] at hf
        exact mixed ps front back ha hb (by omega)
      | never => simp [NM] at hb
      | _ => simp [overlapsN]
    | sliceRest front back =>
      cases b with
      | wild => simp [overlapsN]
      | or qs => simp only [overlapsN]; exact orL qs _ hb ha (by omega)
      | slice ps =>
        simp only [overlapsN]
        simp only [NPat.size] at hf
        exact mixed ps front back hb ha (by omega)
      | sliceRest front' back' =>
        simp only [NM] at ha hb
        obtain ⟨l, m, r, rfl, h1, h2⟩ := ha
        obtain ⟨l', m', r', hv, h1', h2'⟩ := hb
        simp only [Val.slice.injEq] at hv
        simp only [overlapsN]
        simp only [NPat.size] at hf
        apply seqL
        intro pq hpq
        rcases List.mem_append.1 hpq with hpq | hpq
        · obtain ⟨a, b, c⟩ := nmAll_zip_prefix h1 h1' (by rw [List.append_assoc, List.append_assoc] at hv; exact hv) hpq
          have := size_mem a
          have := size_mem b
          exact ⟨by omega, c⟩
        · have hv' := congrArg List.reverse hv
          simp only [List.reverse_append] at hv'
          obtain ⟨a, b, c⟩ := nmAll_zip_prefix (nmAll_reverse h2) (nmAll_reverse h2') hv' hpq
          have := size_mem (List.mem_reverse.1 a)
          have := size_mem (List.mem_reverse.1 b)
          exact ⟨by omega, c⟩
      | never => simp [NM] at hb
      | _ => simp [overlapsN]

/-- **C38, overlap.** Two patterns that match a common value are judged to overlap. -/
theorem overlap_sound {p q : SPat} (hp : Plain F K p) (hq : Plain F K q) {v : Val} (h1 : Matches p v)
    (h2 : Matches q v) : overlaps (norm p) (norm q) = true :=
  overlapsN_sound _ _ _ v (by omega) (norm_sound p v hp h1) (norm_sound q v hq h2)

end Verif.Pats
