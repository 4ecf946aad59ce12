import Verif.Pats.SameArmsOverlap

/-!
# C38: merging two arms
-/

namespace Verif.Pats

/-! ## The blocking indices -/

theorem fwdBlock_spec {ps : List NPat} {i k : Nat} (h1 : i < k) (h2 : k < fwdBlock ps i) (h3 : k < ps.length) :
    overlaps (ps.getD i .wild) (ps.getD k .wild) = false := by
  unfold fwdBlock at h2
  have hk : ps.getD k .wild = ps[k] := by simp [h3]
  have hlen : k - (i + 1) < (ps.drop (i + 1)).length := by simp; omega
  have hget : (ps.drop (i + 1))[k - (i + 1)] = ps[k] := by
    rw [List.getElem_drop]; congr 1; omega
  split at h2
  · next j hj =>
    rw [List.findIdx?_eq_some_iff_getElem] at hj
    obtain ⟨_, _, hj⟩ := hj
    have := hj (k - (i + 1)) (by omega)
    rw [hget] at this
    rw [hk]
    simpa using this
  · next hj =>
    rw [List.findIdx?_eq_none_iff] at hj
    have := hj ps[k] (by rw [← hget]; exact List.getElem_mem _)
    rw [hk]
    simpa using this

theorem find_desc (Q : Nat → Bool) : ∀ (n j : Nat), ((List.range n).reverse.find? Q).getD 0 < j → j < n →
    Q j = false
  | 0, _, _, h => by omega
  | n + 1, j, h1, h2 => by
    rw [List.range_succ, List.reverse_append, List.reverse_singleton, List.singleton_append] at h1
    rw [List.find?_cons] at h1
    cases hq : Q n with
    | true => rw [hq] at h1; simp at h1; omega
    | false =>
      rw [hq] at h1
      simp only at h1
      by_cases hj : j = n
      · subst hj; exact hq
      · exact find_desc Q n j h1 (by omega)

theorem dropFind_desc (P Q : Nat → Bool) : ∀ (n j : Nat),
    (((List.range n).reverse.dropWhile P).find? Q).getD 0 < j → j < n → P j = true ∨ Q j = false
  | 0, _, _, h => by omega
  | n + 1, j, h1, h2 => by
    rw [List.range_succ, List.reverse_append, List.reverse_singleton, List.singleton_append,
      List.dropWhile_cons] at h1
    cases hp : P n with
    | true =>
      rw [hp, if_pos rfl] at h1
      by_cases hj : j = n
      · subst hj; exact .inl hp
      · exact dropFind_desc P Q n j h1 (by omega)
    | false =>
      rw [hp, if_neg (by simp), ← List.singleton_append, ← List.reverse_singleton, ← List.reverse_append,
        ← List.range_succ] at h1
      exact .inr (find_desc Q (n + 1) j h1 h2)

theorem backBlock_spec {ps : List NPat} {i j : Nat} (h1 : backBlock ps i < j) (h2 : j < i) (h3 : i < ps.length) :
    overlaps (ps.getD j .wild) (ps.getD i .wild) = false ∨
      overlaps (ps.getD i .wild) (ps.getD j .wild) = false := by
  rcases dropFind_desc _ _ i j h1 h2 with h | h
  · exact .inl (fwdBlock_spec h2 (by simpa using h) h3)
  · simp only [Bool.or_eq_false_iff] at h
    exact .inr h.2

/-! ## The groups -/

/-- A group is not empty, in order, below `n`, and all its members are equal to the first. -/
def GoodGroup (eq : Nat → Nat → Bool) (n : Nat) (g : List Nat) : Prop :=
  ∃ h t, g = h :: t ∧ (h :: t).Pairwise (· < ·) ∧ (∀ y ∈ h :: t, y < n) ∧ ∀ y ∈ t, eq y h = true

theorem GoodGroup.mono {eq : Nat → Nat → Bool} {n : Nat} {g : List Nat} (h : GoodGroup eq n g) :
    GoodGroup eq (n + 1) g := by
  obtain ⟨a, t, h1, h2, h3, h4⟩ := h
  exact ⟨a, t, h1, h2, fun y hy => Nat.lt_succ_of_lt (h3 y hy), h4⟩

theorem addToGroup_good {eq : Nat → Nat → Bool} {n : Nat} : ∀ {gs : List (List Nat)},
    (∀ g ∈ gs, GoodGroup eq n g) → ∀ g ∈ addToGroup eq n gs, GoodGroup eq (n + 1) g
  | [], _, g, h => by
    simp [addToGroup] at h
    exact ⟨n, [], h, by simp, by simp, by simp⟩
  | [] :: gs, hg, g, h => by
    obtain ⟨_, _, h1, _⟩ := hg [] (by simp)
    cases h1
  | (a :: t) :: gs, hg, g, h => by
    simp only [addToGroup] at h
    split at h
    · next he =>
      rcases List.mem_cons.1 h with rfl | h
      · obtain ⟨a', t', h1, h2, h3, h4⟩ := hg (a :: t) (by simp)
        cases h1
        refine ⟨a, t ++ [n], rfl, ?_, ?_, ?_⟩
        · rw [← List.cons_append, List.pairwise_append]
          exact ⟨h2, by simp, fun x hx y hy => by rw [List.mem_singleton.1 hy]; exact h3 x hx⟩
        · intro y hy
          rw [← List.cons_append] at hy
          rcases List.mem_append.1 hy with hy | hy
          · exact Nat.lt_succ_of_lt (h3 y hy)
          · rw [List.mem_singleton.1 hy]; omega
        · intro y hy
          rcases List.mem_append.1 hy with hy | hy
          · exact h4 y hy
          · rw [List.mem_singleton.1 hy]; exact he
      · exact (hg g (by simp [h])).mono
    · rcases List.mem_cons.1 h with rfl | h
      · exact (hg (a :: t) (by simp)).mono
      · exact addToGroup_good (fun g hg' => hg g (by simp [hg'])) g h

theorem foldGroups_good {eq : Nat → Nat → Bool} : ∀ (n : Nat),
    ∀ g ∈ (List.range n).foldl (fun gs x => addToGroup eq x gs) [], GoodGroup eq n g
  | 0, g, h => by simp at h
  | n + 1, g, h => by
    rw [List.range_succ, List.foldl_append] at h
    exact addToGroup_good (foldGroups_good n) g h

theorem searchSame_good {eq : Nat → Nat → Bool} (hsym : ∀ x y, eq x y = eq y x) {n : Nat} {g : List Nat}
    (h : g ∈ searchSame eq n) : GoodGroup eq n g := by
  unfold searchSame at h
  split at h
  · next hn =>
    obtain ⟨rfl, he⟩ := hn
    rw [List.mem_singleton] at h
    exact ⟨0, [1], h, by simp, by simp, by simpa [hsym] using he⟩
  · split at h
    · simp at h
    · exact foldGroups_good n g (List.mem_filter.1 h).1

theorem sameArm_symm (a b : Arm) : sameArm a b = sameArm b a := by
  unfold sameArm
  rw [Bool.beq_comm (a := a.guard), Bool.beq_comm (a := a.body), Bool.and_assoc, Bool.and_assoc (_ && _),
    Bool.and_comm ((names a.pat).all _)]

theorem eqArms_symm (arms : List Arm) (l r : Nat) : eqArms arms l r = eqArms arms r l := by
  unfold eqArms
  rw [Nat.max_comm, Nat.min_comm]
  congr 1
  cases arms[l]? <;> cases arms[r]? <;> simp [sameArm_symm]

/-! ## Running the arms -/

theorem runMatch_append (G : Nat → Env → Bool) (l r : List Arm) (v : Val) :
    runMatch G (l ++ r) v = (runMatch G l v).or (runMatch G r v) := by
  simp [runMatch, List.findSome?_append]

theorem runMatch_cons (G : Nat → Env → Bool) (a : Arm) (l : List Arm) (v : Val) :
    runMatch G (a :: l) v = (fire G a v).or (runMatch G l v) := by
  simp only [runMatch, List.findSome?_cons]
  cases fire G a v <;> rfl

/-- An arm that does not match gives nothing. -/
theorem fire_none {G : Nat → Env → Bool} {a : Arm} {v : Val} (h : ¬ Matches a.pat v) : fire G a v = none := by
  have : binds a.pat v = [] := by
    by_cases h' : binds a.pat v = []
    · exact h'
    · exact absurd h' h
  simp [fire, this]

theorem runMatch_none {G : Nat → Env → Bool} {l : List Arm} {v : Val} (h : ∀ a ∈ l, ¬ Matches a.pat v) :
    runMatch G l v = none := by
  simp only [runMatch, List.findSome?_eq_none_iff]
  exact fun a ha => fire_none (h a ha)

/-- Merged arms give what one of them gives, the first one first. -/
theorem fire_merge (G : Nat → Env → Bool) {a b : Arm} (hg : a.guard = b.guard) (hb : a.body = b.body)
    {c : Arm} (hc : c = { a with pat := .or [a.pat, b.pat] } ∨ c = { b with pat := .or [a.pat, b.pat] }) (v : Val) :
    fire G c v = (fire G a v).or (fire G b v) := by
  have key : ∀ (g : Option Nat) (n : Nat), fire G ⟨.or [a.pat, b.pat], g, n, c.allowed⟩ v =
      (fire G ⟨a.pat, g, n, true⟩ v).or (fire G ⟨b.pat, g, n, true⟩ v) := by
    intro g n
    simp only [fire, binds, bindsAny, List.append_nil, List.find?_append]
    cases (binds a.pat v).find? _ <;> simp
  rcases hc with rfl | rfl
  · rw [show fire G { a with pat := SPat.or [a.pat, b.pat] } v =
        fire G ⟨.or [a.pat, b.pat], a.guard, a.body, a.allowed⟩ v from rfl, key a.guard a.body]
    congr 1
    simp only [fire, hg, hb]
  · rw [show fire G { b with pat := SPat.or [a.pat, b.pat] } v =
        fire G ⟨.or [a.pat, b.pat], b.guard, b.body, b.allowed⟩ v from rfl, key b.guard b.body]
    congr 1
    simp only [fire, hg, hb]

/-- The second arm moves back to the first. -/
theorem run_back (G : Nat → Env → Bool) {pre mid post : List Arm} {a b : Arm} (hg : a.guard = b.guard)
    (hb : a.body = b.body) {v : Val} (hd : Matches b.pat v → ∀ m ∈ mid, ¬ Matches m.pat v) :
    runMatch G (pre ++ { a with pat := .or [a.pat, b.pat] } :: (mid ++ post)) v =
      runMatch G (pre ++ a :: (mid ++ b :: post)) v := by
  simp only [runMatch_append, runMatch_cons, fire_merge G hg hb (.inl rfl)]
  by_cases hm : Matches b.pat v
  · rw [runMatch_none (hd hm)]
    cases fire G a v <;> simp
  · rw [fire_none hm]
    simp

/-- The first arm moves forward to the second. -/
theorem run_forward (G : Nat → Env → Bool) {pre mid post : List Arm} {a b : Arm} (hg : a.guard = b.guard)
    (hb : a.body = b.body) {v : Val} (hd : Matches a.pat v → ∀ m ∈ mid, ¬ Matches m.pat v) :
    runMatch G (pre ++ (mid ++ { b with pat := .or [a.pat, b.pat] } :: post)) v =
      runMatch G (pre ++ a :: (mid ++ b :: post)) v := by
  simp only [runMatch_append, runMatch_cons, fire_merge G hg hb (.inr rfl)]
  by_cases hm : Matches a.pat v
  · rw [runMatch_none (hd hm)]
    cases fire G a v <;> simp
  · rw [fire_none hm]
    simp

mutual
/-- A pattern that binds no names gives empty bindings. -/
theorem binds_nil {F : Con → Option Nat} {K : Val → Option Nat} : ∀ (p : SPat) (v : Val), Plain F K p →
    names p = [] → ∀ e ∈ binds p v, e = []
  | .wild, v, _, _, e, h => by simpa [binds] using h
  | .bind x p, v, _, hn, e, h => by simp [names] at hn
  | .wrap p, v, hp, hn, e, h => binds_nil p v hp (by simpa [names] using hn) e (by simpa [binds] using h)
  | .never, v, _, _, e, h => by simp [binds] at h
  | .struct _ c ns ps, v, hp, hn, e, h => by
    cases v <;> simp only [binds, List.not_mem_nil] at h
    split at h
    · exact bindsFields_nil ns ps _ hp.2.2 (by simpa [names] using hn) e h
    · simp at h
  | .tupleStruct _ _ c n front rest back, v, hp, hn, e, h => by
    simp only [names, List.append_eq_nil_iff] at hn
    obtain ⟨_, _, _, h4, h5⟩ := hp
    cases v <;> simp only [binds, List.not_mem_nil] at h
    split at h
    · split at h
      · split at h
        · simp only [cross, List.mem_flatMap, List.mem_map] at h
          obtain ⟨e1, h1, e2, h2, rfl⟩ := h
          rw [bindsAll_nil_env front _ h4 hn.1 e1 h1, bindsAll_nil_env back _ h5 hn.2 e2 h2]; rfl
        · simp at h
      · simp only [cross, List.mem_flatMap, List.mem_map] at h
        obtain ⟨e1, h1, e2, h2, rfl⟩ := h
        rw [bindsAll_nil_env front _ h4 hn.1 e1 h1, bindsAll_nil_env back _ h5 hn.2 e2 h2]; rfl
    · simp at h
  | .or ps, v, hp, hn, e, h => by
    simp only [binds] at h
    refine bindsAny_nil ps v hp.2 ?_ e h
    intro p hps
    have := hp.1 p hps
    simp only [names] at hn
    rw [hn] at this
    simp only [List.not_mem_nil, iff_false] at this
    exact List.eq_nil_iff_forall_not_mem.2 this
  | .path _ c, v, _, _, e, h => by
    cases v <;> simp only [binds, List.not_mem_nil] at h
    unfold when at h
    split at h <;> simp at h
    exact h
  | .constPath _ p, v, hp, _, e, h => (hp v e (by simpa only [binds] using h)).1
  | .tuple n front rest back, v, hp, hn, e, h => by
    simp only [names, List.append_eq_nil_iff] at hn
    obtain ⟨h4, h5⟩ := hp
    cases v <;> simp only [binds, List.not_mem_nil] at h
    split at h
    · split at h
      · split at h
        · simp only [cross, List.mem_flatMap, List.mem_map] at h
          obtain ⟨e1, h1, e2, h2, rfl⟩ := h
          rw [bindsAll_nil_env front _ h4 hn.1 e1 h1, bindsAll_nil_env back _ h5 hn.2 e2 h2]; rfl
        · simp at h
      · simp only [cross, List.mem_flatMap, List.mem_map] at h
        obtain ⟨e1, h1, e2, h2, rfl⟩ := h
        rw [bindsAll_nil_env front _ h4 hn.1 e1 h1, bindsAll_nil_env back _ h5 hn.2 e2 h2]; rfl
    · simp at h
  | .lit l neg, v, _, _, e, h => by
    simp only [binds, when] at h
    split at h <;> simp at h
    exact h
  | .range l r incl, v, _, _, e, h => by
    simp only [binds, when] at h
    split at h <;> simp at h
    exact h
  | .slice front rest back, v, hp, hn, e, h => by
    simp only [names, List.append_eq_nil_iff] at hn
    obtain ⟨⟨hn1, hn3⟩, hn2⟩ := hn
    obtain ⟨h4, h5⟩ := hp
    cases v <;> simp only [binds, List.not_mem_nil] at h
    cases rest with
    | none =>
      simp only [cross, List.mem_flatMap, List.mem_map] at h
      obtain ⟨e1, h1, e2, h2, rfl⟩ := h
      rw [bindsAll_nil_env front _ h4 hn1 e1 h1, bindsAll_nil_env back _ h5 hn2 e2 h2]; rfl
    | some b =>
      cases b with
      | some x => simp at hn3
      | none =>
        simp only at h
        split at h
        · simp only [cross, List.mem_flatMap, List.mem_map, List.mem_singleton] at h
          obtain ⟨e1, h1, e2, ⟨e3, rfl, e4, h2, rfl⟩, rfl⟩ := h
          rw [bindsAll_nil_env front _ h4 hn1 e1 h1, bindsAll_nil_env back _ h5 hn2 e4 h2]; rfl
        · simp at h

theorem bindsAll_nil_env {F : Con → Option Nat} {K : Val → Option Nat} : ∀ (ps : List SPat) (vs : List Val),
    PlainAll F K ps → namesAll ps = [] → ∀ e ∈ bindsAll ps vs, e = []
  | [], [], _, _, e, h => by simpa [bindsAll] using h
  | [], _ :: _, _, _, e, h => by simp [bindsAll] at h
  | _ :: _, [], _, _, e, h => by simp [bindsAll] at h
  | p :: ps, v :: vs, hp, hn, e, h => by
    simp only [namesAll, List.append_eq_nil_iff] at hn
    simp only [bindsAll, cross, List.mem_flatMap, List.mem_map] at h
    obtain ⟨e1, h1, e2, h2, rfl⟩ := h
    rw [binds_nil p v hp.1 hn.1 e1 h1, bindsAll_nil_env ps vs hp.2 hn.2 e2 h2]; rfl

theorem bindsAny_nil {F : Con → Option Nat} {K : Val → Option Nat} : ∀ (ps : List SPat) (v : Val),
    PlainAll F K ps → (∀ p ∈ ps, names p = []) → ∀ e ∈ bindsAny ps v, e = []
  | [], v, _, _, e, h => by simp [bindsAny] at h
  | p :: ps, v, hp, hn, e, h => by
    simp only [bindsAny, List.mem_append] at h
    rcases h with h | h
    · exact binds_nil p v hp.1 (hn p (by simp)) e h
    · exact bindsAny_nil ps v hp.2 (fun q hq => hn q (by simp [hq])) e h

theorem bindsFields_nil {F : Con → Option Nat} {K : Val → Option Nat} : ∀ (ns : List Nat) (ps : List SPat)
    (fs : List (Nat × Val)), PlainAll F K ps → namesAll ps = [] → ∀ e ∈ bindsFields ns ps fs, e = []
  | [], [], _, _, _, e, h => by simpa [bindsFields] using h
  | [], _ :: _, _, _, _, e, h => by simp [bindsFields] at h
  | _ :: _, [], _, _, _, e, h => by simp [bindsFields] at h
  | n :: ns, p :: ps, fs, hp, hn, e, h => by
    simp only [namesAll, List.append_eq_nil_iff] at hn
    simp only [bindsFields] at h
    split at h
    · simp only [cross, List.mem_flatMap, List.mem_map] at h
      obtain ⟨e1, h1, e2, h2, rfl⟩ := h
      rw [binds_nil p _ hp.1 hn.1 e1 h1, bindsFields_nil ns ps fs hp.2 hn.2 e2 h2]; rfl
    · simp at h
end

theorem bindsAny_last : ∀ {ps : List SPat} {v : Val}, ps.getLast? = some .wild → [] ∈ bindsAny ps v
  | [p], v, h => by
    simp at h; subst h
    simp [bindsAny, binds]
  | p :: q :: ps, v, h => by
    rw [List.getLast?_cons_cons] at h
    rw [bindsAny, List.mem_append]
    exact .inr (bindsAny_last h)

/-- A wildcard arm binds nothing, and matches every value. -/
theorem wildcard_binds {F : Con → Option Nat} {K : Val → Option Nat} {p : SPat} (hp : Plain F K p)
    (h : isWildcardArm p = true) : names p = [] ∧ ∀ v, [] ∈ binds p v := by
  cases p <;> simp only [isWildcardArm, Bool.false_eq_true] at h
  · simp [names, binds]
  · rename_i ps
    split at h
    · next hl =>
      refine ⟨?_, fun v => by simp only [binds]; exact bindsAny_last hl⟩
      have := hp.1 .wild (List.mem_of_getLast? hl)
      simp only [names, List.not_mem_nil, false_iff] at this ⊢
      exact List.eq_nil_iff_forall_not_mem.2 this
    · cases h

theorem find_nil {l : List Env} {P : Env → Bool} (hm : l ≠ []) (hall : ∀ e ∈ l, e = []) :
    l.find? P = if P [] then some [] else none := by
  induction l with
  | nil => exact absurd rfl hm
  | cons a l ih =>
    have := hall a (by simp)
    subst this
    rw [List.find?_cons]
    cases hP : P [] with
    | true => simp
    | false =>
      simp only [Bool.false_eq_true, if_false]
      rw [List.find?_eq_none]
      intro e he
      rw [hall e (by simp [he]), hP]; simp

/-- The first arm is removed, as the second is a wildcard. -/
theorem run_remove (G : Nat → Env → Bool) {F : Con → Option Nat} {K : Val → Option Nat}
    {pre mid post : List Arm} {a b : Arm} (hs : sameArm a b = true) (hpa : Plain F K a.pat)
    (hpb : Plain F K b.pat) (hw : isWildcardArm b.pat = true) {v : Val}
    (hd : Matches a.pat v → ∀ m ∈ mid, ¬ Matches m.pat v) :
    runMatch G (pre ++ (mid ++ b :: post)) v = runMatch G (pre ++ a :: (mid ++ b :: post)) v := by
  simp only [runMatch_append, runMatch_cons]
  by_cases hm : Matches a.pat v
  · rw [runMatch_none (hd hm)]
    simp only [sameArm, Bool.and_eq_true, beq_iff_eq, List.all_eq_true] at hs
    obtain ⟨⟨⟨hg, hb⟩, hab⟩, hba⟩ := hs
    obtain ⟨hnb, hmb⟩ := wildcard_binds hpb hw
    have hna : names a.pat = [] := by
      rw [List.eq_nil_iff_forall_not_mem]
      intro x hx
      have := hab x hx
      rw [hnb] at this
      simp at this
    have : fire G a v = fire G b v := by
      unfold fire
      rw [find_nil hm (binds_nil a.pat v hpa hna),
        find_nil (List.ne_nil_of_mem (hmb v)) (binds_nil b.pat v hpb hnb), hg, hb]
    rw [this]
    cases fire G b v <;> simp
  · rw [fire_none hm]
    simp

/-! ## The suggestion -/

theorem keep {f : Arm × Nat → Option Arm} : ∀ (l : List Arm) (k : Nat),
    (∀ x m, k ≤ m → m < k + l.length → f (x, m) = some x) → (l.zipIdx k).filterMap f = l
  | [], _, _ => rfl
  | x :: l, k, h => by
    rw [List.zipIdx_cons, List.filterMap_cons, h x k (Nat.le_refl _) (by simp)]
    simp only
    rw [keep l (k + 1) (fun y m h1 h2 => h y m (by omega) (by simp only [List.length_cons]; omega))]

theorem decompose {arms : List Arm} {i j : Nat} (hij : i < j) (hj : j < arms.length) :
    ∃ pre a mid b post, arms = pre ++ a :: (mid ++ b :: post) ∧ pre.length = i ∧
      pre.length + 1 + mid.length = j := by
  refine ⟨arms.take i, arms[i], (arms.drop (i + 1)).take (j - (i + 1)), arms[j], arms.drop (j + 1), ?_,
    by simp; omega, by simp; omega⟩
  have e1 := (List.take_append_drop i arms).symm
  rw [List.drop_eq_getElem_cons (by omega)] at e1
  have e2 := (List.take_append_drop (j - (i + 1)) (arms.drop (i + 1))).symm
  rw [List.drop_drop, show i + 1 + (j - (i + 1)) = j by omega, List.drop_eq_getElem_cons hj] at e2
  rw [← e2, ← e1]

/-- **C38 (partial).** If the lint groups two arms of a match, its suggestion - removing the first, or merging
the two - does not change which body runs, with which bindings, for any value and any meaning of the guards.

Missing, and false: groups of more than two arms, arms on which the lint is allowed, matches where constructors
or constants have several names, and the case where the two arms overlap each other, the first is not the first
arm of the match, and overlaps an arm in between. See `SameArmsViolations`. -/
theorem same_arms_partial {F : Con → Option Nat} {K : Val → Option Nat} {arms : List Arm}
    (hplain : ∀ a ∈ arms, Plain F K a.pat) (hallow : ∀ a ∈ arms, a.allowed = false) {omitted : Bool}
    {i j : Nat} (hg : [i, j] ∈ searchSame (eqArms arms) arms.length) {s : ArmSugg}
    (hs : suggestGroup omitted arms [i, j] = some s)
    (hok : i = 0 ∨ backBlock (arms.map fun a => norm a.pat) j ≠ i ∨
      j ≤ fwdBlock (arms.map fun a => norm a.pat) i)
    (G : Nat → Env → Bool) (v : Val) : runMatch G (applySugg arms s) v = runMatch G arms v := by
  obtain ⟨h, t, h1, h2, h3, h4⟩ := searchSame_good (eqArms_symm arms) hg
  cases h1
  have hij : i < j := by simpa using h2
  have hj : j < arms.length := h3 j (by simp)
  have heq := h4 j (by simp)
  rw [eqArms_symm] at heq
  obtain ⟨pre, a, mid, b, post, harms, hpre, hmid⟩ := decompose hij hj
  have hai : arms[i]? = some a := by rw [harms, ← hpre]; simp
  have hbj : arms[j]? = some b := by
    rw [harms, ← hmid, List.getElem?_append_right (by omega)]
    rw [show pre.length + 1 + mid.length - pre.length = mid.length + 1 by omega, List.getElem?_cons_succ,
      List.getElem?_append_right (by omega)]
    simp
  have hma : a ∈ arms := List.mem_of_getElem? hai
  have hmb : b ∈ arms := List.mem_of_getElem? hbj
  -- what `eq` has checked
  unfold eqArms at heq
  rw [hai, hbj] at heq
  simp only [Bool.and_eq_true, Bool.not_eq_true', Bool.and_eq_false_iff, decide_eq_false_iff_not] at heq
  rw [Nat.max_eq_right (by omega), Nat.min_eq_left (by omega)] at heq
  obtain ⟨hblock, hsame⟩ := heq
  have hsame' := hsame
  simp only [sameArm, Bool.and_eq_true, beq_iff_eq] at hsame'
  obtain ⟨⟨⟨hgd, hbd⟩, _⟩, _⟩ := hsame'
  generalize hps : (arms.map fun a => norm a.pat) = ps at *
  have hlen : ps.length = arms.length := by rw [← hps]; simp
  have hget : ∀ k c, arms[k]? = some c → ps.getD k .wild = norm c.pat := by
    intro k c hk
    rw [← hps, List.getD_eq_getElem?_getD, List.getElem?_map, hk]
    rfl
  have hmidget : ∀ m ∈ mid, ∃ k, i < k ∧ k < j ∧ arms[k]? = some m := by
    intro m hm
    obtain ⟨n, hn, rfl⟩ := List.mem_iff_getElem.1 hm
    refine ⟨pre.length + 1 + n, by omega, by omega, ?_⟩
    rw [harms, List.getElem?_append_right (by omega)]
    rw [show pre.length + 1 + n - pre.length = n + 1 by omega, List.getElem?_cons_succ,
      List.getElem?_append_left hn]
    simp
  have forwardOk : j ≤ fwdBlock ps i → Matches a.pat v → ∀ m ∈ mid, ¬ Matches m.pat v := by
    intro hf hm m hmm hmv
    obtain ⟨k, h1, h2, hk⟩ := hmidget m hmm
    have := fwdBlock_spec (ps := ps) h1 (by omega) (by omega)
    rw [hget i a hai, hget k m hk,
      overlap_sound (hplain a hma) (hplain m (List.mem_of_getElem? hk)) hm hmv] at this
    cases this
  have backOk : backBlock ps j ≤ i → Matches b.pat v → ∀ m ∈ mid, ¬ Matches m.pat v := by
    intro hf hm m hmm hmv
    obtain ⟨k, h1, h2, hk⟩ := hmidget m hmm
    have hpm := hplain m (List.mem_of_getElem? hk)
    have := backBlock_spec (ps := ps) (i := j) (j := k) (by omega) h2 (by omega)
    rw [hget j b hbj, hget k m hk, overlap_sound (hplain b hmb) hpm hm hmv,
      overlap_sound hpm (hplain b hmb) hmv hm] at this
    simp at this
  -- the suggestion
  have hfilter : [i, j].filter (isReported arms) = [i, j] := by
    simp [List.filter_cons, isReported, hai, hbj, hallow a hma, hallow b hmb]
  unfold suggestGroup at hs
  simp only [hfilter, hps, List.head?_cons, List.getLast?_cons_cons, List.getLast?_singleton] at hs
  rw [if_neg (by simp)] at hs
  split at hs
  · next hw =>
    -- removal
    cases hs
    simp only [isWildcardAt, hbj, Bool.and_eq_true] at hw
    have happ : applySugg arms (.remove [i]) = pre ++ (mid ++ b :: post) := by
      have h0 : applyAt arms (.remove [i]) (a, 0 + pre.length) = none := by
        simp only [applyAt]; rw [if_pos (by simp; omega)]
      have h1 : ∀ x m, m ≠ i → applyAt arms (.remove [i]) (x, m) = some x := by
        intro x m hm
        simp only [applyAt]; rw [if_neg (by simpa using hm)]
      unfold applySugg
      generalize applyAt arms (.remove [i]) = f at *
      rw [harms, List.zipIdx_append, List.filterMap_append, List.zipIdx_cons, List.filterMap_cons, h0]
      simp only
      rw [keep pre 0, keep (mid ++ b :: post)]
      · exact fun x m _ _ => h1 x m (by omega)
      · exact fun x m _ _ => h1 x m (by omega)
    rw [show [i, j].dropLast = [i] from rfl, happ, harms]
    refine run_remove G hsame (hplain a hma) (hplain b hmb) hw.1 ?_
    rcases hblock with hblock | hblock
    · exact fun _ => backOk (by omega) (List.ne_nil_of_mem ((wildcard_binds (hplain b hmb) hw.1).2 v))
    · exact forwardOk (by omega)
  · split at hs
    · next hc =>
      -- the second arm moves back
      cases hs
      have happ : applySugg arms (.merge i [j] [i, j]) =
          pre ++ { a with pat := .or [a.pat, b.pat] } :: (mid ++ post) := by
        have hpats : mergedPat arms [i, j] = .or [a.pat, b.pat] := by
          simp [mergedPat, hai, hbj]
        have h0 : applyAt arms (.merge i [j] [i, j]) (a, 0 + pre.length) = some { a with pat := .or [a.pat, b.pat] } := by
          simp only [applyAt, hpats]; rw [if_neg (by simp; omega), if_pos (by omega)]
        have h2 : applyAt arms (.merge i [j] [i, j]) (b, 0 + pre.length + 1 + mid.length) = none := by
          simp only [applyAt, hpats]; rw [if_pos (by simp; omega)]
        have h1 : ∀ x m, m ≠ i → m ≠ j → applyAt arms (.merge i [j] [i, j]) (x, m) = some x := by
          intro x m hm hm'
          simp only [applyAt]; rw [if_neg (by simp; omega), if_neg (by omega)]
        unfold applySugg
        generalize applyAt arms (.merge i [j] [i, j]) = f at *
        rw [harms, List.zipIdx_append, List.filterMap_append, List.zipIdx_cons, List.filterMap_cons, h0,
          List.zipIdx_append, List.filterMap_append, List.zipIdx_cons, List.filterMap_cons, h2]
        simp only
        rw [keep pre 0, keep mid, keep post]
        · exact fun x m _ _ => h1 x m (by omega) (by omega)
        · exact fun x m _ _ => h1 x m (by omega) (by omega)
        · exact fun x m _ _ => h1 x m (by omega) (by omega)
      rw [show [i, j].tail = [j] from rfl, happ, harms]
      exact run_back G hgd hbd (backOk (by omega))
    · next hc =>
      -- the first arm moves forward
      cases hs
      have happ : applySugg arms (.merge j [i] [i, j]) =
          pre ++ (mid ++ { b with pat := .or [a.pat, b.pat] } :: post) := by
        have hpats : mergedPat arms [i, j] = .or [a.pat, b.pat] := by
          simp [mergedPat, hai, hbj]
        have h0 : applyAt arms (.merge j [i] [i, j]) (a, 0 + pre.length) = none := by
          simp only [applyAt, hpats]; rw [if_pos (by simp; omega)]
        have h2 : applyAt arms (.merge j [i] [i, j]) (b, 0 + pre.length + 1 + mid.length) = some { b with pat := .or [a.pat, b.pat] } := by
          simp only [applyAt, hpats]; rw [if_neg (by simp; omega), if_pos (by omega)]
        have h1 : ∀ x m, m ≠ i → m ≠ j → applyAt arms (.merge j [i] [i, j]) (x, m) = some x := by
          intro x m hm hm'
          simp only [applyAt]; rw [if_neg (by simp; omega), if_neg (by omega)]
        unfold applySugg
        generalize applyAt arms (.merge j [i] [i, j]) = f at *
        rw [harms, List.zipIdx_append, List.filterMap_append, List.zipIdx_cons, List.filterMap_cons, h0,
          List.zipIdx_append, List.filterMap_append, List.zipIdx_cons, List.filterMap_cons, h2]
        simp only
        rw [keep pre 0, keep mid, keep post]
        · exact fun x m _ _ => h1 x m (by omega) (by omega)
        · exact fun x m _ _ => h1 x m (by omega) (by omega)
        · exact fun x m _ _ => h1 x m (by omega) (by omega)
      rw [show [i, j].dropLast = [i] from rfl, happ, harms]
      exact run_forward G hgd hbd (forwardOk (by omega))

end Verif.Pats
