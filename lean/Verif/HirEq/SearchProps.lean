import Verif.HirEq.Model

/-!
# Groups of equal elements

`searchSame` for arbitrary elements, hash and equality.
-/

namespace Verif.HirEq

variable {α : Type} {hash : α → Nat} {eq : α → α → Bool}

/-- Every element of a group but the first equals the first one. -/
def GroupOk (eq : α → α → Bool) : List α → Prop
  | [] => False
  | a :: as => ∀ x ∈ as, eq x a = true

/-- No first element of a group equals the first element of an earlier group. -/
def HeadsApart (eq : α → α → Bool) : List (List α) → Prop
  | [] => True
  | g :: gs => (∀ a ∈ g.head?, ∀ g' ∈ gs, ∀ b ∈ g'.head?, eq b a = false) ∧ HeadsApart eq gs

theorem intoBucket_ok (e : α) : ∀ {b : List (List α)}, (∀ g ∈ b, GroupOk eq g) → ∀ g ∈ intoBucket eq e b, GroupOk eq g
  | [], _, g, hg => by
    simp only [intoBucket, List.mem_singleton] at hg
    subst hg
    simp [GroupOk]
  | g0 :: gs, h, g, hg => by
    rw [intoBucket] at hg
    by_cases hc : g0.head?.any (eq e) = true
    · rw [if_pos hc] at hg
      rcases List.mem_cons.mp hg with rfl | hg
      · have := h g0 (by simp)
        cases g0 with
        | nil => exact this.elim
        | cons a as =>
          simp only [List.head?_cons, Option.any_some] at hc
          intro x hx
          rcases List.mem_append.mp hx with hx | hx
          · exact this x hx
          · rw [List.mem_singleton.mp hx]; exact hc
      · exact h g (List.mem_cons_of_mem _ hg)
    · rw [if_neg hc] at hg
      rcases List.mem_cons.mp hg with rfl | hg
      · exact h g (by simp)
      · exact intoBucket_ok e (fun g hg => h g (List.mem_cons_of_mem _ hg)) g hg

theorem intoBucket_mem (e : α) : ∀ {b : List (List α)} {g : List α}, g ∈ intoBucket eq e b → ∀ x ∈ g, x = e ∨ ∃ g' ∈ b, x ∈ g'
  | [], g, hg, x, hx => by
    simp only [intoBucket, List.mem_singleton] at hg
    subst hg
    exact .inl (List.mem_singleton.mp hx)
  | g0 :: gs, g, hg, x, hx => by
    rw [intoBucket] at hg
    by_cases hc : g0.head?.any (eq e) = true
    · rw [if_pos hc] at hg
      rcases List.mem_cons.mp hg with rfl | hg
      · rcases List.mem_append.mp hx with hx | hx
        · exact .inr ⟨g0, by simp, hx⟩
        · exact .inl (List.mem_singleton.mp hx)
      · exact .inr ⟨g, List.mem_cons_of_mem _ hg, hx⟩
    · rw [if_neg hc] at hg
      rcases List.mem_cons.mp hg with rfl | hg
      · exact .inr ⟨g, by simp, hx⟩
      · rcases intoBucket_mem e hg x hx with h | ⟨g', h1, h2⟩
        · exact .inl h
        · exact .inr ⟨g', List.mem_cons_of_mem _ h1, h2⟩

/-- Groups only grow. -/
theorem intoBucket_grow (e : α) : ∀ {b : List (List α)} {g : List α}, g ∈ b → ∃ g' ∈ intoBucket eq e b, ∀ x ∈ g, x ∈ g'
  | g0 :: gs, g, hg => by
    rw [intoBucket]
    by_cases hc : g0.head?.any (eq e) = true
    · rw [if_pos hc]
      rcases List.mem_cons.mp hg with rfl | hg
      · exact ⟨g ++ [e], by simp, fun x hx => List.mem_append_left _ hx⟩
      · exact ⟨g, List.mem_cons_of_mem _ hg, fun _ h => h⟩
    · rw [if_neg hc]
      rcases List.mem_cons.mp hg with rfl | hg
      · exact ⟨g, by simp, fun _ h => h⟩
      · obtain ⟨g', h1, h2⟩ := intoBucket_grow e hg
        exact ⟨g', List.mem_cons_of_mem _ h1, h2⟩

/-- The heads of groups: the old ones and, if none of them equals the element, the element. -/
theorem intoBucket_heads (e : α) : ∀ {b : List (List α)}, (∀ g ∈ b, GroupOk eq g) → ∀ g ∈ intoBucket eq e b, ∀ a ∈ g.head?,
    (∃ g' ∈ b, a ∈ g'.head?) ∨ (a = e ∧ ∀ g' ∈ b, ∀ a' ∈ g'.head?, eq e a' = false)
  | [], _, g, hg, a, ha => by
    simp only [intoBucket, List.mem_singleton] at hg
    subst hg
    simp only [List.head?_cons, Option.mem_some_iff] at ha
    exact .inr ⟨ha.symm, by simp⟩
  | g0 :: gs, h, g, hg, a, ha => by
    rw [intoBucket] at hg
    by_cases hc : g0.head?.any (eq e) = true
    · rw [if_pos hc] at hg
      rcases List.mem_cons.mp hg with rfl | hg
      · have := h g0 (by simp)
        cases g0 with
        | nil => exact this.elim
        | cons c cs =>
          simp only [List.cons_append, List.head?_cons] at ha
          exact .inl ⟨c :: cs, by simp, ha⟩
      · exact .inl ⟨g, List.mem_cons_of_mem _ hg, ha⟩
    · rw [if_neg hc] at hg
      rcases List.mem_cons.mp hg with rfl | hg
      · exact .inl ⟨g, by simp, ha⟩
      · rcases intoBucket_heads e (fun g hg => h g (List.mem_cons_of_mem _ hg)) g hg a ha with ⟨g', h1, h2⟩ | ⟨h1, h2⟩
        · exact .inl ⟨g', List.mem_cons_of_mem _ h1, h2⟩
        · refine .inr ⟨h1, ?_⟩
          intro g' hg' a' ha'
          rcases List.mem_cons.mp hg' with rfl | hg'
          · cases g' with
            | nil => simp at ha'
            | cons c cs =>
              simp only [List.head?_cons, Option.mem_some_iff] at ha'
              subst ha'
              simpa using hc
          · exact h2 g' hg' a' ha'

theorem intoBucket_apart (e : α) : ∀ {b : List (List α)}, (∀ g ∈ b, GroupOk eq g) → HeadsApart eq b → HeadsApart eq (intoBucket eq e b)
  | [], _, _ => by simp [intoBucket, HeadsApart]
  | g0 :: gs, h, ha => by
    rw [intoBucket]
    by_cases hc : g0.head?.any (eq e) = true
    · rw [if_pos hc]
      refine ⟨?_, ha.2⟩
      have := h g0 (by simp)
      cases g0 with
      | nil => exact this.elim
      | cons c cs => exact ha.1
    · rw [if_neg hc]
      refine ⟨?_, intoBucket_apart e (fun g hg => h g (List.mem_cons_of_mem _ hg)) ha.2⟩
      intro a haa g' hg' b hb
      rcases intoBucket_heads e (fun g hg => h g (List.mem_cons_of_mem _ hg)) g' hg' b hb with ⟨g'', h1, h2⟩ | ⟨h1, _⟩
      · exact ha.1 a haa g'' h1 b h2
      · subst h1
        cases g0 with
        | nil => simp at haa
        | cons c cs =>
          simp only [List.head?_cons, Option.mem_some_iff] at haa
          subst haa
          simpa using hc

/-- An element which equals the head of a group goes into that group, if the heads are apart. -/
theorem intoBucket_joins (sym : ∀ a b, eq a b = true → eq b a = true) (trans : ∀ a b c, eq a b = true → eq b c = true → eq a c = true)
    (e : α) : ∀ {b : List (List α)}, HeadsApart eq b → ∀ g ∈ b, ∀ a ∈ g.head?, eq e a = true →
      (g ++ [e]) ∈ intoBucket eq e b
  | g0 :: gs, ha, g, hg, a, haa, hea => by
    rw [intoBucket]
    rcases List.mem_cons.mp hg with rfl | hg'
    · have hh : g.head? = some a := haa
      rw [if_pos (by rw [hh]; exact hea)]
      simp
    · have hn : ¬ g0.head?.any (eq e) = true := by
        intro hc
        cases g0 with
        | nil => simp at hc
        | cons c cs =>
          have hec : eq e c = true := by simpa using hc
          have := ha.1 c (by simp) g hg' a haa
          rw [trans a e c (sym _ _ hea) hec] at this
          cases this
      rw [if_neg hn]
      exact List.mem_cons_of_mem _ (intoBucket_joins sym trans e ha.2 g hg' a haa hea)

theorem intoBucket_has (e : α) : ∀ {b : List (List α)}, ∃ g ∈ intoBucket eq e b, e ∈ g
  | [] => ⟨[e], by simp [intoBucket], by simp⟩
  | g0 :: gs => by
    rw [intoBucket]
    by_cases hc : g0.head?.any (eq e) = true
    · rw [if_pos hc]; exact ⟨g0 ++ [e], by simp, by simp⟩
    · rw [if_neg hc]
      obtain ⟨g, h1, h2⟩ := intoBucket_has e (b := gs)
      exact ⟨g, List.mem_cons_of_mem _ h1, h2⟩

/-- What holds of the buckets all the time. -/
structure BucketsOk (hash : α → Nat) (eq : α → α → Bool) (done : List α) (bs : List (Nat × List (List α))) : Prop where
  groups : ∀ p ∈ bs, ∀ g ∈ p.2, GroupOk eq g
  hashes : ∀ p ∈ bs, ∀ g ∈ p.2, ∀ x ∈ g, hash x = p.1
  apart : ∀ p ∈ bs, HeadsApart eq p.2
  keys : (bs.map Prod.fst).Nodup
  only : ∀ p ∈ bs, ∀ g ∈ p.2, ∀ x ∈ g, x ∈ done
  all : ∀ x ∈ done, ∃ p ∈ bs, ∃ g ∈ p.2, x ∈ g
  pairs : ∀ x y, x ∈ done → y ∈ done → eq x y = true → ∃ p ∈ bs, ∃ g ∈ p.2, x ∈ g ∧ y ∈ g

theorem insertBucket_mem (e : α) : ∀ {bs : List (Nat × List (List α))} {p}, p ∈ insertBucket hash eq e bs →
    p ∈ bs ∨ (∃ b, (hash e, b) ∈ bs ∧ p = (hash e, intoBucket eq e b)) ∨ p = (hash e, [[e]])
  | [], p, hp => by
    simp only [insertBucket, List.mem_singleton] at hp
    exact .inr (.inr hp)
  | (h, b) :: bs, p, hp => by
    rw [insertBucket] at hp
    by_cases hc : h = hash e
    · rw [if_pos hc] at hp
      subst hc
      rcases List.mem_cons.mp hp with rfl | hp
      · exact .inr (.inl ⟨b, by simp, rfl⟩)
      · exact .inl (List.mem_cons_of_mem _ hp)
    · rw [if_neg hc] at hp
      rcases List.mem_cons.mp hp with rfl | hp
      · exact .inl (by simp)
      · rcases insertBucket_mem e hp with h | ⟨b, h1, h2⟩ | h
        · exact .inl (List.mem_cons_of_mem _ h)
        · exact .inr (.inl ⟨b, List.mem_cons_of_mem _ h1, h2⟩)
        · exact .inr (.inr h)

theorem insertBucket_keys (e : α) : ∀ {bs : List (Nat × List (List α))} {k}, k ∈ (insertBucket hash eq e bs).map Prod.fst →
    k ∈ bs.map Prod.fst ∨ k = hash e
  | [], k, hk => by simpa [insertBucket] using hk
  | (h, b) :: bs, k, hk => by
    rw [insertBucket] at hk
    by_cases hc : h = hash e
    · rw [if_pos hc] at hk
      exact .inl (by simpa using hk)
    · rw [if_neg hc, List.map_cons, List.mem_cons] at hk
      rcases hk with rfl | hk
      · exact .inl (by simp)
      · rcases insertBucket_keys e hk with h | h
        · exact .inl (List.mem_cons_of_mem _ h)
        · exact .inr h

theorem insertBucket_nodup (e : α) : ∀ {bs : List (Nat × List (List α))}, (bs.map Prod.fst).Nodup →
    ((insertBucket hash eq e bs).map Prod.fst).Nodup
  | [], _ => by simp [insertBucket]
  | (h, b) :: bs, hn => by
    rw [insertBucket]
    by_cases hc : h = hash e
    · rw [if_pos hc]; exact hn
    · rw [if_neg hc]
      rw [List.map_cons, List.nodup_cons] at hn ⊢
      refine ⟨?_, insertBucket_nodup e hn.2⟩
      intro hk
      rcases insertBucket_keys e hk with h' | h'
      · exact hn.1 h'
      · exact hc h'

theorem insertBucket_keep (e : α) : ∀ {bs : List (Nat × List (List α))} {p}, p ∈ bs →
    (p.1 ≠ hash e → p ∈ insertBucket hash eq e bs) ∧
    (p.1 = hash e → (bs.map Prod.fst).Nodup → (p.1, intoBucket eq e p.2) ∈ insertBucket hash eq e bs)
  | (h, b) :: bs, p, hp => by
    rw [insertBucket]
    rcases List.mem_cons.mp hp with rfl | hp'
    · refine ⟨fun hne => ?_, fun he _ => ?_⟩
      · rw [if_neg hne]; simp
      · rw [if_pos he]; simp
    · refine ⟨fun hne => ?_, fun he hn => ?_⟩
      · by_cases hc : h = hash e
        · rw [if_pos hc]; exact List.mem_cons_of_mem _ hp'
        · rw [if_neg hc]; exact List.mem_cons_of_mem _ ((insertBucket_keep e hp').1 hne)
      · rw [List.map_cons, List.nodup_cons] at hn
        have hc : ¬ h = hash e := by
          rintro rfl
          exact hn.1 (List.mem_map.mpr ⟨p, hp', he⟩)
        rw [if_neg hc]
        exact List.mem_cons_of_mem _ ((insertBucket_keep e hp').2 he hn.2)

theorem insertBucket_has (e : α) : ∀ {bs : List (Nat × List (List α))}, ∃ p ∈ insertBucket hash eq e bs, ∃ g ∈ p.2, e ∈ g
  | [] => ⟨(hash e, [[e]]), by simp [insertBucket], [e], by simp, by simp⟩
  | (h, b) :: bs => by
    rw [insertBucket]
    by_cases hc : h = hash e
    · rw [if_pos hc]
      obtain ⟨g, h1, h2⟩ := intoBucket_has (eq := eq) e (b := b)
      exact ⟨(h, intoBucket eq e b), by simp, g, h1, h2⟩
    · rw [if_neg hc]
      obtain ⟨p, h1, h2⟩ := insertBucket_has e (bs := bs)
      exact ⟨p, List.mem_cons_of_mem _ h1, h2⟩

/-- Groups only grow. -/
theorem insertBucket_grow (e : α) {bs : List (Nat × List (List α))} (hn : (bs.map Prod.fst).Nodup) {p} (hp : p ∈ bs) {g} (hg : g ∈ p.2) :
    ∃ p' ∈ insertBucket hash eq e bs, ∃ g' ∈ p'.2, ∀ x ∈ g, x ∈ g' := by
  by_cases hc : p.1 = hash e
  · obtain ⟨g', h1, h2⟩ := intoBucket_grow (eq := eq) e hg
    exact ⟨_, (insertBucket_keep e hp).2 hc hn, g', h1, h2⟩
  · exact ⟨p, (insertBucket_keep e hp).1 hc, g, hg, fun _ h => h⟩

theorem head_eq {x : α} {g : List α} (trans : ∀ a b c, eq a b = true → eq b c = true → eq a c = true) (hg : GroupOk eq g) (hx : x ∈ g) {e : α} (he : eq e x = true) :
    ∃ a ∈ g.head?, eq e a = true := by
  cases g with
  | nil => cases hx
  | cons a as =>
    refine ⟨a, by simp, ?_⟩
    rcases List.mem_cons.mp hx with rfl | hx
    · exact he
    · exact trans _ _ _ he (hg x hx)

theorem insertBucket_ok (sym : ∀ a b, eq a b = true → eq b a = true) (trans : ∀ a b c, eq a b = true → eq b c = true → eq a c = true)
    (cons : ∀ a b, eq a b = true → hash a = hash b)
    {done : List α} {bs : List (Nat × List (List α))} (h : BucketsOk hash eq done bs) (e : α) :
    BucketsOk hash eq (done ++ [e]) (insertBucket hash eq e bs) := by
  refine ⟨?_, ?_, ?_, insertBucket_nodup e h.keys, ?_, ?_, ?_⟩
  · intro p hp g hg
    rcases insertBucket_mem e hp with hp | ⟨b, hb, rfl⟩ | rfl
    · exact h.groups p hp g hg
    · exact intoBucket_ok e (h.groups _ hb) g hg
    · simp only [List.mem_singleton] at hg
      subst hg; simp [GroupOk]
  · intro p hp g hg x hx
    rcases insertBucket_mem e hp with hp | ⟨b, hb, rfl⟩ | rfl
    · exact h.hashes p hp g hg x hx
    · rcases intoBucket_mem e hg x hx with rfl | ⟨g', h1, h2⟩
      · rfl
      · exact h.hashes _ hb g' h1 x h2
    · simp only [List.mem_singleton] at hg
      subst hg
      rw [List.mem_singleton.mp hx]
  · intro p hp
    rcases insertBucket_mem e hp with hp | ⟨b, hb, rfl⟩ | rfl
    · exact h.apart p hp
    · exact intoBucket_apart e (h.groups _ hb) (h.apart _ hb)
    · simp [HeadsApart]
  · intro p hp g hg x hx
    rcases insertBucket_mem e hp with hp | ⟨b, hb, rfl⟩ | rfl
    · exact List.mem_append_left _ (h.only p hp g hg x hx)
    · rcases intoBucket_mem e hg x hx with rfl | ⟨g', h1, h2⟩
      · simp
      · exact List.mem_append_left _ (h.only _ hb g' h1 x h2)
    · simp only [List.mem_singleton] at hg
      subst hg
      simp [List.mem_singleton.mp hx]
  · intro x hx
    rcases List.mem_append.mp hx with hx | hx
    · obtain ⟨p, hp, g, hg, hxg⟩ := h.all x hx
      obtain ⟨p', h1, g', h2, h3⟩ := insertBucket_grow (hash := hash) (eq := eq) e h.keys hp hg
      exact ⟨p', h1, g', h2, h3 x hxg⟩
    · rw [List.mem_singleton.mp hx]; exact insertBucket_has e
  · have joins : ∀ y ∈ done, eq e y = true → ∃ p ∈ insertBucket hash eq e bs, ∃ g ∈ p.2, y ∈ g ∧ e ∈ g := by
      intro y hy hey
      obtain ⟨p, hp, g, hg, hyg⟩ := h.all y hy
      obtain ⟨a, ha, hea⟩ := head_eq trans (h.groups p hp g hg) hyg hey
      have hk : p.1 = hash e := by rw [← h.hashes p hp g hg y hyg]; exact (cons _ _ hey).symm
      refine ⟨_, (insertBucket_keep e hp).2 hk h.keys, g ++ [e], intoBucket_joins sym trans e (h.apart p hp) g hg a ha hea, ?_, by simp⟩
      exact List.mem_append_left _ hyg
    intro x y hx hy hxy
    rcases List.mem_append.mp hx with hx | hx
    · rcases List.mem_append.mp hy with hy | hy
      · obtain ⟨p, hp, g, hg, h1, h2⟩ := h.pairs x y hx hy hxy
        obtain ⟨p', h1', g', h2', h3⟩ := insertBucket_grow (hash := hash) (eq := eq) e h.keys hp hg
        exact ⟨p', h1', g', h2', h3 x h1, h3 y h2⟩
      · cases List.mem_singleton.mp hy
        obtain ⟨p, hp, g, hg, h1, h2⟩ := joins x hx (sym _ _ hxy)
        exact ⟨p, hp, g, hg, h1, h2⟩
    · cases List.mem_singleton.mp hx
      rcases List.mem_append.mp hy with hy | hy
      · obtain ⟨p, hp, g, hg, h1, h2⟩ := joins y hy hxy
        exact ⟨p, hp, g, hg, h2, h1⟩
      · cases List.mem_singleton.mp hy
        obtain ⟨p, hp, g, hg, h1⟩ := insertBucket_has (hash := hash) (eq := eq) e (bs := bs)
        exact ⟨p, hp, g, hg, h1, h1⟩

theorem fold_ok (sym : ∀ a b, eq a b = true → eq b a = true) (trans : ∀ a b c, eq a b = true → eq b c = true → eq a c = true)
    (cons : ∀ a b, eq a b = true → hash a = hash b) :
    ∀ (es done : List α) (bs : List (Nat × List (List α))), BucketsOk hash eq done bs →
      BucketsOk hash eq (done ++ es) (es.foldl (fun bs e => insertBucket hash eq e bs) bs)
  | [], done, bs, h => by simpa using h
  | e :: es, done, bs, h => by
    have := fold_ok sym trans cons es (done ++ [e]) _ (insertBucket_ok sym trans cons h e)
    simpa using this

/-- **C64.** Whatever the hash: every reported group has at least two elements, all of them come from the list, and every element but the first
one has been found equal to the first one (for a list of two elements: the first one to the second one). -/
theorem searchSame_sound (es : List α) : ∀ g ∈ searchSame hash eq es, 2 ≤ g.length ∧ (∀ x ∈ g, x ∈ es) ∧
    ∃ a as, g = a :: as ∧ ∀ x ∈ as, eq x a = true ∨ (es = [a, x] ∧ eq a x = true) := by
  have main : ∀ g ∈ ((es.foldl (fun bs e => insertBucket hash eq e bs) []).flatMap Prod.snd).filter (fun g => g.length > 1),
      2 ≤ g.length ∧ (∀ x ∈ g, x ∈ es) ∧ ∃ a as, g = a :: as ∧ ∀ x ∈ as, eq x a = true ∨ (es = [a, x] ∧ eq a x = true) := by
    intro g hg
    rw [List.mem_filter, List.mem_flatMap] at hg
    obtain ⟨⟨p, hp, hpg⟩, hlen⟩ := hg
    have inv : ∀ (es done : List α) (bs : List (Nat × List (List α))),
        (∀ p ∈ bs, ∀ g ∈ p.2, GroupOk eq g ∧ ∀ x ∈ g, x ∈ done) →
        ∀ p ∈ es.foldl (fun bs e => insertBucket hash eq e bs) bs, ∀ g ∈ p.2, GroupOk eq g ∧ ∀ x ∈ g, x ∈ done ++ es := by
      intro es
      induction es with
      | nil => intro done bs h; simpa using h
      | cons e es ih =>
        intro done bs h
        have := ih (done ++ [e]) (insertBucket hash eq e bs) (by
          intro p hp g hg
          rcases insertBucket_mem e hp with hp | ⟨b, hb, rfl⟩ | rfl
          · exact ⟨(h p hp g hg).1, fun x hx => List.mem_append_left _ ((h p hp g hg).2 x hx)⟩
          · refine ⟨intoBucket_ok e (fun g hg => (h _ hb g hg).1) g hg, ?_⟩
            intro x hx
            rcases intoBucket_mem e hg x hx with rfl | ⟨g', h1, h2⟩
            · simp
            · exact List.mem_append_left _ ((h _ hb g' h1).2 x h2)
          · simp only [List.mem_singleton] at hg
            subst hg
            exact ⟨by simp [GroupOk], by simp⟩)
        simpa using this
    obtain ⟨h1, h2⟩ := inv es [] [] (by simp) p hp g hpg
    refine ⟨of_decide_eq_true hlen, by simpa using h2, ?_⟩
    cases g with
    | nil => exact h1.elim
    | cons a as => exact ⟨a, as, rfl, fun x hx => .inl (h1 x hx)⟩
  intro g hg
  unfold searchSame at hg
  split at hg
  · cases hg
  · cases hg
  · next a b =>
    by_cases hab : eq a b = true
    · rw [if_pos hab] at hg
      cases List.mem_singleton.mp hg
      refine ⟨by simp, by simp, a, [b], rfl, ?_⟩
      intro x hx
      cases List.mem_singleton.mp hx
      exact .inr ⟨rfl, hab⟩
    · rw [if_neg hab] at hg; cases hg
  · exact main g hg

/-- **C64.** If equality is symmetric and transitive and equal elements have the same hash, any two distinct equal elements are reported
together. -/
theorem searchSame_complete (sym : ∀ a b, eq a b = true → eq b a = true) (trans : ∀ a b c, eq a b = true → eq b c = true → eq a c = true)
    (cons : ∀ a b, eq a b = true → hash a = hash b) (es : List α) {x y : α} (hx : x ∈ es) (hy : y ∈ es) (hne : x ≠ y) (hxy : eq x y = true) :
    ∃ g ∈ searchSame hash eq es, x ∈ g ∧ y ∈ g := by
  have two : ∀ g : List α, x ∈ g → y ∈ g → 1 < g.length := by
    intro g h1 h2
    match g, h1, h2 with
    | [a], h1, h2 => exact absurd ((List.mem_singleton.mp h1).trans (List.mem_singleton.mp h2).symm) hne
    | _ :: _ :: _, _, _ => simp
  unfold searchSame
  split
  · cases hx
  · exact absurd (two _ hx hy) (by simp)
  · next a b =>
    have hab : eq a b = true := by
      rcases List.mem_cons.mp hx with rfl | hx
      · rcases List.mem_cons.mp hy with rfl | hy
        · exact absurd rfl hne
        · cases List.mem_singleton.mp hy; exact hxy
      · cases List.mem_singleton.mp hx
        rcases List.mem_cons.mp hy with rfl | hy
        · exact sym _ _ hxy
        · cases List.mem_singleton.mp hy; exact absurd rfl hne
    rw [if_pos hab]
    exact ⟨_, by simp, hx, hy⟩
  · have ok := fold_ok sym trans cons es [] [] ⟨by simp, by simp, by simp, by simp, by simp, by simp, by simp⟩
    rw [List.nil_append] at ok
    obtain ⟨p, hp, g, hg, h1, h2⟩ := ok.pairs x y hx hy hxy
    refine ⟨g, ?_, h1, h2⟩
    rw [List.mem_filter, List.mem_flatMap]
    exact ⟨⟨p, hp, hg⟩, by simpa using two g h1 h2⟩

example : searchSame (· % 5) (fun a b => a % 10 == b % 10) [1, 2, 11, 6, 12, 21] = [[1, 11, 21], [2, 12]] := by decide +kernel

/-- Without that, whether equal elements are found depends on the number of the others: two elements are compared without a look at the hash. -/
theorem searchSame_hash_needed : searchSame (fun a => a) (fun a b => a % 10 == b % 10) [1, 11] = [[1, 11]] ∧
    searchSame (fun a => a) (fun a b => a % 10 == b % 10) [1, 11, 2] = [] := by decide +kernel

end Verif.HirEq
