import Verif.Dev.DeclsModel
import Verif.Dev.UtilsProps
import Verif.Dev.CargoProps
import Verif.Dev.GenerateModel

/-!
# C54: every module is declared once and every lint is listed once
-/

namespace Verif.Dev

/-! ## Specification -/

/-- The module path has this top module. -/
def HasTop (sep : Char) (m path : Str) : Prop := sep ∉ m ∧ (path = m ∨ ∃ r, path = m ++ sep :: r)

/-- The separator comes before every other character of the path. -/
def SepFirst (sep : Char) (path : Str) : Prop := ∀ c ∈ path, c = sep ∨ sep.toNat < c.toNat

/-! ## Proof -/

theorem splitOnce_none {c : Char} : ∀ {s a : Str}, Text.splitOnce c s = (a, none) → s = a ∧ c ∉ a
  | [], a, h => by
    simp only [Text.splitOnce, Prod.mk.injEq] at h
    rw [← h.1]; simp
  | x :: xs, a, h => by
    unfold Text.splitOnce at h
    split at h
    · simp at h
    · next hx =>
      generalize hr : Text.splitOnce c xs = r at h
      obtain ⟨r1, r2⟩ := r
      simp only [Prod.mk.injEq] at h
      obtain ⟨rfl, rfl⟩ := h
      obtain ⟨h1, h2⟩ := splitOnce_none hr
      refine ⟨by rw [h1], ?_⟩
      simp only [List.mem_cons, not_or]
      exact ⟨fun e => hx e.symm, h2⟩

theorem splitOnce_eq_none {c : Char} : ∀ {s : Str}, c ∉ s → Text.splitOnce c s = (s, none)
  | [], _ => rfl
  | x :: xs, h => by
    simp only [List.mem_cons, not_or] at h
    simp only [Text.splitOnce]
    rw [if_neg (fun e => h.1 e.symm), splitOnce_eq_none h.2]

theorem topModule_iff {sep : Char} {m path : Str} : topModule sep path = m ↔ HasTop sep m path := by
  constructor
  · intro h
    unfold topModule at h
    generalize hs : Text.splitOnce sep path = r at h
    obtain ⟨a, b⟩ := r
    simp only at h
    subst h
    cases b with
    | none => exact ⟨(splitOnce_none hs).2, .inl (splitOnce_none hs).1⟩
    | some b => exact ⟨(splitOnce_some hs).2, .inr ⟨b, (splitOnce_some hs).1⟩⟩
  · rintro ⟨h1, rfl | ⟨r, rfl⟩⟩
    · rw [topModule, splitOnce_eq_none h1]
    · rw [topModule, splitOnce_eq h1]

/-- A path between the module and a path in it is a path in it. -/
theorem between_top {sep : Char} : ∀ {m b c : Str}, SepFirst sep b → strLe m b = true → strLe b c = true →
    (c = m ∨ ∃ r, c = m ++ sep :: r) → b = m ∨ ∃ r, b = m ++ sep :: r
  | [], [], _, _, _, _, _ => .inl rfl
  | [], x :: b, c, hb, _, hbc, hc => by
    rcases hc with rfl | ⟨r, rfl⟩
    · simp [strLe] at hbc
    · rw [List.nil_append] at hbc
      unfold strLe at hbc
      rcases hb x (List.mem_cons_self ..) with rfl | hx
      · exact .inr ⟨b, rfl⟩
      · rw [if_neg (by omega), if_pos hx] at hbc
        simp at hbc
  | _ :: _, [], _, _, h, _, _ => by simp [strLe] at h
  | y :: m, x :: b, c, hb, hmb, hbc, hc => by
    obtain ⟨c', rfl⟩ : ∃ c', c = y :: c' := by
      rcases hc with rfl | ⟨r, rfl⟩
      · exact ⟨m, rfl⟩
      · exact ⟨m ++ sep :: r, rfl⟩
    have hxy : x.toNat = y.toNat := by
      unfold strLe at hmb hbc
      rcases Nat.lt_trichotomy x.toNat y.toNat with h | h | h
      · rw [if_neg (by omega), if_pos h] at hmb; simp at hmb
      · exact h
      · rw [if_neg (by omega), if_pos h] at hbc; simp at hbc
    have : x = y := Char.toNat_inj.1 hxy
    subst this
    simp only [strLe, Nat.lt_irrefl, if_false] at hmb hbc
    have := between_top (m := m) (b := b) (c := c') (fun z hz => hb z (List.mem_cons_of_mem _ hz)) hmb hbc
      (by simpa using hc)
    simpa using this

theorem strLe_prefix : ∀ (m r : Str), strLe m (m ++ r) = true
  | [], _ => rfl
  | c :: m, r => by simp [strLe, strLe_prefix m r]

theorem topModule_le {sep : Char} {m path : Str} (h : topModule sep path = m) : strLe m path = true := by
  rw [topModule_iff] at h
  rcases h with ⟨_, rfl | ⟨r, rfl⟩⟩
  · exact strLe_refl _
  · exact strLe_prefix _ _

theorem topModule_between {sep : Char} {a b c m : Str} (hb : SepFirst sep b) (hab : strLe a b = true) (hbc : strLe b c = true)
    (ha : topModule sep a = m) (hc : topModule sep c = m) : topModule sep b = m := by
  have h1 := strLe_trans _ _ _ (topModule_le ha) hab
  rw [topModule_iff] at hc ⊢
  exact ⟨hc.1, between_top hb h1 hbc hc.2⟩

theorem declaredMods_mem (sep : Char) : ∀ (ls : List ActiveLint) (prev m : Str), m ∈ declaredMods sep prev ls →
    ∃ l ∈ ls, topModule sep l.modPath = m
  | [], _, _, h => by simp [declaredMods] at h
  | l :: ls, prev, m, h => by
    unfold declaredMods at h
    split at h
    · rcases List.mem_cons.1 h with rfl | h
      · exact ⟨l, List.mem_cons_self .., rfl⟩
      · obtain ⟨x, hx, hm⟩ := declaredMods_mem sep ls _ m h
        exact ⟨x, List.mem_cons_of_mem _ hx, hm⟩
    · obtain ⟨x, hx, hm⟩ := declaredMods_mem sep ls _ m h
      exact ⟨x, List.mem_cons_of_mem _ hx, hm⟩

theorem declaredMods_all (sep : Char) : ∀ (ls : List ActiveLint) (prev : Str), ∀ l ∈ ls,
    topModule sep l.modPath = prev ∨ topModule sep l.modPath ∈ declaredMods sep prev ls
  | [], _, l, h => by simp at h
  | x :: ls, prev, l, h => by
    unfold declaredMods
    split
    · rcases List.mem_cons.1 h with rfl | h
      · exact .inr (List.mem_cons_self ..)
      · rcases declaredMods_all sep ls (topModule sep x.modPath) l h with h | h
        · exact .inr (by rw [h]; exact List.mem_cons_self ..)
        · exact .inr (List.mem_cons_of_mem _ h)
    · next hx =>
      rcases List.mem_cons.1 h with rfl | h
      · exact .inl (Decidable.not_not.1 hx)
      · exact declaredMods_all sep ls prev l h

theorem declaredMods_nodup (sep : Char) : ∀ (ls : List ActiveLint) (p0 prev : Str), topModule sep p0 = prev →
    (∀ l ∈ ls, strLe p0 l.modPath = true) → ls.Pairwise (fun a b => strLe a.modPath b.modPath = true) →
    (∀ l ∈ ls, SepFirst sep l.modPath) → prev ∉ declaredMods sep prev ls ∧ (declaredMods sep prev ls).Nodup
  | [], _, _, _, _, _, _ => by simp [declaredMods]
  | l :: ls, p0, prev, h0, h1, h2, h3 => by
    rw [List.pairwise_cons] at h2
    have hs : ∀ l ∈ ls, SepFirst sep l.modPath := fun x hx => h3 x (List.mem_cons_of_mem _ hx)
    unfold declaredMods
    split
    · next hne =>
      obtain ⟨i1, i2⟩ := declaredMods_nodup sep ls l.modPath _ rfl h2.1 h2.2 hs
      rw [List.nodup_cons]
      refine ⟨?_, i1, i2⟩
      simp only [List.mem_cons, not_or]
      refine ⟨fun e => hne e.symm, fun hm => ?_⟩
      obtain ⟨x, hx, hxm⟩ := declaredMods_mem sep ls _ _ hm
      exact hne (topModule_between (h3 l (List.mem_cons_self ..)) (h1 l (List.mem_cons_self ..)) (h2.1 x hx) h0 hxm)
    · exact declaredMods_nodup sep ls p0 prev h0 (fun x hx => h1 x (List.mem_cons_of_mem _ hx)) h2.2 hs

/-! ### The groups -/

theorem sliceGroupsGo_cons {α κ : Type} [DecidableEq κ] (key : α → κ) (fuel : Nat) (a : α) (l : List α) :
    sliceGroupsGo (sameKey key) (fuel + 1) (a :: l) =
      (a :: l.takeWhile fun x => decide (key a = key x)) ::
        sliceGroupsGo (sameKey key) fuel (l.dropWhile fun x => decide (key a = key x)) := by
  have hi := sameKey_le key a l
  rw [sliceGroupsGo]
  rw [if_pos (by simp; omega), take_sameKey, drop_sameKey]

theorem sorted_groups (key : ActiveLint → Str) : ∀ (fuel : Nat) (l : List ActiveLint), l.length ≤ fuel →
    l.Pairwise (fun a b => strLe (key a) (key b) = true) →
    ((sliceGroupsGo (sameKey key) fuel l).map fun g => (g.head?.map key).getD []).Nodup ∧
    (∀ g ∈ sliceGroupsGo (sameKey key) fuel l, ∃ a, a ∈ l ∧ g.head? = some a ∧ g = l.filter fun x => decide (key a = key x)) ∧
    ∀ x ∈ l, ∃ g ∈ sliceGroupsGo (sameKey key) fuel l, x ∈ g
  | 0, l, h, _ => by
    have : l = [] := by simpa using h
    subst this; simp [sliceGroupsGo]
  | _ + 1, [], _, _ => by simp [sliceGroupsGo]
  | fuel + 1, a :: l, h, hs => by
    rw [List.pairwise_cons] at hs
    have hsub := List.dropWhile_sublist (fun x => decide (key a = key x)) (l := l)
    have hlen : (l.dropWhile fun x => decide (key a = key x)).length ≤ fuel := by
      have := hsub.length_le
      simp at h; omega
    obtain ⟨i1, i2, i3⟩ := sorted_groups key fuel _ hlen (hs.2.sublist hsub)
    have hsplit := List.takeWhile_append_dropWhile (p := fun x => decide (key a = key x)) (l := l)
    have htake : ∀ x ∈ l.takeWhile fun x => decide (key a = key x), key a = key x := by
      intro x hx
      have := List.all_takeWhile (p := fun x => decide (key a = key x)) (l := l)
      rw [List.all_eq_true] at this
      simpa using this x hx
    -- no other element has the key of the first group
    have hdrop : ∀ x ∈ l.dropWhile fun x => decide (key a = key x), key a ≠ key x := by
      intro x hx he
      generalize hd : (l.dropWhile fun x => decide (key a = key x)) = d at hx
      cases d with
      | nil => simp at hx
      | cons y ys =>
        have hy : key a ≠ key y := by
          have := List.head_dropWhile_not (fun x => decide (key a = key x)) (l := l) (by rw [hd]; simp)
          simp only [hd, List.head_cons] at this
          simpa using this
        have hym : y ∈ l := hsub.subset (by rw [hd]; exact List.mem_cons_self ..)
        have h1 := hs.1 y hym
        have hp : (y :: ys).Pairwise (fun a b => strLe (key a) (key b) = true) := by
          rw [← hd]; exact hs.2.sublist hsub
        have h2 : strLe (key y) (key x) = true := by
          rcases List.mem_cons.1 hx with rfl | hx
          · exact strLe_refl _
          · exact (List.pairwise_cons.1 hp).1 x hx
        exact hy (strLe_antisymm _ _ h1 (by rw [he]; exact h2))
    generalize htk : (l.takeWhile fun x => decide (key a = key x)) = T at hsplit htake
    generalize hdk : (l.dropWhile fun x => decide (key a = key x)) = D at hsplit hdrop i1 i2 i3
    rw [sliceGroupsGo_cons, htk, hdk]
    refine ⟨?_, ?_, ?_⟩
    · rw [List.map_cons, List.nodup_cons]
      refine ⟨fun hm => ?_, i1⟩
      obtain ⟨g, hg, he⟩ := List.mem_map.1 hm
      obtain ⟨b, hb, hh, _⟩ := i2 g hg
      rw [hh] at he
      exact hdrop b hb (by simpa using he.symm)
    · intro g hg
      rcases List.mem_cons.1 hg with rfl | hg
      · refine ⟨a, List.mem_cons_self .., rfl, ?_⟩
        rw [← hsplit, ← List.cons_append, List.filter_append]
        have e1 : List.filter (fun x => decide (key a = key x)) D = [] := by
          rw [List.filter_eq_nil_iff]
          intro x hx
          simpa using hdrop x hx
        have e2 : List.filter (fun x => decide (key a = key x)) (a :: T) = a :: T := by
          rw [List.filter_eq_self]
          intro x hx
          rcases List.mem_cons.1 hx with rfl | hx
          · simp
          · simpa using htake x hx
        rw [e1, e2]; simp
      · obtain ⟨b, hb, hh, hf⟩ := i2 g hg
        refine ⟨b, ?_, hh, ?_⟩
        · rw [← hsplit]; simp [hb]
        · rw [← hsplit, ← List.cons_append, List.filter_append, ← hf]
          have e2 : List.filter (fun x => decide (key b = key x)) (a :: T) = [] := by
            rw [List.filter_eq_nil_iff]
            intro x hx
            have hab := hdrop b hb
            rcases List.mem_cons.1 hx with rfl | hx
            · simpa using fun e : key b = key x => hab e.symm
            · simpa using fun e : key b = key x => hab ((htake x hx).trans e.symm)
          rw [e2]; simp
    · intro x hx
      rw [← hsplit] at hx
      simp only [List.mem_cons, List.mem_append] at hx
      rcases hx with rfl | hx | hx
      · exact ⟨_, List.mem_cons_self .., List.mem_cons_self ..⟩
      · exact ⟨_, List.mem_cons_self .., List.mem_cons_of_mem _ hx⟩
      · obtain ⟨g, hg, hm⟩ := i3 x hx
        exact ⟨g, List.mem_cons_of_mem _ hg, hm⟩

theorem pathLe_total (a b : ActiveLint) : pathLe a b = true ∨ pathLe b a = true := by
  unfold pathLe
  rcases strLe_total a.krate b.krate with h1 | h1 <;> rcases strLe_total a.modPath b.modPath with h2 | h2 <;>
    cases h3 : strLe b.krate a.krate <;> cases h4 : strLe a.krate b.krate <;> simp_all

theorem pathLe_trans (a b c : ActiveLint) (h1 : pathLe a b = true) (h2 : pathLe b c = true) : pathLe a c = true := by
  unfold pathLe at *
  simp only [Bool.and_eq_true, Bool.or_eq_true, Bool.not_eq_true'] at *
  refine ⟨strLe_trans _ _ _ h1.1 h2.1, ?_⟩
  rcases h1.2 with h | h
  · left
    cases hc : strLe c.krate a.krate
    · rfl
    · rw [strLe_trans _ _ _ h2.1 hc] at h; simp at h
  · rcases h2.2 with h' | h'
    · left
      cases hc : strLe c.krate a.krate
      · rfl
      · rw [strLe_trans _ _ _ hc h1.1] at h'; simp at h'
    · exact .inr (strLe_trans _ _ _ h h')

/-- **C54.** For every set of lints, with a path separator that sorts before all other characters of the paths: there is
one entry for each crate that has a lint; it declares every top module with a lint exactly once (but not the crate root,
the empty path), and no other module; and it lists every lint of the crate exactly once. -/
theorem genDecls_once {sep : Char} {active : List ActiveLint} (hsep : ∀ l ∈ active, SepFirst sep l.modPath) :
    ((genDecls sep active).map (·.1)).Nodup ∧
    (∀ l ∈ active, ∃ e ∈ genDecls sep active, e.1 = l.krate) ∧
    ∀ e ∈ genDecls sep active,
      (∃ l ∈ active, l.krate = e.1) ∧ e.2.1.Nodup ∧
      (∀ m, m ∈ e.2.1 ↔ m ≠ [] ∧ ∃ l ∈ active, l.krate = e.1 ∧ HasTop sep m l.modPath) ∧
      e.2.2.Perm ((active.filter fun l => decide (l.krate = e.1)).map (lintEntry sep)) := by
  have hperm := sortBy_perm pathLe active
  have hsorted := sortBy_sorted pathLe_total pathLe_trans active
  unfold genDecls sliceGroups
  generalize hS : sortBy pathLe active = S at hperm hsorted
  have hk : S.Pairwise (fun a b => strLe a.krate b.krate = true) :=
    hsorted.imp fun h => by
      unfold pathLe at h
      simp only [Bool.and_eq_true] at h
      exact h.1
  obtain ⟨g1, g2, g3⟩ := sorted_groups ActiveLint.krate S.length S (Nat.le_refl _) hk
  generalize sliceGroupsGo (sameKey ActiveLint.krate) S.length S = G at g1 g2 g3
  refine ⟨by rw [List.map_map]; exact g1, ?_, ?_⟩
  · intro l hl
    obtain ⟨g, hg, hm⟩ := g3 l (hperm.mem_iff.2 hl)
    refine ⟨_, List.mem_map.2 ⟨g, hg, rfl⟩, ?_⟩
    obtain ⟨a, _, hh, hf⟩ := g2 g hg
    rw [hf, List.mem_filter] at hm
    simp only [hh, Option.map_some, Option.getD_some]
    simpa using hm.2
  · intro e he
    obtain ⟨g, hg, rfl⟩ := List.mem_map.1 he
    obtain ⟨a, ha, hh, hf⟩ := g2 g hg
    simp only [hh, Option.map_some, Option.getD_some]
    have hsub : g.Sublist S := by rw [hf]; exact List.filter_sublist
    have hgs : g.Pairwise (fun a b => strLe a.modPath b.modPath = true) := by
      refine List.Pairwise.imp_of_mem ?_ (hsorted.sublist hsub)
      intro x y hx hy h
      rw [hf, List.mem_filter] at hx hy
      have hx := of_decide_eq_true hx.2
      have hy := of_decide_eq_true hy.2
      unfold pathLe at h
      rw [← hx, ← hy, strLe_refl] at h
      simpa using h
    have hfirst : ∀ l ∈ g, SepFirst sep l.modPath := fun l hl => hsep l (hperm.mem_iff.1 (hsub.subset hl))
    obtain ⟨n1, n2⟩ := declaredMods_nodup sep g [] [] rfl (fun l _ => rfl) hgs hfirst
    refine ⟨⟨a, hperm.mem_iff.1 ha, rfl⟩, n2, ?_, ?_⟩
    · intro m
      constructor
      · intro hm
        refine ⟨fun he => n1 (he ▸ hm), ?_⟩
        obtain ⟨l, hl, ht⟩ := declaredMods_mem sep g _ m hm
        refine ⟨l, hperm.mem_iff.1 (hsub.subset hl), ?_, topModule_iff.1 ht⟩
        rw [hf, List.mem_filter] at hl
        exact (of_decide_eq_true hl.2).symm
      · rintro ⟨hne, l, hl, hlk, ht⟩
        have hlg : l ∈ g := by
          rw [hf, List.mem_filter]
          exact ⟨hperm.mem_iff.2 hl, by simp [hlk]⟩
        rw [← topModule_iff] at ht
        rcases declaredMods_all sep g [] l hlg with h | h
        · exact absurd (ht.symm.trans h) hne
        · rwa [ht] at h
    · refine List.Perm.map _ ?_
      rw [hf]
      have := hperm.filter fun l => decide (l.krate = a.krate)
      simpa only [eq_comm] using this

/-- Two crates; a module with submodules, and a module whose name goes on where the separator is. -/
example : genDecls '/' [⟨str!"a", str!"k", str!"x"⟩, ⟨str!"b", str!"k", str!"x2"⟩, ⟨str!"c", str!"k", str!"x/y"⟩, ⟨str!"d", str!"j", str!"z"⟩] =
    [(str!"j", [str!"z"], [str!"crate::z::D_INFO"]),
     (str!"k", [str!"x", str!"x2"], [str!"crate::x::A_INFO", str!"crate::x::y::C_INFO", str!"crate::x2::B_INFO"])] := by
  decide +kernel

example : SepFirst '/' (str!"methods/iter_nth_0") := by unfold SepFirst; decide

/-! ## Violations -/

/-- With the separator of Windows, which sorts after digits and capital letters, a module may be declared twice. -/
theorem genDecls_windows_violation :
    genDecls '\\' [⟨str!"a", str!"k", str!"x"⟩, ⟨str!"b", str!"k", str!"x2"⟩, ⟨str!"c", str!"k", str!"x\\y"⟩] =
      [(str!"k", [str!"x", str!"x2", str!"x"],
        [str!"crate::x::A_INFO", str!"crate::x2::B_INFO", str!"crate::x::y::C_INFO"])] := by decide +kernel

/-- A lint in `lib.rs` is listed with a path that is not one. -/
theorem genDecls_lib_violation : krateMod '/' (str!"k/src/lib.rs") = (str!"k", []) ∧
    genDecls '/' [⟨str!"a", str!"k", []⟩] = [(str!"k", [], [str!"crate::::A_INFO"])] := by decide +kernel

/-! ## Files and modules -/

theorem stripSuffix?_append (a suf : Str) : stripSuffix? suf (a ++ suf) = some a := by
  unfold stripSuffix?
  rw [List.reverse_append, Text.stripPrefix?_eq_some.2 rfl]
  simp

theorem stripSuffix?_eq_some {a suf s : Str} : stripSuffix? suf s = some a ↔ s = a ++ suf := by
  constructor
  · intro h
    unfold stripSuffix? at h
    rw [Option.map_eq_some_iff] at h
    obtain ⟨r, hr, rfl⟩ := h
    rw [Text.stripPrefix?_eq_some] at hr
    have := congrArg List.reverse hr
    simpa using this
  · rintro rfl
    exact stripSuffix?_append a suf

/-- **C54.** The module of the file `K/src/p.rs` is the root of the crate `K` if `p` is `lib`, `q` if `p` is `q/mod`, and
`p` otherwise. -/
theorem krateMod_file {sep : Char} {k p : Str} (hk : sep ∉ k) :
    ((krateMod sep (k ++ sep :: (str!"src" ++ sep :: (p ++ str!".rs")))).1 = k) ∧
    (p = str!"lib" → (krateMod sep (k ++ sep :: (str!"src" ++ sep :: (p ++ str!".rs")))).2 = []) ∧
    (p ≠ str!"lib" → ∀ q, p = q ++ sep :: str!"mod" →
      (krateMod sep (k ++ sep :: (str!"src" ++ sep :: (p ++ str!".rs")))).2 = q) ∧
    (p ≠ str!"lib" → (∀ q, p ≠ q ++ sep :: str!"mod") →
      (krateMod sep (k ++ sep :: (str!"src" ++ sep :: (p ++ str!".rs")))).2 = p) := by
  have h1 : (Text.stripPrefix? (str!"src") (str!"src" ++ sep :: (p ++ str!".rs"))).bind
      (fun p => (Text.stripPrefix? [sep] p).bind (stripSuffix? (str!".rs"))) = some p := by
    rw [Text.stripPrefix?_eq_some.2 rfl]
    simp only [Option.bind_some]
    rw [(Text.stripPrefix?_eq_some (p := [sep])).2 (show sep :: (p ++ str!".rs") = [sep] ++ (p ++ str!".rs") from rfl)]
    exact stripSuffix?_append p _
  have hm : ∀ q, (stripSuffix? (str!"mod") p).bind (stripSuffix? [sep]) = some q ↔ p = q ++ sep :: str!"mod" := by
    intro q
    rw [Option.bind_eq_some_iff]
    constructor
    · rintro ⟨a, ha, hb⟩
      rw [stripSuffix?_eq_some] at ha hb
      rw [ha, hb]; simp
    · intro h
      refine ⟨q ++ [sep], ?_, ?_⟩
      · rw [stripSuffix?_eq_some, h]; simp
      · rw [stripSuffix?_eq_some]
  unfold krateMod
  rw [splitOnce_eq hk]
  simp only
  rw [h1]
  simp only
  generalize (stripSuffix? (str!"mod") p).bind (stripSuffix? [sep]) = o at hm
  by_cases hlib : p = str!"lib"
  · simp [hlib]
  · simp only [if_neg hlib, hlib, false_implies, true_and, not_false_eq_true, true_implies, ne_eq]
    cases o with
    | none =>
      refine ⟨rfl, fun q hq => ?_, fun _ => rfl⟩
      have := (hm q).2 hq
      simp at this
    | some q =>
      refine ⟨rfl, fun q' hq => ?_, fun hn => absurd ((hm q).1 rfl) (hn q)⟩
      have := (hm q').2 hq
      simpa using this

example : krateMod '/' (str!"clippy_lints/src/methods/mod.rs") = (str!"clippy_lints", str!"methods") := by decide +kernel

theorem split_joinWith {sep : Char} : ∀ {parts : List Str}, parts ≠ [] → (∀ p ∈ parts, sep ∉ p) →
    Text.split [sep] (joinWith [sep] parts) = parts
  | [], h, _ => absurd rfl h
  | [p], _, h => Text.split_char_none _ _ (h p (by simp))
  | p :: q :: ps, _, h => by
    rw [joinWith, List.append_assoc, List.singleton_append, Text.split_char _ _ _ (h p (by simp)),
      split_joinWith (by simp) fun x hx => h x (List.mem_cons_of_mem _ hx)]
    simp

theorem flatten_joinWith (sep : Str) : ∀ (parts : List Str) (last : Str),
    (parts.map fun p => p ++ sep).flatten ++ last = joinWith sep (parts ++ [last])
  | [], last => rfl
  | p :: ps, last => by
    rw [List.map_cons, List.flatten_cons, List.append_assoc, flatten_joinWith sep ps last]
    obtain ⟨x, xs, hx⟩ : ∃ x xs, ps ++ [last] = x :: xs := by cases ps <;> simp
    rw [List.cons_append, hx]
    rfl

/-- **C54.** A lint in the module `a/b/c` is listed as `crate::a::b::c::NAME_INFO`. -/
theorem lintEntry_path {sep : Char} {parts : List Str} {name krate : Str} (hne : parts ≠ []) (hp : ∀ p ∈ parts, sep ∉ p) :
    lintEntry sep ⟨name, krate, joinWith [sep] parts⟩ =
      joinWith (str!"::") (str!"crate" :: parts ++ [asciiUpper name ++ str!"_INFO"]) := by
  unfold lintEntry
  simp only
  rw [split_joinWith hne hp, List.append_assoc, List.append_assoc, flatten_joinWith]
  obtain ⟨x, xs, hx⟩ : ∃ x xs, parts ++ [asciiUpper name ++ str!"_INFO"] = x :: xs := by cases parts <;> simp
  rw [List.cons_append (a := str!"crate"), hx]
  rfl

end Verif.Dev
