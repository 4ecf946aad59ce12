import Verif.StrUtils.Names
import Verif.StrUtils.Split

/-!
# C52 — reported name repetitions are real
-/

namespace Verif.StrUtils
open Verif

/-! ## Specification -/

/-- `p` is the longest list of words all the names begin with. -/
def LongestCommonStart (names : List (List Str)) (p : List Str) : Prop :=
  (∀ n ∈ names, p <+: n) ∧ ∀ q, (∀ n ∈ names, q <+: n) → q <+: p

/-- `p` is the longest list of words all the names end with. -/
def LongestCommonEnd (names : List (List Str)) (p : List Str) : Prop :=
  (∀ n ∈ names, p <:+ n) ∧ ∀ q, (∀ n ∈ names, q <:+ n) → q <:+ p

/-! ## Lemmas -/

theorem common_cons (a b : Str) (as bs : List Str) :
    common (a :: as) (b :: bs) = if a = b then a :: common as bs else [] := by
  by_cases h : a = b <;> simp [common, h]

theorem common_spec : ∀ (a b : List Str),
    common a b <+: a ∧ common a b <+: b ∧ ∀ q, q <+: a → q <+: b → q <+: common a b
  | [], b => by simp [common]
  | a :: as, [] => by simp [common]
  | a :: as, b :: bs => by
      obtain ⟨h1, h2, h3⟩ := common_spec as bs
      rw [common_cons]
      by_cases hab : a = b
      · subst hab
        rw [if_pos rfl]
        refine ⟨by simpa using h1, by simpa using h2, ?_⟩
        intro q hq1 hq2
        cases q with
        | nil => simp
        | cons x xs =>
          rw [List.cons_prefix_cons] at hq1 hq2 ⊢
          exact ⟨hq1.1, h3 xs hq1.2 hq2.2⟩
      · rw [if_neg hab]
        refine ⟨by simp, by simp, ?_⟩
        intro q hq1 hq2
        cases q with
        | nil => simp
        | cons x xs =>
          rw [List.cons_prefix_cons] at hq1 hq2
          exact absurd (hq1.1.symm.trans hq2.1) hab

theorem affixLoop_spec : ∀ (splits : List (List Str)) (pre post pre' post' : List Str),
    affixLoop pre post splits = some (pre', post') →
    (∀ n ∈ splits, n.length ≠ 1) ∧
    pre' <+: pre ∧ (∀ n ∈ splits, pre' <+: n) ∧
      (∀ q, q <+: pre → (∀ n ∈ splits, q <+: n) → q <+: pre') ∧
    post' <+: post ∧ (∀ n ∈ splits, post' <+: n.reverse) ∧
      (∀ q, q <+: post → (∀ n ∈ splits, q <+: n.reverse) → q <+: post')
  | [], pre, post, pre', post', h => by
      simp only [affixLoop, Option.some.injEq, Prod.mk.injEq] at h
      obtain ⟨rfl, rfl⟩ := h
      simp
  | ws :: rest, pre, post, pre', post', h => by
      rw [affixLoop] at h
      by_cases hl : ws.length = 1
      · simp [hl] at h
      · rw [if_neg hl] at h
        obtain ⟨h0, h1, h2, h3, h4, h5, h6⟩ := affixLoop_spec rest _ _ _ _ h
        obtain ⟨c1, c2, c3⟩ := common_spec pre ws
        obtain ⟨d1, d2, d3⟩ := common_spec post ws.reverse
        refine ⟨?_, h1.trans c1, ?_, ?_, h4.trans d1, ?_, ?_⟩
        · intro n hn
          rcases List.mem_cons.mp hn with rfl | hn
          · exact hl
          · exact h0 n hn
        · intro n hn
          rcases List.mem_cons.mp hn with rfl | hn
          · exact h1.trans c2
          · exact h2 n hn
        · intro q hq hall
          exact h3 q (c3 q hq (hall ws (by simp))) (fun n hn => hall n (by simp [hn]))
        · intro n hn
          rcases List.mem_cons.mp hn with rfl | hn
          · exact h4.trans d2
          · exact h5 n hn
        · intro q hq hall
          exact h6 q (d3 q hq (hall ws (by simp))) (fun n hn => hall n (by simp [hn]))

theorem affixLoop_none : ∀ (splits : List (List Str)) (pre post : List Str),
    affixLoop pre post splits = none → ∃ n ∈ splits, n.length = 1
  | [], pre, post, h => by simp [affixLoop] at h
  | ws :: rest, pre, post, h => by
      rw [affixLoop] at h
      by_cases hl : ws.length = 1
      · exact ⟨ws, by simp, hl⟩
      · rw [if_neg hl] at h
        obtain ⟨n, hn, h1⟩ := affixLoop_none rest _ _ h
        exact ⟨n, by simp [hn], h1⟩

/-- Result of the loop for a non-empty list of names. -/
theorem affix_common (first : List Str) (rest : List (List Str)) (pre post : List Str)
    (h : affixLoop first first.reverse (first :: rest) = some (pre, post)) :
    (∀ n ∈ first :: rest, n.length ≠ 1) ∧ LongestCommonStart (first :: rest) pre ∧
      LongestCommonEnd (first :: rest) post.reverse := by
  obtain ⟨h0, h1, h2, h3, h4, h5, h6⟩ := affixLoop_spec _ _ _ _ _ h
  refine ⟨h0, ⟨h2, fun q hq => h3 q (hq first (by simp)) hq⟩, ⟨fun n hn => ?_, fun q hq => ?_⟩⟩
  · have := h5 n hn
    rw [← List.reverse_prefix, List.reverse_reverse]; exact this
  · rw [← List.reverse_prefix, List.reverse_reverse]
    apply h6
    · exact List.reverse_prefix.mpr (hq first (by simp))
    · intro n hn; exact List.reverse_prefix.mpr (hq n hn)

/-! ## The property for enums -/

theorem mapM_split (k : Casing) (hd : ∀ c, ¬ (k.upper c = true ∧ k.lower c = true)) (names : List Str) :
    ∃ splits, names.mapM (camelCaseSplit k) = some splits ∧ splits.map List.flatten = names ∧
      splits.length = names.length ∧ ∀ ws ∈ splits, ∀ w ∈ ws, w ≠ [] := by
  induction names with
  | nil => exact ⟨[], rfl, rfl, rfl, by simp⟩
  | cons n names ih =>
    obtain ⟨splits, h1, h2, h3, h4⟩ := ih
    obtain ⟨ws, hw, hf, hne, _⟩ := split_spec k hd n
    refine ⟨ws :: splits, by simp [List.mapM_cons, hw, h1], by simp [hf, h2], by simp [h3], ?_⟩
    intro x hx
    rcases List.mem_cons.mp hx with rfl | hx
    · exact hne
    · exact h4 x hx

/-- **C52 (enums).** The check never panics. If it reports a prefix, every variant name has at least two
words, the reported text is made of the longest list of words they all begin with, it is a prefix of every
name, and it is more than underscores. If it reports a postfix, the same holds with ends instead of
beginnings, and the names have no common prefix worth reporting. -/
theorem enum_affix (k : Casing) (hd : ∀ c, ¬ (k.upper c = true ∧ k.lower c = true)) (names : List Str) :
    ∃ splits r, names.mapM (camelCaseSplit k) = some splits ∧ enumAffixOf k names = some r ∧
      (∀ v, r = some (.pre v) → ∃ ws, LongestCommonStart splits ws ∧ ws.flatten = v ∧
        (∀ n ∈ names, v <+: n) ∧ (∃ w ∈ ws, w ≠ ['_']) ∧ ∀ s ∈ splits, s.length ≠ 1) ∧
      (∀ v, r = some (.post v) → ∃ ws, LongestCommonEnd splits ws ∧ ws.flatten = v ∧ ws ≠ [] ∧
        (∀ n ∈ names, v <:+ n) ∧ (∀ s ∈ splits, s.length ≠ 1) ∧
        ∃ us, LongestCommonStart splits us ∧ ∀ u ∈ us, u = ['_']) ∧
      (r = none → names = [] ∨ (∃ s ∈ splits, s.length = 1) ∨
        (LongestCommonEnd splits [] ∧ ∃ us, LongestCommonStart splits us ∧ ∀ u ∈ us, u = ['_'])) := by
  obtain ⟨splits, hs, hnames, hlen, hne⟩ := mapM_split k hd names
  refine ⟨splits, enumAffix splits, hs, by simp [enumAffixOf, hs], ?_⟩
  cases splits with
  | nil =>
    have : names = [] := List.length_eq_zero_iff.mp (by simpa using hlen.symm)
    simp [enumAffix, this]
  | cons first rest =>
    cases hl : affixLoop first first.reverse (first :: rest) with
    | none =>
      have hr : enumAffix (first :: rest) = none := by simp [enumAffix, hl]
      rw [hr]
      refine ⟨by simp, by simp, fun _ => Or.inr (Or.inl (affixLoop_none _ _ _ hl))⟩
    | some pp =>
      obtain ⟨pre, post⟩ := pp
      obtain ⟨h0, hstart, hend⟩ := affix_common first rest pre post hl
      have hprene : ∀ w ∈ pre, w ≠ [] := by
        intro w hw
        obtain ⟨t, ht⟩ := hstart.1 first (by simp)
        exact hne first (by simp) w (by rw [← ht]; simp [hw])
      have hflat : ∀ n ∈ names, ∃ s ∈ first :: rest, s.flatten = n := by
        intro n hn
        rw [← hnames] at hn
        exact List.mem_map.mp hn
      have hprefix : ∀ n ∈ names, pre.flatten <+: n := by
        intro n hn
        obtain ⟨s, hs', rfl⟩ := hflat n hn
        obtain ⟨t, ht⟩ := hstart.1 s hs'
        exact ⟨t.flatten, by rw [← ht]; simp⟩
      have hsuffix : ∀ n ∈ names, post.reverse.flatten <:+ n := by
        intro n hn
        obtain ⟨s, hs', rfl⟩ := hflat n hn
        obtain ⟨t, ht⟩ := hend.1 s hs'
        exact ⟨t.flatten, by rw [← ht]; simp⟩
      have hcases : enumAffix (first :: rest) =
          pickAffix (noExtraPrefix pre) post.isEmpty pre.flatten post.reverse.flatten := by
        simp only [enumAffix, List.head?_cons, Option.bind_eq_bind, Option.bind_some, hl]
      rw [hcases]
      cases hx : noExtraPrefix pre with
      | false =>
        rw [show ∀ b x y, pickAffix false b x y = some (.pre x) from fun b _ _ => by cases b <;> rfl]
        have hx' : ∃ w ∈ pre, w ≠ ['_'] := by
          simp only [noExtraPrefix, List.all_eq_false, Bool.or_eq_true, beq_iff_eq, not_or] at hx
          obtain ⟨w, hw, _, h2⟩ := hx
          exact ⟨w, hw, h2⟩
        refine ⟨?_, by simp, by simp⟩
        intro v hv
        simp only [Option.some.injEq, Affix.pre.injEq] at hv
        subst hv
        exact ⟨pre, hstart, rfl, hprefix, hx', h0⟩
      | true =>
        have hx' : ∀ u ∈ pre, u = ['_'] := by
          intro u hu
          simp only [noExtraPrefix, List.all_eq_true, Bool.or_eq_true, beq_iff_eq] at hx
          exact (hx u hu).resolve_left (hprene u hu)
        cases hp : post.isEmpty with
        | true =>
          have hpe : post = [] := by simpa using hp
          subst hpe
          rw [show ∀ x y, pickAffix true true x y = none from fun _ _ => rfl]
          refine ⟨by simp, by simp, fun _ => Or.inr (Or.inr ⟨hend, pre, hstart, hx'⟩)⟩
        | false =>
          rw [show ∀ x y, pickAffix true false x y = some (.post y) from fun _ _ => rfl]
          refine ⟨by simp, ?_, by simp⟩
          intro v hv
          simp only [Option.some.injEq, Affix.post.injEq] at hv
          subst hv
          refine ⟨post.reverse, hend, rfl, ?_, hsuffix, h0, pre, hstart, hx'⟩
          intro e
          have : post = [] := by simpa using e
          simp [this] at hp

/-- The reported prefix can be a whole variant name, which cannot be removed. -/
theorem enum_whole_name :
    enumAffixOf ascii [str!"FooBar", str!"FooBarBaz", str!"FooBarQux"] = some (some (.pre (str!"FooBar"))) := by
  decide +kernel

example : enumAffixOf ascii [str!"FooRed", str!"FooGreen", str!"FooBlue"] = some (some (.pre (str!"Foo"))) := by
  decide +kernel

example : enumAffixOf ascii [str!"RedFoo", str!"GreenFoo", str!"BlueFoo"] = some (some (.post (str!"Foo"))) := by
  decide +kernel

/-! ## The property for structs -/

theorem join_split_go (s : Str) : ∀ cur : Str,
    joinUnderscore (Text.splitGo ['_'] 0 cur s) = cur.reverse ++ s ∧
      Text.splitGo ['_'] 0 cur s ≠ [] := by
  induction s with
  | nil => intro cur; simp [Text.splitGo, joinUnderscore]
  | cons c cs ih =>
    intro cur
    by_cases hc : c = '_'
    · subst hc
      have hp : List.isPrefixOf ['_'] ('_' :: cs) = true := by simp [List.isPrefixOf]
      rw [Text.splitGo, if_pos hp]
      simp only [List.length_cons, List.length_nil, Nat.zero_add, Nat.sub_self]
      refine ⟨?_, by simp⟩
      obtain ⟨h1, h2⟩ := ih []
      obtain ⟨x, xs, hx⟩ := List.exists_cons_of_ne_nil h2
      rw [hx] at h1 ⊢
      rw [joinUnderscore, h1]
      · simp
      · simp
    · have hp : ¬ List.isPrefixOf ['_'] (c :: cs) = true := by
        simp [List.isPrefixOf]; exact fun e => hc e.symm
      rw [Text.splitGo, if_neg hp]
      obtain ⟨h1, h2⟩ := ih (c :: cur)
      exact ⟨by rw [h1]; simp, h2⟩

theorem join_split (s : Str) : joinUnderscore (Text.split ['_'] s) = s := by
  simpa [Text.split] using (join_split_go s []).1

theorem join_append (a b : List Str) (ha : a ≠ []) (hb : b ≠ []) :
    joinUnderscore (a ++ b) = joinUnderscore a ++ '_' :: joinUnderscore b := by
  induction a with
  | nil => exact absurd rfl ha
  | cons x xs ih =>
    cases xs with
    | nil =>
      obtain ⟨y, ys, rfl⟩ := List.exists_cons_of_ne_nil hb
      simp [joinUnderscore]
    | cons z zs =>
      have := ih (by simp)
      have e : ∀ (w v : Str) (vs : List Str), joinUnderscore (w :: v :: vs) = w ++ '_' :: joinUnderscore (v :: vs) :=
        fun _ _ _ => rfl
      simp only [List.cons_append] at this ⊢
      rw [e, e, this]
      simp

theorem join_prefix {p n : List Str} (h : p <+: n) : joinUnderscore p <+: joinUnderscore n := by
  obtain ⟨t, rfl⟩ := h
  by_cases hp : p = []
  · subst hp; simp [joinUnderscore]
  · by_cases ht : t = []
    · subst ht; simp
    · rw [join_append p t hp ht]; exact List.prefix_append _ _

theorem join_suffix {p n : List Str} (h : p <:+ n) : joinUnderscore p <:+ joinUnderscore n := by
  obtain ⟨t, rfl⟩ := h
  by_cases hp : p = []
  · subst hp; simp [joinUnderscore]
  · by_cases ht : t = []
    · subst ht; simp
    · rw [join_append t p ht hp]
      exact ⟨joinUnderscore t ++ ['_'], by simp⟩

theorem fieldAffix_cases (names : List Str) (a : Affix) (h : fieldAffix names = some a) :
    ∃ pre post, (∀ n ∈ names, (Text.split ['_'] n).length ≠ 1) ∧
      LongestCommonStart (names.map (Text.split ['_'])) pre ∧
      LongestCommonEnd (names.map (Text.split ['_'])) post ∧ 2 ≤ names.length ∧
      pickAffix ((joinUnderscore pre).all (· == '_')) (postfixText post).isEmpty (joinUnderscore pre)
        (postfixText post) = some a := by
  unfold fieldAffix at h
  simp only [Option.bind_eq_bind] at h
  cases hs : names.map (Text.split ['_']) with
  | nil => simp [hs] at h
  | cons first rest =>
    simp only [hs, List.head?_cons, Option.bind_some] at h
    cases hl : affixLoop first first.reverse (first :: rest) with
    | none => simp [hl] at h
    | some pp =>
      obtain ⟨pre, post⟩ := pp
      obtain ⟨h0, hstart, hend⟩ := affix_common first rest pre post hl
      simp only [hl, Option.bind_some] at h
      by_cases hlen : names.length > 1
      · rw [if_pos hlen] at h
        refine ⟨pre, post.reverse, ?_, hstart, hend, hlen, h⟩
        intro n hn
        exact h0 _ (by rw [← hs]; exact List.mem_map.mpr ⟨n, hn, rfl⟩)
      · simp [hlen] at h

/-- **C52 (structs, prefixes).** A reported prefix is the longest list of underscore-separated words all
field names begin with; it is a prefix of every name and not only underscores. -/
theorem field_prefix (names : List Str) (v : Str) (h : fieldAffix names = some (.pre v)) :
    ∃ ws, LongestCommonStart (names.map (Text.split ['_'])) ws ∧ joinUnderscore ws = v ∧
      (∀ n ∈ names, v <+: n) ∧ (∃ c ∈ v, c ≠ '_') ∧ 2 ≤ names.length ∧
      ∀ n ∈ names, (Text.split ['_'] n).length ≠ 1 := by
  obtain ⟨pre, post, h0, hstart, -, hlen, hpick⟩ := fieldAffix_cases names _ h
  cases hall : (joinUnderscore pre).all (· == '_') with
  | true => rw [hall] at hpick; cases h2 : (postfixText post).isEmpty <;> simp [h2, pickAffix] at hpick
  | false =>
    rw [hall] at hpick
    have : joinUnderscore pre = v := by
      cases h2 : (postfixText post).isEmpty <;> simpa [h2, pickAffix] using hpick
    subst this
    refine ⟨pre, hstart, rfl, ?_, by simpa using hall, hlen, h0⟩
    intro n hn
    have := join_prefix (hstart.1 _ (List.mem_map.mpr ⟨n, hn, rfl⟩))
    rwa [join_split] at this

/-- **C52 (structs, postfixes), part.** A reported postfix is the longest list of words all field names
end with, and a suffix of every name, if some name does not end in an underscore. Missing: the case where
all do (see `field_postfix_wrong`). -/
theorem field_postfix_partial (names : List Str) (v : Str) (h : fieldAffix names = some (.post v))
    (hend : ∃ n ∈ names, n.getLast? ≠ some '_' ∧ n ≠ []) :
    ∃ ws, LongestCommonEnd (names.map (Text.split ['_'])) ws ∧ joinUnderscore ws = v ∧ v ≠ [] ∧
      (∀ n ∈ names, v <:+ n) ∧ 2 ≤ names.length ∧
      ∃ us, LongestCommonStart (names.map (Text.split ['_'])) us ∧ ∀ c ∈ joinUnderscore us, c = '_' := by
  obtain ⟨pre, post, h0, hstart, hcend, hlen, hpick⟩ := fieldAffix_cases names _ h
  -- the last word is not empty
  have hlast : post.getLast? ≠ some [] := by
    obtain ⟨n, hn, hnl, hnn⟩ := hend
    obtain ⟨t, ht⟩ := hcend.1 _ (List.mem_map.mpr ⟨n, hn, rfl⟩)
    intro e
    obtain ⟨ys, hys⟩ := List.getLast?_eq_some_iff.mp e
    rw [hys] at ht
    have hj := join_split n
    rw [← ht, ← List.append_assoc] at hj
    by_cases hne : t ++ ys = []
    · rw [hne] at hj
      exact hnn (by simpa [joinUnderscore] using hj.symm)
    · rw [join_append _ _ hne (by simp)] at hj
      apply hnl
      rw [← hj]
      simp [joinUnderscore]
  have hpf : postfixText post = joinUnderscore post := by
    unfold postfixText
    split
    · next e => exact absurd e hlast
    · rfl
  rw [hpf] at hpick
  cases hall : (joinUnderscore pre).all (· == '_') with
  | false =>
    rw [hall] at hpick
    cases h2 : (joinUnderscore post).isEmpty <;> simp [h2, pickAffix] at hpick
  | true =>
    rw [hall] at hpick
    cases he : (joinUnderscore post).isEmpty with
    | true => simp [he, pickAffix] at hpick
    | false =>
      have : joinUnderscore post = v := by simpa [he, pickAffix] using hpick
      subst this
      refine ⟨post, hcend, rfl, by intro e; simp [e] at he, ?_, hlen, pre, hstart, by simpa using hall⟩
      intro n hn
      have := join_suffix (hcend.1 _ (List.mem_map.mpr ⟨n, hn, rfl⟩))
      rwa [join_split] at this

/-- The full claim about postfixes is false: for fields `a_x_`, `b_x_` clippy reports the postfix `x__`,
which is not a suffix of either. -/
theorem field_postfix_wrong :
    fieldAffix [str!"a_x_", str!"b_x_"] = some (.post (str!"x__")) ∧
      ¬ (str!"x__" <:+ str!"a_x_") := by decide

example : fieldAffix [str!"foo_a", str!"foo_b"] = some (.pre (str!"foo")) ∧
    fieldAffix [str!"a_foo", str!"b_foo"] = some (.post (str!"foo")) := by decide

/-! ## Names that begin or end with the type's name -/

/-- **C52 (variant starts with the enum's name).** -/
theorem enumStart_iff (k : Casing) (numeric : Char → Bool) (item name : Str) :
    enumStart k numeric item name = true ↔
      ∃ c d rest, name = item ++ c :: d :: rest ∧ k.lower c = false ∧ numeric d = false := by
  obtain ⟨p, ⟨h1, h2, h3⟩, hc⟩ := countMatchStart_spec item name
  have hiff : p.length = item.length ↔ item <+: name := by
    constructor
    · intro h
      obtain ⟨t, ht⟩ := h1
      have : t = [] := by
        have := congrArg List.length ht
        simp at this
        exact List.length_eq_zero_iff.mp (by omega)
      subst this
      rw [List.append_nil] at ht
      rw [← ht]; exact h2
    · intro h
      exact Nat.le_antisymm h1.length_le (h3 item (List.prefix_refl _) h).length_le
  unfold enumStart
  rw [hc]
  simp only [Bool.and_eq_true, beq_iff_eq, hiff]
  constructor
  · rintro ⟨⟨⟨t, rfl⟩, hx⟩, hy⟩
    cases t with
    | nil => simp at hx
    | cons c t =>
      cases t with
      | nil => simp at hy
      | cons d rest =>
        refine ⟨c, d, rest, rfl, ?_, ?_⟩
        · simpa using hx
        · rw [List.getElem?_append_right (by omega)] at hy
          simpa using hy
  · rintro ⟨c, d, rest, rfl, hl, hn⟩
    refine ⟨⟨List.prefix_append _ _, by simp [hl]⟩, ?_⟩
    rw [List.getElem?_append_right (by omega)]
    simp [hn]

/-- **C52 (variant ends with the enum's name).** -/
theorem enumEnd_iff (item name : Str) : enumEnd item name = true ↔ item <:+ name := by
  obtain ⟨p, ⟨h1, h2, h3⟩, hc⟩ := countMatchEnd_spec item name
  unfold enumEnd
  rw [hc]
  simp only [beq_iff_eq]
  constructor
  · intro h
    obtain ⟨t, ht⟩ := h1
    have : t = [] := by
      have := congrArg List.length ht
      simp at this
      exact List.length_eq_zero_iff.mp (by omega)
    subst this
    rw [List.nil_append] at ht
    rw [← ht]; exact h2
  · intro h
    exact Nat.le_antisymm h1.length_le (h3 item (List.suffix_refl _) h).length_le

theorem zip_all_prefix (a b : List Str) : 
    (decide (a.length ≥ b.length) && (a.zip b).all fun p => p.1 == p.2) = true ↔ b <+: a := by
  induction a generalizing b with
  | nil => cases b <;> simp
  | cons x xs ih =>
    cases b with
    | nil => simp
    | cons y ys =>
      rw [List.cons_prefix_cons, ← ih ys]
      simp only [List.length_cons, List.zip_cons_cons, List.all_cons, Bool.and_eq_true,
        decide_eq_true_eq, beq_iff_eq]
      constructor
      · rintro ⟨h1, rfl, h2⟩; exact ⟨rfl, by omega, h2⟩
      · rintro ⟨rfl, h1, h2⟩; exact ⟨by omega, rfl, h2⟩

/-- **C52 (field starts with the struct's name).** The words of the field name begin with the words of the
struct's name. -/
theorem fieldStart_iff (k : Casing) (struct field : Str) :
    fieldStart k struct field = true ↔
      Text.split ['_'] (toSnakeCase k struct) <+: Text.split ['_'] field := by
  unfold fieldStart
  exact zip_all_prefix _ _

/-- **C52 (field ends with the struct's name).** And there is at least one more word before. -/
theorem fieldEnd_iff (k : Casing) (struct field : Str) :
    fieldEnd k struct field = true ↔
      Text.split ['_'] (toSnakeCase k struct) <:+ Text.split ['_'] field ∧
      Text.split ['_'] (toSnakeCase k struct) ≠ Text.split ['_'] field := by
  unfold fieldEnd
  generalize Text.split ['_'] (toSnakeCase k struct) = b
  generalize Text.split ['_'] field = a
  have h := zip_all_prefix a.reverse b.reverse
  simp only [List.length_reverse, Bool.and_eq_true, decide_eq_true_eq, List.reverse_prefix] at h ⊢
  constructor
  · rintro ⟨h1, h2⟩
    refine ⟨h.mp ⟨by omega, h2⟩, ?_⟩
    rintro rfl; omega
  · rintro ⟨h1, h2⟩
    have h3 := h.mpr h1
    refine ⟨?_, h3.2⟩
    have := h3.1
    by_cases he : a.length = b.length
    · exact absurd (h1.eq_of_length he.symm) h2
    · omega

example : fieldStart ascii (str!"FooBar") (str!"foo_bar_x") = true ∧
    fieldEnd ascii (str!"FooBar") (str!"x_foo_bar") = true ∧
    fieldEnd ascii (str!"FooBar") (str!"foo_bar") = false := by decide

end Verif.StrUtils
