import Verif.Server.Global
import Verif.Server.Spec

/-! The texts: searching, and the links. -/

namespace Verif.Server

open Model

/-- `contains` says whether the text is inside. -/
theorem contains_iff (n s : Text) : contains n s = true ↔ n <:+: s := by
  induction s with
  | nil => simp [contains]
  | cons c cs ih =>
    simp only [contains, Bool.or_eq_true, List.isPrefixOf_iff_prefix, ih, List.infix_cons_iff]

/-- `afterFirst` finds nothing exactly if the text is not inside. -/
theorem afterFirst_none {n s : Text} (h : afterFirst n s = none) : ¬ n <:+: s := by
  induction s with
  | nil =>
    simp only [afterFirst] at h
    split at h
    · cases h
    · rename_i q
      simpa using q
  | cons c cs ih =>
    simp only [afterFirst] at h
    split at h
    · cases h
    · rename_i q
      rw [List.infix_cons_iff]
      rintro (hp | hi)
      · exact q (List.isPrefixOf_iff_prefix.2 hp)
      · exact ih h hi

/-- `afterFirst` gives what stands behind the first occurrence. -/
theorem afterFirst_some {n s f : Text} (h : afterFirst n s = some f) :
    ∃ d, s = d ++ n ++ f ∧ ∀ a b, s = a ++ n ++ b → d.length ≤ a.length := by
  induction s with
  | nil =>
    simp only [afterFirst] at h
    split at h
    · cases h
      rename_i q
      simp at q
      subst q
      exact ⟨[], rfl, fun _ _ _ => Nat.zero_le _⟩
    · cases h
  | cons c cs ih =>
    simp only [afterFirst] at h
    split at h
    · rename_i q
      cases h
      obtain ⟨r, hr⟩ := List.isPrefixOf_iff_prefix.1 q
      refine ⟨[], ?_, fun _ _ _ => Nat.zero_le _⟩
      rw [← hr]
      simp
    · rename_i q
      obtain ⟨d, hd, hm⟩ := ih h
      refine ⟨c :: d, by simp [hd], ?_⟩
      intro a b hab
      cases a with
      | nil =>
        exfalso
        apply q
        rw [List.isPrefixOf_iff_prefix]
        exact ⟨b, by simpa using hab.symm⟩
      | cons x xs =>
        simp only [List.cons_append, List.cons.injEq] at hab
        have := hm xs b hab.2
        simp only [List.length_cons]
        omega

/-- A text without the first character of the pattern is kept. -/
theorem replaceGo_skip {x : Char} {p new a : Text} (h : x ∉ a) (n : Nat) (r : Text) :
    replaceGo (x :: p) new (a.length + n) (a ++ r) = a ++ replaceGo (x :: p) new n r := by
  induction a with
  | nil => simp
  | cons c cs ih =>
    simp only [List.mem_cons, not_or] at h
    have e : (c :: cs).length + n = (cs.length + n) + 1 := by simp only [List.length_cons]; omega
    have hp : (x :: p).isPrefixOf (c :: (cs ++ r)) = false := by
      simp [List.isPrefixOf, h.1]
    rw [e, List.cons_append, replaceGo, hp]
    simp [ih h.2]

/-- An occurrence of the pattern is replaced. -/
theorem replaceGo_hit {p new : Text} (hp : p ≠ []) (n : Nat) (r : Text) :
    replaceGo p new (n + 1) (p ++ r) = new ++ replaceGo p new n r := by
  cases p with
  | nil => exact absurd rfl hp
  | cons x p =>
    have h : (x :: p).isPrefixOf (x :: (p ++ r)) = true := by
      rw [List.isPrefixOf_iff_prefix]
      exact ⟨r, by simp⟩
    rw [List.cons_append, replaceGo, h]
    simp

/-- The holes of the link are filled. -/
theorem filled {a f l : Text} (ha : '{' ∉ a) (hf : '{' ∉ f) :
    replace (replace (a ++ "{file}#{line}".toList) "{file}".toList f) "{line}".toList l =
      a ++ f ++ "#".toList ++ l := by
  have e1 : replace (a ++ "{file}#{line}".toList) "{file}".toList f = a ++ f ++ "#{line}".toList := by
    have : (a ++ "{file}#{line}".toList).length = a.length + 13 := by
      rw [List.length_append]; rfl
    rw [replace, this]
    have h := replaceGo_skip (p := "file}".toList) (new := f) ha 13 "{file}#{line}".toList
    have hx : ('{' :: "file}".toList : Text) = "{file}".toList := rfl
    rw [hx] at h
    rw [h]
    have h2 := replaceGo_hit (p := "{file}".toList) (new := f) (by decide) 12 "#{line}".toList
    have hy : ("{file}".toList ++ "#{line}".toList : Text) = "{file}#{line}".toList := rfl
    rw [hy] at h2
    rw [h2]
    have h3 : replaceGo "{file}".toList f 12 "#{line}".toList = "#{line}".toList := by
      simp [replaceGo, List.isPrefixOf]
    rw [h3]
    simp
  rw [e1]
  have hn : '{' ∉ a ++ f ++ "#".toList := by
    simp [ha, hf]
  have hlen : (a ++ f ++ "#{line}".toList).length = (a ++ f ++ "#".toList).length + 6 := by
    simp
    omega
  have hsp : a ++ f ++ "#{line}".toList = (a ++ f ++ "#".toList) ++ "{line}".toList := by
    simp
  rw [replace, hlen, hsp]
  have h := replaceGo_skip (p := "line}".toList) (new := l) hn 6 "{line}".toList
  have hx : ('{' :: "line}".toList : Text) = "{line}".toList := rfl
  rw [hx] at h
  rw [h]
  have h2 := replaceGo_hit (p := "{line}".toList) (new := l) (by decide) 5 []
  rw [List.append_nil] at h2
  rw [h2]
  simp [replaceGo]

/-- Which diagnostics become warnings. -/
theorem wanted_iff (d : Diag) : Spec.Wanted d ↔ ∃ name, d.code = some name ∧
    (!(contains "clippy".toList name || contains "clippy".toList d.message)
        || contains "could not read cargo metadata".toList d.message) = false := by
  unfold Spec.Wanted
  constructor
  · rintro ⟨name, h1, h2, h3⟩
    refine ⟨name, h1, ?_⟩
    simp only [← contains_iff] at h2 h3
    simp only [Bool.not_eq_true] at h3
    rw [h3]
    rcases h2 with h2 | h2 <;> rw [h2]
    · rfl
    · rw [Bool.or_true]; rfl
  · rintro ⟨name, h1, h2⟩
    refine ⟨name, h1, ?_⟩
    simp only [Bool.or_eq_false_iff, Bool.not_eq_false', Bool.or_eq_true] at h2
    simp only [← contains_iff]
    exact ⟨h2.1, by rw [h2.2]; exact Bool.false_ne_true⟩

/-- The span that is picked. -/
theorem pickSpan_place {d : Diag} {s : Span} (h : pickSpan d.spans = some s) : Spec.Place d s := by
  simp only [pickSpan] at h
  cases hf : d.spans.find? (·.primary) with
  | some x =>
    rw [hf] at h
    simp only [Option.some_or, Option.some.injEq] at h
    subst h
    left
    rw [List.find?_eq_some_iff_append] at hf
    obtain ⟨hp, a, b, e, hn⟩ := hf
    refine ⟨a, b, e, hp, fun y hy => ?_⟩
    simpa using hn y hy
  | none =>
    rw [hf] at h
    right
    constructor
    · intro x hx
      have := List.find?_eq_none.1 hf x hx
      simpa using this
    · cases hs : d.spans with
      | nil => simp [hs] at h
      | cons y ys =>
        simp [hs] at h
        exact ⟨ys, by rw [h]⟩

/-- The three outcomes for a diagnostic. -/
theorem item_diag (i : Info) (d : Diag) :
    (¬ Spec.Wanted d ∧ item i (.diag d) = .skip) ∨
    (Spec.Wanted d ∧ ¬ Spec.Shown d ∧ item i (.diag d) = .panic) ∨
    (Spec.Wanted d ∧ ∃ name s, d.code = some name ∧ pickSpan d.spans = some s ∧
      item i (.diag d) = .warn ⟨name, i.package, d, url (baseUrl i) s⟩) := by
  rw [wanted_iff]
  simp only [item, newWarning]
  cases hc : d.code with
  | none => left; simp
  | some name =>
    simp only [Option.some.injEq, exists_eq_left']
    by_cases hq : (!(contains "clippy".toList name || contains "clippy".toList d.message)
        || contains "could not read cargo metadata".toList d.message) = true
    · left
      rw [if_pos hq]
      exact ⟨by simp only [hq]; simp, rfl⟩
    · right
      rw [if_neg hq]
      simp only [Bool.not_eq_true] at hq
      simp only [hq, true_and]
      cases hr : d.rendered with
      | none => left; exact ⟨fun h => h.1 hr, rfl⟩
      | some r =>
        cases hs : pickSpan d.spans with
        | none =>
          left
          refine ⟨fun h => ?_, rfl⟩
          simp only [pickSpan, Option.or_eq_none_iff, List.head?_eq_none_iff] at hs
          exact h.2 hs.2
        | some s => right; exact ⟨_, s, rfl, rfl, rfl⟩

/-- What a thread sends is what Clippy has to say, if all of it can be shown. -/
theorem good_warns (i : Info) {ls : List Line}
    (h : ∀ d, Line.diag d ∈ ls → Spec.Wanted d → Spec.Shown d) :
    Spec.Warns i ls (good (ls.map (item i))) := by
  induction ls with
  | nil => exact .nil
  | cons l ls ih =>
    have ih := ih fun d hd => h d (List.mem_cons_of_mem _ hd)
    cases l with
    | other => exact .other ih
    | diag d =>
      rcases item_diag i d with ⟨h1, h2⟩ | ⟨h1, h2, h3⟩ | ⟨h1, n, s, h2, h3, h4⟩
      · simp only [List.map_cons, h2, good]
        exact .skip h1 ih
      · exact absurd (h d (by simp) h1) h2
      · simp only [List.map_cons, h4, good]
        exact .take h1 ⟨h2, rfl, rfl⟩ ih

end Verif.Server
