import Verif.Dev.GenerateModel
import Verif.Dev.CargoProps

/-!
# C50: sorting the declarations of a file loses nothing
-/

namespace Verif.Dev

/-! ## Specification -/

/-- A declaration in a file, with its text. -/
inductive Decl
  | lint (name text : Str)
  | pass (p : LintPass) (text : Str)

/-- The text of a declaration. -/
def Decl.text : Decl → Str
  | .lint _ t => t
  | .pass _ t => t

/-- The text of declarations, each with what follows it. -/
def sourceText (items : List (Decl × Str)) : Str := (items.map fun i => i.1.text ++ i.2).flatten

/-- The lints, with the range of their text, if the first declaration is at `pos`. -/
def lintsAt : Nat → List (Decl × Str) → List (Str × Nat × Nat)
  | _, [] => []
  | pos, (.lint n t, g) :: is => (n, pos, pos + t.length) :: lintsAt (pos + t.length + g.length) is
  | pos, (.pass _ t, g) :: is => lintsAt (pos + t.length + g.length) is

/-- The passes, with the range of their text, if the first declaration is at `pos`. -/
def passesAt : Nat → List (Decl × Str) → List LintPass
  | _, [] => []
  | pos, (.lint _ t, g) :: is => passesAt (pos + t.length + g.length) is
  | pos, (.pass p t, g) :: is =>
    { p with start := pos, stop := pos + t.length } :: passesAt (pos + t.length + g.length) is

/-- The names and texts of the lints. -/
def lintTexts : List (Decl × Str) → List (Str × Str)
  | [] => []
  | (.lint n t, _) :: is => (n, t) :: lintTexts is
  | (.pass _ _, _) :: is => lintTexts is

/-- What is kept of the text between declarations: all of it, but for blank text or up to two newlines at its start. -/
def Kept (gap kept : Str) : Prop :=
  ((∀ c ∈ gap, isWs c = true) ∧ kept = []) ∨ gap = kept ∨ gap = '\n' :: kept ∨ gap = '\n' :: '\n' :: kept

/-- `Kept` for each of the texts. -/
def AllKept : List Str → List Str → Prop
  | [], [] => True
  | g :: gs, k :: ks => Kept g k ∧ AllKept gs ks
  | _, _ => False

/-! ## Proof -/

theorem slice_mid (a t b : Str) : slice (a ++ t ++ b) a.length (a.length + t.length) = some t := by
  rw [slice, getRange, if_pos (by simp)]
  simp

theorem slice_eq {s a t b : Str} (h : s = a ++ t ++ b) {i j : Nat} (hi : i = a.length) (hj : j = a.length + t.length) :
    slice s i j = some t := by
  subst h; subst hi; subst hj; exact slice_mid a t b

/-- The ranges in the order of the text. -/
def rangesAt : Nat → List (Decl × Str) → List (Nat × Nat)
  | _, [] => []
  | pos, (d, g) :: is => (pos, pos + d.text.length) :: rangesAt (pos + d.text.length + g.length) is

theorem rangesAt_perm : ∀ (items : List (Decl × Str)) (pos : Nat),
    ((lintsAt pos items).map (·.2) ++ (passesAt pos items).map fun p => (p.start, p.stop)).Perm (rangesAt pos items)
  | [], _ => .refl _
  | (.lint n t, g) :: is, pos => by
    simp only [lintsAt, passesAt, rangesAt, List.map_cons, List.cons_append, Decl.text]
    exact (rangesAt_perm is _).cons _
  | (.pass p t, g) :: is, pos => by
    simp only [lintsAt, passesAt, rangesAt, List.map_cons, Decl.text]
    exact List.perm_middle.trans ((rangesAt_perm is _).cons _)

theorem rangesAt_ge : ∀ (items : List (Decl × Str)) (pos : Nat), (∀ i ∈ items, i.1.text ≠ []) →
    ∀ r ∈ rangesAt pos items, pos ≤ r.1
  | [], _, _, r, hr => by simp [rangesAt] at hr
  | (d, g) :: is, pos, h, r, hr => by
    rcases List.mem_cons.1 hr with rfl | hr
    · exact Nat.le_refl _
    · have := rangesAt_ge is _ (fun i hi => h i (List.mem_cons_of_mem _ hi)) r hr
      omega

theorem rangesAt_sorted : ∀ (items : List (Decl × Str)) (pos : Nat), (∀ i ∈ items, i.1.text ≠ []) →
    (rangesAt pos items).Pairwise fun a b => a.1 < b.1
  | [], _, _ => .nil
  | (d, g) :: is, pos, h => by
    rw [rangesAt, List.pairwise_cons]
    have h' : ∀ i ∈ is, i.1.text ≠ [] := fun i hi => h i (List.mem_cons_of_mem _ hi)
    refine ⟨fun r hr => ?_, rangesAt_sorted is _ h'⟩
    have h1 := rangesAt_ge is _ h' r hr
    have h2 := List.length_pos_iff.2 (h (d, g) (List.mem_cons_self ..))
    simp only at h2 ⊢
    omega

theorem sort_ranges {items : List (Decl × Str)} {pos : Nat} (h : ∀ i ∈ items, i.1.text ≠ []) {l : List (Nat × Nat)}
    (hp : l.Perm (rangesAt pos items)) : sortBy (fun a b => decide (a.1 ≤ b.1)) l = rangesAt pos items := by
  have hs := rangesAt_sorted items pos h
  refine sorted_perm_unique (R := fun a b => decide (a.1 ≤ b.1) = true) ((sortBy_perm _ _).trans hp)
    (sortBy_sorted (fun a b => by simp; omega) (fun a b c => by simp; omega) _)
    (hs.imp fun h => by simp; omega) ?_
  intro a ha b hb h1 h2
  have hm : ∀ x, x ∈ sortBy (fun a b : Nat × Nat => decide (a.1 ≤ b.1)) l → x ∈ rangesAt pos items :=
    fun x hx => ((sortBy_perm _ _).trans hp).mem_iff.1 hx
  have he : a.1 = b.1 := by simp at h1 h2; omega
  have ha := hm a ha
  have hb := hm b hb
  revert ha hb
  generalize rangesAt pos items = L at hs
  intro ha hb
  induction hs with
  | nil => simp at ha
  | @cons x xs hx _ ih =>
    rcases List.mem_cons.1 ha with ha' | ha' <;> rcases List.mem_cons.1 hb with hb' | hb'
    · rw [ha', hb']
    · have := hx b hb'; rw [← ha'] at this; omega
    · have := hx a ha'; rw [← hb'] at this; omega
    · exact ih ha' hb'

theorem lintsAt_texts : ∀ (items : List (Decl × Str)) (a b : Str),
    (lintsAt a.length items).map (fun x => (x.1, slice (a ++ sourceText items ++ b) x.2.1 x.2.2)) =
      (lintTexts items).map fun x => (x.1, some x.2)
  | [], _, _ => rfl
  | (d, g) :: is, a, b => by
    have ih := lintsAt_texts is (a ++ d.text ++ g) b
    have hs : a ++ sourceText ((d, g) :: is) ++ b = a ++ d.text ++ g ++ sourceText is ++ b := by simp [sourceText]
    have hl : a.length + d.text.length + g.length = (a ++ d.text ++ g).length := by simp; omega
    rw [hs]
    cases d with
    | lint n t =>
      simp only [lintsAt, lintTexts, List.map_cons, Decl.text] at hl ih ⊢
      rw [hl, ih, slice_eq (a := a) (t := t) (b := g ++ sourceText is ++ b) (by simp) rfl rfl]
    | pass p t =>
      simp only [lintsAt, lintTexts, Decl.text] at hl ih ⊢
      rw [hl, ih]

theorem declTexts_eq (src : Str) : ∀ (l : List (Str × Nat × Nat)) (L : List (Str × Str)),
    l.map (fun x => (x.1, slice src x.2.1 x.2.2)) = L.map (fun x => (x.1, some x.2)) →
    declTexts src (l.map (·.2)) = some ((L.map fun x => x.2 ++ str!"\n\n").flatten)
  | [], [], _ => rfl
  | [], _ :: _, h => by simp at h
  | _ :: _, [], h => by simp at h
  | x :: l, y :: L, h => by
    simp only [List.map_cons, List.cons.injEq, Prod.mk.injEq] at h
    simp only [List.map_cons, declTexts, List.flatten_cons]
    rw [h.1.2, declTexts_eq src l L h.2]

theorem keepGap_kept (before s : Str) : Kept s (keepGap before s) := by
  unfold keepGap
  split
  · next h =>
    left
    refine ⟨?_, rfl⟩
    obtain ⟨t, h1, h2⟩ := dropWhile_decomp isWs s
    rw [show s.dropWhile isWs = [] from h, List.append_nil] at h1
    rw [h1]
    exact h2
  · split
    · split
      · exact .inr (.inr (.inr rfl))
      · exact .inr (.inr (.inl rfl))
    · exact .inr (.inr (.inl rfl))
    · exact .inr (.inl rfl)

theorem keepTail_kept (s : Str) : Kept s (keepTail s) := by
  unfold keepTail
  split
  · exact .inr (.inr (.inr rfl))
  · exact .inr (.inr (.inl rfl))
  · exact .inr (.inl rfl)

theorem foldGaps_eq (pos : Nat) : ∀ (items : List (Decl × Str)) (a gap src : Str), src = a ++ gap ++ sourceText items →
    pos ≤ src.length →
    ∃ pieces last e, foldGaps src pos a.length (rangesAt (a.length + gap.length) items) = some (pieces.flatten, e) ∧
      slice src e src.length = some last ∧ AllKept (gap :: items.map (·.2)) (pieces ++ [keepTail last])
  | [], a, gap, src, hs, hp => by
    refine ⟨[], gap, a.length, rfl, ?_, keepTail_kept gap, trivial⟩
    exact slice_eq (b := []) (by rw [hs]; simp [sourceText]) rfl (by rw [hs]; simp [sourceText])
  | (d, g) :: is, a, gap, src, hs, hp => by
    obtain ⟨pieces, last, e, h1, h2, h3⟩ := foldGaps_eq pos is (a ++ gap ++ d.text) g src
      (by rw [hs]; simp [sourceText]) hp
    have hl : (a ++ gap ++ d.text).length = a.length + gap.length + d.text.length := by simp; omega
    rw [hl] at h1
    have hb : slice src 0 pos = some (src.take pos) := by
      rw [slice, getRange, if_pos ⟨Nat.zero_le _, hp⟩]; simp
    refine ⟨keepGap (src.take pos) gap :: pieces, last, e, ?_, h2, keepGap_kept _ _, h3⟩
    rw [rangesAt, foldGaps, hb, h1, slice_eq (a := a) (t := gap) (b := sourceText ((d, g) :: is)) hs rfl rfl]
    rfl

/-- **C50.** For every file with at least one declaration, sorting gives: the text before the first declaration; the
texts of all lint declarations, sorted by name; all passes, sorted by name, with their lints sorted; and what was between
and after the declarations, in the old order, without blank parts and newlines at the start of a part. It never panics. -/
theorem sort_file {pre src : Str} {items : List (Decl × Str)} {lints : List (Str × Nat × Nat)} {passes : List LintPass}
    (hsrc : src = pre ++ sourceText items) (hne : items ≠ []) (htext : ∀ i ∈ items, i.1.text ≠ [])
    (hl : lints.Perm (lintsAt pre.length items)) (hp : passes.Perm (passesAt pre.length items)) :
    ∃ (L : List (Str × Str)) (P : List LintPass) (kept : List Str), L.Perm (lintTexts items) ∧ L.Pairwise (fun a b => strLe a.1 b.1 = true) ∧
      P.Perm (passesAt pre.length items) ∧ P.Pairwise (fun a b => strLe a.name b.name = true) ∧
      AllKept (items.map (·.2)) kept ∧
      genSorted src lints passes = some (pre ++ (L.map fun x => x.2 ++ str!"\n\n").flatten ++
        (P.map fun p => genMac { p with lints := sortBy strLe p.lints } ++ str!"\n\n").flatten ++ kept.flatten) := by
  -- the sorted lints
  have hls := sortBy_perm (fun a b : Str × Nat × Nat => strLe a.1 b.1) lints
  generalize hL0 : sortBy (fun a b : Str × Nat × Nat => strLe a.1 b.1) lints = L0 at hls
  have hsorted : L0.Pairwise (fun a b => strLe a.1 b.1 = true) := by
    rw [← hL0]
    exact sortBy_key_sorted (fun x : Str × Nat × Nat => x.1) lints
  have hmap := lintsAt_texts items pre []
  rw [List.append_nil, ← hsrc] at hmap
  have hpm : (L0.map fun x => (x.1, slice src x.2.1 x.2.2)).Perm ((lintTexts items).map fun x => (x.1, some x.2)) := by
    rw [← hmap]
    exact (hls.trans hl).map _
  have hL : L0.map (fun x => (x.1, slice src x.2.1 x.2.2)) =
      (L0.map fun x => (x.1, (slice src x.2.1 x.2.2).getD [])).map fun x => (x.1, some x.2) := by
    rw [List.map_map]
    refine List.map_congr_left fun x hx => ?_
    have hm := hpm.mem_iff.1 (List.mem_map_of_mem (f := fun x : Str × Nat × Nat => (x.1, slice src x.2.1 x.2.2)) hx)
    obtain ⟨y, _, hy⟩ := List.mem_map.1 hm
    simp only [Prod.mk.injEq] at hy
    simp [← hy.2]
  have hLp : (L0.map fun x => (x.1, (slice src x.2.1 x.2.2).getD [])).Perm (lintTexts items) := by
    have h1 := hpm.map fun x : Str × Option Str => (x.1, x.2.getD [])
    rw [List.map_map, List.map_map] at h1
    simpa [Function.comp_def] using h1
  -- the ranges
  have hr := sort_ranges (pos := pre.length) htext
    (l := lints.map (·.2) ++ passes.map fun p => (p.start, p.stop))
    (((hl.map _).append (hp.map _)).trans (rangesAt_perm items _))
  obtain ⟨⟨d, g⟩, is, rfl⟩ := List.exists_cons_of_ne_nil hne
  have hsrc' : src = pre ++ d.text ++ g ++ sourceText is := by rw [hsrc]; simp [sourceText]
  obtain ⟨pieces, last, e, h1, h2, h3⟩ := foldGaps_eq (pre.length + d.text.length) is (pre ++ d.text) g src hsrc'
    (by rw [hsrc']; simp)
  have hlen : (pre ++ d.text).length = pre.length + d.text.length := by simp
  rw [hlen] at h1
  refine ⟨_, _, pieces ++ [keepTail last], hLp, ?_, (sortBy_perm (fun a b => strLe a.name b.name) passes).trans hp,
    sortBy_key_sorted LintPass.name passes, h3, ?_⟩
  · rw [List.pairwise_map]
    exact hsorted
  · have h0 : slice src 0 pre.length = some pre :=
      slice_eq (a := []) (b := d.text ++ g ++ sourceText is) (by rw [hsrc']; simp) rfl (by simp)
    rw [genSorted, hr, rangesAt, genRest, hL0, declTexts_eq src L0 _ hL, h1, h0]
    simp only
    rw [h2]
    simp

/-- The hypotheses are met: two lints in the wrong order, with a function between them, and a pass. -/
example : genSorted (str!"use x;\n\nL{b}\n\nfn f() {}\n\nL{a}\n\nimpl_lint_pass!(P=>[B, A]);\n\nfn g() {}\n")
    [(str!"b", 8, 12), (str!"a", 25, 29)]
    [{ docs := [], name := str!"P", lt := none, isImpl := true, start := 31, stop := 58, lints := [str!"B", str!"A"] }] =
    some (str!"use x;\n\nL{a}\n\nL{b}\n\nimpl_lint_pass!(P => [A, B]);\n\n\nfn f() {}\n\nfn g() {}\n") := by
  decide +kernel

/-- **C50.** A file with no declarations is left as it is. -/
theorem sort_file_none (src : Str) : genSorted src [] [] = some src := rfl

/-! ## The text of a pass -/

/-- The code of a text, without comments and white space. -/
def codeOf : Bool → Str → Str
  | _, [] => []
  | true, c :: r => if c = '\n' then codeOf false r else codeOf true r
  | false, '/' :: '/' :: r => codeOf true r
  | false, c :: r => if isWs c then codeOf false r else c :: codeOf false r

/-- The comments of a text, each up to the end of its line. -/
def commentsOf : Bool → Str → Str
  | _, [] => []
  | true, c :: r => c :: (if c = '\n' then commentsOf false r else commentsOf true r)
  | false, '/' :: '/' :: r => '/' :: '/' :: commentsOf true r
  | false, _ :: r => commentsOf false r

/-- A word of code: no white space, no slash. -/
def Word (w : Str) : Prop := ∀ c ∈ w, isWs c = false ∧ c ≠ '/'

/-- Every line of the documentation of a pass is blank or a comment. -/
def DocLines (docs : Str) : Prop := ∀ l ∈ Text.split ['\n'] docs, trimStart l = [] ∨ ∃ r, trimStart l = '/' :: '/' :: r

theorem codeOf_char {c : Char} (h : c ≠ '/') (r : Str) :
    codeOf false (c :: r) = if isWs c then codeOf false r else c :: codeOf false r := by
  rw [codeOf]
  intro r' h1 h2
  simp_all

theorem commentsOf_char {c : Char} (h : c ≠ '/') (r : Str) : commentsOf false (c :: r) = commentsOf false r := by
  rw [commentsOf]
  intro r' h1 h2
  simp_all

/-- Text without slashes. -/
theorem codeOf_plain : ∀ (w r : Str), '/' ∉ w → codeOf false (w ++ r) = w.filter (fun c => !isWs c) ++ codeOf false r
  | [], _, _ => rfl
  | c :: w, r, h => by
    simp only [List.mem_cons, not_or] at h
    rw [List.cons_append, codeOf_char (fun e => h.1 e.symm), codeOf_plain w r h.2, List.filter_cons]
    cases isWs c <;> simp

theorem commentsOf_plain : ∀ (w r : Str), '/' ∉ w → commentsOf false (w ++ r) = commentsOf false r
  | [], _, _ => rfl
  | c :: w, r, h => by
    simp only [List.mem_cons, not_or] at h
    rw [List.cons_append, commentsOf_char (fun e => h.1 e.symm), commentsOf_plain w r h.2]

theorem codeOf_comment : ∀ (w r : Str), '\n' ∉ w → codeOf true (w ++ '\n' :: r) = codeOf false r
  | [], _, _ => by simp [codeOf]
  | c :: w, r, h => by
    simp only [List.mem_cons, not_or] at h
    rw [List.cons_append, codeOf, if_neg (fun e => h.1 e.symm), codeOf_comment w r h.2]

theorem commentsOf_comment : ∀ (w r : Str), '\n' ∉ w → commentsOf true (w ++ '\n' :: r) = w ++ '\n' :: commentsOf false r
  | [], _, _ => by simp [commentsOf]
  | c :: w, r, h => by
    simp only [List.mem_cons, not_or] at h
    rw [List.cons_append, commentsOf, if_neg (fun e => h.1 e.symm), commentsOf_comment w r h.2]
    rfl

/-- Every text is its lines joined. -/
theorem joinLines_split (s : Str) : joinLines (Text.split ['\n'] s) = s ∧ Text.split ['\n'] s ≠ [] ∧
    ∀ l ∈ Text.split ['\n'] s, '\n' ∉ l := by
  by_cases h : '\n' ∈ s
  · obtain ⟨w, r, hs, hw⟩ := List.eq_append_cons_of_mem h
    have : r.length < s.length := by rw [hs]; simp; omega
    obtain ⟨h1, h2, h3⟩ := joinLines_split r
    rw [hs, Text.split_char _ _ _ hw]
    refine ⟨?_, by simp, ?_⟩
    · obtain ⟨x, xs, hx⟩ := List.exists_cons_of_ne_nil h2
      rw [hx] at h1 ⊢
      rw [joinLines, h1]
      simp
    · intro l hl
      rcases List.mem_cons.1 hl with rfl | hl
      · exact hw
      · exact h3 l hl
  · rw [Text.split_char_none _ _ h]
    exact ⟨rfl, by simp, by simpa using h⟩
termination_by s.length

theorem ws_no_slash {t : Str} (h : ∀ c ∈ t, isWs c = true) : '/' ∉ t := fun hm => by
  have := h _ hm
  simp [show isWs '/' = false by decide] at this

/-- The comments of the documentation are its lines. -/
theorem comments_joinLines : ∀ (ls : List Str), (∀ l ∈ ls, '\n' ∉ l) →
    (∀ l ∈ ls, trimStart l = [] ∨ ∃ r, trimStart l = '/' :: '/' :: r) → ∀ r,
    commentsOf false (joinLines ls ++ '\n' :: r) =
      (((ls.map trimStart).filter (· ≠ [])).map fun l => l ++ ['\n']).flatten ++ commentsOf false r
  | [], _, _, r => by simp [joinLines, commentsOf]
  | l :: ls, h1, h2, r => by
    have ih := comments_joinLines ls (fun l hl => h1 l (List.mem_cons_of_mem _ hl))
      (fun l hl => h2 l (List.mem_cons_of_mem _ hl)) r
    have hj : commentsOf false (joinLines (l :: ls) ++ '\n' :: r) =
        commentsOf false (l ++ '\n' :: (joinLines ls ++ '\n' :: r)) ∨ ls = [] := by
      cases ls with
      | nil => exact .inr rfl
      | cons a b => left; simp [joinLines]
    have key : ∀ r, commentsOf false (l ++ '\n' :: r) =
        ((([l].map trimStart).filter (· ≠ [])).map fun l => l ++ ['\n']).flatten ++ commentsOf false r := by
      intro r
      obtain ⟨t, ht, hw⟩ := dropWhile_decomp isWs l
      have hn := h1 l (List.mem_cons_self ..)
      rw [show l.dropWhile isWs = trimStart l from rfl] at ht
      rcases h2 l (List.mem_cons_self ..) with he | ⟨x, he⟩
      · simp only [List.map_cons, List.map_nil, he]
        rw [he, List.append_nil] at ht
        rw [ht, commentsOf_plain _ _ (ws_no_slash hw)]
        simp [commentsOf]
      · simp only [List.map_cons, List.map_nil, he]
        rw [he] at ht
        rw [ht] at hn ⊢
        simp only [List.mem_append, List.mem_cons, not_or] at hn
        rw [List.append_assoc, commentsOf_plain _ _ (ws_no_slash hw)]
        simp only [List.cons_append, commentsOf]
        rw [commentsOf_comment _ _ hn.2.2.2]
        simp
    rcases hj with hj | rfl
    · rw [hj, key, ih]
      simp only [List.map_cons, List.map_nil]
      rw [List.filter_cons, List.filter_cons]
      split <;> simp
    · exact key r

/-- The block of comments in a declaration. -/
theorem docBlock : ∀ (D : List Str) (r : Str), (∀ l ∈ D, '\n' ∉ l ∧ ∃ x, l = '/' :: '/' :: x) →
    codeOf false ((D.map fun l => str!"\n    " ++ l).flatten ++ '\n' :: r) = codeOf false r ∧
    commentsOf false ((D.map fun l => str!"\n    " ++ l).flatten ++ '\n' :: r) =
      (D.map fun l => l ++ ['\n']).flatten ++ commentsOf false r
  | [], r, _ => by
    constructor
    · rw [List.map_nil, List.flatten_nil, List.nil_append, codeOf_char (by decide)]
      rfl
    · rw [List.map_nil, List.flatten_nil, List.nil_append, commentsOf_char (by decide)]
      rfl
  | l :: D, r, h => by
    obtain ⟨ih1, ih2⟩ := docBlock D r fun l hl => h l (List.mem_cons_of_mem _ hl)
    obtain ⟨hn, x, rfl⟩ := h l (List.mem_cons_self ..)
    simp only [List.mem_cons, not_or] at hn
    obtain ⟨X, hX⟩ : ∃ X, (D.map fun l => str!"\n    " ++ l).flatten ++ '\n' :: r = '\n' :: X := by
      cases D <;> simp
    rw [hX] at ih1 ih2
    have e : ((('/' :: '/' :: x) :: D).map fun l => str!"\n    " ++ l).flatten ++ '\n' :: r =
        str!"\n    " ++ ('/' :: '/' :: (x ++ '\n' :: X)) := by
      rw [← hX]; simp
    rw [codeOf_char (by decide)] at ih1
    rw [commentsOf_char (by decide)] at ih2
    constructor
    · rw [e, codeOf_plain _ _ (by decide)]
      simp only [codeOf]
      rw [codeOf_comment _ _ hn.2.2, ← ih1]
      rfl
    · rw [e, commentsOf_plain _ _ (by decide)]
      simp only [commentsOf]
      rw [commentsOf_comment _ _ hn.2.2, ih2]
      simp

theorem word_filter {w : Str} (h : Word w) : w.filter (fun c => !isWs c) = w := by
  rw [List.filter_eq_self]
  intro c hc
  simp [(h c hc).1]

theorem word_slash {w : Str} (h : Word w) : '/' ∉ w := fun hm => (h _ hm).2 rfl

theorem writeList_words (items : List Str) (limit : Nat) (indent : Str) (h : ∀ i ∈ items, Word i)
    (hi : ∀ c ∈ indent, isWs c = true) :
    '/' ∉ (writeList items limit indent).1 ∧
    ∃ comma, (comma = [] ∨ (comma = [','] ∧ items ≠ [])) ∧
      (writeList items limit indent).1.filter (fun c => !isWs c) = joinWith [','] items ++ comma := by
  have hf : indent.filter (fun c => !isWs c) = [] := by
    rw [List.filter_eq_nil_iff]
    intro c hc
    simp [hi c hc]
  unfold writeList
  split
  · next hlim =>
    have hne : items ≠ [] := by rintro rfl; simp at hlim
    constructor
    · simp only [List.mem_flatten, List.mem_map, not_exists, not_and]
      rintro x ⟨i, hx, rfl⟩ hm
      simp only [List.mem_cons, List.mem_append] at hm
      rcases hm with hm | (hm | hm) | hm
      · revert hm; decide
      · exact ws_no_slash hi hm
      · exact word_slash (h i hx) hm
      · simp at hm
    · refine ⟨[','], .inr ⟨rfl, hne⟩, ?_⟩
      clear hlim
      induction items with
      | nil => exact absurd rfl hne
      | cons i is ih =>
        have hw := word_filter (h i (List.mem_cons_self ..))
        cases is with
        | nil => simp [hf, hw, joinWith, show isWs '\n' = true by decide, show isWs ',' = false by decide]
        | cons j js =>
          have ih' := ih (fun x hx => h x (List.mem_cons_of_mem _ hx)) (by simp)
          rw [List.map_cons, List.flatten_cons, List.filter_append, ih']
          simp [hf, hw, joinWith, show isWs '\n' = true by decide, show isWs ',' = false by decide]
  · next hlim =>
    clear hlim
    constructor
    · clear hf hi
      induction items with
      | nil => simp [joinWith]
      | cons i is ih =>
        have hw := word_slash (h i (List.mem_cons_self ..))
        cases is with
        | nil => simpa [joinWith] using hw
        | cons j js =>
          have ih' := ih (fun x hx => h x (List.mem_cons_of_mem _ hx))
          simp only [joinWith, List.mem_append, not_or]
          exact ⟨⟨hw, by decide⟩, ih'⟩
    · refine ⟨[], .inl rfl, ?_⟩
      clear hf hi
      induction items with
      | nil => simp [joinWith]
      | cons i is ih =>
        have hw := word_filter (h i (List.mem_cons_self ..))
        cases is with
        | nil => simpa [joinWith] using hw
        | cons j js =>
          have ih' := ih (fun x hx => h x (List.mem_cons_of_mem _ hx))
          rw [List.append_nil] at ih' ⊢
          have e : joinWith (str!", ") (i :: j :: js) = i ++ str!", " ++ joinWith (str!", ") (j :: js) := rfl
          simp only at ih' ⊢
          rw [e, List.filter_append, List.filter_append, ih', hw]
          rfl

/-- **C50.** The declaration of a pass that is written has the macro, name, lifetime and lints of the pass, in this
order, as its code, and the documentation as its comments. -/
theorem genMac_content (p : LintPass) (hd : DocLines p.docs) (hn : Word p.name) (hlt : ∀ l ∈ p.lt, Word l)
    (hl : ∀ l ∈ p.lints, Word l) :
    (∃ comma, (comma = [] ∨ (comma = [','] ∧ p.lints ≠ [])) ∧
      codeOf false (genMac p) = macName p.isImpl ++ str!"!(" ++ p.name ++
        ltText p.lt ++ str!"=>[" ++
        joinWith [','] p.lints ++ comma ++ str!"]);") ∧
    commentsOf false (genMac p) = commentsOf false (p.docs ++ ['\n']) := by
  have hmac : Word (macName p.isImpl ++ str!"!(") := by
    unfold macName
    intro c
    cases p.isImpl
    · revert c; decide
    · revert c; decide
  -- the part after the documentation
  obtain ⟨lt, hlte, hltw⟩ : ∃ lt, ltText p.lt = lt ∧ Word lt := by
    refine ⟨_, rfl, ?_⟩
    cases hx : p.lt with
    | none => intro c hc; simp [ltText] at hc
    | some x =>
      intro c hc
      simp only [ltText, List.mem_cons, List.mem_append, List.not_mem_nil, or_false] at hc
      rcases hc with rfl | hc | rfl
      · decide
      · exact hlt x (by rw [hx]; rfl) c hc
      · decide
  have tail : ∀ (limit : Nat) (indent e1 e2 : Str), (∀ c ∈ indent, isWs c = true) → (∀ c ∈ e1, isWs c = true) →
      '/' ∉ e2 → e2.filter (fun c => !isWs c) = str!"]);" →
      ∃ comma, (comma = [] ∨ (comma = [','] ∧ p.lints ≠ [])) ∧
        codeOf false (p.name ++ lt ++ str!" => [" ++ (writeList p.lints limit indent).1 ++ e1 ++ e2) =
          p.name ++ lt ++ str!"=>[" ++ joinWith [','] p.lints ++ comma ++ str!"]);" ∧
        commentsOf false (p.name ++ lt ++ str!" => [" ++ (writeList p.lints limit indent).1 ++ e1 ++ e2) = [] := by
    intro limit indent e1 e2 hi h1 h2 h3
    obtain ⟨hs, comma, hc, hw⟩ := writeList_words p.lints limit indent hl hi
    have hsl : '/' ∉ p.name ++ lt ++ str!" => [" ++ (writeList p.lints limit indent).1 ++ e1 ++ e2 := by
      simp only [List.mem_append, not_or]
      exact ⟨⟨⟨⟨⟨word_slash hn, word_slash hltw⟩, by decide⟩, hs⟩, ws_no_slash h1⟩, h2⟩
    have he1 : e1.filter (fun c => !isWs c) = [] := by
      rw [List.filter_eq_nil_iff]
      intro c hc
      simp [h1 c hc]
    refine ⟨comma, hc, ?_, ?_⟩
    · have := codeOf_plain _ [] hsl
      rw [List.append_nil] at this
      rw [this]
      simp only [List.filter_append, word_filter hn, word_filter hltw, hw, h3, he1, codeOf, List.append_nil,
        List.append_assoc]
      congr 2
    · have := commentsOf_plain _ [] hsl
      rw [List.append_nil] at this
      rw [this]
      rfl
  obtain ⟨hj, hjn, hjl⟩ := joinLines_split p.docs
  have hcom := comments_joinLines _ hjl hd []
  rw [hj] at hcom
  have hD : ∀ l ∈ commentLines p.docs, '\n' ∉ l ∧ ∃ x, l = '/' :: '/' :: x := by
    intro l hm
    unfold commentLines at hm
    rw [List.mem_filter, List.mem_map] at hm
    obtain ⟨⟨y, hy, rfl⟩, hne⟩ := hm
    refine ⟨fun hc => hjl y hy ((List.dropWhile_sublist isWs).subset hc), ?_⟩
    rcases hd y hy with h | h
    · simp [h] at hne
    · exact h
  rw [show (List.filter (fun x => decide (x ≠ [])) (List.map trimStart (Text.split ['\n'] p.docs))) =
    commentLines p.docs from rfl] at hcom
  rw [hlte, hcom]
  have hm1 := fun r => codeOf_plain _ r (word_slash hmac)
  have hm2 := fun r => commentsOf_plain _ r (word_slash hmac)
  rw [word_filter hmac] at hm1
  obtain ⟨limit, indent, e1, e2, h1, h2, h3, h4, hshape⟩ : ∃ (limit : Nat) (indent e1 e2 : Str),
      (∀ c ∈ indent, isWs c = true) ∧ (∀ c ∈ e1, isWs c = true) ∧ '/' ∉ e2 ∧
      e2.filter (fun c => !isWs c) = str!"]);" ∧
      genMac p = macName p.isImpl ++ str!"!(" ++
        ((if commentLines p.docs = [] then [] else
          ((commentLines p.docs).map fun l => str!"\n    " ++ l).flatten ++ '\n' :: str!"    ") ++
        (p.name ++ lt ++ str!" => [" ++ (writeList p.lints limit indent).1 ++ e1 ++ e2)) := by
    refine ⟨80 - (macHead p).2.length, if commentLines p.docs ≠ [] then str!"        " else str!"    ",
      if (writeList p.lints (80 - (macHead p).2.length) (if commentLines p.docs ≠ [] then str!"        " else str!"    ")).2
      then if commentLines p.docs ≠ [] then str!"\n    " else str!"\n" else [],
      if commentLines p.docs ≠ [] then str!"]\n);" else str!"]);", ?_, ?_, ?_, ?_, ?_⟩
    · split <;> decide
    · split <;> split <;> first | decide | (intro c hc; simp at hc)
    · split <;> decide
    · split <;> decide
    · by_cases hdoc : commentLines p.docs = []
      · simp [genMac, macHead, hdoc, hlte]
      · simp [genMac, macHead, hdoc, hlte]
  obtain ⟨comma, hc, t1, t2⟩ := tail limit indent e1 e2 h1 h2 h3 h4
  rw [hshape, hm1, hm2]
  generalize p.name ++ lt ++ str!" => [" ++ (writeList p.lints limit indent).1 ++ e1 ++ e2 = T at t1 t2
  by_cases hdoc : commentLines p.docs = []
  · simp only [hdoc, if_true, List.nil_append]
    refine ⟨⟨comma, hc, by rw [t1]; simp⟩, by rw [t2]; simp [commentsOf]⟩
  · simp only [hdoc, if_false]
    obtain ⟨b1, b2⟩ := docBlock (commentLines p.docs) (str!"    " ++ T) hD
    rw [codeOf_plain (str!"    ") _ (by decide)] at b1
    rw [commentsOf_plain (str!"    ") _ (by decide)] at b2
    refine ⟨⟨comma, hc, ?_⟩, ?_⟩
    · rw [List.append_assoc (List.flatten _), List.cons_append, b1, t1]
      simp [show isWs ' ' = true by decide]
    · rw [List.append_assoc (List.flatten _), List.cons_append, b2, t2]
      simp [commentsOf]

/-- A pass with documentation and a lifetime. -/
example : genMac
    { docs := str!"/// a\n    /// b\n    ", name := str!"P", lt := some (str!"'tcx"), isImpl := false, start := 0, stop := 0, lints := [str!"A", str!"m::B"] } =
    str!"declare_lint_pass!(\n    /// a\n    /// b\n    P<'tcx> => [A, m::B]\n);" := by decide +kernel

example : DocLines (str!"/// a\n    /// b\n    ") := by
  unfold DocLines
  rw [show Text.split ['\n'] (str!"/// a\n    /// b\n    ") = [str!"/// a", str!"    /// b", str!"    "] by decide +kernel]
  intro l hl
  simp only [List.mem_cons, List.not_mem_nil, or_false] at hl
  rcases hl with rfl | rfl | rfl
  · exact .inr ⟨str!"/ a", by decide⟩
  · exact .inr ⟨str!"/ b", by decide⟩
  · exact .inl (by decide)

/-! ## Violation -/

/-- An attribute of a declaration is text between declarations: it stays behind and becomes an attribute of the next
item. Here `#[cfg(a)]` of the lint `b` ends up on the function `f`. -/
theorem sort_file_attr_violation :
    genSorted (str!"L{a}\n\n#[cfg(a)]\nL{b}\n\nfn f() {}\n") [(str!"a", 0, 4), (str!"b", 16, 20)] [] =
      some (str!"L{a}\n\nL{b}\n\n\n#[cfg(a)]\nfn f() {}\n") := by decide +kernel

end Verif.Dev
