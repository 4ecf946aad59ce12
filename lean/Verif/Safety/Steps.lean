import Verif.Safety.Facts

/-!
# Steps: the three searches
-/

namespace Verif.Safety

open Verif.DocWords (bytes splitBytes bytes_append splitBytes_bytes splitBytes_some size_pos prefix_unique)

/-! ## Line comments -/

theorem odd_nil {k : Cls} {b : Bool} : Odd k [] b ↔ b = false := by
  constructor
  · intro h; cases h; rfl
  · rintro rfl; exact .nil

theorem odd_cons {k : Cls} (hk : Sane k) {l : Line} {r : List Line} {b : Bool} : Odd k (l :: r) b ↔ Odd k r (if isFence k l.text then !b else b) := by
  by_cases hf : isFence k l.text = true
  · rw [if_pos hf]
    have hf' := (fence_iff hk _).1 hf
    constructor
    · intro h
      cases h with
      | fence _ h => simpa using h
      | other h _ => exact absurd hf' h
    · intro h
      have := Odd.fence hf' h
      simpa using this
  · rw [if_neg hf]
    have hf' : ¬ Fence k l.text := fun h => hf ((fence_iff hk _).2 h)
    constructor
    · intro h
      cases h with
      | fence h _ => exact absurd h hf'
      | other _ h => exact h
    · intro h; exact .other hf' h

theorem bool_iff {a : Bool} {p : Prop} {b : Bool} (h : b = true ↔ p) : (a = true ↔ p) ↔ a = b := by
  rw [← h]
  cases a <;> cases b <;> simp

theorem slash_iff {k : Cls} (hk : Sane k) (p : Nat) (doc : Bool) : ∀ (near : List Line) (code : Bool),
    slashLoop k code (near.map Line.pos) = .yes p doc ↔ ∃ run rest l pre, near = run ++ l :: rest ∧ (∀ m ∈ run, Slash m.text) ∧ Slash l.text ∧
      Odd k (run ++ [l]) code ∧ FirstSafety l.text pre ∧ (∀ x m y, run = x ++ m :: y → Odd k (x ++ [m]) code → ¬ ∃ q, FirstSafety m.text q) ∧
      p = size (l.before ++ pre) ∧ (doc = true ↔ ['/', '/', '/'] <+: l.text)
  | [], code => by
    constructor
    · intro h; cases h
    · rintro ⟨run, rest, l, pre, h, _⟩
      cases run <;> cases h
  | n :: near, code => by
    have size_app : ∀ a b, size (a ++ b) = size a + size b := by intro a b; simp [size]
    have ih := slash_iff hk p doc near (if isFence k n.text then !code else code)
    simp only [List.map_cons, Line.pos, slashLoop]
    by_cases hs : ['/', '/'].isPrefixOf n.text = true
    · rw [if_pos hs]
      have hs' : Slash n.text := List.isPrefixOf_iff_prefix.1 hs
      have hodd : Odd k [n] code ↔ (if isFence k n.text then !code else code) = false := by rw [odd_cons hk, odd_nil]
      generalize hc : (if isFence k n.text = true then !code else code) = code' at *
      cases hi : inLine code' n.text with
      | some q =>
        simp only
        unfold inLine at hi
        cases hcc : code' with
        | true => rw [hcc] at hi; cases hi
        | false =>
          rw [hcc] at hi
          obtain ⟨pre, h1, h2⟩ := (findSafety_iff _ _).1 hi
          have hd := bool_iff (a := doc) (List.isPrefixOf_iff_prefix (l₁ := ['/', '/', '/']) (l₂ := n.text))
          constructor
          · intro h
            simp only [Res.yes.injEq] at h
            refine ⟨[], near, n, pre, rfl, (fun m hm => by cases hm), hs', hodd.2 hcc, h1, (fun x m y hx => by cases x <;> cases hx), ?_, hd.2 h.2.symm⟩
            rw [← h.1, h2, size_app]
          · rintro ⟨run, rest, l, pre', e1, e2, e3, e4, e5, e6, e7, e8⟩
            cases run with
            | nil =>
              simp only [List.nil_append, List.cons.injEq] at e1
              obtain ⟨rfl, rfl⟩ := e1
              have := (findSafety_iff _ _).2 ⟨pre', e5, rfl⟩
              have hi' : findSafety n.text = some q := hi
              rw [hi'] at this
              cases this
              rw [hd.1 e8, e7, size_app]
            | cons a run =>
              simp only [List.cons_append, List.cons.injEq] at e1
              obtain ⟨rfl, rfl⟩ := e1
              exact absurd ⟨pre, h1⟩ (e6 [] n run rfl (hodd.2 hcc))
      | none =>
        simp only
        rw [ih]
        have hnone : Odd k [n] code → ¬ ∃ q, FirstSafety n.text q := by
          intro ho
          have := hodd.1 ho
          rw [this] at hi
          exact (findSafety_none _).1 hi
        constructor
        · rintro ⟨run, rest, l, pre, rfl, e2, e3, e4, e5, e6, e7, e8⟩
          refine ⟨n :: run, rest, l, pre, rfl, ?_, e3, ?_, e5, ?_, e7, e8⟩
          · intro m hm
            rcases List.mem_cons.1 hm with rfl | hm
            · exact hs'
            · exact e2 m hm
          · rw [List.cons_append, odd_cons hk, hc]; exact e4
          · intro x m y hx ho
            cases x with
            | nil =>
              simp only [List.nil_append, List.cons.injEq] at hx
              obtain ⟨rfl, rfl⟩ := hx
              exact hnone ho
            | cons a x =>
              simp only [List.cons_append, List.cons.injEq] at hx
              obtain ⟨rfl, hx⟩ := hx
              rw [List.cons_append, odd_cons hk, hc] at ho
              exact e6 x m y hx ho
        · rintro ⟨run, rest, l, pre, e1, e2, e3, e4, e5, e6, e7, e8⟩
          cases run with
          | nil =>
            simp only [List.nil_append, List.cons.injEq] at e1
            obtain ⟨rfl, rfl⟩ := e1
            exact absurd ⟨pre, e5⟩ (hnone e4)
          | cons a run =>
            simp only [List.cons_append, List.cons.injEq] at e1
            obtain ⟨rfl, rfl⟩ := e1
            refine ⟨run, rest, l, pre, rfl, fun m hm => e2 m (List.mem_cons_of_mem _ hm), e3, ?_, e5, ?_, e7, e8⟩
            · rw [List.cons_append, odd_cons hk, hc] at e4; exact e4
            · intro x m y hx ho
              refine e6 (n :: x) m y (by rw [hx]; rfl) ?_
              rw [List.cons_append, odd_cons hk, hc]; exact ho
    · rw [if_neg hs]
      constructor
      · intro h; cases h
      · rintro ⟨run, rest, l, pre, e1, e2, e3, _⟩
        exfalso
        apply hs
        rw [List.isPrefixOf_iff_prefix]
        cases run with
        | nil =>
          simp only [List.nil_append, List.cons.injEq] at e1
          rw [e1.1]; exact e3
        | cons a run =>
          simp only [List.cons_append, List.cons.injEq] at e1
          rw [e1.1]; exact e2 a (by simp)

/-! ## Comments after code -/

theorem prefix_length {p q a b : Word} (h : p ++ a = q ++ b) (hb : bytes p ≤ bytes q) : p.length ≤ q.length := by
  rcases List.append_eq_append_iff.1 h with ⟨c, h1, _⟩ | ⟨c, h1, _⟩
  · rw [h1]; simp
  · rw [h1, bytes_append] at hb
    cases c with
    | nil => rw [h1]; simp
    | cons d c => simp only [bytes] at hb; have := size_pos d; omega

/-- `pre` is before the first marker. -/
def FirstMark (t pre mk post : Word) : Prop :=
  t = pre ++ mk ++ post ∧ (mk = ['/', '/'] ∨ mk = ['/', '*']) ∧
    ∀ pre' post', t = pre' ++ ['/', '/'] ++ post' ∨ t = pre' ++ ['/', '*'] ++ post' → pre.length ≤ pre'.length

theorem FirstMark.unique {t a b c a' b' c' : Word} (h : FirstMark t a b c) (h' : FirstMark t a' b' c') : a = a' ∧ b = b' ∧ c = c' := by
  have key : ∀ {a b c a' b' c'}, FirstMark t a b c → FirstMark t a' b' c' → a.length ≤ a'.length := by
    intro a b c a' b' c' h h'
    refine h.2.2 a' c' ?_
    rcases h'.2.1 with e | e
    · left; rw [← e]; exact h'.1
    · right; rw [← e]; exact h'.1
  have hl : a.length = a'.length := Nat.le_antisymm (key h h') (key h' h)
  have e := h.1.symm.trans h'.1
  rw [List.append_assoc, List.append_assoc] at e
  obtain ⟨e1, e2⟩ := List.append_inj e hl
  have hb : b.length = b'.length := by
    rcases h.2.1 with e | e <;> rcases h'.2.1 with e' | e' <;> rw [e, e'] <;> rfl
  obtain ⟨e3, e4⟩ := List.append_inj e2 hb
  exact ⟨e1, e3, e4⟩

theorem minFind_none {t : Word} (h : minFind t = none) : ∀ pre post, ¬ (t = pre ++ ['/', '/'] ++ post ∨ t = pre ++ ['/', '*'] ++ post) := by
  unfold minFind at h
  cases h1 : find ['/', '/'] t with
  | some a => rw [h1] at h; cases h2 : find ['/', '*'] t <;> rw [h2] at h <;> cases h
  | none =>
    rw [h1] at h
    simp only at h
    rintro pre post (e | e)
    · exact find_none (by decide) t h1 _ _ e
    · exact find_none (by decide) t h _ _ e

theorem minFind_some {t : Word} {n : Nat} (h : minFind t = some n) : ∃ pre mk post, FirstMark t pre mk post ∧ n = bytes pre := by
  have one : ∀ x y : Word, x ≠ [] → y ≠ [] → (x = ['/', '/'] ∧ y = ['/', '*'] ∨ x = ['/', '*'] ∧ y = ['/', '/']) → ∀ a, find x t = some a → (∀ b, find y t = some b → a ≤ b) →
      ∃ pre mk post, FirstMark t pre mk post ∧ a = bytes pre := by
    intro x y hx hy hxy a ha hb
    obtain ⟨pre, ⟨⟨post, h1⟩, h2⟩, h3⟩ := find_some hx t a ha
    have hmin : ∀ pre' post', t = pre' ++ y ++ post' → pre.length ≤ pre'.length := by
      intro pre' post' e
      cases hf : find y t with
      | none => exact absurd e (find_none hy t hf _ _)
      | some b =>
        obtain ⟨p2, ⟨⟨q2, g1⟩, g2⟩, g3⟩ := find_some hy t b hf
        have hab := hb b hf
        rw [h3, g3] at hab
        have e3 : pre ++ (x ++ post) = p2 ++ (y ++ q2) := by rw [← List.append_assoc, ← List.append_assoc, ← h1, ← g1]
        have := prefix_length e3 hab
        have := g2 pre' post' e
        omega
    refine ⟨pre, x, post, ⟨h1, ?_, ?_⟩, h3⟩
    · rcases hxy with h | h
      · exact Or.inl h.1
      · exact Or.inr h.1
    · intro pre' post' e
      rcases hxy with ⟨rfl, rfl⟩ | ⟨rfl, rfl⟩
      · rcases e with e | e
        · exact h2 _ _ e
        · exact hmin _ _ e
      · rcases e with e | e
        · exact hmin _ _ e
        · exact h2 _ _ e
  unfold minFind at h
  cases h1 : find ['/', '/'] t with
  | none =>
    rw [h1] at h
    simp only at h
    exact one _ _ (by decide) (by decide) (Or.inr ⟨rfl, rfl⟩) n h (fun b hb => by rw [h1] at hb; cases hb)
  | some a =>
    rw [h1] at h
    cases h2 : find ['/', '*'] t with
    | none =>
      rw [h2] at h
      cases h
      exact one _ _ (by decide) (by decide) (Or.inl ⟨rfl, rfl⟩) n h1 (fun b hb => by rw [h2] at hb; cases hb)
    | some b =>
      rw [h2] at h
      simp only [Option.some.injEq] at h
      by_cases hab : a ≤ b
      · rw [Nat.min_eq_left hab] at h
        subst h
        exact one _ _ (by decide) (by decide) (Or.inl ⟨rfl, rfl⟩) a h1 (fun b' hb => by rw [h2] at hb; cases hb; exact hab)
      · rw [Nat.min_eq_right (by omega)] at h
        subst h
        exact one _ _ (by decide) (by decide) (Or.inr ⟨rfl, rfl⟩) b h2 (fun b' hb => by rw [h1] at hb; cases hb; omega)

theorem upper_S {k : Cls} (hk : Sane k) {c : Char} (h : c.toUpper = 'S') : k.sp c = false := by
  unfold Char.toUpper at h
  split at h
  · rename_i hc
    have hv := congrArg Char.val h
    simp only at hv
    have e : c.val = 's'.val := by
      apply UInt32.toNat_inj.1
      have hn := congrArg UInt32.toNat hv
      rw [UInt32.toNat_add] at hn
      have a2 := UInt32.le_iff_toNat_le.1 hc.2
      have a1 := UInt32.le_iff_toNat_le.1 hc.1
      have e1 : 'a'.val.toNat = 97 := by decide
      have e2 : 'z'.val.toNat = 122 := by decide
      have e3 : ('A'.val - 'a'.val).toNat = 4294967264 := by decide
      have e4 : 'S'.val.toNat = 83 := by decide
      have e5 : 's'.val.toNat = 115 := by decide
      rw [e3, e4] at hn; rw [e2] at a2; rw [e1] at a1; rw [e5]
      omega
    have : c = 's' := Char.ext e
    rw [this]; exact hk.s1
  · rw [h]; exact hk.s2

theorem starts_iff (t : Word) : startsSafety t = true ↔ ∃ b post, t = b ++ post ∧ Says b := by
  unfold startsSafety
  constructor
  · intro h
    cases hs : splitBytes 7 t with
    | none => rw [hs] at h; cases h
    | some p =>
      rw [hs] at h
      simp only [beq_iff_eq] at h
      exact ⟨p.1, p.2, (splitBytes_some t 7 p.1 p.2 hs).1, h⟩
  · rintro ⟨b, post, rfl, hb⟩
    have e : bytes b = 7 := by
      rw [← bytes_upper, show List.map Char.toUpper b = word from hb]; decide
    rw [← e, splitBytes_bytes]
    simp only [beq_iff_eq]
    exact hb

theorem trailing_cases {k : Cls} (hk : Sane k) (l : Line) :
    (∃ p, trailing k (size l.before) l.text = some (some (.yes p false)) ∧ ∀ q, Trailing k l q ↔ q = p) ∨
      (trailing k (size l.before) l.text = some none ∧ ¬ ∃ q, Trailing k l q) := by
  have size_app : ∀ a b, size (a ++ b) = size a + size b := by intro a b; simp [size]
  unfold trailing
  cases hm : minFind l.text with
  | none =>
    refine Or.inr ⟨rfl, ?_⟩
    rintro ⟨q, pre, mk, w, b, post, h1, h2, _⟩
    refine minFind_none hm pre (w ++ b ++ post) ?_
    rcases h2 with rfl | rfl
    · left; rw [h1]; simp
    · right; rw [h1]; simp
  | some n =>
    obtain ⟨pre, mk, after, hf, hn⟩ := minFind_some hm
    have hs : splitBytes (n + 2) l.text = some (pre ++ mk, after) := by
      have := splitBytes_bytes (pre ++ mk) after
      have e2 : bytes mk = 2 := by rcases hf.2.1 with e | e <;> rw [e] <;> decide
      rw [bytes_append, e2, ← hn, ← hf.1] at this
      exact this
    simp only [hs]
    obtain ⟨w, d1, d2, d3⟩ := drop_split k.sp after
    have hmk : size mk = 2 := by rcases hf.2.1 with e | e <;> rw [e] <;> decide
    have hpos : size l.before + (n + (2 + (bytes after - bytes (after.dropWhile k.sp)))) = size (l.before ++ pre ++ mk ++ w) := by
      have : bytes after = bytes w + bytes (after.dropWhile k.sp) := by rw [← bytes_append, ← d1]
      rw [size_app, size_app, size_app, hmk, hn, this, bytes_size pre, bytes_size w]
      omega
    have huniq : ∀ q, Trailing k l q → (∃ b post, after.dropWhile k.sp = b ++ post ∧ Says b) ∧ q = size (l.before ++ pre ++ mk ++ w) := by
      rintro q ⟨pre', mk', w', b, post, h1, h2, h3, h4, h5, h6⟩
      have hf' : FirstMark l.text pre' mk' (w' ++ b ++ post) := ⟨by rw [h1]; simp, h2, h3⟩
      obtain ⟨rfl, rfl, e⟩ := hf.unique hf'
      have hb : ∀ c u, b ++ post = c :: u → k.sp c = false := by
        intro c u hc
        cases b with
        | nil => simp [Says] at h5
        | cons b0 b =>
          simp only [List.cons_append, List.cons.injEq] at hc
          rw [← hc.1]
          apply upper_S hk
          have := h5
          unfold Says at this
          simp only [List.map_cons] at this
          exact (List.cons.inj this).1
      have hd : after.dropWhile k.sp = b ++ post := by
        rw [e, List.append_assoc, drop_of w' (b ++ post) h4 hb]
      refine ⟨⟨b, post, hd, h5⟩, ?_⟩
      have : w' = w := by
        have e9 := d1
        rw [hd, e, List.append_assoc] at e9
        exact List.append_cancel_right e9
      rw [h6, this]
    by_cases hst : startsSafety (after.dropWhile k.sp) = true
    · rw [if_pos hst]
      refine Or.inl ⟨_, rfl, fun q => ⟨fun h => by rw [hpos]; exact (huniq q h).2, ?_⟩⟩
      rintro rfl
      obtain ⟨b, post, g1, g2⟩ := (starts_iff _).1 hst
      refine ⟨pre, mk, w, b, post, ?_, hf.2.1, hf.2.2, d2, g2, hpos⟩
      have e := hf.1
      rw [d1, g1] at e
      rw [e]; simp
    · rw [if_neg hst]
      refine Or.inr ⟨rfl, ?_⟩
      rintro ⟨q, h⟩
      exact hst ((starts_iff _).2 (huniq q h).1)

/-! ## Block comments -/

theorem close_split (d : Nat) (w : Word) : w = (close d w).1 ++ (close d w).2 ∧ Closes d (close d w).1 (close d w).2 := by
  fun_induction close d w with
  | case1 d => exact ⟨rfl, .unclosed⟩
  | case2 d r ih =>
    refine ⟨?_, .opening ih.2⟩
    simp only [List.cons_append]
    rw [← ih.1]
  | case3 r => exact ⟨rfl, .last⟩
  | case4 d r ih =>
    refine ⟨?_, .close ih.2⟩
    simp only [List.cons_append]
    rw [← ih.1]
  | case5 d c r h1 h2 h3 ih =>
    have e : c :: ((close d r).1 ++ (close d r).2) = c :: r := by rw [← ih.1]
    refine ⟨e.symm, .other ?_ ?_ ih.2⟩
    · rw [e]
      rintro ⟨q, hq⟩
      simp only [List.cons_append, List.nil_append, List.cons.injEq] at hq
      cases d with
      | zero => exact h2 _ rfl hq.1.symm hq.2.symm
      | succ d => exact h3 _ _ rfl hq.1.symm hq.2.symm
    · rw [e]
      rintro ⟨q, hq⟩
      simp only [List.cons_append, List.nil_append, List.cons.injEq] at hq
      exact h1 _ hq.1.symm hq.2.symm

theorem close_unique {d : Nat} {a b a' b' : Word} (h : Closes d a b) (h' : Closes d a' b') (e : a ++ b = a' ++ b') : a = a' ∧ b = b' := by
  induction h generalizing a' b' with
  | last =>
    cases h' with
    | last => simp at e; exact ⟨rfl, e⟩
    | opening h => simp at e
    | other h1 h2 _ => exact (h1 ⟨_, e⟩).elim
    | unclosed => simp at e
  | close h ih =>
    cases h' with
    | close h' =>
      simp only [List.cons_append, List.cons.injEq, true_and] at e
      obtain ⟨rfl, rfl⟩ := ih h' e
      exact ⟨rfl, rfl⟩
    | opening h => simp at e
    | other h1 h2 _ => exact (h1 ⟨_, e⟩).elim
    | unclosed => simp at e
  | opening h ih =>
    cases h' with
    | last => simp at e
    | close h' => simp at e
    | opening h' =>
      simp only [List.cons_append, List.cons.injEq, true_and] at e
      obtain ⟨rfl, rfl⟩ := ih h' e
      exact ⟨rfl, rfl⟩
    | other h1 h2 _ => exact (h2 ⟨_, e⟩).elim
    | unclosed => simp at e
  | other h1 h2 h ih =>
    cases h' with
    | last => exact (h1 ⟨_, e.symm⟩).elim
    | close h' => exact (h1 ⟨_, e.symm⟩).elim
    | opening h' => exact (h2 ⟨_, e.symm⟩).elim
    | other _ _ h' =>
      simp only [List.cons_append, List.cons.injEq] at e
      obtain ⟨rfl, e⟩ := e
      obtain ⟨rfl, rfl⟩ := ih h' e
      exact ⟨rfl, rfl⟩
    | unclosed => simp at e
  | unclosed =>
    simp only [List.nil_append] at e
    have := List.append_eq_nil_iff.1 e.symm
    exact ⟨this.1.symm, this.2.symm⟩

theorem block_iff {k : Cls} (total : Word) (p : Nat) (doc : Bool) : ∀ near : List Line, (∀ l ∈ near, ∃ after, total = l.before ++ l.text ++ after) →
    blockLoop k total (near.map Line.pos) ≠ none ∧
    (blockLoop k total (near.map Line.pos) = some (.yes p doc) ↔ ∃ run rest l c r pre, near = run ++ l :: rest ∧ (∀ m ∈ run, ¬ ['/', '*'] <+: m.text) ∧
      ['/', '*'] <+: l.text ∧ total = l.before ++ ('/' :: '*' :: c) ++ r ∧ Closes 0 c r ∧ (∀ d ∈ r, k.lex d = true) ∧
      FirstSafety ('/' :: '*' :: c) pre ∧ p = size (l.before ++ pre) ∧ (doc = true ↔ ['/', '*', '*'] <+: l.text))
  | [], _ => by
    refine ⟨(fun h => by cases h), ⟨(fun h => by cases h), ?_⟩⟩
    rintro ⟨run, rest, l, c, r, pre, h, _⟩
    cases run <;> cases h
  | n :: near, hn => by
    have size_app : ∀ a b, size (a ++ b) = size a + size b := by intro a b; simp [size]
    have ih := block_iff (k := k) total p doc near (fun l hl => hn l (List.mem_cons_of_mem _ hl))
    simp only [List.map_cons, Line.pos, blockLoop]
    by_cases hs : ['/', '*'].isPrefixOf n.text = true
    · rw [if_pos hs]
      have hs' := List.isPrefixOf_iff_prefix.1 hs
      obtain ⟨after, ha⟩ := hn n (by simp)
      obtain ⟨body, hb⟩ := hs'
      have hsp : splitBytes (size n.before) total = some (n.before, n.text ++ after) := by
        rw [ha, List.append_assoc, ← bytes_size]
        exact splitBytes_bytes _ _
      rw [hsp]
      simp only
      refine ⟨(fun h => by cases h), ?_⟩
      have hdrop : (n.text ++ after).drop 2 = body ++ after := by rw [← hb]; rfl
      obtain ⟨c1, c2⟩ := close_split 0 (body ++ after)
      have htot : total = n.before ++ ('/' :: '*' :: (close 0 (body ++ after)).1) ++ (close 0 (body ++ after)).2 := by
        rw [ha, ← hb]
        simp only [List.append_assoc, List.cons_append, List.nil_append]
        rw [← c1]
      have hd := bool_iff (a := doc) (List.isPrefixOf_iff_prefix (l₁ := ['/', '*', '*']) (l₂ := n.text))
      unfold blockText
      rw [hdrop]
      generalize hcl : close 0 (body ++ after) = cl at *
      obtain ⟨c, r⟩ := cl
      simp only at c1 c2 htot ⊢
      have huniq : ∀ c' r', total = n.before ++ ('/' :: '*' :: c') ++ r' → Closes 0 c' r' → c = c' ∧ r = r' := by
        intro c' r' h1 h2
        rw [htot] at h1
        simp only [List.append_assoc] at h1
        have h1 := List.append_cancel_left h1
        simp only [List.cons_append, List.cons.injEq, true_and] at h1
        exact close_unique c2 h2 h1
      constructor
      · intro h
        cases hf : findSafety ('/' :: '*' :: c) with
        | none => rw [hf] at h; cases h
        | some q =>
          rw [hf] at h
          simp only at h
          by_cases hr : r.all k.lex = true
          · rw [if_pos hr] at h
            simp only [Option.some.injEq, Res.yes.injEq] at h
            obtain ⟨pre, g1, g2⟩ := (findSafety_iff _ _).1 hf
            exact ⟨[], near, n, c, r, pre, rfl, (fun m hm => by cases hm), ⟨body, hb⟩, htot, c2, List.all_eq_true.1 hr, g1, by rw [← h.1, g2, size_app], hd.2 h.2.symm⟩
          · rw [if_neg hr] at h; cases h
      · rintro ⟨run, rest, l, c', r', pre, e1, e2, e3, e4, e5, e6, e7, e8, e9⟩
        cases run with
        | nil =>
          simp only [List.nil_append, List.cons.injEq] at e1
          obtain ⟨rfl, rfl⟩ := e1
          obtain ⟨rfl, rfl⟩ := huniq c' r' e4 e5
          rw [(findSafety_iff _ _).2 ⟨pre, e7, rfl⟩]
          simp only
          rw [if_pos (List.all_eq_true.2 e6), hd.1 e9, e8, size_app]
        | cons a run =>
          simp only [List.cons_append, List.cons.injEq] at e1
          exact absurd ⟨body, by rw [← e1.1]; exact hb⟩ (e2 a (by simp))
    · rw [if_neg hs]
      refine ⟨ih.1, ?_⟩
      rw [ih.2]
      have hs' : ¬ ['/', '*'] <+: n.text := fun h => hs (List.isPrefixOf_iff_prefix.2 h)
      constructor
      · rintro ⟨run, rest, l, c, r, pre, rfl, e2, e3⟩
        refine ⟨n :: run, rest, l, c, r, pre, rfl, ?_, e3⟩
        intro m hm
        rcases List.mem_cons.1 hm with rfl | hm
        · exact hs'
        · exact e2 m hm
      · rintro ⟨run, rest, l, c, r, pre, e1, e2, e3⟩
        cases run with
        | nil =>
          simp only [List.nil_append, List.cons.injEq] at e1
          rw [← e1.1] at e3
          exact absurd e3.1 hs'
        | cons a run =>
          simp only [List.cons_append, List.cons.injEq] at e1
          obtain ⟨rfl, rfl⟩ := e1
          exact ⟨run, rest, l, c, r, pre, rfl, fun m hm => e2 m (List.mem_cons_of_mem _ hm), e3⟩

end Verif.Safety
