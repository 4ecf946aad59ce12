import Verif.Octal.Model

/-!
# Escapes that look octal (C117)
-/

namespace Verif.Octal

variable {enc : List Nat → List Nat}

theorem isOct_iff {c : Nat} : Model.isOct c = true ↔ IsOctal c := by simp [Model.isOct, IsOctal]

/-- A place of `s` with an escape that looks octal, counted from the end. -/
def Place (enc : List Nat → List Nat) (off n : Nat) (st : State) (s : List Nat) (r : Model.Report) : Prop :=
  ∃ a d t, s = a ++ 92 :: 48 :: d :: t ∧ (after enc st a).Between ∧ Digits d t r.len r.hi r.lo ∧ r.start = off + n - (t.length + 3)

theorem place_cons {off n : Nat} {st : State} {c : Nat} {s : List Nat} {r : Model.Report} :
    Place enc off n st (c :: s) r ↔
      (st.Between ∧ c = 92 ∧ ∃ d t, s = 48 :: d :: t ∧ Digits d t r.len r.hi r.lo ∧ r.start = off + n - (t.length + 3)) ∨
        Place enc off n (step enc st c).2 s r := by
  constructor
  · rintro ⟨a, d, t, hs, ha, hd, hr⟩
    cases a with
    | nil =>
      simp only [List.nil_append, List.cons.injEq] at hs
      exact .inl ⟨ha, hs.1, d, t, hs.2, hd, hr⟩
    | cons x a =>
      simp only [List.cons_append, List.cons.injEq] at hs
      obtain ⟨rfl, hs⟩ := hs
      exact .inr ⟨a, d, t, hs, ha, hd, hr⟩
  · rintro (⟨ha, rfl, d, t, rfl, hd, hr⟩ | ⟨a, d, t, rfl, ha, hd, hr⟩)
    · exact ⟨[], d, t, rfl, ha, hd, hr⟩
    · exact ⟨c :: a, d, t, rfl, ha, hd, hr⟩

theorem place_nil {off n : Nat} {st : State} {r : Model.Report} : ¬ Place enc off n st [] r := by
  rintro ⟨a, d, t, hs, _⟩
  cases a <;> simp at hs

theorem step_ne_esc {st : State} {c : Nat} (h : c = 92 → st = .esc) : (step enc st c).2 ≠ .esc := by
  by_cases hc : c = 92
  · rw [h hc, hc]; simp [step]
  · cases st <;> simp only [step] <;> (repeat' split) <;> simp_all

theorem place_other {off n : Nat} {st : State} {c : Nat} {s : List Nat} {r : Model.Report} (h : ¬ st.Between ∨ c ≠ 92) :
    Place enc off n st (c :: s) r ↔ Place enc off n (step enc st c).2 s r := by
  rw [place_cons]
  constructor
  · rintro (⟨h1, h2, _⟩ | h)
    · exact absurd h1 (h.resolve_right (fun h => h h2))
    · exact h
  · exact .inr

theorem scan_iff : ∀ (m : Nat) (off n : Nat) (st : State) (s : List Nat) (r : Model.Report), s.length ≤ m → s.length ≤ n → st ≠ .esc →
    Valid enc st s → (r ∈ Model.scan off n s ↔ Place enc off n st s r) := by
  intro m
  induction m with
  | zero =>
    intro off n st s r hm _ _ _
    cases s with
    | nil => simp [Model.scan, place_nil]
    | cons => simp at hm
  | succ m ih =>
    intro off n st s r hm hn he hv
    match s, hm, hn, hv with
    | [], _, _, _ => simp [Model.scan, place_nil]
    | [c], _, _, _ =>
      simp only [Model.scan, List.not_mem_nil, false_iff]
      rw [place_cons]
      rintro (⟨_, _, d, t, h, _⟩ | h)
      · cases h
      · exact place_nil h
    | c :: d :: s, hm, hn, hv =>
      rw [Model.scan.eq_def]
      simp only
      simp only [List.length_cons] at hm hn
      by_cases hc : c = 92
      · subst hc
        have hb : st.Between ∧ (step enc st 92).2 = .esc := by
          rcases hv.1 rfl with h | h | h
          · subst h; simp [State.Between, step]
          · exact absurd h he
          · subst h; simp [State.Between, step]
        have hv1 := hv.2
        rw [hb.2] at hv1
        rw [if_pos rfl, place_cons, hb.2, place_other (.inl (by simp [State.Between]))]
        by_cases hd : d = 48
        · subst hd
          have hst : (step enc .esc 48).2 = .normal := rfl
          have hv2 := hv1.2
          rw [hst] at hv2 ⊢
          rw [if_pos rfl]
          match s, hm, hn, hv2 with
          | [], _, _, _ =>
            simp [place_nil]
          | [a], hm, hn, hv2 =>
            have hno : ¬ Place enc off n .normal [a] r := by
              rw [place_cons]
              rintro (⟨_, _, d, t, h, _⟩ | h)
              · cases h
              · exact place_nil h
            simp only [hno, or_false, hb.1, true_and]
            simp only [List.length_cons, List.length_nil] at hn
            by_cases ha : IsOctal a
            · rw [if_pos (isOct_iff.mpr ha)]
              simp only [List.mem_singleton]
              constructor
              · rintro rfl
                exact ⟨a, [], rfl, ⟨ha, .inr ⟨by simp, rfl, rfl, rfl⟩⟩, by simp⟩
              · rintro ⟨d', t, h, hdg, hr⟩
                simp only [List.cons.injEq, true_and] at h
                obtain ⟨rfl, rfl⟩ := h
                obtain ⟨_, ⟨b, t', h, _⟩ | ⟨_, h1, h2, h3⟩⟩ := hdg
                · cases h
                · cases r; simp at h1 h2 h3 hr; simp [h1, h2, h3, hr]
            · rw [if_neg (fun h => ha (isOct_iff.mp h))]
              simp only [List.not_mem_nil, false_iff]
              rintro ⟨d', t, h, hdg, hr⟩
              simp only [List.cons.injEq, true_and] at h
              obtain ⟨rfl, rfl⟩ := h
              exact ha hdg.1
          | a :: b :: t, hm, hn, hv2 =>
            simp only [List.length_cons] at hm hn
            simp only [hb.1, true_and]
            have h92 : ∀ x, IsOctal x → x ≠ 92 ∧ (step enc .normal x).2 = .normal := by
              intro x hx
              have : x ≠ 92 := by intro h; rw [h] at hx; exact absurd hx.2 (by decide)
              exact ⟨this, by simp [step, this]⟩
            by_cases ha : IsOctal a
            · rw [if_pos (isOct_iff.mpr ha)]
              obtain ⟨ha1, ha2⟩ := h92 a ha
              have hv3 := hv2.2
              rw [ha2] at hv3
              by_cases hbb : IsOctal b
              · rw [if_pos (isOct_iff.mpr hbb)]
                obtain ⟨hb1, hb2⟩ := h92 b hbb
                have hv4 := hv3.2
                rw [hb2] at hv4
                rw [place_other (.inr ha1), ha2, place_other (.inr hb1), hb2, List.mem_cons,
                  ih off n .normal t r (by omega) (by omega) (by simp) hv4]
                apply or_congr _ Iff.rfl
                constructor
                · rintro rfl
                  exact ⟨a, b :: t, rfl, ⟨ha, .inl ⟨b, t, rfl, hbb, rfl, rfl, rfl⟩⟩, by simp; omega⟩
                · rintro ⟨d', t', h, hdg, hr⟩
                  simp only [List.cons.injEq, true_and] at h
                  obtain ⟨rfl, rfl⟩ := h
                  obtain ⟨_, ⟨b', t', h, _, h1, h2, h3⟩ | ⟨h, _⟩⟩ := hdg
                  · cases h
                    cases r; simp at h1 h2 h3 hr; simp [h1, h2, h3, hr]; omega
                  · exact absurd hbb (h _ _ rfl)
              · rw [if_neg (fun h => hbb (isOct_iff.mp h))]
                rw [place_other (.inr ha1), ha2, List.mem_cons,
                  ih off n .normal (b :: t) r (by simp; omega) (by simp; omega) (by simp) hv3]
                apply or_congr _ Iff.rfl
                constructor
                · rintro rfl
                  refine ⟨a, b :: t, rfl, ⟨ha, .inr ⟨?_, rfl, rfl, rfl⟩⟩, by simp; omega⟩
                  rintro b' t' h
                  cases h
                  exact hbb
                · rintro ⟨d', t', h, hdg, hr⟩
                  simp only [List.cons.injEq, true_and] at h
                  obtain ⟨rfl, rfl⟩ := h
                  obtain ⟨_, ⟨b', t', h, h0, h1, h2, h3⟩ | ⟨h, h1, h2, h3⟩⟩ := hdg
                  · cases h; exact absurd h0 hbb
                  · cases r; simp at h1 h2 h3 hr; simp [h1, h2, h3, hr]; omega
            · rw [if_neg (fun h => ha (isOct_iff.mp h)), ih off n .normal (a :: b :: t) r (by simp; omega) (by simp; omega) (by simp) hv2]
              constructor
              · exact .inr
              · rintro (⟨d', t', h, hdg, hr⟩ | h)
                · simp only [List.cons.injEq, true_and] at h
                  obtain ⟨rfl, rfl⟩ := h
                  exact absurd hdg.1 ha
                · exact h
        · rw [if_neg hd, ih off n _ s r (by omega) (by omega) (step_ne_esc fun _ => rfl) hv1.2]
          constructor
          · exact .inr
          · rintro (⟨_, _, d', t, h, _⟩ | h)
            · exact absurd (List.cons.inj h).1 hd
            · exact h
      · rw [if_neg hc, place_other (.inr hc),
          ih off n _ (d :: s) r (by simp; omega) (by simp; omega) (step_ne_esc fun h => absurd h hc) hv.2]

/-- Reported are exactly the escapes `\0` that are followed by an octal digit, with up to two digits. -/
theorem report_iff {k : Kind} {s : List Nat} (hv : Valid enc .normal s) {r : Model.Report} :
    r ∈ Model.check k s ↔ ∃ a d t, s = a ++ 92 :: 48 :: d :: t ∧ (after enc .normal a).Between ∧ Digits d t r.len r.hi r.lo ∧
      r.start = k.pre.length + a.length := by
  rw [Model.check, scan_iff (enc := enc) s.length _ _ .normal s r (Nat.le_refl _) (Nat.le_refl _) (by simp) hv]
  have hk : Model.startOffset k = k.pre.length := by cases k <;> rfl
  rw [hk]
  constructor
  · rintro ⟨a, d, t, rfl, ha, hd, hr⟩
    refine ⟨a, d, t, rfl, ha, hd, ?_⟩
    simp at hr
    omega
  · rintro ⟨a, d, t, rfl, ha, hd, hr⟩
    refine ⟨a, d, t, rfl, ha, hd, ?_⟩
    simp
    omega

theorem decode_append : ∀ (a b : List Nat) (st : State), decode enc st (a ++ b) = decode enc st a ++ decode enc (after enc st a) b := by
  intro a
  induction a with
  | nil => intros; rfl
  | cons c a ih => intro b st; simp only [List.cons_append, decode, after, ih, List.append_assoc]

theorem edit_token {k : Kind} {a x t : List Nat} {len : Nat} (hl : x.length = len) (new : List Nat) :
    edit (token k (a ++ x ++ t)) (k.pre.length + a.length) len new = token k (a ++ new ++ t) := by
  have h1 : token k (a ++ x ++ t) = (k.pre ++ a) ++ (x ++ (t ++ [34])) := by simp [token]
  have h2 : k.pre.length + a.length = (k.pre ++ a).length := by simp
  rw [edit, h1, h2, List.take_left, ← List.drop_drop, List.drop_left, ← hl, List.drop_left]
  simp [token]

theorem decode_zero {st : State} (h : st.Between) (t : List Nat) : decode enc st (92 :: 48 :: t) = 0 :: decode enc .normal t := by
  cases st <;> first | exact h.elim | simp [decode, step]

theorem decode_hex {st : State} (h : st.Between) {x y : Nat} (t : List Nat) :
    decode enc st (92 :: 120 :: x :: y :: t) = (16 * hexVal x + hexVal y) :: decode enc .normal t := by
  cases st <;> first | exact h.elim | simp [decode, step]

theorem decode_octal {c : Nat} (h : IsOctal c) (t : List Nat) : decode enc .normal (c :: t) = c :: decode enc .normal t := by
  have : c ≠ 92 := by intro e; rw [e] at h; exact absurd h.2 (by decide)
  simp [decode, step, this]

theorem hexVal_digit {n : Nat} (h : n < 16) : hexVal (Model.hexDigit n) = n := by
  unfold hexVal Model.hexDigit
  repeat' split
  all_goals omega

/-- What is read of a reported literal, and of the literal after an edit. -/
theorem reported {k : Kind} {s : List Nat} (hv : Valid enc .normal s) {r : Model.Report} (h : r ∈ Model.check k s) :
    ∃ a ds t, (ds.length = 1 ∨ ds.length = 2) ∧ (∀ d ∈ ds, IsOctal d) ∧ s = a ++ (92 :: 48 :: ds) ++ t ∧ (after enc .normal a).Between ∧
      r.len = ds.length + 2 ∧ octal ds = (r.hi - 48) * 8 + (r.lo - 48) ∧ (ds.length = 2 → [r.hi, r.lo] = ds) ∧
      (ds.length = 1 → [r.hi, r.lo] = 48 :: ds) ∧ (∀ new, edit (token k s) r.start r.len new = token k (a ++ new ++ t)) ∧
      decode enc .normal s = decode enc .normal a ++ 0 :: (ds ++ decode enc .normal t) := by
  obtain ⟨a, d, t, rfl, ha, ⟨hd, hdg⟩, hr⟩ := (report_iff hv).mp h
  rcases hdg with ⟨b, t', rfl, hb, h1, h2, h3⟩ | ⟨_, h1, h2, h3⟩
  · refine ⟨a, [d, b], t', .inr rfl, by simp [hd, hb], by simp, ha, h1, ?_, by simp [h2, h3], by simp, ?_, ?_⟩
    · simp [octal, h2, h3]; omega
    · intro new
      rw [hr, h1]
      have := edit_token (k := k) (a := a) (x := [92, 48, d, b]) (t := t') rfl new
      simpa using this
    · rw [decode_append, decode_zero ha, decode_octal hd, decode_octal hb]; rfl
  · refine ⟨a, [d], t, .inl rfl, by simp [hd], by simp, ha, h1, ?_, by simp, by simp [h2, h3], ?_, ?_⟩
    · simp [octal, h2, h3]
    · intro new
      rw [hr, h1]
      have := edit_token (k := k) (a := a) (x := [92, 48, d]) (t := t) rfl new
      simpa using this
    · rw [decode_append, decode_zero ha, decode_octal hd]; rfl

/-- The hexadecimal escape puts the number that the octal digits stand for in the place of the null and the digits, and keeps the rest. -/
theorem hex_right {k : Kind} {s : List Nat} (hv : Valid enc .normal s) {r : Model.Report} (h : r ∈ Model.check k s) :
    ∃ s' p q ds, edit (token k s) r.start r.len (Model.hexSugg r) = token k s' ∧ (∀ d ∈ ds, IsOctal d) ∧ (ds.length = 1 ∨ ds.length = 2) ∧
      decode enc .normal s = p ++ 0 :: (ds ++ q) ∧ decode enc .normal s' = p ++ octal ds :: q := by
  obtain ⟨a, ds, t, hl, hds, rfl, ha, _, hv', _, _, he, hdec⟩ := reported hv h
  refine ⟨_, _, _, ds, he _, hds, hl, hdec, ?_⟩
  rw [List.append_assoc, decode_append]
  congr 1
  have hlt : octal ds < 64 := by
    match ds, hl, hds with
    | [x], _, hds =>
      have := hds x (by simp)
      simp [octal]; unfold IsOctal at this; omega
    | [x, y], _, hds =>
      have h1 := hds x (by simp)
      have h2 := hds y (by simp)
      simp [octal]; unfold IsOctal at h1 h2; omega
  simp only [Model.hexSugg, ← hv', List.cons_append, List.nil_append]
  rw [decode_hex ha, hexVal_digit (by omega), hexVal_digit (by omega)]
  congr 1
  omega

/-- With two digits, the null escape keeps the string. Missing: one digit, where it doesn't; see `null_wrong`. -/
theorem null_partial {k : Kind} {s : List Nat} (hv : Valid enc .normal s) {r : Model.Report} (h : r ∈ Model.check k s) (h4 : r.len = 4) :
    ∃ s', edit (token k s) r.start r.len (Model.nullSugg r) = token k s' ∧ decode enc .normal s' = decode enc .normal s := by
  obtain ⟨a, ds, t, hl, hds, rfl, ha, hlen, _, h2, _, he, hdec⟩ := reported hv h
  refine ⟨_, he _, ?_⟩
  rw [hdec, List.append_assoc, decode_append]
  congr 1
  have h2 := h2 (by omega)
  match ds, h2, hds with
  | [x, y], h2, hds =>
    simp only [List.cons.injEq, and_true] at h2
    simp only [Model.nullSugg, h2.1, h2.2, List.cons_append, List.nil_append]
    rw [decode_hex ha, decode_octal (hds x (by simp)), decode_octal (hds y (by simp))]
    rfl

/-- With one digit, the null escape always puts a digit `0` into the string: `"\03"` becomes `"\x0003"`. -/
theorem null_wrong {k : Kind} {s : List Nat} (hv : Valid enc .normal s) {r : Model.Report} (h : r ∈ Model.check k s) (h3 : r.len = 3) :
    ∃ s' p q, edit (token k s) r.start r.len (Model.nullSugg r) = token k s' ∧ decode enc .normal s = p ++ 0 :: q ∧
      decode enc .normal s' = p ++ 0 :: 48 :: q := by
  obtain ⟨a, ds, t, hl, hds, rfl, ha, hlen, _, _, h1, he, hdec⟩ := reported hv h
  refine ⟨_, _, _, he _, hdec, ?_⟩
  rw [List.append_assoc, decode_append]
  congr 1
  have hone : ds.length = 1 := by omega
  have h1 := h1 hone
  match ds, hone, h1, hds with
  | [x], _, h1, hds =>
    simp only [List.cons.injEq, and_true] at h1
    simp only [Model.nullSugg, h1.1, h1.2, List.cons_append, List.nil_append]
    rw [decode_hex ha, decode_octal ⟨by decide, by decide⟩, decode_octal (hds x (by simp))]
    rfl

/-- `"\033"` in a string, and `b"\\\03"` after an escaped backslash. -/
example : Model.check .str [92, 48, 51, 51] = [⟨1, 4, 51, 51⟩] ∧ Model.check .byteStr [92, 92, 92, 48, 51] = [⟨4, 3, 48, 51⟩] := by
  constructor <;> simp [Model.check, Model.scan, Model.isOct, Model.startOffset]

example : Valid (fun _ => []) .normal [92, 92, 92, 48, 51] := by simp [Valid, step]

end Verif.Octal
