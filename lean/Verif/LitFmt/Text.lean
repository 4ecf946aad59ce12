import Verif.LitFmt.Spec
import Verif.LitFmt.Model

/-!
# The text that is written for a literal
-/

namespace Verif.LitFmt

theorem lex_append {raw : Option Nat} : ∀ {a : List Char} {s : LexState} {b : List Char},
    lex raw s (a ++ b) = (lex raw s a).bind fun r => (lex raw r.1 b).map fun q => (q.1, r.2 ++ q.2)
  | [], s, b => by simp [lex]
  | c :: a, s, b => by
    simp only [List.cons_append, lex]
    cases stepOf raw s c with
    | none => rfl
    | some r =>
      simp only [Option.bind_some]
      rw [lex_append]
      cases lex raw r.1 a with
      | none => rfl
      | some q =>
        simp only [Option.map_some, Option.bind_some]
        cases lex raw q.1 b with
        | none => rfl
        | some z => simp [List.append_assoc]

theorem lex_cons {raw : Option Nat} {s : LexState} {c : Char} {cs : List Char} {s' : LexState} {o : List Char}
    (h : lex raw s (c :: cs) = some (s', o)) :
    ∃ s1 o1 o2, stepOf raw s c = some (s1, o1) ∧ lex raw s1 cs = some (s', o2) ∧ o = o1 ++ o2 := by
  simp only [lex] at h
  obtain ⟨⟨s1, o1⟩, h1, h⟩ := Option.bind_eq_some_iff.mp h
  simp only [Option.map_eq_some_iff] at h
  obtain ⟨⟨q1, q2⟩, h2, h3⟩ := h
  simp only [Prod.mk.injEq] at h3
  obtain ⟨rfl, rfl⟩ := h3
  exact ⟨s1, o1, q2, h1, h2, rfl⟩

theorem lex_cons_of {raw : Option Nat} {s s1 s' : LexState} {c : Char} {cs o1 o2 : List Char}
    (h : stepOf raw s c = some (s1, o1)) (h2 : lex raw s1 cs = some (s', o2)) :
    lex raw s (c :: cs) = some (s', o1 ++ o2) := by
  simp only [lex, h, Option.bind_some, h2, Option.map_some]

/-- With every brace doubled. -/
def double (s : List Char) : List Char := s.flatMap fun c => if c = '{' ∨ c = '}' then [c, c] else [c]

theorem double_cons {c : Char} {cs : List Char} :
    double (c :: cs) = (if c = '{' ∨ c = '}' then [c, c] else [c]) ++ double cs := rfl

theorem double_append {a b : List Char} : double (a ++ b) = double a ++ double b := by
  simp [double]

theorem plain_cons {c : Char} (h : ¬ (c = '{' ∨ c = '}')) (s : List Char) : plain (c :: s) = (plain s).map (c :: ·) := by
  cases s with
  | nil => simp only [plain, if_neg h]; rfl
  | cons d s => simp only [plain, if_neg h]

theorem plain_double : (v : List Char) → plain (double v) = some v
  | [] => rfl
  | c :: v => by
    rw [double_cons]
    by_cases h : c = '{' ∨ c = '}'
    · rw [if_pos h]
      simp only [List.cons_append, List.nil_append, plain, if_pos h, if_true, plain_double v, Option.map_some]
    · rw [if_neg h]
      simp only [List.cons_append, List.nil_append, plain_cons h, plain_double v, Option.map_some]

theorem escape_false : (s : List Char) → escapeBraces false .normal s = double s
  | [] => rfl
  | c :: s => by
    rw [double_cons]
    simp only [escapeBraces, Bool.and_false, Bool.false_eq_true, if_false, Bool.or_eq_true, beq_iff_eq, escape_false s]
    split <;> rfl

/-! ### Text in a raw string -/

def rawState : LexState → Prop
  | .normal | .quote _ => True
  | _ => False

theorem stepRaw_state {n : Nat} {s s' : LexState} {c : Char} {o : List Char} (h : stepRaw n s c = some (s', o)) :
    rawState s' := by
  unfold stepRaw at h
  split at h
  · split at h
    · split at h
      · cases h
      · cases h; exact trivial
    · split at h <;> (cases h; exact trivial)
  · split at h
    · split at h
      · cases h
      · cases h; exact trivial
    · cases h; exact trivial
  · cases h

theorem lexRaw_state {n : Nat} : ∀ {src : List Char} {s s' : LexState} {o : List Char}, rawState s →
    lex (some n) s src = some (s', o) → rawState s'
  | [], _, _, _, r, h => by cases h; exact r
  | _ :: _, _, _, _, _, h => by
    obtain ⟨s1, o1, o2, h1, h2, _⟩ := lex_cons h
    exact lexRaw_state (stepRaw_state h1) h2

theorem lexRaw_plain {n : Nat} : (u : List Char) → '"' ∉ u → '#' ∉ u → (s : LexState) → rawState s →
    (u ≠ [] ∨ s = .normal) → lex (some n) s u = some (.normal, u)
  | [], _, _, s, _, h => by
    cases h with
    | inl h => exact absurd rfl h
    | inr h => rw [h]; rfl
  | c :: u, h1, h2, s, hs, _ => by
    simp only [List.mem_cons, not_or] at h1 h2
    have st : stepOf (some n) s c = some (.normal, [c]) := by
      cases s with
      | normal => simp only [stepOf, stepRaw, if_neg (Ne.symm h1.1)]
      | quote k => simp only [stepOf, stepRaw, if_neg (Ne.symm h1.1), if_neg (Ne.symm h2.1)]
      | _ => exact False.elim hs
    exact lex_cons_of st (lexRaw_plain u h1.2 h2.2 .normal trivial (.inr rfl))

theorem not_double {q : Char} (h : q ≠ '{' ∧ q ≠ '}') {u : List Char} (hu : q ∉ u) : q ∉ double u := by
  intro m
  simp only [double, List.mem_flatMap] at m
  obtain ⟨c, hc, hm⟩ := m
  split at hm <;> simp at hm <;> exact hu (hm ▸ hc)

theorem double_nil {u : List Char} (h : double u = []) : u = [] := by
  cases u with
  | nil => rfl
  | cons c u =>
    rw [double_cons] at h
    split at h <;> cases h

/-! ### Escapes that are taken apart for a raw string -/

theorem push_ok {c : Char} {r : Unescaped} {u : List Char} (h : r.push c = .ok u) : ∃ u', r = .ok u' ∧ u = c :: u' := by
  cases r with
  | ok s => cases h; exact ⟨s, rfl, rfl⟩
  | lint => cases h
  | ignore => cases h

theorem push_lint {c : Char} {r : Unescaped} (h : r.push c = .lint) : r = .lint := by
  cases r with
  | lint => rfl
  | ok _ => cases h
  | ignore => cases h

theorem fail_ok {r : Unescaped} {u : List Char} (h : r.fail = .ok u) : False := by
  cases r <;> cases h

theorem step_normal {c : Char} (h : c ≠ '\\') {s : LexState} {o : List Char} (e : step .normal c = some (s, o)) :
    s = .normal ∧ o = [c] ∧ c ≠ '"' := by
  simp only [step, stepNormal, if_neg h] at e
  split at e
  · cases e
  · next g => cases e; exact ⟨rfl, rfl, g⟩

theorem unescape_ok : (s : List Char) → {u : List Char} → conservativeUnescape s = .ok u →
    ∀ {l : LexState} {v : List Char}, lex none .normal s = some (l, v) →
    l = .normal ∧ v = u ∧ '"' ∉ u ∧ '#' ∉ u
  | [], u, h, l, v, e => by
    simp only [conservativeUnescape, Unescaped.ok.injEq] at h
    subst h
    cases e
    exact ⟨rfl, rfl, by simp, by simp⟩
  | [c], u, h, l, v, e => by
    simp only [conservativeUnescape, beq_iff_eq] at h
    split at h
    · cases h
    · next g =>
      split at h
      · cases h
      · next g2 =>
        cases h
        obtain ⟨s1, o1, o2, h1, h2, rfl⟩ := lex_cons e
        obtain ⟨rfl, rfl, g3⟩ := step_normal g h1
        cases h2
        exact ⟨rfl, rfl, by simp [Ne.symm g3], by simp [Ne.symm g2]⟩
  | c :: d :: cs, u, h, l, v, e => by
    simp only [conservativeUnescape, beq_iff_eq] at h
    obtain ⟨s1, o1, o2, h1, h2, rfl⟩ := lex_cons e
    split at h
    · exact (fail_ok h).elim
    · next g =>
      split at h
      · next g2 =>
        subst g2
        split at h
        · next g3 =>
          subst g3
          obtain ⟨u', h3, rfl⟩ := push_ok h
          cases h1
          obtain ⟨s2, p1, p2, h4, h5, rfl⟩ := lex_cons h2
          cases h4
          obtain ⟨rfl, rfl, a, b⟩ := unescape_ok cs h3 h5
          exact ⟨rfl, rfl, by simp [a], by simp [b]⟩
        · split at h
          · exact (fail_ok h).elim
          · cases h
      · next g2 =>
        obtain ⟨u', h3, rfl⟩ := push_ok h
        obtain ⟨rfl, rfl, g3⟩ := step_normal g2 h1
        obtain ⟨rfl, rfl, a, b⟩ := unescape_ok (d :: cs) h3 h2
        exact ⟨rfl, rfl, by simp [a, Ne.symm g3], by simp [b, Ne.symm g]⟩

theorem unescape_lint : (s : List Char) → conservativeUnescape s = .lint →
    ∀ {l : LexState} {v : List Char}, lex none .normal s = some (l, v) → '"' ∈ v ∨ '#' ∈ v
  | [], h, l, v, e => by simp [conservativeUnescape] at h
  | [c], h, l, v, e => by
    simp only [conservativeUnescape, beq_iff_eq] at h
    split at h
    · cases h
    · split at h
      · next g =>
        subst g
        cases e
        exact .inr (by simp)
      · cases h
  | c :: d :: cs, h, l, v, e => by
    simp only [conservativeUnescape, beq_iff_eq] at h
    obtain ⟨s1, o1, o2, h1, h2, rfl⟩ := lex_cons e
    split at h
    · next g =>
      subst g
      cases h1
      exact .inr (by simp)
    · split at h
      · next g2 =>
        subst g2
        cases h1
        obtain ⟨s2, p1, p2, h4, h5, rfl⟩ := lex_cons h2
        split at h
        · next g3 =>
          subst g3
          cases h4
          have := unescape_lint cs (push_lint h) h5
          simpa using this
        · split at h
          · next g3 =>
            subst g3
            cases h4
            exact .inl (by simp)
          · cases h
      · next g2 =>
        obtain ⟨rfl, rfl, g3⟩ := step_normal g2 h1
        have := unescape_lint (d :: cs) (push_lint h) h2
        simp only [List.cons_append, List.nil_append, List.mem_cons]
        exact this.imp .inr .inr

/-! ### A raw literal in a string that is not raw -/

theorem escapeRaw_cons {c : Char} {cs : List Char} :
    escapeRaw (c :: cs) =
      (if c = '\\' then ['\\', '\\'] else if c = '"' then ['\\', '"'] else [c]) ++ escapeRaw cs := by
  simp only [escapeRaw, List.flatMap_cons, List.flatMap_append, beq_iff_eq]
  by_cases h : c = '\\'
  · subst h; rfl
  · simp only [if_neg h, List.flatMap_cons, List.flatMap_nil, List.append_nil]

theorem lex_escapeRaw : (b : List Char) → lex none .normal (double (escapeRaw b)) = some (.normal, double b)
  | [] => rfl
  | c :: b => by
    rw [escapeRaw_cons, double_append, double_cons (c := c)]
    by_cases h : c = '\\'
    · subst h
      exact lex_cons_of (s1 := .esc) (o1 := []) rfl (lex_cons_of (s1 := .normal) (o1 := ['\\']) rfl (lex_escapeRaw b))
    · rw [if_neg h]
      by_cases h2 : c = '"'
      · subst h2
        exact lex_cons_of (s1 := .esc) (o1 := []) rfl (lex_cons_of (s1 := .normal) (o1 := ['"']) rfl (lex_escapeRaw b))
      · rw [if_neg h2]
        have st : stepOf none .normal c = some (.normal, [c]) := by
          simp only [stepOf, step, stepNormal, if_neg h, if_neg h2]
        have e : double [c] = if c = '{' ∨ c = '}' then [c, c] else [c] := by
          simp only [double, List.flatMap_cons, List.flatMap_nil, List.append_nil]
        rw [e]
        split
        · exact lex_cons_of (o2 := [c] ++ double b) st (lex_cons_of st (lex_escapeRaw b))
        · exact lex_cons_of st (lex_escapeRaw b)

/-! ### A literal that is not raw in such a string -/

/-- The states of `escape_braces` and of the lexer. -/
def Along : State → LexState → Prop
  | .normal, .normal | .normal, .skip | .normal, .hex | .normal, .hex2 _ => True
  | .backslash, .esc => True
  | .unicode, .uniOpen | .unicode, .uni _ => True
  | _, _ => False

theorem hexDigit_not {c : Char} {d : Nat} (h : hexDigit c = some d) : c ≠ '{' ∧ c ≠ '}' ∧ c ≠ '\\' := by
  refine ⟨?_, ?_, ?_⟩ <;> (intro e; subst e; cases h)

theorem double_one {c : Char} (h : c ≠ '{') (h2 : c ≠ '}') : double [c] = [c] := by
  simp [double, h, h2]

theorem escape_plain {c : Char} (h : c ≠ '{' ∧ c ≠ '}' ∧ c ≠ '\\') (cs : List Char) :
    escapeBraces true .normal (c :: cs) = c :: escapeBraces true .normal cs := by
  simp [escapeBraces, h.1, h.2.1, h.2.2]

theorem stepEsc_cases {c : Char} {s : LexState} {o : List Char} (h : stepEsc c = some (s, o)) :
    Along (if c == 'u' then .unicode else .normal) s ∧ double o = o := by
  unfold stepEsc at h
  split at h
  · next e => subst e; cases h; exact ⟨trivial, rfl⟩
  split at h
  · next e => subst e; cases h; exact ⟨trivial, rfl⟩
  split at h
  · next e => subst e; cases h; exact ⟨trivial, rfl⟩
  split at h
  · next e => subst e; cases h; exact ⟨trivial, rfl⟩
  split at h
  · next e =>
    cases h
    rcases e with e | e | e <;> (subst e; exact ⟨trivial, rfl⟩)
  split at h
  · next e => subst e; cases h; exact ⟨trivial, rfl⟩
  split at h
  · next e => subst e; cases h; exact ⟨trivial, rfl⟩
  split at h
  · next e => subst e; cases h; exact ⟨trivial, rfl⟩
  · cases h

theorem stepNormal_cases {c : Char} {s : LexState} {o : List Char} (h : stepNormal c = some (s, o)) :
    (c = '\\' ∧ s = .esc ∧ o = []) ∨ (c ≠ '\\' ∧ s = .normal ∧ o = [c]) := by
  unfold stepNormal at h
  split at h
  · next e => cases h; exact .inl ⟨e, rfl, rfl⟩
  · next e =>
    split at h
    · cases h
    · cases h; exact .inr ⟨e, rfl, rfl⟩

theorem noBrace_cons {l s1 : LexState} {c : Char} {cs o1 : List Char} (h : noBraceEscape l (c :: cs) = true)
    (e : step l c = some (s1, o1)) :
    (l = .normal ∨ l = .skip ∨ ('{' ∉ o1 ∧ '}' ∉ o1)) ∧ noBraceEscape s1 cs = true := by
  simp only [noBraceEscape, e, Bool.and_eq_true, Bool.or_eq_true, beq_iff_eq, Bool.not_eq_true',
    List.contains_eq_mem, decide_eq_false_iff_not] at h
  exact ⟨by simpa [or_assoc] using h.1, h.2⟩

theorem lex_escape : (s : List Char) → (m : State) → (l : LexState) → Along m l → ∀ {l' : LexState} {v : List Char},
    lex none l s = some (l', v) → noBraceEscape l s = true →
    lex none l (escapeBraces true m s) = some (l', double v)
  | [], m, l, _, l', v, h, _ => by
    cases h
    cases m <;> rfl
  | c :: cs, m, l, a, l', v, h, nb => by
    obtain ⟨s1, o1, o2, h1, h2, rfl⟩ := lex_cons h
    have nb' := noBrace_cons nb h1
    have ih := fun m a => lex_escape cs m s1 a h2 nb'.2
    rw [double_append]
    -- a character outside of escapes
    have norm : stepNormal c = some (s1, o1) → (∀ o, o = o1 → stepOf none l c = some (s1, o)) →
        lex none l (escapeBraces true .normal (c :: cs)) = some (l', double o1 ++ double o2) := by
      intro e st
      cases stepNormal_cases e with
      | inl e =>
        obtain ⟨rfl, rfl, rfl⟩ := e
        exact lex_cons_of (st _ rfl) (ih .backslash trivial)
      | inr e =>
        obtain ⟨g, rfl, rfl⟩ := e
        by_cases b : c = '{' ∨ c = '}'
        · have e1 : escapeBraces true .normal (c :: cs) = c :: c :: escapeBraces true .normal cs := by
            simp only [escapeBraces, Bool.or_eq_true, beq_iff_eq, if_pos b]
          have e2 : double [c] = [c] ++ [c] := by simp only [double, List.flatMap_cons, if_pos b]; rfl
          rw [e1, e2, List.append_assoc]
          exact lex_cons_of (st _ rfl) (lex_cons_of (s1 := .normal) e (ih .normal trivial))
        · simp only [not_or] at b
          rw [escape_plain ⟨b.1, b.2, g⟩, double_one b.1 b.2]
          exact lex_cons_of (st _ rfl) (ih .normal trivial)
    cases l with
    | normal =>
      cases m with
      | normal => exact norm h1 (fun _ e => e ▸ h1)
      | backslash => exact a.elim
      | unicode => exact a.elim
    | skip =>
      cases m with
      | normal =>
        by_cases w : c = ' ' ∨ c = '\t' ∨ c = '\n' ∨ c = '\r'
        · have h1' := h1
          simp only [stepOf, step, if_pos w] at h1'
          cases h1'
          have g : c ≠ '{' ∧ c ≠ '}' ∧ c ≠ '\\' := by
            rcases w with w | w | w | w <;> (subst w; decide)
          rw [escape_plain g]
          exact lex_cons_of h1 (ih .normal trivial)
        · refine norm ?_ (fun _ e => e ▸ h1)
          simp only [stepOf, step, if_neg w] at h1
          exact h1
      | backslash => exact a.elim
      | unicode => exact a.elim
    | hex =>
      cases m with
      | normal =>
        have h1' := h1
        simp only [stepOf, step] at h1'
        obtain ⟨d, hd, h3⟩ := Option.bind_eq_some_iff.mp h1'
        split at h3
        · cases h3
          rw [escape_plain (hexDigit_not hd)]
          exact lex_cons_of h1 (ih .normal trivial)
        · cases h3
      | backslash => exact a.elim
      | unicode => exact a.elim
    | hex2 d =>
      cases m with
      | normal =>
        have h1' := h1
        simp only [stepOf, step, Option.map_eq_some_iff] at h1'
        obtain ⟨e, hd, h3⟩ := h1'
        cases h3
        rw [escape_plain (hexDigit_not hd)]
        have nb2 : '{' ∉ [Char.ofNat (16 * d + e)] ∧ '}' ∉ [Char.ofNat (16 * d + e)] := by
          rcases nb'.1 with x | x | x
          · cases x
          · cases x
          · exact x
        simp only [List.mem_singleton] at nb2
        rw [double_one (Ne.symm nb2.1) (Ne.symm nb2.2)]
        exact lex_cons_of h1 (ih .normal trivial)
      | backslash => exact a.elim
      | unicode => exact a.elim
    | esc =>
      cases m with
      | backslash =>
        obtain ⟨al, e⟩ := stepEsc_cases h1
        rw [e]
        exact lex_cons_of h1 (ih _ al)
      | normal => exact a.elim
      | unicode => exact a.elim
    | uniOpen =>
      cases m with
      | unicode =>
        have h1' := h1
        simp only [stepOf, step] at h1'
        split at h1'
        · next e =>
          subst e
          cases h1'
          exact lex_cons_of h1 (ih .unicode trivial)
        · cases h1'
      | normal => exact a.elim
      | backslash => exact a.elim
    | uni w =>
      cases m with
      | unicode =>
        have h1' := h1
        simp only [stepOf, step] at h1'
        split at h1'
        · next e =>
          subst e
          obtain ⟨n, hn, h3⟩ := Option.bind_eq_some_iff.mp h1'
          split at h3
          · cases h3
            have nb2 : '{' ∉ [Char.ofNat n] ∧ '}' ∉ [Char.ofNat n] := by
              rcases nb'.1 with x | x | x
              · cases x
              · cases x
              · exact x
            simp only [List.mem_singleton] at nb2
            rw [double_one (Ne.symm nb2.1) (Ne.symm nb2.2)]
            exact lex_cons_of h1 (ih .normal trivial)
          · cases h3
        · next e =>
          have al : escapeBraces true .unicode (c :: cs) = c :: escapeBraces true .unicode cs := by
            simp [escapeBraces, e]
          rw [al]
          split at h1'
          · cases h1'
            exact lex_cons_of h1 (ih .unicode trivial)
          · simp only [Option.map_eq_some_iff] at h1'
            obtain ⟨d, _, h3⟩ := h1'
            cases h3
            exact lex_cons_of h1 (ih .unicode trivial)
      | normal => exact a.elim
      | backslash => exact a.elim
    | quote k => cases m <;> exact a.elim

/-! ### The replacement of a literal -/

theorem strip_quotes {q : Char} {b : List Char} : stripQuotes q (q :: (b ++ [q])) = some b := by
  simp [stripQuotes]

theorem drop_hashes {n : Nat} {x : List Char} :
    (List.replicate n '#' ++ '"' :: x).dropWhile (· == '#') = '"' :: x := by
  induction n with
  | zero => rfl
  | succ n ih => simpa [List.replicate_succ] using ih

theorem trim_hashes {n : Nat} {b : List Char} :
    trimHashes (List.replicate n '#' ++ ('"' :: (b ++ '"' :: List.replicate n '#'))) = '"' :: (b ++ ['"']) := by
  unfold trimHashes
  rw [drop_hashes]
  have e : ('"' :: (b ++ '"' :: List.replicate n '#')).reverse =
      List.replicate n '#' ++ '"' :: (b.reverse ++ ['"']) := by simp
  rw [e, drop_hashes]
  simp

theorem written_str {b : List Char} : written (.str b) = some (b, false) := by
  have : extractStr ('"' :: (b ++ ['"'])) = (stripQuotes '"' ('"' :: (b ++ ['"']))).map (·, false) := rfl
  simp only [written, Lit.source, this, strip_quotes, Option.map_some]

theorem written_raw {n : Nat} {b : List Char} : written (.raw n b) = some (b, true) := by
  simp only [written, Lit.source, extractStr, trim_hashes, strip_quotes, Option.map_some]

/-- The value by the lexer, of literals that are not raw. -/
theorem written_lex {l : Lit} {s v : List Char} (h : written l = some (s, false)) (hv : l.value = some v) :
    ∃ st, lex none .normal s = some (st, v) ∧ (l.tame = true → st = .normal ∧ noBraceEscape .normal s = true) := by
  cases l with
  | str b =>
    rw [written_str] at h
    cases h
    simp only [Lit.value] at hv
    obtain ⟨⟨st, v'⟩, h1, h2⟩ := Option.bind_eq_some_iff.mp hv
    split at h2
    · cases h2
      refine ⟨st, h1, fun t => ?_⟩
      simp only [Lit.tame, Bool.and_eq_true, settles, h1] at t
      refine ⟨?_, t.1⟩
      have := t.2
      split at this
      · next e => cases e; rfl
      · cases this
    · cases h2
  | raw n b =>
    rw [written_raw] at h
    cases h
  | chr b =>
    simp only [written, beq_iff_eq] at h
    split at h
    · next e =>
      subst e
      cases h
      cases hv
      exact ⟨.normal, rfl, fun _ => ⟨rfl, rfl⟩⟩
    · next e =>
      have hv' : (lex none .normal b).bind (fun r =>
          if r.1 = .normal ∧ r.2.length = 1 ∧ b ≠ ['\''] then some r.2 else none) = some v := by
        unfold Lit.value at hv
        split at hv
        · cases ‹Lit.chr b = _›
        · cases ‹Lit.chr b = _›
        · next q =>
          cases q
          split at hv
          · exact absurd rfl e
          · exact hv
        · cases ‹Lit.chr b = _›
      obtain ⟨⟨st, v'⟩, h1, h2⟩ := Option.bind_eq_some_iff.mp hv'
      split at h2
      · next g =>
        cases h2
        split at h
        · next e2 =>
          subst e2
          cases h
          cases h1
          exact ⟨.normal, rfl, fun _ => ⟨rfl, rfl⟩⟩
        · simp only [Lit.source, strip_quotes, Option.map_some, Option.some.injEq, Prod.mk.injEq] at h
          obtain ⟨rfl, _⟩ := h
          exact ⟨st, h1, fun t => ⟨g.1, t⟩⟩
      · cases h2
  | bool b =>
    cases h
    cases hv
    cases b <;> exact ⟨.normal, rfl, fun _ => ⟨rfl, rfl⟩⟩

theorem written_true {l : Lit} {s v : List Char} (h : written l = some (s, true)) (hv : l.value = some v) : s = v := by
  cases l with
  | str b => rw [written_str] at h; cases h
  | raw n b => rw [written_raw] at h; cases h; cases hv; rfl
  | chr b =>
    simp only [written] at h
    split at h
    · cases h
    · split at h
      · cases h
      · simp at h
  | bool b => cases h

/-- What is written for a literal is read as its value. -/
theorem verdict_text {raw : Option Nat} {l : Lit} {r v : List Char} (h : verdict raw.isSome l = .edit r)
    (hv : l.value = some v) (ht : raw = none → l.tame = true) {st : LexState}
    (hs : st = .normal ∨ (raw.isSome = true ∧ rawState st ∧ v ≠ [])) :
    ∃ t, lex raw st r = some (.normal, t) ∧ plain t = some v := by
  unfold verdict at h
  split at h
  · cases h
  · next s litRaw hw =>
    split at h
    · next u hu =>
      cases h
      cases raw with
      | none =>
        have hn : st = .normal := by
          cases hs with
          | inl h => exact h
          | inr h => exact absurd h.1 (by simp)
        subst hn
        cases litRaw with
        | false =>
          cases hu
          obtain ⟨st', h1, h2⟩ := written_lex hw hv
          obtain ⟨rfl, h3⟩ := h2 (ht rfl)
          exact ⟨_, lex_escape s .normal .normal trivial h1 h3, plain_double v⟩
        | true =>
          cases hu
          have := written_true hw hv
          subst this
          refine ⟨double s, ?_, plain_double s⟩
          show lex none .normal (escapeBraces false .normal (escapeRaw s)) = _
          rw [escape_false, lex_escapeRaw]
      | some n =>
        have fin : u = v → '"' ∉ u → '#' ∉ u →
            ∃ t, lex (some n) st (escapeBraces false .normal u) = some (.normal, t) ∧ plain t = some v := by
          intro e h1 h2
          subst e
          refine ⟨double u, ?_, plain_double u⟩
          rw [escape_false]
          refine lexRaw_plain _ (not_double (by decide) h1) (not_double (by decide) h2) st ?_ ?_
          · cases hs with
            | inl h => rw [h]; exact trivial
            | inr h => exact h.2.1
          · cases hs with
            | inl h => exact .inr h
            | inr h => exact .inl (fun e => h.2.2 (double_nil e))
        cases litRaw with
        | false =>
          simp only [Option.isSome, replacement] at hu
          split at hu
          · next u' h1 =>
            cases hu
            obtain ⟨st', h2, _⟩ := written_lex hw hv
            obtain ⟨_, e, a, b⟩ := unescape_ok s h1 h2
            exact fin e.symm a b
          · cases hu
          · cases hu
        | true =>
          simp only [Option.isSome, replacement] at hu
          split at hu
          · cases hu
          · next g =>
            cases hu
            simp only [Bool.or_eq_true, List.contains_eq_mem, decide_eq_true_eq, not_or] at g
            exact fin (written_true hw hv) g.2 g.1
    · next e => exact (e _ h).elim

/-- A literal that is reported but not replaced has a quote or a hash. -/
theorem verdict_lint {raw : Bool} {l : Lit} {v : List Char} (h : verdict raw l = .lint) (hv : l.value = some v) :
    raw = true ∧ ('"' ∈ v ∨ '#' ∈ v) := by
  unfold verdict at h
  split at h
  · cases h
  · next s litRaw hw =>
    split at h
    · cases h
    · unfold replacement at h
      split at h
      · cases h
      · cases h
      · split at h
        · cases h
        · next h1 =>
          obtain ⟨st', h2, _⟩ := written_lex hw hv
          exact ⟨rfl, unescape_lint s h1 h2⟩
        · cases h
      · split at h
        · next g =>
          simp only [Bool.or_eq_true, List.contains_eq_mem, decide_eq_true_eq] at g
          have := written_true hw hv
          subst this
          exact ⟨rfl, g.symm⟩
        · cases h

end Verif.LitFmt
