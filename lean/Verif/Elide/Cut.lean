import Verif.Elide.Spec
import Verif.Elide.Model

/-!
# The deletion of the parameters
-/

namespace Verif.Elide

section
variable (es : List Id)

/-- The span of the parameter at a position; `alive`: all parameters after it are deleted. -/
def span (i : Nat) (alive : Bool) : Nat × Nat := if alive then (2 * i - 1, 2 * i + 1) else (2 * i, 2 * (i + 1))

/-- The spans, from the last parameter to the first; `rp` are the parameters still to come, the
last one first, `suf` those that have been seen. -/
def run : List Id → List Id → List (Nat × Nat)
  | [], _ => []
  | p :: rp, suf =>
    if es.contains p then span rp.length (suf.all es.contains) :: run rp (p :: suf) else run rp (p :: suf)

/-- `end` tells whether all parameters seen so far are deleted. -/
structure Inv (last : Option Id) (suf : List Id) : Prop where
  mem : ∀ x, last = some x → x ∈ suf
  alive : suf.all es.contains = true → last = suf.head?
  dead : suf.all es.contains = false → last ≠ suf.head?

theorem position_append (p : Id) (pre suf : List Id) (h : p ∉ pre) : position p (pre ++ p :: suf) = some pre.length := by
  induction pre with
  | nil => simp [position]
  | cons q pre ih =>
    simp only [List.mem_cons, not_or] at h
    have : (q == p) = false := by simpa using fun e => h.1 e.symm
    simp [position, this, ih h.2]

theorem cut_run (params : List Id) (hn : params.Nodup) (hall : params.all es.contains = false) (rp suf : List Id)
    (last : Option Id) (he : params = rp.reverse ++ suf) (hi : Inv es last suf) :
    cutAll params last (rp.filter es.contains) = some (run es rp suf) := by
  induction rp generalizing suf last with
  | nil => rfl
  | cons p rp ih =>
    have he' : params = rp.reverse ++ p :: suf := by rw [he]; simp
    have hn' := hn
    rw [he', List.nodup_append] at hn'
    obtain ⟨_, hn2, hn3⟩ := hn'
    have hps : p ∉ suf := (List.nodup_cons.1 hn2).1
    have hpp : p ∉ rp.reverse := fun hm => hn3 p hm p (by simp) rfl
    have hne : last ≠ some p := fun e => hps (hi.mem p e)
    by_cases hp : es.contains p = true
    · rw [List.filter_cons_of_pos hp]
      simp only [cutAll, run, if_pos hp]
      have hpos : position p params = some rp.length := by
        rw [he', position_append p _ _ hpp, List.length_reverse]
      have hnext : params[rp.length + 1]? = suf.head? := by
        rw [he', List.getElem?_append_right (by simp), List.length_reverse]
        rw [show rp.length + 1 - rp.length = 1 by omega]
        cases suf <;> rfl
      cases ha : suf.all es.contains with
      | true =>
        have hl := hi.alive ha
        have h0 : rp ≠ [] := by
          rintro rfl
          rw [he'] at hall
          simp only [List.reverse_nil, List.nil_append, List.all_cons, hp, ha] at hall
          simp at hall
        obtain ⟨q, rq, rfl⟩ := List.exists_cons_of_ne_nil h0
        have hc : cutOne params last p = some ((2 * rq.length + 1, 2 * (rq.length + 1) + 1), some p) := by
          simp only [cutOne, hpos, hnext]
          cases hs : suf.head? with
          | none => rfl
          | some x => rw [hs] at hl; simp only [hl, beq_self_eq_true, if_true]; rfl
        rw [hc]
        simp only
        rw [ih (p :: suf) (some p) he' ⟨?_, ?_, ?_⟩]
        · rfl
        · intro x hx; simp at hx; simp [hx]
        · intro _; rfl
        · intro h; simp only [List.all_cons, hp, ha] at h; simp at h
      | false =>
        have hl := hi.dead ha
        have hc : cutOne params last p = some ((2 * rp.length, 2 * (rp.length + 1)), last) := by
          simp only [cutOne, hpos, hnext]
          cases hs : suf.head? with
          | none =>
            cases suf with
            | nil => simp at ha
            | cons x xs => simp at hs
          | some x =>
            rw [hs] at hl
            have : (last == some x) = false := by simpa using hl
            simp only [this]
            rfl
        rw [hc]
        simp only
        rw [ih (p :: suf) last he' ⟨?_, ?_, ?_⟩]
        · rfl
        · intro x hx; simp [hi.mem x hx]
        · intro h; simp only [List.all_cons, hp, ha] at h; simp at h
        · intro _; exact hne
    · rw [List.filter_cons_of_neg hp]
      simp only [run, if_neg hp]
      apply ih (p :: suf) last he'
      refine ⟨?_, ?_, ?_⟩
      · intro x hx; simp [hi.mem x hx]
      · intro h; simp only [List.all_cons, Bool.and_eq_true] at h; exact absurd h.1 hp
      · intro _; exact hne

theorem run_mem (rp suf : List Id) (c : Nat × Nat) (h : c ∈ run es rp suf) :
    ∃ pre p suf', rp.reverse ++ suf = pre ++ p :: suf' ∧ es.contains p = true ∧
      c = span pre.length (suf'.all es.contains) ∧ pre.length < rp.length := by
  induction rp generalizing suf with
  | nil => simp [run] at h
  | cons p rp ih =>
    have next : c ∈ run es rp (p :: suf) → _ := ih (p :: suf)
    simp only [run] at h
    have go : c ∈ run es rp (p :: suf) → ∃ pre q suf', (p :: rp).reverse ++ suf = pre ++ q :: suf' ∧
        es.contains q = true ∧ c = span pre.length (suf'.all es.contains) ∧ pre.length < (p :: rp).length := by
      intro h
      obtain ⟨pre, q, suf', h1, h2, h3, h4⟩ := next h
      exact ⟨pre, q, suf', by rw [← h1]; simp, h2, h3, by simp only [List.length_cons]; omega⟩
    split at h
    · rename_i hp
      rcases List.mem_cons.1 h with h | h
      · exact ⟨rp.reverse, p, suf, by simp, hp, by simpa using h, by simp⟩
      · exact go h
    · exact go h

theorem mem_run (rp suf pre : List Id) (p : Id) (suf' : List Id) (h : rp.reverse ++ suf = pre ++ p :: suf')
    (hl : pre.length < rp.length) (hp : es.contains p = true) :
    span pre.length (suf'.all es.contains) ∈ run es rp suf := by
  induction rp generalizing suf with
  | nil => simp at hl
  | cons q rp ih =>
    have h' : rp.reverse ++ q :: suf = pre ++ p :: suf' := by rw [← h]; simp
    simp only [run]
    by_cases e : pre.length = rp.length
    · obtain ⟨e1, e2⟩ := List.append_inj h' (by simp [e])
      cases e2
      rw [if_pos hp, e]; simp
    · have := ih (q :: suf) h' (by simp only [List.length_cons] at hl; omega)
      split
      · simp [this]
      · exact this

theorem run_apart (rp suf : List Id) : (run es rp suf).Pairwise (fun c d => d.2 ≤ c.1) := by
  induction rp generalizing suf with
  | nil => simp [run]
  | cons p rp ih =>
    simp only [run]
    split
    · rename_i hp
      refine List.Pairwise.cons ?_ (ih _)
      intro d hd
      obtain ⟨pre, q, suf', h1, h2, rfl, h4⟩ := run_mem es rp (p :: suf) d hd
      by_cases e : pre.length + 1 = rp.length
      · have hs : suf' = p :: suf := by
          have h1' : rp.reverse ++ p :: suf = (pre ++ [q]) ++ suf' := by rw [h1]; simp
          exact (List.append_inj h1' (by simp [e])).2.symm
        rw [hs, List.all_cons, hp, Bool.true_and]
        simp only [span]
        split <;> simp only <;> omega
      · simp only [span]
        split <;> split <;> simp only <;> omega
    · exact ih _

/-- A piece is deleted. -/
def covered (cs : List (Nat × Nat)) (n : Nat) : Bool :=
  cs.any (fun c => decide (c.1 ≤ n) && decide (n < c.2))

theorem covered_iff (cs : List (Nat × Nat)) (n : Nat) : covered cs n = true ↔ ∃ c ∈ cs, c.1 ≤ n ∧ n < c.2 := by
  simp [covered, List.any_eq_true]

/-- A parameter is deleted if it is to be. -/
theorem covered_param (params pre : List Id) (p : Id) (ps : List Id) (he : params = pre ++ p :: ps)
    (hall : params.all es.contains = false) :
    covered (run es params.reverse []) (2 * pre.length) = es.contains p := by
  rw [Bool.eq_iff_iff, covered_iff]
  constructor
  · rintro ⟨c, hc, h1, h2⟩
    obtain ⟨pre', q, suf', e, hq, rfl, _⟩ := run_mem es _ _ c hc
    rw [List.reverse_reverse, List.append_nil, he] at e
    have hl : pre.length = pre'.length := by
      simp only [span] at h1 h2
      split at h1 <;> rename_i ha <;> simp only [ha, if_true] at h2 <;> simp at h1 h2 <;> omega
    obtain ⟨_, e2⟩ := List.append_inj e hl
    cases e2
    exact hq
  · intro hp
    refine ⟨_, mem_run es params.reverse [] pre p ps (by simp [he]) (by simp [he]; omega) hp, ?_, ?_⟩
    · simp only [span]; split <;> simp only <;> omega
    · simp only [span]; split <;> simp only <;> omega

/-- The comma behind a parameter is deleted if the parameter is, or all that follow it. -/
theorem covered_comma (params pre : List Id) (p : Id) (ps : List Id) (he : params = pre ++ p :: ps) (hps : ps ≠ [])
    (hall : params.all es.contains = false) :
    covered (run es params.reverse []) (2 * pre.length + 1) = (es.contains p || ps.all es.contains) := by
  obtain ⟨q, qs, rfl⟩ := List.exists_cons_of_ne_nil hps
  rw [Bool.eq_iff_iff, covered_iff]
  have he2 : params = (pre ++ [p]) ++ q :: qs := by rw [he]; simp
  constructor
  · rintro ⟨c, hc, h1, h2⟩
    obtain ⟨pre', r, suf', e, hr, rfl, _⟩ := run_mem es _ _ c hc
    rw [List.reverse_reverse, List.append_nil] at e
    by_cases ha : suf'.all es.contains = true
    · simp only [span, ha, if_true] at h1 h2
      have hl : (pre ++ [p]).length = pre'.length := by simp; omega
      rw [he2] at e
      obtain ⟨_, e2⟩ := List.append_inj e hl
      cases e2
      simp only [List.all_cons, hr, ha, Bool.and_self, Bool.or_true]
    · simp only [span, if_neg ha] at h1 h2
      have hl : pre.length = pre'.length := by omega
      rw [he] at e
      obtain ⟨_, e2⟩ := List.append_inj e hl
      cases e2
      rw [hr]; rfl
  · intro h
    by_cases ha : (q :: qs).all es.contains = true
    · have hq : es.contains q = true := by simp only [List.all_cons, Bool.and_eq_true] at ha; exact ha.1
      have hqs : qs.all es.contains = true := by simp only [List.all_cons, Bool.and_eq_true] at ha; exact ha.2
      have := mem_run es params.reverse [] (pre ++ [p]) q qs (by simp [he]) (by simp [he]; omega) hq
      rw [hqs] at this
      refine ⟨_, this, ?_, ?_⟩
      · simp only [span, if_true, List.length_append, List.length_cons, List.length_nil]; omega
      · simp only [span, if_true, List.length_append, List.length_cons, List.length_nil]; omega
    · have hp : es.contains p = true := by
        simp only [Bool.or_eq_true] at h
        rcases h with h | h
        · exact h
        · exact absurd h ha
      have := mem_run es params.reverse [] pre p (q :: qs) (by simp [he]) (by simp [he]; omega) hp
      refine ⟨_, this, ?_, ?_⟩
      · simp only [span, if_neg ha]; omega
      · simp only [span, if_neg ha]; omega

theorem keep_step (cs : List (Nat × Nat)) (n : Nat) (t : Tok) (ts : List Tok) :
    keepFrom cs n (t :: ts) = if covered cs n then keepFrom cs (n + 1) ts else t :: keepFrom cs (n + 1) ts := rfl

theorem keep_run (params : List Id) (hall : params.all es.contains = false) (suf pre : List Id)
    (he : params = pre ++ suf) :
    keepFrom (run es params.reverse []) (2 * pre.length) (toks suf) = toks (suf.filter (fun a => !es.contains a)) := by
  induction suf generalizing pre with
  | nil => rfl
  | cons p ps ih =>
    have hp := covered_param es params pre p ps he hall
    cases ps with
    | nil =>
      simp only [toks, keep_step, hp, keepFrom]
      cases hc : es.contains p with
      | true => rw [List.filter_cons_of_neg (by rw [hc]; decide)]; rfl
      | false => rw [List.filter_cons_of_pos (by rw [hc]; rfl)]; rfl
    | cons q qs =>
      have hcomma := covered_comma es params pre p (q :: qs) he (by simp) hall
      have hrec := ih (pre ++ [p]) (by rw [he]; simp)
      have e2 : 2 * (pre ++ [p]).length = 2 * pre.length + 1 + 1 := by simp; omega
      rw [e2] at hrec
      have et : toks (p :: q :: qs) = .param p :: .comma :: toks (q :: qs) := rfl
      rw [et, keep_step, keep_step, hp, hcomma, hrec]
      cases hc : es.contains p with
      | true =>
        rw [List.filter_cons_of_neg (a := p) (by rw [hc]; decide)]
        rfl
      | false =>
        rw [List.filter_cons_of_pos (a := p) (by rw [hc]; rfl)]
        cases ha : (q :: qs).all es.contains with
        | true =>
          have : (q :: qs).filter (fun a => !es.contains a) = [] := by
            rw [List.filter_eq_nil_iff]
            intro a hm
            rw [List.all_eq_true.1 ha a hm]; decide
          rw [this]; rfl
        | false =>
          have hne : (q :: qs).filter (fun a => !es.contains a) ≠ [] := by
            intro h0
            rw [List.filter_eq_nil_iff] at h0
            have : (q :: qs).all es.contains = true := by
              rw [List.all_eq_true]
              intro a hm
              have := h0 a hm
              cases hx : es.contains a with
              | true => rfl
              | false => rw [hx] at this; exact absurd rfl this
            rw [this] at ha; cases ha
          obtain ⟨x, xs, hx⟩ := List.exists_cons_of_ne_nil hne
          rw [hx]
          rfl

end

theorem sublist_filter (es params : List Id) (hn : params.Nodup) (h : es.Sublist params) :
    params.filter es.contains = es := by
  induction h with
  | slnil => rfl
  | @cons l1 l2 a h ih =>
    have ha : a ∉ l1 := fun hm => (List.nodup_cons.1 hn).1 (h.subset hm)
    rw [List.filter_cons_of_neg (by simpa using ha)]
    exact ih (List.nodup_cons.1 hn).2
  | @cons_cons l1 l2 a h ih =>
    rw [List.filter_cons_of_pos (by simp)]
    have ha : a ∉ l2 := (List.nodup_cons.1 hn).1
    have := ih (List.nodup_cons.1 hn).2
    conv => rhs; rw [← this]
    congr 1
    apply List.filter_congr
    intro x hx
    have hne : x ≠ a := fun e => ha (e ▸ hx)
    have : (x == a) = false := by simpa using hne
    rw [List.contains_cons, this, Bool.false_or]

/-- **The parameters are deleted** (partial): if some but not all parameters are elided, and they
are listed in the order of the declaration, as those of an `impl` block are, the spans do not
overlap and their deletion leaves the list of the other parameters.  Not covered: other orders,
which the lint uses for functions (`cuts_overlap`). -/
theorem cuts_partial (params es : List Id) (hn : params.Nodup) (hs : es.Sublist params)
    (hlen : es.length ≠ params.length) :
    ∃ cs, cuts params es = some (.inr cs) ∧ cs.Pairwise Apart ∧
      keepFrom cs 0 (toks params) = toks (params.filter (fun a => !es.contains a)) := by
  have hall : params.all es.contains = false := by
    cases h : params.all es.contains with
    | false => rfl
    | true =>
      have h1 := sublist_filter es params hn hs
      rw [List.filter_eq_self.2 (fun a ha => List.all_eq_true.1 h a ha)] at h1
      exact absurd (by rw [h1]) hlen
  refine ⟨run es params.reverse [], ?_, ?_, ?_⟩
  · have h1 : es.reverse = params.reverse.filter es.contains := by
      rw [List.filter_reverse, sublist_filter es params hn hs]
    have h2 : (es.length == params.length) = false := by simpa using hlen
    simp only [cuts, h2]
    rw [h1, cut_run es params hn hall params.reverse [] none (by simp)
      ⟨by simp, by simp, by simp⟩]
    rfl
  · refine List.Pairwise.imp ?_ (run_apart es params.reverse [])
    intro c d h
    exact Or.inr h
  · exact keep_run es params hall params [] rfl

/-- If all are elided, the whole list goes. -/
theorem cuts_all (params es : List Id) (h : es.length = params.length) : cuts params es = some (.inl ()) := by
  simp [cuts, h]

/-- `'b` and `'d` of `<'a, 'b, 'c, 'd>` -/
example : cuts [0, 1, 2, 3] [1, 3] = some (.inr [(5, 7), (2, 4)]) ∧
    keepFrom [(5, 7), (2, 4)] 0 (toks [0, 1, 2, 3]) = toks [0, 2] := by decide +kernel

example : [1, 3].Sublist [0, 1, 2, 3] ∧ [0, 1, 2, 3].Nodup := by decide

/-- Found: the parameters of a function are listed in the order of their use.  For
`fn f<'a, 'b, 'c>(x: &'c u8, y: &'b u8, z: &'a u8, w: &'a u8)` the spans of `'b` and `'c` both
contain the comma between them: the suggestion is not one that can be applied. -/
theorem cuts_overlap :
    ∃ s : Sig, check s = some [2, 1] ∧ s.params = [0, 1, 2] ∧
      ∃ cs, cuts s.params [2, 1] = some (.inr cs) ∧ ¬ cs.Pairwise Apart := by
  let r (a : Id) : Ty Lt := .ref (.named a) (.con 0)
  refine ⟨⟨[0, 1, 2], [], [r 2, r 1, r 0, r 0], .con 1, false, false, []⟩, by decide +kernel, rfl,
    [(2, 4), (3, 5)], by decide +kernel, ?_⟩
  simp [Apart]

end Verif.Elide
