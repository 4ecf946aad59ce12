import Verif.LitFmt.Text
import Verif.LitFmt.Index

/-!
# C106: literals that are written into the format string
-/

namespace Verif.LitFmt

section
variable {raw : Bool} {args : List Arg} {ts : List Target}

theorem verdict_cases {h : RHole} (hv : holeVerdict raw args ts h ≠ .pass) :
    ∃ i l nm, h.display = true ∧ h.spec = 0 ∧ h.width = none ∧ h.prec = none ∧ ts.count h.arg.target = 1 ∧
      h.arg.target = .arg i ∧ args[i]? = some ⟨nm, .lit l⟩ ∧ holeVerdict raw args ts h = verdict raw l := by
  unfold holeVerdict at hv ⊢
  split at hv
  · next c =>
    simp only [Bool.and_eq_true, beq_iff_eq] at c
    obtain ⟨⟨⟨⟨c1, c2⟩, c3⟩, c4⟩, c5⟩ := c
    split at hv
    · next i ht =>
      split at hv
      · next nm l ha =>
        refine ⟨i, l, nm, c1, c2, c3, c4, c5, ht, ha, ?_⟩
        simp [c1, c2, c3, c4, c5]
      · exact absurd rfl hv
    · exact absurd rfl hv
  · exact absurd rfl hv

theorem removed_mem {i : Nat} : ∀ {ps : List RPiece}, i ∈ removed raw args ts ps ↔
    ∃ h r, .hole h ∈ ps ∧ h.arg.target = .arg i ∧ holeVerdict raw args ts h = .edit r
  | [] => by simp [removed]
  | .text s :: ps => by
    simp only [removed, removed_mem (ps := ps), List.mem_cons, reduceCtorEq, false_or]
  | .hole h :: ps => by
    have ih := removed_mem (i := i) (ps := ps)
    simp only [removed]
    split
    · next r j hv ht =>
      simp only [List.mem_cons, ih]
      constructor
      · rintro (rfl | ⟨h', r', m, e1, e2⟩)
        · exact ⟨h, r, .inl rfl, ht, hv⟩
        · exact ⟨h', r', .inr m, e1, e2⟩
      · rintro ⟨h', r', m | m, e1, e2⟩
        · cases m
          rw [ht] at e1
          cases e1
          exact .inl rfl
        · exact .inr ⟨h', r', m, e1, e2⟩
    · next hne =>
      rw [ih]
      constructor
      · rintro ⟨h', r', m, e1, e2⟩
        exact ⟨h', r', List.mem_cons_of_mem _ m, e1, e2⟩
      · rintro ⟨h', r', m, e1, e2⟩
        rcases List.mem_cons.1 m with m | m
        · cases m
          exact (hne _ _ e2 e1).elim
        · exact ⟨h', r', m, e1, e2⟩

theorem hole_target {h : RHole} : ∀ {ps : List RPiece}, .hole h ∈ ps → h.arg.target ∈ targets ps
  | .text s :: ps, m => by
    rcases List.mem_cons.1 m with m | m
    · cases m
    · have := hole_target (ps := ps) m
      exact this
  | .hole h' :: ps, m => by
    rcases List.mem_cons.1 m with m | m
    · cases m; exact List.mem_cons_self
    · exact List.mem_cons_of_mem _ (hole_target m)

/-- Two placeholders for the same argument are counted. -/
theorem two_holes {h h' : RHole} (hne : h ≠ h') (ht : h.arg.target = h'.arg.target) : ∀ {ps : List RPiece},
    .hole h ∈ ps → .hole h' ∈ ps → 2 ≤ (targets ps).count h.arg.target
  | .text s :: ps, m, m' => by
    rcases List.mem_cons.1 m with m | m
    · cases m
    · rcases List.mem_cons.1 m' with m' | m'
      · cases m'
      · have := two_holes hne ht (ps := ps) m m'
        exact this
  | .hole h2 :: ps, m, m' => by
    simp only [targets, List.count_cons]
    rcases List.mem_cons.1 m with k | k
    · cases k
      rcases List.mem_cons.1 m' with k' | k'
      · cases k'; exact absurd rfl hne
      · have := List.count_pos_iff.2 (hole_target (ps := ps) k')
        rw [← ht] at this
        simp only [beq_self_eq_true, if_true]
        omega
    · rcases List.mem_cons.1 m' with k' | k'
      · cases k'
        have := List.count_pos_iff.2 (hole_target (ps := ps) k)
        rw [if_pos (by rw [ht]; exact beq_self_eq_true _)]
        omega
      · have := two_holes hne ht (ps := ps) k k'
        omega

theorem removed_nodup : ∀ {ps : List RPiece},
    (∀ i ∈ removed raw args ts ps, (targets ps).count (.arg i) ≤ 1) → (removed raw args ts ps).Nodup
  | [], _ => List.nodup_nil
  | .text s :: ps, h => removed_nodup (ps := ps) h
  | .hole g :: ps, h => by
    have tail : (removed raw args ts ps).Nodup := by
      refine removed_nodup (fun i hi => ?_)
      have : i ∈ removed raw args ts (.hole g :: ps) := by
        obtain ⟨h', r', m, e1, e2⟩ := removed_mem.1 hi
        exact removed_mem.2 ⟨h', r', List.mem_cons_of_mem _ m, e1, e2⟩
      have := h i this
      simp only [targets, List.count_cons] at this
      omega
    simp only [removed] at h ⊢
    split
    · next r j hv ht =>
      refine List.nodup_cons.2 ⟨fun hj => ?_, tail⟩
      simp only [hv, ht] at h
      have := h j List.mem_cons_self
      obtain ⟨h', r', m, e1, e2⟩ := removed_mem.1 hj
      have p := List.count_pos_iff.2 (hole_target m)
      rw [e1] at p
      simp only [targets, List.count_cons, ht, beq_self_eq_true, if_true] at this
      omega
    · exact tail

theorem replaced_eq : ∀ {ps : List RPiece}, (∀ h, .hole h ∈ ps → holeVerdict raw args ts h ≠ .lint) →
    replaced raw args ts ps = removed raw args ts ps
  | [], _ => rfl
  | .text s :: ps, h => replaced_eq (ps := ps) (fun g m => h g (List.mem_cons_of_mem _ m))
  | .hole g :: ps, h => by
    have ih := replaced_eq (ps := ps) (fun g m => h g (List.mem_cons_of_mem _ m))
    have hg := h g List.mem_cons_self
    simp only [replaced, removed]
    cases hv : holeVerdict raw args ts g with
    | pass => exact ih
    | lint => exact absurd hv hg
    | edit r => cases ht : g.arg.target <;> simp [ih]

theorem eval_count {V : Type} {vars : Name → V} {exprs : Nat → V} {i : Nat} {nm : Option Name} {l : Lit}
    {r : Option Ref} {p : Option V} (h : count vars exprs args r = some p) (ha : args[i]? = some ⟨nm, .lit l⟩) {q : Ref}
    (hq : r = some q) : q.target ≠ .arg i := by
  subst hq
  intro e
  simp only [count, e, Target.eval, ha, Option.bind_some, Val.eval] at h
  cases hv : l.value with
  | none => simp [hv] at h
  | some v => simp [hv] at h

/-- A placeholder that stays refers to no argument that is removed. -/
theorem hole_stays {V : Type} {vars : Name → V} {exprs : Nat → V} {rs : List RPiece} {h : RHole}
    (hm : .hole h ∈ rs) (hv : ∀ r, holeVerdict raw args (targets rs) h ≠ .edit r) {o : List (Out V)}
    (he : h.eval vars exprs args = some o) : h.stays (removed raw args (targets rs) rs) := by
  intro q hq i hi hr
  obtain ⟨h', r, m, e1, e2⟩ := removed_mem.1 hr
  obtain ⟨j, l, nm, _, _, _, _, c5, c6, c7, _⟩ := verdict_cases (h := h') (by rw [e2]; exact nofun)
  rw [e1] at c6
  cases c6
  unfold RHole.eval at he
  obtain ⟨v, h1, he⟩ := Option.bind_eq_some_iff.mp he
  obtain ⟨w, h2, he⟩ := Option.bind_eq_some_iff.mp he
  simp only [Option.map_eq_some_iff] at he
  obtain ⟨p, h3, he⟩ := he
  simp only [RHole.refs, List.mem_cons, List.mem_append, Option.mem_toList] at hq
  rcases hq with rfl | hq | hq
  · have hne : h ≠ h' := by
      intro e
      subst e
      exact hv r e2
    have := two_holes hne (by rw [hi, e1]) hm m
    rw [hi, ← e1] at this
    omega
  · exact eval_count h2 c7 hq hi
  · exact eval_count h3 c7 hq hi

/-! ### The new call -/

variable (raw args ts) in
/-- What the compiler makes of the new format string. -/
def newR (R : List Nat) : List RPiece → List RPiece
  | [] => []
  | .text s :: ps => .text s :: newR R ps
  | .hole h :: ps =>
    match holeVerdict raw args ts h with
    | .edit r => .text r :: newR R ps
    | _ => .hole (h.map R) :: newR R ps

theorem lower_new {R : List Nat} (hR : R.Nodup) : ∀ {ps : List Piece} {n : Nat} {rs : List RPiece},
    lowerFrom args n ps = some rs → (∀ h, .hole h ∈ ps → h.even = true) →
    (∀ h r i, .hole h ∈ rs → holeVerdict raw args ts h = .edit r → h.arg.target = .arg i → i ∈ R) →
    (∀ h, .hole h ∈ rs → (∀ r, holeVerdict raw args ts h ≠ .edit r) → h.stays R) →
    lowerFrom (keepFrom R 0 args) (rank R n) (newPieces raw args ts R rs) = some (newR raw args ts R rs)
  | [], _, _, h, _, _, _ => by cases h; rfl
  | .text s :: ps, n, rs, h, h1, h2, h3 => by
    simp only [lowerFrom, Option.map_eq_some_iff] at h
    obtain ⟨rs, h, rfl⟩ := h
    have ih := lower_new hR h (fun h m => h1 h (List.mem_cons_of_mem _ m))
      (fun h r i m => h2 h r i (List.mem_cons_of_mem _ m)) (fun h m => h3 h (List.mem_cons_of_mem _ m))
    simp only [newPieces, newR, lowerFrom, ih, Option.map_some]
  | .hole g :: ps, n, rs, h, h1, h2, h3 => by
    simp only [lowerFrom] at h
    obtain ⟨⟨r, n'⟩, hl, hm⟩ := Option.bind_eq_some_iff.mp h
    simp only [Option.map_eq_some_iff] at hm
    obtain ⟨rs, hm, rfl⟩ := hm
    have ih := lower_new hR hm (fun h m => h1 h (List.mem_cons_of_mem _ m))
      (fun h r i m => h2 h r i (List.mem_cons_of_mem _ m)) (fun h m => h3 h (List.mem_cons_of_mem _ m))
    have keep : (∀ t, holeVerdict raw args ts r ≠ .edit t) →
        lowerFrom (keepFrom R 0 args) (rank R n) (.hole (newHole R r) :: newPieces raw args ts R rs) =
          some (.hole (r.map R) :: newR raw args ts R rs) := by
      intro hv
      have := lowerHole_new hR hl (h1 g List.mem_cons_self) (h3 r List.mem_cons_self hv)
      simp only [lowerFrom, this, Option.bind_some, ih, Option.map_some]
    simp only [newPieces, newR]
    cases hv : holeVerdict raw args ts r with
    | pass => exact keep (by rw [hv]; exact nofun)
    | lint => exact keep (by rw [hv]; exact nofun)
    | edit t =>
      obtain ⟨i, l, nm, _, _, c3, c4, _, c6, _, _⟩ := verdict_cases (h := r) (by rw [hv]; exact nofun)
      have hi := h2 r t i List.mem_cons_self hv c6
      obtain ⟨n1, n2, p1, p2, p3, _, _⟩ := lowerHole_cases hl
      have en : rank R n' = rank R n := by
        have q1 := locateOpt_pos p1
        rw [c4] at q1
        rw [← q1] at p1
        simp only [Option.map_none, locateOpt, Option.some.injEq, Prod.mk.injEq] at p1
        obtain ⟨_, rfl⟩ := p1
        have q3 := locateOpt_pos p3
        rw [c3] at q3
        rw [← q3] at p3
        simp only [Option.map_none, locateOpt, Option.some.injEq, Prod.mk.injEq] at p3
        obtain ⟨_, rfl⟩ := p3
        cases hp : g.arg with
        | implicit =>
          rw [hp] at p2
          simp only [locate] at p2
          split at p2
          · simp only [Option.some.injEq, Prod.mk.injEq] at p2
            obtain ⟨q, rfl⟩ := p2
            rw [← q] at c6
            cases c6
            exact rank_gone R hi
          · cases p2
        | number k =>
          rw [hp] at p2
          simp only [locate] at p2
          split at p2
          · simp only [Option.some.injEq, Prod.mk.injEq] at p2
            rw [p2.2]
          · cases p2
        | named x =>
          rw [hp] at p2
          simp only [locate] at p2
          split at p2 <;> (simp only [Option.some.injEq, Prod.mk.injEq] at p2; rw [p2.2])
      simp only [lowerFrom, ← en, ih, Option.map_some]

theorem refs_new {R : List Nat} {i : Nat} (hi : i ∉ R) : ∀ {rs : List RPiece},
    (∀ h r j, .hole h ∈ rs → holeVerdict raw args ts h = .edit r → h.arg.target = .arg j → j ∈ R) →
    (refs rs).any (fun r => r.target == .arg i) = true →
    (refs (newR raw args ts R rs)).any (fun r => r.target == .arg (rank R i)) = true
  | [], _, h => by simp [refs] at h
  | .text s :: rs, h2, h => refs_new hi (rs := rs) (fun h r j m => h2 h r j (List.mem_cons_of_mem _ m)) h
  | .hole g :: rs, h2, h => by
    have ih := refs_new hi (rs := rs) (fun h r j m => h2 h r j (List.mem_cons_of_mem _ m))
    simp only [refs, List.any_append, Bool.or_eq_true] at h
    have keep : (refs (.hole (g.map R) :: newR raw args ts R rs)).any (fun r => r.target == .arg (rank R i)) = true := by
      simp only [refs, List.any_append, Bool.or_eq_true]
      refine h.imp (fun h => ?_) ih
      rw [List.any_eq_true] at h ⊢
      obtain ⟨q, hq, e⟩ := h
      refine ⟨q.map R, ?_, ?_⟩
      · simp only [RHole.refs, List.mem_cons, List.mem_append, Option.mem_toList] at hq ⊢
        rcases hq with rfl | hq | hq
        · exact .inl rfl
        · exact .inr (.inl (by simp [RHole.map, hq]))
        · exact .inr (.inr (by simp [RHole.map, hq]))
      · simp only [beq_iff_eq] at e ⊢
        simp only [Ref.map, e, Target.map]
    simp only [newR]
    cases hv : holeVerdict raw args ts g with
    | pass => exact keep
    | lint => exact keep
    | edit t =>
      obtain ⟨j, l, nm, _, _, c3, c4, _, c6, _, _⟩ := verdict_cases (h := g) (by rw [hv]; exact nofun)
      have hj := h2 g t j List.mem_cons_self hv c6
      simp only [refs]
      refine ih (h.resolve_left (fun h => ?_))
      simp only [RHole.refs, c3, c4, Option.toList, List.append_nil, List.any_cons, List.any_nil, Bool.or_false,
        c6, beq_iff_eq, Target.arg.injEq] at h
      exact hi (h ▸ hj)

end

/-- The states between the pieces in which literals can be written. -/
def Fine (c : Call) (s : LexState) : Prop :=
  s = .normal ∨ (c.raw.isSome = true ∧ rawState s ∧ ∀ a ∈ c.args, ∀ l, a.val = .lit l → l.value ≠ some [])

theorem render_new {V : Type} {vars : Name → V} {exprs : Nat → V} {c : Call} {ts : List Target} {R : List Nat}
    (ht : c.raw = none → ∀ a ∈ c.args, ∀ l, a.val = .lit l → l.tame = true) :
    ∀ {rs : List RPiece} {s : LexState} {o : List (Out V)},
    (∀ src, .text src ∈ rs → settles c.raw src = true) ∨
      (c.raw.isSome = true ∧ ∀ a ∈ c.args, ∀ l, a.val = .lit l → l.value ≠ some []) →
    (∀ h, .hole h ∈ rs → (∀ r, holeVerdict c.raw.isSome c.args ts h ≠ .edit r) → h.stays R) →
    Fine c s → render vars exprs c.raw c.args s rs = some o →
    render vars exprs c.raw (keepFrom R 0 c.args) s (newR c.raw.isSome c.args ts R rs) = some o
  | [], _, _, _, _, _, h => h
  | .text src :: rs, s, o, hs, h3, hf, h => by
    simp only [render] at h
    obtain ⟨⟨s', t⟩, h4, h⟩ := Option.bind_eq_some_iff.mp h
    obtain ⟨cs, h5, h⟩ := Option.bind_eq_some_iff.mp h
    simp only [Option.map_eq_some_iff] at h
    obtain ⟨o', h6, rfl⟩ := h
    have fine : Fine c s' := by
      cases hs with
      | inl hs =>
        rcases hf with rfl | ⟨f1, f2, f3⟩
        · have := hs src List.mem_cons_self
          unfold settles at this
          rw [h4] at this
          split at this
          · next e => cases e; exact .inl rfl
          · cases this
        · obtain ⟨n, hn⟩ := Option.isSome_iff_exists.1 f1
          rw [hn] at h4
          exact .inr ⟨f1, lexRaw_state f2 h4, f3⟩
      | inr hs =>
        obtain ⟨n, hn⟩ := Option.isSome_iff_exists.1 hs.1
        rw [hn] at h4
        refine .inr ⟨hs.1, lexRaw_state ?_ h4, hs.2⟩
        rcases hf with rfl | ⟨_, f2, _⟩
        · exact trivial
        · exact f2
    have ih := render_new ht (R := R) (hs.imp (fun hs s m => hs s (List.mem_cons_of_mem _ m)) id)
      (fun h m => h3 h (List.mem_cons_of_mem _ m)) fine h6
    simp only [newR, render, h4, Option.bind_some, h5, ih, Option.map_some]
  | .hole g :: rs, s, o, hs, h3, hf, h => by
    simp only [render] at h
    split at h
    · next d =>
      obtain ⟨a, h4, h⟩ := Option.bind_eq_some_iff.mp h
      simp only [Option.map_eq_some_iff] at h
      obtain ⟨o', h6, rfl⟩ := h
      have ih := render_new ht (R := R) (hs.imp (fun hs s m => hs s (List.mem_cons_of_mem _ m)) id)
        (fun h m => h3 h (List.mem_cons_of_mem _ m)) (.inl rfl) h6
      have keep : (∀ t, holeVerdict c.raw.isSome c.args ts g ≠ .edit t) →
          render vars exprs c.raw (keepFrom R 0 c.args) s (.hole (g.map R) :: newR c.raw.isSome c.args ts R rs) =
            some (a ++ o') := by
        intro hv
        have := hole_new R (h3 g List.mem_cons_self hv) h4
        simp only [render, if_pos d, this, Option.bind_some, ih, Option.map_some]
      simp only [newR]
      cases hv : holeVerdict c.raw.isSome c.args ts g with
      | pass => exact keep (by rw [hv]; exact nofun)
      | lint => exact keep (by rw [hv]; exact nofun)
      | edit t =>
        obtain ⟨i, l, nm, c1, c2, c3, c4, _, c6, c7, c8⟩ := verdict_cases (h := g) (by rw [hv]; exact nofun)
        rw [hv] at c8
        have hmem := List.mem_of_getElem? c7
        simp only [RHole.eval, c6, Target.eval, c7, Option.bind_some, Val.eval, c3, c4, count, Option.map_some, c1,
          c2] at h4
        obtain ⟨v, h7, h8⟩ := Option.bind_eq_some_iff.mp h4
        simp only [Option.map_eq_some_iff] at h7
        obtain ⟨v, h7, rfl⟩ := h7
        simp only [shown, Option.some.injEq] at h8
        subst h8
        obtain ⟨u, k1, k2⟩ := verdict_text (raw := c.raw) c8.symm h7 (fun e => ht e _ hmem l rfl) (st := s)
          (hf.imp id (fun f => ⟨f.1, f.2.1, fun e => f.2.2 _ hmem l rfl (e ▸ h7)⟩))
        simp only [render, k1, Option.bind_some, k2, ih, Option.map_some]
    · cases h

theorem render_holes {V : Type} {vars : Name → V} {exprs : Nat → V} {raw : Option Nat} {args : List Arg} {h : RHole} :
    ∀ {rs : List RPiece} {s : LexState} {o : List (Out V)}, render vars exprs raw args s rs = some o →
    .hole h ∈ rs → ∃ a, h.eval vars exprs args = some a
  | .text src :: rs, s, o, e, m => by
    simp only [render] at e
    obtain ⟨⟨s', t⟩, h4, e⟩ := Option.bind_eq_some_iff.mp e
    obtain ⟨cs, h5, e⟩ := Option.bind_eq_some_iff.mp e
    simp only [Option.map_eq_some_iff] at e
    obtain ⟨o', h6, _⟩ := e
    rcases List.mem_cons.1 m with m | m
    · cases m
    · exact render_holes h6 m
  | .hole g :: rs, s, o, e, m => by
    simp only [render] at e
    split at e
    · obtain ⟨a, h4, e⟩ := Option.bind_eq_some_iff.mp e
      simp only [Option.map_eq_some_iff] at e
      obtain ⟨o', h6, _⟩ := e
      rcases List.mem_cons.1 m with m | m
      · cases m; exact ⟨a, h4⟩
      · exact render_holes h6 m
    · cases e

theorem lower_text {args : List Arg} {src : List Char} : ∀ {ps : List Piece} {n : Nat} {rs : List RPiece},
    lowerFrom args n ps = some rs → .text src ∈ rs → .text src ∈ ps
  | [], _, _, h, m => by cases h; cases m
  | .text s :: ps, n, rs, h, m => by
    simp only [lowerFrom, Option.map_eq_some_iff] at h
    obtain ⟨rs, h, rfl⟩ := h
    rcases List.mem_cons.1 m with m | m
    · cases m; exact List.mem_cons_self
    · exact List.mem_cons_of_mem _ (lower_text h m)
  | .hole g :: ps, n, rs, h, m => by
    simp only [lowerFrom] at h
    obtain ⟨⟨r, n'⟩, hl, hm⟩ := Option.bind_eq_some_iff.mp h
    simp only [Option.map_eq_some_iff] at hm
    obtain ⟨rs, hm, rfl⟩ := hm
    rcases List.mem_cons.1 m with m | m
    · cases m
    · exact List.mem_cons_of_mem _ (lower_text hm m)

/-- If the lint changes a call, the new call compiles and prints the same.

Missing: calls with a width or precision by number beside a placeholder without number (`width_shifted`), raw format
strings with literals that contain a quote or a hash (`lint_counted`), literals that write braces as escapes
(`brace_escape`), a backslash at the end of a line before the literal or at its end (`blank_lost`), and empty literals
after a quote in a raw string (`string_ends`). -/
theorem literal_same_partial {V : Type} {vars : Name → V} {exprs : Nat → V} {c c' : Call} {o : List (Out V)}
    (h : check c = some c') (he : ∀ h, .hole h ∈ c.pieces → h.even = true) (hs : c.settled)
    (ht : c.raw = none → ∀ a ∈ c.args, ∀ l, a.val = .lit l → l.tame = true)
    (hq : c.raw ≠ none → ∀ a ∈ c.args, ∀ l, a.val = .lit l → l.harmless = true)
    (hp : prints vars exprs c = some o) : prints vars exprs c' = some o := by
  unfold check at h
  unfold prints at hp
  obtain ⟨rs, hl, hr⟩ := Option.bind_eq_some_iff.mp hp
  rw [hl] at h
  simp only at h
  split at h
  · cases h
  · cases h
    unfold lower at hl
    obtain ⟨rs', hl, hu⟩ := Option.bind_eq_some_iff.mp hl
    split at hu
    · next used =>
      cases hu
      have noLint : ∀ h, .hole h ∈ rs → holeVerdict c.raw.isSome c.args (targets rs) h ≠ .lint := by
        intro g m e
        obtain ⟨i, l, nm, c1, c2, c3, c4, _, c6, c7, c8⟩ := verdict_cases (h := g) (by rw [e]; exact nofun)
        obtain ⟨a, h4⟩ := render_holes hr m
        simp only [RHole.eval, c6, Target.eval, c7, Option.bind_some, Val.eval] at h4
        obtain ⟨v, h7, _⟩ := Option.bind_eq_some_iff.mp h4
        simp only [Option.map_eq_some_iff] at h7
        obtain ⟨v, h7, _⟩ := h7
        rw [e] at c8
        obtain ⟨k1, k2⟩ := verdict_lint c8.symm h7
        have := hq (by intro n; rw [n] at k1; cases k1) _ (List.mem_of_getElem? c7) l rfl
        simp only [Lit.harmless, h7, Bool.and_eq_true, Bool.not_eq_true', List.contains_eq_mem,
          decide_eq_false_iff_not] at this
        exact k2.elim this.1 this.2
      rw [replaced_eq noLint]
      have nd : (removed c.raw.isSome c.args (targets rs) rs).Nodup := by
        refine removed_nodup (fun i hi => ?_)
        obtain ⟨h', r', m, e1, e2⟩ := removed_mem.1 hi
        obtain ⟨_, _, _, _, _, _, _, c5, _⟩ := verdict_cases (h := h') (by rw [e2]; exact nofun)
        rw [e1] at c5
        omega
      have gone : ∀ h r i, .hole h ∈ rs → holeVerdict c.raw.isSome c.args (targets rs) h = .edit r →
          h.arg.target = .arg i → i ∈ removed c.raw.isSome c.args (targets rs) rs :=
        fun h r i m e1 e2 => removed_mem.2 ⟨h, r, m, e2, e1⟩
      have stay : ∀ h, .hole h ∈ rs → (∀ r, holeVerdict c.raw.isSome c.args (targets rs) h ≠ .edit r) →
          h.stays (removed c.raw.isSome c.args (targets rs) rs) := by
        intro h m hv
        obtain ⟨a, ha⟩ := render_holes hr m
        exact hole_stays m hv ha
      have l' := lower_new nd hl he gone stay
      have used' : (List.range (keepFrom (removed c.raw.isSome c.args (targets rs) rs) 0 c.args).length).all (fun i =>
          (refs (newR c.raw.isSome c.args (targets rs) (removed c.raw.isSome c.args (targets rs) rs) rs)).any
            (fun r => r.target == .arg i)) = true := by
        rw [List.all_eq_true] at used ⊢
        intro m hm
        rw [List.mem_range] at hm
        obtain ⟨j, j1, j2, rfl⟩ := keep_onto _ _ 0 hm
        exact refs_new (by simpa using j2) gone (used j (List.mem_range.2 j1))
      have r' := render_new ht (ts := targets rs) (hs.imp (fun hs s m => hs s (lower_text hl m)) id) stay (.inl rfl) hr
      have l0 : lowerFrom (keepFrom (removed c.raw.isSome c.args (targets rs) rs) 0 c.args) 0
          (newPieces c.raw.isSome c.args (targets rs) (removed c.raw.isSome c.args (targets rs) rs) rs) =
          some (newR c.raw.isSome c.args (targets rs) (removed c.raw.isSome c.args (targets rs) rs) rs) := l'
      simp only [prints, lower, l0, Option.bind_some, if_pos used', r']
    · cases hu

/-! ### Examples -/

def chars (s : String) : List Char := s.toList

/-- A placeholder without further options. -/
def bare (p : Pos) : Piece := .hole ⟨p, none, none, true, 0⟩

/-- Variables are 7, the expression `n` is `n`. -/
def run (c : Call) : Option (List (Out Nat)) := prints (fun _ => 7) id c

/-- `"<{}> {0:?}{2:3$} {x}\n"` with the arguments `"\u{e4}{"`, … -/
def sample : Call :=
  { raw := none
    pieces := [.text (chars "<"), bare (.number 1), .text (chars "> "), .hole ⟨.number 0, none, none, false, 0⟩,
      .hole ⟨.number 2, some (.number 3), none, true, 0⟩, .text (chars "{{ "), bare (.named 0), .text (chars "\\n")]
    args := [⟨none, .expr 4⟩, ⟨none, .lit (.str (chars "\\u{e4}{\\\""))⟩, ⟨none, .expr 5⟩, ⟨none, .expr 6⟩] }

def sampleNew : Call :=
  { raw := none
    pieces := [.text (chars "<"), .text (chars "\\u{e4}{{\\\""), .text (chars "> "),
      .hole ⟨.number 0, none, none, false, 0⟩, .hole ⟨.number 1, some (.number 2), none, true, 0⟩,
      .text (chars "{{ "), bare (.named 0), .text (chars "\\n")]
    args := [⟨none, .expr 4⟩, ⟨none, .expr 5⟩, ⟨none, .expr 6⟩] }

example : check sample = some sampleNew := by decide +kernel

def sampleOut : List (Out Nat) :=
  [.chr '<', .chr 'ä', .chr '{', .chr '"', .chr '>', .chr ' ', .value (.val 4) none none false 0,
    .value (.val 5) (some 6) none true 0, .chr '{', .chr ' ', .value (.val 7) none none true 0, .chr '\n']

example : run sample = some sampleOut := by decide +kernel

/-- The hypotheses hold. -/
example : run sampleNew = some sampleOut := by
  refine literal_same_partial (c := sample) (by decide +kernel) ?_ (.inl ?_) (fun _ => ?_) (fun h => absurd rfl h)
    (by decide +kernel)
  · intro h m
    simp [sample, bare] at m
    rcases m with rfl | rfl | rfl | rfl <;> rfl
  · intro s m
    simp [sample, bare] at m
    rcases m with rfl | rfl | rfl | rfl <;> decide +kernel
  · intro a m l e
    simp [sample] at m
    rcases m with rfl | rfl | rfl | rfl <;> cases e
    decide +kernel

/-- `r#""{}" {:.*}"#` with `"a\\b"` (a literal with an escape), and other literals. -/
def sampleRaw : Call :=
  { raw := some 1
    pieces := [.text (chars "\""), bare .implicit, .text (chars "\" "), .hole ⟨.implicit, none, some .implicit, true, 0⟩,
      bare .implicit, bare .implicit]
    args := [⟨none, .lit (.str (chars "a\\\\b"))⟩, ⟨none, .expr 3⟩, ⟨none, .expr 4⟩, ⟨none, .lit (.chr (chars "\\'"))⟩,
      ⟨none, .lit (.bool true)⟩] }

def sampleRawNew : Call :=
  { raw := some 1
    pieces := [.text (chars "\""), .text (chars "a\\b"), .text (chars "\" "),
      .hole ⟨.implicit, none, some .implicit, true, 0⟩, .text (chars "'"), .text (chars "true")]
    args := [⟨none, .expr 3⟩, ⟨none, .expr 4⟩] }

example : check sampleRaw = some sampleRawNew ∧ (run sampleRaw).isSome := by decide +kernel

example : run sampleRawNew = run sampleRaw := by
  have : ∃ o, run sampleRaw = some o := Option.isSome_iff_exists.1 (by decide +kernel)
  obtain ⟨o, ho⟩ := this
  rw [ho]
  refine literal_same_partial (c := sampleRaw) (by decide +kernel) ?_ (.inr ⟨rfl, ?_⟩) (fun h => nomatch h) (fun _ => ?_) ho
  · intro h m
    simp [sampleRaw, bare] at m
    rcases m with rfl | rfl | rfl | rfl <;> rfl
  · intro a m l e
    simp [sampleRaw] at m
    rcases m with rfl | rfl | rfl | rfl | rfl <;> cases e <;> decide +kernel
  · intro a m l e
    simp [sampleRaw] at m
    rcases m with rfl | rfl | rfl | rfl | rfl <;> cases e <;> decide +kernel

/-- Silent: an argument that is used twice, other options, no literals. -/
example : check { raw := none, pieces := [bare (.number 0), bare (.number 0)], args := [⟨none, .lit (.bool true)⟩] } = none ∧
    check { raw := none, pieces := [.hole ⟨.implicit, none, none, false, 0⟩], args := [⟨none, .lit (.bool true)⟩] } = none ∧
    check { raw := none, pieces := [.hole ⟨.implicit, none, none, true, 1⟩], args := [⟨none, .lit (.bool true)⟩] } = none ∧
    check { raw := none, pieces := [bare .implicit], args := [⟨none, .expr 0⟩] } = none := by
  decide +kernel

/-! ### Calls that change -/

/-- What the call prints before and after. -/
def both (c : Call) : Option (Option (List (Out Nat)) × Option (List (Out Nat))) := (check c).map fun c' => (run c, run c')

/-- `"{} {:2$} {} {3}"` with `"a"`, 1, 2, 3 becomes `"a {:2$} {} {2}"` with 1, 2, 3: the width is not changed. -/
theorem width_shifted :
    both { raw := none,
           pieces := [bare .implicit, .hole ⟨.implicit, some (.number 2), none, true, 0⟩, bare .implicit, bare (.number 3)],
           args := [⟨none, .lit (.str (chars "a"))⟩, ⟨none, .expr 1⟩, ⟨none, .expr 2⟩, ⟨none, .expr 3⟩] } =
      some (some [.chr 'a', .value (.val 1) (some 2) none true 0, .value (.val 2) none none true 0,
                  .value (.val 3) none none true 0],
            some [.chr 'a', .value (.val 1) (some 3) none true 0, .value (.val 2) none none true 0,
                  .value (.val 3) none none true 0]) := by
  decide +kernel

/-- `r"{0}{1}{2}"` with `"\""`, `"a"` and 5 becomes `r"{0}a{0}"` with `"\""` and 5, which is not used. -/
theorem lint_counted :
    both { raw := some 0, pieces := [bare (.number 0), bare (.number 1), bare (.number 2)],
           args := [⟨none, .lit (.str (chars "\\\""))⟩, ⟨none, .lit (.str (chars "a"))⟩, ⟨none, .expr 5⟩] } =
      some (some [.chr '"', .chr 'a', .value (.val 5) none none true 0], none) ∧
    check { raw := some 0, pieces := [bare (.number 0), bare (.number 1), bare (.number 2)],
            args := [⟨none, .lit (.str (chars "\\\""))⟩, ⟨none, .lit (.str (chars "a"))⟩, ⟨none, .expr 5⟩] } =
      some { raw := some 0, pieces := [bare (.number 0), .text (chars "a"), bare (.number 0)],
             args := [⟨none, .lit (.str (chars "\\\""))⟩, ⟨none, .expr 5⟩] } := by
  decide +kernel

/-- `"{}"` with `"\x7bx\x7d"`: the escapes are braces before the format string is read, and `{x}` is a placeholder. -/
theorem brace_escape :
    both { raw := none, pieces := [bare .implicit], args := [⟨none, .lit (.str (chars "\\x7bx\\x7d"))⟩] } =
      some (some [.chr '{', .chr 'x', .chr '}'], none) ∧
    check { raw := none, pieces := [bare .implicit], args := [⟨none, .lit (.str (chars "\\x7bx\\x7d"))⟩] } =
      some { raw := none, pieces := [.text (chars "\\x7bx\\x7d")], args := [] } := by
  decide +kernel

/-- A backslash at the end of a line before the placeholder takes away the blank of `" a"`. -/
theorem blank_lost :
    both { raw := none, pieces := [.text (chars "\\\n  "), bare .implicit], args := [⟨none, .lit (.str (chars " a"))⟩] } =
      some (some [.chr ' ', .chr 'a'], some [.chr 'a']) := by
  decide +kernel

/-- `r#"a"{}#b"#` with `""`: the new string ends early. -/
theorem string_ends :
    both { raw := some 1, pieces := [.text (chars "a\""), bare .implicit, .text (chars "#b")],
           args := [⟨none, .lit (.str [])⟩] } =
      some (some [.chr 'a', .chr '"', .chr '#', .chr 'b'], none) := by
  decide +kernel

end Verif.LitFmt
