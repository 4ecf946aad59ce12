import Verif.Sugg.Spec

/-! # The grammar behind the parser, and that the parser follows it -/

namespace Verif.Sugg

/-- Derivations with precedence levels: 14 single tokens and parentheses, 13 prefix operators, below that
the binary operators. -/
inductive G : Nat → List Tok → Expr → Prop
  | atom (n : Nat) : G 14 [.atom n] (.atom n)
  | paren {ts e} : G 0 ts e → G 14 (paren ts) (.paren e)
  | un {ts e} (u : UnOp) : G 13 ts e → G 13 (.un u :: ts) (.un u e)
  | cast {ts e} (n : Nat) : G 12 ts e → G 12 (ts ++ [.op .cast, .ty n]) (.cast e n)
  | bin {ts us l r} (o : AssocOp) : o ≠ .cast → G (leftLevel o) ts l → G (rightLevel o) us r →
      (startsGenerics o = true → endsInType l = false) → G o.prec (ts ++ .op o :: us) (.bin o l r)
  | up {p q ts e} : G p ts e → q ≤ p → G q ts e

theorem prec_pos (o : AssocOp) : 1 ≤ o.prec ∧ o.prec ≤ 12 := by
  cases o with
  | binary b => cases b <;> simp [AssocOp.prec]
  | _ => simp [AssocOp.prec]

theorem prec_cast {o : AssocOp} (h : o ≠ .cast) : o.prec ≤ 11 := by
  cases o with
  | binary b => cases b <;> simp [AssocOp.prec]
  | cast => exact absurd rfl h
  | _ => simp [AssocOp.prec]

theorem G.bin_le {q ts o l r} (h : G q ts (.bin o l r)) : q ≤ o.prec := by
  generalize he : Expr.bin o l r = e at h
  induction h with
  | bin o' _ _ _ _ => simp only [Expr.bin.injEq] at he; rw [he.1]; exact Nat.le_refl _
  | up _ hle ih => exact Nat.le_trans hle (ih he)
  | _ => simp at he

theorem leftLevel_ge (o : AssocOp) : o.prec ≤ leftLevel o := by
  unfold leftLevel
  split
  · omega
  · split <;> omega

theorem rightLevel_ge (o : AssocOp) : o.prec ≤ rightLevel o := by
  unfold rightLevel
  split <;> omega

theorem not_rejected {o ts l} (h : G (leftLevel o) ts l)
    (hg : startsGenerics o = true → endsInType l = false) : rejected l o = false := by
  unfold rejected
  have h2 : (startsGenerics o && endsInType l) = false := by
    cases hs : startsGenerics o with
    | false => rfl
    | true => simp [hg hs]
  rw [h2, Bool.or_false]
  cases l with
  | bin o' a b =>
    have hle := h.bin_le
    simp only [Bool.and_eq_false_iff]
    cases hn : nonAssoc o' with
    | false => exact Or.inl rfl
    | true =>
      refine Or.inr ?_
      simp only [Bool.or_eq_false_iff, beq_eq_false_iff_ne, ne_eq]
      have h3 : o'.prec = 2 ∨ o'.prec = 5 := by simpa [nonAssoc] using hn
      have h4 := leftLevel_ge o
      have h5 := (prec_pos o).1
      constructor
      · intro e
        have : nonAssoc o = true := by
          unfold nonAssoc at hn ⊢
          rw [← e]; exact hn
        have hl : leftLevel o = o.prec + 1 := by
          unfold leftLevel
          rw [if_neg (by omega), if_pos this]
        omega
      · intro e
        by_cases h1 : o.prec = 1
        · have : leftLevel o = 3 := by unfold leftLevel; rw [if_pos h1]
          omega
        · by_cases h2 : o.prec = 2
          · have : nonAssoc o = true := by unfold nonAssoc; simp [h2]
            have hl : leftLevel o = o.prec + 1 := by
              unfold leftLevel
              rw [if_neg (by omega), if_pos this]
            omega
          · omega
  | _ => rfl

/-- With enough fuel. -/
def Ev {α} (g : Nat → Option α) (x : α) : Prop := ∃ n, ∀ f, n ≤ f → g f = some x

/-- What may follow an expression of level `q`. -/
def Follow (q : Nat) (rest : List Tok) : Prop :=
  ∀ o ts, rest = .op o :: ts → o.prec < q ∨ (o.prec = q ∧ q ≠ 1)

theorem Follow.mono {p q rest} (h : Follow q rest) (hle : q ≤ p) : Follow p rest := by
  intro o ts e
  rcases h o ts e with h | ⟨h1, h2⟩
  · exact Or.inl (by omega)
  · by_cases hpq : q = p
    · subst hpq; exact Or.inr ⟨h1, h2⟩
    · exact Or.inl (by omega)

theorem ev_rest_stop {p l rest} (h : ∀ o ts, rest = .op o :: ts → o.prec < p) :
    Ev (fun f => parseRest f p l rest) (l, rest) := by
  refine ⟨1, ?_⟩
  intro f hf
  obtain ⟨f, rfl⟩ : ∃ g, f = g + 1 := ⟨f - 1, by omega⟩
  cases rest with
  | nil => simp [parseRest]
  | cons t ts =>
    cases t with
    | op o => simp only [parseRest]; rw [if_pos (h o ts rfl)]
    | _ => simp [parseRest]

theorem ev_from {p ts e rest res} (h1 : Ev (fun f => parsePrefix f ts) (e, rest))
    (h2 : Ev (fun f => parseRest f p e rest) res) : Ev (fun f => parseFrom f p ts) res := by
  obtain ⟨n1, h1⟩ := h1
  obtain ⟨n2, h2⟩ := h2
  refine ⟨n1 + n2 + 1, ?_⟩
  intro f hf
  obtain ⟨f, rfl⟩ : ∃ g, f = g + 1 := ⟨f - 1, by omega⟩
  have e1 := h1 f (by omega)
  have e2 := h2 f (by omega)
  simp only [parseFrom] at e1 e2 ⊢
  rw [e1]
  exact e2

theorem G.parse {q ts e} (h : G q ts e) :
    (13 ≤ q → ∀ rest, Ev (fun f => parsePrefix f (ts ++ rest)) (e, rest)) ∧
    (∀ p rest res, p ≤ q → Follow q rest → Ev (fun f => parseRest f p e rest) res →
      Ev (fun f => parseFrom f p (ts ++ rest)) res) := by
  induction h with
  | atom n =>
    have hp : ∀ rest, Ev (fun f => parsePrefix f ([.atom n] ++ rest)) (.atom n, rest) := by
      intro rest
      refine ⟨1, fun f hf => ?_⟩
      obtain ⟨f, rfl⟩ : ∃ g, f = g + 1 := ⟨f - 1, by omega⟩
      simp [parsePrefix]
    exact ⟨fun _ => hp, fun p rest res _ _ hr => ev_from (hp rest) hr⟩
  | @paren ts e _ ih =>
    have hp : ∀ rest, Ev (fun f => parsePrefix f (Sugg.paren ts ++ rest)) (.paren e, rest) := by
      intro rest
      obtain ⟨n, hn⟩ := ih.2 0 (.rpar :: rest) (e, .rpar :: rest) (Nat.zero_le _)
        (by intro o ts h; simp at h) (ev_rest_stop (by intro o ts h; simp at h))
      refine ⟨n + 1, fun f hf => ?_⟩
      obtain ⟨f, rfl⟩ : ∃ g, f = g + 1 := ⟨f - 1, by omega⟩
      have := hn f (by omega)
      simp only [Sugg.paren, List.cons_append, List.append_assoc, List.nil_append, parsePrefix] at this ⊢
      rw [this]
      rfl
    exact ⟨fun _ => hp, fun p rest res _ _ hr => ev_from (hp rest) hr⟩
  | @un ts e u _ ih =>
    have hp : ∀ rest, Ev (fun f => parsePrefix f (.un u :: ts ++ rest)) (.un u e, rest) := by
      intro rest
      obtain ⟨n, hn⟩ := ih.1 (Nat.le_refl _) rest
      refine ⟨n + 1, fun f hf => ?_⟩
      obtain ⟨f, rfl⟩ : ∃ g, f = g + 1 := ⟨f - 1, by omega⟩
      have := hn f (by omega)
      simp only [List.cons_append, parsePrefix] at this ⊢
      rw [this]
      rfl
    exact ⟨fun _ => hp, fun p rest res _ _ hr => ev_from (hp rest) hr⟩
  | @cast ts e n hg ih =>
    refine ⟨fun h => absurd h (by omega), ?_⟩
    intro p rest res hp hf hr
    rw [List.append_assoc]
    apply ih.2 p _ _ hp
    · intro o ts' he
      simp only [List.cons_append, List.cons.injEq, Tok.op.injEq] at he
      exact Or.inr ⟨by rw [← he.1]; rfl, by omega⟩
    · obtain ⟨m, hm⟩ := hr
      refine ⟨m + 1, fun f hf' => ?_⟩
      obtain ⟨f, rfl⟩ : ∃ g, f = g + 1 := ⟨f - 1, by omega⟩
      have hrej : rejected e .cast = false := by
        have hg' : G (leftLevel .cast) ts e := hg
        exact not_rejected hg' (by intro h; simp [startsGenerics] at h)
      have := hm f (by omega)
      rw [List.cons_append, List.cons_append, List.nil_append]
      show parseRest (f + 1) p e (.op .cast :: .ty n :: rest) = some res
      rw [parseRest, if_neg (by simp only [AssocOp.prec]; omega), if_neg (by rw [hrej]; simp), if_pos rfl]
      exact this
  | @bin ts us l r o hc hgl hgr hs ihl ihr =>
    have hpr := prec_cast hc
    refine ⟨fun h => absurd h (by omega), ?_⟩
    intro p rest res hp hf hr
    rw [List.append_assoc]
    apply ihl.2 p _ _ (Nat.le_trans hp (leftLevel_ge o))
    · intro o' ts' he
      simp only [List.cons_append, List.cons.injEq, Tok.op.injEq] at he
      rw [← he.1]
      by_cases h1 : o.prec = 1
      · left; unfold leftLevel; rw [if_pos h1]; omega
      · have := leftLevel_ge o
        by_cases h2 : o.prec = leftLevel o
        · exact Or.inr ⟨h2, by omega⟩
        · exact Or.inl (by omega)
    · have hstop : ∀ o' ts', rest = .op o' :: ts' → o'.prec < rightLevel o := by
        intro o' ts' he
        unfold rightLevel
        rcases hf o' ts' he with h | ⟨h1, h2⟩
        · split <;> omega
        · rw [if_neg h2]; omega
      obtain ⟨n1, h1⟩ := ihr.2 (rightLevel o) rest (r, rest) (Nat.le_refl _)
        (fun o' ts' he => Or.inl (hstop o' ts' he)) (ev_rest_stop hstop)
      obtain ⟨n2, h2⟩ := hr
      refine ⟨n1 + n2 + 1, fun f hf' => ?_⟩
      obtain ⟨f, rfl⟩ : ∃ g, f = g + 1 := ⟨f - 1, by omega⟩
      simp only [List.cons_append, parseRest]
      rw [if_neg (by omega), if_neg (by rw [not_rejected hgl hs]; simp), if_neg hc]
      have := h1 f (by omega)
      simp only at this
      rw [this]
      exact h2 f (by omega)
  | @up p q ts e _ hle ih =>
    refine ⟨fun h => ih.1 (by omega), ?_⟩
    intro p' rest res hp hf hr
    exact ih.2 p' rest res (by omega) (hf.mono hle) hr

/-- A derivable text is read as the derived expression. -/
theorem G.parses {q ts e} (h : G q ts e) : Parses ts e := by
  have h0 : G 0 ts e := .up h (Nat.zero_le _)
  obtain ⟨n, hn⟩ := h0.parse.2 0 [] (e, []) (Nat.le_refl _) (by intro o ts h; simp at h)
    (ev_rest_stop (by intro o ts h; simp at h))
  refine ⟨n, ?_⟩
  have := hn n (Nat.le_refl _)
  simpa using this

theorem parse_mono : ∀ f : Nat,
    (∀ ts x, parsePrefix f ts = some x → parsePrefix (f + 1) ts = some x) ∧
    (∀ p ts x, parseFrom f p ts = some x → parseFrom (f + 1) p ts = some x) ∧
    (∀ p l ts x, parseRest f p l ts = some x → parseRest (f + 1) p l ts = some x) := by
  intro f
  induction f with
  | zero => simp [parsePrefix, parseFrom, parseRest]
  | succ f ih =>
    obtain ⟨ih1, ih2, ih3⟩ := ih
    refine ⟨?_, ?_, ?_⟩
    · intro ts x h
      cases ts with
      | nil => simp [parsePrefix] at h
      | cons t ts =>
        cases t with
        | un u =>
          simp only [parsePrefix, Option.bind_eq_bind, Option.bind_eq_some_iff] at h ⊢
          obtain ⟨y, hy, h⟩ := h
          exact ⟨y, ih1 _ _ hy, h⟩
        | atom n => simpa [parsePrefix] using h
        | lpar =>
          simp only [parsePrefix, Option.bind_eq_bind, Option.bind_eq_some_iff] at h ⊢
          obtain ⟨y, hy, h⟩ := h
          exact ⟨y, ih2 _ _ _ hy, h⟩
        | lam n =>
          simp only [parsePrefix, Option.bind_eq_bind, Option.bind_eq_some_iff] at h ⊢
          obtain ⟨y, hy, h⟩ := h
          exact ⟨y, ih2 _ _ _ hy, h⟩
        | _ => simp [parsePrefix] at h
    · intro p ts x h
      simp only [parseFrom, Option.bind_eq_bind, Option.bind_eq_some_iff] at h ⊢
      obtain ⟨y, hy, h⟩ := h
      exact ⟨y, ih1 _ _ hy, ih3 _ _ _ _ h⟩
    · intro p l ts x h
      cases ts with
      | nil => simpa [parseRest] using h
      | cons t ts =>
        cases t with
        | op o =>
          rw [parseRest] at h
          rw [parseRest]
          by_cases c1 : o.prec < p
          · rw [if_pos c1] at h ⊢; exact h
          · rw [if_neg c1] at h ⊢
            by_cases c2 : rejected l o = true
            · rw [if_pos c2] at h; simp at h
            · rw [if_neg c2] at h ⊢
              by_cases c3 : o = .cast
              · rw [if_pos c3] at h ⊢
                simp only [Option.bind_eq_bind, Option.bind_eq_some_iff] at h ⊢
                obtain ⟨y, hy, h⟩ := h
                exact ⟨y, hy, ih3 _ _ _ _ h⟩
              · rw [if_neg c3] at h ⊢
                simp only [Option.bind_eq_bind, Option.bind_eq_some_iff] at h ⊢
                obtain ⟨y, hy, h⟩ := h
                exact ⟨y, ih2 _ _ _ hy, ih3 _ _ _ _ h⟩
        | _ => simpa [parseRest] using h

/-- A text is read in at most one way. -/
theorem Parses.unique {ts e e'} (h : Parses ts e) (h' : Parses ts e') : e = e' := by
  have up : ∀ k f ts x, parseFrom f 0 ts = some x → parseFrom (f + k) 0 ts = some x := by
    intro k
    induction k with
    | zero => intro f ts x h; exact h
    | succ k ih => intro f ts x h; exact (parse_mono _).2.1 _ _ _ (ih f ts x h)
  obtain ⟨f, hf⟩ := h
  obtain ⟨f', hf'⟩ := h'
  have h1 := up f' f ts _ hf
  have h2 := up f f' ts _ hf'
  rw [Nat.add_comm] at h2
  rw [h1] at h2
  simpa using h2

theorem G.ends {q ts e} (h : G q ts e) : endsInType e = true ↔ ∃ n, ts.getLast? = some (.ty n) := by
  induction h with
  | atom n => simp [endsInType]
  | paren _ _ =>
    simp only [endsInType, Sugg.paren]
    rw [List.getLast?_append]
    simp
  | @un ts e u hg ih =>
    have : ts ≠ [] := by
      intro e0
      subst e0
      obtain ⟨f, hf⟩ := hg.parses
      cases f with
      | zero => simp [parseFrom] at hf
      | succ f => cases f <;> simp [parseFrom, parsePrefix] at hf
    simp only [endsInType, ih]
    obtain ⟨y, ys, rfl⟩ := List.exists_cons_of_ne_nil this
    simp [List.getLast?_cons_cons]
  | cast n _ _ => simp [endsInType]
  | @bin ts us l r o hc hgl hgr hs ihl ihr =>
    have : us ≠ [] := by
      intro e0
      subst e0
      obtain ⟨f, hf⟩ := hgr.parses
      cases f with
      | zero => simp [parseFrom] at hf
      | succ f => cases f <;> simp [parseFrom, parsePrefix] at hf
    simp only [endsInType, ihr]
    obtain ⟨y, ys, rfl⟩ := List.exists_cons_of_ne_nil this
    simp [List.getLast?_append, List.getLast?_cons_cons]
  | up _ _ ih => exact ih

end Verif.Sugg
