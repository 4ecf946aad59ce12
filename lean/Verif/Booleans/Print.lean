import Verif.Booleans.Props

/-!
# C35 — printing, and the whole lint
-/

namespace Verif.Booleans

open Verif.Sugg

/-- Formulas `recurse` prints unambiguously: no empty operand lists, no `!` on a constant or another `!`, no
operand with its parent's operator. -/
inductive Printable (T : List Expr) : B → Prop
  | tt : Printable T .tt
  | ff : Printable T .ff
  | term {n} : n < T.length → Printable T (.term n)
  | notTerm {n} : n < T.length → Printable T (.not (.term n))
  | not {b} : isAndOr b = true → Printable T b → Printable T (.not b)
  | and {l} : l ≠ [] → (∀ b ∈ l, Printable T b) → (∀ b ∈ l, ∀ k, b ≠ .and k) → Printable T (.and l)
  | or {l} : l ≠ [] → (∀ b ∈ l, Printable T b) → (∀ b ∈ l, isOr b = false) → Printable T (.or l)

section
variable {C : Ctx} {I : Interp} (S : Sem C I)

/-- The text is an expression of level `q` with the truth value `v`. -/
def Says (q : Nat) (ts : List Tok) (v : Bool) : Prop :=
  ∃ e, G q ts e ∧ S.isB (Sugg.eval I e) ∧ S.tr (Sugg.eval I e) = v

theorem Says.up {S : Sem C I} {q p ts v} (h : Says S p ts v) (hq : q ≤ p) : Says S q ts v := by
  obtain ⟨e, h1, h2⟩ := h
  exact ⟨e, .up h1 hq, h2⟩

theorem Says.paren {S : Sem C I} {q ts v} (h : Says S q ts v) : Says S 14 (paren ts) v := by
  obtain ⟨e, h1, h2⟩ := h
  exact ⟨.paren e, .paren (.up h1 (Nat.zero_le _)), h2⟩

theorem Says.not {S : Sem C I} {ts v} (h : Says S 13 ts v) : Says S 13 (.un .not :: ts) (!v) := by
  obtain ⟨e, h1, h2, h3⟩ := h
  refine ⟨.un .not e, .un .not h1, S.isB_not _ h2, ?_⟩
  simp only [Sugg.eval]
  rw [S.tr_not _ h2, h3]

theorem join_and {S : Sem C I} {α : Type} (f : α → List Tok) (w : α → Bool) : ∀ {l : List α} {t v},
    Says S 4 t v → (∀ x ∈ l, Says S 5 (f x) (w x)) →
    Says S 4 (t ++ (l.map f).flatMap fun u => .op (.binary .and) :: u) (v && (l.map w).all id)
  | [], t, v, h, _ => by simpa using h
  | x :: l, t, v, h, hl => by
    obtain ⟨e, h1, h2, h3⟩ := h
    obtain ⟨e', g1, g2, g3⟩ := hl x (by simp)
    have hstep : Says S 4 (t ++ .op (.binary .and) :: f x) (v && w x) := by
      have hg := G.bin (.binary .and) (by simp) (.up h1 (by decide)) (.up g1 (by decide))
        (l := e) (r := e') (by intro h; simp [startsGenerics] at h)
      refine ⟨.bin (.binary .and) e e', hg, S.isB_and _ _, ?_⟩
      simp only [Sugg.eval]
      rw [S.tr_and, h3, g3]
    have := join_and f w (l := l) hstep (fun y hy => hl y (by simp [hy]))
    simpa [Bool.and_assoc] using this

theorem join_or {S : Sem C I} {α : Type} (f : α → List Tok) (w : α → Bool) : ∀ {l : List α} {t v},
    Says S 3 t v → (∀ x ∈ l, Says S 4 (f x) (w x)) →
    Says S 3 (t ++ (l.map f).flatMap fun u => .op (.binary .or) :: u) (v || (l.map w).any id)
  | [], t, v, h, _ => by simpa using h
  | x :: l, t, v, h, hl => by
    obtain ⟨e, h1, h2, h3⟩ := h
    obtain ⟨e', g1, g2, g3⟩ := hl x (by simp)
    have hstep : Says S 3 (t ++ .op (.binary .or) :: f x) (v || w x) := by
      have hg := G.bin (.binary .or) (by simp) (.up h1 (by decide)) (.up g1 (by decide))
        (l := e) (r := e') (by intro h; simp [startsGenerics] at h)
      refine ⟨.bin (.binary .or) e e', hg, S.isB_or _ _, ?_⟩
      simp only [Sugg.eval]
      rw [S.tr_or, h3, g3]
    have := join_or f w (l := l) hstep (fun y hy => hl y (by simp [hy]))
    simpa [Bool.or_assoc] using this

theorem endsInType_wf_cast {l : Expr} (h : ∀ i n, l ≠ .cast i n)
    (h' : endsInType l = true → ∃ i n, l = .cast i n) : endsInType l = false := by
  cases he : endsInType l with
  | false => rfl
  | true => obtain ⟨i, n, e⟩ := h' he; exact absurd e (h i n)

/-- The opposite comparison is printed so that it reads as such. -/
theorem notCmp_says {o o' : BinOp} {l r : Expr} (hw : WF (.bin (.binary o) l r)) (hn : notOp o = some o')
    (hord : C.ord l = true) (hty : o = .ge → endsInType l = true → ∃ i n, l = .cast i n) :
    Says S 5 (lhsText o l ++ .op (.binary o') :: text r)
      (!S.tr (I.bin (.binary o) (Sugg.eval I l) (Sugg.eval I r))) := by
  obtain ⟨_, w2, w3, w4, w5, w6⟩ := hw
  have hng : negateOp o = some o' ∧ leftLevel (.binary o) = 6 ∧ rightLevel (.binary o) = 6 ∧
      leftLevel (.binary o') = 6 ∧ rightLevel (.binary o') = 6 ∧ (AssocOp.binary o').prec = 5 ∧
      (negateOp o').isSome = true ∧ (startsGenerics (.binary o') = true → o = .ge) := by
    cases o <;> simp [notOp] at hn <;> subst hn <;> decide
  obtain ⟨h1, h2, h3, h4, h5, h6, h7, h8⟩ := hng
  rw [h2] at w4
  rw [h3] at w5
  have hl : ∃ l', G 6 (lhsText o l) l' ∧ Sugg.eval I l' = Sugg.eval I l ∧
      (o = .ge → endsInType l' = false) := by
    unfold lhsText
    split
    · exact ⟨.paren l, .up (.paren (.up (wf_G w2) (Nat.zero_le _))) (by omega), rfl, fun _ => rfl⟩
    · next hc =>
      refine ⟨l, .up (wf_G w2) w4, rfl, ?_⟩
      rintro rfl
      apply endsInType_wf_cast _ (hty rfl)
      rintro i n rfl
      apply hc
      simp [looksParenthesized, text, isCast, peel]
  obtain ⟨l', g1, g2, g3⟩ := hl
  refine ⟨.bin (.binary o') l' r, ?_, ?_, ?_⟩
  · have := G.bin (.binary o') (by simp) (h4.symm ▸ g1) (h5.symm ▸ (G.up (wf_G w3) w5))
      (fun h => g3 (h8 h))
    rwa [h6] at this
  · simp only [Sugg.eval]; exact S.isB_cmp o' h7 _ _
  · simp only [Sugg.eval, g2]
    exact S.ord l o o' _ hord h1

theorem flipCmp_negateOp (o : BinOp) : flipCmp o = negateOp o := by cases o <;> rfl

theorem notOp_negateOp (o : BinOp) : notOp o = negateOp o := by cases o <;> rfl

/-- A negated terminal is printed as its negation. -/
theorem notTerm_says {t : Expr} (h : TInv S t) (hok : TermOk C t) :
    Says S 5 (notTerm C t) (!S.tr (Sugg.eval I t)) := by
  obtain ⟨hw, hl, hB, hnn⟩ := h
  have hwp := wf_peel hw
  have hplain : ∀ e, peel t = e → (∀ o l r, e = .bin (.binary o) l r → negateOp o = none) →
      (∀ i, e ≠ .un .not i) → (∀ n, e ≠ .atom n) → simplifyNot C t = none := by
    intro e he hb hu ha
    unfold simplifyNot
    rw [he]
    split
    · next o l r => rw [notOp_negateOp, hb o l r rfl]; simp
    · next n => exact absurd rfl (ha n)
    · next i => exact absurd rfl (hu i)
    · rfl
  have hpar : ∀ ts e, G 0 ts e → Sugg.eval I e = Sugg.eval I t →
      Says S 5 (.un .not :: paren ts) (!S.tr (Sugg.eval I t)) := by
    intro ts e hg he
    have : Says S 14 (paren ts) (S.tr (Sugg.eval I t)) :=
      ⟨.paren e, .paren hg, by simp only [Sugg.eval, he]; exact hB, by simp only [Sugg.eval, he]⟩
    exact (this.up (by omega)).not.up (by omega)
  unfold notTerm
  cases hp : peel t with
  | paren i => exact absurd hp (peel_not_paren t i)
  | lam n i => rw [hp] at hwp; exact absurd hwp (by simp [WF])
  | atom n =>
    have hs : simplifyNot C t = (C.negAtom n).map fun m => [.atom m] := by simp [simplifyNot, hp]
    rw [hs]
    have hev : Sugg.eval I t = I.atom n := by rw [← eval_peel, hp]; rfl
    cases hna : C.negAtom n with
    | some m =>
      refine ⟨.atom m, .up (.atom m) (by omega), (S.negAtom n m hna).1, ?_⟩
      rw [hev]; exact (S.negAtom n m hna).2
    | none =>
      simp only [Option.map_none, hirSugg, hp, logicalNot, makeUnop, Sugg.maybeInnerParen, Sugg.text]
      have hh : Says S 13 (text t) (S.tr (Sugg.eval I t)) := by
        refine ⟨t, ?_, hB, rfl⟩
        refine .up (wf_G hw) ?_
        rcases peel_lvl t with h | h
        · rw [← h, hp]; simp [lvl]
        · omega
      have : (if Sugg.startsWithUnary (.nonParen (text t)) = true then Sugg.nonParen (text t)
          else Sugg.maybeParenthesize (.nonParen (text t))) = .nonParen (text t) := by
        split <;> rfl
      rw [this]
      exact hh.not.up (by omega)
  | cast i n =>
    rw [hplain _ hp (by simp) (by simp) (by simp)]
    simp only [hirSugg, hp, logicalNot, makeUnop, Sugg.maybeInnerParen, Sugg.startsWithUnary,
      Sugg.maybeParenthesize, Sugg.text, Bool.false_eq_true, if_false]
    rw [hp] at hwp
    exact hpar _ (.cast i n) (.up (.cast n (.up (wf_G hwp.1) hwp.2)) (by omega))
      (by rw [← hp, eval_peel])
  | un u i =>
    have hu : u ≠ .not := by rintro rfl; exact hnn i hp
    rw [hplain _ hp (by simp) (by intro i' e; simp only [Expr.un.injEq] at e; exact hu e.1) (by simp)]
    simp only [hirSugg, hp, logicalNot, makeUnop, Sugg.text]
    have hlv : 13 ≤ lvl t := by
      rcases peel_lvl t with h | h
      · rw [← h, hp]; simp [lvl]
      · omega
    have hh : Says S 13 (text t) (S.tr (Sugg.eval I t)) := ⟨t, .up (wf_G hw) hlv, hB, rfl⟩
    have : ∃ ts, (Sugg.maybeInnerParen (.maybeParen (text t))).text = ts ∧
        Says S 13 ts (S.tr (Sugg.eval I t)) := by
      unfold Sugg.maybeInnerParen
      split
      · exact ⟨_, rfl, hh⟩
      · simp only [Sugg.maybeParenthesize]
        split
        · exact ⟨_, rfl, hh⟩
        · exact ⟨_, rfl, hh.paren.up (by omega)⟩
    obtain ⟨ts, e1, e2⟩ := this
    rw [e1]
    exact e2.not.up (by omega)
  | bin o l r =>
    rw [hp] at hwp
    have hev : Sugg.eval I t = I.bin o (Sugg.eval I l) (Sugg.eval I r) := by
      rw [← eval_peel, hp]; rfl
    have hG : G 0 (binopText o (text l) (text r)) (.bin o l r) := .up (wf_G hwp) (Nat.zero_le _)
    cases o with
    | binary o =>
      cases hno : negateOp o with
      | some o' =>
        obtain ⟨ho, hty⟩ := hok o l r hp (by rw [hno]; rfl)
        have hs : simplifyNot C t = some (lhsText o l ++ .op (.binary o') :: text r) := by
          simp [simplifyNot, hp, ho, notOp_negateOp, hno]
        rw [hs, hev]
        exact notCmp_says S hwp (by rw [notOp_negateOp, hno]) ho hty
      | none =>
        rw [hplain _ hp (by intro o' l' r' e; cases e; exact hno) (by simp) (by simp)]
        simp only [hirSugg, hp, logicalNot, flipCmp_negateOp, hno, makeUnop, Sugg.maybeInnerParen,
          Sugg.startsWithUnary, Sugg.maybeParenthesize, Sugg.text, Bool.false_eq_true, if_false]
        exact hpar _ _ hG hev.symm
    | _ =>
      rw [hplain _ hp (by simp) (by simp) (by simp)]
      simp only [hirSugg, hp, logicalNot, makeUnop, Sugg.maybeInnerParen, Sugg.startsWithUnary,
        Sugg.maybeParenthesize, Sugg.text, Bool.false_eq_true, if_false]
      exact hpar _ _ hG hev.symm

/-- Level of the printed text. -/
def outLevel : B → Nat
  | .or _ => 3
  | .and _ => 4
  | _ => 5

theorem printAnd_map (T : List Expr) : ∀ l, printAnd C T l =
    l.map fun b => if isOr b then Sugg.paren (printB C T b) else printB C T b
  | [] => by simp [printAnd]
  | b :: l => by simp [printAnd, printAnd_map T l]

theorem printOr_map (T : List Expr) : ∀ l, printOr C T l = l.map (printB C T)
  | [] => by simp [printOr]
  | b :: l => by simp [printOr, printOr_map T l]

theorem allB_all (ρ) : ∀ l, allB ρ l = (l.map (B.eval ρ)).all id
  | [] => by simp [allB]
  | b :: l => by simp [allB, allB_all ρ l]

theorem anyB_any (ρ) : ∀ l, anyB ρ l = (l.map (B.eval ρ)).any id
  | [] => by simp [anyB]
  | b :: l => by simp [anyB, anyB_any ρ l]

theorem termAt_mem {T : List Expr} {n : Nat} (h : n < T.length) : termAt T n ∈ T := by
  simp only [termAt, List.getD_eq_getElem?_getD, List.getElem?_eq_getElem h, Option.getD_some]
  exact List.getElem_mem h

/-- Printing a formula gives an expression with its truth value. -/
theorem print_says (hlits : C.Lits) {T : List Expr} (hT : ∀ t ∈ T, TInv S t)
    (hok : ∀ t ∈ T, TermOk C t) {b : B} (h : Printable T b) :
    Says S (outLevel b) (printB C T b) (b.eval (rho S T)) := by
  induction h with
  | tt =>
    refine ⟨.atom C.ttAtom, .up (.atom _) (by simp [outLevel]), (S.lit _ _ hlits.1).1, ?_⟩
    simp only [Sugg.eval, B.eval]; exact (S.lit _ _ hlits.1).2
  | ff =>
    refine ⟨.atom C.ffAtom, .up (.atom _) (by simp [outLevel]), (S.lit _ _ hlits.2).1, ?_⟩
    simp only [Sugg.eval, B.eval]; exact (S.lit _ _ hlits.2).2
  | @term n hn =>
    have ht := hT _ (termAt_mem hn)
    simp only [printB, B.eval, rho, outLevel]
    exact ⟨termAt T n, .up (wf_G ht.wf) ht.lvl, ht.isB, rfl⟩
  | @notTerm n hn =>
    simp only [printB, B.eval, rho, outLevel]
    exact notTerm_says S (hT _ (termAt_mem hn)) (hok _ (termAt_mem hn))
  | @not b ha _ ih =>
    cases b with
    | and l =>
      simp only [printB, B.eval, outLevel] at ih ⊢
      exact (ih.paren.up (by omega)).not.up (by omega)
    | or l =>
      simp only [printB, B.eval, outLevel] at ih ⊢
      exact (ih.paren.up (by omega)).not.up (by omega)
    | _ => simp [isAndOr] at ha
  | @and l hne _ hl ih =>
    simp only [printB, B.eval, outLevel, printAnd_map, allB_all]
    have each : ∀ b ∈ l, Says S 5 (if isOr b then Sugg.paren (printB C T b) else printB C T b)
        (b.eval (rho S T)) := by
      intro b hb
      have h1 := ih b hb
      have h2 := hl b hb
      cases b with
      | and k => exact absurd rfl (h2 k)
      | or k => exact h1.paren.up (by omega)
      | _ => exact h1
    cases l with
    | nil => exact absurd rfl hne
    | cons b l =>
      simp only [List.map_cons, join, List.all_cons, id]
      exact join_and _ _ ((each b (by simp)).up (by omega)) (fun x hx => each x (by simp [hx]))
  | @or l hne _ hl ih =>
    simp only [printB, B.eval, outLevel, printOr_map, anyB_any]
    have each : ∀ b ∈ l, Says S 4 (printB C T b) (b.eval (rho S T)) := by
      intro b hb
      have h1 := ih b hb
      have h2 := hl b hb
      cases b with
      | or k => simp [isOr] at h2
      | and k => exact h1
      | _ => exact h1.up (by simp [outLevel])
    have hr : (l.map (B.eval (rho S T))).any id = (l.reverse.map (B.eval (rho S T))).any id := by
      rw [List.map_reverse, List.any_reverse]
    rw [hr, ← List.map_reverse]
    have each' : ∀ b ∈ l.reverse, Says S 4 (printB C T b) (b.eval (rho S T)) :=
      fun b hb => each b (List.mem_reverse.1 hb)
    have hne' : l.reverse ≠ [] := by simpa using hne
    generalize l.reverse = k at each' hne'
    cases k with
    | nil => exact absurd rfl hne'
    | cons b l =>
      simp only [List.map_cons, join, List.any_cons, id]
      exact join_or _ _ ((each' b (by simp)).up (by omega)) (fun x hx => each' x (by simp [hx]))

end

/-! ## The candidates -/

mutual
/-- C35, negation: `simple_negate` gives a formula with the opposite value. -/
theorem simpleNegate_eval (ρ) : ∀ b, (simpleNegate b).eval ρ = !b.eval ρ
  | .tt | .ff | .term _ => by simp [simpleNegate, B.eval]
  | .not b => by simp [simpleNegate, B.eval]
  | .and l => by simp only [simpleNegate, B.eval]; exact (simpleNegateList_eval ρ l).1
  | .or l => by simp only [simpleNegate, B.eval]; exact (simpleNegateList_eval ρ l).2
theorem simpleNegateList_eval (ρ) : ∀ l, anyB ρ (simpleNegateList l) = !allB ρ l ∧
    allB ρ (simpleNegateList l) = !anyB ρ l
  | [] => by simp [simpleNegateList, anyB, allB]
  | b :: l => by
    simp only [simpleNegateList, anyB, allB, simpleNegate_eval ρ b, (simpleNegateList_eval ρ l).1,
      (simpleNegateList_eval ρ l).2]
    simp
end

mutual
theorem simpleNegate_count (n) : ∀ b, count n (simpleNegate b) = count n b
  | .tt | .ff | .term _ => by simp [simpleNegate, count]
  | .not b => by simp [simpleNegate, count]
  | .and l => by simp only [simpleNegate, count]; exact simpleNegateList_count n l
  | .or l => by simp only [simpleNegate, count]; exact simpleNegateList_count n l
theorem simpleNegateList_count (n) : ∀ l, countList n (simpleNegateList l) = countList n l
  | [] => by simp [simpleNegateList, countList]
  | b :: l => by simp only [simpleNegateList, countList, simpleNegate_count n b, simpleNegateList_count n l]
end

theorem simpleNegateList_map : ∀ l, simpleNegateList l = l.map simpleNegate
  | [] => by simp [simpleNegateList]
  | b :: l => by simp [simpleNegateList, simpleNegateList_map l]

theorem countList_mem {n : Nat} : ∀ {l : List B} {b : B}, b ∈ l → count n b ≠ 0 → countList n l ≠ 0
  | x :: l, b, h, hc => by
    simp only [countList]
    rcases List.mem_cons.1 h with rfl | h
    · omega
    · have := countList_mem h hc; omega

theorem lit_printable {T : List Expr} {b : B} (h : Lit b) (hc : ∀ n, count n b ≠ 0 → n < T.length) :
    Printable T b ∧ Printable T (simpleNegate b) ∧ (∀ k, b ≠ .and k) ∧ isOr b = false ∧
      (∀ k, simpleNegate b ≠ .and k) ∧ isOr (simpleNegate b) = false := by
  rcases h with ⟨n, rfl⟩ | ⟨n, rfl⟩
  · have : n < T.length := hc n (by simp [count])
    exact ⟨.term this, .notTerm this, by simp, rfl, by simp [simpleNegate], rfl⟩
  · have : n < T.length := hc n (by simp [count])
    exact ⟨.notTerm this, .term this, by simp, rfl, by simp [simpleNegate], rfl⟩

theorem prod_printable {T : List Expr} {b : B} (h : Prod b) (hc : ∀ n, count n b ≠ 0 → n < T.length) :
    Printable T b ∧ Printable T (simpleNegate b) ∧ isOr b = false ∧ ∀ k, simpleNegate b ≠ .and k := by
  rcases h with h | ⟨l, hne, rfl, hl⟩
  · obtain ⟨h1, h2, h3, h4, h5, h6⟩ := lit_printable h hc
    exact ⟨h1, h2, h4, h5⟩
  · have each : ∀ b ∈ l, _ := fun b hb => lit_printable (T := T) (hl b hb) fun n hn =>
      hc n (by simp only [count]; exact countList_mem hb hn)
    refine ⟨.and hne (fun b hb => (each b hb).1) (fun b hb => (each b hb).2.2.1), ?_, rfl, by simp [simpleNegate]⟩
    simp only [simpleNegate, simpleNegateList_map]
    refine .or (by simpa using hne) ?_ ?_ <;> intro b hb <;> obtain ⟨x, hx, rfl⟩ := List.mem_map.1 hb
    · exact (each x hx).2.1
    · exact (each x hx).2.2.2.2.2

theorem sop_printable {T : List Expr} {b : B} (h : Sop b) (hc : ∀ n, count n b ≠ 0 → n < T.length) :
    Printable T b ∧ Printable T (simpleNegate b) := by
  rcases h with rfl | rfl | h | ⟨l, hne, rfl, hl⟩
  · exact ⟨.tt, .ff⟩
  · exact ⟨.ff, .tt⟩
  · exact ⟨(prod_printable h hc).1, (prod_printable h hc).2.1⟩
  · have each : ∀ b ∈ l, _ := fun b hb => prod_printable (T := T) (hl b hb) fun n hn =>
      hc n (by simp only [count]; exact countList_mem hb hn)
    refine ⟨.or hne (fun b hb => (each b hb).1) (fun b hb => (each b hb).2.2.1), ?_⟩
    simp only [simpleNegate, simpleNegateList_map]
    refine .and (by simpa using hne) ?_ ?_ <;> intro b hb <;> obtain ⟨x, hx, rfl⟩ := List.mem_map.1 hb
    · exact (each x hx).2.1
    · exact (each x hx).2.2.2

theorem sop_not_printable {T : List Expr} {b : B} (h : Sop b) (hc : ∀ n, count n b ≠ 0 → n < T.length)
    (hn : isNotOrConst b = false) : Printable T (.not b) := by
  have hp := (sop_printable h hc).1
  cases b with
  | term n => exact .notTerm (hc n (by simp [count]))
  | and l => exact .not rfl hp
  | or l => exact .not rfl hp
  | _ => simp [isNotOrConst] at hn

/-- What every candidate satisfies. -/
def Good (T : List Expr) (b s : B) : Prop :=
  Printable T s ∧ (∀ ρ, s.eval ρ = b.eval ρ) ∧ ∀ n, count n s ≠ 0 → count n b ≠ 0

theorem pushNegations_good {T : List Expr} {b : B} (hb : ∀ n, count n b ≠ 0 → n < T.length) :
    ∀ (l acc : List B), (∀ s ∈ acc, Good T b s) →
    (∀ s ∈ l, Sop s ∧ (∀ ρ, s.eval ρ = !b.eval ρ) ∧ ∀ n, count n s ≠ 0 → count n b ≠ 0) →
    ∀ s ∈ pushNegations acc l, Good T b s
  | [], acc, ha, _, s, hs => ha s hs
  | x :: l, acc, ha, hl, s, hs => by
    unfold pushNegations at hs
    obtain ⟨h1, h2, h3⟩ := hl x (by simp)
    have hc : ∀ n, count n x ≠ 0 → n < T.length := fun n hn => hb n (h3 n hn)
    refine pushNegations_good hb l _ ?_ (fun y hy => hl y (by simp [hy])) s hs
    have a1 : ∀ s ∈ (if isNotOrConst x then acc else acc ++ [.not x]), Good T b s := by
      intro s hs
      split at hs
      · exact ha s hs
      · next hn =>
        rcases List.mem_append.1 hs with hs | hs
        · exact ha s hs
        · rw [List.mem_singleton] at hs
          subst hs
          refine ⟨sop_not_printable h1 hc (by simpa using hn), ?_, by simpa [count] using h3⟩
          intro ρ; simp [B.eval, h2]
    intro s hs
    generalize (if isNotOrConst x then acc else acc ++ [.not x]) = acc' at hs a1
    split at hs
    · exact a1 s hs
    · rcases List.mem_append.1 hs with hs | hs
      · exact a1 s hs
      · rw [List.mem_singleton] at hs
        subst hs
        refine ⟨(sop_printable h1 hc).2, ?_, ?_⟩
        · intro ρ; rw [simpleNegate_eval, h2, Bool.not_not]
        · intro n hn; rw [simpleNegate_count] at hn; exact h3 n hn

theorem candidates_good {simplify : B → List B} (hs : Simplifier simplify) {T : List Expr} {b : B}
    (hb : ∀ n, count n b ≠ 0 → n < T.length) : ∀ s ∈ candidates simplify b, Good T b s := by
  unfold candidates
  apply pushNegations_good hb
  · intro s h
    obtain ⟨h1, h2, h3⟩ := hs b s h
    exact ⟨(sop_printable h1 fun n hn => hb n (h3 n hn)).1, h2, h3⟩
  · intro s h
    obtain ⟨h1, h2, h3⟩ := hs (.not b) s h
    exact ⟨h1, fun ρ => by rw [h2]; simp [B.eval], fun n hn => by simpa [count] using h3 n hn⟩

theorem pushNegations_eval {b : B} : ∀ (l acc : List B), (∀ s ∈ acc, ∀ ρ, s.eval ρ = b.eval ρ) →
    (∀ s ∈ l, ∀ ρ, s.eval ρ = !b.eval ρ) → ∀ s ∈ pushNegations acc l, ∀ ρ, s.eval ρ = b.eval ρ
  | [], acc, ha, _, s, hs => ha s hs
  | x :: l, acc, ha, hl, s, hs => by
    unfold pushNegations at hs
    have h2 := hl x (by simp)
    refine pushNegations_eval l _ ?_ (fun y hy => hl y (by simp [hy])) s hs
    have a1 : ∀ s ∈ (if isNotOrConst x then acc else acc ++ [.not x]), ∀ ρ, s.eval ρ = b.eval ρ := by
      intro s hs ρ
      split at hs
      · exact ha s hs ρ
      · rcases List.mem_append.1 hs with hs | hs
        · exact ha s hs ρ
        · rw [List.mem_singleton] at hs
          simp [hs, B.eval, h2]
    intro s hs ρ
    generalize (if isNotOrConst x then acc else acc ++ [.not x]) = acc' at hs a1
    split at hs
    · exact a1 s hs ρ
    · rcases List.mem_append.1 hs with hs | hs
      · exact a1 s hs ρ
      · rw [List.mem_singleton] at hs
        rw [hs, simpleNegate_eval, h2, Bool.not_not]

/-- Every candidate is equivalent to the condition. -/
theorem candidates_eval {simplify : B → List B} (hs : Simplifier simplify) (b : B) :
    ∀ s ∈ candidates simplify b, ∀ ρ, s.eval ρ = b.eval ρ :=
  pushNegations_eval _ _ (fun s h => (hs b s h).2.1)
    (fun s h ρ => by rw [(hs (.not b) s h).2.1]; simp [B.eval])

/-- The suggestions in a report. -/
def Report.suggestions : Report → List B
  | .overlyComplex _ s => [s]
  | .nonminimal ss => ss

theorem select_mem {b : B} : ∀ (l acc : List B) (s : B), s ∈ (select b acc l).suggestions → s ∈ acc ∨ s ∈ l
  | [], acc, s, h => .inl h
  | x :: l, acc, s, h => by
    unfold select at h
    split at h
    · rcases select_mem l _ s h with h | h
      · exact .inl h
      · exact .inr (by simp [h])
    · simp only [Report.suggestions, List.mem_singleton] at h
      exact .inr (by simp [h])
    · rcases select_mem l _ s h with h | h
      · split at h
        · rcases List.mem_append.1 h with h | h
          · exact .inl h
          · exact .inr (by simp at h; simp [h])
        · exact .inl h
      · exact .inr (by simp [h])

section
variable {C : Ctx} {I : Interp} (S : Sem C I)

/-- The whole condition, translated: what `run` returns stands for the condition. -/
theorem run_sound {e : Expr} {b : B} {T : List Expr} (h : run C e = some (b, T)) (hw : WF e)
    (hl : 3 ≤ lvl e) (ht : Typed C e) (hB : S.isB (Sugg.eval I e)) :
    b.eval (rho S T) = S.tr (Sugg.eval I e) ∧ (∀ n, count n b ≠ 0 → n < T.length) ∧
      ∀ t ∈ T, TInv S t := by
  unfold run at h
  split at h
  case h_2 => cases h
  case h_1 b' T' hc =>
    cases h
    obtain ⟨_, _, h3, h4, h5⟩ := conv_sound S e .single e [] T [b] hc rfl hw hw hl hB ht (by simp)
    have := h3 T List.prefix_rfl
    rw [meaning_single] at this
    exact ⟨this, fun n hn => h4 n (by simpa [countList] using hn), h5⟩

/-- C35, the proved part. Every suggestion printed for a condition is read by the compiler, in one way only,
as a condition with the same truth value, for every meaning of the atoms. Assumed: the simplifier returns
equivalent sums of products; every atom that is a comparison is over a totally ordered type and its left
operand does not end in a cast (see `float_violation`, `cast_violation`). -/
theorem suggestions_keep_value_partial {simplify : B → List B} (hs : Simplifier simplify)
    (hlits : C.Lits) {e : Expr} (hw : WF e) (hl : 3 ≤ lvl e) (ht : Typed C e)
    (hB : S.isB (Sugg.eval I e)) {b : B} {T : List Expr} {r : Report}
    (h : boolExpr C simplify e = some (b, T, r)) (hok : ∀ t ∈ T, TermOk C t) :
    ∀ s ∈ r.suggestions, ∃ e', Parses (printB C T s) e' ∧ (∀ e'', Parses (printB C T s) e'' → e'' = e') ∧
      S.tr (Sugg.eval I e') = S.tr (Sugg.eval I e) := by
  unfold boolExpr at h
  split at h
  case h_2 => cases h
  case h_1 b' T' hr =>
    split at h
    case isTrue => cases h
    case isFalse =>
      cases h
      obtain ⟨h1, h2, h3⟩ := run_sound S hr hw hl ht hB
      intro s hsm
      have hmem : s ∈ candidates simplify b := (select_mem _ _ s hsm).resolve_left (by simp)
      obtain ⟨g1, g2, _⟩ := candidates_good hs h2 s hmem
      obtain ⟨e', p1, p2, p3⟩ := print_says S hlits h3 hok g1
      refine ⟨e', p1.parses, fun e'' hp => hp.unique p1.parses, ?_⟩
      rw [p3, g2, h1]

/-! ## The verdicts -/

mutual
theorem eval_indep {i : Nat} {ρ ρ' : Nat → Bool} (h : ∀ n, n ≠ i → ρ n = ρ' n) : ∀ b : B,
    count i b = 0 → b.eval ρ = b.eval ρ'
  | .tt, _ | .ff, _ => rfl
  | .term n, hc => by
    simp only [B.eval]
    apply h
    rintro rfl
    simp [count] at hc
  | .not b, hc => by simp only [B.eval]; rw [eval_indep h b (by simpa [count] using hc)]
  | .and l, hc => by simp only [B.eval]; exact (evalList_indep h l (by simpa [count] using hc)).1
  | .or l, hc => by simp only [B.eval]; exact (evalList_indep h l (by simpa [count] using hc)).2
theorem evalList_indep {i : Nat} {ρ ρ' : Nat → Bool} (h : ∀ n, n ≠ i → ρ n = ρ' n) : ∀ l : List B,
    countList i l = 0 → allB ρ l = allB ρ' l ∧ anyB ρ l = anyB ρ' l
  | [], _ => ⟨rfl, rfl⟩
  | b :: l, hc => by
    simp only [countList] at hc
    have h1 := eval_indep h b (by omega)
    have h2 := evalList_indep h l (by omega)
    exact ⟨by simp only [allB]; rw [h1, h2.1], by simp only [anyB]; rw [h1, h2.2]⟩
end

theorem judge_drops {b s : B} : ∀ {is : List Nat} {imp : Bool} {i : Nat}, judge b s is imp = .drops i →
    count i b ≠ 0 ∧ count i s = 0
  | j :: is, imp, i, h => by
    unfold judge at h
    split at h
    · cases h
    · split at h
      · next hc =>
        cases h
        simpa using hc
      · exact judge_drops h

theorem judge_done {b s : B} : ∀ {is : List Nat} {imp imp' : Bool}, judge b s is imp = .done imp' →
    ∀ i ∈ is, count i s ≤ count i b ∧ (count i b ≠ 0 → count i s ≠ 0)
  | j :: is, imp, imp', h, i, hi => by
    unfold judge at h
    split at h
    · cases h
    · next h1 =>
      split at h
      · cases h
      · next h2 =>
        rcases List.mem_cons.1 hi with rfl | hi
        · refine ⟨by omega, fun h0 hs => h2 (by simp [h0, hs])⟩
        · exact judge_done h i hi

theorem select_overly {b : B} : ∀ {l acc : List B} {i : Nat} {s : B}, select b acc l = .overlyComplex i s →
    s ∈ l ∧ count i b ≠ 0 ∧ count i s = 0
  | x :: l, acc, i, s, h => by
    unfold select at h
    split at h
    · have := select_overly h; exact ⟨by simp [this.1], this.2⟩
    · next hj => cases h; exact ⟨by simp, judge_drops hj⟩
    · have := select_overly h; exact ⟨by simp [this.1], this.2⟩

/-- C35, the verdict: an atom reported as removable occurs in the condition and has no influence on its
value. -/
theorem optimized_out {simplify : B → List B} (hs : Simplifier simplify) {e : Expr} {b : B}
    {T : List Expr} {i : Nat} {s : B} (h : boolExpr C simplify e = some (b, T, .overlyComplex i s)) :
    count i b ≠ 0 ∧ ∀ ρ ρ' : Nat → Bool, (∀ n, n ≠ i → ρ n = ρ' n) → b.eval ρ = b.eval ρ' := by
  unfold boolExpr at h
  split at h
  case h_2 => cases h
  case h_1 b' T' hr =>
    split at h
    case isTrue => cases h
    case isFalse =>
      simp only [Option.some.injEq, Prod.mk.injEq] at h
      obtain ⟨rfl, rfl, h⟩ := h
      obtain ⟨h1, h2, h3⟩ := select_overly h
      refine ⟨h2, ?_⟩
      intro ρ ρ' hρ
      have key := candidates_eval hs b' s h1
      rw [← key, ← key, eval_indep hρ s h3]

theorem select_improves {b : B} : ∀ {l acc ss : List B}, select b acc l = .nonminimal ss →
    ∀ s ∈ ss, s ∈ acc ∨ ∀ i < 32, count i s ≤ count i b ∧ (count i b ≠ 0 → count i s ≠ 0)
  | [], acc, ss, h, s, hs => by
    simp only [select, Report.nonminimal.injEq] at h
    exact .inl (h ▸ hs)
  | x :: l, acc, ss, h, s, hs => by
    unfold select at h
    split at h
    · exact select_improves h s hs
    · cases h
    · next imp hj =>
      rcases select_improves h s hs with h' | h'
      · split at h'
        · rcases List.mem_append.1 h' with h' | h'
          · exact .inl h'
          · rw [List.mem_singleton] at h'
            subst h'
            exact .inr fun i hi => judge_done hj i (List.mem_range.2 hi)
        · exact .inl h'
      · exact .inr h'

/-- C35: a `nonminimal_bool` suggestion mentions exactly the atoms of the condition, none of them more
often. -/
theorem suggestions_not_longer {simplify : B → List B} {e : Expr} {b : B} {T : List Expr} {ss : List B}
    (h : boolExpr C simplify e = some (b, T, .nonminimal ss)) :
    ∀ s ∈ ss, ∀ i < 32, count i s ≤ count i b ∧ (count i b ≠ 0 → count i s ≠ 0) := by
  unfold boolExpr at h
  split at h
  case h_2 => cases h
  case h_1 b' T' hr =>
    split at h
    case isTrue => cases h
    case isFalse =>
      simp only [Option.some.injEq, Prod.mk.injEq] at h
      obtain ⟨rfl, rfl, h⟩ := h
      intro s hs
      exact (select_improves h s hs).resolve_left (by simp)

/-! ## The other two rewrites -/

theorem simplifyNot_says {e : Expr} {ts : List Tok} (hw : WF e)
    (hnot : ∀ i, peel e = .un .not i → C.boolTy i = true) (hok : TermOk C e)
    (h : simplifyNot C e = some ts) : Says S 5 ts (!S.tr (Sugg.eval I e)) ∧
      (lvl (peel e) ≠ 5 → Says S 13 ts (!S.tr (Sugg.eval I e))) := by
  have hwp := wf_peel hw
  rw [← eval_peel I e]
  unfold simplifyNot at h
  cases hp : peel e with
  | bin o l r =>
    rw [hp] at h hwp
    cases o with
    | binary o =>
      simp only at h
      split at h
      case isFalse => cases h
      case isTrue ho =>
        rw [Option.map_eq_some_iff] at h
        obtain ⟨o', h1, rfl⟩ := h
        have h5 : (AssocOp.binary o).prec = 5 := by
          cases o <;> simp [notOp] at h1 <;> rfl
        refine ⟨notCmp_says S hwp h1 ho (hok o l r hp ?_).2, fun h => absurd h5 h⟩
        rw [← notOp_negateOp, h1]; rfl
    | _ => simp at h
  | atom n =>
    rw [hp] at h
    simp only [Option.map_eq_some_iff] at h
    obtain ⟨m, h1, rfl⟩ := h
    have : Says S 14 [.atom m] (!S.tr (I.atom n)) := ⟨.atom m, .atom m, (S.negAtom n m h1).1, (S.negAtom n m h1).2⟩
    exact ⟨this.up (by omega), fun _ => this.up (by omega)⟩
  | un u i =>
    by_cases hu : u = .not
    · subst hu
      rw [hp] at h hwp
      cases h
      have hb := S.boolTy _ (hnot i hp)
      have : Says S 13 (text i) (!S.tr (Sugg.eval I (.un .not i))) := by
        refine ⟨i, .up (wf_G hwp.1) hwp.2, hb, ?_⟩
        simp only [Sugg.eval]
        rw [S.tr_not _ hb, Bool.not_not]
      exact ⟨this.up (by omega), fun _ => this⟩
    · rw [hp] at h
      cases u <;> simp_all
  | paren i => exact absurd hp (peel_not_paren e i)
  | cast i n => rw [hp] at h; simp at h
  | lam n i => rw [hp] at h; simp at h

/-- C35: the replacement of `!inner` by the negated `inner` has the same value and binds at least as tightly
as `!`, so it can stand wherever an unparenthesised `!inner` stood. -/
theorem check_simplify_not_sound {e inner : Expr} {ts : List Tok} (he : peel e = .un .not inner)
    (hw : WF e) (hB : C.boolTy inner = true)
    (hnot : ∀ i, peel inner = .un .not i → C.boolTy i = true) (hok : TermOk C inner)
    (h : checkSimplifyNot C e = some ts) :
    ∃ e', G 13 ts e' ∧ S.tr (Sugg.eval I e') = S.tr (Sugg.eval I e) := by
  unfold checkSimplifyNot at h
  rw [he] at h
  simp only at h
  split at h
  case h_2 => cases h
  case h_1 us hs =>
    have hw' : WF inner := by
      have := wf_peel hw
      rw [he] at this
      exact this.1
    have hb := S.boolTy _ hB
    obtain ⟨h5, h13⟩ := simplifyNot_says S hw' hnot hok hs
    have hev : S.tr (Sugg.eval I e) = !S.tr (Sugg.eval I inner) := by
      rw [← eval_peel I e, he]
      simp only [Sugg.eval]
      exact S.tr_not _ hb
    rw [hev]
    cases h
    split
    · obtain ⟨e', g1, _, g3⟩ := h5.paren
      exact ⟨e', .up g1 (by omega), g3⟩
    · next hm =>
      have : lvl (peel inner) ≠ 5 := by
        intro h
        apply hm
        unfold maybePar hirSugg
        cases hp : peel inner with
        | bin o l r => rfl
        | atom n => rw [hp] at h; simp [lvl] at h
        | un u i => rw [hp] at h; simp [lvl] at h
        | cast i n => rfl
        | paren i => exact absurd hp (peel_not_paren inner i)
        | lam n i => rw [hp] at h; simp [lvl] at h
      obtain ⟨e', g1, _, g3⟩ := h13 this
      exact ⟨e', g1, g3⟩

/-- C35: comparing booleans, one or both negated. The replacement of `left op right` has its value and is a
comparison again. -/
theorem inverted_bool_sound {o : BinOp} {left right : Expr} {ts : List Tok}
    (hw : WF (.bin (.binary o) left right))
    (hnot : ∀ x i, (x = left ∨ x = right) → peel x = .un .not i → C.boolTy i = true)
    (h : invertedBool C o left right = some ts) :
    ∃ e', G 5 ts e' ∧
      S.tr (Sugg.eval I e') = S.tr (Sugg.eval I (.bin (.binary o) left right)) := by
  unfold invertedBool at h
  split at h
  case isFalse => cases h
  case isTrue hb =>
    rw [Bool.and_eq_true] at hb
    obtain ⟨_, w2, w3, w4, w5, _⟩ := hw
    have hbl := S.boolTy _ hb.1
    have hbr := S.boolTy _ hb.2
    have operand : ∀ {x i}, (x = left ∨ x = right) → WF x → notOperand x = some i →
        G 6 (text i) i ∧ S.isB (Sugg.eval I i) ∧ S.tr (Sugg.eval I x) = !S.tr (Sugg.eval I i) := by
      intro x i hx hwx hi
      unfold notOperand at hi
      split at hi
      case h_2 => cases hi
      case h_1 i' hp =>
        cases hi
        have := wf_peel hwx
        rw [hp] at this
        have hbi := S.boolTy _ (hnot x i hx hp)
        refine ⟨.up (wf_G this.1) (by have := this.2; omega), hbi, ?_⟩
        rw [← eval_peel I x, hp]
        simp only [Sugg.eval]
        exact S.tr_not _ hbi
    have hlv : o = .eq ∨ o = .ne := by
      cases o <;> first
        | exact .inl rfl
        | exact .inr rfl
        | (exfalso; simp only [plainEq, invertedEq, Option.map_none] at h; split at h <;> cases h)
    have mk : ∀ {o' : BinOp} {tl tr el er}, (o' = .eq ∨ o' = .ne) → G 6 tl el → G 6 tr er →
        G 5 (tl ++ .op (.binary o') :: tr) (.bin (.binary o') el er) := by
      intro o' tl tr el er ho h1 h2
      rcases ho with rfl | rfl
      · exact G.bin (.binary .eq) (by simp) h1 h2 (by intro h; simp [startsGenerics] at h)
      · exact G.bin (.binary .ne) (by simp) h1 h2 (by intro h; simp [startsGenerics] at h)
    have h6 : leftLevel (.binary o) = 6 ∧ rightLevel (.binary o) = 6 := by
      rcases hlv with rfl | rfl <;> decide
    rw [h6.1] at w4
    rw [h6.2] at w5
    have gl : G 6 (text left) left := .up (wf_G w2) w4
    have gr : G 6 (text right) right := .up (wf_G w3) w5
    split at h
    case h_1 l r hl hr =>
      obtain ⟨a1, a2, a3⟩ := operand (.inl rfl) w2 hl
      obtain ⟨c1, c2, c3⟩ := operand (.inr rfl) w3 hr
      rcases hlv with rfl | rfl <;> cases h
      · refine ⟨_, mk (.inl rfl) a1 c1, ?_⟩
        simp only [Sugg.eval]
        rw [S.tr_eq _ _ a2 c2, S.tr_eq _ _ hbl hbr, a3, c3]
        cases S.tr (Sugg.eval I l) <;> cases S.tr (Sugg.eval I r) <;> rfl
      · refine ⟨_, mk (.inr rfl) a1 c1, ?_⟩
        simp only [Sugg.eval]
        rw [S.tr_ne _ _ a2 c2, S.tr_ne _ _ hbl hbr, a3, c3]
        cases S.tr (Sugg.eval I l) <;> cases S.tr (Sugg.eval I r) <;> rfl
    case h_2 l hl hr =>
      obtain ⟨a1, a2, a3⟩ := operand (.inl rfl) w2 hl
      rcases hlv with rfl | rfl <;> cases h
      · refine ⟨_, mk (.inr rfl) a1 gr, ?_⟩
        simp only [Sugg.eval]
        rw [S.tr_ne _ _ a2 hbr, S.tr_eq _ _ hbl hbr, a3]
        cases S.tr (Sugg.eval I l) <;> cases S.tr (Sugg.eval I right) <;> rfl
      · refine ⟨_, mk (.inl rfl) a1 gr, ?_⟩
        simp only [Sugg.eval]
        rw [S.tr_eq _ _ a2 hbr, S.tr_ne _ _ hbl hbr, a3]
        cases S.tr (Sugg.eval I l) <;> cases S.tr (Sugg.eval I right) <;> rfl
    case h_3 r hl hr =>
      obtain ⟨c1, c2, c3⟩ := operand (.inr rfl) w3 hr
      rcases hlv with rfl | rfl <;> cases h
      · refine ⟨_, mk (.inr rfl) gl c1, ?_⟩
        simp only [Sugg.eval]
        rw [S.tr_ne _ _ hbl c2, S.tr_eq _ _ hbl hbr, c3]
        cases S.tr (Sugg.eval I left) <;> cases S.tr (Sugg.eval I r) <;> rfl
      · refine ⟨_, mk (.inl rfl) gl c1, ?_⟩
        simp only [Sugg.eval]
        rw [S.tr_eq _ _ hbl c2, S.tr_ne _ _ hbl hbr, c3]
        cases S.tr (Sugg.eval I left) <;> cases S.tr (Sugg.eval I r) <;> rfl
    case h_4 => cases h

end

end Verif.Booleans
