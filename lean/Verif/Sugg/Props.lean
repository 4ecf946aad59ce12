import Verif.Sugg.Grammar

/-!
# C16 — suggestions parse back to what they were built from; C53 — negated suggestions
-/

namespace Verif.Sugg

/-- A value for every meaning of the operators. -/
abbrev Val := (I : Interp) → I.V

/-- The expression has the value under every lawful meaning of the operators. -/
def Evals (e : Expr) (v : Val) : Prop := ∀ I : Interp, I.Lawful → eval I e = v I

/-- The operators that `associativity` calls associative, apart from `as`. -/
def bothOps : List BinOp := [.add, .mul, .bitAnd, .bitOr, .bitXor, .and, .or]

/-- Text that may stand unparenthesised to the right of `*` in a `*` chain. -/
def NoDivRem (ts : List Tok) : Prop := .op (.binary .div) ∉ ts ∧ .op (.binary .rem) ∉ ts

/-- The suggestion is well formed and stands for the value: its parts are expression texts of the right
kind. This describes what `Sugg::hir` produces for source expressions that are not closures, `return` or
`break` (see `leaves` below), and is kept by the operations. -/
def Denotes : Sugg → Val → Prop
  | .nonParen ts, v => ∃ e, G 14 ts e ∧ Evals e v
  | .maybeParen ts, v => ∃ e, G 13 ts e ∧ Evals e v
  | .binOp op l r, v =>
      if op = .cast then ∃ e n, r = [.ty n] ∧ G 12 l e ∧ Evals (.cast e n) v
      else ∃ el er, G (leftLevel op) l el ∧ (startsGenerics op = true → endsInType el = false) ∧
        (G (rightLevel op) r er ∨
          ∃ o ∈ bothOps, op = .binary o ∧ G op.prec r er ∧ (o = .mul → NoDivRem r)) ∧
        Evals (.bin op el er) v
  | .unOp op inner, v => ∃ w, Denotes inner w ∧ ∀ I : Interp, I.Lawful → I.un op (w I) = v I

theorem Denotes.congr {s : Sugg} {v w : Val} (h : Denotes s v) (hv : ∀ I : Interp, I.Lawful → v I = w I) :
    Denotes s w := by
  cases s with
  | nonParen ts => obtain ⟨e, h1, h2⟩ := h; exact ⟨e, h1, fun I hI => (h2 I hI).trans (hv I hI)⟩
  | maybeParen ts => obtain ⟨e, h1, h2⟩ := h; exact ⟨e, h1, fun I hI => (h2 I hI).trans (hv I hI)⟩
  | binOp op l r =>
    by_cases hc : op = .cast
    · simp only [Denotes, hc, if_true] at h ⊢
      obtain ⟨e, n, h1, h2, h3⟩ := h
      exact ⟨e, n, h1, h2, fun I hI => (h3 I hI).trans (hv I hI)⟩
    · simp only [Denotes, hc, if_false] at h ⊢
      obtain ⟨el, er, h1, h2, h3, h4⟩ := h
      exact ⟨el, er, h1, h2, h3, fun I hI => (h4 I hI).trans (hv I hI)⟩
  | unOp op inner =>
    obtain ⟨w', h1, h2⟩ := h
    exact ⟨w', h1, fun I hI => (h2 I hI).trans (hv I hI)⟩

/-! ## Texts of well-formed suggestions -/

theorem same_level {o : BinOp} (ho : o ∈ bothOps) {o2 : AssocOp} (h : o2.prec = (AssocOp.binary o).prec) :
    o2 = .binary o ∨ (o = .add ∧ o2 = .binary .sub) ∨
      (o = .mul ∧ (o2 = .binary .div ∨ o2 = .binary .rem)) := by
  simp only [bothOps, List.mem_cons, List.not_mem_nil, or_false] at ho
  rcases ho with rfl | rfl | rfl | rfl | rfl | rfl | rfl <;>
    (cases o2 with
      | binary b => cases b <;> simp_all [AssocOp.prec]
      | _ => simp_all [AssocOp.prec])

theorem both_levels {o : BinOp} (ho : o ∈ bothOps) :
    leftLevel (.binary o) = (AssocOp.binary o).prec ∧
      rightLevel (.binary o) = (AssocOp.binary o).prec + 1 ∧
      startsGenerics (.binary o) = false ∧ (AssocOp.binary o).prec ≤ 11 := by
  simp only [bothOps, List.mem_cons, List.not_mem_nil, or_false] at ho
  rcases ho with rfl | rfl | rfl | rfl | rfl | rfl | rfl <;>
    simp [leftLevel, rightLevel, startsGenerics, AssocOp.prec, nonAssoc]

/-- Placing an unparenthesised chain of an associative operator to the right of that operator. -/
theorem merge {o : BinOp} (ho : o ∈ bothOps) {L : List Tok} {el : Expr}
    (hL : G (AssocOp.binary o).prec L el) {q ts e} (h : G q ts e) :
    (AssocOp.binary o).prec ≤ q → (o = .mul → NoDivRem ts) →
    ∃ e', G (AssocOp.binary o).prec (L ++ .op (.binary o) :: ts) e' ∧
      ∀ I : Interp, I.Lawful → eval I e' = I.bin (.binary o) (eval I el) (eval I e) := by
  obtain ⟨hl1, hl2, hl3, hl4⟩ := both_levels ho
  have direct : ∀ {ts e}, G ((AssocOp.binary o).prec + 1) ts e →
      ∃ e', G (AssocOp.binary o).prec (L ++ .op (.binary o) :: ts) e' ∧
        ∀ I : Interp, I.Lawful → eval I e' = I.bin (.binary o) (eval I el) (eval I e) := by
    intro ts e hg
    refine ⟨.bin (.binary o) el e, .bin _ (by simp) (by rw [hl1]; exact hL) (by rw [hl2]; exact hg) ?_, ?_⟩
    · intro h; rw [hl3] at h; simp at h
    · intro I _; rfl
  induction h with
  | atom n => intro _ _; exact direct (.up (.atom n) (by omega))
  | paren h _ => intro _ _; exact direct (.up (.paren h) (by omega))
  | un u h _ => intro _ _; exact direct (.up (.un u h) (by omega))
  | cast n h _ => intro _ _; exact direct (.up (.cast n h) (by omega))
  | @bin ts us l r o2 hc hgl hgr hs ihl ihr =>
    intro hq hnd
    by_cases hgt : (AssocOp.binary o).prec < o2.prec
    · exact direct (.up (.bin o2 hc hgl hgr hs) hgt)
    · have heq : o2.prec = (AssocOp.binary o).prec := by omega
      rcases same_level ho heq with h2 | ⟨h1, h2⟩ | ⟨h1, h2⟩
      · subst h2
        obtain ⟨e', he', hev⟩ := ihl (by rw [hl1]; exact Nat.le_refl _)
          (fun hm => by
            have := hnd hm
            exact ⟨fun hx => this.1 (by simp [hx]), fun hx => this.2 (by simp [hx])⟩)
        refine ⟨.bin (.binary o) e' r, ?_, ?_⟩
        · have := G.bin (.binary o) (by simp) (by rw [hl1]; exact he') hgr
            (fun h => by rw [hl3] at h; simp at h)
          simpa using this
        · intro I hI
          simp only [eval, hev I hI]
          exact hI.assoc o (by simpa [bothOps] using ho) _ _ _
      · subst h1 h2
        obtain ⟨e', he', hev⟩ := ihl (by decide) (by intro h; simp at h)
        refine ⟨.bin (.binary .sub) e' r, ?_, ?_⟩
        · have h2' : G (leftLevel (.binary .sub)) (L ++ .op (.binary .add) :: ts) e' := he'
          have := G.bin (.binary .sub) (by simp) h2' hgr (fun h => by simp [startsGenerics] at h)
          have hp : (AssocOp.binary .sub).prec = (AssocOp.binary .add).prec := rfl
          rw [hp] at this
          simpa using this
        · intro I hI
          simp only [eval, hev I hI]
          exact hI.addSub _ _ _
      · have := hnd h1
        rcases h2 with h2 | h2
        · exact absurd (by simp [h2]) this.1
        · exact absurd (by simp [h2]) this.2
  | @up p q ts e hg hle ih =>
    intro hq hnd
    exact ih (by omega) hnd

/-- Text of a binary suggestion. -/
theorem binop_text {op l r v} (h : Denotes (.binOp op l r) v) :
    ∃ e, G op.prec (binopText op l r) e ∧ Evals e v := by
  by_cases hc : op = .cast
  · simp only [Denotes, hc, if_true] at h
    obtain ⟨e, n, rfl, h2, h3⟩ := h
    subst hc
    exact ⟨.cast e n, .cast n h2, h3⟩
  · simp only [Denotes, hc, if_false] at h
    obtain ⟨el, er, h1, h2, h3, h4⟩ := h
    rcases h3 with h3 | ⟨o, ho, rfl, h3, h5⟩
    · exact ⟨_, .bin op hc h1 h3 h2, h4⟩
    · have hl := (both_levels ho).1
      obtain ⟨e', he', hev⟩ := merge ho (by rw [hl] at h1; exact h1) h3 (Nat.le_refl _) h5
      exact ⟨e', he', fun I hI => (hev I hI).trans (h4 I hI)⟩

theorem paren_text {op l r v} (h : Denotes (.binOp op l r) v) :
    ∃ e, G 14 (paren (binopText op l r)) e ∧ Evals e v := by
  obtain ⟨e, h1, h2⟩ := binop_text h
  exact ⟨.paren e, .paren (.up h1 (Nat.zero_le _)), h2⟩

/-- Text of a suggestion that is not a binary operator: at least a prefix expression. -/
theorem prefix_text : ∀ {s : Sugg} {v : Val}, Denotes s v → (∀ op l r, s ≠ .binOp op l r) →
    ∃ e, G 13 s.text e ∧ Evals e v
  | .nonParen ts, v, h, _ => by
      obtain ⟨e, h1, h2⟩ := h
      exact ⟨e, .up h1 (by omega), h2⟩
  | .maybeParen ts, v, h, _ => by
      obtain ⟨e, h1, h2⟩ := h
      exact ⟨e, h1, h2⟩
  | .binOp op l r, v, _, hn => absurd rfl (hn op l r)
  | .unOp op inner, v, h, _ => by
      obtain ⟨w, hi, hw⟩ := h
      have key : ∃ e, G 13 ((if inner.startsWithUnary then inner.text
         else match inner with
         | .nonParen s => s
         | .maybeParen s => if hasEnclosingParen s then s else paren s
         | .binOp o l r => paren (binopText o l r)
         | .unOp .. => inner.text)) e ∧ Evals e w := by
        cases inner with
        | nonParen s =>
          obtain ⟨e, h1, h2⟩ := hi
          refine ⟨e, ?_, h2⟩
          simp only [Sugg.text, ite_self]
          exact .up h1 (by omega)
        | maybeParen s =>
          obtain ⟨e, h1, h2⟩ := hi
          simp only [Sugg.text]
          split
          · exact ⟨e, h1, h2⟩
          · split
            · exact ⟨e, h1, h2⟩
            · exact ⟨.paren e, .up (.paren (.up h1 (Nat.zero_le _))) (by omega), h2⟩
        | binOp o l r =>
          obtain ⟨e, h1, h2⟩ := paren_text hi
          refine ⟨e, ?_, h2⟩
          simp only [Sugg.startsWithUnary, Bool.false_eq_true, if_false]
          exact .up h1 (by omega)
        | unOp o i =>
          obtain ⟨e, h1, h2⟩ := prefix_text hi (by intro _ _ _ h; simp at h)
          refine ⟨e, ?_, h2⟩
          simp only [ite_self]
          exact h1
      obtain ⟨e, h1, h2⟩ := key
      refine ⟨.un op e, ?_, ?_⟩
      · simp only [Sugg.text]
        exact .un op h1
      · intro I hI
        simp only [eval, h2 I hI]
        exact hw I hI

/-- **C16 (reading).** The text of a well-formed suggestion is read by Rust's parser, in exactly one way,
as an expression with the value the suggestion stands for. -/
theorem denotes_parses {s : Sugg} {v : Val} (h : Denotes s v) :
    ∃ e, Parses s.text e ∧ Evals e v ∧ ∀ e', Parses s.text e' → e' = e := by
  have : ∃ q e, G q s.text e ∧ Evals e v := by
    cases s with
    | binOp op l r => obtain ⟨e, h1, h2⟩ := binop_text h; exact ⟨_, e, h1, h2⟩
    | nonParen ts =>
      obtain ⟨e, h1, h2⟩ := prefix_text h (by intro _ _ _ h; simp at h); exact ⟨_, e, h1, h2⟩
    | maybeParen ts =>
      obtain ⟨e, h1, h2⟩ := prefix_text h (by intro _ _ _ h; simp at h); exact ⟨_, e, h1, h2⟩
    | unOp o i =>
      obtain ⟨e, h1, h2⟩ := prefix_text h (by intro _ _ _ h; simp at h); exact ⟨_, e, h1, h2⟩
  obtain ⟨q, e, h1, h2⟩ := this
  exact ⟨e, h1.parses, h2, fun e' h' => h'.unique h1.parses⟩

/-! ## Operations -/

/-- The shape of the arguments for which `make_assoc` is right. Each exclusion is needed, see
`chained_comparison`, `assign_range`, `cast_less`, `mul_div`. -/
def Fits (op : AssocOp) (l r : Sugg) : Prop :=
  (∀ o a b, l = .binOp o a b → op.prec = 5 → o.prec ≠ 5 ∨ o = op) ∧
  (∀ c a b, l = .binOp (.range c) a b → op.prec ≠ 1) ∧
  (startsGenerics op = true → ∀ n, (parenOperand op l .left).getLast? ≠ some (.ty n)) ∧
  (∀ a b, op = .binary .mul → r = .binOp (.binary .mul) a b → NoDivRem (binopText (.binary .mul) a b))

theorem needsParen_false {op o : AssocOp} {dir : Assoc} (h : needsParen op o dir = false) :
    op.prec < o.prec ∨ (o.prec = op.prec ∧
      ((op ≠ o ∧ associativity op = dir) ∨ (op = o ∧ associativity op = .both))) := by
  simp only [needsParen, Bool.or_eq_false_iff, decide_eq_false_iff_not] at h
  obtain ⟨⟨⟨h1, h2⟩, _⟩, _⟩ := h
  by_cases hlt : op.prec < o.prec
  · exact Or.inl hlt
  · right
    have heq : o.prec = op.prec := by omega
    refine ⟨heq, ?_⟩
    simp only [heq, beq_self_eq_true, Bool.true_and, Bool.or_eq_false_iff, Bool.and_eq_false_iff] at h2
    by_cases hoo : op = o
    · subst hoo
      right
      refine ⟨rfl, ?_⟩
      have := h2.2
      simpa using this
    · left
      refine ⟨hoo, ?_⟩
      have := h2.1
      simpa [hoo] using this

theorem left_operand {op : AssocOp} {l : Sugg} {v : Val} (hd : Denotes l v)
    (h1 : ∀ o a b, l = .binOp o a b → op.prec = 5 → o.prec ≠ 5 ∨ o = op)
    (h2 : ∀ c a b, l = .binOp (.range c) a b → op.prec ≠ 1) :
    ∃ e, G (leftLevel op) (parenOperand op l .left) e ∧ Evals e v := by
  have hle : leftLevel op ≤ 13 := by
    have := (prec_pos op).2
    unfold leftLevel
    split
    · omega
    · split <;> omega
  cases l with
  | binOp o a b =>
    simp only [parenOperand]
    by_cases hn : needsParen op o .left = true
    · rw [if_pos hn]
      obtain ⟨e, h1, h2⟩ := paren_text hd
      exact ⟨e, .up h1 (by omega), h2⟩
    · rw [if_neg hn]
      obtain ⟨e, h3, h4⟩ := binop_text hd
      refine ⟨e, .up h3 ?_, h4⟩
      rcases needsParen_false (by simpa using hn) with h | ⟨h, h'⟩
      · unfold leftLevel
        split
        · next h5 =>
          by_cases h6 : o.prec = 2
          · exfalso
            obtain ⟨c, rfl⟩ : ∃ c, o = .range c := by
              cases o with
              | binary b => cases b <;> simp [AssocOp.prec] at h6
              | range c => exact ⟨c, rfl⟩
              | _ => simp [AssocOp.prec] at h6
            exact h2 c a b rfl h5
          · omega
        · split <;> omega
      · rcases h' with ⟨hne, has⟩ | ⟨rfl, hb⟩
        · have hl : leftLevel op = op.prec ∨ op.prec = 5 := by
            cases op with
            | binary b => cases b <;> simp_all [associativity, leftLevel, nonAssoc, AssocOp.prec]
            | _ => simp_all [associativity]
          rcases hl with hl | hl
          · omega
          · rcases h1 o a b rfl hl with h6 | h6
            · omega
            · exact absurd h6.symm hne
        · have hl : leftLevel op = op.prec := by
            cases op with
            | binary b => cases b <;> simp_all [associativity, leftLevel, nonAssoc, AssocOp.prec]
            | cast => rfl
            | _ => simp_all [associativity]
          omega
  | nonParen ts =>
    obtain ⟨e, h3, h4⟩ := prefix_text hd (by intro _ _ _ h; simp at h)
    exact ⟨e, .up h3 hle, h4⟩
  | maybeParen ts =>
    obtain ⟨e, h3, h4⟩ := prefix_text hd (by intro _ _ _ h; simp at h)
    exact ⟨e, .up h3 hle, h4⟩
  | unOp o i =>
    obtain ⟨e, h3, h4⟩ := prefix_text hd (by intro _ _ _ h; simp at h)
    exact ⟨e, .up h3 hle, h4⟩

theorem right_operand {op : AssocOp} {r : Sugg} {v : Val} (hc : op ≠ .cast) (hd : Denotes r v)
    (h1 : ∀ a b, op = .binary .mul → r = .binOp (.binary .mul) a b →
      NoDivRem (binopText (.binary .mul) a b)) :
    ∃ e, (G (rightLevel op) (parenOperand op r .right) e ∨
      ∃ o ∈ bothOps, op = .binary o ∧ G op.prec (parenOperand op r .right) e ∧
        (o = .mul → NoDivRem (parenOperand op r .right))) ∧ Evals e v := by
  have hle : rightLevel op ≤ 13 := by
    have := (prec_pos op).2
    unfold rightLevel
    split <;> omega
  cases r with
  | binOp o a b =>
    simp only [parenOperand]
    by_cases hn : needsParen op o .right = true
    · rw [if_pos hn]
      obtain ⟨e, h1, h2⟩ := paren_text hd
      exact ⟨e, Or.inl (.up h1 (by omega)), h2⟩
    · rw [if_neg hn]
      obtain ⟨e, h3, h4⟩ := binop_text hd
      refine ⟨e, ?_, h4⟩
      rcases needsParen_false (by simpa using hn) with h | ⟨h, h'⟩
      · refine Or.inl (.up h3 ?_)
        unfold rightLevel
        split <;> omega
      · rcases h' with ⟨hne, has⟩ | ⟨rfl, hb⟩
        · refine Or.inl (.up h3 ?_)
          have hl : rightLevel op = op.prec := by
            cases op with
            | binary b => cases b <;> simp [associativity] at has
            | _ => simp_all [associativity, rightLevel, AssocOp.prec]
          omega
        · right
          cases op with
          | binary x =>
            have hx : x ∈ bothOps := by cases x <;> simp_all [associativity, bothOps]
            refine ⟨x, hx, rfl, h3, ?_⟩
            rintro rfl
            exact h1 a b rfl rfl
          | cast => exact absurd rfl hc
          | _ => simp [associativity] at hb
  | nonParen ts =>
    obtain ⟨e, h3, h4⟩ := prefix_text hd (by intro _ _ _ h; simp at h)
    exact ⟨e, Or.inl (.up h3 hle), h4⟩
  | maybeParen ts =>
    obtain ⟨e, h3, h4⟩ := prefix_text hd (by intro _ _ _ h; simp at h)
    exact ⟨e, Or.inl (.up h3 hle), h4⟩
  | unOp o i =>
    obtain ⟨e, h3, h4⟩ := prefix_text hd (by intro _ _ _ h; simp at h)
    exact ⟨e, Or.inl (.up h3 hle), h4⟩

/-- **C16 (binary operators), part.** A well-formed operator suggestion built from well-formed operands
stands for the operator applied to their values. Missing: the operand shapes excluded by `Fits`, operands
that extend to the right (closures, `return`), and the laws of `Interp.Lawful` are assumed (see
`add_reassociated`). -/
theorem makeAssoc_partial {op : AssocOp} {l r : Sugg} {vl vr : Val} (hc : op ≠ .cast)
    (hl : Denotes l vl) (hr : Denotes r vr) (hf : Fits op l r) :
    Denotes (makeAssoc op l r) fun I => I.bin op (vl I) (vr I) := by
  obtain ⟨f1, f2, f3, f4⟩ := hf
  obtain ⟨el, g1, g2⟩ := left_operand hl f1 f2
  obtain ⟨er, g3, g4⟩ := right_operand hc hr f4
  simp only [makeAssoc, Denotes, hc, if_false]
  refine ⟨el, er, g1, ?_, g3, ?_⟩
  · intro hs
    cases he : endsInType el with
    | false => rfl
    | true =>
      obtain ⟨n, hn⟩ := g1.ends.mp he
      exact absurd hn (f3 hs n)
  · intro I hI
    simp only [eval, g2 I hI, g4 I hI]

/-- **C16 (casts).** -/
theorem asTy_denotes {s : Sugg} {v : Val} (t : Nat) (h : Denotes s v) :
    Denotes (asTy s t) fun I => I.cast (v I) t := by
  obtain ⟨e, g1, g2⟩ := left_operand (op := .cast) h (by intro o a b _ h; simp [AssocOp.prec] at h)
    (by intro c a b _; simp [AssocOp.prec])
  simp only [asTy, makeAssoc, Denotes, if_true]
  refine ⟨e, t, rfl, g1, ?_⟩
  intro I hI
  simp only [eval, g2 I hI]

/-- **C16 (prefix operators).** -/
theorem makeUnop_denotes {s : Sugg} {v : Val} (u : UnOp) (h : Denotes s v) :
    Denotes (makeUnop u s) fun I => I.un u (v I) := by
  have h' : Denotes (.unOp u s) fun I => I.un u (v I) := ⟨v, h, fun _ _ => rfl⟩
  obtain ⟨e, h1, h2⟩ := prefix_text h' (by intro _ _ _ h; simp at h)
  refine ⟨e, ?_, h2⟩
  have : (Sugg.unOp u s).text = .un u :: s.maybeInnerParen.text := by
    simp only [Sugg.text, Sugg.maybeInnerParen]
    congr 1
    split
    · rfl
    · next hs =>
      cases s with
      | nonParen s => rfl
      | maybeParen s => simp only [Sugg.maybeParenthesize]; split <;> simp [Sugg.text]
      | binOp o l r => rfl
      | unOp o i => simp [Sugg.startsWithUnary] at hs
  rw [← this]
  exact h1

/-- **C16 (receivers).** `maybe_paren` keeps the value and gives a text that can stand before a method
call, unless the text was a parenthesised prefix expression already. -/
theorem maybeParenthesize_denotes {s : Sugg} {v : Val} (h : Denotes s v) :
    Denotes s.maybeParenthesize v := by
  cases s with
  | nonParen ts => exact h
  | maybeParen ts =>
    obtain ⟨e, h1, h2⟩ := h
    simp only [Sugg.maybeParenthesize]
    split
    · exact ⟨e, h1, h2⟩
    · exact ⟨.paren e, .paren (.up h1 (Nat.zero_le _)), h2⟩
  | binOp op l r => exact paren_text h
  | unOp op i =>
    obtain ⟨e, h1, h2⟩ := prefix_text h (by intro _ _ _ h; simp at h)
    exact ⟨.paren e, .paren (.up h1 (Nat.zero_le _)), h2⟩

theorem G.receiver_of_lpar {q ts e} (h : G q ts e) :
    13 ≤ q → ∀ us, ts = .lpar :: us → G 14 ts e := by
  induction h with
  | atom n => intro _ us h; simp at h
  | paren h _ => intro _ us _; exact .paren h
  | un u h _ => intro _ us h; simp at h
  | cast n h _ => intro hq; omega
  | bin o hc h1 h2 h3 => intro hq; have := prec_cast hc; omega
  | up h hle ih => intro hq us hu; exact ih (by omega) us hu

/-- **C16 (receivers).** What `maybe_paren` returns can stand in front of a method call: its text is a
postfix expression (level 14 of the grammar) with the value of the suggestion. -/
theorem maybeParenthesize_receiver {s : Sugg} {v : Val} (h : Denotes s v) :
    ∃ e, G 14 s.maybeParenthesize.text e ∧ Evals e v := by
  cases s with
  | nonParen ts => exact h
  | maybeParen ts =>
    obtain ⟨e, h1, h2⟩ := h
    simp only [Sugg.maybeParenthesize]
    split
    · rename_i hp
      refine ⟨e, ?_, h2⟩
      simp only [Sugg.text]
      cases ts with
      | nil => simp [hasEnclosingParen] at hp
      | cons t ts =>
        cases t <;> simp [hasEnclosingParen] at hp
        exact h1.receiver_of_lpar (by omega) _ rfl
    · exact ⟨.paren e, .paren (.up h1 (Nat.zero_le _)), h2⟩
  | binOp op l r => exact paren_text h
  | unOp op i =>
    obtain ⟨e, h1, h2⟩ := prefix_text h (by intro _ _ _ h; simp at h)
    exact ⟨.paren e, .paren (.up h1 (Nat.zero_le _)), h2⟩

/-- Source expressions: what `Sugg::hir` makes of a token, a prefix expression, a binary expression and a
cast (sugg.rs:131-193) is well formed. -/
theorem leaves (n : Nat) :
    Denotes (.nonParen [.atom n]) (fun I => I.atom n) ∧
    (∀ u ts e, G 13 ts e → Denotes (.maybeParen (.un u :: ts)) (fun I => I.un u (eval I e))) ∧
    (∀ o ts us l r, o ≠ .cast → G (leftLevel o) ts l → G (rightLevel o) us r →
      (startsGenerics o = true → endsInType l = false) →
      Denotes (.binOp o ts us) fun I => I.bin o (eval I l) (eval I r)) ∧
    (∀ ts e, G 12 ts e → Denotes (.binOp .cast ts [.ty n]) fun I => I.cast (eval I e) n) := by
  refine ⟨⟨_, .atom n, fun _ _ => rfl⟩, fun u ts e h => ⟨_, .un u h, fun _ _ => rfl⟩, ?_, ?_⟩
  · intro o ts us l r hc h1 h2 h3
    simp only [Denotes, hc, if_false]
    exact ⟨l, r, h1, h3, Or.inl h2, fun _ _ => rfl⟩
  · intro ts e h
    simp only [Denotes, if_true]
    exact ⟨e, n, rfl, h, fun _ _ => rfl⟩

/-! ## What goes wrong outside `Fits` -/

abbrev A (n : Nat) : Sugg := .nonParen [.atom n]

/-- Chained comparisons are printed without parentheses: `a < b == c` is a syntax error. -/
theorem chained_comparison :
    (makeBinop .eq (makeBinop .lt (A 0) (A 1)) (A 2)).text =
      [.atom 0, .op (.binary .lt), .atom 1, .op (.binary .eq), .atom 2] ∧
    ∀ e, ¬ Parses (makeBinop .eq (makeBinop .lt (A 0) (A 1)) (A 2)).text e := by
  have ht : (makeBinop .eq (makeBinop .lt (A 0) (A 1)) (A 2)).text =
      [.atom 0, .op (.binary .lt), .atom 1, .op (.binary .eq), .atom 2] := by decide
  refine ⟨ht, ?_⟩
  rintro e ⟨f, hf⟩
  rw [ht] at hf
  rcases f with _ | _ | _ | _ | _ | f <;>
    simp [parseFrom, parsePrefix, parseRest, rejected, nonAssoc, AssocOp.prec, startsGenerics, endsInType,
      rightLevel] at hf

/-- `<` after a cast begins generic arguments: `x as T < y` is a syntax error. -/
theorem cast_less :
    (makeBinop .lt (asTy (A 0) 0) (A 1)).text = [.atom 0, .op .cast, .ty 0, .op (.binary .lt), .atom 1] ∧
    ∀ e, ¬ Parses (makeBinop .lt (asTy (A 0) 0) (A 1)).text e := by
  have ht : (makeBinop .lt (asTy (A 0) 0) (A 1)).text =
      [.atom 0, .op .cast, .ty 0, .op (.binary .lt), .atom 1] := by decide
  refine ⟨ht, ?_⟩
  rintro e ⟨f, hf⟩
  rw [ht] at hf
  rcases f with _ | _ | _ | _ | _ | f <;>
    simp [parseFrom, parsePrefix, parseRest, parseType, rejected, nonAssoc, AssocOp.prec, startsGenerics,
      endsInType] at hf

/-- An assignment to a range is printed without parentheses. -/
theorem assign_range :
    ∀ e, ¬ Parses (makeAssoc .assign (makeAssoc (.range false) (A 0) (A 1)) (A 2)).text e := by
  have ht : (makeAssoc .assign (makeAssoc (.range false) (A 0) (A 1)) (A 2)).text =
      [.atom 0, .op (.range false), .atom 1, .op .assign, .atom 2] := by decide
  rintro e ⟨f, hf⟩
  rw [ht] at hf
  rcases f with _ | _ | _ | _ | _ | f <;>
    simp [parseFrom, parsePrefix, parseRest, rejected, nonAssoc, AssocOp.prec, startsGenerics, endsInType,
      rightLevel] at hf

/-- Mathematical integers with truncating division. -/
def intInterp (atom : Nat → Int) : Interp where
  V := Int
  atom := atom
  un _ a := a
  bin
    | .binary .add, a, b => a + b
    | .binary .sub, a, b => a - b
    | .binary .mul, a, b => a * b
    | .binary .div, a, b => a.tdiv b
    | _, _, _ => 0
  cast a _ := a
  lam _ a := a

/-- `a * (b / c * d)` with an operand taken from the source text is printed as `a * b / c * d`: integer division makes this a different number, for
instance `2 * ((1 / 2) * 1)`. The suggestion of `misrefactored_assign_op` for `a *= b / c * a` is built
this way. -/
theorem mul_div :
    let inner := Sugg.binOp (.binary .mul) [.atom 1, .op (.binary .div), .atom 2] [.atom 3]
    let atoms : Nat → Int := fun n => [2, 1, 2, 1].getD n 0
    Denotes inner (fun I => I.bin (.binary .mul) (I.bin (.binary .div) (I.atom 1) (I.atom 2)) (I.atom 3)) ∧
    ∃ e, Parses (makeBinop .mul (A 0) inner).text e ∧
      eval (intInterp atoms) e = (1 : Int) ∧
      (intInterp atoms).bin (.binary .mul) (atoms 0)
        ((intInterp atoms).bin (.binary .mul) ((intInterp atoms).bin (.binary .div) (atoms 1) (atoms 2))
          (atoms 3)) = (0 : Int) := by
  intro inner atoms
  refine ⟨?_, ?_⟩
  · refine ⟨.bin (.binary .div) (.atom 1) (.atom 2), .atom 3, ?_, ?_, Or.inl ?_, fun _ _ => rfl⟩
    · exact .bin (.binary .div) (by decide) (.up (.atom 1) (by decide)) (.up (.atom 2) (by decide)) (by decide)
    · decide
    · exact .up (.atom 3) (by decide)
  · refine ⟨.bin (.binary .mul) (.bin (.binary .div) (.bin (.binary .mul) (.atom 0) (.atom 1)) (.atom 2))
      (.atom 3), ⟨10, by decide⟩, rfl, rfl⟩

/-- Signed 8-bit integers where overflow panics (`none`). -/
def i8Interp (atom : Nat → Int) : Interp where
  V := Option Int
  atom n := some (atom n)
  un _ a := a
  bin
    | .binary .add, some a, some b => if -128 ≤ a + b ∧ a + b ≤ 127 then some (a + b) else none
    | _, _, _ => none
  cast a _ := a
  lam _ a := a

/-- `a + (b + c)` is printed as `a + b + c`, which can overflow when the original does not. -/
theorem add_reassociated :
    let s := makeBinop .add (A 0) (makeBinop .add (A 1) (A 2))
    let atoms : Nat → Int := fun n => [100, 100, -100].getD n 0
    ∃ e, Parses s.text e ∧ eval (i8Interp atoms) e = (none : Option Int) ∧
      eval (i8Interp atoms) (.bin (.binary .add) (.atom 0) (.bin (.binary .add) (.atom 1) (.atom 2)))
        = (some 100 : Option Int) := by
  intro s atoms
  exact ⟨.bin (.binary .add) (.bin (.binary .add) (.atom 0) (.atom 1)) (.atom 2), ⟨10, by decide⟩, rfl, rfl⟩

/-- A closure (or `return`, `break`) as left operand swallows the operator. -/
theorem closure_operand :
    Parses (makeBinop .add (.maybeParen [.lam 0, .atom 0]) (A 1)).text
      (.lam 0 (.bin (.binary .add) (.atom 0) (.atom 1))) := ⟨10, by decide⟩

/-! ## Negation -/

/-- The operators `!` and `-` undo themselves. -/
structure Interp.Involutive (I : Interp) : Prop where
  not : ∀ v, I.un .not (I.un .not v) = v
  neg : ∀ v, I.un .neg (I.un .neg v) = v

/-- Comparisons as in a total order. -/
structure Interp.Total (I : Interp) : Prop where
  eq : ∀ a b, I.un .not (I.bin (.binary .eq) a b) = I.bin (.binary .ne) a b
  ne : ∀ a b, I.un .not (I.bin (.binary .ne) a b) = I.bin (.binary .eq) a b
  lt : ∀ a b, I.un .not (I.bin (.binary .lt) a b) = I.bin (.binary .ge) a b
  ge : ∀ a b, I.un .not (I.bin (.binary .ge) a b) = I.bin (.binary .lt) a b
  gt : ∀ a b, I.un .not (I.bin (.binary .gt) a b) = I.bin (.binary .le) a b
  le : ∀ a b, I.un .not (I.bin (.binary .le) a b) = I.bin (.binary .gt) a b

/-- The text has the value in the interpretation. -/
def Reads (I : Interp) (s : Sugg) (v : I.V) : Prop := ∃ e, Parses s.text e ∧ eval I e = v

theorem Denotes.reads {s v} (h : Denotes s v) {I : Interp} (hI : I.Lawful) : Reads I s (v I) := by
  obtain ⟨e, h1, h2, _⟩ := denotes_parses h
  exact ⟨e, h1, h2 I hI⟩

/-- **C53 (minus).** The negated suggestion has the negated value. -/
theorem negate_reads {s : Sugg} {v : Val} (h : Denotes s v) {I : Interp} (hI : I.Lawful)
    (hi : I.Involutive) : Reads I (negate s) (I.un .neg (v I)) := by
  cases s with
  | nonParen ts => exact (makeUnop_denotes .neg h).reads hI
  | maybeParen ts => exact (makeUnop_denotes .neg h).reads hI
  | binOp op l r =>
    by_cases hc : op = .cast
    · subst hc
      obtain ⟨e, h1, h2⟩ := paren_text h
      have : Denotes (negate (.binOp .cast l r)) (fun I => I.un .neg (v I)) := by
        refine ⟨.un .neg e, .un .neg (.up h1 (by omega)), ?_⟩
        intro I hI
        simp only [eval, h2 I hI]
      exact this.reads hI
    · have : negate (.binOp op l r) = makeUnop .neg (.binOp op l r) := by
        cases op <;> first | rfl | exact absurd rfl hc
      rw [this]
      exact (makeUnop_denotes .neg h).reads hI
  | unOp u i =>
    cases u with
    | neg =>
      obtain ⟨w, h1, h2⟩ := h
      rw [← h2 I hI, hi.neg]
      exact h1.reads hI
    | _ => exact (makeUnop_denotes .neg h).reads hI

/-- **C53 (logical negation), part.** If comparisons form a total order, and the suggestion is not a
comparison `a >= b` whose left side ends in a cast, the negated suggestion has the opposite value. Missing:
floats (`not_float`) and casts (`not_cast`). -/
theorem not_reads_partial {s : Sugg} {v : Val} (h : Denotes s v) {I : Interp} (hI : I.Lawful)
    (hi : I.Involutive) (ht : I.Total)
    (hc : ∀ l r, s = .binOp (.binary .ge) l r → ∀ n, l.getLast? ≠ some (.ty n)) :
    Reads I (logicalNot s) (I.un .not (v I)) := by
  have flip : ∀ (o o' : BinOp) (l r : List Tok), s = .binOp (.binary o) l r → o' ∈ [BinOp.eq, .lt, .le, .ne, .ge, .gt] →
      (AssocOp.binary o).prec = 5 →
      (∀ a b, I.un .not (I.bin (.binary o) a b) = I.bin (.binary o') a b) →
      (o' = .lt → o = .ge) →
      Reads I (.binOp (.binary o') l r) (I.un .not (v I)) := by
    intro o o' l r hs ho' hp hlaw hlt
    subst hs
    have hp' : (AssocOp.binary o').prec = 5 := by
      simp only [List.mem_cons, List.not_mem_nil, or_false] at ho'
      rcases ho' with rfl | rfl | rfl | rfl | rfl | rfl <;> rfl
    have hll : ∀ x : BinOp, (AssocOp.binary x).prec = 5 → leftLevel (.binary x) = 6 ∧ rightLevel (.binary x) = 6 := by
      intro x hx; simp [leftLevel, rightLevel, nonAssoc, hx]
    have hne : (AssocOp.binary o) ≠ .cast := by simp
    simp only [Denotes, hne, if_false] at h
    obtain ⟨el, er, h1, h2, h3, h4⟩ := h
    have h3' : G 6 r er := by
      rcases h3 with h3 | ⟨x, hx, he, _, _⟩
      · rwa [(hll o hp).2] at h3
      · exfalso
        simp only [AssocOp.binary.injEq] at he
        subst he
        simp only [bothOps, List.mem_cons, List.not_mem_nil, or_false] at hx
        rcases hx with rfl | rfl | rfl | rfl | rfl | rfl | rfl <;> simp [AssocOp.prec] at hp
    have hg : G (AssocOp.binary o').prec (l ++ .op (.binary o') :: r) (.bin (.binary o') el er) := by
      refine .bin _ (by simp) ?_ ?_ ?_
      · rw [(hll o' hp').1]; rwa [(hll o hp).1] at h1
      · rw [(hll o' hp').2]; exact h3'
      · intro hst
        cases he : endsInType el with
        | false => rfl
        | true =>
          obtain ⟨n, hn⟩ := h1.ends.mp he
          have hol : o' = .lt := by
            simp only [List.mem_cons, List.not_mem_nil, or_false] at ho'
            rcases ho' with rfl | rfl | rfl | rfl | rfl | rfl <;> simp_all [startsGenerics]
          have := hlt hol
          subst this
          exact absurd hn (hc l r rfl n)
    refine ⟨_, hg.parses, ?_⟩
    simp only [eval]
    rw [← hlaw, ← h4 I hI]
    rfl
  cases s with
  | nonParen ts => exact (makeUnop_denotes .not h).reads hI
  | maybeParen ts => exact (makeUnop_denotes .not h).reads hI
  | binOp op l r =>
    cases op with
    | binary o =>
      cases o with
      | eq => exact flip .eq .ne l r rfl (by simp) rfl ht.eq (by simp)
      | ne => exact flip .ne .eq l r rfl (by simp) rfl ht.ne (by simp)
      | lt => exact flip .lt .ge l r rfl (by simp) rfl ht.lt (by simp)
      | ge => exact flip .ge .lt l r rfl (by simp) rfl ht.ge (by simp)
      | gt => exact flip .gt .le l r rfl (by simp) rfl ht.gt (by simp)
      | le => exact flip .le .gt l r rfl (by simp) rfl ht.le (by simp)
      | _ => exact (makeUnop_denotes .not h).reads hI
    | _ => exact (makeUnop_denotes .not h).reads hI
  | unOp u i =>
    cases u with
    | not =>
      obtain ⟨w, h1, h2⟩ := h
      rw [← h2 I hI, hi.not]
      exact h1.reads hI
    | _ => exact (makeUnop_denotes .not h).reads hI

/-- Floating-point comparisons: `none` is NaN; booleans are `some 0`/`some 1`. -/
def floatInterp (atom : Nat → Option Int) : Interp where
  V := Option Int
  atom := atom
  un
    | .not, some 0 => some 1
    | .not, some 1 => some 0
    | _, v => v
  bin
    | .binary .lt, some a, some b => if a < b then some 1 else some 0
    | .binary .ge, some a, some b => if a ≥ b then some 1 else some 0
    | .binary .lt, _, _ => some 0
    | .binary .ge, _, _ => some 0
    | _, _, _ => none
  cast a _ := a
  lam _ a := a

/-- For a NaN, `!(a < b)` is true but the suggestion `a >= b` is false. -/
theorem not_float :
    let s := makeBinop .lt (A 0) (A 1)
    let atoms : Nat → Option Int := fun n => if n = 0 then none else some 1
    (logicalNot s).text = [.atom 0, .op (.binary .ge), .atom 1] ∧
      (floatInterp atoms).un .not (eval (floatInterp atoms) (.bin (.binary .lt) (.atom 0) (.atom 1)))
        = (some 1 : Option Int) ∧
      eval (floatInterp atoms) (.bin (.binary .ge) (.atom 0) (.atom 1)) = (some 0 : Option Int) := by
  intro s atoms
  exact ⟨by decide, rfl, rfl⟩

/-- `!(x as T >= y)` becomes `x as T < y`, which is a syntax error. -/
theorem not_cast : ∀ e, ¬ Parses (logicalNot (makeBinop .ge (asTy (A 0) 0) (A 1))).text e := cast_less.2

/-! Non-vacuity: `(a + b) * -c` and its negation, in the integers. -/

example : (makeBinop .mul (makeBinop .add (A 0) (A 1)) (makeUnop .neg (A 2))).text =
    [.lpar, .atom 0, .op (.binary .add), .atom 1, .rpar, .op (.binary .mul), .un .neg, .atom 2] := by decide

/-- Altogether: the text above is read as the product. -/
example : ∃ e, Parses (makeBinop .mul (makeBinop .add (A 0) (A 1)) (makeUnop .neg (A 2))).text e ∧
    Evals e fun I => I.bin (.binary .mul) (I.bin (.binary .add) (I.atom 0) (I.atom 1))
      (I.un .neg (I.atom 2)) := by
  have h := makeAssoc_partial (op := .binary .mul) (by decide)
    (makeAssoc_partial (op := .binary .add) (by decide) (leaves 0).1 (leaves 1).1
      ⟨by intro o a b h; simp at h, by intro o a b h; simp at h, by intro h; simp [startsGenerics] at h,
        by intro a b h; simp at h⟩)
    (makeUnop_denotes .neg (leaves 2).1)
    ⟨by intro o a b _ h; simp [AssocOp.prec] at h, by intro c a b h; simp [makeAssoc] at h,
      by intro h; simp [startsGenerics] at h, by intro a b _ h; simp [makeUnop] at h⟩
  obtain ⟨e, h1, h2, _⟩ := denotes_parses h
  exact ⟨e, h1, h2⟩

example : Fits (.binary .mul) (makeBinop .add (A 0) (A 1)) (makeUnop .neg (A 2)) := by
  refine ⟨by intro o a b _ h; simp [AssocOp.prec] at h, by intro c a b h; simp [makeBinop, makeAssoc] at h,
    by intro h; simp [startsGenerics] at h, by intro a b _ h; simp [makeUnop] at h⟩

end Verif.Sugg
