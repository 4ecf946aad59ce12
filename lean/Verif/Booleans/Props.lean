import Verif.Booleans.Model
import Verif.Sugg.Grammar

/-!
# C35 — boolean simplification keeps the meaning
-/

namespace Verif.Booleans

open Verif.Sugg

/-! ## Specification -/

mutual
/-- Truth value of a formula for given truth values of its terminals. -/
def B.eval (ρ : Nat → Bool) : B → Bool
  | .tt => true
  | .ff => false
  | .term n => ρ n
  | .not b => !b.eval ρ
  | .and l => allB ρ l
  | .or l => anyB ρ l
def allB (ρ : Nat → Bool) : List B → Bool
  | [] => true
  | b :: l => b.eval ρ && allB ρ l
def anyB (ρ : Nat → Bool) : List B → Bool
  | [] => false
  | b :: l => b.eval ρ || anyB ρ l
end

/-- A meaning `I` of the operators in which the answers in `C` are right: `isB` are the values of type
`bool`, `tr` is their truth value. -/
structure Sem (C : Ctx) (I : Interp) where
  isB : I.V → Prop
  tr : I.V → Bool
  boolTy : ∀ e, C.boolTy e = true → isB (Sugg.eval I e)
  isB_not : ∀ v, isB v → isB (I.un .not v)
  tr_not : ∀ v, isB v → tr (I.un .not v) = !tr v
  isB_and : ∀ a b, isB (I.bin (.binary .and) a b)
  tr_and : ∀ a b, tr (I.bin (.binary .and) a b) = (tr a && tr b)
  isB_or : ∀ a b, isB (I.bin (.binary .or) a b)
  tr_or : ∀ a b, tr (I.bin (.binary .or) a b) = (tr a || tr b)
  isB_cmp : ∀ o, (negateOp o).isSome = true → ∀ a b, isB (I.bin (.binary o) a b)
  lit : ∀ n b, C.lit n = some b → isB (I.atom n) ∧ tr (I.atom n) = b
  /-- on a totally ordered type the opposite comparison has the opposite value -/
  ord : ∀ l o o' v, C.ord l = true → negateOp o = some o' →
    tr (I.bin (.binary o') (Sugg.eval I l) v) = !tr (I.bin (.binary o) (Sugg.eval I l) v)
  same : ∀ a b, C.same a b = true → Sugg.eval I a = Sugg.eval I b
  negAtom : ∀ n m, C.negAtom n = some m → isB (I.atom m) ∧ tr (I.atom m) = !tr (I.atom n)
  /-- `==` on booleans -/
  tr_eq : ∀ a b, isB a → isB b → tr (I.bin (.binary .eq) a b) = (tr a == tr b)
  tr_ne : ∀ a b, isB a → isB b → tr (I.bin (.binary .ne) a b) = (tr a != tr b)

/-- The atoms printed for `true` and `false` are these literals. -/
def Ctx.Lits (C : Ctx) : Prop := C.lit C.ttAtom = some true ∧ C.lit C.ffAtom = some false

/-- Precedence of the outermost operator. -/
def lvl : Expr → Nat
  | .atom _ | .paren _ => 14
  | .un _ _ => 13
  | .cast _ _ => 12
  | .bin o _ _ => o.prec
  | .lam _ _ => 0

/-- The tree carries the parentheses its text needs. -/
def WF : Expr → Prop
  | .atom _ => True
  | .paren e => WF e
  | .un _ e => WF e ∧ 13 ≤ lvl e
  | .cast e _ => WF e ∧ 12 ≤ lvl e
  | .bin o l r => o ≠ .cast ∧ WF l ∧ WF r ∧ leftLevel o ≤ lvl l ∧ rightLevel o ≤ lvl r ∧
      (startsGenerics o = true → endsInType l = false)
  | .lam _ _ => False

/-- Operands of `!`, `&&` and `||` are booleans. For `&&` and `||` the type checker ensures it; `!` may be
applied to any type that implements `Not`. -/
def Typed (C : Ctx) : Expr → Prop
  | .paren e => Typed C e
  | .un .not e => C.boolTy e = true ∧ Typed C e
  | .bin (.binary .and) l r | .bin (.binary .or) l r =>
      C.boolTy l = true ∧ C.boolTy r = true ∧ Typed C l ∧ Typed C r
  | _ => True

/-- What is needed of an atom of the condition: if it is a comparison the type is totally ordered, and the
left operand of `>=` ends with a type only if it is itself a cast. -/
def TermOk (C : Ctx) (t : Expr) : Prop :=
  ∀ o l r, peel t = .bin (.binary o) l r → (negateOp o).isSome = true →
    C.ord l = true ∧ (o = .ge → endsInType l = true → ∃ i n, l = .cast i n)

/-- A terminal or its negation. -/
def Lit (b : B) : Prop := (∃ n, b = .term n) ∨ (∃ n, b = .not (.term n))

/-- A product of literals. -/
def Prod (b : B) : Prop := Lit b ∨ ∃ l, l ≠ [] ∧ b = .and l ∧ ∀ x ∈ l, Lit x

/-- A sum of products. -/
def Sop (b : B) : Prop := b = .tt ∨ b = .ff ∨ Prod b ∨ ∃ l, l ≠ [] ∧ b = .or l ∧ ∀ x ∈ l, Prod x

/-- What is assumed of `Bool::simplify` (Quine–McCluskey): it returns equivalent sums of products over
the same terminals. -/
def Simplifier (simplify : B → List B) : Prop :=
  ∀ b, ∀ s ∈ simplify b, Sop s ∧ (∀ ρ, s.eval ρ = b.eval ρ) ∧ ∀ n, count n s ≠ 0 → count n b ≠ 0

/-! ## Lemmas -/

theorem wf_G : ∀ {e : Expr}, WF e → G (lvl e) (text e) e
  | .atom n, _ => .atom n
  | .paren e, h => .paren (.up (wf_G (e := e) h) (Nat.zero_le _))
  | .un u e, h => .un u (.up (wf_G h.1) h.2)
  | .cast e n, h => .cast n (.up (wf_G h.1) h.2)
  | .bin o l r, ⟨h1, h2, h3, h4, h5, h6⟩ => .bin o h1 (.up (wf_G h2) h4) (.up (wf_G h3) h5) h6

theorem eval_peel (I : Interp) : ∀ e, Sugg.eval I (peel e) = Sugg.eval I e
  | .paren e => eval_peel I e
  | .atom _ | .un .. | .cast .. | .bin .. | .lam .. => rfl

theorem wf_peel : ∀ {e}, WF e → WF (peel e)
  | .paren e, h => wf_peel (e := e) h
  | .atom _, h | .un .., h | .cast .., h | .bin .., h | .lam .., h => h

theorem peel_lvl : ∀ e, peel e = e ∨ lvl e = 14
  | .paren _ => .inr rfl
  | .atom _ | .un .. | .cast .. | .bin .. | .lam .. => .inl rfl

theorem peel_not_paren : ∀ e i, peel e ≠ .paren i
  | .paren e, i => peel_not_paren e i
  | .atom _, _ | .un .., _ | .cast .., _ | .bin .., _ | .lam .., _ => by simp [peel]

section
variable {C : Ctx} {I : Interp} (S : Sem C I)

/-- The truth values of the terminals. -/
def rho (T : List Expr) (n : Nat) : Bool := S.tr (Sugg.eval I (termAt T n))

theorem termAt_prefix {T F : List Expr} (h : T <+: F) {k : Nat} {t : Expr} (hk : T[k]? = some t) :
    termAt F k = t := by
  obtain ⟨U, rfl⟩ := h
  have hlt : k < T.length := by
    rcases Nat.lt_or_ge k T.length with h | h
    · exact h
    · rw [List.getElem?_eq_none h] at hk; cases hk
  simp only [termAt, List.getD_eq_getElem?_getD, List.getElem?_append_left hlt, hk, Option.getD_some]

theorem isNegated_sound {e t : Expr} (h : isNegated C e t = true) :
    S.tr (Sugg.eval I e) = !S.tr (Sugg.eval I t) := by
  unfold isNegated at h
  rw [← eval_peel I e, ← eval_peel I t]
  split at h
  case h_2 => cases h
  case h_1 o l r o' l' r' he ht =>
    simp only [Bool.and_eq_true, beq_iff_eq] at h
    obtain ⟨⟨⟨h1, h2⟩, h3⟩, h4⟩ := h
    rw [he, ht]
    simp only [Sugg.eval]
    rw [← S.same _ _ h3, ← S.same _ _ h4, S.ord l o o' _ h1 h2, Bool.not_not]

theorem findTerm_spec {e : Expr} : ∀ {n : Nat} {ts : List Expr} {b : B}, findTerm C e n ts = some b →
    ∃ k t, ts[k]? = some t ∧ ((b = .term (n + k) ∧ C.same e t = true) ∨
      (b = .not (.term (n + k)) ∧ isNegated C e t = true))
  | n, t :: ts, b, h => by
    unfold findTerm at h
    split at h
    case isTrue hs => cases h; exact ⟨0, t, rfl, .inl ⟨rfl, hs⟩⟩
    case isFalse =>
      split at h
      case isTrue hs => cases h; exact ⟨0, t, rfl, .inr ⟨rfl, hs⟩⟩
      case isFalse =>
        obtain ⟨k, u, h1, h2⟩ := findTerm_spec h
        refine ⟨k + 1, u, by simpa using h1, ?_⟩
        have : n + 1 + k = n + (k + 1) := by omega
        rwa [this] at h2

theorem terminal_sound {e : Expr} {T T' : List Expr} {bs : List B}
    (h : terminal C e T = some (bs, T')) :
    T <+: T' ∧ ∃ b, bs = [b] ∧ (∀ F, T' <+: F → b.eval (rho S F) = S.tr (Sugg.eval I e)) ∧
      (∀ n, count n b ≠ 0 → n < T'.length) ∧ ∀ t ∈ T', t ∈ T ∨ t = e := by
  unfold terminal at h
  split at h
  case isTrue => cases h
  case isFalse =>
    split at h
    case h_1 b hb =>
      cases h
      refine ⟨List.prefix_rfl, b, rfl, ?_, ?_, fun t ht => .inl ht⟩
      · intro F hF
        obtain ⟨k, t, hk, hh⟩ := findTerm_spec hb
        rw [Nat.zero_add] at hh
        have ht := termAt_prefix hF hk
        rcases hh with ⟨rfl, hs⟩ | ⟨rfl, hs⟩
        · simp only [B.eval, rho, ht]; rw [S.same _ _ hs]
        · simp only [B.eval, rho, ht]; rw [isNegated_sound S hs]
      · intro n hn
        obtain ⟨k, t, hk, hh⟩ := findTerm_spec hb
        have hlt : k < T.length := by
          rcases Nat.lt_or_ge k T.length with h | h
          · exact h
          · rw [List.getElem?_eq_none h] at hk; cases hk
        rw [Nat.zero_add] at hh
        have : n = k := by
          rcases hh with ⟨rfl, _⟩ | ⟨rfl, _⟩ <;> simp only [count] at hn <;>
            (by_cases e : k = n
             · exact e.symm
             · simp [e] at hn)
        omega
    case h_2 =>
      split at h
      case isFalse => cases h
      case isTrue =>
        cases h
        refine ⟨List.prefix_append _ _, _, rfl, ?_, ?_, ?_⟩
        · intro F hF
          have ht : termAt F T.length = e := termAt_prefix hF (by simp)
          simp only [B.eval, rho, ht]
        · intro n hn
          simp only [count] at hn
          by_cases e' : T.length = n
          · simp; omega
          · simp [e'] at hn
        · intro t ht; simpa using ht

/-- What a list of formulas stands for while flattening. -/
def meaning (m : Mode) (ρ : Nat → Bool) (bs : List B) : Bool :=
  match m with
  | .or => anyB ρ bs
  | _ => allB ρ bs

theorem meaning_single (m : Mode) (ρ) (b : B) : meaning m ρ [b] = b.eval ρ := by
  cases m <;> simp [meaning, allB, anyB]

theorem allB_append (ρ) : ∀ a b, allB ρ (a ++ b) = (allB ρ a && allB ρ b)
  | [], _ => by simp [allB]
  | x :: a, b => by simp [allB, allB_append ρ a b, Bool.and_assoc]

theorem anyB_append (ρ) : ∀ a b, anyB ρ (a ++ b) = (anyB ρ a || anyB ρ b)
  | [], _ => by simp [anyB]
  | x :: a, b => by simp [anyB, anyB_append ρ a b, Bool.or_assoc]

theorem countList_append (n) : ∀ a b, countList n (a ++ b) = countList n a + countList n b
  | [], _ => by simp [countList]
  | x :: a, b => by simp [countList, countList_append n a b, Nat.add_assoc]

/-- Invariant of the list of terminals. -/
structure TInv (t : Expr) : Prop where
  wf : WF t
  lvl : 5 ≤ lvl t
  isB : S.isB (Sugg.eval I t)
  notNot : ∀ i, peel t ≠ .un .not i

theorem prec_five {o : AssocOp} (h : 3 ≤ o.prec) (h1 : o ≠ .binary .and) (h2 : o ≠ .binary .or) :
    5 ≤ o.prec := by
  cases o with
  | binary b => cases b <;> simp_all [AssocOp.prec]
  | _ => simp_all [AssocOp.prec]

/-- Everything about the translation. -/
theorem conv_sound : ∀ (e : Expr) (m : Mode) (orig : Expr) (T T' : List Expr) (bs : List B),
    conv C m orig e T = some (bs, T') → peel orig = peel e → WF orig → WF e → 3 ≤ lvl orig →
    S.isB (Sugg.eval I orig) → Typed C e → (∀ t ∈ T, TInv S t) →
    T <+: T' ∧ (m = .single → bs.length = 1) ∧
    (∀ F, T' <+: F → meaning m (rho S F) bs = S.tr (Sugg.eval I e)) ∧
    (∀ n, countList n bs ≠ 0 → n < T'.length) ∧ ∀ t ∈ T', TInv S t := by
  have term : ∀ (e : Expr) (m : Mode) (orig : Expr) (T T' : List Expr) (bs : List B),
      terminal C orig T = some (bs, T') → peel orig = peel e → WF orig → 3 ≤ lvl orig →
      S.isB (Sugg.eval I orig) → (∀ t ∈ T, TInv S t) → (∀ i, peel e ≠ .un .not i) →
      (∀ l r, peel e ≠ .bin (.binary .and) l r) → (∀ l r, peel e ≠ .bin (.binary .or) l r) →
      T <+: T' ∧ (m = .single → bs.length = 1) ∧
      (∀ F, T' <+: F → meaning m (rho S F) bs = S.tr (Sugg.eval I e)) ∧
      (∀ n, countList n bs ≠ 0 → n < T'.length) ∧ ∀ t ∈ T', TInv S t := by
    intro e m orig T T' bs h hp hw hl hB hT hn ha ho
    obtain ⟨h1, b, rfl, h2, h3, h4⟩ := terminal_sound S h
    refine ⟨h1, fun _ => rfl, ?_, ?_, ?_⟩
    · intro F hF
      rw [meaning_single, h2 F hF, ← eval_peel I e, ← hp, eval_peel]
    · intro n hn'
      exact h3 n (by simpa [countList] using hn')
    · intro t ht
      rcases h4 t ht with h | rfl
      · exact hT t h
      · refine ⟨hw, ?_, hB, by rw [hp]; exact hn⟩
        rcases peel_lvl t with hpl | hpl
        · have hs : peel t = t := hpl
          rw [← hp, hs] at ha ho hn
          cases t with
          | bin o l r =>
            refine prec_five hl ?_ ?_
            · rintro rfl; exact ha l r rfl
            · rintro rfl; exact ho l r rfl
          | lam => exact absurd hl (by simp [Booleans.lvl])
          | _ => simp [Booleans.lvl]
        · rw [hpl]; omega
  intro e
  induction e with
  | paren e ih =>
    intro m orig T T' bs h hp hw hwe hl hB ht hT
    exact ih m orig T T' bs (by simpa [conv] using h) hp hw hwe hl hB ht hT
  | atom k =>
    intro m orig T T' bs h hp hw hwe hl hB ht hT
    simp only [conv] at h
    split at h
    case h_1 hk =>
      cases h
      refine ⟨List.prefix_rfl, fun _ => rfl, ?_, by simp [countList, count], hT⟩
      intro F _; rw [meaning_single]; exact (S.lit k true hk).2.symm
    case h_2 hk =>
      cases h
      refine ⟨List.prefix_rfl, fun _ => rfl, ?_, by simp [countList, count], hT⟩
      intro F _; rw [meaning_single]; exact (S.lit k false hk).2.symm
    case h_3 =>
      exact term (.atom k) m orig T T' bs h hp hw hl hB hT (by simp [peel]) (by simp [peel]) (by simp [peel])
  | cast i n _ =>
    intro m orig T T' bs h hp hw hwe hl hB ht hT
    exact term (.cast i n) m orig T T' bs (by simpa [conv] using h) hp hw hl hB hT (by simp [peel])
      (by simp [peel]) (by simp [peel])
  | lam n i _ =>
    intro m orig T T' bs h hp hw hwe hl hB ht hT
    exact absurd hwe (by simp [WF])
  | un u i ih =>
    intro m orig T T' bs h hp hw hwe hl hB ht hT
    by_cases hu : u = .not
    · subst hu
      simp only [conv] at h
      split at h
      case h_2 => cases h
      case h_1 bs' T1 h1 =>
        cases h
        obtain ⟨a1, a2, a3, a4, a5⟩ := ih .single i T T' bs' h1 rfl hwe.1 hwe.1 (by have := hwe.2; omega)
          (S.boolTy _ ht.1) ht.2 hT
        have hlen := a2 rfl
        match bs', hlen with
        | [b], _ =>
          refine ⟨a1, fun _ => rfl, ?_, ?_, a5⟩
          · intro F hF
            have := a3 F hF
            rw [meaning_single] at this
            simp only [List.map_cons, List.map_nil, meaning_single, B.eval, Sugg.eval]
            rw [S.tr_not _ (S.boolTy _ ht.1), this]
          · intro n hn
            exact a4 n (by simpa [countList, count] using hn)
    · have h' : terminal C orig T = some (bs, T') := by
        cases u <;> first | exact absurd rfl hu | simpa [conv] using h
      exact term (.un u i) m orig T T' bs h' hp hw hl hB hT
        (by intro i' e'; simp only [peel, Expr.un.injEq] at e'; exact hu e'.1) (by simp [peel]) (by simp [peel])
  | bin o l r ihl ihr =>
    intro m orig T T' bs h hp hw hwe hl hB ht hT
    obtain ⟨w1, w2, w3, w4, w5, w6⟩ := hwe
    by_cases hand : o = .binary .and
    · subst hand
      simp only [conv] at h
      split at h
      case h_2 => cases h
      case h_1 b1 T1 h1 =>
        split at h
        case h_2 => cases h
        case h_1 b2 T2 h2 =>
          cases h
          obtain ⟨t1, t2, t3, t4⟩ := ht
          obtain ⟨a1, a2, a3, a4, a5⟩ := ihl .and l T T1 b1 h1 rfl w2 w2
            (by simp [leftLevel, nonAssoc, AssocOp.prec] at w4; omega) (S.boolTy _ t1) t3 hT
          obtain ⟨c1, c2, c3, c4, c5⟩ := ihr .and r T1 T' b2 h2 rfl w3 w3
            (by simp [rightLevel, AssocOp.prec] at w5; omega) (S.boolTy _ t2) t4 a5
          have key : ∀ F, T' <+: F → allB (rho S F) (b1 ++ b2) =
              S.tr (Sugg.eval I (.bin (.binary .and) l r)) := by
            intro F hF
            rw [allB_append]
            simp only [Sugg.eval]
            rw [S.tr_and]
            have e1 := a3 F (c1.trans hF)
            have e2 := c3 F hF
            simp only [meaning] at e1 e2
            rw [e1, e2]
          have hc : ∀ n, countList n (b1 ++ b2) ≠ 0 → n < T'.length := by
            intro n hn
            rw [countList_append] at hn
            by_cases h0 : countList n b1 = 0
            · exact c4 n (by omega)
            · exact Nat.lt_of_lt_of_le (a4 n h0) c1.length_le
          refine ⟨a1.trans c1, ?_, ?_, ?_, c5⟩
          · rintro rfl; simp
          · intro F hF
            by_cases hm : m = .and
            · simp only [hm, if_true, meaning]; exact key F hF
            · simp only [hm, if_false, meaning_single, B.eval]; exact key F hF
          · intro n hn
            by_cases hm : m = .and
            · simp only [hm, if_true] at hn; exact hc n hn
            · simp only [hm, if_false, countList, count, Nat.add_zero] at hn; exact hc n hn
    · by_cases hor : o = .binary .or
      · subst hor
        simp only [conv] at h
        split at h
        case h_2 => cases h
        case h_1 b1 T1 h1 =>
          split at h
          case h_2 => cases h
          case h_1 b2 T2 h2 =>
            cases h
            obtain ⟨t1, t2, t3, t4⟩ := ht
            obtain ⟨a1, a2, a3, a4, a5⟩ := ihl .or l T T1 b1 h1 rfl w2 w2
              (by simp [leftLevel, nonAssoc, AssocOp.prec] at w4; omega) (S.boolTy _ t1) t3 hT
            obtain ⟨c1, c2, c3, c4, c5⟩ := ihr .or r T1 T' b2 h2 rfl w3 w3
              (by simp [rightLevel, AssocOp.prec] at w5; omega) (S.boolTy _ t2) t4 a5
            have key : ∀ F, T' <+: F → anyB (rho S F) (b1 ++ b2) =
                S.tr (Sugg.eval I (.bin (.binary .or) l r)) := by
              intro F hF
              rw [anyB_append]
              simp only [Sugg.eval]
              rw [S.tr_or]
              have e1 := a3 F (c1.trans hF)
              have e2 := c3 F hF
              simp only [meaning] at e1 e2
              rw [e1, e2]
            have hc : ∀ n, countList n (b1 ++ b2) ≠ 0 → n < T'.length := by
              intro n hn
              rw [countList_append] at hn
              by_cases h0 : countList n b1 = 0
              · exact c4 n (by omega)
              · exact Nat.lt_of_lt_of_le (a4 n h0) c1.length_le
            refine ⟨a1.trans c1, ?_, ?_, ?_, c5⟩
            · rintro rfl; simp
            · intro F hF
              by_cases hm : m = .or
              · simp only [hm, if_true, meaning]; exact key F hF
              · simp only [hm, if_false, meaning_single, B.eval]; exact key F hF
            · intro n hn
              by_cases hm : m = .or
              · simp only [hm, if_true] at hn; exact hc n hn
              · simp only [hm, if_false, countList, count, Nat.add_zero] at hn; exact hc n hn
      · have h' : terminal C orig T = some (bs, T') := by
          cases o with
          | binary b =>
            cases b <;> first | exact absurd rfl hand | exact absurd rfl hor | simpa [conv] using h
          | _ => simpa [conv] using h
        exact term (.bin o l r) m orig T T' bs h' hp hw hl hB hT (by simp [peel])
          (by intro l' r' e'; simp only [peel, Expr.bin.injEq] at e'; exact hand e'.1)
          (by intro l' r' e'; simp only [peel, Expr.bin.injEq] at e'; exact hor e'.1)

end

theorem terminal_le {C : Ctx} {e : Expr} {T T' : List Expr} {bs : List B} (h : terminal C e T = some (bs, T')) (hT : T.length ≤ 32) : T'.length ≤ 32 := by
  unfold terminal at h
  split at h
  · cases h
  · split at h
    · cases h; exact hT
    · split at h
      · cases h; simp; omega
      · cases h

theorem conv_le {C : Ctx} (e : Expr) : ∀ (m : Mode) (orig : Expr) (T T' : List Expr) (bs : List B), conv C m orig e T = some (bs, T') → T.length ≤ 32 →
    T'.length ≤ 32 := by
  induction e with
  | atom n =>
    intro m orig T T' bs h hT
    simp only [conv] at h
    split at h
    · cases h; exact hT
    · cases h; exact hT
    · exact terminal_le h hT
  | paren e ih =>
    intro m orig T T' bs h hT
    simp only [conv] at h
    exact ih _ _ _ _ _ h hT
  | un o e ih =>
    intro m orig T T' bs h hT
    cases o with
    | not =>
      simp only [conv] at h
      split at h
      · next h1 => cases h; exact ih _ _ _ _ _ h1 hT
      · cases h
    | _ => simp only [conv] at h; exact terminal_le h hT
  | bin o l r ihl ihr =>
    intro m orig T T' bs h hT
    by_cases hand : o = .binary .and
    · subst hand
      simp only [conv] at h
      split at h
      · next h1 =>
        split at h
        · next h2 => cases h; exact ihr _ _ _ _ _ h2 (ihl _ _ _ _ _ h1 hT)
        · cases h
      · cases h
    · by_cases hor : o = .binary .or
      · subst hor
        simp only [conv] at h
        split at h
        · next h1 =>
          split at h
          · next h2 => cases h; exact ihr _ _ _ _ _ h2 (ihl _ _ _ _ _ h1 hT)
          · cases h
        · cases h
      · have h' : terminal C orig T = some (bs, T') := by
          cases o with
          | binary b => cases b <;> first | exact absurd rfl hand | exact absurd rfl hor | simpa [conv] using h
          | _ => simpa [conv] using h
        exact terminal_le h' hT
  | _ =>
    intro m orig T T' bs h hT
    simp only [conv] at h
    exact terminal_le h hT

/-- **C35.** An expression is simplified only if it has at most 32 different terminals (the simplifier represents a terminal by a bit). -/
theorem run_le {C : Ctx} {e : Expr} {b : B} {T : List Expr} (h : run C e = some (b, T)) : T.length ≤ 32 := by
  unfold run at h
  split at h
  · next h1 => cases h; exact conv_le e _ _ _ _ _ h1 (by decide)
  · cases h

end Verif.Booleans
