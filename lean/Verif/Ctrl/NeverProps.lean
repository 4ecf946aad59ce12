import Verif.Ctrl.Never
import Verif.Ctrl.Facts
import Verif.Ctrl.Scope

/-!
# Loops that never loop: what the lint gets right
-/

namespace Verif.Ctrl.Never
open Verif.Ctrl
variable {S : Sem} {α β : Type}

/-! ## Labels -/

/-- The second list has the same blocks and at least the marks of the first. -/
def Le : Labels → Labels → Prop
  | [], [] => True
  | (t, a) :: L, (u, b) :: L' => t = u ∧ (a = true → b = true) ∧ Le L L'
  | _, _ => False

theorem Le.refl : ∀ L : Labels, Le L L
  | [] => trivial
  | (_, _) :: L => ⟨rfl, id, Le.refl L⟩

theorem Le.trans : ∀ {A B C : Labels}, Le A B → Le B C → Le A C
  | [], [], _, _, h => h
  | (_, _) :: A, (_, _) :: B, (_, _) :: C, h, h' =>
    ⟨h.1.trans h'.1, fun a => h'.2.1 (h.2.1 a), Le.trans h.2.2 h'.2.2⟩

/-- The innermost block of that number is marked. -/
def Marked (t : Id) : Labels → Prop
  | [] => False
  | (u, r) :: L => (u = t ∧ r = true) ∨ (u ≠ t ∧ Marked t L)

/-- There is a block of that number. -/
def Listed (t : Id) : Labels → Prop
  | [] => False
  | (u, _) :: L => u = t ∨ Listed t L

theorem Le.marked {t : Id} : ∀ {A B : Labels}, Le A B → Marked t A → Marked t B
  | [], [], _, h => h
  | (u, a) :: A, (v, b) :: B, hl, h => by
    obtain ⟨rfl, h1, h2⟩ := hl
    cases h with
    | inl h => exact .inl ⟨h.1, h1 h.2⟩
    | inr h => exact .inr ⟨h.1, Le.marked h2 h.2⟩

theorem Le.listed {t : Id} : ∀ {A B : Labels}, Le A B → Listed t B → Listed t A
  | [], [], _, h => h
  | (u, a) :: A, (v, b) :: B, hl, h => by
    obtain ⟨rfl, _, h2⟩ := hl
    cases h with
    | inl h => exact .inl h
    | inr h => exact .inr (Le.listed h2 h)

theorem le_mark (t : Id) : ∀ L : Labels, Le L (mark t L)
  | [] => trivial
  | (u, r) :: L => by
    unfold mark
    split
    · exact ⟨rfl, fun _ => rfl, Le.refl L⟩
    · exact ⟨rfl, id, le_mark t L⟩

theorem marked_mark {t : Id} : ∀ {L : Labels}, Listed t L → Marked t (mark t L)
  | (u, r) :: L, h => by
    unfold mark
    split
    · next hu => exact .inl ⟨hu, rfl⟩
    · next hu => exact .inr ⟨hu, marked_mark (h.resolve_left hu)⟩

/-! ## What a result means -/

/-- Exits that are compatible with a result that is not `may`. -/
def Okay (main : Id) (L : Labels) (x : Exit S.V) : Prop :=
  x ≠ .cont main ∧ ∀ t v, x = .brk t v → Listed t L → Marked t L

theorem Okay.mono {main : Id} {A B : Labels} (h : Le A B) (x : Exit S.V) (hx : Okay main A x) :
    Okay main B x := ⟨hx.1, fun t v e hl => h.marked (hx.2 t v e (h.listed hl))⟩

/-- What the result of the analysis says about a computation. -/
structure Good (main : Id) (L : Labels) (r : NL × Labels) (m : M S α) : Prop where
  le : Le L r.2
  raises : r.1 ≠ .may → Raises (Okay main r.2) m
  noValue : r.1 = .div → NoValue m

theorem Raises.bind_noValue {Q : Exit S.V → Prop} {m : M S α} (f : α → M S β) (hm : Raises Q m)
    (hn : NoValue m) : Raises Q (m.bind f) := by
  intro w x w' h
  cases M.bind_error h with
  | inl h => exact hm w x w' h
  | inr h => obtain ⟨a, w1, h1, _⟩ := h; exact absurd h1 (hn _ _ _)

theorem Good.seq {main : Id} {L : Labels} {r : NL × Labels} {f : Labels → NL × Labels}
    {m : M S α} {g : α → M S β} (a0 : α) (hm : Good main L r m)
    (hf : ∀ L' a, Good main L' (f L') (g a)) : Good main L (Never.seq r f) (m.bind g) := by
  obtain ⟨r, L1⟩ := r
  cases r with
  | normal =>
    refine ⟨hm.le.trans (hf L1 a0).le, fun h => ?_, fun h => ?_⟩
    · refine Raises.bind ((hm.raises (by simp)).mono (Okay.mono (hf L1 a0).le)) fun a => ?_
      exact (hf L1 a).raises h
    · exact NoValue.bind_right _ fun a => (hf L1 a).noValue h
  | div =>
    refine ⟨hm.le, fun h => ?_, fun _ => ?_⟩
    · exact Raises.bind_noValue _ (hm.raises (by simp)) (hm.noValue rfl)
    · exact NoValue.bind_left _ (hm.noValue rfl)
  | may => exact ⟨hm.le, fun h => absurd rfl h, fun h => by cases h⟩

theorem seq_assoc (r : NL × Labels) (f g : Labels → NL × Labels) :
    Never.seq (Never.seq r f) g = Never.seq r fun L => Never.seq (f L) g := by
  obtain ⟨r, L⟩ := r
  cases r <;> rfl

theorem branches_may {a b : NL} (h : branches a b ≠ .may) : a ≠ .may ∧ b ≠ .may := by
  cases a <;> cases b <;> simp_all [branches]

theorem branches_div {a b : NL} (h : branches a b = .div) : a = .div ∧ b = .div := by
  cases a <;> cases b <;> simp_all [branches]

variable {never todo : Expr → Bool}

theorem Good.fin {main : Id} {L : Labels} {e : Expr} {r : NL × Labels} {m : M S S.V}
    (hm : Good main L r m) (hn : never e = true → NoValue m) :
    Good main L (Never.fin never todo e r) m := by
  obtain ⟨r, L1⟩ := r
  refine ⟨hm.le, fun h => ?_, fun h => ?_⟩
  · refine hm.raises fun hr => h ?_
    cases hr
    simp [Never.fin]
  · cases r with
    | div => exact hm.noValue rfl
    | may => simp [Never.fin] at h
    | normal =>
      by_cases he : never e = true
      · exact hn he
      · rw [Bool.not_eq_true] at he
        simp [Never.fin, he] at h

theorem Good.pop {main t : Id} {L : Labels} {r : NL × Labels} {m : M S S.V}
    (hm : Good main ((t, false) :: L) r m) : Good main L (popLabel r) (M.catchBrk t m) := by
  obtain ⟨r, L1⟩ := r
  cases L1 with
  | nil => exact absurd hm.le (by simp [Le])
  | cons p L2 =>
    obtain ⟨u, j⟩ := p
    obtain ⟨rfl, -, hl⟩ := hm.le
    have hL : (popLabel (r, (t, j) :: L2)).2 = L2 := by
      cases r <;> cases j <;> rfl
    have hr : (popLabel (r, (t, j) :: L2)).1 ≠ .may → r ≠ .may := by
      cases r <;> cases j <;> simp [popLabel]
    have hd : (popLabel (r, (t, j) :: L2)).1 = .div → r = .div ∧ j = false := by
      cases r <;> cases j <;> simp [popLabel]
    refine ⟨?_, fun h => ?_, fun h => ?_⟩
    · rw [hL]; exact hl
    · rw [hL]
      refine (hm.raises (hr h)).catchBrk fun x hx hb => ⟨hx.1, fun u v e hu => ?_⟩
      have hut : t ≠ u := fun e' => hb v (by rw [e, e'])
      cases hx.2 u v e (.inr hu) with
      | inl h => exact absurd h.1 hut
      | inr h => exact h.2
    · obtain ⟨rfl, rfl⟩ := hd h
      refine NoValue.catchBrk (hm.noValue rfl) ((hm.raises (by simp)).mono fun x hx v e => ?_)
      cases hx.2 t v e (.inl rfl) with
      | inl h => exact absurd h.2 (by simp)
      | inr h => exact h.1 rfl

theorem Good.absorb {main t : Id} {L : Labels} {r : NL × Labels} {m : M S S.V}
    (hle : Le L r.2)
    (hm : r.1 ≠ .may → Raises (fun x => Okay main r.2 x ∨ ∃ v, x = .brk t v) m) (n : Nat) :
    Good main L (Never.absorb r.1, r.2) (M.iter t m n) := by
  refine ⟨hle, fun h => ?_, fun h => ?_⟩
  · refine Raises.iter (hm fun e => h (by rw [e]; rfl)) ⟨by simp, fun _ _ e => by cases e⟩
      (fun x hx hb _ => ?_) n
    exact hx.elim id fun ⟨v, e⟩ => absurd e (hb v)
  · cases hr : r.1 <;> rw [hr] at h <;> cases h

/-- The same for the arms of a `match`, given the result for the arms before. -/
structure GoodA (main : Id) (acc : NL) (L : Labels) (r : NL × Labels) (m : M S α) : Prop where
  le : Le L r.2
  accMay : r.1 ≠ .may → acc ≠ .may
  accDiv : r.1 = .div → acc = .div
  raises : r.1 ≠ .may → Raises (Okay main r.2) m
  noValue : r.1 = .div → NoValue m

theorem okay_abort (main : Id) (L : Labels) : Okay (S := S) main L .abort :=
  ⟨by simp, fun _ _ e => by cases e⟩

theorem okay_nil {main : Id} {L : Labels} {l : List (Bool × Id)} (h : l = []) (x : Exit S.V)
    (hx : Within l x) : Okay main L x := by
  subst h
  cases x with
  | cont t => simp [Within] at hx
  | brk t v => simp [Within] at hx
  | ret v => exact ⟨by simp, fun _ _ e => by cases e⟩
  | abort => exact okay_abort _ _
  | fuel => exact ⟨by simp, fun _ _ e => by cases e⟩

theorem Good.keep {main : Id} {L : Labels} {r : NL × Labels} {m : M S α} {g : α → M S β}
    (hm : Good main L r m) (hg : ∀ a, Raises (Okay main r.2) (g a)) : Good main L r (m.bind g) :=
  ⟨hm.le, fun h => (hm.raises h).bind hg, fun h => NoValue.bind_left _ (hm.noValue h)⟩

mutual

theorem hiddenE_nil : ∀ e : Expr, exitsE e = [] → hiddenE e = []
  | .var _, _ => rfl
  | .prim _ _ as, h => by simp only [exitsE] at h; simp [hiddenE, hiddenL_nil as h]
  | .assign _ l r, h => by
    simp only [exitsE, List.append_eq_nil_iff] at h
    have hl := hiddenE_nil l h.1
    have hr := hiddenE_nil r h.2
    cases l <;> simp_all [hiddenE]
  | .lzy _ a b, h => by
    simp only [exitsE, List.append_eq_nil_iff] at h
    simp [hiddenE, hiddenE_nil a h.1, h.2]
  | .ite c t e, h => by
    simp only [exitsE, List.append_eq_nil_iff] at h
    simp [hiddenE, hiddenC_nil c h.1.1, hiddenE_nil t h.1.2, hiddenE_nil e h.2]
  | .ifn c t, h => by
    simp only [exitsE, List.append_eq_nil_iff] at h
    simp [hiddenE, hiddenC_nil c h.1, hiddenE_nil t h.2]
  | .mtch e as, h => by
    simp only [exitsE, List.append_eq_nil_iff] at h
    simp [hiddenE, hiddenE_nil e h.1, hiddenA_nil as h.2]
  | .block _ b, h => by simp only [exitsE] at h; simp [hiddenE, hiddenS_nil b h]
  | .lp _ _ b, h => by simp only [exitsE] at h; simp [hiddenE, hiddenS_nil b h]
  | .whl _ _ c b, h => by
    simp only [exitsE, List.append_eq_nil_iff] at h
    simp [hiddenE, hiddenC_nil c h.1, hiddenS_nil b h.2]
  | .forE _ _ _ _ it b, h => by
    simp only [exitsE, List.append_eq_nil_iff] at h
    simp [hiddenE, hiddenE_nil it h.1, hiddenS_nil b h.2]
  | .cont _ _, _ => rfl
  | .brk _ _ e, h => by simp [exitsE] at h
  | .ret e, h => by simp only [exitsE] at h; simp [hiddenE, hiddenL_nil e h]

theorem hiddenC_nil : ∀ c : Cond, exitsC c = [] → hiddenC c = []
  | .test e, h => by simp only [exitsC] at h; simp [hiddenC, hiddenE_nil e h]
  | .letP _ _ e, h => by simp only [exitsC] at h; simp [hiddenC, hiddenE_nil e h]
  | .nextP _ _ e, h => by simp only [exitsC] at h; simp [hiddenC, hiddenE_nil e h]
  | .and a b, h => by
    simp only [exitsC, List.append_eq_nil_iff] at h
    simp [hiddenC, hiddenC_nil a h.1, h.2]

theorem hiddenL_nil : ∀ es : Exprs, exitsL es = [] → hiddenL es = []
  | .nil, _ => rfl
  | .cons e es, h => by
    simp only [exitsL, List.append_eq_nil_iff] at h
    simp [hiddenL, hiddenE_nil e h.1, hiddenL_nil es h.2]

theorem hiddenA_nil : ∀ as : Arms, exitsA as = [] → hiddenA as = []
  | .nil, _ => rfl
  | .arm _ _ body rest, h => by
    simp only [exitsA, List.append_eq_nil_iff] at h
    simp [hiddenA, hiddenE_nil body h.1, hiddenA_nil rest h.2]
  | .armIf _ _ g body rest, h => by
    simp only [exitsA, List.append_eq_nil_iff] at h
    simp [hiddenA, h.1.1, hiddenE_nil body h.1.2, hiddenA_nil rest h.2]

theorem hiddenS_nil : ∀ b : Stmts, exitsS b = [] → hiddenS b = []
  | .done, _ => rfl
  | .tail e, h => by simp only [exitsS] at h; simp [hiddenS, hiddenE_nil e h]
  | .semi e r, h => by
    simp only [exitsS, List.append_eq_nil_iff] at h
    simp [hiddenS, hiddenE_nil e h.1, hiddenS_nil r h.2]
  | .expr e r, h => by
    simp only [exitsS, List.append_eq_nil_iff] at h
    simp [hiddenS, hiddenE_nil e h.1, hiddenS_nil r h.2]
  | .letS _ _ e r, h => by
    simp only [exitsS, List.append_eq_nil_iff] at h
    simp [hiddenS, hiddenE_nil e h.1, hiddenS_nil r h.2]
  | .letElse _ _ e els r, h => by
    simp only [exitsS, List.append_eq_nil_iff] at h
    simp [hiddenS, hiddenE_nil e h.1.1, hiddenS_nil els h.1.2, hiddenS_nil r h.2]
  | .item _ _ r, h => by simp only [exitsS] at h; simp [hiddenS, hiddenS_nil r h]

end

theorem hiddenE_assign {n : Nat} {l r : Expr} (h : hiddenE (.assign n l r) = []) :
    (∃ x, l = .var x ∧ hiddenE r = []) ∨ (hiddenE l = [] ∧ exitsE r = []) := by
  cases l with
  | var x => exact .inl ⟨x, rfl, by simpa [hiddenE] using h⟩
  | _ => exact .inr (List.append_eq_nil_iff.1 (by simpa only [hiddenE] using h))

section
variable (hns : NeverSound S never) (main : Id) (k : Nat)
include hns

theorem fin_ok {L : Labels} {e : Expr} {r : NL × Labels} {ρ : Env S} {m : M S S.V}
    (hm : Good main L r m) (he : eval k e ρ = m) : Good main L (fin never todo e r) (eval k e ρ) := by
  rw [he]
  exact hm.fin fun h w v w' hv => hns e h k ρ w v w' (by rw [he]; exact hv)

mutual

theorem goodE : ∀ (e : Expr) (ρ : Env S) (L : Labels), hiddenE e = [] →
    Good main L (nlE never todo main e L) (eval k e ρ)
  | .var x, ρ, L, _ => by
    rw [nlE]
    refine fin_ok hns main k (m := M.pure (ρ x)) ?_ (by simp only [eval])
    exact ⟨Le.refl L, fun _ => Raises.pure _, fun h => by cases h⟩
  | .prim n us as, ρ, L, h => by
    rw [nlE]
    refine fin_ok hns main k ?_ (by simp only [eval]; rfl)
    exact (goodL as ρ L (by simpa [hiddenE] using h)).keep fun _ => Raises.run _ (okay_abort _ _)
  | .assign n l r, ρ, L, h => by
    rw [nlE]
    refine fin_ok hns main k ?_ (by simp only [eval]; rfl)
    cases hiddenE_assign h with
    | inl h =>
      obtain ⟨x, rfl, hr⟩ := h
      cases hv : never (.var x) with
      | true =>
        have hw : S.W → False := fun w => hns (.var x) hv k ρ w (ρ x) w (by simp only [eval]; rfl)
        have hx : (seq (nlE never todo main (.var x) L) (nlE never todo main r)).2 = L := by
          cases ht : todo (.var x) <;> simp [nlE, fin, hv, ht, seq]
        exact ⟨by rw [hx]; exact Le.refl L, fun _ w => (hw w).elim, fun _ w => (hw w).elim⟩
      | false =>
        have hx : nlE never todo main (.var x) L = (.normal, L) := by simp [nlE, fin, hv]
        rw [hx]
        refine (goodE r ρ L hr).keep fun vr => ?_
        simp only [eval]
        exact (Raises.pure _).bind fun _ => Raises.run _ (okay_abort _ _)
    | inr h =>
      have hl := goodE l ρ L h.1
      have hr := fun L' => goodE r ρ L' (hiddenE_nil r h.2)
      have hex : ∀ L', Raises (Okay main L') (eval k r ρ) := fun L' =>
        (within_eval k r ρ).mono (okay_nil h.2)
      cases hc : nlE never todo main l L with
      | mk c L1 =>
        rw [hc] at hl
        cases c with
        | may => exact ⟨hl.le, fun h => absurd rfl h, fun h => by cases h⟩
        | div =>
          refine ⟨hl.le, fun h => (hex L1).bind fun _ => ?_, fun h => ?_⟩
          · exact Raises.bind_noValue _ (hl.raises h) (hl.noValue rfl)
          · exact NoValue.bind_right _ fun _ => NoValue.bind_left _ (hl.noValue rfl)
        | normal =>
          refine ⟨hl.le.trans (hr L1).le, fun h => (hex _).bind fun _ => ?_, fun h => ?_⟩
          · refine ((hl.raises (by simp)).mono (Okay.mono (hr L1).le)).bind fun _ => ?_
            exact Raises.run _ (okay_abort _ _)
          · exact NoValue.bind_left _ ((hr L1).noValue h)
  | .lzy isAnd a b, ρ, L, h => by
    rw [nlE]
    simp only [hiddenE, List.append_eq_nil_iff] at h
    refine fin_ok hns main k ?_ (by simp only [eval]; rfl)
    refine (goodE a ρ L h.1).keep fun v => ?_
    split
    · exact (within_eval k b ρ).mono (okay_nil h.2)
    · exact Raises.pure _
  | .ite c t e, ρ, L, h => by
    rw [nlE]
    simp only [hiddenE, List.append_eq_nil_iff] at h
    refine fin_ok hns main k ?_ (by simp only [eval]; rfl)
    refine Good.seq none (goodC c ρ L h.1.1) fun L' a => ?_
    have h2 := goodE t ρ L' h.1.2
    have h3 := goodE e ρ (nlE never todo main t L').2 h.2
    cases a with
    | some ρ' =>
      have h2 := goodE t ρ' L' h.1.2
      exact ⟨h2.le.trans h3.le, fun hm => (h2.raises (branches_may hm).1).mono (Okay.mono h3.le),
        fun hd => h2.noValue (branches_div hd).1⟩
    | none =>
      exact ⟨h2.le.trans h3.le, fun hm => h3.raises (branches_may hm).2,
        fun hd => h3.noValue (branches_div hd).2⟩
  | .ifn c t, ρ, L, h => by
    rw [nlE]
    simp only [hiddenE, List.append_eq_nil_iff] at h
    refine fin_ok hns main k ?_ (by simp only [eval]; rfl)
    refine Good.seq none (goodC c ρ L h.1) fun L' a => ?_
    have h2 := goodE t ρ L' h.2
    have hd : branches (nlE never todo main t L').1 .normal ≠ .div := fun hd => by
      cases (branches_div hd).2
    cases a with
    | some ρ' =>
      have h2 := goodE t ρ' L' h.2
      exact ⟨h2.le, fun hm => (h2.raises (branches_may hm).1).bind fun _ => Raises.pure _,
        fun e => absurd e hd⟩
    | none => exact ⟨h2.le, fun hm => Raises.pure _, fun e => absurd e hd⟩
  | .mtch s arms, ρ, L, h => by
    rw [nlE]
    simp only [hiddenE, List.append_eq_nil_iff] at h
    refine fin_ok hns main k ?_ (by simp only [eval]; rfl)
    refine Good.seq S.unit (goodE s ρ L h.1) fun L' a => ?_
    have h2 := goodA arms a ρ .div L' h.2
    exact ⟨h2.le, h2.raises, h2.noValue⟩
  | .block none b, ρ, L, h => by
    rw [nlE]
    refine fin_ok hns main k ?_ (by simp only [eval]; rfl)
    exact goodS b _ L (by simpa [hiddenE] using h)
  | .block (some (l, t)) b, ρ, L, h => by
    rw [nlE]
    refine fin_ok hns main k ?_ (by simp only [eval]; rfl)
    exact (goodS b _ _ (by simpa [hiddenE] using h)).pop
  | .lp _ t b, ρ, L, h => by
    rw [nlE]
    refine fin_ok hns main k ?_ (by simp only [eval]; rfl)
    have hb := goodS b (hoist b ρ) L (by simpa [hiddenE] using h)
    exact Good.absorb hb.le (fun hm => (hb.raises hm).mono fun x => .inl) k
  | .whl _ t c b, ρ, L, h => by
    rw [nlE]
    simp only [hiddenE, List.append_eq_nil_iff] at h
    refine fin_ok hns main k ?_ (by simp only [eval]; rfl)
    have hb : ∀ L' ρ', Good main L' (fin never todo (.block none b) (nlS never todo main b L'))
        (evalS k b (hoist b ρ')) := fun L' ρ' =>
      (goodS b (hoist b ρ') L' h.2).fin fun hv w v w' e =>
        hns (.block none b) hv k ρ' w v w' (by simp only [eval]; exact e)
    have hc := goodC c ρ L h.1
    cases hr : nlC never todo main c L with
    | mk r L1 =>
      rw [hr] at hc
      cases r with
      | may => exact Good.absorb hc.le (fun h => absurd rfl h) k
      | div =>
        refine Good.absorb hc.le (fun h => ?_) k
        exact Raises.bind_noValue _ ((hc.raises h).mono fun _ => .inl) (hc.noValue rfl)
      | normal =>
        refine Good.absorb (r := (branches (fin never todo (.block none b)
          (nlS never todo main b L1)).1 .div, _)) (hc.le.trans (hb L1 ρ).le) (fun h => ?_) k
        refine ((hc.raises (by simp)).mono fun x hx => .inl (Okay.mono (hb L1 ρ).le x hx)).bind
          fun a => ?_
        cases a with
        | some ρ' => exact ((hb L1 ρ').raises (branches_may h).1).mono fun _ => .inl
        | none => exact Raises.throw (.inr ⟨_, rfl⟩)
  | .forE _ t p xs it b, ρ, L, h => by
    rw [nlE]
    simp only [hiddenE, List.append_eq_nil_iff] at h
    refine fin_ok hns main k ?_ (by simp only [eval]; rfl)
    refine Good.seq S.unit (goodE it ρ L h.1) fun L' v => ?_
    have hb : ∀ ρ', Good main L' (fin never todo (.block none b) (nlS never todo main b L'))
        (evalS k b (hoist b ρ')) := fun ρ' =>
      (goodS b (hoist b ρ') L' h.2).fin fun hv w v w' e =>
        hns (.block none b) hv k ρ' w v w' (by simp only [eval]; exact e)
    refine Good.absorb (r := (branches .div (fin never todo (.block none b)
      (nlS never todo main b L')).1, _)) (hb ρ).le (fun h => ?_) k
    refine (Raises.run _ (.inl (okay_abort _ _))).bind fun o => ?_
    cases o with
    | some x =>
      refine (Raises.bindPat _ _ _ _ (.inl (okay_abort _ _))).bind fun ρ' => ?_
      exact ((hb ρ').raises (branches_may h).2).mono fun _ => .inl
    | none => exact Raises.throw (.inr ⟨_, rfl⟩)
  | .cont _ t, ρ, L, h => by
    rw [nlE]
    refine fin_ok hns main k ?_ (by simp only [eval]; rfl)
    refine ⟨Le.refl L, fun hm => Raises.throw ?_, fun _ => NoValue.throw _⟩
    by_cases ht : t = main
    · simp [ht] at hm
    · exact ⟨fun e => ht (by cases e; rfl), fun _ _ e => by cases e⟩
  | .brk _ t v, ρ, L, h => by
    rw [nlE]
    refine fin_ok hns main k ?_ (by simp only [eval]; rfl)
    refine Good.seq [] (goodL v ρ L (by simpa [hiddenE] using h)) fun L' a => ?_
    refine ⟨le_mark t L', fun _ => Raises.throw ⟨by simp, fun u v e hl => ?_⟩, fun _ => NoValue.throw _⟩
    cases e
    exact marked_mark ((le_mark t L').listed hl)
  | .ret v, ρ, L, h => by
    rw [nlE]
    refine fin_ok hns main k ?_ (by simp only [eval]; rfl)
    refine Good.seq [] (goodL v ρ L (by simpa [hiddenE] using h)) fun L' a => ?_
    exact ⟨Le.refl L', fun _ => Raises.throw ⟨by simp, fun u v e hl => by cases e⟩,
      fun _ => NoValue.throw _⟩

theorem goodC : ∀ (c : Cond) (ρ : Env S) (L : Labels), hiddenC c = [] →
    Good main L (nlC never todo main c L) (evalC k c ρ)
  | .test e, ρ, L, h => by
    simp only [nlC, evalC]
    exact (goodE e ρ L (by simpa [hiddenC] using h)).keep fun _ => Raises.pure _
  | .letP p xs e, ρ, L, h => by
    simp only [nlC, evalC]
    exact (goodE e ρ L (by simpa [hiddenC] using h)).keep fun _ => Raises.pure _
  | .nextP p xs e, ρ, L, h => by
    simp only [nlC, evalC]
    refine (goodE e ρ L (by simpa [hiddenC] using h)).keep fun v => ?_
    refine (Raises.run _ (okay_abort _ _)).bind fun o => ?_
    cases o with
    | some x => exact (Raises.bindPat _ _ _ _ (okay_abort _ _)).bind fun _ => Raises.pure _
    | none => exact Raises.pure _
  | .and a b, ρ, L, h => by
    simp only [hiddenC, List.append_eq_nil_iff] at h
    simp only [nlC, evalC]
    refine (goodC a ρ L h.1).keep fun r => ?_
    cases r with
    | some ρ' => exact (within_evalC k b ρ').mono (okay_nil h.2)
    | none => exact Raises.pure _

theorem goodL : ∀ (es : Exprs) (ρ : Env S) (L : Labels), hiddenL es = [] →
    Good main L (nlL never todo main es L) (evalL k es ρ)
  | .nil, ρ, L, _ => by
    simp only [nlL, evalL]
    exact ⟨Le.refl L, fun _ => Raises.pure _, fun h => by cases h⟩
  | .cons e es, ρ, L, h => by
    simp only [hiddenL, List.append_eq_nil_iff] at h
    simp only [nlL, evalL]
    refine Good.seq S.unit (goodE e ρ L h.1) fun L' v => ?_
    exact (goodL es ρ L' h.2).keep fun _ => Raises.pure _

theorem goodA : ∀ (as : Arms) (v : S.V) (ρ : Env S) (acc : NL) (L : Labels), hiddenA as = [] →
    GoodA main acc L (nlA never todo main as acc L) (evalA k as v ρ)
  | .nil, v, ρ, acc, L, _ => by
    simp only [nlA, evalA]
    exact ⟨Le.refl L, id, id, fun _ => Raises.throw (okay_abort _ _), fun _ => NoValue.throw _⟩
  | .arm p xs body rest, v, ρ, acc, L, h => by
    simp only [hiddenA, List.append_eq_nil_iff] at h
    simp only [nlA, evalA]
    have hb := fun ρ' => goodE body ρ' L h.1
    have hr := goodA rest v ρ (branches acc (nlE never todo main body L).1)
      (nlE never todo main body L).2 h.2
    refine ⟨(hb ρ).le.trans hr.le, fun hm => (branches_may (hr.accMay hm)).1,
      fun hd => (branches_div (hr.accDiv hd)).1, fun hm => ?_, fun hd => ?_⟩
    · split
      · exact ((hb _).raises (branches_may (hr.accMay hm)).2).mono (Okay.mono hr.le)
      · exact hr.raises hm
    · split
      · exact (hb _).noValue (branches_div (hr.accDiv hd)).2
      · exact hr.noValue hd
  | .armIf p xs g body rest, v, ρ, acc, L, h => by
    simp only [hiddenA, List.append_eq_nil_iff] at h
    simp only [nlA, evalA]
    have hb := fun ρ' => goodE body ρ' L h.1.2
    have hr := goodA rest v ρ (branches acc (nlE never todo main body L).1)
      (nlE never todo main body L).2 h.2
    refine ⟨(hb ρ).le.trans hr.le, fun hm => (branches_may (hr.accMay hm)).1,
      fun hd => (branches_div (hr.accDiv hd)).1, fun hm => ?_, fun hd => ?_⟩
    · split
      · refine ((within_evalC k g _).mono (okay_nil h.1.1)).bind fun r => ?_
        cases r with
        | some ρ' => exact ((hb ρ').raises (branches_may (hr.accMay hm)).2).mono (Okay.mono hr.le)
        | none => exact hr.raises hm
      · exact hr.raises hm
    · split
      · refine NoValue.bind_right _ fun r => ?_
        cases r with
        | some ρ' => exact (hb ρ').noValue (branches_div (hr.accDiv hd)).2
        | none => exact hr.noValue hd
      · exact hr.noValue hd

theorem goodS : ∀ (b : Stmts) (ρ : Env S) (L : Labels), hiddenS b = [] →
    Good main L (nlS never todo main b L) (evalS k b ρ)
  | .done, ρ, L, _ => by
    simp only [nlS, evalS]
    exact ⟨Le.refl L, fun _ => Raises.pure _, fun h => by cases h⟩
  | .tail e, ρ, L, h => by
    simp only [nlS, evalS]
    exact goodE e ρ L (by simpa [hiddenS] using h)
  | .semi e r, ρ, L, h => by
    simp only [hiddenS, List.append_eq_nil_iff] at h
    simp only [nlS, evalS]
    exact Good.seq S.unit (goodE e ρ L h.1) fun L' v => goodS r ρ L' h.2
  | .expr e r, ρ, L, h => by
    simp only [hiddenS, List.append_eq_nil_iff] at h
    simp only [nlS, evalS]
    exact Good.seq S.unit (goodE e ρ L h.1) fun L' v => goodS r ρ L' h.2
  | .letS p xs e r, ρ, L, h => by
    simp only [hiddenS, List.append_eq_nil_iff] at h
    simp only [nlS, evalS]
    refine Good.seq S.unit (goodE e ρ L h.1) fun L' v => ?_
    unfold bindPat
    split
    · exact goodS r _ L' h.2
    · have := goodS r ρ L' h.2
      exact ⟨this.le, fun _ => Raises.throw (okay_abort _ _), fun _ => NoValue.throw _⟩
  | .letElse p xs e els r, ρ, L, h => by
    simp only [hiddenS, List.append_eq_nil_iff] at h
    simp only [nlS, evalS]
    rw [seq_assoc]
    refine Good.seq S.unit (goodE e ρ L h.1.1) fun L' v => ?_
    have hx := goodS els (hoist els ρ) L' h.1.2
    cases hr : (nlS never todo main els L').1 with
    | may => exact ⟨hx.le, fun h => by simp [hr, soften, Never.seq] at h, fun h => by simp [hr, soften, Never.seq] at h⟩
    | _ =>
      have hrest := fun ρ' => goodS r ρ' (nlS never todo main els L').2 h.2
      refine ⟨?_, fun hm => ?_, fun hd => ?_⟩
      · exact hx.le.trans (hrest ρ).le
      · cases S.pat p v with
        | some vs => exact (hrest _).raises hm
        | none =>
          refine Raises.bind ((hx.raises (by simp [hr])).mono (Okay.mono (hrest ρ).le)) ?_
          exact fun _ => Raises.throw (okay_abort _ _)
      · cases S.pat p v with
        | some vs => exact (hrest _).noValue hd
        | none => exact NoValue.bind_right _ fun _ => NoValue.throw _
  | .item x n r, ρ, L, h => by
    simp only [nlS, evalS]
    exact goodS r ρ L (by simpa [hiddenS] using h)

end
end

/-! ## The theorems -/

theorem Good.once {t : Id} {r : NL × Labels} {m : M S S.V} (h : Good t [] r m) (hr : r.1 = .div) :
    Once t m := fun w => ⟨h.noValue hr w, fun w' e => (h.raises (by simp [hr]) w _ w' e).1 rfl⟩

/-- **C71.**  When the lint reports a loop, no execution of the loop gets to a second turn: the
body neither comes to its end nor continues the loop.  Missing: jumps in places that the lint
does not look at, see `Witness`. -/
theorem never_loops_partial (hns : NeverSound S never) (e : Expr) (hf : fires never todo e = true)
    (hh : hiddenE e = []) (k : Nat) (ρ : Env S) (x : S.V) : Once e.loopId (turn k e ρ x) := by
  unfold fires at hf
  split at hf
  · next lab t b =>
    exact (goodS hns t k b _ [] (by simpa [hiddenE] using hh)).once (by simpa using hf)
  · next lab t c b =>
    simp only [hiddenE, List.append_eq_nil_iff] at hh
    have hb : ∀ L' ρ', Good t L' (fin never todo (.block none b) (nlS never todo t b L'))
        (evalS k b (hoist b ρ')) := fun L' ρ' =>
      (goodS hns t k b (hoist b ρ') L' hh.2).fin fun hv w v w' e =>
        hns (.block none b) hv k ρ' w v w' (by simp only [eval]; exact e)
    have hc := goodC (todo := todo) hns t k c ρ [] hh.1
    revert hf
    cases hr : nlC never todo t c [] with
    | mk r L1 =>
      rw [hr] at hc
      intro hf
      cases r with
      | may => simp [seq] at hf
      | div =>
        intro w
        refine ⟨NoValue.bind_left _ (hc.noValue rfl) w, fun w' h => ?_⟩
        exact (Raises.bind_noValue _ (hc.raises (by simp)) (hc.noValue rfl) w _ w' h).1 rfl
      | normal =>
        have hd := (branches_div (of_decide_eq_true hf)).1
        intro w
        refine ⟨NoValue.bind_right _ (fun a => ?_) w, fun w' h => ?_⟩
        · cases a with
          | some ρ' => exact (hb L1 ρ').noValue hd
          | none => exact NoValue.throw _
        · refine Raises.bind (Q := fun x => x ≠ .cont t)
            ((hc.raises (by simp)).mono fun _ h => h.1) (fun a => ?_) w _ w' h rfl
          cases a with
          | some ρ' => exact ((hb L1 ρ').raises (by simp [hd])).mono fun _ h => h.1
          | none => exact Raises.throw (by simp)
  · next lab t p xs it b =>
    simp only [hiddenE, List.append_eq_nil_iff] at hh
    have hb := fun ρ' => (goodS (todo := todo) hns t k b (hoist b ρ') [] hh.2)
    have hd : (nlS never todo t b []).1 = .div := by simpa using hf
    intro w
    refine ⟨NoValue.bind_right _ (fun ρ' => (hb ρ').noValue hd) w, fun w' h => ?_⟩
    refine Raises.bind (Q := fun x => x ≠ .cont t) (Raises.bindPat _ _ _ _ (by simp))
      (fun ρ' => ?_) w _ w' h rfl
    exact ((hb ρ').raises (by simp [hd])).mono fun _ h => h.1
  · cases hf

/-- A loop whose turns do not lead to another turn is a block that `break` leaves. -/
theorem once_iter {t : Id} {m : M S S.V} (h : Once t m) (n : Nat) :
    M.iter t m (n + 1) = M.catchBrk t m := by
  funext w
  unfold M.iter M.catchBrk
  cases hw : m w with
  | mk r w1 =>
    cases r with
    | ok v => exact absurd hw ((h w).1 v w1)
    | error y =>
      cases y with
      | cont u =>
        simp only
        rw [if_neg]
        intro hu
        subst hu
        exact (h w).2 w1 hw
      | _ => rfl

/-- **C71.**  A `loop` or `while` that is reported does the same when it is allowed a single turn:
it is a block that `break` leaves. -/
theorem single_turn_partial (hns : NeverSound S never) (e : Expr) (hf : fires never todo e = true)
    (hh : hiddenE e = []) (hl : ∀ lab t p xs it b, e ≠ .forE lab t p xs it b) (k : Nat)
    (ρ : Env S) : eval (k + 1) e ρ = M.catchBrk e.loopId (turn (k + 1) e ρ S.unit) := by
  have ho := never_loops_partial hns e hf hh (k + 1) ρ S.unit
  unfold fires at hf
  split at hf
  · simp only [eval]; exact once_iter ho k
  · simp only [eval]; exact once_iter ho k
  · exact absurd rfl (hl _ _ _ _ _ _)
  · cases hf

/-- **C71.**  A `for` that is reported takes at most one element. -/
theorem single_element_partial (hns : NeverSound S never) (lab : Option Name) (t : Id) (p : Nat)
    (xs : List Name) (it : Expr) (b : Stmts)
    (hf : fires never todo (.forE lab t p xs it b) = true) (hh : hiddenE (.forE lab t p xs it b) = [])
    (k : Nat) (ρ : Env S) :
    eval (k + 1) (.forE lab t p xs it b) ρ = (eval (k + 1) it ρ).bind fun v =>
      (M.run (S.next v)).bind fun o =>
        match o with
        | some x => M.catchBrk t (turn (k + 1) (.forE lab t p xs it b) ρ x)
        | none => M.pure S.unit := by
  have ho := never_loops_partial hns _ hf hh (k + 1) ρ
  simp only [eval]
  refine M.bind_congr fun v => ?_
  rw [once_iter]
  · funext w
    unfold M.catchBrk
    cases hw : M.run (S.next v) w with
    | mk r w1 =>
      cases r with
      | ok o =>
        rw [M.bind_of_ok _ hw, M.bind_of_ok _ hw]
        cases o with
        | some x => rfl
        | none => simp only [M.throw, if_true]; rfl
      | error y =>
        rw [M.bind_of_error _ hw, M.bind_of_error _ hw]
        have := Raises.run (Q := fun x => x = .abort) (S.next v) rfl w y w1 hw
        subst this
        rfl
  · intro w
    refine ⟨NoValue.bind_right _ (fun o => ?_) w, fun w' h => ?_⟩
    · cases o with
      | some x => exact fun w => (ho x w).1
      | none => exact NoValue.throw _
    · refine Raises.bind (Q := fun x => x ≠ .cont t) (Raises.run _ (by simp)) (fun o => ?_)
        w _ w' h rfl
      cases o with
      | some x => exact fun w y w' e h' => (ho x w).2 w' (by subst h'; exact e)
      | none => exact Raises.throw (by simp)

/-! ## The replacement -/

theorem resolveC_some {t : Id} : ∀ {c : List Around} {lab : Option Name},
    resolveC c lab = some t → resolve c lab = some t
  | [], _, h => by simp [resolveC] at h
  | a :: c, none, h => by
    unfold resolveC at h
    unfold resolve
    split at h
    · next ha => rw [if_pos ha]; exact h
    · next ha => rw [if_neg ha]; exact resolveC_some h
  | a :: c, some l, h => by
    unfold resolveC at h
    unfold resolve
    split at h
    · next ha =>
      rw [if_pos ha]
      split at h
      · exact h
      · cases h
    · next ha => rw [if_neg ha]; exact resolveC_some h

theorem resolve_push {a : Around} {c : List Around} {t : Id} (ha : a.id ≠ t)
    (hl : ∀ l, resolve c (some l) ≠ some t) (l : Name) : resolve (a :: c) (some l) ≠ some t := by
  unfold resolve
  split
  · simpa using ha
  · exact hl l

theorem resolve_push_none {a : Around} {c : List Around} {t : Id} (ha : a.id ≠ t)
    (hl : resolve c none ≠ some t) : resolve (a :: c) none ≠ some t := by
  unfold resolve
  split
  · simpa using ha
  · exact hl

theorem resolve_loop {a : Around} {c : List Around} {t : Id} (ha : a.id ≠ t) (hi : a.isLoop = true) :
    resolve (a :: c) none ≠ some t := by
  unfold resolve
  rw [if_pos hi]
  simpa using ha

theorem fresh_resolve {t : Id} : ∀ {c : List Around}, Fresh t c → ∀ lab, resolve c lab ≠ some t
  | [], _, lab => by simp [resolve]
  | a :: c, h, none => resolve_push_none (h a List.mem_cons_self)
      (fresh_resolve (fun b hb => h b (List.mem_cons_of_mem _ hb)) none)
  | a :: c, h, some l => resolve_push (h a List.mem_cons_self)
      (fun l => fresh_resolve (fun b hb => h b (List.mem_cons_of_mem _ hb)) (some l)) l

/-- The loop of number `t` is around, and no label leads to it. -/
def Unnamed (t : Id) (c : List Around) : Prop :=
  (∀ l, resolve c (some l) ≠ some t) ∧ ∃ a ∈ c, a.id = t

theorem Unnamed.push {a : Around} {c : List Around} {t : Id} (h : Unnamed t c) (hf : Fresh a.id c) :
    a.id ≠ t ∧ Unnamed t (a :: c) := by
  obtain ⟨h1, a', ha, hi⟩ := h
  have : a.id ≠ t := fun e => hf a' ha (hi.trans e.symm)
  exact ⟨this, resolve_push this h1, a', List.mem_cons_of_mem _ ha, hi⟩

theorem or_left {p : Prop} {a b : Bool} (h : p ∨ (a || b) = false) : p ∨ a = false := by
  cases a <;> simp_all

theorem or_right {p : Prop} {a b : Bool} (h : p ∨ (a || b) = false) : p ∨ b = false := by
  cases b <;> simp_all

mutual

theorem noneE (t : Id) : ∀ (e : Expr) (c : List Around), Unnamed t c → scopedE c e →
    (resolve c none ≠ some t ∨ jumpsE e = false) → ∀ j, (j, t) ∉ exitsE e
  | .var _, c, _, _, _, j => by simp [exitsE]
  | .prim _ _ as, c, hu, hs, h, j => by
    simp only [exitsE, scopedE, jumpsE] at *
    exact noneL t as c hu hs h j
  | .assign _ l r, c, hu, hs, h, j => by
    simp only [exitsE, scopedE, jumpsE, List.mem_append, not_or] at *
    exact ⟨noneE t l c hu hs.1 (or_left h) j, noneE t r c hu hs.2 (or_right h) j⟩
  | .lzy _ a b, c, hu, hs, h, j => by
    simp only [exitsE, scopedE, jumpsE, List.mem_append, not_or] at *
    exact ⟨noneE t a c hu hs.1 (or_left h) j, noneE t b c hu hs.2 (or_right h) j⟩
  | .ite q a b, c, hu, hs, h, j => by
    simp only [exitsE, scopedE, jumpsE, List.mem_append, not_or] at *
    exact ⟨⟨noneC t q c hu hs.1 (or_left (or_left h)) j,
      noneE t a c hu hs.2.1 (or_right (or_left h)) j⟩, noneE t b c hu hs.2.2 (or_right h) j⟩
  | .ifn q a, c, hu, hs, h, j => by
    simp only [exitsE, scopedE, jumpsE, List.mem_append, not_or] at *
    exact ⟨noneC t q c hu hs.1 (or_left h) j, noneE t a c hu hs.2 (or_right h) j⟩
  | .mtch e as, c, hu, hs, h, j => by
    simp only [exitsE, scopedE, jumpsE, List.mem_append, not_or] at *
    exact ⟨noneE t e c hu hs.1 (or_left h) j, noneA t as c hu hs.2 (or_right h) j⟩
  | .block none b, c, hu, hs, h, j => by
    simp only [exitsE, scopedE, jumpsE] at *
    exact noneS t b c hu hs h j
  | .block (some (l, u)) b, c, hu, hs, h, j => by
    simp only [exitsE, scopedE, jumpsE] at *
    have hp := hu.push (a := ⟨some l, u, false⟩) hs.1
    exact noneS t b _ hp.2 hs.2 (h.imp_left (resolve_push_none hp.1)) j
  | .lp lab u b, c, hu, hs, h, j => by
    simp only [exitsE, scopedE] at *
    have hp := hu.push (a := ⟨lab, u, true⟩) hs.1
    exact noneS t b _ hp.2 hs.2 (.inl (resolve_loop hp.1 rfl)) j
  | .whl lab u q b, c, hu, hs, h, j => by
    simp only [exitsE, scopedE, List.mem_append, not_or] at *
    have hp := hu.push (a := ⟨lab, u, true⟩) hs.1
    exact ⟨noneC t q _ hp.2 hs.2.1 (.inl (resolve_loop hp.1 rfl)) j,
      noneS t b _ hp.2 hs.2.2 (.inl (resolve_loop hp.1 rfl)) j⟩
  | .forE lab u _ _ it b, c, hu, hs, h, j => by
    simp only [exitsE, scopedE, jumpsE, List.mem_append, not_or] at *
    have hp := hu.push (a := ⟨lab, u, true⟩) hs.1
    exact ⟨noneE t it c hu hs.2.1 h j, noneS t b _ hp.2 hs.2.2 (.inl (resolve_loop hp.1 rfl)) j⟩
  | .cont lab u, c, hu, hs, h, j => by
    simp only [exitsE, scopedE, jumpsE] at *
    replace hs := resolveC_some hs
    intro hm
    simp only [List.mem_singleton, Prod.mk.injEq] at hm
    obtain ⟨-, rfl⟩ := hm
    cases lab with
    | none => exact h.elim (fun h => h hs) (fun h => by cases h)
    | some l => exact hu.1 l hs
  | .brk lab u e, c, hu, hs, h, j => by
    simp only [exitsE, scopedE, jumpsE] at *
    have hn : resolve c none ≠ some t := h.elim id fun h => by cases h
    intro hm
    simp only [List.mem_cons, Prod.mk.injEq] at hm
    cases hm with
    | inl hm =>
      obtain ⟨-, rfl⟩ := hm
      cases lab with
      | none => exact hn hs.1
      | some l => exact hu.1 l hs.1
    | inr hm => exact noneL t e c hu hs.2 (.inl hn) j hm
  | .ret e, c, hu, hs, h, j => by
    simp only [exitsE, scopedE, jumpsE] at *
    exact noneL t e c hu hs h j

theorem noneC (t : Id) : ∀ (q : Cond) (c : List Around), Unnamed t c → scopedC c q →
    (resolve c none ≠ some t ∨ jumpsC q = false) → ∀ j, (j, t) ∉ exitsC q
  | .test e, c, hu, hs, h, j => by
    simp only [exitsC, scopedC, jumpsC] at *; exact noneE t e c hu hs h j
  | .letP _ _ e, c, hu, hs, h, j => by
    simp only [exitsC, scopedC, jumpsC] at *; exact noneE t e c hu hs h j
  | .nextP _ _ e, c, hu, hs, h, j => by
    simp only [exitsC, scopedC, jumpsC] at *; exact noneE t e c hu hs h j
  | .and a b, c, hu, hs, h, j => by
    simp only [exitsC, scopedC, jumpsC, List.mem_append, not_or] at *
    exact ⟨noneC t a c hu hs.1 (or_left h) j, noneC t b c hu hs.2 (or_right h) j⟩

theorem noneL (t : Id) : ∀ (es : Exprs) (c : List Around), Unnamed t c → scopedL c es →
    (resolve c none ≠ some t ∨ jumpsL es = false) → ∀ j, (j, t) ∉ exitsL es
  | .nil, c, _, _, _, j => by simp [exitsL]
  | .cons e es, c, hu, hs, h, j => by
    simp only [exitsL, scopedL, jumpsL, List.mem_append, not_or] at *
    exact ⟨noneE t e c hu hs.1 (or_left h) j, noneL t es c hu hs.2 (or_right h) j⟩

theorem noneA (t : Id) : ∀ (as : Arms) (c : List Around), Unnamed t c → scopedA c as →
    (resolve c none ≠ some t ∨ jumpsA as = false) → ∀ j, (j, t) ∉ exitsA as
  | .nil, c, _, _, _, j => by simp [exitsA]
  | .arm _ _ e es, c, hu, hs, h, j => by
    simp only [exitsA, scopedA, jumpsA, List.mem_append, not_or] at *
    exact ⟨noneE t e c hu hs.1 (or_left h) j, noneA t es c hu hs.2 (or_right h) j⟩
  | .armIf _ _ g e es, c, hu, hs, h, j => by
    simp only [exitsA, scopedA, jumpsA, List.mem_append, not_or] at *
    exact ⟨⟨noneC t g c hu hs.1 (or_left (or_left h)) j,
      noneE t e c hu hs.2.1 (or_right (or_left h)) j⟩, noneA t es c hu hs.2.2 (or_right h) j⟩

theorem noneS (t : Id) : ∀ (b : Stmts) (c : List Around), Unnamed t c → scopedS c b →
    (resolve c none ≠ some t ∨ jumpsS b = false) → ∀ j, (j, t) ∉ exitsS b
  | .done, c, _, _, _, j => by simp [exitsS]
  | .tail e, c, hu, hs, h, j => by
    simp only [exitsS, scopedS, jumpsS] at *; exact noneE t e c hu hs h j
  | .semi e r, c, hu, hs, h, j => by
    simp only [exitsS, scopedS, jumpsS, List.mem_append, not_or] at *
    exact ⟨noneE t e c hu hs.1 (or_left h) j, noneS t r c hu hs.2 (or_right h) j⟩
  | .expr e r, c, hu, hs, h, j => by
    simp only [exitsS, scopedS, jumpsS, List.mem_append, not_or] at *
    exact ⟨noneE t e c hu hs.1 (or_left h) j, noneS t r c hu hs.2 (or_right h) j⟩
  | .letS _ _ e r, c, hu, hs, h, j => by
    simp only [exitsS, scopedS, jumpsS, List.mem_append, not_or] at *
    exact ⟨noneE t e c hu hs.1 (or_left h) j, noneS t r c hu hs.2 (or_right h) j⟩
  | .letElse _ _ e els r, c, hu, hs, h, j => by
    simp only [exitsS, scopedS, jumpsS, List.mem_append, not_or] at *
    exact ⟨⟨noneE t e c hu hs.1 (or_left (or_left h)) j,
      noneS t els c hu hs.2.1 (or_right (or_left h)) j⟩, noneS t r c hu hs.2.2 (or_right h) j⟩
  | .item _ _ r, c, hu, hs, h, j => by
    simp only [exitsS, scopedS, jumpsS] at *; exact noneS t r c hu hs h j

end

/-- **C71.**  The `if let` offered for a `for` does what the `for` does. -/
theorem rewrite_same_partial (hns : NeverSound S never) (c : List Around) (e e' : Expr)
    (hr : rewrite never todo e = some e') (hs : scopedE c e) (hh : hiddenE e = []) (k : Nat)
    (ρ : Env S) : eval (k + 1) e ρ = eval (k + 1) e' ρ := by
  unfold rewrite at hr
  split at hr
  · next lab t p xs it b =>
    split at hr
    · next hc =>
      obtain ⟨hf, hj, rfl⟩ := hc
      cases hr
      rw [single_element_partial hns none t p xs it b hf hh k ρ]
      simp only [scopedE] at hs
      have hu : Unnamed t (⟨none, t, true⟩ :: c) := by
        refine ⟨fun l h => ?_, _, List.mem_cons_self, rfl⟩
        exact fresh_resolve hs.1 (some l) (by simpa [resolve] using h)
      have hex := noneS t b _ hu hs.2.2 (.inr hj)
      have ho := never_loops_partial hns _ hf hh (k + 1) ρ
      simp only [eval, evalC]
      rw [M.bind_assoc]
      refine M.bind_congr fun v => ?_
      rw [M.bind_assoc]
      refine M.bind_congr fun o => ?_
      cases o with
      | none => rfl
      | some x =>
        funext w
        have hw1 := (ho x w).1
        have hb : Raises (fun y => ∀ v, y ≠ .brk t v) (turn (k + 1) (.forE none t p xs it b) ρ x) := by
          refine (Raises.bindPat _ _ _ _ (by simp)).bind fun ρ' => ?_
          refine (within_evalS (k + 1) b _).mono fun y hy v e => ?_
          subst e
          exact hex false hy
        have hcatch : M.catchBrk t (turn (k + 1) (.forE none t p xs it b) ρ x) w
            = turn (k + 1) (.forE none t p xs it b) ρ x w := by
          unfold M.catchBrk
          cases hw : turn (k + 1) (.forE none t p xs it b) ρ x w with
          | mk r w1 =>
            cases r with
            | ok v => rfl
            | error y =>
              have := hb w y w1 hw
              cases y with
              | brk u v =>
                simp only
                rw [if_neg]
                intro hu
                subst hu
                exact this v rfl
              | _ => rfl
        simp only [hcatch, M.bind_assoc, M.pure_bind]
        cases hp : bindPat p xs x ρ w with
        | mk r w1 =>
          cases r with
          | error y => simp only [turn]; rw [M.bind_of_error _ hp, M.bind_of_error _ hp]
          | ok ρ' =>
            simp only [turn] at hw1 ⊢
            rw [M.bind_of_ok _ hp] at hw1 ⊢
            rw [M.bind_of_ok _ hp]
            cases hq : evalB (k + 1) b ρ' w1 with
            | mk r w2 =>
              cases r with
              | ok v => exact absurd hq (hw1 v w2)
              | error y => exact (M.bind_of_error (m := evalB (k + 1) b ρ') _ hq).symm
    · cases hr
  · cases hr

end Verif.Ctrl.Never
