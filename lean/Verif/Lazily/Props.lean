import Verif.Lazily.Model
import Verif.Lazily.Spec

/-!
# Cheap expressions: proofs
-/

namespace Verif.Lazily

variable {S : Sem} {const? : Ex → Option V} {stdFn promoFn : Nat → Prop}

theorem join_eager {a b : Eag} (h : a.join b = .eager) : a = .eager ∧ b = .eager := by
  cases a <;> cases b <;> first | exact ⟨rfl, rfl⟩ | cases h

theorem join_noChange (a : Eag) : a.join .noChange ≠ .eager := by
  intro h; cases (join_eager h).2

theorem join_force {a b : Eag} (h : a.join b ≠ .force) : a ≠ .force ∧ b ≠ .force := by
  cases a <;> cases b <;> first | exact ⟨by decide, by decide⟩ | exact absurd rfl h

mutual

/-- What has stopped being cheap stays so. -/
theorem visit_acc : ∀ (e : Ex) (acc : Eag), visit const? acc e = .eager → acc = .eager
  | e, acc, h => by
    unfold visit at h
    split at h
    · cases h
    · cases e with
      | adj e => exact (join_eager h).1
      | ctor drops k es =>
        simp only at h; split at h
        · cases h
        · exact visitL_acc es acc h
      | promo f es => exact visitL_acc es acc h
      | call f i es =>
        simp only at h; split at h
        · exact (join_eager h).1
        · exact (join_eager (visitL_acc es _ h)).1
      | callVal f es => cases visit_acc f _ (visitL_acc es _ h)
      | method f i e es =>
        simp only at h; split at h
        · exact (join_eager h).1
        · exact (join_eager (visit_acc e _ (visitL_acc es _ h))).1
      | path r drops x =>
        simp only at h; split at h
        · cases h
        · exact h
      | index s c a i =>
        have := visit_acc a _ (visit_acc i _ h)
        split at this
        · exact (join_eager this).1
        · cases this
      | neg t e =>
        simp only at h; split at h
        · exact (join_eager (visit_acc e _ h)).1
        · split at h
          · exact visit_acc e _ h
          · cases visit_acc e _ h
      | not t e =>
        simp only at h; split at h
        · exact visit_acc e _ h
        · cases visit_acc e _ h
      | deref d e =>
        cases d with
        | builtin => exact visit_acc e _ h
        | user => exact (join_eager (visit_acc e _ h)).1
        | raw => exact (join_eager (visit_acc e _ h)).1
      | bin op ta tb t a b =>
        simp only at h; split at h
        · exact visit_acc a _ (visit_acc b _ h)
        · cases visit_acc a _ (visit_acc b _ h)
        · exact (join_eager (visit_acc a _ (visit_acc b _ h))).1
      | leave r es => cases h
      | lp e => cases visit_acc e _ h
      | plain k es => exact visitL_acc es acc h
      | closure k => exact h
      | union k e => exact visit_acc e _ h
      | branch k c a rest => exact visit_acc c _ (visit_acc a _ (visitL_acc rest _ h))
      | block e => exact visit_acc e _ h
      | stmts es e => exact (join_eager (visitL_acc es _ (visit_acc e _ h))).1
      | assign l r => exact (join_eager (visit_acc l _ (visit_acc r _ h))).1

theorem visitL_acc : ∀ (es : Exs) (acc : Eag), visitL const? acc es = .eager → acc = .eager
  | .nil, _, h => h
  | .cons e es, acc, h => visit_acc e acc (visitL_acc es _ h)

end

/-- All operands. -/
def HarmlessL (S : Sem) (es : Exs) : Prop := ∀ ρ w, ∃ vs, evalL S es ρ w = (.ok vs, w)

theorem fnEagerness_eager {i : FnInfo} {one : Bool} (h : fnEagerness i one = .eager) :
    i.std = true ∧ i.accessor = true := by
  unfold fnEagerness at h
  split at h
  · cases h
  · split at h
    next h1 =>
      split at h
      next h2 => simp only [Bool.and_eq_true] at h1; exact ⟨h2, h1.1⟩
      next => cases h
    next =>
      split at h <;> cases h

theorem prim_ne {t : Ty} (h : isPrimitive t = true) : t ≠ .adt := by
  intro e; subst e; cases h

theorem const_value (hs : ConstSound S const?) {e : Ex} {v v' : V} (h : const? e = some v')
    {ρ : Env} {w w1 : S.W} (hv : eval S e ρ w = (.ok v, w1)) : const? e = some v := by
  have := hs e v' h ρ w
  rw [hv] at this
  injection this with this _
  injection this with this
  rw [h, this]

theorem isNone_false {α : Type} {o : Option α} (h : ¬o.isNone = true) : ∃ v, o = some v := by
  cases o with
  | none => exact absurd rfl h
  | some v => exact ⟨v, rfl⟩

/-- An operator that passes the tests does not panic. -/
theorem bin_ok (hs : ConstSound S const?) {op : BinOp} {ta tb t : Ty} {a b : Ex}
    (hb : binEag const? op ta tb t a b = none) (ho : opOk const? ta op a b)
    (ht : ∀ s n, ta = .int s n → t ≠ .float)
    {va vb : V} {ρ : Env} {w : S.W} (hva : eval S a ρ w = (.ok va, w))
    (hvb : eval S b ρ w = (.ok vb, w)) : ta ≠ .adt ∧ tb ≠ .adt ∧ ¬Panics ta op va vb := by
  unfold binEag at hb
  by_cases h1 : ((op == .shl || op == .shr) && (const? b).isNone) = true
  · rw [if_pos h1] at hb; cases hb
  rw [if_neg h1] at hb
  by_cases h2 : ((op == .div || op == .rem) &&
      divUnknown (const? a) ((const? b).bind intValue)) = true
  · rw [if_pos h2] at hb; cases hb
  rw [if_neg h2] at hb
  by_cases h3 : ((op == .add || op == .sub || op == .mul) && !(t == .float) &&
      ((const? a).isNone || (const? b).isNone)) = true
  · rw [if_pos h3] at hb; cases hb
  rw [if_neg h3] at hb
  by_cases hp : (isPrimitive ta && isPrimitive tb) = true
  case neg => rw [if_neg hp] at hb; cases hb
  simp only [Bool.and_eq_true] at hp
  refine ⟨prim_ne hp.1, prim_ne hp.2, ?_⟩
  intro hpan
  cases ta with
  | int s bits =>
    have htf : (t == Ty.float) = false := by
      cases h : t == Ty.float with
      | false => rfl
      | true => exact absurd (eq_of_beq h) (ht s bits rfl)
    rw [htf] at h3
    cases va with
    | obj _ => exact hpan
    | num x =>
    cases vb with
    | obj _ => exact hpan
    | num y =>
    have both : (const? a).isNone = false → (const? b).isNone = false → False := by
      intro ha hb
      obtain ⟨va', ha⟩ := isNone_false (by rw [ha]; decide)
      obtain ⟨vb', hb⟩ := isNone_false (by rw [hb]; decide)
      exact ho.1 _ _ (const_value hs ha hva) (const_value hs hb hvb) hpan
    have arith : (!false && ((const? a).isNone || (const? b).isNone)) = false → False := by
      intro h
      simp only [Bool.not_false, Bool.true_and, Bool.or_eq_false_iff] at h
      exact both h.1 h.2
    have shift : (∀ n, Panics (.int s bits) op (.num n) (.num y)) → (const? b).isNone = false →
        False := by
      intro hall hb
      obtain ⟨vb', hb⟩ := isNone_false (by rw [hb]; decide)
      obtain ⟨n, hn⟩ := ho.2 _ (const_value hs hb hvb)
      exact hn (hall n)
    have div : Overflows s bits .div x y →
        (∀ n, y = 0 → Panics (.int s bits) op (.num n) (.num y)) →
        divUnknown (const? a) ((const? b).bind intValue) = false → False := by
      intro hov hzero hd
      cases hcb : const? b with
      | none => rw [hcb] at hd; cases ha : const? a <;> rw [ha] at hd <;> cases hd
      | some vb' =>
        have hcb' := const_value hs hcb hvb
        rw [hcb'] at hd
        have hz : y ≠ 0 := by
          intro h
          obtain ⟨n, hn⟩ := ho.2 _ hcb'
          exact hn (hzero n h)
        cases hca : const? a with
        | none =>
          rw [hca] at hd
          have hne : ¬(y == -1) = true := by
            intro h
            have hd' : (y == -1) = false := hd
            rw [hd'] at h; cases h
          cases hov with
          | inl h => exact hz h
          | inr h => exact hne (by rw [h.2.1]; decide)
        | some va' => exact ho.1 _ _ (const_value hs hca hva) hcb' hpan
    cases op with
    | add => exact arith (eq_false_of_ne_true h3)
    | sub => exact arith (eq_false_of_ne_true h3)
    | mul => exact arith (eq_false_of_ne_true h3)
    | div => exact div hpan (fun _ h => .inl h) (eq_false_of_ne_true h2)
    | rem => exact div hpan (fun _ h => .inl h) (eq_false_of_ne_true h2)
    | shl => exact shift (fun _ => hpan) (eq_false_of_ne_true h1)
    | shr => exact shift (fun _ => hpan) (eq_false_of_ne_true h1)
    | and => exact hpan
    | or => exact hpan
    | other n => exact hpan
  | _ => exact hpan

theorem binEag_lazy_or {op : BinOp} {ta tb t : Ty} {a b : Ex} {x : Eag}
    (h : binEag const? op ta tb t a b = some x) : x ≠ .eager := by
  unfold binEag at h
  repeat' split at h
  all_goals first | cases h; intro h'; cases h' | cases h

mutual

theorem harmless (hs : ConstSound S const?) (hl : LibPure S stdFn promoFn) : ∀ (e : Ex),
    visit const? .eager e = .eager → Tame const? stdFn promoFn e → Harmless S e
  | .plain k es, h, ht => by
    simp only [visit] at h
    intro ρ w
    obtain ⟨vs, hv⟩ := harmlessL hs hl es h ht ρ w
    simp only [eval, hv, andThen]
    exact ⟨_, rfl⟩
  | .closure k, _, _ => fun ρ w => ⟨_, rfl⟩
  | .union k e, _, ht => ht.elim
  | .path r drops x, h, ht => by
    simp only [visit] at h
    intro ρ w
    cases r with
    | loc => exact ⟨_, rfl⟩
    | static => exact ⟨_, rfl⟩
    | const => rw [ht rfl]; exact ⟨_, rfl⟩
    | ctor =>
      cases drops with
      | false => exact ⟨_, rfl⟩
      | true => cases h
  | .ctor drops k es, h, ht => by
    simp only [visit] at h
    intro ρ w
    cases drops with
    | true => cases h
    | false =>
      obtain ⟨vs, hv⟩ := harmlessL hs hl es h ht ρ w
      simp only [eval, hv, andThen]
      exact ⟨_, rfl⟩
  | .promo f es, h, ht => by
    simp only [visit] at h
    intro ρ w
    obtain ⟨vs, hv⟩ := harmlessL hs hl es h ht.2 ρ w
    obtain ⟨v, hf⟩ := hl.promo f ht.1 vs w
    simp only [eval, hv, andThen, hf, ofOutcome]
    exact ⟨v, rfl⟩
  | .call f i es, h, ht => by
    simp only [visit] at h
    intro ρ w
    split at h
    · cases h
    · split at h
      · cases (join_eager h).2
      next hc =>
        have hj := visitL_acc es _ h
        rw [hj] at h
        obtain ⟨vs, hv⟩ := harmlessL hs hl es h ht.2.2 ρ w
        have hi := fnEagerness_eager (join_eager hj).2
        obtain ⟨v, hf⟩ := hl.std f (ht.1 hi.1 hi.2) vs w
        simp only [eval, hv, andThen, hf, ofOutcome]
        exact ⟨v, rfl⟩
  | .callVal f es, h, _ => by
    simp only [visit] at h
    split at h
    · cases h
    · cases visit_acc f _ (visitL_acc es _ h)
  | .method f i e es, h, ht => by
    simp only [visit] at h
    intro ρ w
    split at h
    · cases h
    · split at h
      · cases (join_eager h).2
      next hc =>
        have hve := visitL_acc es _ h
        rw [hve] at h
        have hj := visit_acc e _ hve
        rw [hj] at hve
        obtain ⟨v0, hv0⟩ := harmless hs hl e hve ht.2.2.1 ρ w
        obtain ⟨vs, hv⟩ := harmlessL hs hl es h ht.2.2.2 ρ w
        have hi := fnEagerness_eager (join_eager hj).2
        obtain ⟨v, hf⟩ := hl.std f (ht.1 hi.1 hi.2) (v0 :: vs) w
        simp only [eval, hv0, hv, andThen, hf, ofOutcome]
        exact ⟨v, rfl⟩
  | .index s c a i, h, _ => by
    simp only [visit] at h
    split at h
    · cases h
    · have := visit_acc a _ (visit_acc i _ h)
      split at this <;> cases this
  | .neg t e, h, ht => by
    simp only [visit] at h
    intro ρ w
    split at h
    · cases h
    · split at h
      · cases (join_eager (visit_acc e _ h)).2
      next hc =>
        split at h
        next hi =>
          obtain ⟨v, hv⟩ := harmless hs hl e h ht.2 ρ w
          obtain ⟨v', hc⟩ := isNone_false hc
          have hn := ht.1 v (const_value hs hc hv)
          have ha : t ≠ .adt := by intro e; rw [e] at hi; cases hi
          simp only [eval, hv, andThen, if_neg ha, if_neg hn]
          exact ⟨_, rfl⟩
        next => cases visit_acc e _ h
  | .not t e, h, ht => by
    simp only [visit] at h
    intro ρ w
    split at h
    · cases h
    · split at h
      next hi =>
        obtain ⟨v, hv⟩ := harmless hs hl e h ht ρ w
        have ha : t ≠ .adt := by intro e; rw [e] at hi; cases hi
        simp only [eval, hv, andThen, if_neg ha]
        exact ⟨_, rfl⟩
      next => cases visit_acc e _ h
  | .deref .builtin e, h, ht => by
    simp only [visit] at h
    intro ρ w
    obtain ⟨v, hv⟩ := harmless hs hl e h ht ρ w
    simp only [eval, hv, andThen]
    exact ⟨_, rfl⟩
  | .deref .user e, h, _ => by
    simp only [visit] at h
    split at h
    · cases h
    · cases (join_eager (visit_acc e _ h)).2
  | .deref .raw e, h, _ => by
    simp only [visit] at h
    split at h
    · cases h
    · cases (join_eager (visit_acc e _ h)).2
  | .bin op ta tb t a b, h, ht => by
    simp only [visit] at h
    intro ρ w
    split at h
    · cases h
    · split at h
      next hb =>
        have hva := visit_acc b _ h
        rw [hva] at h
        obtain ⟨va, hea⟩ := harmless hs hl a hva ht.2.2.1 ρ w
        obtain ⟨vb, heb⟩ := harmless hs hl b h ht.2.2.2 ρ w
        have := bin_ok hs hb ht.2.1 ht.1 hea heb
        simp only [eval, hea, andThen, heb, evalBin]
        split
        · exact ⟨_, rfl⟩
        · rw [if_neg (fun h => h.elim this.1 this.2.1), if_neg this.2.2]
          exact ⟨_, rfl⟩
      next => cases visit_acc a _ (visit_acc b _ h)
      next x _ hb =>
        exact absurd (join_eager (visit_acc a _ (visit_acc b _ h))).2 (binEag_lazy_or hb)
  | .leave r es, h, _ => by
    simp only [visit] at h
    split at h <;> cases h
  | .lp e, h, _ => by
    simp only [visit] at h
    split at h
    · cases h
    · cases visit_acc e _ h
  | .branch k c a rest, h, ht => by
    simp only [visit] at h
    intro ρ w
    have h1 := visitL_acc rest _ h
    have h2 := visit_acc a _ h1
    rw [h2] at h1
    obtain ⟨v, hv⟩ := harmless hs hl c h2 ht.1 ρ w
    simp only [eval, hv, andThen]
    cases S.pick k v with
    | zero => exact harmless hs hl a h1 ht.2.1 _ w
    | succ n =>
      rw [h2, h1] at h
      exact harmlessN hs hl rest h ht.2.2 n _ w
  | .block e, h, ht => by
    simp only [visit] at h
    intro ρ w
    simp only [eval]
    exact harmless hs hl e h ht ρ w
  | .stmts es e, h, _ => by
    simp only [visit] at h
    split at h
    · cases h
    · cases (join_eager (visitL_acc es _ (visit_acc e _ h))).2
  | .assign l r, h, _ => by
    simp only [visit] at h
    split at h
    · cases h
    · cases (join_eager (visit_acc l _ (visit_acc r _ h))).2
  | .adj e, h, _ => by
    simp only [visit] at h
    split at h
    · cases h
    · cases (join_eager h).2

theorem harmlessL (hs : ConstSound S const?) (hl : LibPure S stdFn promoFn) : ∀ (es : Exs),
    visitL const? .eager es = .eager → TameL const? stdFn promoFn es → HarmlessL S es
  | .nil, _, _ => fun ρ w => ⟨[], rfl⟩
  | .cons e es, h, ht => by
    simp only [visitL] at h
    intro ρ w
    have h1 := visitL_acc es _ h
    rw [h1] at h
    obtain ⟨v, hv⟩ := harmless hs hl e h1 ht.1 ρ w
    obtain ⟨vs, hvs⟩ := harmlessL hs hl es h ht.2 ρ w
    simp only [evalL, hv, andThenL, hvs]
    exact ⟨_, rfl⟩

theorem harmlessN (hs : ConstSound S const?) (hl : LibPure S stdFn promoFn) : ∀ (es : Exs),
    visitL const? .eager es = .eager → TameL const? stdFn promoFn es →
    ∀ n ρ w, ∃ v, evalNth S es n ρ w = (.ok v, w)
  | .nil, _, _ => fun n ρ w => ⟨_, rfl⟩
  | .cons e es, h, ht => by
    simp only [visitL] at h
    intro n ρ w
    have h1 := visitL_acc es _ h
    cases n with
    | zero => exact harmless hs hl e h1 ht.1 ρ w
    | succ n => rw [h1] at h; exact harmlessN hs hl es h ht.2 n ρ w

end

/-- **C76.** An expression that is called cheap can be evaluated at any time: it has a value, no
effect, no panic and no other way out.  Missing: fields of unions, `unsafe` functions and constants
with destructors, which `Tame` rules out and the code does not. -/
theorem eager_harmless_partial (hs : ConstSound S const?) (hl : LibPure S stdFn promoFn) {e : Ex}
    (h : switchToEager const? e = true) (ht : Tame const? stdFn promoFn e) : Harmless S e :=
  harmless hs hl e (eq_of_beq h) ht

/-- **C76, use.** A method with a closure that is reported does the same with the value. -/
theorem un_lazy_partial (hs : ConstSound S const?) (hl : LibPure S stdFn promoFn) {paramsUsed : Bool}
    {body arg : Ex} (h : unLazy const? paramsUsed body = some arg)
    (ht : Tame const? stdFn promoFn body) (m : Lazy S) (recv : Ex) (ρ : Env) (w : S.W) :
    withClosure S m recv body ρ w = withValue S m recv arg ρ w := by
  unfold unLazy at h
  split at h
  · cases h
  · split at h
    next he =>
      cases h
      unfold withClosure withValue
      cases hr : eval S recv ρ w with
      | mk r w1 =>
        cases r with
        | error s => rfl
        | ok r =>
          obtain ⟨v, hv⟩ := eager_harmless_partial hs hl he ht ρ w1
          simp only [andThen, hv]
    next => cases h

/-! ### The other direction -/

mutual

theorem constEval_leaves : ∀ e : Ex, constEval e = true → leaves e = false
  | .plain _ es, h => constEvalL_leaves es h
  | .closure _, _ => rfl
  | .union _ e, h => constEval_leaves e h
  | .path _ _ _, _ => rfl
  | .ctor _ _ es, h => constEvalL_leaves es h
  | .promo _ es, h => constEvalL_leaves es h
  | .call _ i es, h => by
    simp only [constEval, Bool.and_eq_true] at h; exact constEvalL_leaves es h.2
  | .callVal _ _, h => by cases h
  | .method _ i e es, h => by
    simp only [constEval, Bool.and_eq_true] at h
    simp only [leaves, constEval_leaves e h.1.2, constEvalL_leaves es h.2, Bool.or_false]
  | .index _ _ a i, h => by
    simp only [constEval, Bool.and_eq_true] at h
    simp only [leaves, constEval_leaves a h.1.2, constEval_leaves i h.2, Bool.or_false]
  | .neg _ e, h => by
    simp only [constEval, Bool.and_eq_true] at h; exact constEval_leaves e h.2
  | .not _ e, h => by
    simp only [constEval, Bool.and_eq_true] at h; exact constEval_leaves e h.2
  | .deref _ e, h => by
    simp only [constEval, Bool.and_eq_true] at h; exact constEval_leaves e h.2
  | .bin _ _ _ _ a b, h => by
    simp only [constEval, Bool.and_eq_true] at h
    simp only [leaves, constEval_leaves a h.1.2, constEval_leaves b h.2, Bool.or_false]
  | .leave _ _, h => by cases h
  | .lp _, h => by cases h
  | .branch _ c a rest, h => by
    simp only [constEval, Bool.and_eq_true] at h
    simp only [leaves, constEval_leaves c h.1.1, constEval_leaves a h.1.2, constEvalL_leaves rest h.2,
      Bool.or_false]
  | .block e, h => constEval_leaves e h
  | .stmts es e, h => by
    simp only [constEval, Bool.and_eq_true] at h
    simp only [leaves, constEvalL_leaves es h.1, constEval_leaves e h.2, Bool.or_false]
  | .assign _ _, h => by cases h
  | .adj e, h => constEval_leaves e h

theorem constEvalL_leaves : ∀ es : Exs, constEvalL es = true → leavesL es = false
  | .nil, _ => rfl
  | .cons e es, h => by
    simp only [constEvalL, Bool.and_eq_true] at h
    simp only [leavesL, constEval_leaves e h.1, constEvalL_leaves es h.2, Bool.or_false]

end

mutual

/-- Nothing goes through a user's `Deref` on its own. -/
def noAdj : Ex → Bool
  | .adj _ => false
  | .leave _ es => noAdjL es
  | .plain _ es => noAdjL es
  | .closure _ => true
  | .union _ e => noAdj e
  | .path _ _ _ => true
  | .ctor _ _ es => noAdjL es
  | .promo _ es => noAdjL es
  | .call _ _ es => noAdjL es
  | .callVal f es => noAdj f && noAdjL es
  | .method _ _ e es => noAdj e && noAdjL es
  | .index _ _ a i => noAdj a && noAdj i
  | .neg _ e => noAdj e
  | .not _ e => noAdj e
  | .deref _ e => noAdj e
  | .bin _ _ _ _ a b => noAdj a && noAdj b
  | .lp e => noAdj e
  | .branch _ c a rest => noAdj c && noAdj a && noAdjL rest
  | .block e => noAdj e
  | .stmts es e => noAdjL es && noAdj e
  | .assign l r => noAdj l && noAdj r

def noAdjL : Exs → Bool
  | .nil => true
  | .cons e es => noAdj e && noAdjL es

end

mutual

/-- What must not be moved is noticed. -/
theorem visit_leaves : ∀ (e : Ex) (acc : Eag), visit const? acc e ≠ .force → noAdj e = true →
    acc ≠ .force ∧ leaves e = false
  | e, acc, h, hn => by
    unfold visit at h
    split at h
    · exact absurd rfl h
    next hacc =>
      refine ⟨hacc, ?_⟩
      cases e with
      | adj e => cases hn
      | ctor drops k es =>
        simp only at h; split at h
        · exact absurd rfl h
        · exact (visitL_leaves es acc h hn).2
      | promo f es => exact (visitL_leaves es acc h hn).2
      | call f i es =>
        simp only at h; split at h
        next hc => exact constEval_leaves _ hc
        next => exact (visitL_leaves es _ h hn).2
      | callVal f es =>
        simp only [noAdj, Bool.and_eq_true] at hn
        have h1 := visitL_leaves es _ h hn.2
        simp only [leaves, h1.2, (visit_leaves f _ h1.1 hn.1).2, Bool.or_false]
      | method f i e es =>
        simp only at h; split at h
        next hc => exact constEval_leaves _ hc
        next =>
          simp only [noAdj, Bool.and_eq_true] at hn
          have h1 := visitL_leaves es _ h hn.2
          simp only [leaves, h1.2, (visit_leaves e _ h1.1 hn.1).2, Bool.or_false]
      | path r drops x => rfl
      | index s c a i =>
        simp only [noAdj, Bool.and_eq_true] at hn
        have h1 := visit_leaves i _ h hn.2
        simp only [leaves, h1.2, (visit_leaves a _ h1.1 hn.1).2, Bool.or_false]
      | neg t e =>
        simp only at h; split at h
        · exact (visit_leaves e _ h hn).2
        · split at h <;> exact (visit_leaves e _ h hn).2
      | not t e => simp only at h; split at h <;> exact (visit_leaves e _ h hn).2
      | deref d e => cases d <;> exact (visit_leaves e _ h hn).2
      | bin op ta tb t a b =>
        simp only [noAdj, Bool.and_eq_true] at hn
        simp only at h
        split at h
        all_goals
          have h1 := visit_leaves b _ h hn.2
          simp only [leaves, h1.2, (visit_leaves a _ h1.1 hn.1).2, Bool.or_false]
      | leave r es => exact absurd rfl h
      | lp e => exact (visit_leaves e _ h hn).2
      | plain k es => exact (visitL_leaves es acc h hn).2
      | closure k => rfl
      | union k e => exact (visit_leaves e _ h hn).2
      | branch k c a rest =>
        simp only [noAdj, Bool.and_eq_true] at hn
        have h1 := visitL_leaves rest _ h hn.2
        have h2 := visit_leaves a _ h1.1 hn.1.2
        simp only [leaves, h1.2, h2.2, (visit_leaves c _ h2.1 hn.1.1).2, Bool.or_false]
      | block e => exact (visit_leaves e _ h hn).2
      | stmts es e =>
        simp only [noAdj, Bool.and_eq_true] at hn
        have h1 := visit_leaves e _ h hn.2
        simp only [leaves, h1.2, (visitL_leaves es _ h1.1 hn.1).2, Bool.or_false]
      | assign l r =>
        simp only [noAdj, Bool.and_eq_true] at hn
        have h1 := visit_leaves r _ h hn.2
        simp only [leaves, h1.2, (visit_leaves l _ h1.1 hn.1).2, Bool.or_false]

theorem visitL_leaves : ∀ (es : Exs) (acc : Eag), visitL const? acc es ≠ .force →
    noAdjL es = true → acc ≠ .force ∧ leavesL es = false
  | .nil, _, h, _ => ⟨h, rfl⟩
  | .cons e es, acc, h, hn => by
    simp only [noAdjL, Bool.and_eq_true] at hn
    have h1 := visitL_leaves es _ h hn.2
    have h2 := visit_leaves e acc h1.1 hn.1
    exact ⟨h2.1, by simp only [leavesL, h1.2, h2.2, Bool.or_false]⟩

end

/-- **C76, closures.** What is moved into a closure by `or_fun_call` is nowhere left by `break`,
`continue`, `return` or `.await`.  Missing: expressions below one that goes through a user's
`Deref`, which are not looked at. -/
theorem lazy_stays_partial {arg : Ex} (h : orFunCall const? arg = true) (hn : noAdj arg = true) :
    leaves arg = false := by
  simp only [orFunCall, switchToLazy, Bool.and_eq_true] at h
  refine (visit_leaves (const? := const?) arg .eager ?_ hn).2
  rw [eq_of_beq h.1]; decide

end Verif.Lazily
