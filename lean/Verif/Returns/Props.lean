import Verif.Returns.Model

/-!
# Properties: adding `return` where it is implicit
-/

namespace Verif.Returns

variable {V S : Type}

/-- Outcomes after breaks to `d` with values may have become returns. -/
inductive Rel (d : Nat) : Res V S → Res V S → Prop
  | same (r : Res V S) : Rel d r r
  | brk (x : V) (s : S) : Rel d (some (.brk d x, s)) (some (.ret x, s))

theorem rel_andThen {d : Nat} {r r' : Res V S} {f g : V → S → Res V S} (h : Rel d r r') (hf : ∀ x s, Rel d (f x s) (g x s)) :
    Rel d (andThen r f) (andThen r' g) := by
  cases h with
  | brk x s => exact .brk x s
  | same =>
    rcases r with _ | ⟨_ | _ | _ | _, s⟩
    · exact .same _
    · exact hf _ _
    · exact .same _
    · exact .same _
    · exact .same _

theorem rel_leave {d : Nat} {r r' : Res V S} (h : Rel (d + 1) r r') : Rel d (leave r) (leave r') := by
  cases h with
  | same => exact .same _
  | brk x s => exact .brk x s

theorem rel_rounds {d : Nat} {f g : S → Res V S} (h : ∀ s, Rel (d + 1) (f s) (g s)) : ∀ m s, Rel d (rounds f m s) (rounds g m s)
  | 0, _ => .same _
  | m + 1, s => by
    have hs := h s
    unfold rounds
    generalize hf : f s = r at hs
    generalize hg : g s = r' at hs
    cases hs with
    | brk x s' => exact .brk x s'
    | same =>
      rcases r with _ | ⟨_ | _ | _ | _, s'⟩
      · exact .same _
      · exact rel_rounds h m s'
      · exact .same _
      · exact .same _
      · exact .same _

/-- Replacing breaks by returns changes just these outcomes. -/
theorem fixB_rel (I : Sem V S) (n : Nat) : ∀ (e : E) (d : Nat) (s : S), Rel d (eval I n e s) (eval I n (fixB d e) s)
  | .leaf _, _, _ => .same _
  | .call _ _ a b, d, s => rel_andThen (fixB_rel I n a d s) fun _ s1 => rel_andThen (fixB_rel I n b d s1) fun _ _ => .same _
  | .seq a b, d, s => rel_andThen (fixB_rel I n a d s) fun _ s1 => fixB_rel I n b d s1
  | .stm a, d, s => rel_andThen (fixB_rel I n a d s) fun _ _ => .same _
  | .ite c t e, d, s => rel_andThen (fixB_rel I n c d s) fun x s1 => by
      by_cases h : I.truth x = true
      · rw [if_pos h, if_pos h]; exact fixB_rel I n t d s1
      · rw [if_neg h, if_neg h]; exact fixB_rel I n e d s1
  | .ift c t, d, s => rel_andThen (fixB_rel I n c d s) fun x s1 => by
      by_cases h : I.truth x = true
      · rw [if_pos h, if_pos h]; exact rel_andThen (fixB_rel I n t d s1) fun _ _ => .same _
      · rw [if_neg h, if_neg h]; exact .same _
  | .loop b, d, s => rel_rounds (fun s => fixB_rel I n b (d + 1) s) n s
  | .blk b, d, s => rel_leave (fixB_rel I n b (d + 1) s)
  | .brk k e, d, s => by
      have ih := fixB_rel I n e d s
      unfold fixB
      by_cases h : k = d
      · rw [if_pos h]
        subst h
        exact rel_andThen ih fun x s1 => .brk x s1
      · rw [if_neg h]
        exact rel_andThen ih fun x s1 => .same _
  | .brk0 _, _, _ => .same _
  | .ret e, d, s => rel_andThen (fixB_rel I n e d s) fun _ _ => .same _
  | .mac _, _, _ => .same _

theorem caller_andThen {r : Res V S} {f g : V → S → Res V S} (h : ∀ x s, caller (f x s) = caller (g x s)) : caller (andThen r f) = caller (andThen r g) := by
  rcases r with _ | ⟨_ | _ | _ | _, s⟩
  · rfl
  · exact h _ _
  · rfl
  · rfl
  · rfl

theorem caller_ret (r : Res V S) : caller (andThen r fun x s1 => some (.ret x, s1)) = caller r := by
  rcases r with _ | ⟨_ | _ | _ | _, s⟩ <;> rfl

/-- A loop in which breaks were replaced. -/
theorem caller_rounds {f g : S → Res V S} (h : ∀ s, Rel 0 (f s) (g s)) : ∀ m s, caller (rounds f m s) = caller (rounds g m s)
  | 0, _ => rfl
  | m + 1, s => by
    have hs := h s
    unfold rounds
    generalize hf : f s = r at hs
    generalize hg : g s = r' at hs
    cases hs with
    | brk x s' => rfl
    | same =>
      rcases r with _ | ⟨_ | _ | _ | _, s'⟩
      · rfl
      · exact caller_rounds h m s'
      · rfl
      · rfl
      · rfl

theorem caller_leave {r r' : Res V S} (h : caller r = caller r') : caller (leave r) = caller (leave r') := by
  rcases r with _ | ⟨x | x | ⟨_ | k⟩ | _, s⟩ <;> rcases r' with _ | ⟨y | y | ⟨_ | k'⟩ | _, s'⟩ <;>
    simp_all [caller, leave]

theorem caller_returns (I : Sem V S) (n : Nat) (s : S) (e : E) : ∀ m, caller (eval I n (returns m e) s) = caller (eval I n e s)
  | 0 => rfl
  | m + 1 => by
    show caller (andThen (eval I n (returns m e) s) fun x s1 => some (.ret x, s1)) = _
    rw [caller_ret, caller_returns I n s e m]

/-- C139: adding the suggested `return`s does not change what the caller sees. -/
theorem same (I : Sem V S) (n : Nat) : ∀ (e : E) (s : S), caller (eval I n (fix e) s) = caller (eval I n e s)
  | .seq a b, s => caller_andThen fun _ s1 => same I n b s1
  | .blk b, s => caller_leave (same I n b s)
  | .mac e, s => caller_returns I n s (.mac e) _
  | .ite c t e, s => caller_andThen fun x s1 => by
      by_cases h : I.truth x = true
      · rw [if_pos h, if_pos h]; exact same I n t s1
      · rw [if_neg h, if_neg h]; exact same I n e s1
  | .loop b, s => by
      have h : caller (eval I n (.loop (fixB 0 b)) s) = caller (eval I n (.loop b) s) :=
        (caller_rounds (fun s => fixB_rel I n b 0 s) n s).symm
      unfold fix
      split
      · show caller (andThen (eval I n (.loop (fixB 0 b)) s) fun x s1 => some (.ret x, s1)) = _
        rw [caller_ret, h]
      · exact h
  | .ift _ _, _ => rfl
  | .stm _, _ => rfl
  | .ret _, _ => rfl
  | .call i v a b, s => by
      unfold fix
      split
      · rfl
      · exact caller_ret _
  | .leaf i, s => caller_ret (eval I n (.leaf i) s)
  | .brk k e, s => caller_ret (eval I n (.brk k e) s)
  | .brk0 k, s => caller_ret (eval I n (.brk0 k) s)

/-- Numbers; leaf `i` is the value `i + 1`, the unit value and false are 0. -/
def nums : Sem Nat Unit := ⟨0, fun x => x != 0, fun i s => (some (i + 1), s), fun _ v x y s => (if v then none else some (x + y + 1), s)⟩

/-- `loop { if c { break 4 } }`. -/
def example1 : E := .loop (.ift (.leaf 0) (.stm (.brk 0 (.leaf 3))))

example : fix example1 = .loop (.ift (.leaf 0) (.stm (.ret (.leaf 3)))) ∧ eval nums 5 example1 () = some (.val 4, ()) ∧
    eval nums 5 (fix example1) () = some (.ret 4, ()) := by decide +kernel

/-- C139: there is at most one report for each macro call. -/
theorem macro_once : ∀ e : E, inMac e = (1, .parent) ∨ inMac e = (0, .inner)
  | .seq _ b => macro_once b
  | .blk b => macro_once b
  | .mac e => macro_once e
  | .ite _ t e => by
    have h1 := macro_once t
    have h2 := macro_once e
    unfold inMac both
    rcases h1 with h1 | h1 <;> rcases h2 with h2 | h2 <;> rw [h1, h2] <;> simp
  | .loop b => by unfold inMac; split <;> simp
  | .ift _ _ => Or.inr rfl
  | .stm _ => Or.inr rfl
  | .ret _ => Or.inr rfl
  | .call _ v _ _ => by unfold inMac; split <;> simp
  | .leaf _ => Or.inl rfl
  | .brk _ _ => Or.inl rfl
  | .brk0 _ => Or.inl rfl

example : fix (.mac (.ite (.leaf 0) (.leaf 1) (.leaf 2))) = .ret (.mac (.ite (.leaf 0) (.leaf 1) (.leaf 2))) := by decide +kernel

/-! ## Nothing implicit is left -/

/-- No break to `d` with another value than unit. -/
def NoBrk (I : Sem V S) (d : Nat) (r : Res V S) : Prop := ∀ x s, r = some (.brk d x, s) → x = I.unit

/-- No value other than unit. -/
def NoVal (I : Sem V S) (r : Res V S) : Prop := ∀ x s, r = some (.val x, s) → x = I.unit

theorem noBrk_andThen {I : Sem V S} {d : Nat} {r : Res V S} {f : V → S → Res V S} (h : NoBrk I d r) (hf : ∀ x s, NoBrk I d (f x s)) :
    NoBrk I d (andThen r f) := by
  rcases r with _ | ⟨_ | _ | _ | _, s⟩
  · intro x s h; cases h
  · exact hf _ _
  · intro x s h; cases h
  · exact h
  · intro x s h; cases h

theorem noBrk_leaf {I : Sem V S} {d : Nat} (p : Option V × S) : NoBrk I d (ofLeaf p) := by
  rcases p with ⟨_ | _, s⟩ <;> (intro x s h; cases h)

theorem noBrk_leave {I : Sem V S} {d : Nat} {r : Res V S} (h : NoBrk I (d + 1) r) : NoBrk I d (leave r) := by
  rcases r with _ | ⟨x | x | ⟨_ | k⟩ | _, s⟩
  · intro x s h; cases h
  · intro x s h; cases h
  · intro x s h; cases h
  · intro x s h; cases h
  · intro y s' h'
    cases h'
    exact h _ _ rfl
  · intro x s h; cases h

theorem noBrk_rounds {I : Sem V S} {d : Nat} {f : S → Res V S} (h : ∀ s, NoBrk I (d + 1) (f s)) : ∀ m s, NoBrk I d (rounds f m s)
  | 0, _ => by intro x s h; cases h
  | m + 1, s => by
    have hs := h s
    unfold rounds
    generalize hf : f s = r at hs
    rcases r with _ | ⟨_ | _ | _ | _, s'⟩
    · intro x s h; cases h
    · exact noBrk_rounds h m s'
    · intro x s h; cases h
    · exact noBrk_leave hs
    · intro x s h; cases h

theorem noBrk_value {I : Sem V S} {d : Nat} (x : V) (s : S) : NoBrk I d (some (.val x, s)) := by intro x s h; cases h

/-- Without breaks there are no breaks. -/
theorem anyBrk_eval (I : Sem V S) (n : Nat) : ∀ (e : E) (d : Nat) (s : S), anyBrk d e = false → NoBrk I d (eval I n e s)
  | .leaf _, _, _, _ => noBrk_leaf _
  | .call _ _ a b, d, s, h => by
    simp only [anyBrk, Bool.or_eq_false_iff] at h
    exact noBrk_andThen (anyBrk_eval I n a d s h.1) fun _ s1 => noBrk_andThen (anyBrk_eval I n b d s1 h.2) fun _ _ => noBrk_leaf _
  | .seq a b, d, s, h => by
    simp only [anyBrk, Bool.or_eq_false_iff] at h
    exact noBrk_andThen (anyBrk_eval I n a d s h.1) fun _ s1 => anyBrk_eval I n b d s1 h.2
  | .stm a, d, s, h => noBrk_andThen (anyBrk_eval I n a d s h) fun _ _ => noBrk_value _ _
  | .ite c t e, d, s, h => by
    simp only [anyBrk, Bool.or_eq_false_iff] at h
    refine noBrk_andThen (anyBrk_eval I n c d s h.1) fun x s1 => ?_
    split
    · exact anyBrk_eval I n t d s1 h.2.1
    · exact anyBrk_eval I n e d s1 h.2.2
  | .ift c t, d, s, h => by
    simp only [anyBrk, Bool.or_eq_false_iff] at h
    refine noBrk_andThen (anyBrk_eval I n c d s h.1) fun x s1 => ?_
    split
    · exact noBrk_andThen (anyBrk_eval I n t d s1 h.2) fun _ _ => noBrk_value _ _
    · exact noBrk_value _ _
  | .loop b, d, s, h => noBrk_rounds (fun s => anyBrk_eval I n b (d + 1) s h) n s
  | .blk b, d, s, h => noBrk_leave (anyBrk_eval I n b (d + 1) s h)
  | .brk k e, d, s, h => by
    simp only [anyBrk, Bool.or_eq_false_iff, beq_eq_false_iff_ne] at h
    refine noBrk_andThen (anyBrk_eval I n e d s h.2) fun x s1 y s2 hh => ?_
    cases hh
    exact absurd rfl h.1
  | .brk0 k, d, s, h => by
    simp only [anyBrk, beq_eq_false_iff_ne] at h
    intro y s2 hh
    cases hh
    exact absurd rfl h
  | .ret e, d, s, h => noBrk_andThen (anyBrk_eval I n e d s h) fun _ _ x s h => by cases h
  | .mac e, d, s, h => anyBrk_eval I n e d s h

/-- After the replacement there are only breaks from macros. -/
theorem fixB_eval (I : Sem V S) (n : Nat) : ∀ (e : E) (d : Nat) (s : S), macBrk d e = false → NoBrk I d (eval I n (fixB d e) s)
  | .leaf _, _, _, _ => noBrk_leaf _
  | .call _ _ a b, d, s, h => by
    simp only [macBrk, Bool.or_eq_false_iff] at h
    exact noBrk_andThen (fixB_eval I n a d s h.1) fun _ s1 => noBrk_andThen (fixB_eval I n b d s1 h.2) fun _ _ => noBrk_leaf _
  | .seq a b, d, s, h => by
    simp only [macBrk, Bool.or_eq_false_iff] at h
    exact noBrk_andThen (fixB_eval I n a d s h.1) fun _ s1 => fixB_eval I n b d s1 h.2
  | .stm a, d, s, h => noBrk_andThen (fixB_eval I n a d s h) fun _ _ => noBrk_value _ _
  | .ite c t e, d, s, h => by
    simp only [macBrk, Bool.or_eq_false_iff] at h
    refine noBrk_andThen (fixB_eval I n c d s h.1) fun x s1 => ?_
    split
    · exact fixB_eval I n t d s1 h.2.1
    · exact fixB_eval I n e d s1 h.2.2
  | .ift c t, d, s, h => by
    simp only [macBrk, Bool.or_eq_false_iff] at h
    refine noBrk_andThen (fixB_eval I n c d s h.1) fun x s1 => ?_
    split
    · exact noBrk_andThen (fixB_eval I n t d s1 h.2) fun _ _ => noBrk_value _ _
    · exact noBrk_value _ _
  | .loop b, d, s, h => noBrk_rounds (fun s => fixB_eval I n b (d + 1) s h) n s
  | .blk b, d, s, h => noBrk_leave (fixB_eval I n b (d + 1) s h)
  | .brk k e, d, s, h => by
    have ih := fixB_eval I n e d s h
    unfold fixB
    by_cases hk : k = d
    · rw [if_pos hk]
      exact noBrk_andThen ih fun _ _ x s h => by cases h
    · rw [if_neg hk]
      refine noBrk_andThen ih fun x s1 y s2 hh => ?_
      cases hh
      exact absurd rfl hk
  | .brk0 k, d, s, h => by
    intro y s2 hh
    cases hh
    rfl
  | .ret e, d, s, h => noBrk_andThen (fixB_eval I n e d s h) fun _ _ x s h => by cases h
  | .mac e, d, s, h => anyBrk_eval I n e d s h

theorem noVal_rounds {I : Sem V S} {f : S → Res V S} (h : ∀ s, NoBrk I 0 (f s)) : ∀ m s, NoVal I (rounds f m s)
  | 0, _ => by intro x s h; cases h
  | m + 1, s => by
    have hs := h s
    unfold rounds
    generalize hf : f s = r at hs
    rcases r with _ | ⟨_ | _ | ⟨_ | _⟩ | _, s'⟩
    · intro x s h; cases h
    · exact noVal_rounds h m s'
    · intro x s h; cases h
    · intro y s2 hh
      cases hh
      exact hs _ _ rfl
    · intro x s h; cases h
    · intro x s h; cases h

theorem noVal_andThen {I : Sem V S} {r : Res V S} {f : V → S → Res V S} (hf : ∀ x s, NoVal I (f x s)) : NoVal I (andThen r f) := by
  rcases r with _ | ⟨_ | _ | _ | _, s⟩
  · intro x s h; cases h
  · exact hf _ _
  · intro x s h; cases h
  · intro x s h; cases h
  · intro x s h; cases h

theorem noVal_ret {I : Sem V S} (r : Res V S) : NoVal I (andThen r fun x s1 => some (.ret x, s1)) :=
  noVal_andThen fun _ _ x s h => by cases h

theorem noVal_unit {I : Sem V S} (r : Res V S) : NoVal I (andThen r fun _ s1 => some (.val I.unit, s1)) :=
  noVal_andThen fun _ _ x s h => by cases h; rfl

theorem noVal_call {I : Sem V S} (hn : ∀ i x y s, (I.call i true x y s).1 = none) (n : Nat) (i : Nat) (a b : E) (s : S) :
    NoVal I (eval I n (.call i true a b) s) := by
  refine noVal_andThen fun x s1 => noVal_andThen fun y s2 z s3 h => ?_
  have := hn i x y s2
  generalize hc : I.call i true x y s2 = r at *
  rcases r with ⟨_ | _, s4⟩
  · cases h
  · cases this

/-- There is no labelled block among the expressions whose value is that of the function. -/
def NoBlk : E → Prop
  | .seq _ b => NoBlk b
  | .blk _ => False
  | .mac e => NoBlk e
  | .ite _ t e => NoBlk t ∧ NoBlk e
  | _ => True

theorem inMac_eval {I : Sem V S} (hn : ∀ i x y s, (I.call i true x y s).1 = none) (n : Nat) : ∀ (e : E) (s : S), NoBlk e → inMac e = (0, .inner) →
    NoVal I (eval I n e s)
  | .seq a b, s, hb, h => noVal_andThen fun _ s1 => inMac_eval hn n b s1 hb h
  | .blk _, _, hb, _ => hb.elim
  | .mac e, s, hb, h => inMac_eval hn n e s hb h
  | .ite c t e, s, hb, h => by
    have ht : inMac t = (0, .inner) ∧ inMac e = (0, .inner) := by
      unfold inMac both at h
      rcases macro_once t with h1 | h1 <;> rcases macro_once e with h2 | h2 <;> rw [h1, h2] at h <;> simp_all
    refine noVal_andThen fun x s1 => ?_
    split
    · exact inMac_eval hn n t s1 hb.1 ht.1
    · exact inMac_eval hn n e s1 hb.2 ht.2
  | .loop b, s, _, h => by
    unfold inMac at h
    split at h
    · cases h
    · rename_i hb
      exact noVal_rounds (fun s => anyBrk_eval I n b 0 s (by simpa using hb)) n s
  | .ift c t, s, _, _ => by
    refine noVal_andThen fun x s1 => ?_
    split
    · exact noVal_unit _
    · intro x s h; cases h; rfl
  | .stm a, s, _, _ => noVal_unit _
  | .ret e, s, _, _ => noVal_ret _
  | .call i v a b, s, _, h => by
    cases v with
    | true => exact noVal_call hn n i a b s
    | false => cases h
  | .leaf _, _, _, h => by cases h
  | .brk _ _, _, _, h => by cases h
  | .brk0 _, _, _, h => by cases h

/-- Full claim: after the suggestions no value is returned implicitly. Proved for functions without labelled blocks in final position
(`labelled_missed`). -/
theorem nothing_implicit_partial {I : Sem V S} (hn : ∀ i x y s, (I.call i true x y s).1 = none) (n : Nat) : ∀ (e : E) (s : S), NoBlk e →
    NoVal I (eval I n (fix e) s)
  | .seq a b, s, hb => noVal_andThen fun _ s1 => nothing_implicit_partial hn n b s1 hb
  | .blk _, _, hb => hb.elim
  | .mac e, s, hb => by
    unfold fix
    rcases macro_once e with h | h <;> rw [h]
    · exact noVal_ret _
    · exact inMac_eval hn n e s hb h
  | .ite c t e, s, hb => by
    refine noVal_andThen fun x s1 => ?_
    split
    · exact nothing_implicit_partial hn n t s1 hb.1
    · exact nothing_implicit_partial hn n e s1 hb.2
  | .loop b, s, _ => by
    unfold fix
    split
    · exact noVal_ret _
    · rename_i hb
      exact noVal_rounds (fun s => fixB_eval I n b 0 s (by simpa using hb)) n s
  | .ift c t, s, _ => by
    refine noVal_andThen fun x s1 => ?_
    split
    · exact noVal_unit _
    · intro x s h; cases h; rfl
  | .stm a, s, _ => noVal_unit _
  | .ret e, s, _ => noVal_ret _
  | .call i v a b, s, _ => by
    cases v with
    | true => exact noVal_call hn n i a b s
    | false => exact noVal_ret _
  | .leaf _, _, _ => noVal_ret _
  | .brk _ _, _, _ => noVal_ret _
  | .brk0 _, _, _ => noVal_ret _

example : NoBlk example1 ∧ ∀ i x y s, (nums.call i true x y s).1 = none := ⟨trivial, fun _ _ _ _ => rfl⟩

/-! ## Applying them again -/

theorem macBrk_fixB : ∀ (e : E) (d : Nat), macBrk d (fixB d e) = macBrk d e := by
  intro e
  induction e with
  | leaf => intro d; rfl
  | call i v a b iha ihb => intro d; simp only [fixB, macBrk, iha, ihb]
  | seq a b iha ihb => intro d; simp only [fixB, macBrk, iha, ihb]
  | stm a iha => intro d; simp only [fixB, macBrk, iha]
  | ite c t e ihc iht ihe => intro d; simp only [fixB, macBrk, ihc, iht, ihe]
  | ift c t ihc iht => intro d; simp only [fixB, macBrk, ihc, iht]
  | loop b ih => intro d; simp only [fixB, macBrk, ih]
  | blk b ih => intro d; simp only [fixB, macBrk, ih]
  | brk k e ih =>
    intro d
    unfold fixB
    split <;> simp only [macBrk, ih]
  | brk0 k => intro d; rfl
  | ret e ih => intro d; simp only [fixB, macBrk, ih]
  | mac e _ => intro d; rfl

theorem fixB_fixB : ∀ (e : E) (d : Nat), fixB d (fixB d e) = fixB d e := by
  intro e
  induction e with
  | leaf => intro d; rfl
  | call i v a b iha ihb => intro d; simp only [fixB, iha, ihb]
  | seq a b iha ihb => intro d; simp only [fixB, iha, ihb]
  | stm a iha => intro d; simp only [fixB, iha]
  | ite c t e ihc iht ihe => intro d; simp only [fixB, ihc, iht, ihe]
  | ift c t ihc iht => intro d; simp only [fixB, ihc, iht]
  | loop b ih => intro d; simp only [fixB, ih]
  | blk b ih => intro d; simp only [fixB, ih]
  | brk k e ih =>
    intro d
    by_cases h : k = d
    · simp only [fixB, if_pos h, ih]
    · simp only [fixB, if_neg h, ih]
  | brk0 k => intro d; rfl
  | ret e ih => intro d; simp only [fixB, ih]
  | mac e _ => intro d; rfl

/-- C139: after the suggestions have been applied there are no others. -/
theorem fix_fix (e : E) : fix (fix e) = fix e := by
  induction e with
  | seq a b _ ih => simp only [fix, ih]
  | blk b ih => simp only [fix, ih]
  | mac e _ =>
    rcases macro_once e with h | h <;> simp [fix, h, returns]
  | ite c t e _ iht ihe => simp only [fix, iht, ihe]
  | loop b _ =>
    by_cases h : macBrk 0 b = true
    · simp [fix, h]
    · have h2 := h
      rw [← macBrk_fixB] at h2
      simp only [fix, if_neg h, if_neg h2, fixB_fixB]
  | ift _ _ => rfl
  | stm _ => rfl
  | ret _ => rfl
  | call i v a b => cases v <;> rfl
  | leaf _ => rfl
  | brk _ _ => rfl
  | brk0 _ => rfl

example : fix (.seq (.leaf 0) (.leaf 1)) ≠ .seq (.leaf 0) (.leaf 1) := by decide +kernel

/-! ## Findings -/

/-- `'a: { if c { break 'a 4 } 5 }`: the first value is still returned implicitly after the suggestions. -/
theorem labelled_missed :
    fix (.blk (.seq (.ift (.leaf 0) (.stm (.brk 0 (.leaf 3)))) (.leaf 4))) = .blk (.seq (.ift (.leaf 0) (.stm (.brk 0 (.leaf 3)))) (.ret (.leaf 4))) ∧
    eval nums 1 (fix (.blk (.seq (.ift (.leaf 0) (.stm (.brk 0 (.leaf 3)))) (.leaf 4)))) () = some (.val 4, ()) := by decide +kernel

/-- `'a: { break 'a 4 }` becomes `'a: { return break 'a 4 }`, in which `return` is never reached. -/
theorem return_break : fix (.blk (.brk 0 (.leaf 3))) = .blk (.ret (.brk 0 (.leaf 3))) ∧
    eval nums 1 (fix (.blk (.brk 0 (.leaf 3)))) () = some (.val 4, ()) := by decide +kernel

end Verif.Returns
