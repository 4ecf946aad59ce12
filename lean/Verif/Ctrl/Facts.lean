import Verif.Ctrl.NeverSpec

/-!
# Facts about computations
-/

namespace Verif.Ctrl
variable {S : Sem} {α β : Type}

namespace M

theorem bind_error {m : M S α} {f : α → M S β} {w w' : S.W} {x : Exit S.V}
    (h : m.bind f w = (.error x, w')) :
    m w = (.error x, w') ∨ ∃ a w1, m w = (.ok a, w1) ∧ f a w1 = (.error x, w') := by
  unfold bind at h
  cases hm : m w with
  | mk r w1 =>
    cases r with
    | ok a => simp only [hm] at h; exact .inr ⟨a, w1, rfl, h⟩
    | error y => simp only [hm] at h; cases h; exact .inl rfl

theorem bind_ok {m : M S α} {f : α → M S β} {w w' : S.W} {b : β}
    (h : m.bind f w = (.ok b, w')) : ∃ a w1, m w = (.ok a, w1) ∧ f a w1 = (.ok b, w') := by
  unfold bind at h
  cases hm : m w with
  | mk r w1 =>
    cases r with
    | ok a => simp only [hm] at h; exact ⟨a, w1, rfl, h⟩
    | error y => simp only [hm] at h; cases h

theorem bind_of_ok {m : M S α} (f : α → M S β) {w w1 : S.W} {a : α} (h : m w = (.ok a, w1)) :
    m.bind f w = f a w1 := by simp only [bind, h]

theorem bind_of_error {m : M S α} (f : α → M S β) {w w1 : S.W} {x : Exit S.V}
    (h : m w = (.error x, w1)) : m.bind f w = (.error x, w1) := by simp only [bind, h]

theorem bind_assoc {γ : Type} (m : M S α) (f : α → M S β) (g : β → M S γ) :
    (m.bind f).bind g = m.bind fun a => (f a).bind g := by
  funext w
  cases hm : m w with
  | mk r w1 => cases r with
    | ok a => rw [bind_of_ok _ hm]; simp only [bind, hm]
    | error y => rw [bind_of_error _ hm, bind_of_error _ (bind_of_error _ hm)]

theorem pure_bind (a : α) (f : α → M S β) : (M.pure a).bind f = f a := rfl

theorem throw_bind (x : Exit S.V) (f : α → M S β) : (M.throw x).bind f = M.throw x := rfl

theorem bind_pure (m : M S α) : m.bind M.pure = m := by
  funext w
  cases hm : m w with
  | mk r w1 => cases r with
    | ok a => rw [bind_of_ok _ hm]; rfl
    | error y => rw [bind_of_error _ hm]

theorem bind_congr {m : M S α} {f g : α → M S β} (h : ∀ a, f a = g a) : m.bind f = m.bind g := by
  have : f = g := funext h
  rw [this]

end M

/-- Every exit of the computation is such. -/
def Raises (Q : Exit S.V → Prop) (m : M S α) : Prop := ∀ w x w', m w = (.error x, w') → Q x

/-- The computation has no value. -/
def NoValue (m : M S α) : Prop := ∀ w v w', m w ≠ (.ok v, w')

theorem Raises.mono {Q R : Exit S.V → Prop} {m : M S α} (h : Raises Q m) (hQR : ∀ x, Q x → R x) :
    Raises R m := fun w x w' e => hQR x (h w x w' e)

theorem Raises.bind {Q : Exit S.V → Prop} {m : M S α} {f : α → M S β} (hm : Raises Q m)
    (hf : ∀ a, Raises Q (f a)) : Raises Q (m.bind f) := by
  intro w x w' h
  cases M.bind_error h with
  | inl h => exact hm w x w' h
  | inr h => obtain ⟨a, w1, _, h⟩ := h; exact hf a w1 x w' h

theorem Raises.pure {Q : Exit S.V → Prop} (a : α) : Raises Q (M.pure a : M S α) := by
  intro w x w' h; cases h

theorem Raises.throw {Q : Exit S.V → Prop} {x : Exit S.V} (h : Q x) :
    Raises Q (M.throw x : M S α) := by
  intro w y w' e; cases e; exact h

theorem Raises.run {Q : Exit S.V → Prop} (g : S.W → Option α × S.W) (h : Q .abort) :
    Raises Q (M.run g) := by
  intro w x w' e
  unfold M.run at e
  cases hg : g w with
  | mk o w1 => cases o with
    | some a => simp only [hg] at e; cases e
    | none => simp only [hg] at e; cases e; exact h

theorem Raises.catchBrk {Q R : Exit S.V → Prop} {t : Id} {m : M S S.V} (hm : Raises Q m)
    (hQR : ∀ x, Q x → (∀ v, x ≠ .brk t v) → R x) : Raises R (M.catchBrk t m) := by
  intro w x w' h
  unfold M.catchBrk at h
  cases hw : m w with
  | mk r w1 =>
    cases r with
    | ok v => simp only [hw] at h; cases h
    | error y =>
      have hy := hm w y w1 hw
      cases y with
      | brk u v =>
        simp only [hw] at h
        by_cases hu : u = t
        · rw [if_pos hu] at h; cases h
        · rw [if_neg hu] at h
          cases h
          refine hQR _ hy fun v' e => hu ?_
          cases e; rfl
      | cont u => simp only [hw] at h; cases h; exact hQR _ hy (fun _ e => by cases e)
      | ret u => simp only [hw] at h; cases h; exact hQR _ hy (fun _ e => by cases e)
      | abort => simp only [hw] at h; cases h; exact hQR _ hy (fun _ e => by cases e)
      | fuel => simp only [hw] at h; cases h; exact hQR _ hy (fun _ e => by cases e)

theorem Raises.iter {Q R : Exit S.V → Prop} {t : Id} {m : M S S.V} (hm : Raises Q m)
    (hf : R .fuel) (hQR : ∀ x, Q x → (∀ v, x ≠ .brk t v) → x ≠ .cont t → R x) :
    ∀ n, Raises R (M.iter t m n)
  | 0 => Raises.throw hf
  | n + 1 => by
    intro w x w' h
    unfold M.iter at h
    cases hw : m w with
    | mk r w1 =>
      cases r with
      | ok v => simp only [hw] at h; exact Raises.iter hm hf hQR n w1 x w' h
      | error y =>
        have hy := hm w y w1 hw
        cases y with
        | brk u v =>
          simp only [hw] at h
          by_cases hu : u = t
          · rw [if_pos hu] at h; cases h
          · rw [if_neg hu] at h
            cases h
            refine hQR _ hy (fun v' e => hu ?_) (fun e => by cases e)
            cases e; rfl
        | cont u =>
          simp only [hw] at h
          by_cases hu : u = t
          · rw [if_pos hu] at h; exact Raises.iter hm hf hQR n w1 x w' h
          · rw [if_neg hu] at h
            cases h
            refine hQR _ hy (fun v' e => by cases e) (fun e => hu ?_)
            cases e; rfl
        | ret u => simp only [hw] at h; cases h; exact hQR _ hy (fun _ e => by cases e) (fun e => by cases e)
        | abort => simp only [hw] at h; cases h; exact hQR _ hy (fun _ e => by cases e) (fun e => by cases e)
        | fuel => simp only [hw] at h; cases h; exact hQR _ hy (fun _ e => by cases e) (fun e => by cases e)

theorem Raises.bindPat {Q : Exit S.V → Prop} (p : Nat) (xs : List Name) (v : S.V) (ρ : Env S)
    (h : Q .abort) : Raises Q (bindPat p xs v ρ) := by
  unfold Ctrl.bindPat
  split
  · exact Raises.pure _
  · exact Raises.throw h

theorem NoValue.bind_left {m : M S α} (f : α → M S β) (hm : NoValue m) : NoValue (m.bind f) := by
  intro w v w' h
  obtain ⟨a, w1, h1, _⟩ := M.bind_ok h
  exact hm _ _ _ h1

theorem NoValue.bind_right (m : M S α) {f : α → M S β} (hf : ∀ a, NoValue (f a)) :
    NoValue (m.bind f) := by
  intro w v w' h
  obtain ⟨a, w1, _, h2⟩ := M.bind_ok h
  exact hf a _ _ _ h2

theorem NoValue.throw (x : Exit S.V) : NoValue (M.throw x : M S α) := by
  intro w v w' h; cases h

theorem NoValue.catchBrk {t : Id} {m : M S S.V} (hm : NoValue m)
    (hr : Raises (fun x => ∀ v, x ≠ .brk t v) m) : NoValue (M.catchBrk t m) := by
  intro w v w' h
  unfold M.catchBrk at h
  cases hw : m w with
  | mk r w1 =>
    cases r with
    | ok v => exact hm _ _ _ hw
    | error y =>
      have hy := hr w y w1 hw
      cases y with
      | brk u v =>
        simp only [hw] at h
        by_cases hu : u = t
        · subst hu; exact hy v rfl
        · rw [if_neg hu] at h; cases h
      | cont u => simp only [hw] at h; cases h
      | ret u => simp only [hw] at h; cases h
      | abort => simp only [hw] at h; cases h
      | fuel => simp only [hw] at h; cases h

/-! ## Jumps go where the program says -/

/-- The exit is a jump of the list, or no jump. -/
def Within (l : List (Bool × Id)) : Exit S.V → Prop
  | .cont t => (true, t) ∈ l
  | .brk t _ => (false, t) ∈ l
  | _ => True

theorem Within.mono {l l' : List (Bool × Id)} (h : ∀ a ∈ l, a ∈ l') (x : Exit S.V)
    (hx : Within l x) : Within l' x := by
  cases x with
  | cont t => exact h _ hx
  | brk t v => exact h _ hx
  | _ => trivial

theorem Within.left {l l' : List (Bool × Id)} (x : Exit S.V) (hx : Within l x) :
    Within (l ++ l') x := Within.mono (fun _ h => List.mem_append_left _ h) x hx

theorem Within.right {l l' : List (Bool × Id)} (x : Exit S.V) (hx : Within l' x) :
    Within (l ++ l') x := Within.mono (fun _ h => List.mem_append_right _ h) x hx

mutual

theorem within_eval (k : Nat) : ∀ (e : Expr) (ρ : Env S), Raises (Within (exitsE e)) (eval k e ρ)
  | .var x, ρ => by simp only [eval]; exact Raises.pure _
  | .prim n us as, ρ => by
    simp only [eval, exitsE]
    exact (within_evalL k as ρ).bind fun vs => Raises.run _ trivial
  | .assign n l r, ρ => by
    simp only [eval, exitsE]
    exact ((within_eval k r ρ).mono Within.right).bind fun _ =>
      ((within_eval k l ρ).mono Within.left).bind fun _ => Raises.run _ trivial
  | .lzy isAnd a b, ρ => by
    simp only [eval, exitsE]
    refine ((within_eval k a ρ).mono Within.left).bind fun v => ?_
    split
    · exact (within_eval k b ρ).mono Within.right
    · exact Raises.pure _
  | .ite c t e, ρ => by
    simp only [eval, exitsE]
    refine ((within_evalC k c ρ).mono fun x h => Within.left x (Within.left x h)).bind fun r => ?_
    cases r with
    | some ρ' => exact (within_eval k t ρ').mono fun x h => Within.left x (Within.right x h)
    | none => exact (within_eval k e ρ).mono Within.right
  | .ifn c t, ρ => by
    simp only [eval, exitsE]
    refine ((within_evalC k c ρ).mono Within.left).bind fun r => ?_
    cases r with
    | some ρ' => exact ((within_eval k t ρ').mono Within.right).bind fun _ => Raises.pure _
    | none => exact Raises.pure _
  | .mtch e arms, ρ => by
    simp only [eval, exitsE]
    exact ((within_eval k e ρ).mono Within.left).bind fun v =>
      (within_evalA k arms v ρ).mono Within.right
  | .block none b, ρ => by
    simp only [eval, exitsE]; exact within_evalS k b _
  | .block (some (l, t)) b, ρ => by
    simp only [eval, exitsE]
    exact (within_evalS k b _).catchBrk fun x h _ => h
  | .lp _ t b, ρ => by
    simp only [eval, exitsE]
    exact (within_evalS k b _).iter trivial (fun x h _ _ => h) k
  | .whl _ t c b, ρ => by
    simp only [eval, exitsE]
    refine Raises.iter (Q := fun x => Within (exitsC c ++ exitsS b) x ∨ ∃ v, x = .brk t v) ?_
      trivial (fun x h h1 _ => h.elim id fun ⟨v, e⟩ => absurd e (h1 v)) k
    refine ((within_evalC k c ρ).mono fun x h => .inl (Within.left x h)).bind fun r => ?_
    cases r with
    | some ρ' => exact (within_evalS k b _).mono fun x h => .inl (Within.right x h)
    | none => exact Raises.throw (.inr ⟨_, rfl⟩)
  | .forE _ t p xs it b, ρ => by
    simp only [eval, exitsE]
    refine ((within_eval k it ρ).mono Within.left).bind fun v => ?_
    refine Raises.iter (Q := fun x => Within (exitsE it ++ exitsS b) x ∨ ∃ v, x = .brk t v) ?_
      trivial (fun x h h1 _ => h.elim id fun ⟨v, e⟩ => absurd e (h1 v)) k
    refine (Raises.run _ (.inl trivial)).bind fun o => ?_
    cases o with
    | some x => exact (Raises.bindPat _ _ _ _ (.inl trivial)).bind fun ρ' =>
        (within_evalS k b _).mono fun x h => .inl (Within.right x h)
    | none => exact Raises.throw (.inr ⟨_, rfl⟩)
  | .cont _ t, ρ => by
    simp only [eval, exitsE]; exact Raises.throw (by simp [Within])
  | .brk _ t e, ρ => by
    simp only [eval, exitsE]
    exact ((within_evalL k e ρ).mono (Within.mono fun a h => List.mem_cons_of_mem _ h)).bind
      fun vs => Raises.throw (by simp [Within])
  | .ret e, ρ => by
    simp only [eval, exitsE]
    exact (within_evalL k e ρ).bind fun vs => Raises.throw trivial

theorem within_evalC (k : Nat) : ∀ (c : Cond) (ρ : Env S), Raises (Within (exitsC c)) (evalC k c ρ)
  | .test e, ρ => by
    simp only [evalC, exitsC]; exact (within_eval k e ρ).bind fun _ => Raises.pure _
  | .letP p xs e, ρ => by
    simp only [evalC, exitsC]; exact (within_eval k e ρ).bind fun _ => Raises.pure _
  | .nextP p xs e, ρ => by
    simp only [evalC, exitsC]
    refine (within_eval k e ρ).bind fun v => (Raises.run _ trivial).bind fun o => ?_
    cases o with
    | some x => exact (Raises.bindPat _ _ _ _ trivial).bind fun _ => Raises.pure _
    | none => exact Raises.pure _
  | .and a b, ρ => by
    simp only [evalC, exitsC]
    refine ((within_evalC k a ρ).mono Within.left).bind fun r => ?_
    cases r with
    | some ρ' => exact (within_evalC k b ρ').mono Within.right
    | none => exact Raises.pure _

theorem within_evalL (k : Nat) : ∀ (es : Exprs) (ρ : Env S),
    Raises (Within (exitsL es)) (evalL k es ρ)
  | .nil, ρ => by simp only [evalL]; exact Raises.pure _
  | .cons e es, ρ => by
    simp only [evalL, exitsL]
    exact ((within_eval k e ρ).mono Within.left).bind fun v =>
      ((within_evalL k es ρ).mono Within.right).bind fun _ => Raises.pure _

theorem within_evalA (k : Nat) : ∀ (as : Arms) (v : S.V) (ρ : Env S),
    Raises (Within (exitsA as)) (evalA k as v ρ)
  | .nil, v, ρ => by simp only [evalA]; exact Raises.throw trivial
  | .arm p xs body rest, v, ρ => by
    simp only [evalA, exitsA]
    split
    · exact (within_eval k body _).mono Within.left
    · exact (within_evalA k rest v ρ).mono Within.right
  | .armIf p xs g body rest, v, ρ => by
    simp only [evalA, exitsA]
    split
    · refine ((within_evalC k g _).mono fun x h => Within.left x (Within.left x h)).bind fun r => ?_
      cases r with
      | some ρ' => exact (within_eval k body ρ').mono fun x h => Within.left x (Within.right x h)
      | none => exact (within_evalA k rest v ρ).mono Within.right
    · exact (within_evalA k rest v ρ).mono Within.right

theorem within_evalS (k : Nat) : ∀ (b : Stmts) (ρ : Env S), Raises (Within (exitsS b)) (evalS k b ρ)
  | .done, ρ => by simp only [evalS]; exact Raises.pure _
  | .tail e, ρ => by simp only [evalS, exitsS]; exact within_eval k e ρ
  | .semi e r, ρ => by
    simp only [evalS, exitsS]
    exact ((within_eval k e ρ).mono Within.left).bind fun _ =>
      (within_evalS k r ρ).mono Within.right
  | .expr e r, ρ => by
    simp only [evalS, exitsS]
    exact ((within_eval k e ρ).mono Within.left).bind fun _ =>
      (within_evalS k r ρ).mono Within.right
  | .letS p xs e r, ρ => by
    simp only [evalS, exitsS]
    exact ((within_eval k e ρ).mono Within.left).bind fun _ =>
      (Raises.bindPat _ _ _ _ trivial).bind fun ρ' => (within_evalS k r ρ').mono Within.right
  | .letElse p xs e els r, ρ => by
    simp only [evalS, exitsS]
    refine ((within_eval k e ρ).mono fun x h => Within.left x (Within.left x h)).bind fun v => ?_
    cases S.pat p v with
    | some vs => exact (within_evalS k r _).mono Within.right
    | none =>
      refine ((within_evalS k els _).mono fun x h => Within.left x (Within.right x h)).bind ?_
      exact fun _ => Raises.throw trivial
  | .item x n r, ρ => by simp only [evalS, exitsS]; exact within_evalS k r ρ

end

end Verif.Ctrl
