import Verif.Recur.Flags
import Verif.Recur.Spec

/-!
# `only_used_in_recursion`: the reported parameters do not matter
-/

namespace Verif.Recur

/-- Two results that can be told apart by their values only. -/
inductive RelO {V A : Type} (Q : A → A → Prop) : Out V A → Out V A → Prop
  | ok {a b : A} (h : Q a b) : RelO Q (.ok a) (.ok b)
  | brk : RelO Q .brk .brk
  | ret (v : V) : RelO Q (.ret v) (.ret v)
  | panic : RelO Q .panic .panic
  | more : RelO Q .more .more

section
variable {V : Type} (F : Nat → Bool)

/-- The states differ in the variables of `F` only. -/
def Low (s t : St V) : Prop := s.log = t.log ∧ ∀ x, F x = false → s.env x = t.env x

def RelR {A : Type} (Q : A → A → Prop) (r q : Out V A × St V) : Prop := RelO Q r.1 q.1 ∧ Low F r.2 q.2

/-- A value may get from a variable of `F` to here. -/
def Leak (fs : List Frame) : Prop :=
  ∃ p, F p = true ∧ climb p fs ≠ .bad ∧ ∀ i, climb p fs = .use i → F i = true

/-- The occurrences of variables of `F` are harmless and stay in `F`. -/
def Fits (os : List (Nat × List Frame)) : Prop :=
  ∀ o ∈ os, F o.1 = true → climb o.1 o.2 ≠ .bad ∧ ∀ i, climb o.1 o.2 = .use i → F i = true

/-- The values are equal, unless a variable of `F` may be part of them. -/
def Val (fs : List Frame) (e : Ex) (v w : V) : Prop := v = w ∨ Leak F fs ∧ carries F e = true

end

section
variable {V : Type} {F : Nat → Bool}

theorem fits_append {os ps : List (Nat × List Frame)} : Fits F (os ++ ps) ↔ Fits F os ∧ Fits F ps := by
  unfold Fits
  simp only [List.mem_append]
  exact ⟨fun h => ⟨fun o ho => h o (.inl ho), fun o ho => h o (.inr ho)⟩,
    fun h o ho => ho.elim (h.1 o) (h.2 o)⟩

theorem leak_nil : ¬Leak F [] := fun ⟨_, _, h, _⟩ => h rfl

theorem leak_other {fs : List Frame} : ¬Leak F (.other :: fs) := fun ⟨_, _, h, _⟩ => h rfl

theorem leak_arg {fs : List Frame} {i : Nat} : Leak F (.arg i :: fs) → F i = true := fun ⟨_, _, _, h⟩ => h i rfl

theorem leak_assignR {fs : List Frame} {x : Option Nat} : Leak F (.assignR x :: fs) → ∃ p, F p = true ∧ x = some p := by
  rintro ⟨p, hp, h, _⟩
  refine ⟨p, hp, ?_⟩
  simp only [climb] at h
  by_cases e : x = some p
  · exact e
  · rw [if_neg e] at h; exact absurd rfl h

theorem leak_bin_false {fs : List Frame} : ¬Leak F (.bin false :: fs) := fun ⟨_, _, h, _⟩ => h rfl

theorem leak_un_false {fs : List Frame} : ¬Leak F (.un false :: fs) := fun ⟨_, _, h, _⟩ => h rfl

theorem leak_field_true {fs : List Frame} : ¬Leak F (.field true :: fs) := fun ⟨_, _, h, _⟩ => h rfl

theorem low_refl_env {s t : St V} (h : Low F s t) (x : Nat) (v : V) : Low F (s.setVar x v) (t.setVar x v) := by
  refine ⟨h.1, fun y hy => ?_⟩
  simp only [St.setVar]
  split
  · rfl
  · exact h.2 y hy

theorem low_set {s t : St V} (h : Low F s t) {x : Nat} (hx : F x = true) (v w : V) :
    Low F (s.setVar x v) (t.setVar x w) := by
  refine ⟨h.1, fun y hy => ?_⟩
  simp only [St.setVar]
  split
  next e => rw [e, hx] at hy; cases hy
  next => exact h.2 y hy

theorem seq_rel {A B : Type} {Q : A → A → Prop} {R : B → B → Prop} {r q : Out V A × St V}
    {k l : A → St V → Out V B × St V} (h : RelR F Q r q)
    (hk : ∀ a b s t, Q a b → Low F s t → RelR F R (k a s) (l b t)) : RelR F R (seq r k) (seq q l) := by
  obtain ⟨o, s⟩ := r
  obtain ⟨o', t⟩ := q
  obtain ⟨h1, h2⟩ := h
  simp only at h1 h2
  cases h1 with
  | ok h => exact hk _ _ _ _ h h2
  | brk => exact ⟨.brk, h2⟩
  | ret v => exact ⟨.ret v, h2⟩
  | panic => exact ⟨.panic, h2⟩
  | more => exact ⟨.more, h2⟩

theorem rel_mono {A : Type} {Q R : A → A → Prop} {r q : Out V A × St V} (h : RelR F Q r q)
    (hq : ∀ a b, Q a b → R a b) : RelR F R r q := by
  obtain ⟨o, s⟩ := r
  obtain ⟨o', t⟩ := q
  obtain ⟨h1, h2⟩ := h
  simp only at h1 h2
  refine ⟨?_, h2⟩
  cases h1 with
  | ok h => exact .ok (hq _ _ h)
  | brk => exact .brk
  | ret v => exact .ret v
  | panic => exact .panic
  | more => exact .more

theorem lift_rel {Q : V → V → Prop} (hq : ∀ v, Q v v) (o : Option V) {s t : St V} (h : Low F s t) :
    RelR F Q (lift o s) (lift o t) := by
  cases o with
  | none => exact ⟨.panic, h⟩
  | some v => exact ⟨.ok (hq v), h⟩

theorem act_rel {Q : V → V → Prop} (hq : ∀ v, Q v v) (S : Sem V) (a : Act) (vs : List V) {s t : St V}
    (h : Low F s t) : RelR F Q (act S a vs s) (act S a vs t) := by
  unfold act
  rw [h.1]
  exact lift_rel hq _ ⟨rfl, h.2⟩

/-- Operators that do not panic. -/
theorem lift_total {Q : V → V → Prop} (hq : ∀ v w, Q v w) {o p : Option V} (ho : o ≠ none) (hp : p ≠ none)
    {s t : St V} (h : Low F s t) : RelR F Q (lift o s) (lift p t) := by
  cases o with
  | none => exact absurd rfl ho
  | some v =>
    cases p with
    | none => exact absurd rfl hp
    | some w => exact ⟨.ok (hq v w), h⟩

theorem iter_rel {Q : V → V → Prop} (unit : V) {f g : St V → Out V V × St V}
    (h : ∀ s t, Low F s t → RelR F Q (f s) (g t)) :
    ∀ (n : Nat) (s t : St V), Low F s t → RelR F Eq (iter unit f n s) (iter unit g n t)
  | 0, s, t, hl => ⟨.more, hl⟩
  | n + 1, s, t, hl => by
    have hb := h s t hl
    unfold iter
    rcases hf : f s with ⟨o, s'⟩
    rcases hg : g t with ⟨o', t'⟩
    rw [hf, hg] at hb
    obtain ⟨h1, h2⟩ := hb
    simp only at h1 h2
    cases h1 with
    | ok _ => exact iter_rel unit h n s' t' h2
    | brk => exact ⟨.ok rfl, h2⟩
    | ret v => exact ⟨.ret v, h2⟩
    | panic => exact ⟨.panic, h2⟩
    | more => exact ⟨.more, h2⟩

theorem pure_eval {S : Sem V} {self : List V → List (Act × List V) → Out V V × List (Act × List V)} {bound : Nat}
    {tot : Nat → Bool} (ht : Total S tot) : ∀ (e : Ex) (s : St V), pureEx tot e = true →
      ∃ v, eval S self bound e s = (.ok v, s)
  | .const _, _, _ => ⟨_, rfl⟩
  | .var _, _, _ => ⟨_, rfl⟩
  | .bin op true a b, s, h => by
    simp only [pureEx, Bool.and_eq_true] at h
    obtain ⟨v, hv⟩ := pure_eval (self := self) (bound := bound) ht a s h.1.2
    obtain ⟨w, hw⟩ := pure_eval (self := self) (bound := bound) ht b s h.2
    simp only [eval, hv, seq, hw, if_true]
    have := ht.bin op h.1.1 v w
    cases ho : S.prim op v w with
    | none => exact absurd ho this
    | some z => exact ⟨z, rfl⟩
  | .bin _ false _ _, _, h => by simp [pureEx] at h
  | .logic isAnd a b, s, h => by
    simp only [pureEx, Bool.and_eq_true] at h
    obtain ⟨v, hv⟩ := pure_eval (self := self) (bound := bound) ht a s h.1
    obtain ⟨w, hw⟩ := pure_eval (self := self) (bound := bound) ht b s h.2
    simp only [eval, hv, seq]
    split
    · exact ⟨w, hw⟩
    · exact ⟨v, rfl⟩
  | .un op true a, s, h => by
    simp only [pureEx, Bool.and_eq_true] at h
    obtain ⟨v, hv⟩ := pure_eval (self := self) (bound := bound) ht a s h.2
    simp only [eval, hv, seq, if_true]
    have := ht.un op h.1 v
    cases ho : S.un op v with
    | none => exact absurd ho this
    | some z => exact ⟨z, rfl⟩
  | .un _ false _, _, h => by simp [pureEx] at h
  | .addr a, s, h => by
    simp only [pureEx] at h
    obtain ⟨v, hv⟩ := pure_eval (self := self) (bound := bound) ht a s h
    exact ⟨S.addr v, by simp only [eval, hv, seq]⟩
  | .cast n a, s, h => by
    simp only [pureEx] at h
    obtain ⟨v, hv⟩ := pure_eval (self := self) (bound := bound) ht a s h
    exact ⟨S.cast n v, by simp only [eval, hv, seq]⟩
  | .field false n a, s, h => by
    simp only [pureEx] at h
    obtain ⟨v, hv⟩ := pure_eval (self := self) (bound := bound) ht a s h
    exact ⟨S.get n v, by simp [eval, hv, seq]⟩
  | .field true _ _, _, h => by simp [pureEx] at h
  | .call _, _, h => by simp [pureEx] at h
  | .other _ _, _, h => by simp [pureEx] at h
  | .assign _ _, _, h => by simp [pureEx] at h
  | .assignOp _ _ _ _, _, h => by simp [pureEx] at h
  | .ifElse _ _ _, _, h => by simp [pureEx] at h
  | .ifThen _ _, _, h => by simp [pureEx] at h
  | .matchOne _ _ _, _, h => by simp [pureEx] at h
  | .block _ _, _, h => by simp [pureEx] at h
  | .loop _, _, h => by simp [pureEx] at h
  | .brk, _, h => by simp [pureEx] at h
  | .ret _, _, h => by simp [pureEx] at h

/-- A place in the memory has no parameter of `F` in its value. -/
theorem place_carries : ∀ (l : Ex), isPlace l = true → root l = none → carries F l = false
  | .var _, _, h => by cases h
  | .other _ _, _, _ => rfl
  | .field true _ _, _, _ => rfl
  | .field false n a, hp, h => by
    simp only [isPlace] at hp
    simp only [root, Option.map_eq_none_iff] at h
    simp only [carries]
    exact place_carries a hp h
  | .const _, h, _ => by cases h
  | .bin _ _ _ _, h, _ => by cases h
  | .logic _ _ _, h, _ => by cases h
  | .un _ _ _, h, _ => by cases h
  | .addr _, h, _ => by cases h
  | .cast _ _, h, _ => by cases h
  | .call _, h, _ => by cases h
  | .assign _ _, h, _ => by cases h
  | .assignOp _ _ _ _, h, _ => by cases h
  | .ifElse _ _ _, h, _ => by cases h
  | .ifThen _ _, h, _ => by cases h
  | .matchOne _ _ _, h, _ => by cases h
  | .block _ _, h, _ => by cases h
  | .loop _, h, _ => by cases h
  | .brk, h, _ => by cases h
  | .ret _, h, _ => by cases h

theorem localId_root {l : Ex} {x : Nat} (h : localId l = some x) : root l = some (x, []) := by
  cases l <;> simp [localId] at h
  subst h
  rfl

/-- The value on the right side of an assignment. -/
theorem right_side {fs : List Frame} {l r : Ex} {v w : V} (h : Val F (.assignR (localId l) :: fs) r v w) :
    v = w ∨ ∃ x, root l = some (x, []) ∧ F x = true := by
  rcases h with h | ⟨h, _⟩
  · exact .inl h
  · obtain ⟨p, hp, e⟩ := leak_assignR h
    exact .inr ⟨p, localId_root e, hp⟩

theorem store_rel {S : Sem V} {l : Ex} {f : St V → Out V V × St V} {fs : List Frame}
    (hf : ∀ s t, Low F s t → RelR F (Val F fs l) (f s) (f t)) (hp : isPlace l = true) {v w : V}
    (hv : v = w ∨ ∃ x p, root l = some (x, p) ∧ F x = true) {s t : St V} (h : Low F s t) :
    RelR F Eq (store S l f v s) (store S l f w t) := by
  unfold store
  cases hr : root l with
  | some xp =>
    obtain ⟨x, p⟩ := xp
    refine ⟨.ok rfl, ?_⟩
    cases hx : F x with
    | true => exact low_set h hx _ _
    | false =>
      rcases hv with rfl | ⟨y, q, he, hy⟩
      · simp only
        rw [h.2 x hx]; exact low_refl_env h x _
      · rw [hr] at he
        cases he
        rw [hx] at hy; cases hy
  | none =>
    have hvw : v = w := by
      rcases hv with h | ⟨_, _, he, _⟩
      · exact h
      · rw [hr] at he; cases he
    subst hvw
    refine seq_rel (hf s t h) fun a b s t hab hl => ?_
    rcases hab with rfl | ⟨_, hc⟩
    · exact act_rel (fun _ => rfl) S _ _ hl
    · rw [place_carries l hp hr] at hc; cases hc

theorem eq_of_val {fs : List Frame} {e : Ex} {v w : V} (h : Val F fs e v w) (hn : ¬Leak F fs) : v = w := by
  rcases h with h | h
  · exact h
  · exact absurd h.1 hn

section
variable {S : Sem V} {self : List V → List (Act × List V) → Out V V × List (Act × List V)} {bound : Nat}
  {tot : Nat → Bool}

mutual

theorem eval_rel (ht : Total S tot)
    (hs : ∀ vs ws log, vs.length = ws.length → (∀ i, F i = false → vs[i]? = ws[i]?) → self vs log = self ws log) :
    ∀ (e : Ex) (fs : List Frame), Fits F (occs fs e) → Tame F tot e → ∀ s t : St V, Low F s t →
      RelR F (Val F fs e) (eval S self bound e s) (eval S self bound e t)
  | .const _, fs, _, _, s, t, h => by
    simp only [eval]; exact ⟨.ok (.inl rfl), h⟩
  | .var x, fs, hf, _, s, t, h => by
    simp only [eval]
    refine ⟨.ok ?_, h⟩
    cases hx : F x with
    | false => exact .inl (h.2 x hx)
    | true =>
      have := hf (x, fs) (by simp [occs]) hx
      exact .inr ⟨⟨x, hx, this⟩, hx⟩
  | .bin op prim a b, fs, hf, hT, s, t, h => by
    simp only [occs] at hf
    simp only [Tame] at hT
    rw [fits_append] at hf
    simp only [eval]
    refine seq_rel (eval_rel ht hs a _ hf.1 hT.2.1 s t h) fun x x' s t hx h => ?_
    refine seq_rel (eval_rel ht hs b _ hf.2 hT.2.2 s t h) fun y y' s t hy h => ?_
    cases prim with
    | false =>
      obtain rfl := eq_of_val hx leak_bin_false
      obtain rfl := eq_of_val hy leak_bin_false
      exact act_rel (fun _ => .inl rfl) S _ _ h
    | true =>
      simp only [if_true]
      have key : (x = x' ∧ y = y') ∨ (Leak F fs ∧ (carries F a = true ∨ carries F b = true)) := by
        rcases hx with rfl | hx
        · rcases hy with rfl | hy
          · exact .inl ⟨rfl, rfl⟩
          · exact .inr ⟨hy.1, .inr hy.2⟩
        · exact .inr ⟨hx.1, .inl hx.2⟩
      rcases key with ⟨rfl, rfl⟩ | ⟨hl, hc⟩
      · exact lift_rel (fun _ => .inl rfl) _ h
      · have hto := hT.1 hc
        exact lift_total (fun _ _ => .inr ⟨hl, by simpa [carries] using hc⟩) (ht.bin op hto x y) (ht.bin op hto x' y') h
  | .logic isAnd a b, fs, hf, hT, s, t, h => by
    simp only [occs] at hf
    simp only [Tame] at hT
    rw [fits_append] at hf
    simp only [eval]
    refine seq_rel (eval_rel ht hs a _ hf.1 hT.2.1 s t h) fun x x' s t hx h => ?_
    have hb := eval_rel ht hs b _ hf.2 hT.2.2 s t h
    rcases hx with rfl | ⟨hl, hc⟩
    · by_cases he : S.truth x = isAnd
      · rw [if_pos he, if_pos he]
        refine rel_mono hb fun v w hv => ?_
        rcases hv with hv | hv
        · exact .inl hv
        · exact .inr ⟨hv.1, by simp [carries, hv.2]⟩
      · rw [if_neg he, if_neg he]
        exact ⟨.ok (.inl rfl), h⟩
    · have hl : Leak F fs := hl
      obtain ⟨v, hv⟩ := pure_eval (self := self) (bound := bound) ht b s (hT.1 hc)
      obtain ⟨w, hw⟩ := pure_eval (self := self) (bound := bound) ht b t (hT.1 hc)
      rw [hv, hw]
      have hq : ∀ v w : V, Val F fs (.logic isAnd a b) v w := fun _ _ => .inr ⟨hl, by simp [carries, hc]⟩
      split <;> split <;> exact ⟨.ok (hq _ _), h⟩
  | .un op prim a, fs, hf, hT, s, t, h => by
    simp only [occs] at hf
    simp only [Tame] at hT
    simp only [eval]
    refine seq_rel (eval_rel ht hs a _ hf hT.2 s t h) fun x x' s t hx h => ?_
    cases prim with
    | false =>
      obtain rfl := eq_of_val hx leak_un_false
      exact act_rel (fun _ => .inl rfl) S _ _ h
    | true =>
      simp only [if_true]
      rcases hx with rfl | ⟨hl, hc⟩
      · exact lift_rel (fun _ => .inl rfl) _ h
      · have hto := hT.1 hc
        exact lift_total (fun _ _ => .inr ⟨hl, by simpa [carries] using hc⟩) (ht.un op hto x) (ht.un op hto x') h
  | .addr a, fs, hf, hT, s, t, h => by
    simp only [occs] at hf
    simp only [Tame] at hT
    simp only [eval]
    refine seq_rel (eval_rel ht hs a _ hf hT s t h) fun x x' s t hx h => ⟨.ok ?_, h⟩
    rcases hx with rfl | hx
    · exact .inl rfl
    · exact .inr hx
  | .cast n a, fs, hf, hT, s, t, h => by
    simp only [occs] at hf
    simp only [Tame] at hT
    simp only [eval]
    refine seq_rel (eval_rel ht hs a _ hf hT s t h) fun x x' s t hx h => ⟨.ok ?_, h⟩
    rcases hx with rfl | hx
    · exact .inl rfl
    · exact .inr hx
  | .field adj n a, fs, hf, hT, s, t, h => by
    simp only [occs] at hf
    simp only [Tame] at hT
    simp only [eval]
    refine seq_rel (eval_rel ht hs a _ hf hT s t h) fun x x' s t hx h => ?_
    cases adj with
    | true =>
      obtain rfl := eq_of_val hx leak_field_true
      exact act_rel (fun _ => .inl rfl) S _ _ h
    | false =>
      refine ⟨.ok ?_, h⟩
      rcases hx with rfl | hx
      · exact .inl rfl
      · exact .inr hx
  | .call args, fs, hf, hT, s, t, h => by
    simp only [occs] at hf
    simp only [Tame] at hT
    simp only [eval]
    refine seq_rel (evalArgs_rel ht hs args fs 0 hf hT s t h) fun vs ws s t hv h => ?_
    rw [hs vs ws s.log hv.1 (fun i hi => hv.2 i (by simpa using hi)), h.1]
    unfold back
    refine ⟨?_, rfl, h.2⟩
    split
    · exact .ok (.inl rfl)
    · exact .ok (.inl rfl)
    · exact .ok (.inl rfl)
    · exact .panic
    · exact .more
  | .other n args, fs, hf, hT, s, t, h => by
    simp only [occs] at hf
    simp only [Tame] at hT
    simp only [eval]
    refine seq_rel (evalL_rel ht hs args _ hf hT s t h) fun vs ws s t hv h => ?_
    subst hv
    exact act_rel (fun _ => .inl rfl) S _ _ h
  | .assign l r, fs, hf, hT, s, t, h => by
    simp only [occs] at hf
    simp only [Tame] at hT
    rw [fits_append] at hf
    simp only [eval]
    refine seq_rel (eval_rel ht hs r _ hf.2 hT.2.2 s t h) fun v w s t hv h => ?_
    refine rel_mono (store_rel (fun s t h => eval_rel ht hs l _ hf.1 hT.2.1 s t h) hT.1 ?_ h) fun _ _ e => .inl e
    rcases right_side hv with e | ⟨x, hx, hF⟩
    · exact .inl e
    · exact .inr ⟨x, [], hx, hF⟩
  | .assignOp op prim l r, fs, hf, hT, s, t, h => by
    simp only [occs] at hf
    simp only [Tame] at hT
    rw [fits_append] at hf
    simp only [eval]
    have hl := fun s t h => eval_rel ht hs l _ hf.1 hT.2.2.1 s t h
    refine seq_rel (eval_rel ht hs r _ hf.2 hT.2.2.2 s t h) fun v w s t hv h => ?_
    have hv' := right_side hv
    by_cases hx : ∃ x p, root l = some (x, p) ∧ F x = true
    · obtain ⟨x, p, hr, hF⟩ := hx
      obtain ⟨rfl, hto⟩ := hT.2.1 x p hr hF
      have hload : ∀ s : St V, load S l (eval S self bound l) s = (.ok (S.getPath p (s.env x)), s) := by
        intro s; unfold load; rw [hr]
      rw [hload, hload]
      simp only [seq, if_true]
      refine seq_rel (Q := fun _ _ => True)
        (lift_total (fun _ _ => trivial) (ht.bin op hto _ _) (ht.bin op hto _ _) h) fun a b s t _ h => ?_
      exact rel_mono (store_rel hl hT.1 (.inr ⟨x, p, hr, hF⟩) h) fun _ _ e => .inl e
    · have hvw : v = w := by
        rcases hv' with e | ⟨x, hr, hF⟩
        · exact e
        · exact absurd ⟨x, [], hr, hF⟩ hx
      subst hvw
      have hload : RelR F Eq (load S l (eval S self bound l) s) (load S l (eval S self bound l) t) := by
        unfold load
        cases hr : root l with
        | some xp =>
          obtain ⟨x, p⟩ := xp
          have hFx : F x = false := by
            cases hFx : F x with
            | false => rfl
            | true => exact absurd ⟨x, p, hr, hFx⟩ hx
          exact ⟨.ok (by rw [h.2 x hFx]), h⟩
        | none =>
          refine rel_mono (hl s t h) fun a b hab => ?_
          rcases hab with e | ⟨_, hc⟩
          · exact e
          · rw [place_carries l hT.1 hr] at hc; cases hc
      refine seq_rel hload fun a b s t e h => ?_
      subst e
      refine seq_rel (Q := Eq) ?_ fun c d s t e h => ?_
      · cases prim with
        | true => exact lift_rel (fun _ => rfl) _ h
        | false => exact act_rel (fun _ => rfl) S _ _ h
      · subst e
        exact rel_mono (store_rel hl hT.1 (.inl rfl) h) fun _ _ e => .inl e
  | .ifElse c a b, fs, hf, hT, s, t, h => by
    simp only [occs] at hf
    simp only [Tame] at hT
    rw [fits_append, fits_append] at hf
    simp only [eval]
    refine seq_rel (eval_rel ht hs c _ hf.1.1 hT.1 s t h) fun x x' s t hx h => ?_
    obtain rfl := eq_of_val hx leak_other
    split
    · exact rel_mono (eval_rel ht hs a _ hf.1.2 hT.2.1 s t h) fun _ _ e => .inl (eq_of_val e leak_other)
    · exact rel_mono (eval_rel ht hs b _ hf.2 hT.2.2 s t h) fun _ _ e => .inl (eq_of_val e leak_other)
  | .ifThen c a, fs, hf, hT, s, t, h => by
    simp only [occs] at hf
    simp only [Tame] at hT
    rw [fits_append] at hf
    simp only [eval]
    refine seq_rel (eval_rel ht hs c _ hf.1 hT.1 s t h) fun x x' s t hx h => ?_
    obtain rfl := eq_of_val hx leak_other
    split
    · exact seq_rel (eval_rel ht hs a _ hf.2 hT.2 s t h) fun _ _ s t _ h => ⟨.ok (.inl rfl), h⟩
    · exact ⟨.ok (.inl rfl), h⟩
  | .matchOne x e body, fs, hf, hT, s, t, h => by
    simp only [occs] at hf
    simp only [Tame] at hT
    rw [fits_append] at hf
    simp only [eval]
    refine seq_rel (eval_rel ht hs e _ hf.1 hT.1 s t h) fun v w s t hv h => ?_
    obtain rfl := eq_of_val hv leak_other
    refine rel_mono (eval_rel ht hs body _ hf.2 hT.2 _ _ (low_refl_env h x v)) fun _ _ e => ?_
    rcases e with e | e
    · exact .inl e
    · exact .inr e
  | .block ss tail, fs, hf, hT, s, t, h => by
    simp only [occs] at hf
    simp only [Tame] at hT
    rw [fits_append] at hf
    simp only [eval]
    refine seq_rel (evalStmts_rel ht hs ss fs hf.1 hT.1 s t h) fun _ _ s t _ h => ?_
    refine rel_mono (eval_rel ht hs tail _ hf.2 hT.2 _ _ h) fun _ _ e => ?_
    rcases e with e | e
    · exact .inl e
    · exact .inr e
  | .loop body, fs, hf, hT, s, t, h => by
    simp only [occs] at hf
    simp only [Tame] at hT
    simp only [eval]
    exact rel_mono (iter_rel S.unit (fun s t h => eval_rel ht hs body _ hf hT s t h) bound s t h) fun _ _ e => .inl e
  | .brk, fs, _, _, s, t, h => by
    simp only [eval]; exact ⟨.brk, h⟩
  | .ret e, fs, hf, hT, s, t, h => by
    simp only [occs] at hf
    simp only [Tame] at hT
    simp only [eval]
    refine seq_rel (eval_rel ht hs e _ hf hT s t h) fun v w s t hv h => ?_
    obtain rfl := eq_of_val hv leak_other
    exact ⟨.ret _, h⟩

theorem evalArgs_rel (ht : Total S tot)
    (hs : ∀ vs ws log, vs.length = ws.length → (∀ i, F i = false → vs[i]? = ws[i]?) → self vs log = self ws log) :
    ∀ (es : Exs) (fs : List Frame) (i : Nat), Fits F (occsArgs fs i es) → TameL F tot es →
      ∀ s t : St V, Low F s t → RelR F (fun vs ws => vs.length = ws.length ∧ ∀ j, F (i + j) = false → vs[j]? = ws[j]?)
        (evalArgs S self bound es s) (evalArgs S self bound es t)
  | .nil, fs, i, _, _, s, t, h => by
    simp only [evalArgs]; exact ⟨.ok ⟨rfl, fun _ _ => rfl⟩, h⟩
  | .cons e es, fs, i, hf, hT, s, t, h => by
    simp only [occsArgs] at hf
    simp only [TameL] at hT
    rw [fits_append] at hf
    simp only [evalArgs]
    refine seq_rel (eval_rel ht hs e _ hf.1 hT.1 s t h) fun v w s t hv h => ?_
    refine seq_rel (evalArgs_rel ht hs es fs (i + 1) hf.2 hT.2 s t h) fun vs ws s t hvs h => ⟨.ok ?_, h⟩
    refine ⟨by simp [hvs.1], fun j hj => ?_⟩
    cases j with
    | zero =>
      rcases hv with rfl | ⟨hl, _⟩
      · simp
      · have := leak_arg hl
        rw [Nat.add_zero, this] at hj
        cases hj
    | succ j =>
      simp only [List.getElem?_cons_succ]
      exact hvs.2 j (by rw [show i + 1 + j = i + (j + 1) by omega]; exact hj)

theorem evalL_rel (ht : Total S tot)
    (hs : ∀ vs ws log, vs.length = ws.length → (∀ i, F i = false → vs[i]? = ws[i]?) → self vs log = self ws log) :
    ∀ (es : Exs) (fs : List Frame), Fits F (occsL (.other :: fs) es) → TameL F tot es →
      ∀ s t : St V, Low F s t → RelR F Eq (evalArgs S self bound es s) (evalArgs S self bound es t)
  | .nil, fs, _, _, s, t, h => by
    simp only [evalArgs]; exact ⟨.ok rfl, h⟩
  | .cons e es, fs, hf, hT, s, t, h => by
    simp only [occsL] at hf
    simp only [TameL] at hT
    rw [fits_append] at hf
    simp only [evalArgs]
    refine seq_rel (eval_rel ht hs e _ hf.1 hT.1 s t h) fun v w s t hv h => ?_
    obtain rfl := eq_of_val hv leak_other
    refine seq_rel (evalL_rel ht hs es fs hf.2 hT.2 s t h) fun vs ws s t hvs h => ⟨.ok ?_, h⟩
    rw [hvs]

theorem evalStmts_rel (ht : Total S tot)
    (hs : ∀ vs ws log, vs.length = ws.length → (∀ i, F i = false → vs[i]? = ws[i]?) → self vs log = self ws log) :
    ∀ (ss : Stmts) (fs : List Frame), Fits F (occsS fs ss) → TameS F tot ss →
      ∀ s t : St V, Low F s t → RelR F Eq (evalStmts S self bound ss s) (evalStmts S self bound ss t)
  | .nil, fs, _, _, s, t, h => by
    simp only [evalStmts]; exact ⟨.ok rfl, h⟩
  | .expr e ss, fs, hf, hT, s, t, h => by
    simp only [occsS] at hf
    simp only [TameS] at hT
    rw [fits_append] at hf
    simp only [evalStmts]
    exact seq_rel (eval_rel ht hs e _ hf.1 hT.1 s t h) fun _ _ s t _ h => evalStmts_rel ht hs ss fs hf.2 hT.2 s t h
  | .bind x e ss, fs, hf, hT, s, t, h => by
    simp only [occsS] at hf
    simp only [TameS] at hT
    rw [fits_append] at hf
    simp only [evalStmts]
    refine seq_rel (eval_rel ht hs e _ hf.1 hT.1 s t h) fun v w s t hv h => ?_
    obtain rfl := eq_of_val hv leak_other
    exact evalStmts_rel ht hs ss fs hf.2 hT.2 _ _ (low_refl_env h x v)

end

end

end

/-- The reported parameters, as a set. -/
def isReported (f : Fn) (i : Nat) : Bool := (reported f).contains i

theorem reported_fits (f : Fn) : Fits (isReported f) (occs [] f.body) := by
  intro o ho hF
  have hp : o.1 ∈ reported f := by simpa [isReported] using hF
  have h := reported_closed f
  refine ⟨h.good o.1 hp o.2 ho, fun i hi => ?_⟩
  simpa [isReported] using h.inside o.1 hp o.2 i ho hi

/-- **C78, in part.**  The reported parameters do not matter: whatever is passed for them, a call ends
in the same way, with the same value and after the same effects.

Left out: operators that panic, effects on the right side of `&&` and `||`, and `op=` of types that
are not primitive, where a reported parameter takes part.  Each of these is a counterexample in
`Witness.lean`. -/
theorem reported_irrelevant_partial {V : Type} {S : Sem V} {tot : Nat → Bool} (ht : Total S tot) {f : Fn}
    (hT : Tame (isReported f) tot f.body) : Irrelevant S f (isReported f) := by
  intro n
  induction n with
  | zero => intro log as bs _ _; rfl
  | succ n ih =>
    intro log as bs hlen h
    have hs : ∀ vs ws log, vs.length = ws.length → (∀ i, isReported f i = false → vs[i]? = ws[i]?) →
        run S f n vs log = run S f n ws log := fun vs ws log hl h => ih log vs ws hl h
    have hlow : Low (isReported f) (⟨fun x => as.getD x S.unit, log⟩ : St V) ⟨fun x => bs.getD x S.unit, log⟩ := by
      refine ⟨rfl, fun x hx => ?_⟩
      simp only [List.getD_eq_getElem?_getD, h x hx]
    have hr := eval_rel (S := S) (bound := n) ht hs f.body [] (reported_fits f) hT _ _ hlow
    simp only [run]
    rcases h1 : eval S (run S f n) n f.body ⟨fun x => as.getD x S.unit, log⟩ with ⟨o, s⟩
    rcases h2 : eval S (run S f n) n f.body ⟨fun x => bs.getD x S.unit, log⟩ with ⟨o', t⟩
    rw [h1, h2] at hr
    obtain ⟨ho, hl⟩ := hr
    simp only at ho hl ⊢
    rw [hl.1]
    cases ho with
    | ok h => rw [eq_of_val h leak_nil]
    | brk => rfl
    | ret v => rfl
    | panic => rfl
    | more => rfl

end Verif.Recur
