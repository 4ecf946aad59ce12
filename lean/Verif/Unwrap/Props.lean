import Verif.Unwrap.Spec

/-!
# The verdicts about calls of `unwrap`
-/

namespace Verif.Unwrap

/-- Whatever happens, the events satisfy `P`, and the end `Q`. -/
def Sat (m : M) (σ : Store) (P : Ev → Prop) (Q : Out → Store → Prop) : Prop :=
  ∀ o σ' t, m σ o σ' t → (∀ ev ∈ t, P ev) ∧ Q o σ'

theorem Sat.mono {m σ P Q P' Q'} (h : Sat m σ P Q) (hp : ∀ ev, P ev → P' ev) (hq : ∀ o s, Q o s → Q' o s) : Sat m σ P' Q' := by
  intro o σ' t hm
  exact ⟨fun ev he => hp _ ((h o σ' t hm).1 ev he), hq _ _ (h o σ' t hm).2⟩

theorem Sat.and {m σ P Q P' Q'} (h : Sat m σ P Q) (h' : Sat m σ P' Q') : Sat m σ (fun e => P e ∧ P' e) (fun o s => Q o s ∧ Q' o s) := by
  intro o σ' t hm
  exact ⟨fun ev he => ⟨(h o σ' t hm).1 ev he, (h' o σ' t hm).1 ev he⟩, (h o σ' t hm).2, (h' o σ' t hm).2⟩

theorem Sat.bind {m f σ P Q} {R : V → Store → Prop}
    (h : Sat m σ P (fun o s => (∀ v, o = .val v → R v s) ∧ ((∀ v, o ≠ .val v) → Q o s)))
    (hf : ∀ v s, R v s → Sat (f v) s P Q) : Sat (andThen m f) σ P Q := by
  intro o σ' t hm
  rcases hm with ⟨v, σ1, t1, t2, h1, h2, rfl⟩ | ⟨hv, h1⟩
  · obtain ⟨p1, q1⟩ := h _ _ _ h1
    obtain ⟨p2, q2⟩ := hf v σ1 (q1.1 v rfl) _ _ _ h2
    refine ⟨?_, q2⟩
    intro ev he
    rcases List.mem_append.mp he with he | he
    · exact p1 ev he
    · exact p2 ev he
  · obtain ⟨p1, q1⟩ := h _ _ _ h1
    exact ⟨p1, q1.2 hv⟩

/-- If the end satisfies the same condition everywhere. -/
theorem Sat.bind' {m f σ P} {Q : Store → Prop} (h : Sat m σ P (fun _ s => Q s)) (hf : ∀ v s, Q s → Sat (f v) s P (fun _ s => Q s)) :
    Sat (andThen m f) σ P (fun _ s => Q s) :=
  Sat.bind (R := fun _ s => Q s) (h.mono (fun _ h => h) (fun _ _ h => ⟨fun _ _ => h, fun _ => h⟩)) hf

theorem sat_ret {v σ P} {Q : Out → Store → Prop} (h : Q (.val v) σ) : Sat (ret v) σ P Q := by
  rintro o σ' t ⟨rfl, rfl, rfl⟩
  exact ⟨by simp, h⟩

theorem sat_any {σ P} {Q : Out → Store → Prop} (h : ∀ v, Q (.val v) σ) : Sat any σ P Q := by
  rintro o σ' t ⟨⟨v, rfl⟩, rfl, rfl⟩
  exact ⟨by simp, h v⟩

theorem sat_false {σ P Q} : Sat (fun _ _ _ _ => False) σ P Q := fun _ _ _ h => h.elim

theorem wants_eq (m : Meth) : m.wants = m.toUnwrap := by cases m <;> rfl

/-! ### Places -/

/-- Whether a place holds `Some` or `Ok` (`true`), or `None` or `Err` (`false`). -/
def Holds (σ : Store) (x : Nat) (fs : List Nat) (g : Bool) : Prop := ∃ n, (σ x).get fs = some (.variant g n)

/-- The variable and the fields, the first one first. -/
def Local.place : Local → Nat × List Nat
  | .pure x => (x, [])
  | .withField x rev => (x, rev.reverse)

/-- Writing elsewhere doesn't matter. -/
theorem get_put_apart (w : V) : ∀ (p q : List Nat) (v : V), ¬ p <+: q → ∀ g n, v.get q = some (.variant g n) → (w.put p v).get q = some (.variant g n)
  | [], q, v, h, _, _, _ => absurd (List.nil_prefix) h
  | i :: p, [], v, h, g, n, e => by
    simp only [V.get, Option.some.injEq] at e
    subst e; rfl
  | i :: p, j :: q, v, h, g, n, e => by
    cases v with
    | struct fs =>
      simp only [V.put]
      cases hi : fs[i]? with
      | none => simpa using e
      | some u =>
        simp only [V.get] at e ⊢
        by_cases hij : i = j
        · subst hij
          have hlt : i < fs.length := (List.getElem?_eq_some_iff.mp hi).1
          rw [hi, Option.bind_some] at e
          rw [List.getElem?_set_self hlt, Option.bind_some]
          exact get_put_apart w p q u (fun hp => h (by simpa using hp)) g n e
        · rw [List.getElem?_set_ne hij]
          exact e
    | bool _ => simp [V.get] at e
    | variant _ _ => simp [V.get] at e
    | other _ => simp [V.get] at e

theorem get_put_self (w : V) : ∀ (p : List Nat) (v u : V), v.get p = some u → (w.put p v).get p = some w
  | [], v, u, _ => rfl
  | i :: p, v, u, e => by
    cases v with
    | struct fs =>
      simp only [V.get] at e
      cases hi : fs[i]? with
      | none => simp [hi] at e
      | some x =>
        have hlt : i < fs.length := (List.getElem?_eq_some_iff.mp hi).1
        simp only [V.put, hi, V.get]
        rw [List.getElem?_set_self hlt, Option.bind_some]
        rw [hi, Option.bind_some] at e
        exact get_put_self w p x u e
    | bool _ => simp [V.get] at e
    | variant _ _ => simp [V.get] at e
    | other _ => simp [V.get] at e

/-- Nothing is inside a variant. -/
theorem get_prefix_variant : ∀ (p q : List Nat) (v : V) (g g' : Bool) (n n' : Nat), p <+: q → v.get p = some (.variant g n) →
    v.get q = some (.variant g' n') → p = q
  | [], [], _, _, _, _, _, _, _, _ => rfl
  | [], j :: q, v, g, g', n, n', _, e1, e2 => by
    simp only [V.get, Option.some.injEq] at e1
    subst e1; simp [V.get] at e2
  | i :: p, [], _, _, _, _, _, h, _, _ => by simp at h
  | i :: p, j :: q, v, g, g', n, n', h, e1, e2 => by
    obtain ⟨rfl, h'⟩ := List.cons_prefix_cons.mp h
    cases v with
    | struct fs =>
      simp only [V.get] at e1 e2
      cases hi : fs[i]? with
      | none => simp [hi] at e1
      | some x =>
        rw [hi, Option.bind_some] at e1 e2
        rw [get_prefix_variant p q x g g' n n' h' e1 e2]
    | bool _ => simp [V.get] at e1
    | variant _ _ => simp [V.get] at e1
    | other _ => simp [V.get] at e1

theorem zip_all_prefix : ∀ (p q : List Nat), p <+: q → (p.zip q).all (fun a => a.1 == a.2) = true
  | [], _, _ => rfl
  | i :: p, [], h => by simp at h
  | i :: p, j :: q, h => by
    obtain ⟨rfl, h'⟩ := List.cons_prefix_cons.mp h
    simpa using zip_all_prefix p q h'

/-- If a change of a place doesn't count for a local, it is elsewhere. -/
theorem potential_apart {l : Local} {b : Base} {p : List Nat} (h : l.potential (b, p) = false) : b.id = l.place.1 → ¬ p <+: l.place.2 := by
  intro hb hp
  cases l with
  | pure x =>
    cases b <;> simp_all [Local.potential, potentiallyLocal, Local.place, Base.id]
  | withField x rev =>
    have h1 : potentiallyLocal x b = true := by cases b <;> simp_all [potentiallyLocal, Local.place, Base.id]
    have h2 := hp.length_le
    have h3 := zip_all_prefix _ _ hp
    simp only [Local.place, List.length_reverse] at h2 h3
    simp only [Local.potential, h1, h3, decide_eq_true h2] at h
    cases h

theorem holds_put {σ : Store} {l : Local} {g : Bool} {p : Base × List Nat} {w : V} (h : l.potential p = false)
    (hh : Holds σ l.place.1 l.place.2 g) : Holds (σ.put p w) l.place.1 l.place.2 g := by
  obtain ⟨n, e⟩ := hh
  refine ⟨n, ?_⟩
  simp only [Store.put]
  split
  · next hx => exact get_put_apart w _ _ _ (potential_apart (b := p.1) (p := p.2) h hx.symm) _ _ e
  · exact e

theorem stripFields_place : ∀ (e : E) (x : Nat) (rev : List Nat), stripFields e = some (x, rev) →
    ∃ b, placeOf e = some (b, rev.reverse) ∧ b.id = x := by
  intro e
  induction e with
  | var b => intro x rev h; simp [stripFields] at h; obtain ⟨rfl, rfl⟩ := h; exact ⟨b, rfl, rfl⟩
  | field e i ih =>
    intro x rev h
    simp only [stripFields, Option.map_eq_some_iff] at h
    obtain ⟨⟨y, r⟩, h1, h2⟩ := h
    simp only [Prod.mk.injEq] at h2
    obtain ⟨rfl, rfl⟩ := h2
    obtain ⟨b, hb, hx⟩ := ih y r h1
    exact ⟨b, by simp [placeOf, hb], hx⟩
  | _ => intro x rev h; simp [stripFields] at h

theorem extractLocal_place {e : E} {l : Local} (h : extractLocal e = some l) : ∃ b, placeOf e = some (b, l.place.2) ∧ b.id = l.place.1 := by
  simp only [extractLocal, Option.map_eq_some_iff] at h
  obtain ⟨⟨x, rev⟩, h1, h2⟩ := h
  obtain ⟨b, hb, hx⟩ := stripFields_place e x rev h1
  cases rev with
  | nil => simp at h2; subst h2; exact ⟨b, hb, hx⟩
  | cons i r => simp at h2; subst h2; exact ⟨b, hb, hx⟩

/-- Reading a place. -/
theorem eval_place : ∀ (n : Nat) (e : E) (b : Base) (p : List Nat), placeOf e = some (b, p) → ∀ σ o σ' t, eval n e σ o σ' t →
    σ' = σ ∧ t = [] ∧ ∀ v, o = .val v → σ.get (b, p) = some v
  | 0, e, b, p, _, σ, o, σ', t, h => by
    obtain ⟨rfl, rfl, rfl⟩ := h
    exact ⟨rfl, rfl, by simp⟩
  | n + 1, e, b, p, hp, σ, o, σ', t, h => by
    cases e <;> simp only [placeOf, reduceCtorEq] at hp
    case var c =>
      simp only [Option.some.injEq, Prod.mk.injEq] at hp
      obtain ⟨rfl, rfl⟩ := hp
      obtain ⟨rfl, rfl, rfl⟩ := h
      exact ⟨rfl, rfl, by simp [Store.get, V.get]⟩
    case field e i =>
      simp only [Option.map_eq_some_iff] at hp
      obtain ⟨⟨c, q⟩, h1, h2⟩ := hp
      simp only [Prod.mk.injEq] at h2
      obtain ⟨rfl, rfl⟩ := h2
      rcases h with ⟨v, σ1, t1, t2, h3, h4, rfl⟩ | ⟨hv, h3⟩
      · obtain ⟨rfl, rfl, hv⟩ := eval_place n e c q h1 _ _ _ _ h3
        have hv := hv v rfl
        cases hw : v.get [i] with
        | some w =>
          simp only [hw] at h4
          obtain ⟨rfl, rfl, rfl⟩ := h4
          refine ⟨rfl, rfl, ?_⟩
          intro u hu
          cases hu
          have : ∀ (q : List Nat) (x y : V), x.get q = some y → x.get (q ++ [i]) = y.get [i] := by
            intro q
            induction q with
            | nil => intro x y h; simp [V.get] at h; subst h; rfl
            | cons j q ih =>
              intro x y h
              cases x <;> simp only [V.get, reduceCtorEq] at h
              case struct fs =>
                simp only [List.cons_append, V.get]
                cases hj : fs[j]? with
                | none => simp [hj] at h
                | some z => rw [hj, Option.bind_some] at h; exact ih z y h
          simp only [Store.get] at hv ⊢
          rw [this _ _ _ hv, hw]
        | none => simp only [hw] at h4
      · obtain ⟨rfl, rfl, _⟩ := eval_place n e c q h1 _ _ _ _ h3
        exact ⟨rfl, rfl, fun v h => absurd h (hv v)⟩

/-! ### What a check tells stays true -/

theorem sat_havoc {p σ P} {Q : Out → Store → Prop} (h : ∀ v w, Q (.val v) (σ.put p w)) : Sat (havoc p) σ P Q := by
  rintro o σ' t ⟨⟨v, rfl⟩, ⟨w, rfl⟩, rfl⟩
  exact ⟨by simp, h v w⟩

theorem frame_havocs {l : Local} {g : Bool} : ∀ (ps : List (Base × List Nat)) (σ : Store), ps.any l.potential = false →
    Holds σ l.place.1 l.place.2 g → Sat (havocs ps) σ (fun _ => True) (fun _ s => Holds s l.place.1 l.place.2 g)
  | [], σ, _, h => sat_any (fun _ => h)
  | p :: ps, σ, hp, h => by
    simp only [List.any_cons, Bool.or_eq_false_iff] at hp
    exact Sat.bind' (sat_havoc fun _ _ => holds_put hp.1 h) (fun _ s hs => frame_havocs ps s hp.2 hs)

theorem frame_payload {l : Local} {g : Bool} {p : Base × List Nat} {σ : Store} (h : Holds σ l.place.1 l.place.2 g) :
    Sat (havocPayload p) σ (fun _ => True) (fun _ s => Holds s l.place.1 l.place.2 g) := by
  rintro o σ' t ⟨g1, n, n', h1, rfl, rfl, rfl⟩
  refine ⟨by simp, ?_⟩
  obtain ⟨m, e⟩ := h
  simp only [Holds, Store.put]
  split
  · next hx =>
    simp only [Store.get, ← hx] at h1
    by_cases hp : p.2 <+: l.place.2
    · have he := get_prefix_variant _ _ _ _ _ _ _ hp h1 e
      rw [← he] at e ⊢
      rw [h1] at e
      simp only [Option.some.injEq, V.variant.injEq] at e
      rw [← e.1]
      exact ⟨n', get_put_self _ _ _ _ h1⟩
    · exact ⟨m, get_put_apart _ _ _ _ hp _ _ e⟩
  · exact ⟨m, e⟩

/-- What a place holds stays the same if nothing changes it. -/
theorem frame {l : Local} {g : Bool} : ∀ (n : Nat) (e : E) (σ : Store), mutates l e = false → e.std = true →
    Holds σ l.place.1 l.place.2 g → Sat (eval n e) σ (fun _ => True) (fun _ s => Holds s l.place.1 l.place.2 g) := by
  intro n
  induction n with
  | zero => rintro e σ _ _ h o σ' t ⟨rfl, rfl, rfl⟩; exact ⟨by simp, h⟩
  | succ n ih =>
    intro e σ hm hs h
    cases e with
    | blank => exact sat_any fun _ => h
    | var b => exact sat_ret (v := σ b.id) h
    | field e i =>
      refine Sat.bind' (ih e σ hm hs h) (fun v s hh => ?_)
      cases hv : v.get [i] with
      | some w => simp only []; exact sat_ret hh
      | none => simp only []; exact sat_false
    | check k pos e =>
      refine Sat.bind' (ih e σ hm hs h) (fun v s hh => ?_)
      cases v with
      | variant g n => exact sat_ret hh
      | _ => exact sat_false
    | unwrap id m a b =>
      simp only [mutates, Bool.or_eq_false_iff] at hm
      simp only [E.std, Bool.and_eq_true] at hs
      refine Sat.bind' (ih a σ hm.1 hs.1 h) (fun v s hh => Sat.bind' (ih b s hm.2 hs.2 hh) (fun _ s' hh' => ?_))
      cases v with
      | variant g n =>
        rintro o σ' t ⟨rfl, _, _⟩
        exact ⟨fun _ _ => trivial, hh'⟩
      | _ => exact sat_false
    | asRef e => exact ih e σ hm hs h
    | asMut std e =>
      simp only [E.std, Bool.and_eq_true] at hs
      simp only [mutates] at hm
      simp only [eval]
      cases hp : placeOf e with
      | some p => simp only [hs.1, if_true]; exact frame_payload h
      | none =>
        simp only [hp] at hm ⊢
        refine Sat.bind' (ih e σ hm hs.2 h) (fun v s hh => ?_)
        simp only [hs.1, if_true]; exact sat_ret hh
    | borrowMut e =>
      simp only [mutates] at hm
      simp only [eval]
      cases hp : placeOf e with
      | some p => simp only [hp] at hm ⊢; exact sat_havoc fun _ _ => holds_put hm h
      | none => simp only [hp] at hm ⊢; exact Sat.bind' (ih e σ hm hs h) (fun v s hh => sat_any fun _ => hh)
    | assign a b =>
      simp only [mutates] at hm
      simp only [E.std, Bool.and_eq_true] at hs
      simp only [eval]
      cases hp : placeOf a with
      | some p =>
        simp only [hp, Bool.or_eq_false_iff] at hm ⊢
        refine Sat.bind' (ih b σ hm.2 hs.2 h) (fun v s hh => ?_)
        rintro o σ' t ⟨_, rfl, rfl⟩
        exact ⟨by simp, holds_put hm.1 hh⟩
      | none =>
        simp only [hp, Bool.or_eq_false_iff] at hm ⊢
        exact Sat.bind' (ih b σ hm.2 hs.2 h) (fun v s hh => Sat.bind' (ih a s hm.1 hs.1 hh) (fun _ _ h3 => sat_any fun _ => h3))
    | not e =>
      refine Sat.bind' (ih e σ hm hs h) (fun v s hh => ?_)
      cases v with
      | bool b => exact sat_ret hh
      | _ => exact sat_false
    | bin op a b =>
      simp only [mutates, Bool.or_eq_false_iff] at hm
      simp only [E.std, Bool.and_eq_true] at hs
      refine Sat.bind' (ih a σ hm.1 hs.1.2 h) (fun v s hh => ?_)
      have hb := ih b s hm.2 hs.2 hh
      cases op with
      | and => cases v with
        | bool x =>
          cases x <;> simp only [if_true, Bool.false_eq_true, if_false]
          · exact sat_ret hh
          · exact hb
        | _ => exact sat_false
      | or => cases v with
        | bool x =>
          cases x <;> simp only [if_true, Bool.false_eq_true, if_false]
          · exact hb
          · exact sat_ret hh
        | _ => exact sat_false
      | bitAnd x =>
        obtain rfl : x = true := hs.1.1
        cases v with
        | bool x =>
          refine Sat.bind' hb (fun w s' h' => ?_)
          cases w with
          | bool y => exact sat_ret h'
          | _ => exact sat_false
        | _ => exact sat_false
      | bitOr x =>
        obtain rfl : x = true := hs.1.1
        cases v with
        | bool x =>
          refine Sat.bind' hb (fun w s' h' => ?_)
          cases w with
          | bool y => exact sat_ret h'
          | _ => exact sat_false
        | _ => exact sat_false
      | other => exact Sat.bind' hb (fun w s' h' => sat_any fun _ => h')
    | ite c t e =>
      simp only [mutates, Bool.or_eq_false_iff] at hm
      simp only [E.std, Bool.and_eq_true] at hs
      refine Sat.bind' (ih c σ hm.1.1 hs.1.1 h) (fun v s hh => ?_)
      cases v with
      | bool x =>
        cases x <;> simp only [if_true, Bool.false_eq_true, if_false]
        · exact ih e s hm.2 hs.2 hh
        · exact ih t s hm.1.2 hs.1.2 hh
      | _ => exact sat_false
    | seq a b =>
      simp only [mutates, Bool.or_eq_false_iff] at hm
      simp only [E.std, Bool.and_eq_true] at hs
      exact Sat.bind' (ih a σ hm.1 hs.1 h) (fun v s hh => ih b s hm.2 hs.2 hh)
    | alt a b =>
      simp only [mutates, Bool.or_eq_false_iff] at hm
      simp only [E.std, Bool.and_eq_true] at hs
      rintro o σ' t (h1 | h1)
      · exact ih a σ hm.1 hs.1 h _ _ _ h1
      · exact ih b σ hm.2 hs.2 h _ _ _ h1
    | loop b =>
      have hb : ∀ s, Holds s l.place.1 l.place.2 g → Sat (eval n b) s (fun _ => True) (fun _ s => Holds s l.place.1 l.place.2 g) := fun s => ih b s hm hs
      rintro o σ' t (h1 | ⟨σ1, t1, h1, h2⟩)
      · exact Sat.bind' (hb σ h) (fun v s hh => ih (.loop b) s hm hs hh) _ _ _ h1
      · have h3 := (hb σ h _ _ _ h1).2
        refine ⟨fun _ _ => trivial, ?_⟩
        rcases h2 with ⟨_, rfl, _⟩ | ⟨_, rfl, _⟩ | ⟨t2, h4, _⟩
        · exact h3
        · exact h3
        · exact (ih (.loop b) σ1 hm hs h3 _ _ _ h4).2
    | jump => rintro o σ' t ⟨rfl, rfl, rfl⟩; exact ⟨by simp, h⟩
    | closure ms => exact frame_havocs ms σ hm h

/-- If the condition of a branch holds (or doesn't, for the other branch), what was collected holds. -/
theorem collect_holds (els : Bool) : ∀ (n : Nat) (c : E) (inv entire : Bool) (u : Info) (σ : Store), u ∈ collect els inv entire c → mutates u.loc c = false →
    c.std = true → Sat (eval n c) σ (fun _ => True) (fun o s => o = .val (.bool (!inv)) → Holds s u.loc.place.1 u.loc.place.2 u.safe) := by
  intro n
  induction n with
  | zero => rintro c inv entire u σ _ _ _ o σ' t ⟨rfl, rfl, rfl⟩; exact ⟨by simp, by simp⟩
  | succ n ih =>
    intro c inv entire u σ hu hm hs
    cases c <;> try (simp [collect] at hu; done)
    case check k pos recv =>
      simp only [collect] at hu
      cases hl : extractLocal recv with
      | none => simp [hl] at hu
      | some l =>
        simp only [hl, List.mem_singleton] at hu
        subst hu
        obtain ⟨b, hp, hx⟩ := extractLocal_place hl
        rintro o σ' t (⟨v, σ1, t1, t2, h1, h2, rfl⟩ | ⟨hv, h1⟩)
        · obtain ⟨rfl, rfl, hv⟩ := eval_place n recv b _ hp _ _ _ _ h1
          have hv := hv v rfl
          cases v with
          | variant g m =>
            obtain ⟨rfl, rfl, rfl⟩ := h2
            refine ⟨by simp, ?_⟩
            intro h3
            simp only [Out.val.injEq, V.bool.injEq] at h3
            refine ⟨m, ?_⟩
            simp only [Store.get, hx] at hv
            rw [hv]
            cases g <;> cases pos <;> cases inv <;> simp_all
          | _ => exact h2.elim
        · exact ⟨fun _ _ => trivial, fun h => absurd h (hv _)⟩
    case not e =>
      simp only [collect] at hu
      refine Sat.bind (R := fun v s => v = .bool inv → Holds s u.loc.place.1 u.loc.place.2 u.safe) ?_ ?_
      · refine (ih e (!inv) false u σ hu hm hs).mono (fun _ h => h) (fun o s h => ⟨?_, ?_⟩)
        · intro v hv hi; exact h (by rw [hv, hi]; simp)
        · intro hv h3; exact absurd h3 (hv _)
      · intro v s hr
        cases v with
        | bool b =>
          refine sat_ret ?_
          intro h3
          simp only [Out.val.injEq, V.bool.injEq] at h3
          exact hr (by cases b <;> cases inv <;> simp_all)
        | _ => exact sat_false
    case bin op a b =>
      simp only [mutates, Bool.or_eq_false_iff] at hm
      simp only [E.std, Bool.and_eq_true] at hs
      simp only [collect] at hu
      split at hu
      · next hsp =>
        -- the operands which are known
        let R : V → Store → Prop := fun v s => u ∈ collect els inv false a → v = .bool (!inv) → Holds s u.loc.place.1 u.loc.place.2 u.safe
        refine Sat.bind (R := R) ?_ ?_
        · by_cases ha : u ∈ collect els inv false a
          · refine (ih a inv false u σ ha hm.1 hs.1.2).mono (fun _ h => h) (fun o s h => ⟨?_, ?_⟩)
            · intro v hv _ hi; exact h (by rw [hv, hi])
            · intro hv h3; exact absurd h3 (hv _)
          · intro o σ' t _
            exact ⟨fun _ _ => trivial, fun _ _ h => absurd h ha, fun hv h3 => absurd h3 (hv _)⟩
        · intro v s hr
          have hb : v = .bool (!inv) → Sat (eval n b) s (fun _ => True) (fun o s => o = .val (.bool (!inv)) → Holds s u.loc.place.1 u.loc.place.2 u.safe) := by
            intro hv
            by_cases ha : u ∈ collect els inv false a
            · exact (frame n b s hm.2 hs.2 (hr ha hv)).mono (fun _ h => h) (fun _ _ h _ => h)
            · have hb : u ∈ collect els inv false b := by
                rcases List.mem_append.mp hu with h | h
                · exact absurd h ha
                · exact h
              exact ih b inv false u s hb hm.2 hs.2
          have triv : ∀ o s, (o : Out) ≠ .val (.bool (!inv)) → (o = .val (.bool (!inv)) → Holds s u.loc.place.1 u.loc.place.2 u.safe) := by
            intro o s h1 h2; exact absurd h2 h1
          cases op with
          | and =>
            simp only [Op.splits, Bool.not_eq_true'] at hsp
            subst hsp
            cases v with
            | bool x =>
              cases x <;> simp only [if_true, Bool.false_eq_true, if_false]
              · exact sat_ret (triv _ _ (by simp))
              · exact hb rfl
            | _ => exact sat_false
          | or =>
            simp only [Op.splits] at hsp
            subst hsp
            cases v with
            | bool x =>
              cases x <;> simp only [if_true, Bool.false_eq_true, if_false]
              · exact hb rfl
              · exact sat_ret (triv _ _ (by simp))
            | _ => exact sat_false
          | bitAnd st =>
            simp only [Op.splits, Bool.not_eq_true'] at hsp
            obtain rfl : st = true := hs.1.1
            subst hsp
            cases v with
            | bool x =>
              refine Sat.bind (R := fun w s => x = true → w = .bool true → Holds s u.loc.place.1 u.loc.place.2 u.safe) ?_ ?_
              · cases x
                · intro o σ' t _
                  exact ⟨fun _ _ => trivial, by simp, fun hv h3 => absurd h3 (hv _)⟩
                · refine (hb rfl).mono (fun _ h => h) (fun o s h => ⟨?_, ?_⟩)
                  · intro v hv _ hi; exact h (by rw [hv, hi]; rfl)
                  · intro hv h3; exact absurd h3 (hv _)
              · intro w s' h'
                cases w with
                | bool y =>
                  refine sat_ret ?_
                  intro h3
                  cases x <;> cases y <;> simp at h3
                  exact h' rfl rfl
                | _ => exact sat_false
            | _ => exact sat_false
          | bitOr st =>
            simp only [Op.splits] at hsp
            obtain rfl : st = true := hs.1.1
            subst hsp
            cases v with
            | bool x =>
              refine Sat.bind (R := fun w s => x = false → w = .bool false → Holds s u.loc.place.1 u.loc.place.2 u.safe) ?_ ?_
              · cases x
                · refine (hb rfl).mono (fun _ h => h) (fun o s h => ⟨?_, ?_⟩)
                  · intro v hv _ hi; exact h (by rw [hv, hi]; rfl)
                  · intro hv h3; exact absurd h3 (hv _)
                · intro o σ' t _
                  exact ⟨fun _ _ => trivial, by simp, fun hv h3 => absurd h3 (hv _)⟩
              · intro w s' h'
                cases w with
                | bool y =>
                  refine sat_ret ?_
                  intro h3
                  cases x <;> cases y <;> simp at h3
                  exact h' rfl rfl
                | _ => exact sat_false
            | _ => exact sat_false
          | other => simp [Op.splits] at hsp
      · simp at hu

/-! ### The verdicts -/

theorem sat_true {m : M} {σ : Store} {P : Ev → Prop} (h : Sat m σ P (fun _ _ => True)) : ∀ o σ' t, m σ o σ' t → ∀ ev ∈ t, P ev :=
  fun o σ' t hm => (h o σ' t hm).1

/-- The events of a sequence. -/
theorem Sat.bindT {m f σ P} (h : Sat m σ P (fun _ _ => True)) (hf : ∀ v s, Sat (f v) s P (fun _ _ => True)) :
    Sat (andThen m f) σ P (fun _ _ => True) :=
  Sat.bind' (Q := fun _ => True) h (fun v s _ => hf v s)

theorem havocs_events {P} : ∀ (ps : List (Base × List Nat)) (σ : Store), Sat (havocs ps) σ P (fun _ _ => True)
  | [], _ => sat_any fun _ => trivial
  | _ :: ps, _ => Sat.bindT (sat_havoc fun _ _ => trivial) (fun _ s => havocs_events ps s)

theorem payload_events {P p σ} : Sat (havocPayload p) σ P (fun _ _ => True) := by
  rintro o σ' t ⟨g1, n, n', h1, rfl, rfl, rfl⟩
  exact ⟨by simp, trivial⟩

/-- What follows the first operand of a binary operator. -/
theorem sat_bin_rest {op : Op} {v : V} {m : M} {s : Store} {P} (h : Sat m s P (fun _ _ => True)) :
    Sat (match op, v with
      | .and, .bool x => if x then m else ret (.bool false)
      | .or, .bool x => if x then ret (.bool true) else m
      | .bitAnd true, .bool x => andThen m fun w => match w with
        | .bool y => ret (.bool (x && y))
        | _ => fun _ _ _ _ => False
      | .bitOr true, .bool x => andThen m fun w => match w with
        | .bool y => ret (.bool (x || y))
        | _ => fun _ _ _ _ => False
      | .other, _ | .bitAnd false, _ | .bitOr false, _ => andThen m fun _ => any
      | _, _ => fun _ _ _ _ => False) s P (fun _ _ => True) := by
  split
  · split
    · exact h
    · exact sat_ret trivial
  · split
    · exact sat_ret trivial
    · exact h
  · refine Sat.bindT h (fun w s' => ?_)
    cases w with
    | bool y => exact sat_ret trivial
    | _ => exact sat_false
  · refine Sat.bindT h (fun w s' => ?_)
    cases w with
    | bool y => exact sat_ret trivial
    | _ => exact sat_false
  · exact Sat.bindT h (fun w s' => sat_any fun _ => trivial)
  · exact Sat.bindT h (fun w s' => sat_any fun _ => trivial)
  · exact Sat.bindT h (fun w s' => sat_any fun _ => trivial)
  · exact sat_false

/-- The events are from the calls in the expression. -/
theorem eval_ids : ∀ (n : Nat) (e : E) (σ : Store) (P : Ev → Prop), (∀ ev, ev.id ∈ e.ids → P ev) → Sat (eval n e) σ P (fun _ _ => True) := by
  intro n
  induction n with
  | zero => rintro e σ P _ o σ' t ⟨rfl, rfl, rfl⟩; exact ⟨by simp, trivial⟩
  | succ n ih =>
    intro e σ P hP
    cases e with
    | blank => exact sat_any fun _ => trivial
    | var b => exact sat_ret (v := σ b.id) trivial
    | field e i =>
      refine Sat.bindT (ih e σ P hP) (fun v s => ?_)
      cases hv : v.get [i] with
      | some w => simp only []; exact sat_ret trivial
      | none => simp only []; exact sat_false
    | check k pos e =>
      refine Sat.bindT (ih e σ P hP) (fun v s => ?_)
      cases v with
      | variant g n => exact sat_ret trivial
      | _ => exact sat_false
    | unwrap id m a b =>
      refine Sat.bindT (ih a σ P fun ev h => hP ev (by simp [E.ids, h])) (fun v s =>
        Sat.bindT (ih b s P fun ev h => hP ev (by simp [E.ids, h])) (fun _ s' => ?_))
      cases v with
      | variant g n =>
        rintro o σ' t ⟨rfl, rfl, _⟩
        refine ⟨?_, trivial⟩
        intro ev he
        rw [List.mem_singleton] at he
        subst he
        exact hP _ (by simp [E.ids])
      | _ => exact sat_false
    | asRef e => exact ih e σ P hP
    | asMut std e =>
      simp only [eval]
      cases hp : placeOf e with
      | some p =>
        cases std <;> simp only [if_true, Bool.false_eq_true, if_false]
        · exact sat_havoc fun _ _ => trivial
        · exact payload_events
      | none =>
        refine Sat.bindT (ih e σ P hP) (fun v s => ?_)
        cases std <;> simp only [if_true, Bool.false_eq_true, if_false]
        · exact sat_any fun _ => trivial
        · exact sat_ret trivial
    | borrowMut e =>
      simp only [eval]
      cases hp : placeOf e with
      | some p => exact sat_havoc fun _ _ => trivial
      | none => exact Sat.bindT (ih e σ P hP) (fun v s => sat_any fun _ => trivial)
    | assign a b =>
      have h1 := fun s => ih a s P fun ev h => hP ev (by simp [E.ids, h])
      have h2 := fun s => ih b s P fun ev h => hP ev (by simp [E.ids, h])
      simp only [eval]
      cases hp : placeOf a with
      | some p =>
        refine Sat.bindT (h2 σ) (fun v s => ?_)
        rintro o σ' t ⟨_, rfl, rfl⟩
        exact ⟨by simp, trivial⟩
      | none => exact Sat.bindT (h2 σ) (fun v s => Sat.bindT (h1 s) (fun _ _ => sat_any fun _ => trivial))
    | not e =>
      refine Sat.bindT (ih e σ P hP) (fun v s => ?_)
      cases v with
      | bool b => exact sat_ret trivial
      | _ => exact sat_false
    | bin op a b =>
      exact Sat.bindT (ih a σ P fun ev h => hP ev (by simp [E.ids, h])) (fun v s => sat_bin_rest (ih b s P fun ev h => hP ev (by simp [E.ids, h])))
    | ite c t e =>
      refine Sat.bindT (ih c σ P fun ev h => hP ev (by simp [E.ids, h])) (fun v s => ?_)
      cases v with
      | bool x =>
        cases x <;> simp only [if_true, Bool.false_eq_true, if_false]
        · exact ih e s P fun ev h => hP ev (by simp [E.ids, h])
        · exact ih t s P fun ev h => hP ev (by simp [E.ids, h])
      | _ => exact sat_false
    | seq a b => exact Sat.bindT (ih a σ P fun ev h => hP ev (by simp [E.ids, h])) (fun v s => ih b s P fun ev h => hP ev (by simp [E.ids, h]))
    | alt a b =>
      rintro o σ' t (h1 | h1)
      · exact ih a σ P (fun ev h => hP ev (by simp [E.ids, h])) _ _ _ h1
      · exact ih b σ P (fun ev h => hP ev (by simp [E.ids, h])) _ _ _ h1
    | loop b =>
      rintro o σ' t (h1 | ⟨σ1, t1, h1, h2⟩)
      · exact Sat.bindT (ih b σ P hP) (fun v s => ih (.loop b) s P hP) _ _ _ h1
      · have h3 := (ih b σ P hP _ _ _ h1).1
        refine ⟨?_, trivial⟩
        rcases h2 with ⟨_, _, rfl⟩ | ⟨_, _, rfl⟩ | ⟨t2, h4, rfl⟩
        · exact h3
        · exact h3
        · intro ev he
          rcases List.mem_append.mp he with he | he
          · exact h3 ev he
          · exact (ih (.loop b) σ1 P hP _ _ _ h4).1 ev he
    | jump => rintro o σ' t ⟨rfl, rfl, rfl⟩; exact ⟨by simp, trivial⟩
    | closure ms => exact havocs_events ms σ

theorem report_id {us id m recv r} (h : r ∈ report us id m recv) : r.id = id := by
  unfold report at h
  split at h
  · simp at h
  · split at h
    · simp at h
    · split at h <;> (rw [List.mem_singleton] at h; subst h; rfl)

/-- The reports are about calls in the expression. -/
theorem visit_ids : ∀ (e : E) (b : Bool) (us : List Info) (r : Report), r ∈ visit b us e → r.id ∈ e.ids := by
  intro e
  induction e with
  | blank => intro b us r h; simp [visit] at h
  | var _ => intro b us r h; simp [visit] at h
  | jump => intro b us r h; simp [visit] at h
  | closure _ => intro b us r h; simp [visit] at h
  | field e i ih => intro b us r h; simp only [visit] at h; exact ih _ _ _ h
  | check _ _ e ih => intro b us r h; simp only [visit] at h; exact ih _ _ _ h
  | asRef e ih => intro b us r h; simp only [visit] at h; exact ih _ _ _ h
  | asMut _ e ih => intro b us r h; simp only [visit] at h; exact ih _ _ _ h
  | not e ih => intro b us r h; simp only [visit] at h; exact ih _ _ _ h
  | loop e ih => intro b us r h; simp only [visit] at h; exact ih _ _ _ h
  | borrowMut e ih => intro b us r h; simp only [visit] at h; exact ih _ _ _ h
  | bin _ a b i1 i2 =>
    intro b us r h; simp only [visit, List.mem_append] at h
    rcases h with h | h <;> simp only [E.ids, List.mem_append]
    · exact .inl (i1 _ _ _ h)
    · exact .inr (i2 _ _ _ h)
  | seq a b i1 i2 =>
    intro b us r h; simp only [visit, List.mem_append] at h
    rcases h with h | h <;> simp only [E.ids, List.mem_append]
    · exact .inl (i1 _ _ _ h)
    · exact .inr (i2 _ _ _ h)
  | alt a b i1 i2 =>
    intro b us r h; simp only [visit, List.mem_append] at h
    rcases h with h | h <;> simp only [E.ids, List.mem_append]
    · exact .inl (i1 _ _ _ h)
    · exact .inr (i2 _ _ _ h)
  | assign a b i1 i2 =>
    intro b us r h; simp only [visit, List.mem_append] at h
    rcases h with h | h <;> simp only [E.ids, List.mem_append]
    · exact .inl (i1 _ _ _ h)
    · exact .inr (i2 _ _ _ h)
  | unwrap id m a b i1 i2 =>
    intro b us r h; simp only [visit, List.mem_append] at h
    simp only [E.ids, List.cons_append, List.mem_cons, List.mem_append]
    rcases h with (h | h) | h
    · left
      split at h
      · exact report_id h
      · simp at h
    · exact .inr (.inl (i1 _ _ _ h))
    · exact .inr (.inr (i2 _ _ _ h))
  | ite c t e i1 i2 i3 =>
    intro b us r h
    cases b <;> simp only [visit, List.mem_append] at h <;> simp only [E.ids, List.mem_append] <;> rcases h with (h | h) | h
    all_goals first | exact .inl (.inl (i1 _ _ _ h)) | exact .inl (.inr (i2 _ _ _ h)) | exact .inr (i3 _ _ _ h)

/-- What was collected holds, and the expression doesn't change it. -/
def Known (us : List Info) (σ : Store) (e : E) : Prop :=
  ∀ u ∈ us, mutates u.loc e = false ∧ Holds σ u.loc.place.1 u.loc.place.2 u.safe

/-- The verdict of a report on an event. -/
def Right (r : Report) (ev : Ev) : Prop := ev.id = r.id → ev.ok = r.unnecessary

/-- What was collected still holds after an expression. -/
theorem frameAll {us : List Info} {e : E} (n : Nat) (σ : Store) (hs : e.std = true) (hk : Known us σ e) :
    Sat (eval n e) σ (fun _ => True) (fun _ s => ∀ u ∈ us, Holds s u.loc.place.1 u.loc.place.2 u.safe) := by
  intro o σ' t hm
  exact ⟨fun _ _ => trivial, fun u hu => (frame n e σ (hk u hu).1 hs (hk u hu).2 _ _ _ hm).2⟩

/-- A report about one of two expressions which are evaluated one after the other. -/
theorem two_right {n : Nat} {a b : E} {ba bb : Bool} {us : List Info} {σ : Store} {r : Report}
    (ia : ∀ σ, Known us σ a → r ∈ visit ba us a → Sat (eval n a) σ (Right r) (fun _ _ => True))
    (ib : ∀ σ, Known us σ b → r ∈ visit bb us b → Sat (eval n b) σ (Right r) (fun _ _ => True))
    (sa : a.std = true) (hn : ∀ x ∈ a.ids, x ∉ b.ids) (ka : Known us σ a) (kb : ∀ u ∈ us, mutates u.loc b = false)
    (hr : r ∈ visit ba us a ∨ r ∈ visit bb us b) {f : V → M}
    (hf : ∀ v s, Sat (eval n b) s (Right r) (fun _ _ => True) → Sat (f v) s (Right r) (fun _ _ => True)) :
    Sat (andThen (eval n a) f) σ (Right r) (fun _ _ => True) := by
  rcases hr with hr | hr
  · refine Sat.bindT (ia σ ka hr) (fun v s => hf v s ?_)
    refine eval_ids n b s _ (fun ev he hi => ?_)
    exact absurd (hi ▸ he) (hn _ (visit_ids a _ _ _ hr))
  · have hP : Sat (eval n a) σ (Right r) (fun _ _ => True) := by
      refine eval_ids n a σ _ (fun ev he hi => ?_)
      exact absurd (visit_ids b _ _ _ hr) (hn _ (hi ▸ he))
    refine Sat.bind (R := fun _ s => ∀ u ∈ us, Holds s u.loc.place.1 u.loc.place.2 u.safe) ?_ ?_
    · exact (hP.and (frameAll n σ sa ka)).mono (fun _ h => h.1) (fun _ _ h => ⟨fun _ _ => h.2, fun _ => trivial⟩)
    · intro v s hk
      exact hf v s (ib s (fun u hu => ⟨kb u hu, hk u hu⟩) hr)

theorem report_right {us : List Info} {σ : Store} {recv arg : E} {id : Nat} {m : Meth} {r : Report} {n : Nat}
    (hk : ∀ u ∈ us, Holds σ u.loc.place.1 u.loc.place.2 u.safe) (hs : recv.std = true) (hr : r ∈ report us id m recv)
    (hn1 : id ∉ recv.ids) (hn2 : id ∉ arg.ids) : Sat (eval (n + 1) (.unwrap id m recv arg)) σ (Right r) (fun _ _ => True) := by
  have hid := report_id hr
  unfold report at hr
  split at hr
  · simp at hr
  · next l hl =>
    split at hr
    · simp at hr
    · next u hu =>
      have hmem := List.mem_of_find?_eq_some hu
      have hloc : u.loc = l := by simpa using List.find?_some hu
      have hold := hk u hmem
      obtain ⟨b, hp, hx⟩ := extractLocal_place hl
      rw [← hloc] at hp hx
      -- the receiver is what the check was about
      have hv : Sat (eval n recv) σ (Right r) (fun o s => ∀ v, o = .val v → ∃ k, v = .variant u.safe k) := by
        have hplace : ∀ (n : Nat) (e : E), placeOf e = some (b, u.loc.place.2) →
            Sat (eval n e) σ (Right r) (fun o s => ∀ v, o = .val v → ∃ k, v = .variant u.safe k) := by
          intro n e he o σ' t hm
          obtain ⟨rfl, rfl, h3⟩ := eval_place n e b _ he _ _ _ _ hm
          refine ⟨by simp, fun v hv => ?_⟩
          obtain ⟨k, hk⟩ := hold
          have := h3 v hv
          simp only [Store.get, hx] at this
          rw [hk] at this
          exact ⟨k, (Option.some.inj this).symm⟩
        cases n with
        | zero => rintro o σ' t ⟨rfl, rfl, rfl⟩; exact ⟨by simp, by simp⟩
        | succ n =>
          cases recv <;> try (exact hplace (n + 1) _ hp)
          case asRef e => exact hplace n e hp
          case asMut std e =>
            simp only [E.std, Bool.and_eq_true] at hs
            simp only [consumeAsRef] at hp
            simp only [eval, hp, hs.1, if_true]
            rintro o σ' t ⟨g1, m1, m2, h1, rfl, rfl, rfl⟩
            refine ⟨by simp, fun v hv => ?_⟩
            obtain ⟨k, hk⟩ := hold
            simp only [Store.get, hx] at h1
            rw [hk] at h1
            cases hv
            simp only [Option.some.injEq, V.variant.injEq] at h1
            exact ⟨m2, by rw [h1.1]⟩
      refine Sat.bind (R := fun v _ => ∃ k, v = .variant u.safe k) (hv.mono (fun _ h => h) (fun o s h => ⟨h, fun _ => trivial⟩)) ?_
      rintro v s ⟨k, rfl⟩
      refine Sat.bindT (eval_ids n arg s _ (fun ev he hi => ?_)) (fun _ s' => ?_)
      · rw [hi, hid] at he; exact absurd he hn2
      · rintro o σ' t ⟨rfl, rfl, _⟩
        refine ⟨?_, trivial⟩
        intro ev he _
        rw [List.mem_singleton] at he
        subst he
        split at hr
        · next hm => rw [List.mem_singleton] at hr; subst hr; simp [wants_eq, hm]
        · next hm => rw [List.mem_singleton] at hr; subst hr; simp [wants_eq]; exact fun h => hm h.symm

/-- The main induction. -/
theorem visit_right : ∀ (n : Nat) (e : E) (b : Bool) (us : List Info) (σ : Store) (r : Report), e.std = true → e.ids.Nodup →
    Known us σ e → r ∈ visit b us e → Sat (eval n e) σ (Right r) (fun _ _ => True) := by
  intro n
  induction n with
  | zero => rintro e b us σ r _ _ _ _ o σ' t ⟨rfl, rfl, rfl⟩; exact ⟨by simp, trivial⟩
  | succ n ih =>
    intro e b us σ r hs hn hk hr
    cases e with
    | blank => simp [visit] at hr
    | var _ => simp [visit] at hr
    | jump => simp [visit] at hr
    | closure _ => simp [visit] at hr
    | field e i =>
      simp only [visit] at hr
      refine Sat.bindT (ih e true us σ r hs hn hk hr) (fun v s => ?_)
      cases hv : v.get [i] with
      | some w => simp only []; exact sat_ret trivial
      | none => simp only []; exact sat_false
    | check k pos e =>
      simp only [visit] at hr
      refine Sat.bindT (ih e true us σ r hs hn hk hr) (fun v s => ?_)
      cases v with
      | variant g n => exact sat_ret trivial
      | _ => exact sat_false
    | asRef e => simp only [visit] at hr; exact ih e true us σ r hs hn hk hr
    | asMut std e =>
      simp only [E.std, Bool.and_eq_true] at hs
      simp only [visit] at hr
      simp only [eval]
      cases hp : placeOf e with
      | some p => simp only [hs.1, if_true]; exact payload_events
      | none =>
        refine Sat.bindT (ih e true us σ r hs.2 hn (fun u hu => ⟨by simpa [mutates, hp] using (hk u hu).1, (hk u hu).2⟩) hr) (fun v s => ?_)
        simp only [hs.1, if_true]; exact sat_ret trivial
    | borrowMut e =>
      simp only [visit] at hr
      simp only [eval]
      cases hp : placeOf e with
      | some p => exact sat_havoc fun _ _ => trivial
      | none =>
        exact Sat.bindT (ih e true us σ r hs hn (fun u hu => ⟨by simpa [mutates, hp] using (hk u hu).1, (hk u hu).2⟩) hr)
          (fun v s => sat_any fun _ => trivial)
    | not e =>
      simp only [visit] at hr
      refine Sat.bindT (ih e true us σ r hs hn hk hr) (fun v s => ?_)
      cases v with
      | bool b => exact sat_ret trivial
      | _ => exact sat_false
    | assign x y =>
      simp only [E.std, Bool.and_eq_true] at hs
      simp only [E.ids, List.nodup_append] at hn
      simp only [visit, List.mem_append] at hr
      have hapart : ∀ i ∈ y.ids, i ∉ x.ids := fun i h1 h2 => hn.2.2 i h2 i h1 rfl
      have ky : Known us σ y := by
        intro u hu
        refine ⟨?_, (hk u hu).2⟩
        have := (hk u hu).1
        simp only [mutates] at this
        split at this <;> simp only [Bool.or_eq_false_iff] at this <;> exact this.2
      simp only [eval]
      cases hp : placeOf x with
      | some p =>
        have : visit true us x = [] := by
          clear hs hn hk hr hapart ky
          induction x generalizing p with
          | var _ => rfl
          | field e i ih2 =>
            simp only [placeOf, Option.map_eq_some_iff] at hp
            obtain ⟨q, hq, _⟩ := hp
            simp only [visit]
            exact ih2 q hq
          | _ => simp [placeOf] at hp
        rw [this] at hr
        refine Sat.bindT (ih y true us σ r hs.2 hn.2.1 ky (by simpa using hr)) (fun v s => ?_)
        rintro o σ' t ⟨_, rfl, rfl⟩
        exact ⟨by simp, trivial⟩
      | none =>
        exact two_right (fun σ k h => ih y true us σ r hs.2 hn.2.1 k h) (fun σ k h => ih x true us σ r hs.1 hn.1 k h) hs.2 hapart ky
          (fun u hu => by have := (hk u hu).1; simp only [mutates, hp, Bool.or_eq_false_iff] at this; exact this.1) hr.symm
          (fun v s h => Sat.bindT h (fun _ _ => sat_any fun _ => trivial))
    | bin op x y =>
      simp only [E.std, Bool.and_eq_true] at hs
      simp only [E.ids, List.nodup_append] at hn
      simp only [visit, List.mem_append] at hr
      have hm : ∀ u ∈ us, mutates u.loc x = false ∧ mutates u.loc y = false := fun u hu => by simpa [mutates] using (hk u hu).1
      exact two_right (fun σ k h => ih x true us σ r hs.1.2 hn.1 k h) (fun σ k h => ih y true us σ r hs.2 hn.2.1 k h) hs.1.2
        (fun i h1 h2 => hn.2.2 i h1 i h2 rfl) (fun u hu => ⟨(hm u hu).1, (hk u hu).2⟩) (fun u hu => (hm u hu).2) hr (fun v s h => sat_bin_rest h)
    | seq x y =>
      simp only [E.std, Bool.and_eq_true] at hs
      simp only [E.ids, List.nodup_append] at hn
      simp only [visit, List.mem_append] at hr
      have hm : ∀ u ∈ us, mutates u.loc x = false ∧ mutates u.loc y = false := fun u hu => by simpa [mutates] using (hk u hu).1
      exact two_right (fun σ k h => ih x true us σ r hs.1 hn.1 k h) (fun σ k h => ih y true us σ r hs.2 hn.2.1 k h) hs.1
        (fun i h1 h2 => hn.2.2 i h1 i h2 rfl) (fun u hu => ⟨(hm u hu).1, (hk u hu).2⟩) (fun u hu => (hm u hu).2) hr (fun v s h => h)
    | alt x y =>
      simp only [E.std, Bool.and_eq_true] at hs
      simp only [E.ids, List.nodup_append] at hn
      simp only [visit, List.mem_append] at hr
      have hm : ∀ u ∈ us, mutates u.loc x = false ∧ mutates u.loc y = false := fun u hu => by simpa [mutates] using (hk u hu).1
      rintro o σ' t (h1 | h1) <;> rcases hr with hr | hr
      · exact ih x true us σ r hs.1 hn.1 (fun u hu => ⟨(hm u hu).1, (hk u hu).2⟩) hr _ _ _ h1
      · exact eval_ids n x σ (Right r) (fun ev he hi => absurd (visit_ids y _ _ _ hr) (fun h2 => hn.2.2 _ (hi ▸ he) _ h2 rfl)) _ _ _ h1
      · exact eval_ids n y σ (Right r) (fun ev he hi => absurd (visit_ids x _ _ _ hr) (fun h2 => hn.2.2 _ h2 _ (hi ▸ he) rfl)) _ _ _ h1
      · exact ih y true us σ r hs.2 hn.2.1 (fun u hu => ⟨(hm u hu).2, (hk u hu).2⟩) hr _ _ _ h1
    | loop x =>
      have hr' := hr
      simp only [visit] at hr
      have hx := fun s k => ih x true us s r hs hn k hr
      have hf := fun s (k : Known us s x) => frameAll (e := x) n s hs k
      rintro o σ' t (h1 | ⟨σ1, t1, h1, h2⟩)
      · suffices key : Sat (andThen (eval n x) (fun _ => eval n (.loop x))) σ (Right r) (fun _ _ => True) from key _ _ _ h1
        refine Sat.bind (R := fun _ s => ∀ u ∈ us, Holds s u.loc.place.1 u.loc.place.2 u.safe) ?_ ?_
        · exact ((hx σ hk).and (hf σ hk)).mono (fun _ h => h.1) (fun _ _ h => ⟨fun _ _ => h.2, fun _ => trivial⟩)
        · intro v s h3
          exact ih (.loop x) b us s r hs hn (fun u hu => ⟨(hk u hu).1, h3 u hu⟩) hr'
      · have h3 := (hx σ hk _ _ _ h1).1
        have h5 := (hf σ hk _ _ _ h1).2
        refine ⟨?_, trivial⟩
        rcases h2 with ⟨_, _, rfl⟩ | ⟨_, _, rfl⟩ | ⟨t2, h4, rfl⟩
        · exact h3
        · exact h3
        · intro ev he
          rcases List.mem_append.mp he with he | he
          · exact h3 ev he
          · exact (ih (.loop x) b us σ1 r hs hn (fun u hu => ⟨(hk u hu).1, h5 u hu⟩) hr' _ _ _ h4).1 ev he
    | unwrap id m x y =>
      simp only [E.std, Bool.and_eq_true] at hs
      simp only [E.ids, List.cons_append, List.nodup_cons, List.nodup_append, List.mem_append, not_or] at hn
      simp only [visit, List.mem_append] at hr
      have hm : ∀ u ∈ us, mutates u.loc x = false ∧ mutates u.loc y = false := fun u hu => by simpa [mutates] using (hk u hu).1
      have rest : (r ∈ visit true us x ∨ r ∈ visit true us y) → Sat (eval (n + 1) (.unwrap id m x y)) σ (Right r) (fun _ _ => True) := by
        intro hr
        have hne : r.id ≠ id := by
          intro heq
          rcases hr with h | h
          · exact hn.1.1 (heq ▸ visit_ids _ _ _ _ h)
          · exact hn.1.2 (heq ▸ visit_ids _ _ _ _ h)
        refine two_right (fun σ k h => ih x true us σ r hs.1 hn.2.1 k h) (fun σ k h => ih y true us σ r hs.2 hn.2.2.1 k h) hs.1
          (fun i h1 h2 => hn.2.2.2 i h1 i h2 rfl) (fun u hu => ⟨(hm u hu).1, (hk u hu).2⟩) (fun u hu => (hm u hu).2) hr (fun v s h => ?_)
        refine Sat.bindT h (fun _ s' => ?_)
        cases v with
        | variant g n =>
          rintro o σ' t ⟨rfl, rfl, _⟩
          refine ⟨?_, trivial⟩
          intro ev he hi
          rw [List.mem_singleton] at he
          subst he
          exact absurd hi.symm hne
        | _ => exact sat_false
      rcases hr with (hr | hr) | hr
      · split at hr
        · exact report_right (fun u hu => (hk u hu).2) hs.1 hr hn.1.1 hn.1.2
        · simp at hr
      · exact rest (.inl hr)
      · exact rest (.inr hr)
    | ite c t e =>
      simp only [E.std, Bool.and_eq_true] at hs
      simp only [E.ids, List.nodup_append, List.mem_append] at hn
      obtain ⟨⟨nc, nt, nct⟩, ne, nx⟩ := hn
      have hm : ∀ u ∈ us, (mutates u.loc c = false ∧ mutates u.loc t = false) ∧ mutates u.loc e = false := fun u hu => by
        simpa [mutates, Bool.or_eq_false_iff] using (hk u hu).1
      have kc : Known us σ c := fun u hu => ⟨(hm u hu).1.1, (hk u hu).2⟩
      -- a report about the condition
      have inC : ∀ b', r ∈ visit b' us c → Sat (eval (n + 1) (.ite c t e)) σ (Right r) (fun _ _ => True) := by
        intro b' hr
        have hid := visit_ids c _ _ _ hr
        refine Sat.bindT (ih c b' us σ r hs.1.1 nc kc hr) (fun v s => ?_)
        cases v with
        | bool x =>
          cases x <;> simp only [if_true, Bool.false_eq_true, if_false]
          · exact eval_ids n e s _ (fun ev he hi => absurd rfl (nx _ (.inl hid) _ (hi ▸ he)))
          · exact eval_ids n t s _ (fun ev he hi => absurd rfl (nct _ hid _ (hi ▸ he)))
        | _ => exact sat_false
      -- a report about a branch
      have inB : ∀ (els b' : Bool) (us' : List Info), (∀ u ∈ us', mutates u.loc (if els then e else t) = false) →
          (∀ o s tr, eval n c σ o s tr → o = .val (.bool (!els)) → ∀ u ∈ us', Holds s u.loc.place.1 u.loc.place.2 u.safe) →
          r ∈ visit b' us' (if els then e else t) → Sat (eval (n + 1) (.ite c t e)) σ (Right r) (fun _ _ => True) := by
        intro els b' us' hm' hh hr
        have hid := visit_ids _ _ _ _ hr
        have hc : Sat (eval n c) σ (Right r) (fun o s => o = .val (.bool (!els)) → ∀ u ∈ us', Holds s u.loc.place.1 u.loc.place.2 u.safe) := by
          intro o s tr hm
          refine ⟨?_, hh o s tr hm⟩
          refine (eval_ids n c σ (Right r) (fun ev he hi => ?_) _ _ _ hm).1
          cases els <;> simp only [if_true, Bool.false_eq_true, if_false] at hid
          · exact absurd rfl (nct _ (hi ▸ he) _ hid)
          · exact absurd rfl (nx _ (.inl (hi ▸ he)) _ hid)
        refine Sat.bind (R := fun v s => v = .bool (!els) → ∀ u ∈ us', Holds s u.loc.place.1 u.loc.place.2 u.safe)
          (hc.mono (fun _ h => h) (fun o s h => ⟨fun v hv hv' => h (by rw [hv, hv']), fun _ => trivial⟩)) ?_
        intro v s hk'
        cases v with
        | bool x =>
          cases x <;> cases els <;> simp only [if_true, Bool.false_eq_true, if_false] at hid hr hm' ⊢
          · exact eval_ids n e s _ (fun ev he hi => absurd rfl (nx _ (.inr hid) _ (hi ▸ he)))
          · exact ih e b' us' s r hs.2 ne (fun u hu => ⟨hm' u hu, hk' rfl u hu⟩) hr
          · exact ih t b' us' s r hs.1.2 nt (fun u hu => ⟨hm' u hu, hk' rfl u hu⟩) hr
          · exact eval_ids n t s _ (fun ev he hi => absurd rfl (nx _ (.inr (hi ▸ he)) _ hid))
        | _ => exact sat_false
      have old : ∀ els o s tr, eval n c σ o s tr → o = .val (.bool (!els)) → ∀ u ∈ us, Holds s u.loc.place.1 u.loc.place.2 u.safe :=
        fun els o s tr h _ => (frameAll n σ hs.1.1 kc _ _ _ h).2
      have new : ∀ (x : E) (els : Bool), (∀ u ∈ us, mutates u.loc x = false) → (∀ u ∈ us ++ branchInfos c x els, mutates u.loc x = false) ∧
          ∀ o s tr, eval n c σ o s tr → o = .val (.bool (!els)) → ∀ u ∈ us ++ branchInfos c x els, Holds s u.loc.place.1 u.loc.place.2 u.safe := by
        intro x els hx
        constructor
        · intro u hu
          rcases List.mem_append.mp hu with h | h
          · exact hx u h
          · simp only [branchInfos, List.mem_filter, Bool.not_eq_true', Bool.or_eq_false_iff] at h; exact h.2.2
        · intro o s tr h ho u hu
          rcases List.mem_append.mp hu with h1 | h1
          · exact old els o s tr h ho u h1
          · simp only [branchInfos, List.mem_filter, Bool.not_eq_true', Bool.or_eq_false_iff] at h1
            exact (collect_holds els n c els true u σ h1.1 h1.2.1 hs.1.1 _ _ _ h).2 ho
      cases b with
      | false =>
        simp only [visit, List.mem_append] at hr
        rcases hr with (hr | hr) | hr
        · exact inC _ hr
        · exact inB false true us (fun u hu => (hm u hu).1.2) (old false) hr
        · exact inB true true us (fun u hu => (hm u hu).2) (old true) hr
      | true =>
        simp only [visit, List.mem_append] at hr
        rcases hr with (hr | hr) | hr
        · exact inC _ hr
        · have h2 := new t false (fun u hu => (hm u hu).1.2)
          exact inB false false _ h2.1 h2.2 hr
        · have h2 := new e true (fun u hu => (hm u hu).2)
          exact inB true false _ h2.1 h2.2 hr

/-- The verdicts are right: in every execution of the function, a call reported as unnecessary never panics, and a call reported as panicking
always panics.

Partial: calls of `as_mut` which look like those of `Option` or `Result` are those, and `&` and `|` aren't overloaded
(`Witness.wrong_as_mut`, `Witness.wrong_overloaded` otherwise). -/
theorem verdict_partial (body : E) (hs : body.std = true) (hn : body.ids.Nodup) (r : Report) (hr : r ∈ checkFn body) (n : Nat) (σ σ' : Store)
    (o : Out) (t : List Ev) (h : eval n body σ o σ' t) (ev : Ev) (he : ev ∈ t) (hi : ev.id = r.id) : ev.ok = r.unnecessary :=
  (visit_right n body true [] σ r hs hn (by simp [Known]) hr o σ' t h).1 ev he hi

/-! ### The suggested condition -/

theorem collect_entire (els : Bool) : ∀ (c : E) (inv entire : Bool) (u : Info), u ∈ collect els inv entire c →
    u.els = els ∧ (u.entire = true → entire = true ∧ u.safe = (u.pos != inv)) := by
  intro c
  induction c with
  | bin op a b i1 i2 =>
    intro inv entire u h
    simp only [collect] at h
    split at h
    · rcases List.mem_append.mp h with h | h
      · exact ⟨(i1 _ _ _ h).1, fun h' => absurd ((i1 _ _ _ h).2 h').1 (by simp)⟩
      · exact ⟨(i2 _ _ _ h).1, fun h' => absurd ((i2 _ _ _ h).2 h').1 (by simp)⟩
    · simp at h
  | not e ih =>
    intro inv entire u h
    simp only [collect] at h
    exact ⟨(ih _ _ _ h).1, fun h' => absurd ((ih _ _ _ h).2 h').1 (by simp)⟩
  | check k pos recv _ =>
    intro inv entire u h
    simp only [collect] at h
    split at h
    · rw [List.mem_singleton] at h; subst h; exact ⟨rfl, fun h' => ⟨h', rfl⟩⟩
    · simp at h
  | _ => intro inv entire u h; simp [collect] at h

/-- How a report and the check it refers to belong together. -/
def Info.Fits (u : Info) : Prop := u.entire = true → u.safe = (u.pos != u.els)

theorem visit_fits : ∀ (e : E) (b : Bool) (us : List Info), (∀ u ∈ us, u.Fits) → ∀ r ∈ visit b us e,
    r.check.Fits ∧ ∀ p, r.pat = some p → r.check.entire = true ∧ p = ⟨r.check.kind, r.check.safe⟩ := by
  intro e
  induction e with
  | blank => intro b us hu r h; simp [visit] at h
  | var _ => intro b us hu r h; simp [visit] at h
  | jump => intro b us hu r h; simp [visit] at h
  | closure _ => intro b us hu r h; simp [visit] at h
  | field e i ih => intro b us hu r h; simp only [visit] at h; exact ih _ _ hu _ h
  | check _ _ e ih => intro b us hu r h; simp only [visit] at h; exact ih _ _ hu _ h
  | asRef e ih => intro b us hu r h; simp only [visit] at h; exact ih _ _ hu _ h
  | asMut _ e ih => intro b us hu r h; simp only [visit] at h; exact ih _ _ hu _ h
  | not e ih => intro b us hu r h; simp only [visit] at h; exact ih _ _ hu _ h
  | loop e ih => intro b us hu r h; simp only [visit] at h; exact ih _ _ hu _ h
  | borrowMut e ih => intro b us hu r h; simp only [visit] at h; exact ih _ _ hu _ h
  | bin _ a b i1 i2 =>
    intro b us hu r h; simp only [visit, List.mem_append] at h
    rcases h with h | h
    · exact i1 _ _ hu _ h
    · exact i2 _ _ hu _ h
  | seq a b i1 i2 =>
    intro b us hu r h; simp only [visit, List.mem_append] at h
    rcases h with h | h
    · exact i1 _ _ hu _ h
    · exact i2 _ _ hu _ h
  | alt a b i1 i2 =>
    intro b us hu r h; simp only [visit, List.mem_append] at h
    rcases h with h | h
    · exact i1 _ _ hu _ h
    · exact i2 _ _ hu _ h
  | assign a b i1 i2 =>
    intro b us hu r h; simp only [visit, List.mem_append] at h
    rcases h with h | h
    · exact i1 _ _ hu _ h
    · exact i2 _ _ hu _ h
  | unwrap id m a b i1 i2 =>
    intro b us hu r h; simp only [visit, List.mem_append] at h
    rcases h with (h | h) | h
    · split at h
      · unfold report at h
        split at h
        · simp at h
        · split at h
          · simp at h
          · next u hf =>
            have hu' := hu u (List.mem_of_find?_eq_some hf)
            split at h <;> (rw [List.mem_singleton] at h; subst h)
            · next hm =>
              refine ⟨hu', fun p hp => ?_⟩
              simp only at hp
              split at hp
              · next he => exact ⟨he, by rw [← Option.some.inj hp, hm]⟩
              · cases hp
            · exact ⟨hu', by simp⟩
      · simp at h
    · exact i1 _ _ hu _ h
    · exact i2 _ _ hu _ h
  | ite c t e i1 i2 i3 =>
    intro b us hu r h
    have hb : ∀ x els, ∀ u ∈ us ++ branchInfos c x els, u.Fits := by
      intro x els u h
      rcases List.mem_append.mp h with h | h
      · exact hu u h
      · simp only [branchInfos, List.mem_filter] at h
        have := collect_entire els c els true u h.1
        intro he
        rw [this.1]
        exact (this.2 he).2
    cases b <;> simp only [visit, List.mem_append] at h <;> rcases h with (h | h) | h
    · exact i1 _ _ hu _ h
    · exact i2 _ _ hu _ h
    · exact i3 _ _ hu _ h
    · exact i1 _ _ hu _ h
    · exact i2 _ _ (hb _ _) _ h
    · exact i3 _ _ (hb _ _) _ h

/-- The suggested `if let` takes the same branch as the check if the call is in the first branch. -/
theorem suggestion_partial (body : E) (r : Report) (hr : r ∈ checkFn body) (p : Pat) (hp : r.pat = some p) (h : r.check.els = false)
    (g : Bool) (n : Nat) : p.matches (.variant g n) = r.check.checkOn (.variant g n) := by
  obtain ⟨h1, h2⟩ := visit_fits body true [] (by simp) r hr
  obtain ⟨he, rfl⟩ := h2 p hp
  have := h1 he
  rw [h] at this
  simp [Pat.matches, Info.checkOn, this]

/-- **C66, violated:** if the call is in the `else` branch, the suggested `if let` always takes the other branch than the check. -/
theorem suggestion_else (body : E) (r : Report) (hr : r ∈ checkFn body) (p : Pat) (hp : r.pat = some p) (h : r.check.els = true)
    (g : Bool) (n : Nat) : p.matches (.variant g n) = !r.check.checkOn (.variant g n) := by
  obtain ⟨h1, h2⟩ := visit_fits body true [] (by simp) r hr
  obtain ⟨he, rfl⟩ := h2 p hp
  have := h1 he
  rw [h] at this
  cases hq : r.check.pos <;> cases g <;> simp [Pat.matches, Info.checkOn, this, hq]

end Verif.Unwrap
