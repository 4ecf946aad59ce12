import Verif.Endless.Spec

/-!
# Adapters of iterators that never end, and of iterators that end
-/

namespace Verif.Endless

section
variable {σ τ κ : Type}

/-- Has the iterator ended after so many steps? -/
def ended (f : σ → Step σ) : Nat → σ → Bool
  | 0, _ => false
  | n + 1, s => match f s with
    | .fin => true
    | .panic => false
    | .busy s => ended f n s
    | .item _ s => ended f n s

/-- It never ends. -/
def Live (f : σ → Step σ) (s : σ) : Prop := ∀ n, ended f n s = false

theorem Live.not_fin {f : σ → Step σ} {s : σ} (h : Live f s) : f s ≠ .fin := by
  intro e; have := h 1; simp [ended, e] at this

theorem Live.busy {f : σ → Step σ} {s t : σ} (h : Live f s) (e : f s = .busy t) : Live f t := by
  intro n; have := h (n + 1); simpa [ended, e] using this

theorem Live.item {f : σ → Step σ} {s t : σ} {v : V} (h : Live f s) (e : f s = .item v t) :
    Live f t := by
  intro n; have := h (n + 1); simpa [ended, e] using this

/-- Invariants: it is enough that no state with `P` is at the end. -/
theorem live_of (f : σ → Step σ) (P : σ → Prop)
    (hf : ∀ s, P s → f s ≠ .fin)
    (hb : ∀ s t, P s → f s = .busy t → P t)
    (hi : ∀ s v t, P s → f s = .item v t → P t) : ∀ s, P s → Live f s := by
  intro s hs n
  induction n generalizing s with
  | zero => rfl
  | succ n ih =>
    simp only [ended]
    cases e : f s with
    | fin => exact absurd e (hf s hs)
    | panic => rfl
    | busy t => exact ih t (hb s t hs e)
    | item v t => exact ih t (hi s v t hs e)

/-- A step that goes along with one of another iterator: it ends only with it. -/
theorem live_along (f : σ → Step σ) (g : τ → Step τ) (π : τ → σ)
    (h : ∀ p, match g p with
      | .fin => f (π p) = .fin
      | .panic => True
      | .busy q => f (π p) = .busy (π q) ∨ ∃ v, f (π p) = .item v (π q)
      | .item _ q => f (π p) = .busy (π q) ∨ ∃ v, f (π p) = .item v (π q)) :
    ∀ p, Live f (π p) → Live g p := by
  apply live_of g fun p => Live f (π p)
  · intro p hp e; have := h p; rw [e] at this; exact hp.not_fin this
  · intro p q hp e; have := h p; rw [e] at this
    rcases this with h | ⟨v, h⟩
    · exact hp.busy h
    · exact hp.item h
  · intro p v q hp e; have := h p; rw [e] at this
    rcases this with h | ⟨v, h⟩
    · exact hp.busy h
    · exact hp.item h

theorem map_live (c : κ → V → Option (V × κ)) (f : σ → Step σ) (p : σ × κ) (h : Live f p.1) :
    Live (mapStep c f) p := by
  refine live_along f _ Prod.fst (fun p => ?_) p h
  unfold mapStep
  cases e : f p.1 with
  | item v s => dsimp only; cases c p.2 v <;> simp
  | _ => simp

theorem filter_live (c : κ → V → Option (Bool × κ)) (f : σ → Step σ) (p : σ × κ) (h : Live f p.1) :
    Live (filterStep c f) p := by
  refine live_along f _ Prod.fst (fun p => ?_) p h
  unfold filterStep
  cases e : f p.1 with
  | item v s => dsimp only; rcases c p.2 v with _ | ⟨_ | _, _⟩ <;> simp
  | _ => simp

theorem filterMap_live (c : κ → V → Option (Option V × κ)) (f : σ → Step σ) (p : σ × κ)
    (h : Live f p.1) : Live (filterMapStep c f) p := by
  refine live_along f _ Prod.fst (fun p => ?_) p h
  unfold filterMapStep
  cases e : f p.1 with
  | item v s => dsimp only; rcases c p.2 v with _ | ⟨_ | _, _⟩ <;> simp
  | _ => simp

theorem skipWhile_live (c : κ → V → Option (Bool × κ)) (f : σ → Step σ) (p : σ × κ × Bool)
    (h : Live f p.1) : Live (skipWhileStep c f) p := by
  refine live_along f _ Prod.fst (fun p => ?_) p h
  unfold skipWhileStep
  cases e : f p.1 with
  | item v s =>
    dsimp only
    by_cases hs : p.2.2 = true
    · rw [if_pos hs]; rcases c p.2.1 v with _ | ⟨_ | _, _⟩ <;> simp
    · rw [if_neg hs]; simp
  | _ => simp

theorem enumerate_live (lim : Nat) (f : σ → Step σ) (p : σ × Nat) (h : Live f p.1) :
    Live (enumerateStep lim f) p := by
  refine live_along f _ Prod.fst (fun p => ?_) p h
  unfold enumerateStep
  cases e : f p.1 with
  | item v s => dsimp only; by_cases hl : p.2 < lim <;> simp [hl]
  | _ => simp

theorem skip_live (f : σ → Step σ) (p : σ × Nat) (h : Live f p.1) : Live (skipStep f) p := by
  refine live_along f _ Prod.fst (fun p => ?_) p h
  obtain ⟨s, n⟩ := p
  unfold skipStep
  cases e : f s with
  | item v s => cases n <;> simp
  | _ => simp

theorem zip_live (f : σ → Step σ) (g : τ → Step τ) (p : σ × τ × Option V) (h : Live f p.1)
    (h' : Live g p.2.1) : Live (zipStep f g) p := by
  refine live_of (zipStep f g) (fun p => Live f p.1 ∧ Live g p.2.1) ?_ ?_ ?_ p ⟨h, h'⟩ <;> clear h h' p
  · rintro ⟨s, t, w⟩ ⟨hs, ht⟩ e
    cases w with
    | none =>
      cases ef : f s with
      | fin => exact hs.not_fin ef
      | _ => simp [zipStep, ef] at e
    | some w =>
      cases eg : g t with
      | fin => exact ht.not_fin eg
      | _ => simp [zipStep, eg] at e
  · rintro ⟨s, t, w⟩ q ⟨hs, ht⟩ e
    cases w with
    | none =>
      cases ef : f s with
      | busy s' => simp [zipStep, ef] at e; subst e; exact ⟨hs.busy ef, ht⟩
      | item v s' => simp [zipStep, ef] at e; subst e; exact ⟨hs.item ef, ht⟩
      | _ => simp [zipStep, ef] at e
    | some w =>
      cases eg : g t with
      | busy t' => simp [zipStep, eg] at e; subst e; exact ⟨hs, ht.busy eg⟩
      | _ => simp [zipStep, eg] at e
  · rintro ⟨s, t, w⟩ v q ⟨hs, ht⟩ e
    cases w with
    | none => cases ef : f s <;> simp [zipStep, ef] at e
    | some w =>
      cases eg : g t with
      | item v' t' => simp [zipStep, eg] at e; obtain ⟨_, e⟩ := e; subst e; exact ⟨hs, ht.item eg⟩
      | _ => simp [zipStep, eg] at e

theorem chain_live_left (f : σ → Step σ) (g : τ → Step τ) (s : σ) (t : Option τ) (h : Live f s) :
    Live (chainStep f g) (some s, t) := by
  refine live_of (chainStep f g) (fun p => ∃ s, p.1 = some s ∧ Live f s) ?_ ?_ ?_ _ ⟨s, rfl, h⟩ <;>
    clear h s t
  · rintro ⟨_, t⟩ ⟨s, rfl, hs⟩ e
    cases ef : f s with
    | fin => exact hs.not_fin ef
    | _ => simp [chainStep, ef, Step.map] at e
  · rintro ⟨_, t⟩ q ⟨s, rfl, hs⟩ e
    cases ef : f s with
    | fin => exact absurd ef hs.not_fin
    | busy s' => simp [chainStep, ef, Step.map] at e; subst e; exact ⟨s', rfl, hs.busy ef⟩
    | _ => simp [chainStep, ef, Step.map] at e
  · rintro ⟨_, t⟩ v q ⟨s, rfl, hs⟩ e
    cases ef : f s with
    | item v' s' =>
      simp [chainStep, ef, Step.map] at e; obtain ⟨_, e⟩ := e; subst e; exact ⟨s', rfl, hs.item ef⟩
    | _ => simp [chainStep, ef, Step.map] at e

theorem chain_live_right (f : σ → Step σ) (g : τ → Step τ) (s : Option σ) (t : τ) (h : Live g t) :
    Live (chainStep f g) (s, some t) := by
  refine live_of (chainStep f g) (fun p => ∃ t, p.2 = some t ∧ Live g t) ?_ ?_ ?_ _ ⟨t, rfl, h⟩ <;>
    clear h s t
  · rintro ⟨s, _⟩ ⟨t, rfl, ht⟩ e
    cases s with
    | some s => cases ef : f s <;> simp [chainStep, ef, Step.map] at e
    | none =>
      cases eg : g t with
      | fin => exact ht.not_fin eg
      | _ => simp [chainStep, eg, Step.map] at e
  · rintro ⟨s, _⟩ q ⟨t, rfl, ht⟩ e
    cases s with
    | some s =>
      cases ef : f s <;> simp [chainStep, ef, Step.map] at e <;> (subst e; exact ⟨t, rfl, ht⟩)
    | none =>
      cases eg : g t with
      | busy t' => simp [chainStep, eg, Step.map] at e; subst e; exact ⟨t', rfl, ht.busy eg⟩
      | _ => simp [chainStep, eg, Step.map] at e
  · rintro ⟨s, _⟩ v q ⟨t, rfl, ht⟩ e
    cases s with
    | some s =>
      cases ef : f s <;> simp [chainStep, ef, Step.map] at e
      obtain ⟨_, e⟩ := e; subst e; exact ⟨t, rfl, ht⟩
    | none =>
      cases eg : g t with
      | item v' t' =>
        simp [chainStep, eg, Step.map] at e; obtain ⟨_, e⟩ := e; subst e; exact ⟨t', rfl, ht.item eg⟩
      | _ => simp [chainStep, eg, Step.map] at e

/-- Backward, the chain is the chain of the other two. -/
theorem chainBack_eq (f : σ → Step σ) (g : τ → Step τ) (p : Option σ × Option τ) :
    chainBack f g p = (chainStep g f p.swap).map Prod.swap := by
  obtain ⟨s, t⟩ := p
  cases t with
  | some t => cases eg : g t <;> simp [chainBack, chainStep, eg, Step.map]
  | none =>
    cases s with
    | some s => cases ef : f s <;> simp [chainBack, chainStep, ef, Step.map]
    | none => simp [chainBack, chainStep, Step.map]

theorem live_swap {α β : Type} (f : α × β → Step (α × β)) (g : β × α → Step (β × α))
    (h : ∀ p, g p = (f p.swap).map Prod.swap) (p : β × α) (hp : Live f p.swap) : Live g p := by
  refine live_along f g Prod.swap (fun p => ?_) p hp
  rw [h]
  cases e : f p.swap <;> simp [Step.map]

theorem chainBack_live_left (f : σ → Step σ) (g : τ → Step τ) (s : σ) (t : Option τ) (h : Live f s) :
    Live (chainBack f g) (some s, t) :=
  live_swap _ _ (chainBack_eq f g) _ (chain_live_right g f t s h)

theorem chainBack_live_right (f : σ → Step σ) (g : τ → Step τ) (s : Option σ) (t : τ) (h : Live g t) :
    Live (chainBack f g) (s, some t) :=
  live_swap _ _ (chainBack_eq f g) _ (chain_live_left g f t s h)

theorem cycle_live (s0 : σ) (f : σ → Step σ) (h : ¬ NoItem f s0) (s : σ) :
    Live (cycleStep s0 f) (s, false) := by
  refine live_of (cycleStep s0 f) (fun p => p.2 = true → ¬ NoItem f p.1) ?_ ?_ ?_ _
    (fun h => by cases h)
  · rintro ⟨s, b⟩ hs e
    cases ef : f s with
    | fin =>
      cases b with
      | false => simp [cycleStep, ef] at e
      | true => exact hs rfl (.fin ef)
    | _ => simp [cycleStep, ef] at e
  · rintro ⟨s, b⟩ q hs e
    cases ef : f s with
    | fin =>
      cases b with
      | false => simp [cycleStep, ef] at e; subst e; exact fun _ => h
      | true => simp [cycleStep, ef] at e
    | busy s' =>
      simp [cycleStep, ef] at e; subst e
      exact fun hb hn => hs hb (.busy ef hn)
    | _ => simp [cycleStep, ef] at e
  · rintro ⟨s, b⟩ v q hs e
    cases ef : f s with
    | fin => cases b <;> simp [cycleStep, ef] at e
    | item v' s' =>
      simp [cycleStep, ef] at e; obtain ⟨_, e⟩ := e; subst e
      exact fun h => by cases h
    | _ => simp [cycleStep, ef] at e

theorem flat_live (c : κ → V → Option (τ × κ)) (f : σ → Step σ) (g : τ → Step τ)
    (p : σ × κ × Option τ × Option τ) (h : Live f p.1) : Live (flatStep c f g) p := by
  refine live_of (flatStep c f g) (fun p => Live f p.1) ?_ ?_ ?_ p h <;> clear h p
  · rintro ⟨s, k, a, b⟩ hs e
    cases a with
    | some t => cases eg : g t <;> simp [flatStep, eg, Step.map] at e
    | none =>
      cases ef : f s with
      | fin => exact hs.not_fin ef
      | item v s' => cases ec : c k v <;> simp [flatStep, ef, ec] at e
      | _ => simp [flatStep, ef] at e
  · rintro ⟨s, k, a, b⟩ q hs e
    cases a with
    | some t => cases eg : g t <;> simp [flatStep, eg, Step.map] at e <;> (subst e; exact hs)
    | none =>
      cases ef : f s with
      | fin => exact absurd ef hs.not_fin
      | item v s' =>
        cases ec : c k v <;> simp [flatStep, ef, ec] at e
        subst e; exact hs.item ef
      | busy s' => simp [flatStep, ef] at e; subst e; exact hs.busy ef
      | panic => simp [flatStep, ef] at e
  · rintro ⟨s, k, a, b⟩ v q hs e
    cases a with
    | some t =>
      cases eg : g t <;> simp [flatStep, eg, Step.map] at e
      obtain ⟨_, e⟩ := e; subst e; exact hs
    | none =>
      cases ef : f s with
      | fin => exact absurd ef hs.not_fin
      | item v s' => cases ec : c k v <;> simp [flatStep, ef, ec] at e
      | _ => simp [flatStep, ef] at e

/-- The two inner iterators change their places. -/
def flip : σ × κ × Option τ × Option τ → σ × κ × Option τ × Option τ
  | (s, k, a, b) => (s, k, b, a)

theorem flatBack_eq (c : κ → V → Option (τ × κ)) (f : σ → Step σ) (g : τ → Step τ)
    (p : σ × κ × Option τ × Option τ) : flatBack c f g p = (flatStep c f g (flip p)).map flip := by
  obtain ⟨s, k, a, b⟩ := p
  cases b with
  | some t => cases eg : g t <;> simp [flatBack, flatStep, flip, eg, Step.map]
  | none =>
    cases ef : f s with
    | item v s' => cases ec : c k v <;> simp [flatBack, flatStep, flip, ef, ec, Step.map]
    | fin =>
      cases a with
      | none => simp [flatBack, flatStep, flip, ef, Step.map]
      | some t => cases eg : g t <;> simp [flatBack, flatStep, flip, ef, eg, Step.map]
    | _ => simp [flatBack, flatStep, flip, ef, Step.map]

theorem flatBack_live (c : κ → V → Option (τ × κ)) (f : σ → Step σ) (g : τ → Step τ)
    (p : σ × κ × Option τ × Option τ) (h : Live f p.1) : Live (flatBack c f g) p := by
  refine live_along (flatStep c f g) (flatBack c f g) flip (fun p => ?_) p (flat_live c f g _ h)
  rw [flatBack_eq]
  cases e : flatStep c f g (flip p) <;> simp [Step.map, flip]

/-! ## Iterators that end -/

/-- A step that goes along with one of another iterator. -/
theorem halts_along (f : σ → Step σ) (g : τ → Step τ) (π : τ → σ)
    (h : ∀ p, match f (π p) with
      | .fin => g p = .fin
      | .panic => g p = .panic
      | .busy s => ∃ q, π q = s ∧ g p = .busy q
      | .item _ s => (g p = .panic ∨ g p = .fin) ∨ ∃ q, π q = s ∧ (g p = .busy q ∨ ∃ v, g p = .item v q)) :
    ∀ p, Halts f (π p) → Halts g p := by
  intro p hp
  generalize e : π p = s at hp
  induction hp generalizing p with
  | fin hs => subst e; have := h p; rw [hs] at this; exact .fin this
  | panic hs => subst e; have := h p; rw [hs] at this; exact .panic this
  | busy hs _ ih =>
    subst e; have := h p; rw [hs] at this
    obtain ⟨q, hq, e⟩ := this
    exact .busy e (ih q hq)
  | item hs _ ih =>
    subst e; have := h p; rw [hs] at this
    rcases this with (e | e) | ⟨q, hq, e | ⟨v, e⟩⟩
    · exact .panic e
    · exact .fin e
    · exact .busy e (ih q hq)
    · exact .item e (ih q hq)

theorem map_halts (c : κ → V → Option (V × κ)) (f : σ → Step σ) (p : σ × κ) (h : Halts f p.1) :
    Halts (mapStep c f) p := by
  refine halts_along f _ Prod.fst (fun p => ?_) p h
  unfold mapStep
  cases e : f p.1 with
  | item v s => dsimp only; cases c p.2 v <;> simp
  | _ => simp

theorem filter_halts (c : κ → V → Option (Bool × κ)) (f : σ → Step σ) (p : σ × κ) (h : Halts f p.1) :
    Halts (filterStep c f) p := by
  refine halts_along f _ Prod.fst (fun p => ?_) p h
  unfold filterStep
  cases e : f p.1 with
  | item v s => dsimp only; rcases c p.2 v with _ | ⟨_ | _, _⟩ <;> simp
  | _ => simp

theorem filterMap_halts (c : κ → V → Option (Option V × κ)) (f : σ → Step σ) (p : σ × κ)
    (h : Halts f p.1) : Halts (filterMapStep c f) p := by
  refine halts_along f _ Prod.fst (fun p => ?_) p h
  unfold filterMapStep
  cases e : f p.1 with
  | item v s => dsimp only; rcases c p.2 v with _ | ⟨_ | _, _⟩ <;> simp
  | _ => simp

theorem takeWhile_halts (c : κ → V → Option (Bool × κ)) (f : σ → Step σ) (p : σ × κ) (h : Halts f p.1) :
    Halts (takeWhileStep c f) p := by
  refine halts_along f _ Prod.fst (fun p => ?_) p h
  unfold takeWhileStep
  cases e : f p.1 with
  | item v s => dsimp only; rcases c p.2 v with _ | ⟨_ | _, _⟩ <;> simp
  | _ => simp

theorem scan_halts (c : κ → V → Option (Option V × κ)) (f : σ → Step σ) (p : σ × κ)
    (h : Halts f p.1) : Halts (scanStep c f) p := by
  refine halts_along f _ Prod.fst (fun p => ?_) p h
  unfold scanStep
  cases e : f p.1 with
  | item v s => dsimp only; rcases c p.2 v with _ | ⟨_ | _, _⟩ <;> simp
  | _ => simp

theorem enumerate_halts (lim : Nat) (f : σ → Step σ) (p : σ × Nat) (h : Halts f p.1) :
    Halts (enumerateStep lim f) p := by
  refine halts_along f _ Prod.fst (fun p => ?_) p h
  unfold enumerateStep
  cases e : f p.1 with
  | item v s => dsimp only; by_cases hl : p.2 < lim <;> simp [hl]
  | _ => simp

theorem skip_halts (f : σ → Step σ) (p : σ × Nat) (h : Halts f p.1) : Halts (skipStep f) p := by
  refine halts_along f _ Prod.fst (fun p => ?_) p h
  obtain ⟨s, n⟩ := p
  unfold skipStep
  cases e : f s with
  | item v s => cases n <;> simp
  | _ => simp

theorem chain_halts (f : σ → Step σ) (g : τ → Step τ) (s : σ) (t : τ) (h : Halts f s) (h' : Halts g t) :
    Halts (chainStep f g) (some s, some t) := by
  have right : ∀ t, Halts g t → Halts (chainStep f g) (none, some t) := by
    intro t ht
    induction ht with
    | fin e => exact .fin (by simp [chainStep, e, Step.map])
    | panic e => exact .panic (by simp [chainStep, e, Step.map])
    | busy e _ ih => exact .busy (by simp only [chainStep, e, Step.map]) ih
    | item e _ ih => exact .item (by simp only [chainStep, e, Step.map] <;> rfl) ih
  induction h with
  | fin e => exact .busy (by simp only [chainStep, e] <;> rfl) (right t h')
  | panic e => exact .panic (by simp [chainStep, e, Step.map])
  | busy e _ ih => exact .busy (by simp only [chainStep, e, Step.map]) ih
  | item e _ ih => exact .item (by simp only [chainStep, e, Step.map] <;> rfl) ih

theorem chainBack_halts (f : σ → Step σ) (g : τ → Step τ) (s : σ) (t : τ) (h : Halts f s)
    (h' : Halts g t) : Halts (chainBack f g) (some s, some t) := by
  refine halts_along (chainStep g f) (chainBack f g) Prod.swap (fun p => ?_) _ (chain_halts g f t s h' h)
  cases e : chainStep g f p.swap with
  | fin => simp only [chainBack_eq, e]; rfl
  | panic => simp only [chainBack_eq, e]; rfl
  | busy q => exact ⟨q.swap, Prod.swap_swap q, by simp only [chainBack_eq, e]; rfl⟩
  | item v q => exact .inr ⟨q.swap, Prod.swap_swap q, .inr ⟨v, by simp only [chainBack_eq, e]; rfl⟩⟩

/-! ## Iterators whose `next` always returns -/

/-- `next` returns. -/
inductive Ready (f : σ → Step σ) : σ → Prop
  | fin {s} : f s = .fin → Ready f s
  | panic {s} : f s = .panic → Ready f s
  | item {s v t} : f s = .item v t → Ready f s
  | busy {s t} : f s = .busy t → Ready f t → Ready f s

inductive Reach (f : σ → Step σ) (s : σ) : σ → Prop
  | refl : Reach f s s
  | busy {t u} : Reach f s t → f t = .busy u → Reach f s u
  | item {t v u} : Reach f s t → f t = .item v u → Reach f s u

/-- Every call of `next` returns. -/
def Swift (f : σ → Step σ) (s : σ) : Prop := ∀ t, Reach f s t → Ready f t

theorem Swift.busy {f : σ → Step σ} {s t : σ} (h : Swift f s) (e : f s = .busy t) : Swift f t := by
  intro u hu
  refine h u ?_
  induction hu with
  | refl => exact .busy .refl e
  | busy _ e ih => exact .busy ih e
  | item _ e ih => exact .item ih e

theorem Swift.item {f : σ → Step σ} {s t : σ} {v : V} (h : Swift f s) (e : f s = .item v t) :
    Swift f t := by
  intro u hu
  refine h u ?_
  induction hu with
  | refl => exact .item .refl e
  | busy _ e ih => exact .busy ih e
  | item _ e ih => exact .item ih e

theorem Swift.ready {f : σ → Step σ} {s : σ} (h : Swift f s) : Ready f s := h s .refl

theorem swift_of (f : σ → Step σ) (P : σ → Prop) (hr : ∀ s, P s → Ready f s)
    (hb : ∀ s t, P s → f s = .busy t → P t)
    (hi : ∀ s v t, P s → f s = .item v t → P t) (s : σ) (hs : P s) : Swift f s := by
  intro t ht
  refine hr t ?_
  induction ht with
  | refl => exact hs
  | busy _ e ih => exact hb _ _ ih e
  | item _ e ih => exact hi _ _ _ ih e

theorem Halts.swift {f : σ → Step σ} {s : σ} (h : Halts f s) : Swift f s := by
  refine swift_of f (Halts f) ?_ ?_ ?_ s h
  · intro s hs
    induction hs with
    | fin e => exact .fin e
    | panic e => exact .panic e
    | busy e _ ih => exact .busy e ih
    | item e _ _ => exact .item e
  · intro s t hs e
    cases hs with
    | fin e' => rw [e] at e'; cases e'
    | panic e' => rw [e] at e'; cases e'
    | busy e' h => rw [e] at e'; cases e'; exact h
    | item e' h => rw [e] at e'; cases e'
  · intro s v t hs e
    cases hs with
    | fin e' => rw [e] at e'; cases e'
    | panic e' => rw [e] at e'; cases e'
    | busy e' h => rw [e] at e'; cases e'
    | item e' h => rw [e] at e'; cases e'; exact h

/-- A step that goes along with one of another iterator, item for item. -/
theorem swift_along (f : σ → Step σ) (g : τ → Step τ) (π : τ → σ)
    (h : ∀ p, match f (π p) with
      | .fin => g p = .fin
      | .panic => g p = .panic
      | .busy s => ∃ q, π q = s ∧ g p = .busy q
      | .item _ s => (g p = .panic ∨ g p = .fin) ∨ ∃ q, π q = s ∧ ∃ v, g p = .item v q) :
    ∀ p, Swift f (π p) → Swift g p := by
  intro p hp
  refine swift_of g (fun p => Swift f (π p)) ?_ ?_ ?_ p hp <;> clear hp p
  · intro p hp
    have hr := hp.ready
    generalize e : π p = s at hr
    induction hr generalizing p with
    | fin hs => subst e; have := h p; rw [hs] at this; exact .fin this
    | panic hs => subst e; have := h p; rw [hs] at this; exact .panic this
    | item hs =>
      subst e; have := h p; rw [hs] at this
      rcases this with (e | e) | ⟨q, hq, v, e⟩
      · exact .panic e
      · exact .fin e
      · exact .item e
    | busy hs _ ih =>
      subst e; have := h p; rw [hs] at this
      obtain ⟨q, hq, e⟩ := this
      exact .busy e (ih q (by rw [hq]; exact hp.busy hs) hq)
  · intro p q hp e
    have := h p
    cases ef : f (π p) <;> rw [ef] at this <;> dsimp only at this
    · rw [this] at e; cases e
    · rcases this with (h | h) | ⟨q', _, v, h⟩ <;> (rw [h] at e; cases e)
    · obtain ⟨q', hq, h⟩ := this
      rw [h] at e; cases e; rw [hq]; exact hp.busy ef
    · rw [this] at e; cases e
  · intro p v q hp e
    have := h p
    cases ef : f (π p) <;> rw [ef] at this <;> dsimp only at this
    · rw [this] at e; cases e
    · rcases this with (h | h) | ⟨q', hq, v, h⟩
      · rw [h] at e; cases e
      · rw [h] at e; cases e
      · rw [h] at e; cases e; rw [hq]; exact hp.item ef
    · obtain ⟨q', hq, h⟩ := this
      rw [h] at e; cases e
    · rw [this] at e; cases e

theorem map_swift (c : κ → V → Option (V × κ)) (f : σ → Step σ) (p : σ × κ) (h : Swift f p.1) :
    Swift (mapStep c f) p := by
  refine swift_along f _ Prod.fst (fun p => ?_) p h
  unfold mapStep
  cases e : f p.1 with
  | item v s => dsimp only; cases c p.2 v <;> simp
  | _ => simp

theorem takeWhile_swift (c : κ → V → Option (Bool × κ)) (f : σ → Step σ) (p : σ × κ) (h : Swift f p.1) :
    Swift (takeWhileStep c f) p := by
  refine swift_along f _ Prod.fst (fun p => ?_) p h
  unfold takeWhileStep
  cases e : f p.1 with
  | item v s => dsimp only; rcases c p.2 v with _ | ⟨_ | _, _⟩ <;> simp
  | _ => simp

theorem scan_swift (c : κ → V → Option (Option V × κ)) (f : σ → Step σ) (p : σ × κ)
    (h : Swift f p.1) : Swift (scanStep c f) p := by
  refine swift_along f _ Prod.fst (fun p => ?_) p h
  unfold scanStep
  cases e : f p.1 with
  | item v s => dsimp only; rcases c p.2 v with _ | ⟨_ | _, _⟩ <;> simp
  | _ => simp

theorem enumerate_swift (lim : Nat) (f : σ → Step σ) (p : σ × Nat) (h : Swift f p.1) :
    Swift (enumerateStep lim f) p := by
  refine swift_along f _ Prod.fst (fun p => ?_) p h
  unfold enumerateStep
  cases e : f p.1 with
  | item v s => dsimp only; by_cases hl : p.2 < lim <;> simp [hl]
  | _ => simp

theorem skip_swift (f : σ → Step σ) (p : σ × Nat) (h : Swift f p.1) : Swift (skipStep f) p := by
  refine swift_of (skipStep f) (fun p => Swift f p.1) ?_ ?_ ?_ p h <;> clear h p
  · rintro ⟨s, n⟩ hs
    induction n generalizing s with
    | zero =>
      have hr := hs.ready
      dsimp only at hr
      induction hr with
      | fin e => exact .fin (by simp [skipStep, e])
      | panic e => exact .panic (by simp [skipStep, e])
      | item e => exact .item (by simp only [skipStep, e] <;> rfl)
      | busy e _ ih => exact .busy (by simp only [skipStep, e] <;> rfl) (ih (hs.busy e))
    | succ n ihn =>
      have hr := hs.ready
      dsimp only at hr
      induction hr with
      | fin e => exact .fin (by simp [skipStep, e])
      | panic e => exact .panic (by simp [skipStep, e])
      | item e => exact .busy (by simp only [skipStep, e] <;> rfl) (ihn _ (hs.item e))
      | busy e _ ih => exact .busy (by simp only [skipStep, e] <;> rfl) (ih (hs.busy e))
  · rintro ⟨s, n⟩ q hs e
    cases ef : f s with
    | busy s' => simp [skipStep, ef] at e; subst e; exact hs.busy ef
    | item v s' => cases n <;> simp [skipStep, ef] at e; subst e; exact hs.item ef
    | _ => simp [skipStep, ef] at e
  · rintro ⟨s, n⟩ v q hs e
    cases ef : f s with
    | item v s' => cases n <;> simp [skipStep, ef] at e; obtain ⟨_, e⟩ := e; subst e; exact hs.item ef
    | _ => simp [skipStep, ef] at e

theorem zip_swift (f : σ → Step σ) (g : τ → Step τ) (p : σ × τ × Option V) (h : Swift f p.1)
    (h' : Swift g p.2.1) : Swift (zipStep f g) p := by
  have two : ∀ s t v, Swift g t → Ready (zipStep f g) (s, t, some v) := by
    intro s t v ht
    have hr := ht.ready
    induction hr with
    | fin e => exact .fin (by simp [zipStep, e])
    | panic e => exact .panic (by simp [zipStep, e])
    | item e => exact .item (by simp only [zipStep, e] <;> rfl)
    | busy e _ ih => exact .busy (by simp only [zipStep, e] <;> rfl) (ih (ht.busy e))
  refine swift_of (zipStep f g) (fun p => Swift f p.1 ∧ Swift g p.2.1) ?_ ?_ ?_ p ⟨h, h'⟩ <;> clear h h' p
  · rintro ⟨s, t, w⟩ ⟨hs, ht⟩
    cases w with
    | some v => exact two s t v ht
    | none =>
      have hr := hs.ready
      dsimp only at hr
      induction hr with
      | fin e => exact .fin (by simp [zipStep, e])
      | panic e => exact .panic (by simp [zipStep, e])
      | item e => exact .busy (by simp only [zipStep, e] <;> rfl) (two _ t _ ht)
      | busy e _ ih => exact .busy (by simp only [zipStep, e] <;> rfl) (ih (hs.busy e) ht)
  · rintro ⟨s, t, w⟩ q ⟨hs, ht⟩ e
    cases w with
    | none =>
      cases ef : f s with
      | busy s' => simp [zipStep, ef] at e; subst e; exact ⟨hs.busy ef, ht⟩
      | item v s' => simp [zipStep, ef] at e; subst e; exact ⟨hs.item ef, ht⟩
      | _ => simp [zipStep, ef] at e
    | some w =>
      cases eg : g t with
      | busy t' => simp [zipStep, eg] at e; subst e; exact ⟨hs, ht.busy eg⟩
      | _ => simp [zipStep, eg] at e
  · rintro ⟨s, t, w⟩ v q ⟨hs, ht⟩ e
    cases w with
    | none => cases ef : f s <;> simp [zipStep, ef] at e
    | some w =>
      cases eg : g t with
      | item v' t' => simp [zipStep, eg] at e; obtain ⟨_, e⟩ := e; subst e; exact ⟨hs, ht.item eg⟩
      | _ => simp [zipStep, eg] at e

theorem chain_swift (f : σ → Step σ) (g : τ → Step τ) (s : σ) (t : τ) (h : Swift f s) (h' : Swift g t) :
    Swift (chainStep f g) (some s, some t) := by
  have two : ∀ t, Swift g t → Ready (chainStep f g) (none, some t) := by
    intro t ht
    have hr := ht.ready
    induction hr with
    | fin e => exact .fin (by simp [chainStep, e, Step.map])
    | panic e => exact .panic (by simp [chainStep, e, Step.map])
    | item e => exact .item (by simp only [chainStep, e, Step.map] <;> rfl)
    | busy e _ ih => exact .busy (by simp only [chainStep, e, Step.map] <;> rfl) (ih (ht.busy e))
  refine swift_of (chainStep f g)
    (fun p => (∀ s, p.1 = some s → Swift f s) ∧ ∃ t, p.2 = some t ∧ Swift g t) ?_ ?_ ?_ _
    ⟨(fun _ e => by cases e; exact h), t, rfl, h'⟩ <;> clear h h' s t
  · rintro ⟨s, _⟩ ⟨hs, t, rfl, ht⟩
    cases s with
    | none => exact two t ht
    | some s =>
      have hs := hs s rfl
      have hr := hs.ready
      induction hr with
      | fin e => exact .busy (by simp only [chainStep, e] <;> rfl) (two t ht)
      | panic e => exact .panic (by simp [chainStep, e, Step.map])
      | item e => exact .item (by simp only [chainStep, e, Step.map] <;> rfl)
      | busy e _ ih =>
        refine .busy (by simp only [chainStep, e, Step.map] <;> rfl) (ih (fun _ e' => ?_) (hs.busy e))
        cases e'; exact hs.busy e
  · rintro ⟨s, _⟩ q ⟨hs, t, rfl, ht⟩ e
    cases s with
    | some s =>
      cases ef : f s with
      | fin => simp [chainStep, ef, Step.map] at e; subst e; exact ⟨(fun _ e => by cases e), t, rfl, ht⟩
      | busy s' =>
        simp [chainStep, ef, Step.map] at e; subst e
        exact ⟨(fun _ e => by cases e; exact (hs s rfl).busy ef), t, rfl, ht⟩
      | _ => simp [chainStep, ef, Step.map] at e
    | none =>
      cases eg : g t with
      | busy t' =>
        simp [chainStep, eg, Step.map] at e; subst e
        exact ⟨(fun _ e => by cases e), t', rfl, ht.busy eg⟩
      | _ => simp [chainStep, eg, Step.map] at e
  · rintro ⟨s, _⟩ v q ⟨hs, t, rfl, ht⟩ e
    cases s with
    | some s =>
      cases ef : f s with
      | item v' s' =>
        simp [chainStep, ef, Step.map] at e; obtain ⟨_, e⟩ := e; subst e
        exact ⟨(fun _ e => by cases e; exact (hs s rfl).item ef), t, rfl, ht⟩
      | _ => simp [chainStep, ef, Step.map] at e
    | none =>
      cases eg : g t with
      | item v' t' =>
        simp [chainStep, eg, Step.map] at e; obtain ⟨_, e⟩ := e; subst e
        exact ⟨(fun _ e => by cases e), t', rfl, ht.item eg⟩
      | _ => simp [chainStep, eg, Step.map] at e

theorem chainBack_swift (f : σ → Step σ) (g : τ → Step τ) (s : σ) (t : τ) (h : Swift f s)
    (h' : Swift g t) : Swift (chainBack f g) (some s, some t) := by
  refine swift_along (chainStep g f) (chainBack f g) Prod.swap (fun p => ?_) _ (chain_swift g f t s h' h)
  cases e : chainStep g f p.swap with
  | fin => simp only [chainBack_eq, e]; rfl
  | panic => simp only [chainBack_eq, e]; rfl
  | busy q => exact ⟨q.swap, Prod.swap_swap q, by simp only [chainBack_eq, e]; rfl⟩
  | item v q => exact .inr ⟨q.swap, Prod.swap_swap q, v, by simp only [chainBack_eq, e]; rfl⟩

theorem cycle_swift (s0 : σ) (f : σ → Step σ) (h : Swift f s0) :
    Swift (cycleStep s0 f) (s0, false) := by
  have again : ∀ s, Swift f s → Ready (cycleStep s0 f) (s, true) := by
    intro s hs
    have hr := hs.ready
    induction hr with
    | fin e => exact .fin (by simp [cycleStep, e])
    | panic e => exact .panic (by simp [cycleStep, e])
    | item e => exact .item (by simp only [cycleStep, e] <;> rfl)
    | busy e _ ih => exact .busy (by simp only [cycleStep, e] <;> rfl) (ih (hs.busy e))
  refine swift_of (cycleStep s0 f) (fun p => Swift f p.1) ?_ ?_ ?_ _ h
  · rintro ⟨s, b⟩ hs
    cases b with
    | true => exact again s hs
    | false =>
      have hr := hs.ready
      dsimp only at hr
      induction hr with
      | fin e => exact .busy (by simp only [cycleStep, e] <;> rfl) (again s0 h)
      | panic e => exact .panic (by simp [cycleStep, e])
      | item e => exact .item (by simp only [cycleStep, e] <;> rfl)
      | busy e _ ih => exact .busy (by simp only [cycleStep, e] <;> rfl) (ih (hs.busy e))
  · rintro ⟨s, b⟩ q hs e
    cases ef : f s with
    | fin => cases b <;> simp [cycleStep, ef] at e; subst e; exact h
    | busy s' => simp [cycleStep, ef] at e; subst e; exact hs.busy ef
    | _ => simp [cycleStep, ef] at e
  · rintro ⟨s, b⟩ v q hs e
    cases ef : f s with
    | fin => cases b <;> simp [cycleStep, ef] at e
    | item v s' => simp [cycleStep, ef] at e; obtain ⟨_, e⟩ := e; subst e; exact hs.item ef
    | _ => simp [cycleStep, ef] at e

theorem zip_halts_left (f : σ → Step σ) (g : τ → Step τ) (s : σ) (t : τ) (h : Halts f s)
    (h' : Swift g t) : Halts (zipStep f g) (s, t, none) := by
  have two : ∀ s v, (∀ t, Swift g t → Halts (zipStep f g) (s, t, none)) →
      ∀ t, Swift g t → Halts (zipStep f g) (s, t, some v) := by
    intro s v hs t ht
    have hr := ht.ready
    induction hr with
    | fin e => exact .fin (by simp [zipStep, e])
    | panic e => exact .panic (by simp [zipStep, e])
    | item e => exact .item (by simp only [zipStep, e] <;> rfl) (hs _ (ht.item e))
    | busy e _ ih => exact .busy (by simp only [zipStep, e] <;> rfl) (ih (ht.busy e))
  induction h generalizing t with
  | fin e => exact .fin (by simp [zipStep, e])
  | panic e => exact .panic (by simp [zipStep, e])
  | busy e _ ih => exact .busy (by simp only [zipStep, e] <;> rfl) (ih t h')
  | item e _ ih => exact .busy (by simp only [zipStep, e] <;> rfl) (two _ _ ih t h')

theorem zip_halts_right (f : σ → Step σ) (g : τ → Step τ) (s : σ) (t : τ) (h : Swift f s)
    (h' : Halts g t) : Halts (zipStep f g) (s, t, none) := by
  have one : ∀ t, (∀ s v, Swift f s → Halts (zipStep f g) (s, t, some v)) →
      ∀ s, Swift f s → Halts (zipStep f g) (s, t, none) := by
    intro t ht s hs
    have hr := hs.ready
    induction hr with
    | fin e => exact .fin (by simp [zipStep, e])
    | panic e => exact .panic (by simp [zipStep, e])
    | item e => exact .busy (by simp only [zipStep, e] <;> rfl) (ht _ _ (hs.item e))
    | busy e _ ih => exact .busy (by simp only [zipStep, e] <;> rfl) (ih (hs.busy e))
  refine one t ?_ s h
  clear h s
  induction h' with
  | fin e => intro s v _; exact .fin (by simp [zipStep, e])
  | panic e => intro s v _; exact .panic (by simp [zipStep, e])
  | busy e _ ih => intro s v hs; exact .busy (by simp only [zipStep, e] <;> rfl) (ih s v hs)
  | item e _ ih => intro s v hs; exact .item (by simp only [zipStep, e] <;> rfl) (one _ ih s hs)

end

end Verif.Endless
