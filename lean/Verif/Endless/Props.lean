import Verif.Endless.Model
import Verif.Endless.Steps

/-!
# C79: an iteration reported as infinite never ends
-/

namespace Verif.Endless

/-! ## The verdicts -/

theorem and_infinite {a b : Finiteness} (h : a.and b = .infinite) : a = .infinite ∧ b = .infinite := by
  cases a <;> cases b <;> first | exact ⟨rfl, rfl⟩ | cases h

theorem or_infinite {a b : Finiteness} (h : a.or b = .infinite) : a = .infinite ∨ b = .infinite := by
  cases a <;> cases b <;> first | exact .inl rfl | exact .inr rfl | cases h

theorem and_finite {a b : Finiteness} (h : a.and b = .finite) : a = .finite ∨ b = .finite := by
  cases a <;> cases b <;> first | exact .inl rfl | exact .inr rfl | cases h

theorem or_finite {a b : Finiteness} (h : a.or b = .finite) : a = .finite ∧ b = .finite := by
  cases a <;> cases b <;> first | exact ⟨rfl, rfl⟩ | cases h

/-- Methods without a rule get the verdict `Finite`, but for dead code. -/
theorem opaque_finite {e : Ex} (ho : opaque_ e = true)
    (hp : ∀ m std d t r a, e = .call m std d t r a → adapter m = true → std = true) :
    isInfinite e = .finite := by
  cases e with
  | call m std d t r args =>
    have hm : adapter m = false := by
      cases ha : adapter m with
      | false => rfl
      | true =>
        have := hp m std d t r args rfl ha
        simp [opaque_, this, ha] at ho
    cases m <;> first | rfl | cases hm
  | fn => rfl
  | leaf => rfl
  | closure => rfl
  | cmp => rfl
  | _ => cases ho

/-- It ends neither forward nor backward. -/
def It.Live (I : It) : Prop := Endless.Live I.next I.s0 ∧ ∀ f, I.back = some f → Endless.Live f I.s0

theorem option_map_eq {α β : Type} {f : α → β} {o : Option α} {b : β} (h : o.map f = some b) :
    ∃ a, o = some a ∧ b = f a := by
  cases o with
  | none => cases h
  | some a => cases h; exact ⟨a, rfl, rfl⟩

/-- Whatever gets the verdict `Infinite` evaluates to iterators that never end. -/
theorem infinite_live {O : Ex → It → Prop} {e : Ex} {I : It} (h : Den O e I) (hp : Plain O e)
    (hi : isInfinite e = .infinite) : I.Live := by
  induction h with
  | any ho _ =>
    rw [opaque_finite ho] at hi
    · cases hi
    · intro m std d t r a e ha
      subst e
      exact hp.1 ha
  | block _ ih => exact ih hp hi
  | addr _ ih => exact ih hp hi
  | rep v =>
    have : ∀ s, Endless.Live (fun _ : Unit => Step.item v ()) s :=
      fun s => live_of _ (fun _ => True) (fun _ _ e => by cases e) (fun _ _ _ _ => trivial)
        (fun _ _ _ _ _ => trivial) s trivial
    exact ⟨this (), fun f e => by cases e; exact this ()⟩
  | rangeFrom v succ =>
    refine ⟨live_of _ (fun _ => True) (fun s _ e => ?_) (fun _ _ _ _ => trivial)
        (fun _ _ _ _ _ => trivial) v trivial, fun f e => by cases e⟩
    simp only [It.rangeFrom] at e
    split at e <;> cases e
  | zip _ _ ih ih' =>
    obtain ⟨_, _, hr, ha, _⟩ := hp
    obtain ⟨hi, _⟩ := and_infinite (show (Finiteness.and _ _).and .infinite = _ from hi)
    obtain ⟨h1, h2⟩ := and_infinite hi
    exact ⟨zip_live _ _ _ (ih hr h1).1 (ih' ha h2).1, fun f e => by cases e⟩
  | @chain _ _ _ _ I J _ _ ih ih' =>
    obtain ⟨_, _, hr, ha, _⟩ := hp
    obtain ⟨hi, _⟩ := and_infinite (show (Finiteness.or _ _).and .infinite = _ from hi)
    have back : ∀ f, (I.chain J).back = some f →
        ∃ g h, I.back = some g ∧ J.back = some h ∧ f = chainBack g h := by
      intro f e
      simp only [It.chain] at e
      split at e
      · cases e; exact ⟨_, _, by assumption, by assumption, rfl⟩
      · cases e
    rcases or_infinite hi with h1 | h2
    · refine ⟨chain_live_left _ _ _ _ (ih hr h1).1, fun f e => ?_⟩
      obtain ⟨g, h, eg, eh, rfl⟩ := back f e
      exact chainBack_live_left _ _ _ _ ((ih hr h1).2 g eg)
    · refine ⟨chain_live_right _ _ _ _ (ih' ha h2).1, fun f e => ?_⟩
      obtain ⟨g, h, eg, eh, rfl⟩ := back f e
      exact chainBack_live_right _ _ _ _ ((ih' ha h2).2 h eh)
  | cycle hd _ =>
    exact ⟨cycle_live _ _ (hp.2.1 rfl _ hd) _, fun f e => by cases e⟩
  | map c _ ih =>
    have := ih hp.2.2.1 (and_infinite (show Finiteness.and _ .infinite = _ from hi)).1
    refine ⟨map_live _ _ _ this.1, fun f e => ?_⟩
    obtain ⟨g, eg, rfl⟩ := option_map_eq e
    exact map_live _ _ _ (this.2 g eg)
  | byRef _ ih => exact ih hp.2.2.1 (and_infinite (show Finiteness.and _ .infinite = _ from hi)).1
  | cloned c _ ih =>
    have := ih hp.2.2.1 (and_infinite (show Finiteness.and _ .infinite = _ from hi)).1
    refine ⟨map_live _ _ _ this.1, fun f e => ?_⟩
    obtain ⟨g, eg, rfl⟩ := option_map_eq e
    exact map_live _ _ _ (this.2 g eg)
  | rev _ eb ih =>
    have := ih hp.2.2.1 (and_infinite (show Finiteness.and _ .infinite = _ from hi)).1
    exact ⟨this.2 _ eb, fun f e => by cases e; exact this.1⟩
  | inspect c _ ih => cases hi
  | enumerate lim _ ih =>
    have := ih hp.2.2.1 (and_infinite (show Finiteness.and _ .infinite = _ from hi)).1
    exact ⟨enumerate_live _ _ _ this.1, fun f e => by cases e⟩
  | peekable _ ih => cases hi
  | fuse _ ih => exact ih hp.2.2.1 (and_infinite (show Finiteness.and _ .infinite = _ from hi)).1
  | skip n _ ih =>
    have := ih hp.2.2.1 (and_infinite (show Finiteness.and _ .infinite = _ from hi)).1
    exact ⟨skip_live _ _ this.1, fun f e => by cases e⟩
  | skipWhile c _ ih => cases hi
  | filter c _ ih =>
    have := ih hp.2.2.1 (and_infinite (show Finiteness.and _ .infinite = _ from hi)).1
    refine ⟨filter_live _ _ _ this.1, fun f e => ?_⟩
    obtain ⟨g, eg, rfl⟩ := option_map_eq e
    exact filter_live _ _ _ (this.2 g eg)
  | filterMap c _ ih =>
    have := ih hp.2.2.1 (and_infinite (show Finiteness.and _ .infinite = _ from hi)).1
    refine ⟨filterMap_live _ _ _ this.1, fun f e => ?_⟩
    obtain ⟨g, eg, rfl⟩ := option_map_eq e
    exact filterMap_live _ _ _ (this.2 g eg)
  | @flatMap _ _ _ _ I _ c g gb _ ih =>
    have := ih hp.2.2.1 (and_infinite (show Finiteness.and _ .infinite = _ from hi)).1
    refine ⟨flat_live _ _ _ _ this.1, fun f e => ?_⟩
    simp only [It.flatMap] at e
    split at e
    · cases e
      exact flatBack_live _ _ _ _ (this.2 _ (by assumption))
    · cases e
  | takeWhile c _ ih => cases (and_infinite (show Finiteness.and _ .maybe = _ from hi)).2
  | scan c _ ih => cases (and_infinite (show Finiteness.and _ .maybe = _ from hi)).2

/-- A method that looks at all items does not return from an iterator without end. -/
theorem feed_live {σ κ : Type} (f : σ → Step σ) (take : κ → V → Act κ) (fin : κ → V)
    (ht : ∀ k v w, take k v ≠ .ret w) (n : Nat) (s : σ) (k : κ) (h : Live f s) (v : V) :
    feed f take fin n s k ≠ .ret v := by
  induction n generalizing s k with
  | zero => intro e; cases e
  | succ n ih =>
    simp only [feed]
    cases ef : f s with
    | fin => exact absurd ef h.not_fin
    | panic => intro e; cases e
    | busy t => exact ih t k (h.busy ef)
    | item w t =>
      cases et : take k w with
      | more k' => simp only [et]; exact ih t k' (h.item ef)
      | ret w' => exact absurd et (ht k w w')
      | panic => simp only [et]; intro e; cases e

/-- The verdict about a call is `Infinite` only for methods that look at all items. -/
theorem completeCall_infinite {m : Name} {len : Nat} {d : Bool} {t : Res} {r : Finiteness}
    (h : completeCall m len d t r = .infinite) (hs : m = .sum ∨ m = .product → t = .number) :
    folds m t = true ∧ r = .infinite := by
  unfold completeCall at h
  by_cases h1 : completing.contains (m, len) = true
  · rw [if_pos h1] at h
    refine ⟨?_, h⟩
    simp only [completing, List.contains_iff_mem, List.mem_cons, Prod.mk.injEq, List.not_mem_nil,
      or_false] at h1
    rcases h1 with h | h | h | h | h | h | h | h | h | h | h | h <;> obtain ⟨rfl, -⟩ := h <;>
      first | rfl | (rw [hs (.inl rfl)]; rfl) | (rw [hs (.inr rfl)]; rfl)
  · rw [if_neg h1] at h
    by_cases h2 : possiblyCompleting.contains (m, len) = true
    · rw [if_pos h2] at h
      cases (and_infinite h).1
    · rw [if_neg h2] at h
      by_cases h3 : (m == .last && len == 0) = true
      · rw [if_pos h3] at h
        have hm : m = .last := by
          rw [Bool.and_eq_true] at h3
          exact eq_of_beq h3.1
        subst hm
        cases d with
        | true => cases h
        | false => exact ⟨rfl, h⟩
      · rw [if_neg h3] at h
        by_cases h4 : (m == .collect) = true
        · rw [if_pos h4] at h
          have hm := eq_of_beq h4
          subst hm
          by_cases h5 : (t == .collection) = true
          · rw [if_pos h5] at h
            exact ⟨h5, h⟩
          · rw [if_neg h5] at h; cases h
        · rw [if_neg h4] at h; cases h

/-- **C79.**  A call which `infinite_iter` reports never returns a value.  Missing, and false, see
`Verif.Endless.Witness`: methods with the names of those of `Iterator` which are others, `cycle` of an
iterator without items, and `sum` and `product` of `Option`s and `Result`s. -/
theorem infinite_never_returns_partial {O : Ex → It → Prop} {m : Name} {std d : Bool} {t : Res} {r : Ex}
    {args : Exs} (h : check (.call m std d t r args) = some .infiniteIter) (hstd : std = true)
    (hs : m = .sum ∨ m = .product → t = .number) (hp : Plain O r) (v : V) :
    ¬ Returns O (.call m std d t r args) v := by
  have hc : completeCall m args.len d t (isInfinite r) = .infinite := by
    simp only [check, complete] at h
    revert h
    cases completeCall m args.len d t (isInfinite r) <;> intro h <;> first | rfl | cases h
  obtain ⟨hf, hr⟩ := completeCall_infinite hc hs
  intro hv
  cases hv with
  | folds U hm hU hd he =>
    exact feed_live _ _ _ hU _ _ _ (infinite_live hd hp hr).1 _ he
  | other U hm _ _ => rw [hf] at hm; cases hm
  | user => cases hstd

/-- Comparisons are never reported as infinite. -/
theorem cmp_not_infinite (l r : Ex) : check (.cmp l r) ≠ some .infiniteIter := by
  have h : complete (.cmp l r) ≠ .infinite := fun h => by
    cases (and_infinite (show Finiteness.and _ .maybe = _ from h)).2
  simp only [check]
  cases e : complete (.cmp l r) with
  | infinite => exact absurd e h
  | maybe => intro h; cases h
  | finite => intro h; cases h

/-! ## The other direction -/

/-- Forward and backward. -/
def It.Swift (I : It) : Prop := Endless.Swift I.next I.s0 ∧ ∀ f, I.back = some f → Endless.Swift f I.s0

theorem It.Halts.swift {I : It} (h : I.Halts) : I.Swift :=
  ⟨Endless.Halts.swift h.1, fun f e => Endless.Halts.swift (h.2 f e)⟩

theorem noSkips_swift {O : Ex → It → Prop} (hO : ∀ e I, O e I → I.Halts) {e : Ex} {I : It}
    (h : Den O e I) (hn : NoSkips e) : I.Swift := by
  induction h with
  | any _ ho => exact (hO _ _ ho).swift
  | block _ ih => exact ih hn
  | addr _ ih => exact ih hn
  | rep v =>
    have : ∀ s, Endless.Swift (fun _ : Unit => Step.item v ()) s := fun s => by
      refine swift_of _ (fun _ => True) (fun _ _ => .item rfl) (fun _ _ _ _ => trivial)
        (fun _ _ _ _ _ => trivial) s trivial
    exact ⟨this (), fun f e => by cases e; exact this ()⟩
  | rangeFrom v succ =>
    refine ⟨swift_of _ (fun _ => True) (fun s _ => ?_) (fun _ _ _ _ => trivial)
        (fun _ _ _ _ _ => trivial) v trivial, fun f e => by cases e⟩
    cases es : succ s with
    | none => exact .panic (by simp [It.rangeFrom, es])
    | some t => exact .item (v := s) (t := t) (by simp [It.rangeFrom, es])
  | zip _ _ ih ih' =>
    obtain ⟨_, _, _, _, hr, ha, _⟩ := hn
    exact ⟨zip_swift _ _ _ (ih hr).1 (ih' ha).1, fun f e => by cases e⟩
  | @chain _ _ _ _ I J _ _ ih ih' =>
    obtain ⟨_, _, _, _, hr, ha, _⟩ := hn
    refine ⟨chain_swift _ _ _ _ (ih hr).1 (ih' ha).1, fun f e => ?_⟩
    simp only [It.chain] at e
    split at e
    · rename_i ei ej
      cases e
      exact chainBack_swift _ _ _ _ ((ih hr).2 _ ei) ((ih' ha).2 _ ej)
    · cases e
  | cycle hd ih => exact ⟨cycle_swift _ _ (ih hn.2.2.2.2.1).1, fun f e => by cases e⟩
  | map c _ ih =>
    have := ih hn.2.2.2.2.1
    refine ⟨map_swift _ _ _ this.1, fun f e => ?_⟩
    obtain ⟨g, eg, rfl⟩ := option_map_eq e
    exact map_swift _ _ _ (this.2 g eg)
  | byRef _ ih => exact ih hn.2.2.2.2.1
  | cloned c _ ih =>
    have := ih hn.2.2.2.2.1
    refine ⟨map_swift _ _ _ this.1, fun f e => ?_⟩
    obtain ⟨g, eg, rfl⟩ := option_map_eq e
    exact map_swift _ _ _ (this.2 g eg)
  | rev _ eb ih =>
    have := ih hn.2.2.2.2.1
    exact ⟨this.2 _ eb, fun f e => by cases e; exact this.1⟩
  | inspect c _ ih =>
    have := ih hn.2.2.2.2.1
    refine ⟨map_swift _ _ _ this.1, fun f e => ?_⟩
    obtain ⟨g, eg, rfl⟩ := option_map_eq e
    exact map_swift _ _ _ (this.2 g eg)
  | enumerate lim _ ih =>
    exact ⟨enumerate_swift _ _ _ (ih hn.2.2.2.2.1).1, fun f e => by cases e⟩
  | peekable _ ih => exact ih hn.2.2.2.2.1
  | fuse _ ih => exact ih hn.2.2.2.2.1
  | skip n _ ih => exact ⟨skip_swift _ _ (ih hn.2.2.2.2.1).1, fun f e => by cases e⟩
  | skipWhile => exact absurd rfl hn.2.2.2.1
  | filter => exact absurd rfl hn.1
  | filterMap => exact absurd rfl hn.2.1
  | flatMap => exact absurd rfl hn.2.2.1
  | takeWhile c _ ih => exact ⟨takeWhile_swift _ _ _ (ih hn.2.2.2.2.1).1, fun f e => by cases e⟩
  | scan c _ ih => exact ⟨scan_swift _ _ _ (ih hn.2.2.2.2.1).1, fun f e => by cases e⟩

/-- Whatever gets the verdict `Finite` evaluates to iterators that end, if the table knows the
methods and the unknown expressions are iterators that end. -/
theorem finite_halts {O : Ex → It → Prop} (hO : ∀ e I, O e I → I.Halts) {e : Ex} {I : It}
    (h : Den O e I) (ht : InTable e) (hf : isInfinite e = .finite) : I.Halts := by
  have cap : ∀ {a : Finiteness}, a.and .infinite = .finite → a = .finite := fun h =>
    (and_finite h).elim id fun h => by cases h
  have cap' : ∀ {a : Finiteness}, a.and .maybe = .finite → a = .finite := fun h =>
    (and_finite h).elim id fun h => by cases h
  induction h with
  | any _ ho => exact hO _ _ ho
  | block _ ih => exact ih ht hf
  | addr _ ih => exact ih ht hf
  | rep v => cases hf
  | rangeFrom v succ => cases hf
  | zip hd hd' ih ih' =>
    obtain ⟨_, _, _, _, hz, hr, ha, _⟩ := ht
    obtain ⟨nr, na, _⟩ := hz rfl
    rcases and_finite (cap (show (Finiteness.and _ _).and .infinite = _ from hf)) with h1 | h2
    · exact ⟨zip_halts_left _ _ _ _ (ih hr h1).1 (noSkips_swift hO hd' na).1, fun f e => by cases e⟩
    · exact ⟨zip_halts_right _ _ _ _ (noSkips_swift hO hd nr).1 (ih' ha h2).1, fun f e => by cases e⟩
  | @chain _ _ _ _ I J _ _ ih ih' =>
    obtain ⟨_, _, _, _, _, hr, ha, _⟩ := ht
    obtain ⟨h1, h2⟩ := or_finite (cap (show (Finiteness.or _ _).and .infinite = _ from hf))
    refine ⟨chain_halts _ _ _ _ (ih hr h1).1 (ih' ha h2).1, fun f e => ?_⟩
    simp only [It.chain] at e
    split at e
    · rename_i ei ej
      cases e
      exact chainBack_halts _ _ _ _ ((ih hr h1).2 _ ei) ((ih' ha h2).2 _ ej)
    · cases e
  | cycle hd ih => cases hf
  | map c _ ih =>
    have := ih ht.2.2.2.2.2.1 (cap (show Finiteness.and _ .infinite = _ from hf))
    refine ⟨map_halts _ _ _ this.1, fun f e => ?_⟩
    obtain ⟨g, eg, rfl⟩ := option_map_eq e
    exact map_halts _ _ _ (this.2 g eg)
  | byRef _ ih => exact ih ht.2.2.2.2.2.1 (cap (show Finiteness.and _ .infinite = _ from hf))
  | cloned c _ ih =>
    have := ih ht.2.2.2.2.2.1 (cap (show Finiteness.and _ .infinite = _ from hf))
    refine ⟨map_halts _ _ _ this.1, fun f e => ?_⟩
    obtain ⟨g, eg, rfl⟩ := option_map_eq e
    exact map_halts _ _ _ (this.2 g eg)
  | rev _ eb ih =>
    have := ih ht.2.2.2.2.2.1 (cap (show Finiteness.and _ .infinite = _ from hf))
    exact ⟨this.2 _ eb, fun f e => by cases e; exact this.1⟩
  | inspect => exact absurd rfl ht.1
  | enumerate lim _ ih =>
    have := ih ht.2.2.2.2.2.1 (cap (show Finiteness.and _ .infinite = _ from hf))
    exact ⟨enumerate_halts _ _ _ this.1, fun f e => by cases e⟩
  | peekable => exact absurd rfl ht.2.2.1
  | fuse _ ih => exact ih ht.2.2.2.2.2.1 (cap (show Finiteness.and _ .infinite = _ from hf))
  | skip n _ ih =>
    have := ih ht.2.2.2.2.2.1 (cap (show Finiteness.and _ .infinite = _ from hf))
    exact ⟨skip_halts _ _ this.1, fun f e => by cases e⟩
  | skipWhile => exact absurd rfl ht.2.1
  | filter c _ ih =>
    have := ih ht.2.2.2.2.2.1 (cap (show Finiteness.and _ .infinite = _ from hf))
    refine ⟨filter_halts _ _ _ this.1, fun f e => ?_⟩
    obtain ⟨g, eg, rfl⟩ := option_map_eq e
    exact filter_halts _ _ _ (this.2 g eg)
  | filterMap c _ ih =>
    have := ih ht.2.2.2.2.2.1 (cap (show Finiteness.and _ .infinite = _ from hf))
    refine ⟨filterMap_halts _ _ _ this.1, fun f e => ?_⟩
    obtain ⟨g, eg, rfl⟩ := option_map_eq e
    exact filterMap_halts _ _ _ (this.2 g eg)
  | flatMap => exact absurd rfl ht.2.2.2.1
  | takeWhile c _ ih =>
    have := ih ht.2.2.2.2.2.1 (cap' (show Finiteness.and _ .maybe = _ from hf))
    exact ⟨takeWhile_halts _ _ _ this.1, fun f e => by cases e⟩
  | scan c _ ih =>
    have := ih ht.2.2.2.2.2.1 (cap' (show Finiteness.and _ .maybe = _ from hf))
    exact ⟨scan_halts _ _ _ this.1, fun f e => by cases e⟩

theorem feed_halts {σ κ : Type} (f : σ → Step σ) (take : κ → V → Act κ) (fin : κ → V) (s : σ)
    (h : Halts f s) (k : κ) : ∃ n, feed f take fin n s k ≠ .running := by
  induction h generalizing k with
  | fin e => exact ⟨1, by simp [feed, e]⟩
  | panic e => exact ⟨1, by simp [feed, e]⟩
  | busy e _ ih =>
    obtain ⟨n, hn⟩ := ih k
    exact ⟨n + 1, by simpa [feed, e] using hn⟩
  | @item _ v _ e _ ih =>
    cases et : take k v with
    | more k' =>
      obtain ⟨n, hn⟩ := ih k'
      exact ⟨n + 1, by simpa [feed, e, et] using hn⟩
    | ret w => exact ⟨1, by simp [feed, e, et]⟩
    | panic => exact ⟨1, by simp [feed, e, et]⟩

/-- The methods that use their receiver up, with the number of their arguments, and where the lints
look for them. -/
def uses (m : Name) (args : Exs) (d : Bool) (t : Res) : Prop :=
  (m ∈ [.count, .max, .min, .sum, .product] ∧ args.len = 0) ∨
  (m ∈ [.forEach, .partition, .maxBy, .maxByKey, .minBy, .minByKey, .find, .rfind, .position,
    .rposition, .any, .all] ∧ args.len = 1) ∨
  (m = .fold ∧ args.len = 2) ∨ (m = .last ∧ args.len = 0 ∧ d = false) ∨
  (m = .collect ∧ args.len = 0 ∧ t = .collection)

theorem completeCall_finite {m : Name} {args : Exs} {d : Bool} {t : Res} {r : Finiteness}
    (hu : uses m args d t) (h : completeCall m args.len d t r = .finite) : r = .finite := by
  rcases hu with ⟨hm, hl⟩ | ⟨hm, hl⟩ | ⟨rfl, hl⟩ | ⟨rfl, hl, rfl⟩ | ⟨rfl, hl, rfl⟩ <;> rw [hl] at h
  · simp only [List.mem_cons, List.not_mem_nil, or_false] at hm
    rcases hm with rfl | rfl | rfl | rfl | rfl <;> exact h
  · simp only [List.mem_cons, List.not_mem_nil, or_false] at hm
    rcases hm with rfl | rfl | rfl | rfl | rfl | rfl | rfl | rfl | rfl | rfl | rfl | rfl <;>
      first | exact h | exact (and_finite (show Finiteness.and .maybe _ = _ from h)).elim (fun h => by cases h) id
  · exact h
  · exact h
  · exact h

/-- **C79.**  Where both lints are silent about a call that uses its receiver up, the call comes to an
end, whatever it does with the items.  Missing, and false, see `Verif.Endless.Witness`: the methods
`inspect`, `skip_while`, `peekable` and `flat_map`, and `zip` with methods that pass over items; and
nothing is said about parts that the lint does not know, which are supposed to be iterators that
end. -/
theorem silent_ends_partial {O : Ex → It → Prop} (hO : ∀ e I, O e I → I.Halts) {m : Name}
    {d : Bool} {t : Res} {r : Ex} {args : Exs} (hu : uses m args d t)
    (h : check (.call m true d t r args) = none) (ht : InTable r) {I : It} (hd : Den O r I) (U : User) :
    ∃ n, U.after I n ≠ .running := by
  have hc : completeCall m args.len d t (isInfinite r) = .finite := by
    simp only [check, complete] at h
    revert h
    cases completeCall m args.len d t (isInfinite r) <;> intro h <;> first | rfl | cases h
  exact feed_halts _ _ _ _ (finite_halts hO hd ht (completeCall_finite hu hc)).1 _

/-- `(0..).map(f).chain([..]).filter(g).count()` is reported; it satisfies the hypotheses. -/
example : check (.call .count true false .number
      (.call .filter true false .other (.call .chain true false .other
        (.call .map true false .other (.rangeFrom (.leaf 0)) (.cons (.closure (.leaf 1)) .nil))
        (.cons (.leaf 2) .nil)) (.cons (.closure (.leaf 3)) .nil)) .nil) = some .infiniteIter ∧
    Plain (fun _ _ => True) (.call .filter true false .other (.call .chain true false .other
        (.call .map true false .other (.rangeFrom (.leaf 0)) (.cons (.closure (.leaf 1)) .nil))
        (.cons (.leaf 2) .nil)) (.cons (.closure (.leaf 3)) .nil)) := by
  refine ⟨by decide +kernel, ?_⟩
  simp [Plain, PlainL]

/-- An iterator with the items of a list. -/
def ofList (l : List V) : It where
  σ := List V
  s0 := l
  next
    | [] => .fin
    | v :: l => .item v l
  back := none

theorem ofList_halts (l : List V) : (ofList l).Halts := by
  refine ⟨?_, fun f e => by cases e⟩
  show Halts (ofList l).next l
  induction l with
  | nil => exact .fin rfl
  | cons v l ih => exact .item rfl ih

/-- `(0..).zip([1, 2]).count()` is not reported; it satisfies the hypotheses. -/
example : check (.call .count true false .number
      (.call .zip true false .other (.rangeFrom (.leaf 0)) (.cons (.leaf 1) .nil)) .nil) = none ∧
    InTable (.call .zip true false .other (.rangeFrom (.leaf 0)) (.cons (.leaf 1) .nil)) ∧
    uses .count .nil false .number ∧
    ∃ I, Den (fun _ I => I = ofList [.num 1, .num 2])
      (.call .zip true false .other (.rangeFrom (.leaf 0)) (.cons (.leaf 1) .nil)) I :=
  ⟨by decide +kernel, by simp [InTable, InTableL, NoSkips, NoSkipsL], .inl ⟨by decide, rfl⟩,
    _, .zip (.rangeFrom (.num 0) some) (.any rfl rfl)⟩

end Verif.Endless
