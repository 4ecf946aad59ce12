import Verif.Splitn.Model
import Verif.Splitn.Spec

/-!
# C97: the suggestions about `splitn` keep the meaning
-/

namespace Verif.Splitn

/-- Without the limit. -/
def Iter.free (it : Iter) : Iter := { it with left := none }

section
variable {σ : Type} {S : Searcher σ} {hay : Str}

theorem piece_left (it : Iter) (l : Option Nat) (w : σ) :
    Iter.piece S hay { it with left := l } w =
      ((it.piece S hay w).1, { (it.piece S hay w).2.1 with left := l }, (it.piece S hay w).2.2) := by
  unfold Iter.piece Iter.end_
  by_cases hf : it.finished = true
  · simp [hf]
  · by_cases hr : it.rev = true
    · simp only [hf, hr, if_true, if_false, Bool.false_eq_true]
      rcases S.bwd w with ⟨_ | ⟨a, b⟩, w'⟩ <;> simp
    · simp only [hf, hr, if_true, if_false, Bool.false_eq_true]
      rcases S.fwd w with ⟨_ | ⟨a, b⟩, w'⟩ <;> simp

/-- As long as more than one piece is left, the limit does not matter. -/
theorem next_free {it : Iter} {c : Nat} (h : it.left = some (c + 2)) (w : σ) :
    (it.next S hay w).1 = (it.free.next S hay w).1 ∧ (it.next S hay w).2.2 = (it.free.next S hay w).2.2 ∧
    (it.next S hay w).2.1.left = some (c + 1) ∧ (it.next S hay w).2.1.free = (it.free.next S hay w).2.1 := by
  obtain ⟨rev, left, start, stop, fin⟩ := it
  simp only at h
  subst h
  have h1 := piece_left (S := S) (hay := hay) ⟨rev, none, start, stop, fin⟩ (some (c + 1)) w
  have h2 := piece_left (S := S) (hay := hay) ⟨rev, none, start, stop, fin⟩ none w
  simp only [Iter.next, Iter.free] at h1 h2 ⊢
  rw [h1]
  refine ⟨rfl, rfl, rfl, ?_⟩
  have := congrArg (·.2.1) h2
  simp only at this ⊢
  rw [← this]

theorem nth_free : ∀ {k c : Nat} {it : Iter}, it.left = some c → k + 1 < c → ∀ (w : σ),
    (it.nth S hay k w).1 = (it.free.nth S hay k w).1 ∧ (it.nth S hay k w).2.2 = (it.free.nth S hay k w).2.2
  | 0, c, it, h, hk, w => by
    obtain ⟨c, rfl⟩ : ∃ d, c = d + 2 := ⟨c - 2, by omega⟩
    obtain ⟨h1, h2, _, _⟩ := next_free (S := S) (hay := hay) h w
    exact ⟨h1, h2⟩
  | k + 1, c, it, h, hk, w => by
    obtain ⟨c, rfl⟩ : ∃ d, c = d + 2 := ⟨c - 2, by omega⟩
    obtain ⟨h1, h2, h3, h4⟩ := next_free (S := S) (hay := hay) h w
    simp only [Iter.nth]
    generalize it.next S hay w = r at h1 h2 h3 h4
    generalize it.free.next S hay w = r' at h1 h2 h4
    obtain ⟨o, it1, w1⟩ := r
    obtain ⟨o', it2, w2⟩ := r'
    simp only at h1 h2 h3 h4
    subst h1; subst h2; subst h4
    cases o with
    | none => exact ⟨rfl, rfl⟩
    | some x => exact nth_free h3 (by omega) w1

theorem tuple_free : ∀ {n c : Nat} {it : Iter}, it.left = some c → n < c → ∀ (w : σ),
    (it.tuple S hay n w).1 = (it.free.tuple S hay n w).1 ∧ (it.tuple S hay n w).2.2 = (it.free.tuple S hay n w).2.2
  | 0, _, _, _, _, _ => ⟨rfl, rfl⟩
  | n + 1, c, it, h, hn, w => by
    obtain ⟨c, rfl⟩ : ∃ d, c = d + 2 := ⟨c - 2, by omega⟩
    obtain ⟨h1, h2, h3, h4⟩ := next_free (S := S) (hay := hay) h w
    simp only [Iter.tuple]
    generalize it.next S hay w = r at h1 h2 h3 h4
    generalize it.free.next S hay w = r' at h1 h2 h4
    obtain ⟨o, it1, w1⟩ := r
    obtain ⟨o', it2, w2⟩ := r'
    simp only at h1 h2 h3 h4
    subst h1; subst h2; subst h4
    cases o with
    | none => exact ⟨rfl, rfl⟩
    | some x =>
      obtain ⟨i1, i2⟩ := tuple_free h3 (show n < c + 1 by omega) w1
      simp only
      generalize it1.tuple S hay n w1 = r at i1 i2
      generalize it1.free.tuple S hay n w1 = r' at i1 i2
      obtain ⟨o, it3, w3⟩ := r
      obtain ⟨o', it4, w4⟩ := r'
      simp only at i1 i2
      subst i1; subst i2
      cases o <;> exact ⟨rfl, rfl⟩

/-- The iterator of the call. -/
def start (reverse : Bool) (left : Option Nat) (hay : Str) : Iter := ⟨reverse, left, 0, hay.length, false⟩

/-- What the search in the right direction finds. -/
def found (S : Searcher σ) (reverse : Bool) (w : σ) : Option (Nat × Nat) × σ := if reverse then S.bwd w else S.fwd w

/-- Both pieces, in the order of the iterator. -/
def both (hay : Str) (reverse : Bool) (m : Nat × Nat) : Str × Str :=
  if reverse then (slice hay m.2 hay.length, slice hay 0 m.1) else (slice hay 0 m.1, slice hay m.2 hay.length)

/-- The first two pieces of two. -/
theorem two_next (reverse : Bool) (w : σ) : ∃ it,
    (start reverse (some 2) hay).next S hay w = (some (match (found S reverse w).1 with
      | some m => (both hay reverse m).1
      | none => slice hay 0 hay.length), it, (found S reverse w).2) ∧
    ∀ w', ∃ it', it.next S hay w' = ((found S reverse w).1.map fun m => (both hay reverse m).2, it', w') := by
  simp only [start, Iter.next, Iter.piece, found, both, Iter.end_]
  cases reverse with
  | false =>
    simp only [Bool.false_eq_true, if_false]
    rcases S.fwd w with ⟨_ | ⟨a, b⟩, w'⟩
    · exact ⟨_, rfl, fun w' => ⟨_, rfl⟩⟩
    · exact ⟨_, rfl, fun w' => ⟨_, rfl⟩⟩
  | true =>
    simp only [Bool.false_eq_true, if_false, if_true]
    rcases S.bwd w with ⟨_ | ⟨a, b⟩, w'⟩
    · exact ⟨_, rfl, fun w' => ⟨_, rfl⟩⟩
    · exact ⟨_, rfl, fun w' => ⟨_, rfl⟩⟩

theorem two_nth (reverse : Bool) (w : σ) :
    ((start reverse (some 2) hay).nth S hay 1 w).1 = (found S reverse w).1.map (fun m => (both hay reverse m).2) ∧
    ((start reverse (some 2) hay).nth S hay 1 w).2.2 = (found S reverse w).2 := by
  obtain ⟨it, h1, h2⟩ := two_next (S := S) (hay := hay) reverse w
  obtain ⟨it', h3⟩ := h2 (found S reverse w).2
  simp only [Iter.nth, h1, h3, and_self]

theorem two_tuple (reverse : Bool) (w : σ) :
    ((start reverse (some 2) hay).tuple S hay 2 w).1 =
      (found S reverse w).1.map (fun m => [(both hay reverse m).1, (both hay reverse m).2]) ∧
    ((start reverse (some 2) hay).tuple S hay 2 w).2.2 = (found S reverse w).2 := by
  obtain ⟨it, h1, h2⟩ := two_next (S := S) (hay := hay) reverse w
  obtain ⟨it', h3⟩ := h2 (found S reverse w).2
  simp only [Iter.tuple, h1, h3]
  cases hf : (found S reverse w).1 <;> simp

variable {I : Nat → Val → σ → Flow × σ}

def Unwrap.nodes : Option Unwrap → List Node
  | some .unwrap => [.unwrap]
  | some .questionMark => [.try_]
  | none => []

/-- What a use of the iterator does. -/
theorem parse_spec {ps : List Parent} {u : Usage} (h : parse ps = some u) (it : Iter) (w : σ) :
    (∃ k, u.kind = .nth k ∧ evalNodes S hay I (ps.map Parent.node) (.val (.iter 0 it), w) =
      evalNodes S hay I (Unwrap.nodes u.unwrap ++ u.rest.map Parent.node)
        (.val (.opt (it.nth S hay k w).1), (it.nth S hay k w).2.2)) ∨
    (u.kind = .nextTuple ∧ u.unwrap = none ∧ evalNodes S hay I (ps.map Parent.node) (.val (.iter 0 it), w) =
      evalNodes S hay I (u.rest.map Parent.node) (.val (.optTup (it.tuple S hay 2 w).1), (it.tuple S hay 2 w).2.2)) := by
  have hu : ∀ (k : Nat) (ps : List Parent), (parseUnwrap (.nth k) ps).kind = .nth k ∧
      ps.map Parent.node = Unwrap.nodes (parseUnwrap (.nth k) ps).unwrap ++ (parseUnwrap (.nth k) ps).rest.map Parent.node := by
    intro k ps
    unfold parseUnwrap
    split <;> exact ⟨rfl, rfl⟩
  unfold parse at h
  split at h
  · cases h
    rename_i ps
    refine .inl ⟨0, (hu 0 _).1, ?_⟩
    simp only [List.map_cons, evalNodes, Node.eval]
    rw [← (hu 0 ps).2]
  · split at h
    · next hn =>
      cases h; subst hn
      exact .inr ⟨rfl, rfl, rfl⟩
    · exact nomatch h
  · cases h
    rename_i k ps
    refine .inl ⟨k, (hu k _).1, ?_⟩
    simp only [List.map_cons, evalNodes, Node.eval]
    rw [← (hu k ps).2]
  · cases h
    rename_i k ps
    refine .inl ⟨k, (hu k _).1, ?_⟩
    simp only [List.map_cons, evalNodes, Node.eval]
    rw [← (hu k ps).2]
  · exact nomatch h

/-- The call that is linted. -/
def original (reverse : Bool) (count : Nat) : Base := if reverse then .rsplitn count else .splitn count

theorem original_eval (reverse : Bool) (count : Nat) (w : σ) :
    (original reverse count).eval S hay w = (.val (.iter 0 (start reverse (some count) hay)), w) := by
  cases reverse <;> rfl

theorem once_eval (reverse : Bool) (w : σ) : (onceBase reverse).eval S hay w =
    (.val (.optTup ((found S reverse w).1.map fun m => [slice hay 0 m.1, slice hay m.2 hay.length])), (found S reverse w).2) := by
  cases reverse <;> rfl

theorem append_eval {ns ms : List Node} {r : Flow × σ} : evalNodes S hay I (ns ++ ms) r =
    evalNodes S hay I ms (evalNodes S hay I ns r) := by
  induction ns generalizing r with
  | nil => rfl
  | cons n ns ih =>
    obtain ⟨f, w⟩ := r
    cases f with
    | val v => exact ih
    | panic => cases ms <;> rfl
    | ret => cases ms <;> rfl

/-- **C97.**  Whatever the pattern, the string and the rest of the expression are: the suggested expression has the value of
the original one and the same effects. -/
theorem splitn_same {reverse : Bool} {count : Nat} {msrv : Bool} {ps : List Parent} {c : Chain}
    (h : check reverse count msrv ps = some c) (w : σ) :
    c.eval S hay I w = Chain.eval S hay I ⟨original reverse count, ps.map Parent.node⟩ w := by
  unfold check at h
  split at h
  · exact nomatch h
  · split at h
    · rename_i u hp
      simp only [Chain.eval, original_eval]
      split at h
      · next hn =>
        cases h
        have e : (needlessSugg reverse ps).base.eval S hay w = (.val (.iter 0 (start reverse none hay)), w) := by
          cases reverse <;> rfl
        rw [e]
        show evalNodes S hay I (ps.map Parent.node) _ = _
        have hfree : (start reverse (some count) hay).free = start reverse none hay := rfl
        rcases parse_spec (S := S) (hay := hay) (I := I) hp (start reverse (some count) hay) w with ⟨k, hk, h1⟩ | ⟨hk, _, h1⟩
        · rcases parse_spec (S := S) (hay := hay) (I := I) hp (start reverse none hay) w with ⟨k', hk', h2⟩ | ⟨hk', _⟩
          · rw [hk] at hk' hn; cases hk'
            obtain ⟨f1, f2⟩ := nth_free (S := S) (hay := hay) (it := start reverse (some count) hay) rfl
              (by simpa [needless] using hn) w
            rw [h1, h2, f1, f2, hfree]
          · rw [hk] at hk'; exact nomatch hk'
        · rcases parse_spec (S := S) (hay := hay) (I := I) hp (start reverse none hay) w with ⟨k', hk', _⟩ | ⟨_, _, h2⟩
          · rw [hk] at hk'; exact nomatch hk'
          · rw [hk] at hn
            obtain ⟨f1, f2⟩ := tuple_free (S := S) (hay := hay) (it := start reverse (some count) hay) (n := 2) rfl
              (by simpa [needless] using hn) w
            rw [h1, h2, f1, f2, hfree]
      · split at h
        · next hm =>
          simp only [Bool.and_eq_true, beq_iff_eq] at hm
          obtain ⟨rfl, _⟩ := hm
          unfold manualSugg at h
          rcases parse_spec (S := S) (hay := hay) (I := I) hp (start reverse (some 2) hay) w with ⟨k, hk, h1⟩ | ⟨hk, hn, h1⟩
          · simp only [hk] at h
            split at h
            · next heq => exact nomatch heq
            · next heq =>
              cases heq
              obtain ⟨t1, t2⟩ := two_nth (S := S) (hay := hay) reverse w
              rw [h1, t1, t2, append_eval]
              cases hx : u.unwrap with
              | none =>
                simp only [hx] at h; cases h
                simp only [once_eval, append_eval, Unwrap.nodes]
                cases hf : (found S reverse w).1 <;> cases reverse <;> simp [evalNodes, Node.eval, both]
              | some k =>
                cases k
                · simp only [hx] at h; cases h
                  simp only [once_eval, append_eval, Unwrap.nodes]
                  cases hf : (found S reverse w).1 <;> cases reverse <;> simp [evalNodes, Node.eval, both]
                · simp only [hx] at h; cases h
                  simp only [once_eval, append_eval, Unwrap.nodes]
                  cases hf : (found S reverse w).1 <;> cases reverse <;> simp [evalNodes, Node.eval, both]
            · exact nomatch h
          · simp only [hk] at h
            cases h
            obtain ⟨t1, t2⟩ := two_tuple (S := S) (hay := hay) reverse w
            rw [h1, t1, t2]
            simp only [once_eval, append_eval]
            cases hf : (found S reverse w).1 <;> cases reverse <;> simp [evalNodes, Node.eval, both]
        · exact nomatch h
    · exact nomatch h
end

/-- A program: `s.rsplitn(2, p).nth(1)?`. -/
example : check true 2 true [⟨.nth 1, true⟩, ⟨.try_, true⟩, ⟨.other 3, true⟩] =
    some ⟨.rsplitOnce, [.try_, .field 0, .other 3]⟩ := by decide

example : check false 3 true [⟨.skip 1, true⟩, ⟨.next, true⟩] = some ⟨.split, [.skip 1, .next]⟩ := by decide

/-- A pattern that always matches the empty string in the middle. -/
def middle : Searcher Unit := ⟨fun w => (some (1, 1), w), fun w => (some (1, 1), w)⟩

/-- The iterator after one piece. -/
def midIter (reverse : Bool) (left : Option Nat) : Iter :=
  ⟨reverse, left, if reverse then 0 else 1, if reverse then 1 else 2, false⟩

theorem mid_free (reverse : Bool) (w : Unit) : ∀ k, ((midIter reverse none).nth middle [7, 8] k w).1 = some []
  | 0 => by cases reverse <;> rfl
  | k + 1 => by
    have := mid_free reverse w k
    cases reverse <;> exact this

theorem nth_zero {σ : Type} {S : Searcher σ} {hay : Str} {it : Iter} (h : it.left = some 0) (w : σ) (k : Nat) :
    (it.nth S hay k w).1 = none := by
  have : it.next S hay w = (none, it, w) := by unfold Iter.next; rw [h]
  cases k with
  | zero => simp only [Iter.nth, this]
  | succ k => simp only [Iter.nth, this]

theorem mid_lim (reverse : Bool) (w : Unit) : ∀ (k c : Nat), c ≤ k + 1 →
    ((midIter reverse (some c)).nth middle [7, 8] k w).1 ≠ some []
  | k, 0, _ => by rw [nth_zero rfl]; exact nofun
  | 0, 1, _ => by cases reverse <;> cases w <;> decide
  | k + 1, 1, _ => by
    cases reverse
    · simp only [Iter.nth, Iter.next, midIter, Iter.end_, Bool.false_eq_true, if_false]
      rw [nth_zero rfl]; exact nofun
    · simp only [Iter.nth, Iter.next, midIter, Iter.end_, Bool.false_eq_true, if_false]
      rw [nth_zero rfl]; exact nofun
  | 0, c + 2, h => by omega
  | k + 1, c + 2, h => by
    have := mid_lim reverse w k (c + 1) (by omega)
    cases reverse <;> exact this

/-- **C97.**  `needless_splitn` reports a limit exactly if it never matters. -/
theorem needless_exact {reverse : Bool} {count : Nat} (hc : 2 ≤ count) {k : Nat} :
    (check reverse count false [⟨.nth k, true⟩]).isSome = true ↔ ∀ (σ : Type) (S : Searcher σ) (hay : Str) (w : σ)
      (I : Nat → Val → σ → Flow × σ),
      Chain.eval S hay I ⟨if reverse then .rsplitn count else .splitn count, [.nth k]⟩ w =
        Chain.eval S hay I ⟨if reverse then .rsplit else .split, [.nth k]⟩ w := by
  have hcheck : check reverse count false [⟨.nth k, true⟩] =
      if k + 1 < count then some ⟨if reverse then .rsplit else .split, [.nth k]⟩ else none := by
    have h2 : ¬ count < 2 := by omega
    by_cases h : k + 1 < count
    · simp [check, h2, parse, parseUnwrap, needless, h, needlessSugg]
    · simp [check, h2, parse, parseUnwrap, needless, h]
  constructor
  · intro h σ S hay w I
    rw [hcheck] at h
    by_cases hk : k + 1 < count
    · rw [if_pos hk] at hcheck
      exact (splitn_same hcheck w).symm
    · rw [if_neg hk] at h; exact nomatch h
  · intro h
    rw [hcheck]
    by_cases hk : k + 1 < count
    · rw [if_pos hk]; rfl
    · exfalso
      have h1 := h Unit middle [7, 8] () (fun _ _ w => (.panic, w))
      obtain ⟨k, rfl⟩ : ∃ j, k = j + 1 := ⟨k - 1, by omega⟩
      obtain ⟨count, rfl⟩ : ∃ j, count = j + 2 := ⟨count - 2, by omega⟩
      have h2 := mid_lim reverse () k (count + 1) (by omega)
      have h3 := mid_free reverse () k
      rw [← h3] at h2
      apply h2
      have h4 := congrArg (·.1) h1
      cases reverse <;> exact Val.opt.inj (Flow.val.inj h4)

/-- **C97.**  What `suspicious_splitn` says is true: the iterator is empty, or it returns everything and then nothing. -/
theorem suspicious_true {count : Nat} {b : Bool} (h : suspicious count = some b) (reverse : Bool) {σ : Type}
    (S : Searcher σ) (hay : Str) (w : σ) (I : Nat → Val → σ → Flow × σ) (k : Nat) :
    (Chain.eval S hay I ⟨if reverse then .rsplitn count else .splitn count, [.nth k]⟩ w).1 =
      .val (.opt (if !b && k == 0 then some hay else none)) := by
  unfold suspicious at h
  have hs : slice hay 0 hay.length = hay := by simp [slice]
  have e : (Chain.eval S hay I ⟨if reverse then .rsplitn count else .splitn count, [.nth k]⟩ w).1 =
      .val (.opt ((start reverse (some count) hay).nth S hay k w).1) := by cases reverse <;> rfl
  rw [e]
  congr 2
  split at h
  · cases h
    have : count = 0 ∨ count = 1 := by omega
    rcases this with rfl | rfl
    · rw [nth_zero rfl]; rfl
    · cases k with
      | zero => simp [Iter.nth, Iter.next, Iter.end_, start, hs]
      | succ k =>
        simp only [Iter.nth, Iter.next, Iter.end_, start, Bool.false_eq_true, if_false]
        rw [nth_zero rfl]; rfl
  · exact nomatch h

example : suspicious 1 = some false := rfl

/-! ## Two statements -/

section
variable {σ : Type} {S : Searcher σ} {hay : Str} {I : Nat → Val → σ → Flow × σ}
  {J : Nat → List Val → σ → Except Flow (List Val) × σ}

theorem setAll_agree {y : Name} : ∀ {xs : List Name} {vs : List Val} {E E' : Env}, (y ∉ xs → E y = E' y) →
    E.setAll xs vs y = E'.setAll xs vs y
  | [], _, _, _, h => h (by simp)
  | z :: zs, [], E, E', h => by
    simp only [Env.setAll]
    refine setAll_agree fun hz => ?_
    simp only [Env.set]
    split
    · rfl
    · next hne => exact h (by simp [hne, hz])
  | z :: zs, v :: vs, E, E', h => by
    simp only [Env.setAll]
    refine setAll_agree fun hz => ?_
    simp only [Env.set]
    split
    · rfl
    · next hne => exact h (by simp [hne, hz])

theorem set_agree {E E' : Env} {x y : Name} {v : Val} (h : y ≠ x → E y = E' y) : E.set x v y = E'.set x v y := by
  simp only [Env.set]
  split
  · rfl
  · next hne => exact h hne

/-- A variable that is not used does not matter. -/
theorem unused {it : Name} : ∀ {ss : List Stmt} {E E' : Env} {w : σ}, (∀ z, z ≠ it → E z = E' z) →
    (E it = E' it ∨ usedIn it ss = false) → runStmts S hay I J ss E w = runStmts S hay I J ss E' w
  | [], _, _, _, _, _ => rfl
  | s :: ss, E, E', w, hE, h => by
    by_cases heq : E it = E' it
    · have : E = E' := funext fun z => if hz : z = it then hz ▸ heq else hE z hz
      rw [this]
    · have h := h.resolve_left heq
      cases s with
      | use x b r ps =>
        simp only [usedIn, Bool.or_eq_false_iff, beq_eq_false_iff_ne, Bool.and_eq_false_iff, bne_eq_false_iff_eq] at h
        have hr := hE r h.1
        simp only [runStmts, Stmt.run, hr]
        rcases evalNodes S hay I (ps.map Parent.node) (.val (E' r), w) with ⟨_ | _ | _, w'⟩
        · simp only
          refine unused (it := it) (fun z hz => ?_) ?_
          · exact set_agree fun _ => set_agree fun _ => hE z hz
          · rcases h.2 with h | h
            · left; exact set_agree fun hne => absurd h.symm hne
            · exact .inr h
        · rfl
        · rfl
      | code tag us bs =>
        simp only [usedIn, Bool.or_eq_false_iff, Bool.and_eq_false_iff, Bool.not_eq_false'] at h
        have hu : us.map E = us.map E' := List.map_congr_left fun z hz => hE z fun he => by
          rw [he] at hz
          rw [List.contains_iff_mem.mpr hz] at h
          exact nomatch h.1
        simp only [runStmts, Stmt.run, hu]
        rcases J tag (us.map E') w with ⟨_ | vs, w'⟩
        · rfl
        · simp only
          refine unused (it := it) (fun z hz => ?_) ?_
          · exact setAll_agree fun _ => hE z hz
          · rcases h.2 with h | h
            · left; exact setAll_agree fun hne => absurd (List.contains_iff_mem.mp h) hne
            · exact .inr h
      | pair a b c =>
        simp only [usedIn, Bool.and_eq_false_iff, bne_eq_false_iff_eq] at h
        simp only [runStmts, Stmt.run]
        split
        · next heq' =>
          split at heq'
          · cases heq'
            simp only
            refine unused (it := it) (fun z hz => ?_) ?_
            · exact set_agree fun _ => set_agree fun _ => hE z hz
            · rcases h with (h | h) | h
              · left; exact set_agree fun _ => set_agree fun hne => absurd h.symm hne
              · left; exact set_agree fun hne => absurd h.symm hne
              · exact .inr h
          · exact nomatch heq'
          · exact nomatch heq'
        · next heq' =>
          split at heq'
          · exact nomatch heq'
          · cases heq'; rfl
          · cases heq'; rfl

theorem indirect_spec {it : Name} {s : Stmt} {x : Name} {k : Unwrap} (h : indirectUsage it s = some (x, k)) :
    ∃ b ps n, s = .use x b it ps ∧ parse ps = some ⟨.nth 0, some k, []⟩ ∧ (ps.map Parent.node).head? = some n ∧
      (n = .next ∨ n = .nth 0 ∨ n = .skip 0) := by
  unfold indirectUsage at h
  split at h
  · rename_i y b r ps
    by_cases hc : (b && r == it) = true
    · rw [if_pos hc] at h
      split at h
      · rename_i k' hp
        cases h
        simp only [Bool.and_eq_true, beq_iff_eq] at hc
        obtain ⟨_, rfl⟩ := hc
        have hu : ∀ {k : Nat} {ps : List Parent} {k' : Unwrap}, some (parseUnwrap (.nth k) ps) = some ⟨.nth 0, some k', []⟩ → k = 0 := by
          intro k ps k' h
          unfold parseUnwrap at h
          split at h <;> simp_all
        have hp0 := hp
        unfold parse at hp
        split at hp
        · exact ⟨b, _, _, rfl, hp0, rfl, .inl rfl⟩
        · split at hp <;> simp at hp
        · cases hu hp; exact ⟨b, _, _, rfl, hp0, rfl, .inr (.inl rfl)⟩
        · cases hu hp; exact ⟨b, _, _, rfl, hp0, rfl, .inr (.inr rfl)⟩
        · exact nomatch hp
      · exact nomatch h
    · rw [if_neg hc] at h; exact nomatch h
  · exact nomatch h
/-- **C97.**  Whatever the pattern, the string and the rest of the block are: the block with the suggested declaration does
the same. -/
theorem indirect_same {reverse : Bool} {count : Nat} {msrv : Bool} {it : Name} {ss ss' : List Stmt} (hkept : Kept ss)
    (h : checkIndirect reverse count msrv it ss = some ss') (E : Env) (w : σ) :
    runStmts S hay I J ss' E w = runLet S hay I J (if reverse then .rsplitn count else .splitn count) it ss E w := by
  have hb := original_eval (S := S) (hay := hay) reverse count w
  simp only [original] at hb
  simp only [runLet, hb]
  unfold checkIndirect at h
  split at h
  · next hc =>
    simp only [Bool.and_eq_true, beq_iff_eq] at hc
    obtain ⟨rfl, _⟩ := hc
    split at h
    · rename_i s1 s2 rest
      split at h
      · rename_i x k y k' h1 h2
        split at h
        · next hc =>
          cases h
          simp only [Bool.and_eq_true, bne_iff_ne, ne_eq, beq_iff_eq, Bool.not_eq_true', Bool.and_eq_false_iff,
            bne_eq_false_iff_eq] at hc
          obtain ⟨⟨⟨hx, rfl⟩, hxy⟩, hu⟩ := hc
          obtain ⟨b1, ps1, n1, rfl, p1, hd1, hn1⟩ := indirect_spec h1
          obtain ⟨b2, ps2, n2, rfl, p2, _, _⟩ := indirect_spec h2
          obtain ⟨it1, e1, e2⟩ := two_next (S := S) (hay := hay) reverse w
          obtain ⟨it2, e2⟩ := e2 (found S reverse w).2
          have a1 : after S hay (ps1.map Parent.node).head? (.iter 0 (start reverse (some 2) hay)) w = .iter 0 it1 := by
            rw [hd1]
            rcases hn1 with rfl | rfl | rfl
            · simp only [after, Iter.nth, e1]
            · simp only [after, Iter.nth, e1]
            · exact (hkept 0 hd1).elim
          have v1 : evalNodes S hay I (ps1.map Parent.node) (.val (.iter 0 (start reverse (some 2) hay)), w) =
              (.val (.str (match (found S reverse w).1 with
                | some m => (both hay reverse m).1
                | none => slice hay 0 hay.length)), (found S reverse w).2) := by
            rcases parse_spec (S := S) (hay := hay) (I := I) p1 (start reverse (some 2) hay) w with ⟨k1, q1, q2⟩ | ⟨q1, _⟩
            · cases q1
              rw [q2]
              simp only [Iter.nth, e1]
              cases k <;> rfl
            · exact nomatch q1
          have v2 : evalNodes S hay I (ps2.map Parent.node) (.val (.iter 0 it1), (found S reverse w).2) =
              evalNodes S hay I (Unwrap.nodes (some k))
                (.val (.opt ((found S reverse w).1.map fun m => (both hay reverse m).2)), (found S reverse w).2) := by
            rcases parse_spec (S := S) (hay := hay) (I := I) p2 it1 (found S reverse w).2 with ⟨k1, q1, q2⟩ | ⟨q1, _⟩
            · cases q1
              rw [q2]
              simp only [Iter.nth, e2, List.map_nil, List.append_nil]
            · exact nomatch q1
          -- the original statements
          have hset : ∀ {E : Env} {x : Name} {v : Val}, E.set x v x = v := by intros; simp [Env.set]
          have hset' : ∀ {E : Env} {x y : Name} {v : Val}, y ≠ x → E.set x v y = E y := by
            intro E x y v h; simp [Env.set, h]
          have r1 : ∀ {f : Str}, (((E.set it (.iter 0 (start reverse (some 2) hay))).set it (.iter 0 it1)).set x (.str f)) it =
              .iter 0 it1 := by
            intro f; rw [hset' (Ne.symm hx), hset]
          have hpair : (pairStmt reverse x y k).run S hay I J E w = match (found S reverse w).1 with
              | some m => (.ok (if reverse then (E.set y (.str (both hay reverse m).2)).set x (.str (both hay reverse m).1)
                  else (E.set x (.str (both hay reverse m).1)).set y (.str (both hay reverse m).2)), (found S reverse w).2)
              | none => (.error (if k = .unwrap then .panic else .ret), (found S reverse w).2) := by
            cases reverse <;> cases k <;>
              (simp only [pairStmt, Bool.false_eq_true, if_false, if_true, Stmt.run, Chain.eval, once_eval]
               cases (found S _ w).1 <;> simp [evalNodes, Node.eval, both])
          simp only [runStmts, hpair]
          simp only [Stmt.run, hset, v1, a1, r1, v2]
          cases hf : (found S reverse w).1 with
          | none => cases k <;> simp [Unwrap.nodes, evalNodes, Node.eval]
          | some m =>
            have hk : evalNodes S hay I (Unwrap.nodes (some k)) (.val (.opt (some (both hay reverse m).2)),
                (found S reverse w).2) = (.val (.str (both hay reverse m).2), (found S reverse w).2) := by
              cases k <;> rfl
            simp only [Option.map_some, hk]
            refine unused (it := it) (fun z hz => ?_) ?_
            · by_cases hzx : z = x
              · subst hzx
                cases reverse
                · simp [Env.set, hxy, hz]
                · simp [Env.set, hxy, hz]
              · by_cases hzy : z = y
                · subst hzy
                  cases reverse <;> simp [Env.set, hzx]
                · cases reverse <;> simp [Env.set, hzx, hzy, hz]
            · rcases hu with rfl | hu
              · left
                cases reverse
                · simp [Env.set]
                · simp [Env.set, Ne.symm hx]
              · exact .inr hu
        · exact nomatch h
      · exact nomatch h
    · exact nomatch h
  · exact nomatch h

/-- `let mut it = s.rsplitn(2, p); let v = it.next()?; let k = it.next()?; f(k, v)` -/
example : checkIndirect true 2 true 0 [.use 1 true 0 [⟨.next, true⟩, ⟨.try_, true⟩],
    .use 2 true 0 [⟨.next, true⟩, ⟨.try_, true⟩], .code 5 [1, 2] []] =
      some [.pair 2 1 ⟨.rsplitOnce, [.try_]⟩, .code 5 [1, 2] []] := by decide
example : Kept [.use 1 true 0 [⟨.next, true⟩, ⟨.try_, true⟩], .use 2 true 0 [⟨.next, true⟩, ⟨.try_, true⟩],
    .code 5 [1, 2] []] := by intro k; exact nofun
end

end Verif.Splitn
