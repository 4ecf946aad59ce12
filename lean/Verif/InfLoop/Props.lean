import Verif.InfLoop.Model
import Verif.InfLoop.Spec

/-!
# A loop that is reported runs forever
-/

namespace Verif.InfLoop

/-- Which jumps can come out of code at some depth, with the labels of loops and of all targets around. -/
def Good {V A : Type} (depth : Nat) (inner scope : List Label) : Out V A → Prop
  | .val _ => True
  | .jump (.brk none _) => depth ≠ 0
  | .jump (.brk (some l) _) => l ∈ scope
  | .jump (.cont none) => True
  | .jump (.cont (some l)) => l ∈ inner
  | .jump (.ret _) => False

theorem Good.jump {V A B : Type} {depth : Nat} {inner scope : List Label} {j : Jump V}
    (h : Good (A := A) depth inner scope (.jump j)) : Good (A := B) depth inner scope (.jump j) := by
  cases j with
  | brk l v => cases l <;> exact h
  | cont l => cases l <;> exact h
  | ret v => exact h

theorem andThen_some {S : Sem} {A B : Type} {r : Res S A} {k : A → S.W → Res S B} {o : Out S.V B} {w : S.W}
    (h : andThen S r k = some (o, w)) :
    (∃ v w1, r = some (.val v, w1) ∧ k v w1 = some (o, w)) ∨ (∃ j, r = some (.jump j, w) ∧ o = .jump j) := by
  match r, h with
  | some (.val v, w1), h => exact .inl ⟨v, w1, rfl, h⟩
  | some (.jump j, w1), h => cases h; exact .inr ⟨j, rfl, rfl⟩

/-- What is asked of the labels and hidden parts. -/
structure Ok (S : Sem) (own : Option Label) (scope : List Label) (fs : List Label) (hs : List Hidden) : Prop where
  free : ∀ l ∈ fs, l ∈ scope ∨ own = some l
  hidden : ∀ h ∈ hs, Harmless S h

theorem Ok.left {S : Sem} {self : Option Label} {scope fs gs : List Label} {hs is : List Hidden}
    (h : Ok S self scope (fs ++ gs) (hs ++ is)) : Ok S self scope fs hs :=
  ⟨fun l hl => h.free l (by simp [hl]), fun x hx => h.hidden x (by simp [hx])⟩

theorem Ok.right {S : Sem} {self : Option Label} {scope fs gs : List Label} {hs is : List Hidden}
    (h : Ok S self scope (fs ++ gs) (hs ++ is)) : Ok S self scope gs is :=
  ⟨fun l hl => h.free l (by simp [hl]), fun x hx => h.hidden x (by simp [hx])⟩

theorem Ok.push {S : Sem} {self l : Option Label} {scope fs : List Label} {hs : List Hidden}
    (h : Ok S self scope (without l fs) hs) : Ok S self (pushLabel l scope) fs hs := by
  refine ⟨fun k hk => ?_, h.hidden⟩
  by_cases he : l = some k
  · subst he; exact .inl (by simp [pushLabel])
  · rcases h.free k (by simp [without, hk, he]) with hm | hm
    · cases l with
      | none => exact .inl hm
      | some _ => exact .inl (List.mem_cons_of_mem _ hm)
    · exact .inr hm

theorem mem_push {l : Option Label} {k : Label} {ls : List Label} (h : k ∈ pushLabel l ls) : l = some k ∨ k ∈ ls := by
  cases l with
  | none => exact .inr h
  | some l =>
    rcases List.mem_cons.1 h with h | h
    · exact .inl (by rw [h])
    · exact .inr h

/-- A `break` that does not count. -/
theorem break_good {S : Sem} {self : Option Label} {depth : Nat} {inner scope : List Label} {l : Option Label}
    {hs : List Hidden} {v : S.V} (h : breakEnds self depth l = false)
    (ok : Ok S self scope (if depth != 0 then brkLabel l else []) hs) :
    Good (A := S.V) depth inner scope (.jump (.brk l v)) := by
  simp only [breakEnds, Bool.or_eq_false_iff] at h
  cases l with
  | none => simpa [Good] using h.1
  | some l =>
    have hd : (depth != 0) = true := by simpa using h.1
    rcases ok.free l (by simp [brkLabel, hd]) with hs | hs
    · exact hs
    · simp [hs] at h

theorem cont_good {V A : Type} {depth : Nat} {inner scope : List Label} {l : Option Label}
    (h : contEnds inner l = false) : Good (V := V) (A := A) depth inner scope (.jump (.cont l)) := by
  cases l with
  | none => trivial
  | some l => simpa [contEnds, Good] using h

section
variable {fa : Facts} {S : Sem}

/-- The claims for all kinds of code, for runs of some depth. -/
structure Sound (fa : Facts) (S : Sem) (n : Nat) : Prop where
  ex : ∀ e self depth inner scope w o w', run S n e w = some (o, w') → fin fa self depth inner e = false →
    Ok S self scope (free (depth != 0) e) (hidden e) → Good depth inner scope o
  all : ∀ es self depth inner scope w o w', runAll S n es w = some (o, w') → finAll fa self depth inner es = false →
    Ok S self scope (freeAll (depth != 0) es) (hiddenAll es) → Good depth inner scope o
  arms : ∀ as self depth inner scope v w o w', runArms S n as v w = some (o, w') →
    finArms fa self depth inner as = false → Ok S self scope (freeArms (depth != 0) as) (hiddenArms as) → Good depth inner scope o
  block : ∀ s self depth inner scope w o w', runBlock S n s w = some (o, w') →
    finBlock fa self depth inner s = false → Ok S self scope (freeBlock (depth != 0) s) (hiddenBlock s) → Good depth inner scope o

theorem sound : ∀ n, Sound fa S n
  | 0 => ⟨fun _ _ _ _ _ _ _ _ h => by simp [run] at h, fun _ _ _ _ _ _ _ _ h => by simp [runAll] at h,
      fun _ _ _ _ _ _ _ _ _ h => by simp [runArms] at h, fun _ _ _ _ _ _ _ _ h => by simp [runBlock] at h⟩
  | n + 1 => by
    have ih := sound n
    refine ⟨?_, ?_, ?_, ?_⟩
    · intro e self depth inner scope w o w' h hf ok
      cases e with
      | ret => cases hf
      | retVal e => cases hf
      | become e => exact (ok.hidden (.become e) (by simp [hidden])).elim
      | cont l => simp only [run] at h; cases h; exact cont_good hf
      | brk l => simp only [run] at h; cases h; exact break_good hf ok
      | brkVal l e =>
        simp only [run] at h
        have hv : NoJump S e := ok.hidden (.value e) (by simp [hidden])
        rcases andThen_some h with ⟨v, w1, h1, h2⟩ | ⟨j, h1, rfl⟩
        · cases h2
          simp only [free, hidden] at ok
          exact break_good hf (Ok.left (hs := []) ⟨ok.free, ok.hidden⟩)
        · exact absurd h1 (hv n w j w')
      | ifThen c t =>
        simp only [run] at h
        simp only [fin, Bool.or_eq_false_iff] at hf
        simp only [free, hidden] at ok
        rcases andThen_some h with ⟨v, w1, h1, h2⟩ | ⟨j, h1, rfl⟩
        · split at h2
          · exact ih.ex t _ _ _ _ _ _ _ h2 hf.2 ok.right
          · cases h2; trivial
        · exact ih.ex c _ _ _ _ _ _ _ h1 hf.1 ok.left
      | ifElse c t e =>
        simp only [run] at h
        simp only [fin, Bool.or_eq_false_iff] at hf
        simp only [free, hidden] at ok
        rcases andThen_some h with ⟨v, w1, h1, h2⟩ | ⟨j, h1, rfl⟩
        · split at h2
          · exact ih.ex t _ _ _ _ _ _ _ h2 hf.1.2 ok.right.left
          · exact ih.ex e _ _ _ _ _ _ _ h2 hf.2 ok.right.right
        · exact ih.ex c _ _ _ _ _ _ _ h1 hf.1.1 ok.left
      | mtch s as =>
        simp only [run] at h
        simp only [fin, Bool.or_eq_false_iff] at hf
        simp only [free, hidden] at ok
        rcases andThen_some h with ⟨v, w1, h1, h2⟩ | ⟨j, h1, rfl⟩
        · exact ih.arms as _ _ _ _ _ _ _ _ h2 hf.2 ok.right
        · exact ih.ex s _ _ _ _ _ _ _ h1 hf.1 ok.left
      | loop l b =>
        simp only [run] at h
        match hb : runBlock S n b w, h with
        | some (.val _, w1), h => exact ih.ex (.loop l b) _ _ _ _ _ _ _ h hf ok
        | some (.jump (.cont k), w1), h =>
          simp only [again] at h
          by_cases hk : toLoop l k = true
          · rw [if_pos hk] at h
            exact ih.ex (.loop l b) _ _ _ _ _ _ _ h hf ok
          · rw [if_neg hk] at h
            cases h
            have hj := ih.block b _ _ _ _ _ _ _ hb hf ok.push
            cases k with
            | none => exact absurd rfl hk
            | some k =>
              rcases mem_push hj with hj | hj
              · simp [toLoop, hj] at hk
              · exact hj
        | some (.jump (.brk k v), w1), h =>
          simp only [again] at h
          by_cases hk : toLoop l k = true
          · rw [if_pos hk] at h
            cases h; trivial
          · rw [if_neg hk] at h
            cases h
            have hj := ih.block b _ _ _ _ _ _ _ hb hf ok.push
            cases k with
            | none => exact absurd rfl hk
            | some k =>
              rcases mem_push hj with hj | hj
              · simp [toLoop, hj] at hk
              · exact hj
        | some (.jump (.ret v), w1), h => exact (ih.block b _ _ _ _ _ _ _ hb hf ok.push).elim
      | block l b =>
        simp only [run] at h
        match hb : runBlock S n b w, h with
        | some (.val _, w1), h => simp only [catchBreak] at h; cases h; trivial
        | some (.jump (.cont k), w1), h =>
          simp only [catchBreak] at h
          cases h
          have hj := ih.block b _ _ _ _ _ _ _ hb hf ok.push
          cases k <;> exact hj
        | some (.jump (.brk none v), w1), h =>
          simp only [catchBreak] at h
          cases h
          have hj := ih.block b _ _ _ _ _ _ _ hb hf ok.push
          exact hj
        | some (.jump (.brk (some k) v), w1), h =>
          simp only [catchBreak] at h
          by_cases hk : l = some k
          · rw [if_pos hk] at h; cases h; trivial
          · rw [if_neg hk] at h
            cases h
            rcases mem_push (ih.block b _ _ _ _ _ _ _ hb hf ok.push) with hj | hj
            · exact absurd hj hk
            · exact hj
        | some (.jump (.ret v), w1), h => exact (ih.block b _ _ _ _ _ _ _ hb hf ok.push).elim
      | lazy and a b =>
        simp only [run] at h
        simp only [fin, Bool.or_eq_false_iff] at hf
        simp only [free, hidden] at ok
        rcases andThen_some h with ⟨v, w1, h1, h2⟩ | ⟨j, h1, rfl⟩
        · split at h2
          · exact ih.ex b _ _ _ _ _ _ _ h2 hf.2 ok.right
          · cases h2; trivial
        · exact ih.ex a _ _ _ _ _ _ _ h1 hf.1 ok.left
      | op k args =>
        simp only [run] at h
        simp only [fin, Bool.or_eq_false_iff] at hf
        rcases andThen_some h with ⟨vs, w1, h1, h2⟩ | ⟨j, h1, rfl⟩
        · cases hr : S.op k vs w1 with
          | none => rw [hr] at h2; cases h2
          | some r => rw [hr] at h2; cases h2; trivial
        · exact (ih.all args _ _ _ _ _ _ _ h1 hf.2 ok).jump
    · intro es self depth inner scope w o w' h hf ok
      cases es with
      | nil => simp only [runAll] at h; cases h; trivial
      | cons e es =>
        simp only [runAll] at h
        simp only [finAll, Bool.or_eq_false_iff] at hf
        simp only [freeAll, hiddenAll] at ok
        rcases andThen_some h with ⟨v, w1, h1, h2⟩ | ⟨j, h1, rfl⟩
        · rcases andThen_some h2 with ⟨vs, w2, h3, h4⟩ | ⟨j, h3, rfl⟩
          · cases h4; trivial
          · exact ih.all es _ _ _ _ _ _ _ h3 hf.2 ok.right
        · exact (ih.ex e _ _ _ _ _ _ _ h1 hf.1 ok.left).jump
    · intro as self depth inner scope v w o w' h hf ok
      cases as with
      | nil => simp [runArms] at h
      | arm p b as =>
        simp only [runArms] at h
        simp only [finArms, Bool.or_eq_false_iff] at hf
        simp only [freeArms, hiddenArms] at ok
        split at h
        · exact ih.ex b _ _ _ _ _ _ _ h hf.1 ok.left
        · exact ih.arms as _ _ _ _ _ _ _ _ h hf.2 ok.right
      | guarded p g b as =>
        simp only [runArms] at h
        simp only [finArms, Bool.or_eq_false_iff] at hf
        simp only [freeArms, hiddenArms] at ok
        split at h
        · rcases andThen_some h with ⟨t, w1, h1, h2⟩ | ⟨j, h1, rfl⟩
          · split at h2
            · exact ih.ex b _ _ _ _ _ _ _ h2 hf.1.2 ok.right.left
            · exact ih.arms as _ _ _ _ _ _ _ _ h2 hf.2 ok.right.right
          · exact ih.ex g _ _ _ _ _ _ _ h1 hf.1.1 ok.left
        · exact ih.arms as _ _ _ _ _ _ _ _ h hf.2 ok.right.right
    · intro s self depth inner scope w o w' h hf ok
      cases s with
      | nil => simp only [runBlock] at h; cases h; trivial
      | last e => exact ih.ex e _ _ _ _ _ _ _ h hf ok
      | expr e s =>
        simp only [runBlock] at h
        simp only [finBlock, Bool.or_eq_false_iff] at hf
        simp only [freeBlock, hiddenBlock] at ok
        rcases andThen_some h with ⟨v, w1, h1, h2⟩ | ⟨j, h1, rfl⟩
        · exact ih.block s _ _ _ _ _ _ _ h2 hf.2 ok.right
        · exact ih.ex e _ _ _ _ _ _ _ h1 hf.1 ok.left
      | let_ p e s =>
        simp only [runBlock] at h
        simp only [finBlock, Bool.or_eq_false_iff] at hf
        simp only [freeBlock, hiddenBlock] at ok
        rcases andThen_some h with ⟨v, w1, h1, h2⟩ | ⟨j, h1, rfl⟩
        · cases hp : S.pat p v w1 with
          | none => rw [hp] at h2; cases h2
          | some w2 =>
            rw [hp] at h2
            exact ih.block s _ _ _ _ _ _ _ h2 hf.2 ok.right
        · exact ih.ex e _ _ _ _ _ _ _ h1 hf.1 ok.left
      | letElse p e els s =>
        simp only [runBlock] at h
        simp only [finBlock, Bool.or_eq_false_iff] at hf
        simp only [freeBlock, hiddenBlock] at ok
        rcases andThen_some h with ⟨v, w1, h1, h2⟩ | ⟨j, h1, rfl⟩
        · split at h2
          · exact ih.block s _ _ _ _ _ _ _ h2 hf.2 ok.right.right
          · match hb : runBlock S n els w1, h2 with
            | some (.jump j, w2), h2 =>
              cases h2
              exact ih.block els _ _ _ _ _ _ _ hb hf.1.2 ok.right.left
            | some (.val _, w2), h2 => cases h2
            | none, h2 => cases h2
        · exact ih.ex e _ _ _ _ _ _ _ h1 hf.1.1 ok.left
end

/-- A loop that is reported as infinite is never left.  Partial: no inner loop has a `break` to a label outside, no
`become`, and values of `break` do not jump. -/
theorem infinite_forever_partial {fa : Facts} {S : Sem} {l : Option Label} {b : Stmts} (h : check fa l b = true)
    (hfree : beyond l b = []) (hhid : ∀ x ∈ hiddenBlock b, Harmless S x) : Forever S l b := by
  simp only [check, Bool.and_eq_true, Bool.not_eq_true'] at h
  have ok : Ok S l [] (freeBlock false b) (hiddenBlock b) := by
    refine ⟨fun k hk => ?_, hhid⟩
    by_cases he : l = some k
    · exact .inr he
    · have : k ∈ beyond l b := by simp [beyond, without, hk, he]
      rw [hfree] at this; cases this
  intro n
  induction n with
  | zero => intro w; simp [run]
  | succ n ih =>
    intro w
    simp only [run]
    match hb : runBlock S n b w with
    | none => rfl
    | some (.val _, w1) => exact ih w1
    | some (.jump (.cont none), w1) => exact ih w1
    | some (.jump (.cont (some k)), w1) =>
      rcases mem_push ((sound n).block b _ _ _ _ _ _ _ hb h.2 ok) with hj | hj
      · simp only [again, toLoop, hj, decide_true, if_true]
        rw [← hj]; exact ih w1
      · cases hj
    | some (.jump (.brk none _), w1) => exact absurd rfl ((sound n).block b _ _ _ _ _ _ _ hb h.2 ok)
    | some (.jump (.brk (some k) _), w1) =>
      have := (sound n).block b _ _ _ _ _ _ _ hb h.2 ok
      cases this
    | some (.jump (.ret _), w1) => exact ((sound n).block b _ _ _ _ _ _ _ hb h.2 ok).elim

end Verif.InfLoop
