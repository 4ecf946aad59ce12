import Verif.ForEach.Model

/-!
# Properties: closures called for each item, and loops over the items
-/

namespace Verif.ForEach

theorem visit_spans (b : Stm) : ∀ d r, r.spans ≤ (visit d b r).spans ∧ (r.inLoop = true → (visit d b r).inLoop = true) := by
  induction b with
  | ret e ih =>
    intro d r
    have := ih d ⟨r.spans + 1, r.inLoop || decide (0 < d)⟩
    simp only [visit]
    exact ⟨by have := this.1; simp only at this; omega, fun h => this.2 (by simp [h])⟩
  | loop f b ih => intro d r; simp only [visit]; exact ih _ r
  | seq a b iha ihb =>
    intro d r
    simp only [visit]
    exact ⟨Nat.le_trans (iha d r).1 (ihb d _).1, fun h => (ihb d _).2 ((iha d r).2 h)⟩
  | cond c a b iha ihb =>
    intro d r
    simp only [visit]
    exact ⟨Nat.le_trans (iha d r).1 (ihb d _).1, fun h => (ihb d _).2 ((iha d r).2 h)⟩
  | _ => intro d r; simp [visit]

/-- The collector sees exactly the `return`s of the closure itself. -/
theorem visit_sees (b : Stm) : ∀ d r,
    ((visit d b r).spans = r.spans ↔ ∀ l, ¬ Returns l b) ∧
    ((visit d b r).inLoop = true ↔ r.inLoop = true ∨ Returns true b ∨ (0 < d ∧ Returns false b)) := by
  induction b with
  | ret e ih =>
    intro d r
    have hm := (visit_spans e d ⟨r.spans + 1, r.inLoop || decide (0 < d)⟩)
    have hi := (ih d ⟨r.spans + 1, r.inLoop || decide (0 < d)⟩).2
    simp only [visit]
    refine ⟨⟨fun h => ?_, fun h => absurd (Returns.here e) (h false)⟩, ?_⟩
    · have := hm.1; simp only at this; omega
    · rw [hi]
      simp only [Bool.or_eq_true, decide_eq_true_eq]
      constructor
      · rintro ((h | h) | h | h)
        · exact Or.inl h
        · exact Or.inr (Or.inr ⟨h, .here e⟩)
        · exact Or.inr (Or.inl (.inner h))
        · exact Or.inr (Or.inr ⟨h.1, .here e⟩)
      · rintro (h | h | h)
        · exact Or.inl (Or.inl h)
        · cases h with
          | inner h => exact Or.inr (Or.inl h)
        · exact Or.inl (Or.inr h.1)
  | loop f b ih =>
    intro d r
    simp only [visit]
    obtain ⟨h1, h2⟩ := ih (d + 1) r
    refine ⟨h1.trans ⟨fun h l hr => ?_, fun h l hr => h true (.loop f hr)⟩, h2.trans ⟨?_, ?_⟩⟩
    · cases hr with
      | loop _ hb => exact h _ hb
    · rintro (h | h | h)
      · exact Or.inl h
      · exact Or.inr (Or.inl (.loop f h))
      · exact Or.inr (Or.inl (.loop f h.2))
    · rintro (h | h | h)
      · exact Or.inl h
      · cases h with
        | @loop l _ _ hb => cases l <;> simp [hb]
      · cases h.2
  | seq a b iha ihb =>
    intro d r
    simp only [visit]
    have h1 := iha d r
    have h2 := ihb d (visit d a r)
    have m1 := (visit_spans a d r).1
    have m2 := (visit_spans b d (visit d a r)).1
    refine ⟨⟨fun h l hr => ?_, fun h => ?_⟩, ?_⟩
    · cases hr with
      | left _ ha => exact h1.1.1 (by omega) _ ha
      | right _ hb => exact h2.1.1 (by omega) _ hb
    · rw [h2.1.2 (fun l hb => h l (.right a hb)), h1.1.2 (fun l ha => h l (.left b ha))]
    · rw [h2.2, h1.2]
      constructor
      · rintro ((h | h | h) | h | h)
        · exact Or.inl h
        · exact Or.inr (Or.inl (.left b h))
        · exact Or.inr (Or.inr ⟨h.1, .left b h.2⟩)
        · exact Or.inr (Or.inl (.right a h))
        · exact Or.inr (Or.inr ⟨h.1, .right a h.2⟩)
      · rintro (h | h | ⟨hd, h⟩)
        · exact Or.inl (Or.inl h)
        · cases h with
          | left _ h => exact Or.inl (Or.inr (Or.inl h))
          | right _ h => exact Or.inr (Or.inl h)
        · cases h with
          | left _ h => exact Or.inl (Or.inr (Or.inr ⟨hd, h⟩))
          | right _ h => exact Or.inr (Or.inr ⟨hd, h⟩)
  | cond c a b iha ihb =>
    intro d r
    simp only [visit]
    have h1 := iha d r
    have h2 := ihb d (visit d a r)
    have m1 := (visit_spans a d r).1
    have m2 := (visit_spans b d (visit d a r)).1
    refine ⟨⟨fun h l hr => ?_, fun h => ?_⟩, ?_⟩
    · cases hr with
      | yes _ _ ha => exact h1.1.1 (by omega) _ ha
      | no _ _ hb => exact h2.1.1 (by omega) _ hb
    · rw [h2.1.2 (fun l hb => h l (.no c a hb)), h1.1.2 (fun l ha => h l (.yes c b ha))]
    · rw [h2.2, h1.2]
      constructor
      · rintro ((h | h | h) | h | h)
        · exact Or.inl h
        · exact Or.inr (Or.inl (.yes c b h))
        · exact Or.inr (Or.inr ⟨h.1, .yes c b h.2⟩)
        · exact Or.inr (Or.inl (.no c a h))
        · exact Or.inr (Or.inr ⟨h.1, .no c a h.2⟩)
      · rintro (h | h | ⟨hd, h⟩)
        · exact Or.inl (Or.inl h)
        · cases h with
          | yes _ _ h => exact Or.inl (Or.inr (Or.inl h))
          | no _ _ h => exact Or.inr (Or.inl h)
        · cases h with
          | yes _ _ h => exact Or.inl (Or.inr (Or.inr ⟨hd, h⟩))
          | no _ _ h => exact Or.inr (Or.inr ⟨hd, h⟩)
  | skip => intro d r; refine ⟨⟨(fun _ l h => by cases h), fun _ => rfl⟩, ⟨fun h => Or.inl h, ?_⟩⟩; rintro (h | h | ⟨_, h⟩); exact h; all_goals cases h
  | set x f => intro d r; refine ⟨⟨(fun _ l h => by cases h), fun _ => rfl⟩, ⟨fun h => Or.inl h, ?_⟩⟩; rintro (h | h | ⟨_, h⟩); exact h; all_goals cases h
  | print f => intro d r; refine ⟨⟨(fun _ l h => by cases h), fun _ => rfl⟩, ⟨fun h => Or.inl h, ?_⟩⟩; rintro (h | h | ⟨_, h⟩); exact h; all_goals cases h
  | brk => intro d r; refine ⟨⟨(fun _ l h => by cases h), fun _ => rfl⟩, ⟨fun h => Or.inl h, ?_⟩⟩; rintro (h | h | ⟨_, h⟩); exact h; all_goals cases h
  | cont => intro d r; refine ⟨⟨(fun _ l h => by cases h), fun _ => rfl⟩, ⟨fun h => Or.inl h, ?_⟩⟩; rintro (h | h | ⟨_, h⟩); exact h; all_goals cases h
  | call b _ => intro d r; refine ⟨⟨(fun _ l h => by cases h), fun _ => rfl⟩, ⟨fun h => Or.inl h, ?_⟩⟩; rintro (h | h | ⟨_, h⟩); exact h; all_goals cases h

/-- C135: a suggestion is made exactly for short chains over types of the standard library with a body that is not unsafe and has no
`return` in a loop; it is machine applicable exactly if there is no `return` at all and the type of the parameter is written. -/
theorem reported (c : Call) :
    ((check c).isSome = true ↔ (c.recv = .array ∨ c.recv = .call ∨ c.recv = .path) ∧ c.std = true ∧ c.isUnsafe = false ∧ ¬ Returns true c.body) ∧
    (∀ s, check c = some s → (s.machine = true ↔ c.typed = true ∧ ∀ l, ¬ Returns l c.body)) := by
  have hv := visit_sees c.body 0 ⟨0, false⟩
  have hrec : shortChain c.recv = true ↔ c.recv = .array ∨ c.recv = .call ∨ c.recv = .path := by
    cases c.recv <;> simp [shortChain]
  have hl : (visit 0 c.body ⟨0, false⟩).inLoop = true ↔ Returns true c.body := by
    rw [hv.2]
    simp
  unfold check
  by_cases hg : (shortChain c.recv && c.std && !c.isUnsafe) = true
  · rw [if_pos hg]
    have hg' : (c.recv = .array ∨ c.recv = .call ∨ c.recv = .path) ∧ c.std = true ∧ c.isUnsafe = false := by
      simp only [Bool.and_eq_true, Bool.not_eq_true'] at hg
      exact ⟨hrec.1 hg.1.1, hg.1.2, hg.2⟩
    by_cases hr : (visit 0 c.body ⟨0, false⟩).inLoop = true
    · simp only [if_pos hr]
      refine ⟨⟨(fun h => by cases h), fun h => absurd (hl.1 hr) h.2.2.2⟩, fun s h => by cases h⟩
    · simp only [if_neg hr]
      have hn := fun h => hr (hl.2 h)
      by_cases hs : (visit 0 c.body ⟨0, false⟩).spans = 0
      · rw [if_pos hs]
        refine ⟨⟨fun _ => ⟨hg'.1, hg'.2.1, hg'.2.2, hn⟩, fun _ => rfl⟩, ?_⟩
        intro s h
        cases h
        exact ⟨fun h => ⟨h, hv.1.1 hs⟩, fun h => h.1⟩
      · rw [if_neg hs]
        refine ⟨⟨fun _ => ⟨hg'.1, hg'.2.1, hg'.2.2, hn⟩, fun _ => rfl⟩, ?_⟩
        intro s h
        cases h
        exact ⟨(fun h => by cases h), fun h => absurd (hv.1.2 h.2) hs⟩
  · rw [if_neg hg]
    refine ⟨⟨(fun h => by cases h), fun h => ?_⟩, fun s h => by cases h⟩
    exfalso
    apply hg
    simp [hrec.2 h.1, h.2.1, h.2.2.1]

/-- Objects for the examples: function 0 gives the item, function 1 the sum of the item and of variable 0; condition 0: the item is 3. -/
def I : Sem := ⟨fun f it v => if f = 0 then it else it + v 0, fun _ it _ => it == 3⟩
/-- `if item == 3 { return; } x += item; print(x)` -/
def body : Stm := .seq (.cond 0 (.ret .skip) .skip) (.seq (.set 0 1) (.print 1))

example : check ⟨.path, true, false, false, false, body⟩ =
    some ⟨.seq (.cond 0 .cont .skip) (.seq (.set 0 1) (.print 1)), false⟩ := by decide +kernel

/-- A loop of which the turns do not return does not return, and no `break` or `continue` leaves it. -/
theorem turns_ends (f : St → St × Out) (n : Nat) : ∀ s, (turns f n s).2 ≠ .brk ∧ (turns f n s).2 ≠ .cont := by
  induction n with
  | zero => intro s; simp [turns]
  | succ n ih =>
    intro s
    simp only [turns]
    split
    · exact ih _
    · exact ih _
    · simp
    · simp

/-- Without a loop around it a legal statement does not end with `break` or `continue`. -/
theorem legal_ends (I : Sem) (it : Nat) (b : Stm) : Legal false b → ∀ s, (run I it b s).2 ≠ .brk ∧ (run I it b s).2 ≠ .cont := by
  induction b with
  | seq a b iha ihb =>
    intro hl s
    simp only [run]
    have := iha hl.1 s
    rcases hr : run I it a s with ⟨s', o⟩
    rw [hr] at this
    cases o with
    | norm => exact ihb hl.2 s'
    | _ => exact this
  | cond c a b iha ihb =>
    intro hl s
    simp only [run]
    split
    · exact iha hl.1 s
    · exact ihb hl.2 s
  | loop f b _ => intro _ s; exact turns_ends _ _ s
  | brk => intro hl; cases hl
  | cont => intro hl; cases hl
  | ret e ih =>
    intro hl s
    simp only [run]
    have := ih hl s
    rcases hr : run I it e s with ⟨s', o⟩
    rw [hr] at this
    cases o with
    | norm => simp
    | _ => exact this
  | _ => intro _ s; simp [run]

/-- `continue` instead of `return`. -/
def swap : Out → Out
  | .ret => .cont
  | o => o

/-- Without a `return` of its own a body is unchanged. -/
theorem replace_none (b : Stm) (h : ∀ l, ¬ Returns l b) : replace b = b := by
  induction b with
  | seq a b iha ihb => simp only [replace]; rw [iha (fun l hr => h l (.left b hr)), ihb (fun l hr => h l (.right a hr))]
  | cond c a b iha ihb => simp only [replace]; rw [iha (fun l hr => h l (.yes c b hr)), ihb (fun l hr => h l (.no c a hr))]
  | loop f b ih => simp only [replace]; rw [ih (fun l hr => h true (.loop f hr))]
  | ret e _ => exact absurd (.here e) (h false)
  | _ => rfl

/-- Without a `return` of its own a body does not return. -/
theorem no_ret (I : Sem) (it : Nat) (b : Stm) : (∀ l, ¬ Returns l b) → ∀ s, (run I it b s).2 ≠ .ret := by
  induction b with
  | seq a b iha ihb =>
    intro h s
    simp only [run]
    have := iha (fun l hr => h l (.left b hr)) s
    rcases hr : run I it a s with ⟨s', o⟩
    rw [hr] at this
    cases o with
    | norm => exact ihb (fun l hr => h l (.right a hr)) s'
    | _ => exact this
  | cond c a b iha ihb =>
    intro h s
    simp only [run]
    split
    · exact iha (fun l hr => h l (.yes c b hr)) s
    · exact ihb (fun l hr => h l (.no c a hr)) s
  | loop f b ih =>
    intro h s
    have hb := ih (fun l hr => h true (.loop f hr))
    have : ∀ n s, (turns (run I it b) n s).2 ≠ .ret := by
      intro n
      induction n with
      | zero => intro s; simp [turns]
      | succ n ihn =>
        intro s
        simp only [turns]
        have := hb s
        rcases hr : run I it b s with ⟨s', o⟩
        rw [hr] at this
        cases o with
        | norm => exact ihn s'
        | cont => exact ihn s'
        | brk => simp
        | ret => exact absurd rfl this
    exact this _ s
  | ret e _ => intro h; exact absurd (.here e) (h false)
  | _ => intro _ s; simp [run]

/-- Plain returns outside of loops turned into `continue` do the same. -/
theorem replace_run (I : Sem) (it : Nat) (b : Stm) : Plain b → ¬ Returns true b →
    ∀ s, run I it (replace b) s = ((run I it b s).1, swap (run I it b s).2) ∨ ((run I it b s).2 = .norm ∧ run I it (replace b) s = run I it b s) ∨
      (run I it (replace b) s = run I it b s ∧ (run I it b s).2 ≠ .ret) := by
  induction b with
  | seq a b iha ihb =>
    intro hp hn s
    simp only [replace, run]
    have h1 := iha hp.1 (fun hr => hn (.left b hr)) s
    have h2 := ihb hp.2 (fun hr => hn (.right a hr))
    rcases hr : run I it a s with ⟨s', o⟩
    rw [hr] at h1
    have h1' : run I it (replace a) s = (s', swap o) := by
      rcases h1 with h1 | ⟨ho, h1⟩ | ⟨h1, ho⟩
      · exact h1
      · simp only at ho; subst ho; exact h1
      · rw [h1]; cases o <;> first | rfl | exact absurd rfl ho
    rw [h1']
    cases o with
    | norm => exact h2 s'
    | _ => exact Or.inl rfl
  | cond c a b iha ihb =>
    intro hp hn s
    simp only [replace, run]
    split
    · exact iha hp.1 (fun hr => hn (.yes c b hr)) s
    · exact ihb hp.2 (fun hr => hn (.no c a hr)) s
  | loop f b ih =>
    intro hp hn s
    have hb : ∀ l, ¬ Returns l b := fun l hr => hn (.loop f hr)
    have h1 : replace (.loop f b) = .loop f b := by simp only [replace]; rw [replace_none b hb]
    have h2 : ∀ l, ¬ Returns l (.loop f b) := by
      intro l hr
      cases hr with
      | loop _ h => exact hb _ h
    exact Or.inr (Or.inr ⟨by rw [h1], no_ret I it _ h2 s⟩)
  | ret e _ =>
    intro hp _ s
    simp only [Plain] at hp
    subst hp
    exact Or.inl rfl
  | _ => intro _ _ s; first | exact Or.inl rfl

theorem replace_run' (I : Sem) (it : Nat) (b : Stm) (hp : Plain b) (hn : ¬ Returns true b) (s : St) :
    run I it (replace b) s = ((run I it b s).1, swap (run I it b s).2) := by
  rcases replace_run I it b hp hn s with h | ⟨ho, h⟩ | ⟨h, ho⟩
  · exact h
  · rw [h]
    rcases hr : run I it b s with ⟨s', o⟩
    rw [hr] at ho
    simp only at ho
    subst ho
    rfl
  · rw [h]
    rcases hr : run I it b s with ⟨s', o⟩
    rw [hr] at ho
    cases o <;> first | rfl | exact absurd rfl ho

/-- A suggested body is the body with its returns replaced. -/
theorem check_body (c : Call) (s : Sugg) (h : check c = some s) : s.body = replace c.body ∧ ¬ Returns true c.body := by
  have hr := (reported c).1.1 (by rw [h]; rfl)
  refine ⟨?_, hr.2.2.2⟩
  have hv := visit_sees c.body 0 ⟨0, false⟩
  unfold check at h
  by_cases hg : (shortChain c.recv && c.std && !c.isUnsafe) = true
  · rw [if_pos hg] at h
    by_cases hi : (visit 0 c.body ⟨0, false⟩).inLoop = true
    · simp only [if_pos hi] at h; cases h
    · simp only [if_neg hi] at h
      by_cases hs : (visit 0 c.body ⟨0, false⟩).spans = 0
      · rw [if_pos hs] at h
        cases h
        exact (replace_none _ (hv.1.1 hs)).symm
      · rw [if_neg hs] at h
        cases h
        rfl
  · rw [if_neg hg] at h; cases h

/-- Full claim: the suggested loop does what `for_each` does, item by item, and never leaves the function around it. Proved for
closures that are not `move` and return nothing but `()` written as `return`; `effect_lost` and `move_wrong` are the rest. -/
theorem suggested_partial (I : Sem) (c : Call) (hm : c.move = false) (hl : Legal false c.body) (hp : Plain c.body) (s : Sugg)
    (h : check c = some s) (items : List Nat) : ∀ st, forLoop I s.body items st = (called I c.move c.body items st, true) := by
  rw [hm]
  show ∀ st, forLoop I s.body items st = (forEach I c.body items st, true)
  obtain ⟨hb, hn⟩ := check_body c s h
  rw [hb]
  induction items with
  | nil => intro st; rfl
  | cons it r ih =>
    intro st
    simp only [forLoop, forEach]
    rw [replace_run' I it c.body hp hn st]
    have := legal_ends I it c.body hl st
    rcases hr : run I it c.body st with ⟨s', o⟩
    rw [hr] at this
    cases o with
    | norm => exact ih s'
    | ret => exact ih s'
    | brk => exact absurd rfl this.1
    | cont => exact absurd rfl this.2

example : Legal false body ∧ Plain body ∧ (forEach I body [1, 3, 2] ⟨fun _ => 0, []⟩).out = [2, 5] := by
  refine ⟨by simp [body, Legal], by simp [body, Plain], by decide +kernel⟩

/-- C135: a `move` closure that only prints and does not assign may be replaced as well: what is printed is the same, and so are the
variables if the loop leaves them alone. -/
theorem move_partial (I : Sem) (c : Call) (hl : Legal false c.body) (hp : Plain c.body) (s : Sugg) (h : check c = some s) (items : List Nat)
    (st : St) : (forLoop I s.body items st).1.out = (called I true c.body items st).out ∧
      ((forEach I c.body items st).vars = st.vars → (forLoop I s.body items st).1 = called I true c.body items st) := by
  have h' : check { c with move := false } = some s := h
  have := suggested_partial I { c with move := false } rfl hl hp s h' items st
  rw [this]
  refine ⟨rfl, fun hv => ?_⟩
  simp only [called, forEachMove, if_true, Bool.false_eq_true, if_false]
  rcases hr : forEach I c.body items st with ⟨v, o⟩
  rw [hr] at hv
  simp only at hv
  rw [hv]

example : (forEachMove I (.print 0) [1, 2] ⟨fun _ => 0, []⟩).out = [1, 2] := by decide +kernel

/-! ## Findings -/

/-- The loop must not return from the function around it: `return` in a loop in the body would have to become `continue` with a
label, and nothing is suggested. -/
theorem loops_left_alone (c : Call) (h : Returns true c.body) : check c = none := by
  cases hc : check c with
  | none => rfl
  | some s => exact absurd h (check_body c s hc).2

example : Returns true (.loop 0 (.ret .skip)) := .loop 0 (.here _)

/-- `return print(item)`: the whole is replaced by `continue`, and nothing is printed any more. -/
theorem effect_lost : check ⟨.path, true, false, true, false, .ret (.print 0)⟩ = some ⟨.cont, false⟩ ∧
    (forEach I (.ret (.print 0)) [1, 2] ⟨fun _ => 0, []⟩).out = [1, 2] ∧ (forLoop I .cont [1, 2] ⟨fun _ => 0, []⟩).1.out = [] := by
  decide +kernel

/-- `for_each(move |item: T| x += item)` counts in a copy of `x`; the loop suggested counts in `x` itself. -/
theorem move_wrong : check ⟨.path, true, false, true, true, .set 0 1⟩ = some ⟨.set 0 1, true⟩ ∧
    (forEachMove I (.set 0 1) [1, 2] ⟨fun _ => 0, []⟩).vars 0 = 0 ∧ (forLoop I (.set 0 1) [1, 2] ⟨fun _ => 0, []⟩).1.vars 0 = 3 := by
  decide +kernel

/-- The suggestion is marked machine applicable when the type of the parameter is written, which it drops, and is not when it is not. -/
theorem typed_machine (b : Stm) (h : ∀ l, ¬ Returns l b) (mv : Bool) :
    check ⟨.path, true, false, true, mv, b⟩ = some ⟨b, true⟩ ∧ check ⟨.path, true, false, false, mv, b⟩ = some ⟨b, false⟩ := by
  have hv := visit_sees b 0 ⟨0, false⟩
  have h0 : (visit 0 b ⟨0, false⟩).spans = 0 := hv.1.2 h
  have h1 : (visit 0 b ⟨0, false⟩).inLoop = false := by
    cases hh : (visit 0 b ⟨0, false⟩).inLoop with
    | false => rfl
    | true =>
      rcases hv.2.1 hh with h' | h' | h'
      · cases h'
      · exact absurd h' (h true)
      · exact absurd h'.2 (h false)
  simp [check, shortChain, h0, h1]

example : ∀ l, ¬ Returns l (.call (.ret .skip)) := by
  intro l h
  cases h

end Verif.ForEach
