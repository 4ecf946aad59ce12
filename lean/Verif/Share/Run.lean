import Verif.Share.Spec

/-!
# Lemmas about programs
-/

namespace Verif.Share

def TStmt.binders : TStmt → List Name
  | .let_ _ xs _ => xs
  | .expr _ => []

def TStmt.code : TStmt → TCode
  | .let_ _ _ c => c
  | .expr c => c

theorem text_binders {nm : Id → Name} (s : Stmt) : (s.text nm).binders = s.binders.map nm := by cases s <;> rfl
theorem text_code {nm : Id → Name} (s : Stmt) : (s.text nm).code = s.code.text nm := by cases s <;> rfl

/-- Names whose meaning outside matters. -/
def Free : List TStmt → Option TCode → Name → Prop
  | [], t, x => ∃ c, t = some c ∧ x ∈ c.uses
  | s :: ss, t, x => x ∈ s.code.uses ∨ (x ∉ s.binders ∧ Free ss t x)

section
variable {ρ V : Type} {S : Sys ρ V}

theorem bindAll_world {p : Nat} {v : V} : ∀ {xs : List Name} {i : Nat} {E E' : Env} {w : World ρ V},
    (bindAll S p v xs i E w).2 = (bindAll S p v xs i E' w).2
  | [], _, _, _, _ => rfl
  | x :: xs, i, E, E', w => by simp only [bindAll]; exact bindAll_world

theorem bindAll_agree {p : Nat} {v : V} : ∀ {xs : List Name} {i : Nat} {E E' : Env} {w : World ρ V} {y : Name},
    (y ∉ xs → E y = E' y) → (bindAll S p v xs i E w).1 y = (bindAll S p v xs i E' w).1 y
  | [], _, _, _, _, y, h => h (by simp)
  | x :: xs, i, E, E', w, y, h => by
    simp only [bindAll]
    apply bindAll_agree
    intro hy
    by_cases hx : y = x
    · simp [hx]
    · simp only [hx, if_false]; exact h (by simp [hx, hy])

theorem bindAll_other {p : Nat} {v : V} : ∀ {xs : List Name} {i : Nat} {E : Env} {w : World ρ V} {y : Name},
    y ∉ xs → (bindAll S p v xs i E w).1 y = E y
  | [], _, _, _, _, _ => rfl
  | x :: xs, i, E, w, y, h => by
    simp only [List.mem_cons, not_or] at h
    simp only [bindAll]
    rw [bindAll_other h.2]
    simp [h.1]

/-- New places are new. -/
theorem bindAll_new {p : Nat} {v : V} : ∀ {xs : List Name} {i : Nat} {E : Env} {w : World ρ V},
    w.next ≤ (bindAll S p v xs i E w).2.next ∧
    (∀ l, l < w.next → (bindAll S p v xs i E w).2.mem l = w.mem l) ∧
    ∀ y, (bindAll S p v xs i E w).1 y = E y ∨ w.next ≤ (bindAll S p v xs i E w).1 y
  | [], _, _, _ => ⟨Nat.le_refl _, fun _ _ => rfl, fun _ => .inl rfl⟩
  | x :: xs, i, E, w => by
    simp only [bindAll]
    obtain ⟨h1, h2, h3⟩ := bindAll_new (p := p) (v := v) (xs := xs) (i := i + 1)
      (E := fun y => if y = x then w.next else E y)
      (w := ⟨w.next + 1, fun l => if l = w.next then S.part p v i else w.mem l, w.rest⟩)
    refine ⟨by simp only at h1; omega, fun l hl => ?_, fun y => ?_⟩
    · rw [h2 l (by simp only; omega)]
      simp only [if_neg (show ¬ l = w.next by omega)]
    · rcases h3 y with h | h
      · rw [h]
        by_cases hy : y = x
        · simp [hy]
        · simp [hy]
      · simp only at h; exact .inr (by omega)

theorem runStmts_append {a b : List TStmt} {E : Env} {w : World ρ V} :
    runStmts S (a ++ b) E w = match (runStmts S a E w).2 with
      | .ok E' => runStmts S b E' (runStmts S a E w).1
      | .error n => ((runStmts S a E w).1, .error n) := by
  induction a generalizing E w with
  | nil => rfl
  | cons s ss ih =>
    simp only [List.cons_append, runStmts]
    cases (runStmt S s E w).2 with
    | ok E' => exact ih
    | error n => rfl

theorem runCode_agree {c : TCode} {E E' : Env} {w : World ρ V} (h : ∀ x ∈ c.uses, E x = E' x) :
    runCode S c E w = runCode S c E' w := by
  have : c.uses.map E = c.uses.map E' := List.map_congr_left h
  unfold runCode
  rw [this]

theorem runBlock_agree {t : Option TCode} : ∀ {ss : List TStmt} {E E' : Env} {w : World ρ V},
    (∀ x, Free ss t x → E x = E' x) → runBlock S ⟨ss, t⟩ E w = runBlock S ⟨ss, t⟩ E' w
  | [], E, E', w, h => by
    cases t with
    | none => rfl
    | some c =>
      simp only [runBlock, runStmts, runTail]
      exact runCode_agree fun x hx => h x ⟨c, rfl, hx⟩
  | s :: ss, E, E', w, h => by
    have hc : runCode S s.code E w = runCode S s.code E' w := runCode_agree fun x hx => h x (.inl hx)
    cases s with
    | expr c =>
      simp only [TStmt.code] at hc
      simp only [runBlock, runStmts, runStmt, hc]
      cases (runCode S c E' w).2 with
      | exit n => rfl
      | val v => exact runBlock_agree fun x hx => h x (.inr ⟨by simp [TStmt.binders], hx⟩)
    | let_ p xs c =>
      simp only [TStmt.code] at hc
      simp only [runBlock, runStmts, runStmt, hc]
      cases (runCode S c E' w).2 with
      | exit n => rfl
      | val v =>
        simp only
        rw [bindAll_world (E := E) (E' := E')]
        refine runBlock_agree (t := t) (ss := ss) fun x hx => bindAll_agree fun hn => h x (.inr ⟨hn, hx⟩)

/-- Statements do not change the meaning of names they do not declare. -/
theorem runStmts_env : ∀ {ss : List TStmt} {E E' : Env} {w : World ρ V} {x : Name}, (runStmts S ss E w).2 = .ok E' →
    (∀ s ∈ ss, x ∉ s.binders) → E' x = E x
  | [], E, E', w, x, h, _ => by simp only [runStmts] at h; cases h; rfl
  | s :: ss, E, E', w, x, h, hx => by
    simp only [runStmts] at h
    have hs := hx s (by simp)
    cases s with
    | expr c =>
      simp only [runStmt] at h
      cases hc : (runCode S c E w).2 with
      | exit n => simp only [hc] at h; exact nomatch h
      | val v =>
        simp only [hc] at h
        exact runStmts_env h fun s hs => hx s (List.mem_cons_of_mem _ hs)
    | let_ p xs c =>
      simp only [runStmt] at h
      cases hc : (runCode S c E w).2 with
      | exit n => simp only [hc] at h; exact nomatch h
      | val v =>
        simp only [hc] at h
        rw [runStmts_env h fun s hs => hx s (List.mem_cons_of_mem _ hs)]
        exact bindAll_other hs

theorem runStmts_calm {imm : Nat → Nat → Bool} (hF : Frame S imm) {X : Name → Prop} :
    ∀ {ss : List TStmt} {E E' : Env} {w : World ρ V}, Sep X E w →
    (∀ s ∈ ss, (∀ x, X x → x ∉ s.binders) ∧ ∀ (i : Nat) x, s.code.uses[i]? = some x → X x → imm s.code.op i = true) →
    (runStmts S ss E w).2 = .ok E' → ∀ x, X x → (runStmts S ss E w).1.mem (E' x) = w.mem (E x)
  | [], E, E', w, _, _, h, x, hx => by simp only [runStmts] at h ⊢; cases h; rfl
  | s :: ss, E, E', w, hS, hc, h, x, hx => by
    have hmem : ∀ x, X x → (runCode S s.code E w).1.mem (E x) = w.mem (E x) := by
      intro x hx
      refine hF _ _ _ _ _ fun i hi => ?_
      simp only [List.getElem?_map, Option.map_eq_some_iff] at hi
      obtain ⟨y, hy, hyx⟩ := hi
      have := (hS x hx).2 y hyx
      subst this
      exact (hc s (by simp)).2 i y hy hx
    have hb := (hc s (by simp)).1
    have hrest := fun t (ht : t ∈ ss) => hc t (List.mem_cons_of_mem _ ht)
    cases s with
    | expr c =>
      simp only [runStmts, runStmt] at h ⊢
      cases hr : (runCode S c E w).2 with
      | exit n => simp only [hr] at h; exact nomatch h
      | val v =>
        simp only [hr] at h ⊢
        rw [runStmts_calm hF (E := E) (w := (runCode S c E w).1) hS hrest h x hx]
        exact hmem x hx
    | let_ p xs c =>
      simp only [runStmts, runStmt] at h ⊢
      cases hr : (runCode S c E w).2 with
      | exit n => simp only [hr] at h; exact nomatch h
      | val v =>
        simp only [hr] at h ⊢
        obtain ⟨n1, n2, n3⟩ := bindAll_new (S := S) (p := p) (v := v) (xs := xs) (i := 0) (E := E)
          (w := (runCode S c E w).1)
        have ho : ∀ x, X x → (bindAll S p v xs 0 E (runCode S c E w).1).1 x = E x := fun x hx => bindAll_other (hb x hx)
        have hS' : Sep X (bindAll S p v xs 0 E (runCode S c E w).1).1 (bindAll S p v xs 0 E (runCode S c E w).1).2 := by
          intro x hx
          rw [ho x hx]
          have hlt : E x < (runCode S c E w).1.next := (hS x hx).1
          refine ⟨by omega, fun y hy => ?_⟩
          rcases n3 y with h | h
          · exact (hS x hx).2 y (by rw [← h]; exact hy)
          · omega
        rw [runStmts_calm hF hS' hrest h x hx, ho x hx, n2 _ (hS x hx).1]
        exact hmem x hx

theorem choose_quiet : ∀ {conds : List TCode}, Quiet S conds → ∀ (E : Env) (w : World ρ V),
    (choose S conds E w).1 = w ∧ (∃ i, (choose S conds E w).2 = .ok i ∧ i ≤ conds.length) ∧
    ∀ E' w', (∀ c ∈ conds, ∀ x ∈ c.uses, w'.mem (E' x) = w.mem (E x)) → (choose S conds E' w').2 = (choose S conds E w).2
  | [], _, E, w => ⟨rfl, ⟨0, rfl, by simp⟩, fun _ _ _ => rfl⟩
  | c :: cs, hQ, E, w => by
    obtain ⟨f, hf⟩ := hQ c (by simp)
    have hw : ∀ E w, runCode S c E w = (w, .val (f ((c.uses.map E).map w.mem))) := by
      intro E w; simp only [runCode, hf]
    obtain ⟨i1, ⟨i, i2, i3⟩, i4⟩ := choose_quiet (conds := cs) (fun d hd => hQ d (List.mem_cons_of_mem _ hd)) E w
    simp only [choose, hw]
    refine ⟨?_, ?_, fun E' w' hE => ?_⟩
    · split
      · rfl
      · exact i1
    · split
      · exact ⟨0, rfl, by simp⟩
      · exact ⟨i + 1, by rw [i2]; rfl, by simpa using i3⟩
    · have : (c.uses.map E').map w'.mem = (c.uses.map E).map w.mem := by
        simp only [List.map_map]
        exact List.map_congr_left fun x hx => hE c (by simp) x hx
      rw [this]
      split
      · rfl
      · simp only
        rw [i4 E' w' fun d hd => hE d (List.mem_cons_of_mem _ hd)]
end

end Verif.Share
