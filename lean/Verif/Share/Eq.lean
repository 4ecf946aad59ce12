import Verif.Share.Model
import Verif.Share.Spec

/-!
# The comparison of statements
-/

namespace Verif.Share

variable {nm : Id → Name}

/-- Corresponding variables have the same name. -/
def NameInv (nm : Id → Name) (L : Locals) : Prop := ∀ l r, L l = some r → nm l = nm r

theorem eqUses_rel {L : Locals} : ∀ {us vs : List Id}, eqUses L us vs = true →
    us.length = vs.length ∧ ∀ (k : Nat) u v, us[k]? = some u → vs[k]? = some v → u = v ∨ L u = some v
  | [], [], _ => ⟨rfl, fun k u v h => by simp at h⟩
  | [], _ :: _, h => nomatch h
  | _ :: _, [], h => nomatch h
  | u :: us, v :: vs, h => by
    simp only [eqUses, Bool.and_eq_true, Bool.or_eq_true, beq_iff_eq] at h
    have ih := eqUses_rel h.2
    refine ⟨by simp [ih.1], fun k a b ha hb => ?_⟩
    cases k with
    | zero => simp at ha hb; subst ha; subst hb; exact h.1
    | succ k => simp at ha hb; exact ih.2 k a b ha hb

theorem eqUses_names {L : Locals} (hn : NameInv nm L) : ∀ {us vs : List Id}, eqUses L us vs = true →
    us.map nm = vs.map nm
  | [], [], _ => rfl
  | [], _ :: _, h => nomatch h
  | _ :: _, [], h => nomatch h
  | u :: us, v :: vs, h => by
    simp only [eqUses, Bool.and_eq_true, Bool.or_eq_true, beq_iff_eq] at h
    simp only [List.map_cons, eqUses_names hn h.2]
    rcases h.1 with h | h
    · rw [h]
    · rw [hn _ _ h]

theorem setAll_some : ∀ {xs ys : List Id} {L : Locals} {l r : Id}, L.setAll xs ys l = some r →
    L l = some r ∨ (l ∈ xs ∧ r ∈ ys)
  | [], _, L, l, r, h => .inl (by simpa [Locals.setAll] using h)
  | _ :: _, [], L, l, r, h => .inl (by simpa [Locals.setAll] using h)
  | x :: xs, y :: ys, L, l, r, h => by
    rcases setAll_some (L := L.set x y) h with h | h
    · unfold Locals.set at h
      by_cases hx : l = x
      · rw [if_pos hx] at h; cases h; exact .inr ⟨by simp [hx], by simp⟩
      · rw [if_neg hx] at h; exact .inl h
    · exact .inr ⟨List.mem_cons_of_mem _ h.1, List.mem_cons_of_mem _ h.2⟩

theorem setAll_other : ∀ {xs ys : List Id} {L : Locals} {l : Id}, l ∉ xs → L.setAll xs ys l = L l
  | [], _, L, l, _ => rfl
  | _ :: _, [], L, l, _ => rfl
  | x :: xs, y :: ys, L, l, h => by
    simp only [List.mem_cons, not_or] at h
    simp only [Locals.setAll]
    rw [setAll_other h.2]
    simp only [Locals.set, if_neg h.1]

theorem setAll_names {L : Locals} (hn : NameInv nm L) : ∀ {xs ys : List Id}, xs.map nm = ys.map nm →
    NameInv nm (L.setAll xs ys) := by
  intro xs
  induction xs generalizing L with
  | nil => intro ys _; exact hn
  | cons x xs ih =>
    intro ys h
    cases ys with
    | nil => exact hn
    | cons y ys =>
      simp only [List.map_cons, List.cons.injEq] at h
      refine ih (L := L.set x y) (fun l r hl => ?_) h.2
      unfold Locals.set at hl
      by_cases hx : l = x
      · rw [if_pos hx] at hl; cases hl; rw [hx]; exact h.1
      · rw [if_neg hx] at hl; exact hn _ _ hl

/-- A variable of the pattern corresponds to one of the other pattern. -/
theorem setAll_mem : ∀ {xs ys : List Id} {L : Locals} {l : Id}, l ∈ xs → xs.length = ys.length →
    ∃ r ∈ ys, L.setAll xs ys l = some r
  | [], _, _, _, h, _ => nomatch h
  | _ :: _, [], _, _, _, h => nomatch h
  | x :: xs, y :: ys, L, l, h, hl => by
    simp only [Locals.setAll]
    by_cases hm : l ∈ xs
    · obtain ⟨r, h1, h2⟩ := setAll_mem (L := L.set x y) hm (by simpa using hl)
      exact ⟨r, List.mem_cons_of_mem _ h1, h2⟩
    · rw [setAll_other hm]
      simp only [List.mem_cons, hm, or_false] at h
      exact ⟨y, by simp, by simp [Locals.set, h]⟩

/-- A statement that is equal to one without variables has none. -/
theorem eqStmt_nil {L L' : Locals} {t s : Stmt} (h : eqStmt L t s = some L') (hs : s.binders = []) : t.binders = [] := by
  unfold eqStmt at h
  split at h
  · rename_i n p xs c n' q ys d
    by_cases hc : (eqCode L c d && p == q && xs.length == ys.length) = true
    · simp only [Bool.and_eq_true, beq_iff_eq] at hc
      simp only [Stmt.binders] at hs ⊢
      have := hc.2
      rw [hs] at this
      simpa using this
    · rw [if_neg hc] at h; exact nomatch h
  · rfl
  · exact nomatch h

/-- What `eqStmt` says. -/
structure EqStmt (nm : Id → Name) (L : Locals) (t s : Stmt) (L' : Locals) : Prop where
  text : NameInv nm L → t.binders.map nm = s.binders.map nm ∨ s.binders = [] → t.text nm = s.text nm ∧ NameInv nm L'
  rel : ∀ (k : Nat) u v, t.code.uses[k]? = some u → s.code.uses[k]? = some v → u = v ∨ L u = some v
  len : t.code.uses.length = s.code.uses.length
  pairs : ∀ l r, L' l = some r → L l = some r ∨ (l ∈ t.binders ∧ r ∈ s.binders)
  other : ∀ l, l ∉ t.binders → L' l = L l
  mem : ∀ l ∈ t.binders, ∃ r ∈ s.binders, L' l = some r

theorem eqStmt_spec {L L' : Locals} {t s : Stmt} (h : eqStmt L t s = some L') : EqStmt nm L t s L' := by
  unfold eqStmt at h
  split at h
  · rename_i n p xs c n' q ys d
    by_cases hc : (eqCode L c d && p == q && xs.length == ys.length) = true
    · rw [if_pos hc] at h
      cases h
      simp only [Bool.and_eq_true, beq_iff_eq, eqCode] at hc
      obtain ⟨⟨⟨ho, hu⟩, hp⟩, hl⟩ := hc
      have hb' : xs.map nm = ys.map nm ∨ ys = [] → xs.map nm = ys.map nm := fun h => by
        rcases h with h | h
        · exact h
        · subst h; simp at hl; subst hl; rfl
      refine ⟨fun hn hb => ⟨?_, setAll_names hn (hb' hb)⟩, (eqUses_rel hu).2, (eqUses_rel hu).1, fun l r h => setAll_some h,
        fun l hm => setAll_other hm, fun l hm => setAll_mem hm hl⟩
      simp only [Stmt.text, Code.text, ho, hp, eqUses_names hn hu, TStmt.let_.injEq, and_true, true_and]
      exact hb' hb
    · rw [if_neg hc] at h; exact nomatch h
  · rename_i n c n' d
    by_cases hc : eqCode L c d = true
    · rw [if_pos hc] at h
      cases h
      simp only [Bool.and_eq_true, beq_iff_eq, eqCode] at hc
      refine ⟨fun hn hb => ⟨?_, hn⟩, (eqUses_rel hc.2).2, (eqUses_rel hc.2).1, fun l r h => .inl h,
        fun l _ => rfl, fun l hm => nomatch hm⟩
      simp only [Stmt.text, Code.text, hc.1, eqUses_names hn hc.2]
    · rw [if_neg hc] at h; exact nomatch h
  · exact nomatch h

/-- The names are the same, if there are any. -/
def NamesOk (nm : Id → Name) (s : Stmt) (os : List (Option Stmt)) : Prop :=
  ∀ (j : Nat) t, os[j]? = some (some t) → t.binders.map nm = s.binders.map nm ∨ s.binders = []

/-- What `allEq` says: it stops at block number `q`. -/
structure AllEq (nm : Id → Name) (L : Locals) (s : Stmt) (os : List (Option Stmt)) (q : Nat) (r : Bool) (L' : Locals) :
    Prop where
  stop : r = false → q < os.length
  text : r = true → NameInv nm L → NamesOk nm s os →
    ∀ (j : Nat) o, os[j]? = some o → ∃ t, o = some t ∧ t.text nm = s.text nm ∧ t.code.uses.length = s.code.uses.length
  name : NameInv nm L → NamesOk nm s os → NameInv nm L'
  rel : r = true → ∀ (j : Nat) t, os[j]? = some (some t) → ∀ (k : Nat) u v, t.code.uses[k]? = some u →
    s.code.uses[k]? = some v → u = v ∨ L u = some v ∨ v ∈ s.binders
  pairs : ∀ l r, L' l = some r → L l = some r ∨ ∃ (j : Nat) (t : Stmt), j < q ∧ os[j]? = some (some t) ∧ l ∈ t.binders ∧ r ∈ s.binders
  other : ∀ l, (∀ (j : Nat) t, os[j]? = some (some t) → l ∉ t.binders) → L' l = L l
  keep : ∀ l, (∃ v ∈ s.binders, L l = Option.some v) → ∃ v ∈ s.binders, L' l = Option.some v
  head : r = true → ∀ t, os[0]? = some (some t) → ∀ l ∈ t.binders, ∃ v ∈ s.binders, L' l = Option.some v

theorem allEq_spec {s : Stmt} : ∀ {os : List (Option Stmt)} {L : Locals},
    ∃ q, AllEq nm L s os q (allEq s os L).1 (allEq s os L).2
  | [], L => ⟨0, nofun, fun _ _ _ j o h => by simp at h, fun h _ => h, fun _ j t h => by simp at h, fun l r h => .inl h,
      fun _ _ => rfl, fun _ h => h, fun _ t h => by simp at h⟩
  | none :: os, L => ⟨0, fun _ => by simp, nofun, fun h _ => h, nofun, fun l r h => .inl h,
      fun _ _ => rfl, fun _ h => h, nofun⟩
  | some t :: os, L => by
    simp only [allEq]
    cases h : eqStmt L t s with
    | none => exact ⟨0, fun _ => by simp, nofun, fun h _ => h, nofun, fun l r h => .inl h,
      fun _ _ => rfl, fun _ h => h, nofun⟩
    | some L1 =>
      simp only
      have e := eqStmt_spec (nm := nm) h
      obtain ⟨q, a⟩ := allEq_spec (s := s) (os := os) (L := L1)
      refine ⟨q + 1, fun hf => by simpa using a.stop hf, fun hr hn hb => ?_, fun hn hb => ?_, fun hr => ?_, fun l v hl => ?_,
        fun l hl => ?_, fun l hl => ?_, fun hr t' ht' l hl => ?_⟩
      · have e1 := e.text hn (hb 0 t rfl)
        intro j o hj
        cases j with
        | zero => simp at hj; exact ⟨t, hj.symm, e1.1, e.len⟩
        | succ j => exact a.text hr e1.2 (fun j t h => hb (j + 1) t (by simpa using h)) j o (by simpa using hj)
      · have e1 := e.text hn (hb 0 t rfl)
        exact a.name e1.2 (fun j t h => hb (j + 1) t (by simpa using h))
      · intro j t' hj k u v hu hv
        cases j with
        | zero =>
          simp at hj; subst hj
          rcases e.rel k u v hu hv with h | h
          · exact .inl h
          · exact .inr (.inl h)
        | succ j =>
          rcases a.rel hr j t' (by simpa using hj) k u v hu hv with h | h | h
          · exact .inl h
          · rcases e.pairs _ _ h with h | h
            · exact .inr (.inl h)
            · exact .inr (.inr h.2)
          · exact .inr (.inr h)
      · rcases a.pairs l v hl with h | ⟨j, t', h1, h2, h3⟩
        · rcases e.pairs _ _ h with h | h
          · exact .inl h
          · exact .inr ⟨0, t, by omega, rfl, h⟩
        · exact .inr ⟨j + 1, t', by omega, by simpa using h2, h3⟩
      · rw [a.other l fun j t h => hl (j + 1) t (by simpa using h), e.other l (hl 0 t rfl)]
      · refine a.keep l ?_
        by_cases hm : l ∈ t.binders
        · exact e.mem l hm
        · rw [e.other l hm]; exact hl
      · simp at ht'; subst ht'
        exact a.keep l (e.mem l hl)

theorem namesOk_spec {s : Stmt} {os : List (Option Stmt)} (h : namesOk nm s os = true) : NamesOk nm s os := by
  unfold namesOk at h
  split at h
  · rename_i n p xs c
    refine fun j t ht => .inl ?_
    have := List.all_eq_true.mp h (some t) (List.mem_of_getElem? ht)
    unfold sameNames at this
    split at this
    · next heq => cases heq; simpa [Stmt.binders] using this
    · exact nomatch this
  · exact fun _ _ _ => .inr rfl

/-- What `eqStmts` says: additionally, the names are the same. -/
theorem eqStmts_spec {L : Locals} {s : Stmt} {os : List (Option Stmt)} (ho : os ≠ []) :
    ∃ q, AllEq nm L s os q (eqStmts nm L s os).1 (eqStmts nm L s os).2 ∧
      ((eqStmts nm L s os).1 = true ∨ 0 < q → NamesOk nm s os) := by
  unfold eqStmts
  by_cases h : namesOk nm s os = true
  · rw [if_pos h]
    obtain ⟨q, a⟩ := allEq_spec (nm := nm) (s := s) (os := os) (L := L)
    exact ⟨q, a, fun _ => namesOk_spec h⟩
  · rw [if_neg h]
    refine ⟨0, ⟨fun _ => List.length_pos_iff.mpr ho, nofun, fun h _ => h, nofun, fun l r h => .inl h,
      fun _ _ => rfl, fun _ h => h, nofun⟩, fun h => ?_⟩
    rcases h with h | h
    · exact nomatch h
    · omega

end Verif.Share
