import Verif.LetIf.Model
import Verif.LetIf.Spec
import Verif.LateInit.Run

/-!
# Properties of `useless_let_if_seq`
-/

namespace Verif.LetIf

open LateInit

variable {σ : Type} {S : Sys σ} {ordered : Id → Bool}

/-- A state with another value for a variable. -/
def R.upd (r : R σ) (x : Id) (o : Option Nat) : R σ := ⟨r.ds, LateInit.upd r.st x o, r.w, r.flow⟩

theorem upd_comm {st : Store} {x y : Id} (h : x ≠ y) (o p : Option Nat) : upd (upd st x o) y p = upd (upd st y p) x o := by
  funext z
  simp only [upd]
  by_cases h1 : z = y
  · rw [if_pos h1, if_neg (fun h2 : z = x => h (h2.symm.trans h1)), if_pos h1]
  · rw [if_neg h1, if_neg h1]

theorem stmt_frame (hS : Sound S ordered) {s : Stmt} {x : Id} (hm : x ∉ s.mentions) (hd : x ∉ s.declares) (o : Option Nat)
    (ds : List Id) (st : Store) (w : σ) :
    runStmt S s ds (upd st x o) w = R.upd (runStmt S s ds st w) x o := by
  cases s with
  | decl y =>
    have hne : x ≠ y := by simpa [Stmt.declares] using hd
    simp only [runStmt, R.upd, upd_comm hne]
  | init y sub c =>
    have hne : x ≠ y := by simpa [Stmt.declares] using hd
    simp only [runStmt, hS.frame c x o st w hm]
    rcases S.exec c st w with ⟨st', w', _ | v⟩
    · rfl
    · simp only [store, R.upd, upd_comm hne, if_true]
  | assign y c =>
    have hm' : x ≠ y ∧ x ∉ c.uses := by simpa [Stmt.mentions] using hm
    simp only [runStmt, hS.frame c x o st w hm'.2]
    rcases S.exec c st w with ⟨st', w', _ | v⟩
    · rfl
    · simp only [store, R.upd, upd_comm hm'.1, dropOne, upd_ne (Ne.symm hm'.1), Bool.false_eq_true, if_false]
  | expr c => simp only [runStmt, hS.frame c x o st w hm, R.upd]

theorem stmts_frame (hS : Sound S ordered) {x : Id} (o : Option Nat) : ∀ (ss : List Stmt) (r : R σ),
    (∀ s ∈ ss, x ∉ s.mentions ∧ x ∉ s.declares) → runStmts S ss (R.upd r x o) = R.upd (runStmts S ss r) x o
  | [], _, _ => rfl
  | s :: ss, ⟨ds, st, w, none⟩, _ => rfl
  | s :: ss, ⟨ds, st, w, some v⟩, h => by
    simp only [runStmts, R.upd]
    rw [stmt_frame hS (h s (.head _)).1 (h s (.head _)).2]
    exact stmts_frame hS o ss _ fun t ht => h t (.tail _ ht)

theorem checkAssign_facts {x : Id} {b : Branch} {ss : List Stmt} {c : Code} (h : checkAssign x b = some (ss, c)) :
    b.all = ss ++ [.assign x c] ∧ b.tail = none ∧ ∀ s ∈ ss, x ∉ s.mentions := by
  simp only [checkAssign] at h
  split at h
  · next y c' ss' ht hr =>
    split at h
    · next hy =>
      split at h
      · cases h
      · next hu =>
        cases h
        subst hy
        have := congrArg List.reverse hr
        rw [List.reverse_reverse, List.reverse_cons] at this
        refine ⟨by simp [Branch.all, ht, this], ht, fun s hs hm => hu ?_⟩
        rw [List.any_eq_true]
        exact ⟨s, List.mem_reverse.1 hs, by simpa using hm⟩
    · cases h
  · cases h

/-- The two branches: both come to their end in the same state, or both are left. -/
def Step (x : Id) (r : Store × σ × Option Nat) (q : Store × σ × Option (List (Id × Nat))) : Prop :=
  (∃ st w v k, r = (upd st x (some v), w, some k) ∧ q = (st, w, some [(x, v)])) ∨
  (∃ st o w, r = (upd st x o, w, none) ∧ q = (st, w, none))

theorem drop_upd {x : Id} {ds : List Id} (h : x ∉ ds) (st : Store) (o : Option Nat) (w : σ) :
    dropAll S ds (upd st x o) w = dropAll S ds st w :=
  dropAll_congr ds w fun _ hd => upd_ne fun he => h (he ▸ hd)

theorem inner_ds {x : Id} {ss : List Stmt} (h : ∀ s ∈ ss, x ∉ s.declares) (st : Store) (w : σ) :
    x ∉ (runStmts S ss ⟨[], st, w, some 0⟩).ds := fun hx => by
  rcases runStmts_ds ss _ x hx with h' | h'
  · cases h'
  · obtain ⟨s, hs, h'⟩ := List.mem_flatMap.1 h'
    exact h s hs h'

/-- A branch that ends with an assignment. -/
theorem assign_branch (hS : Sound S ordered) {x : Id} {b : Branch} {ss : List Stmt} {c : Code}
    (h : checkAssign x b = some (ss, c)) (hc : x ∉ c.uses) (hd : ∀ s ∈ b.all, x ∉ s.declares) (hx : ordered x = false)
    (o : Option Nat) (st : Store) (w : σ) :
    Step x (runBranch S b (upd st x o) w) (runVBranch S [x] ⟨ss, none, [c]⟩ st w) := by
  obtain ⟨h1, h2, h3⟩ := checkAssign_facts h
  have hds : ∀ s ∈ ss, x ∉ s.declares := fun s hs => hd s (by rw [h1]; exact List.mem_append_left _ hs)
  have hfr := stmts_frame hS o ss ⟨[], st, w, some 0⟩ fun s hs => ⟨h3 s hs, hds s hs⟩
  have hin := inner_ds (S := S) hds st w
  simp only [runBranch, runVBranch, close, h1, stmts_append, VBranch.all, Option.toList, List.append_nil]
  rw [show (⟨[], upd st x o, w, some 0⟩ : R σ) = R.upd ⟨[], st, w, some 0⟩ x o from rfl, hfr]
  rcases hr : runStmts S ss ⟨[], st, w, some 0⟩ with ⟨ds, st', w', _ | k⟩ <;> rw [hr] at hin
  · right
    refine ⟨st', o, dropAll S ds st' w', ?_, rfl⟩
    simp only [R.upd, runStmts, value, Option.map, drop_upd hin]
  · simp only [R.upd, runStmts, runStmt, hS.frame c x o st' w' hc, List.zip_cons_cons, List.zip_nil_right, runVals]
    rcases S.exec c st' w' with ⟨st2, w2, _ | v⟩
    · right
      exact ⟨st2, o, dropAll S ds st2 w2, by simp only [store, value, Option.map, drop_upd hin], rfl⟩
    · left
      refine ⟨st2, dropAll S ds st2 w2, v, 0, ?_, rfl⟩
      have hdo : dropOne S x (upd st2 x o) w2 = w2 := by
        simp only [dropOne]
        split
        · exact hS.drop _ _ _ hx
        · rfl
      have huu : upd (upd st2 x o) x (some v) = upd st2 x (some v) := by
        funext y; simp only [upd]; split <;> rfl
      simp only [store, Bool.false_eq_true, if_false, hdo, huu, h2, value, Option.map, Option.isSome, drop_upd hin]

/-- A branch that leaves the variable alone, with the constant the variable was initialised with. -/
theorem other_branch (hS : Sound S ordered) {x : Id} {b : Branch} {d : Code} {v : Nat}
    (hd : ∀ st w, S.exec d st w = (st, w, some v)) (hm : ∀ s ∈ b.all, x ∉ s.mentions ∧ x ∉ s.declares) (st : Store)
    (w : σ) :
    Step x (runBranch S b (upd st x (some v)) w) (runVBranch S [x] ⟨b.stmts, b.tail, [d]⟩ st w) := by
  have hfr := stmts_frame hS (some v) b.all ⟨[], st, w, some 0⟩ hm
  have hin := inner_ds (S := S) (fun s hs => (hm s hs).2) st w
  have hall : (⟨b.stmts, b.tail, [d]⟩ : VBranch).all = b.all := rfl
  simp only [runBranch, runVBranch, close, hall]
  rw [show (⟨[], upd st x (some v), w, some 0⟩ : R σ) = R.upd ⟨[], st, w, some 0⟩ x (some v) from rfl, hfr]
  rcases hr : runStmts S b.all ⟨[], st, w, some 0⟩ with ⟨ds, st', w', _ | k⟩ <;> rw [hr] at hin
  · right
    exact ⟨st', some v, dropAll S ds st' w', by simp only [R.upd, value, Option.map, drop_upd hin], rfl⟩
  · left
    refine ⟨st', dropAll S ds st' w', v, if b.tail.isSome then k else 0, ?_, ?_⟩
    · simp only [R.upd, value, Option.map, drop_upd hin]
    · simp only [List.zip_cons_cons, List.zip_nil_right, runVals, hd]

theorem checkAssign_some {x : Id} {b : Branch} {ss : List Stmt} {c : Code} (hb : b.stmts = ss ++ [.assign x c])
    (ht : b.tail = none) (hm : ∀ t ∈ ss, x ∉ t.mentions) : checkAssign x b = some (ss, c) := by
  simp only [checkAssign, ht, hb, List.reverse_append, List.reverse_singleton, List.singleton_append, if_true,
    List.reverse_reverse]
  rw [if_neg]
  intro h
  obtain ⟨s, hs, h⟩ := List.any_eq_true.1 h
  exact hm s (List.mem_reverse.1 hs) (by simpa using h)

/-- The state after the statements: the same, or both are left. -/
theorem seq_same (hS : Sound S ordered) {s : Seq} {thn els : VBranch} (hcond : s.x ∉ s.cond.uses) {o : Option Nat}
    (ds : List Id) (st : Store) (w : σ)
    (h1 : ∀ st w, Step s.x (runBranch S s.then_ (upd st s.x o) w) (runVBranch S [s.x] thn st w))
    (h2 : ∀ st w, Step s.x (runBranch S s.els.branch (upd st s.x o) w) (runVBranch S [s.x] els st w)) :
    (∃ st' w' k, runItem S s.cond_ (s.x :: ds) (upd st s.x o) w = ⟨s.x :: ds, st', w', some k⟩ ∧
      runItem S (.letChoice [s.x] s.cond [thn, els]) ds st w = ⟨s.x :: ds, st', w', some 0⟩) ∨
    (∃ st' w', runItem S s.cond_ (s.x :: ds) (upd st s.x o) w = ⟨s.x :: ds, st', w', none⟩ ∧
      ∃ st2, runItem S (.letChoice [s.x] s.cond [thn, els]) ds st w = ⟨ds, st2, w', none⟩ ∧
        ∀ y, y ≠ s.x → st' y = st2 y) := by
  simp only [Seq.cond_, runItem, hS.frame s.cond s.x o st w hcond]
  rcases S.exec s.cond st w with ⟨st', w', _ | i⟩
  · exact .inr ⟨_, _, rfl, _, rfl, fun y hy => upd_ne hy⟩
  · have key : ∀ {b : Branch} {vb : VBranch}, Step s.x (runBranch S b (upd st' s.x o) w') (runVBranch S [s.x] vb st' w') →
        (∃ st2 w2 k, (⟨s.x :: ds, (runBranch S b (upd st' s.x o) w').1, (runBranch S b (upd st' s.x o) w').2.1,
            (runBranch S b (upd st' s.x o) w').2.2⟩ : R σ) = ⟨s.x :: ds, st2, w2, some k⟩ ∧
          bindNew [s.x] ds (runVBranch S [s.x] vb st' w') = ⟨s.x :: ds, st2, w2, some 0⟩) ∨
        (∃ st2 w2, (⟨s.x :: ds, (runBranch S b (upd st' s.x o) w').1, (runBranch S b (upd st' s.x o) w').2.1,
            (runBranch S b (upd st' s.x o) w').2.2⟩ : R σ) = ⟨s.x :: ds, st2, w2, none⟩ ∧
          ∃ st3, bindNew [s.x] ds (runVBranch S [s.x] vb st' w') = ⟨ds, st3, w2, none⟩ ∧
            ∀ y, y ≠ s.x → st2 y = st3 y) := by
      intro b vb h
      rcases h with ⟨st2, w2, v, k, e1, e2⟩ | ⟨st2, p, w2, e1, e2⟩
      · rw [e1, e2]; exact .inl ⟨_, _, _, rfl, rfl⟩
      · rw [e1, e2]; exact .inr ⟨_, _, rfl, _, rfl, fun y hy => upd_ne hy⟩
    match i with
    | 0 =>
      rcases key (h1 st' w') with h | h
      · exact .inl h
      · exact .inr h
    | 1 =>
      rcases key (h2 st' w') with h | h
      · exact .inl h
      · exact .inr h
    | n + 2 => exact .inr ⟨_, _, rfl, _, rfl, fun y hy => upd_ne hy⟩

/-- The value of a statement in the middle does not matter. -/
theorem rest_same (l : List Item) (b : Bool) (hb : b = true → l ≠ []) (ds : List Id) (st : Store) (w : σ) (k m : Nat)
    (xs : List Id) :
    Same xs ((close S (runItems S l ⟨ds, st, w, some k⟩)).1, (close S (runItems S l ⟨ds, st, w, some k⟩)).2.1,
        value b (close S (runItems S l ⟨ds, st, w, some k⟩)).2.2)
      ((close S (runItems S l ⟨ds, st, w, some m⟩)).1, (close S (runItems S l ⟨ds, st, w, some m⟩)).2.1,
        value b (close S (runItems S l ⟨ds, st, w, some m⟩)).2.2) := by
  cases l with
  | cons _ _ => exact ⟨rfl, fun _ _ => rfl⟩
  | nil => cases b with
    | true => exact absurd rfl (hb rfl)
    | false => exact ⟨rfl, fun _ _ => rfl⟩

/-- **The two statements and the new declaration do the same**: the block has the same value, is left in the same cases,
and the rest of the world and the other variables are the same.  Partial: the initialiser must be a constant, the
variable must not have an ordered drop, and the `else` branch must not use the variable except to assign it at its end
(see the witnesses).  The `if` is not the expression at the end of the block. -/
theorem let_if_partial (hS : Sound S ordered) {fa : Facts} {s : Seq} {new : Item} (hc : check fa s = some new)
    (hinit : ∀ d ∈ s.init, Const S d) (hx : ordered s.x = false)
    (hels : (∀ t ∈ s.els.branch.all, s.x ∉ t.mentions) ∨
      ∃ ss c, s.els.branch.stmts = ss ++ [.assign s.x c] ∧ s.els.branch.tail = none ∧
        s.x ∉ c.uses ∧ ∀ t ∈ ss, s.x ∉ t.mentions)
    (hd : ∀ t ∈ s.then_.all ++ s.els.branch.all, s.x ∉ t.declares)
    (pre rest : List Item) (tail : Option Item) (st : Store) (w : σ) :
    Same [s.x] (runBlock S ⟨pre ++ s.decl :: s.cond_ :: rest, tail⟩ st w) (runBlock S ⟨pre ++ new :: rest, tail⟩ st w) := by
  simp only [check] at hc
  split at hc
  · cases hc
  · next hcond =>
    split at hc
    · cases hc
    · next ss v hthen =>
      split at hc
      · cases hc
      · next hv =>
        split at hc
        · cases hc
        · obtain ⟨els, hdef, rfl⟩ := Option.map_eq_some_iff.1 hc
          have hcond : s.x ∉ s.cond.uses := by simpa using hcond
          have hv : s.x ∉ v.uses := by simpa using hv
          have h1 : ∀ o st w, Step s.x (runBranch S s.then_ (upd st s.x o) w) (runVBranch S [s.x] ⟨ss, none, [v]⟩ st w) :=
            fun o => assign_branch hS hthen hv (fun t ht => hd t (List.mem_append_left _ ht)) hx o
          have hde : ∀ t ∈ s.els.branch.all, s.x ∉ t.declares := fun t ht => hd t (List.mem_append_right _ ht)
          -- the initial value of the variable, and what the `else` branch does from there
          have h2 : ∃ o, (∀ ds st w, runItem S s.decl ds st w = ⟨s.x :: ds, upd st s.x o, w, some 0⟩) ∧
              ∀ st w, Step s.x (runBranch S s.els.branch (upd st s.x o) w) (runVBranch S [s.x] els st w) := by
            have hdecl : ∃ o, (∀ ds st w, runItem S s.decl ds st w = ⟨s.x :: ds, upd st s.x o, w, some 0⟩) ∧
                ∀ d, s.init = some d → ∃ v, o = some v ∧ ∀ st w, S.exec d st w = (st, w, some v) := by
              cases hi : s.init with
              | none =>
                refine ⟨none, fun ds st w => ?_, fun d h => nomatch h⟩
                simp only [Seq.decl, hi, runItem, runStmt]
              | some d =>
                obtain ⟨u, hu⟩ := hinit d hi
                refine ⟨some u, fun ds st w => ?_, fun d' h => ?_⟩
                · simp only [Seq.decl, hi, runItem, runStmt, hu, store, if_true]
                · cases h; exact ⟨u, rfl, hu⟩
            obtain ⟨o, hr, ho⟩ := hdecl
            refine ⟨o, hr, ?_⟩
            have hother : ∀ d, s.init = some d → (∀ t ∈ s.els.branch.all, s.x ∉ t.mentions) → ∀ st w,
                Step s.x (runBranch S s.els.branch (upd st s.x o) w)
                  (runVBranch S [s.x] ⟨s.els.branch.stmts, s.els.branch.tail, [d]⟩ st w) := by
              intro d hi hm
              obtain ⟨u, rfl, hu⟩ := ho d hi
              exact other_branch hS hu fun t ht => ⟨hm t ht, hde t ht⟩
            simp only [default] at hdef
            cases he : s.els with
            | none =>
              rw [he] at hdef hother
              obtain ⟨d, hi, rfl⟩ := Option.map_eq_some_iff.1 hdef
              exact hother d hi fun t ht => nomatch ht
            | other => rw [he] at hdef; cases hdef
            | block b =>
              rw [he] at hdef hother hels hde
              simp only at hdef
              split at hdef
              · next ss' c' ha =>
                cases hdef
                have hcu : s.x ∉ c'.uses := by
                  obtain ⟨e1, e2, e3⟩ := checkAssign_facts ha
                  rcases hels with hm | ⟨ss2, c2, f1, f2, f3, f4⟩
                  · exact absurd (.head _) (hm (.assign s.x c') (by
                      show _ ∈ b.all
                      rw [e1]; exact List.mem_append_right _ (.head _)))
                  · have := checkAssign_some (b := b) f1 f2 f4
                    rw [ha] at this
                    cases this
                    exact f3
                exact assign_branch hS ha hcu hde hx o
              · next ha =>
                obtain ⟨d, hi, rfl⟩ := Option.map_eq_some_iff.1 hdef
                rcases hels with hm | ⟨ss2, c2, f1, f2, f3, f4⟩
                · exact hother d hi hm
                · rw [checkAssign_some (b := b) f1 f2 f4] at ha; cases ha
          obtain ⟨o, hr, h2⟩ := h2
          simp only [runBlock, List.append_assoc, List.cons_append, items_append]
          rcases runItems S pre ⟨[], st, w, some 0⟩ with ⟨ds, st', w', _ | k⟩
          · exact ⟨rfl, fun _ _ => rfl⟩
          · simp only [runItems, hr]
            rcases seq_same hS hcond ds st' w' (h1 o) h2 with ⟨st2, w2, k2, e1, e2⟩ | ⟨st2, w2, e1, st3, e2, e3⟩
            · rw [e1, e2]
              exact rest_same _ _ (fun h => by cases tail with
                | none => cases h
                | some t => simp) _ _ _ _ _ _
            · rw [e1, e2]
              have hn : ∀ (l : List Item) ds (st : Store) (w : σ), runItems S l ⟨ds, st, w, none⟩ = ⟨ds, st, w, none⟩ := by
                intro l ds st w; cases l <;> rfl
              simp only [hn, close]
              refine ⟨?_, fun y hy => e3 y (by simpa using hy)⟩
              have hdrop : dropAll S (s.x :: ds) st2 w2 = dropAll S ds st3 w2 := by
                have hp : ∀ (l : List Id) (st : Store), dropAll S l st w2 = dropAll S (l.filter (· != s.x)) st w2 :=
                  fun l st => dropAll_filter hS (· != s.x) l w2 fun d _ h => .inr (by
                    rw [show d = s.x by simpa using h]; exact hx)
                rw [hp, hp ds st3, List.filter_cons_of_neg (by simp)]
                exact dropAll_congr _ _ fun d hd => e3 d (by simpa using (List.mem_filter.1 hd).2)
              rw [hdrop]

end Verif.LetIf
