import Verif.Never.Model
import Verif.Never.Spec

/-!
# `is_never_expr` is sound
-/

namespace Verif.Never

/-! ## Code that does not run changes nothing -/

theorem mark_true (l : Id) : ∀ ts : Targets, mark l true ts = ts
  | [] => rfl
  | (k, u) :: ts => by
    unfold mark
    split
    · rw [mark_true l ts]
    · split <;> simp

theorem never_eta {st : St} (h : st.never = true) : { st with never := true } = st := by cases st; cases h; rfl

theorem endLoop_push {st : St} (h : st.never = true) (l : Id) : endLoop (push l st) = st := by cases st; cases h; rfl

theorem endBlock_push {st : St} (h : st.never = true) (l : Id) : endBlock (push l st) = st := by
  cases st; cases h; rfl

mutual
theorem visit_never (fa : Facts) : ∀ (e : Ex) (st : St), st.never = true → visit fa e st = st
  | .temps e, st, h => by simp only [visit]; split; rfl; exact visit_never fa e st h
  | .ret, st, h => by simp only [visit]; split; rfl; exact never_eta h
  | .cont _, st, h => by simp only [visit]; split; rfl; exact never_eta h
  | .retVal e, st, h => by
    simp only [visit]; rw [visit_never fa e st h]; split; rfl; exact never_eta h
  | .brk l, st, h => by
    simp only [visit, doBreak]; rw [h, mark_true]; split; rfl; exact never_eta h
  | .brkVal l e, st, h => by
    simp only [visit, doBreak]; rw [visit_never fa e st h, h, mark_true]; split; rfl; exact never_eta h
  | .ifThen c t, st, h => by
    simp only [visit]; rw [visit_never fa c st h, if_pos h, visit_never fa t st h]; split <;> rfl
  | .ifElse c t e, st, h => by
    simp only [visit]
    rw [visit_never fa c st h, if_pos h, visit_never fa t st h, visit_never fa e st h]
    split <;> rfl
  | .mtch s as, st, h => by
    simp only [visit]; rw [visit_never fa s st h, if_pos h, visitArms_never fa as st h]; split <;> rfl
  | .loop l b, st, h => by
    simp only [visit]; rw [visitBlock_never fa b (push l st) h, endLoop_push h]; split <;> rfl
  | .block (some l) b, st, h => by
    simp only [visit]; rw [visitBlock_never fa b (push l st) h, endBlock_push h]; split <;> rfl
  | .block none b, st, h => by simp only [visit]; rw [visitBlock_never fa b st h]; split <;> rfl
  | .lazy _ a b, st, h => by
    simp only [visit]; rw [visit_never fa a st h, visit_never fa b st h]; split <;> rfl
  | .op n args, st, h => by
    simp only [visit]; rw [visitAll_never fa args st h]; split
    · rfl
    · cases st; cases h; rfl
theorem visitAll_never (fa : Facts) : ∀ (es : Exs) (st : St), st.never = true → visitAll fa es st = st
  | .nil, _, _ => rfl
  | .cons e es, st, h => by simp only [visitAll]; rw [visit_never fa e st h, visitAll_never fa es st h]
theorem visitArms_never (fa : Facts) : ∀ (as : Arms) (st : St), st.never = true → visitArms fa as st = st
  | .nil, _, _ => rfl
  | .arm _ b as, st, h => by simp only [visitArms]; rw [visit_never fa b st h, visitArms_never fa as st h]
  | .guarded _ g b as, st, h => by
    simp only [visitArms]; rw [visit_never fa g st h, visit_never fa b st h, visitArms_never fa as st h]
theorem visitBlock_never (fa : Facts) : ∀ (s : Stmts) (st : St), st.never = true → visitBlock fa s st = st
  | .nil, _, _ => rfl
  | .last e, st, h => visit_never fa e st h
  | .expr e s, st, h => by simp only [visitBlock]; rw [visit_never fa e st h, visitBlock_never fa s st h]
  | .let_ _ e s, st, h => by simp only [visitBlock]; rw [visit_never fa e st h, visitBlock_never fa s st h]
  | .letElse _ e els s, st, h => by
    simp only [visitBlock]
    rw [visit_never fa e st h, visitBlock_never fa els st h]
    exact visitBlock_never fa s st h
end

/-! ## Targets are kept, and stay used -/

/-- The same targets, more of them used. -/
inductive Le : Targets → Targets → Prop where
  | nil : Le [] []
  | cons (l : Id) {u u' : Bool} {ts ts' : Targets} : (u' = true → u = true) → Le ts ts' →
    Le ((l, u) :: ts) ((l, u') :: ts')

theorem Le.refl : ∀ ts : Targets, Le ts ts
  | [] => .nil
  | (l, _) :: ts => .cons l id (Le.refl ts)

theorem Le.trans {a b c : Targets} (h : Le a b) : Le b c → Le a c := by
  induction h generalizing c with
  | nil => intro h; exact h
  | cons l hu _ ih => intro h; cases h with | cons _ hu' h => exact .cons l (fun x => hu (hu' x)) (ih h)

theorem Le.ids {a b : Targets} (h : Le a b) : b.map (·.1) = a.map (·.1) := by
  induction h with
  | nil => rfl
  | cons l _ _ ih => simp [ih]

theorem Le.used {a b : Targets} (h : Le a b) {l : Id} : (l, false) ∈ a → (l, false) ∈ b := by
  induction h with
  | nil => exact id
  | @cons k u u' _ _ hu _ ih =>
    intro hm
    rcases List.mem_cons.1 hm with he | hm
    · cases he
      cases u' with
      | false => exact List.mem_cons_self
      | true => cases hu rfl
    · exact List.mem_cons_of_mem _ (ih hm)

theorem mark_le (l : Id) (b : Bool) : ∀ ts : Targets, Le ts (mark l b ts)
  | [] => .nil
  | (k, u) :: ts => by
    unfold mark
    split
    · exact .cons k id (mark_le l b ts)
    · split
      · exact .cons k (fun h => by cases u <;> simp_all) (.refl ts)
      · exact .refl _

theorem mark_used {l : Id} : ∀ {ts : Targets}, l ∈ ts.map (·.1) → (l, false) ∈ mark l false ts
  | (k, u) :: ts, h => by
    unfold mark
    by_cases ha : (ts.any fun t => t.1 == l) = true
    · rw [if_pos ha]
      refine List.mem_cons_of_mem _ (mark_used ?_)
      obtain ⟨t, ht, he⟩ := List.any_eq_true.1 ha
      exact List.mem_map.2 ⟨t, ht, by simpa using he⟩
    · rw [if_neg ha]
      by_cases hk : k = l
      · rw [if_pos hk]; simp [hk]
      · exfalso
        simp only [List.map_cons, List.mem_cons] at h
        rcases h with h | h
        · exact hk h.symm
        · obtain ⟨t, ht, he⟩ := List.mem_map.1 h
          exact ha (List.any_eq_true.2 ⟨t, ht, by simpa using he⟩)

theorem pop_le {l : Id} {u : Bool} {ts ts' : Targets} (h : Le ((l, u) :: ts) ts') : Le ts (pop ts').2 := by
  cases h with | cons _ _ h => exact h

mutual
theorem visit_le (fa : Facts) : ∀ (e : Ex) (st : St), Le st.targets (visit fa e st).targets
  | .temps e, st => by simp only [visit]; split; exact .refl _; exact visit_le fa e st
  | .ret, st => by simp only [visit]; split <;> exact .refl _
  | .cont _, st => by simp only [visit]; split <;> exact .refl _
  | .retVal e, st => by simp only [visit]; split; exact .refl _; exact visit_le fa e st
  | .brk l, st => by simp only [visit]; split; exact .refl _; exact mark_le l _ _
  | .brkVal l e, st => by
    simp only [visit]; split; exact .refl _; exact (visit_le fa e st).trans (mark_le l _ _)
  | .ifThen c t, st => by
    simp only [visit]
    split
    · exact .refl _
    · split <;> exact (visit_le fa c st).trans (visit_le fa t _)
  | .ifElse c t e, st => by
    simp only [visit]
    split
    · exact .refl _
    · split
      · exact ((visit_le fa c st).trans (visit_le fa t _)).trans (visit_le fa e _)
      · exact ((visit_le fa c st).trans (visit_le fa t _)).trans
          (visit_le fa e { visit fa t (visit fa c st) with never := false })
  | .mtch s as, st => by
    simp only [visit]
    split
    · exact .refl _
    · split
      · exact (visit_le fa s st).trans (visitArms_le fa as _)
      · exact (visit_le fa s st).trans (visitEach_le fa as true _)
  | .loop l b, st => by
    simp only [visit]; split; exact .refl _; exact pop_le (visitBlock_le fa b (push l st))
  | .block (some l) b, st => by
    simp only [visit]; split; exact .refl _; exact pop_le (visitBlock_le fa b (push l st))
  | .block none b, st => by simp only [visit]; split; exact .refl _; exact visitBlock_le fa b st
  | .lazy _ a b, st => by
    simp only [visit]; split; exact .refl _; exact (visit_le fa a st).trans (visit_le fa b _)
  | .op n args, st => by simp only [visit]; split; exact .refl _; exact visitAll_le fa args st
theorem visitAll_le (fa : Facts) : ∀ (es : Exs) (st : St), Le st.targets (visitAll fa es st).targets
  | .nil, _ => .refl _
  | .cons e es, st => (visit_le fa e st).trans (visitAll_le fa es _)
theorem visitArms_le (fa : Facts) : ∀ (as : Arms) (st : St), Le st.targets (visitArms fa as st).targets
  | .nil, _ => .refl _
  | .arm _ b as, st => (visit_le fa b st).trans (visitArms_le fa as _)
  | .guarded _ g b as, st => ((visit_le fa g st).trans (visit_le fa b _)).trans (visitArms_le fa as _)
theorem visitEach_le (fa : Facts) : ∀ (as : Arms) (nv : Bool) (st : St), Le st.targets (visitEach fa as nv st).targets
  | .nil, _, _ => .refl _
  | .arm _ b as, _, st => (visit_le fa b { st with never := false }).trans (visitEach_le fa as _ _)
  | .guarded _ g b as, _, st =>
    ((visit_le fa g { st with never := false }).trans
      (visit_le fa b { visit fa g { st with never := false } with never := false })).trans (visitEach_le fa as _ _)
theorem visitBlock_le (fa : Facts) : ∀ (s : Stmts) (st : St), Le st.targets (visitBlock fa s st).targets
  | .nil, _ => .refl _
  | .last e, st => visit_le fa e st
  | .expr e s, st => (visit_le fa e st).trans (visitBlock_le fa s _)
  | .let_ _ e s, st => (visit_le fa e st).trans (visitBlock_le fa s _)
  | .letElse _ e els s, st =>
    ((visit_le fa e st).trans (visitBlock_le fa els _)).trans
      (visitBlock_le fa s { visitBlock fa els (visit fa e st) with never := (visit fa e st).never })
end

theorem visitEach_false (fa : Facts) : ∀ (as : Arms) (st : St), (visitEach fa as false st).never = false
  | .nil, _ => rfl
  | .arm _ b as, st => by simp only [visitEach, Bool.false_and]; exact visitEach_false fa as _
  | .guarded _ g b as, st => by simp only [visitEach, Bool.false_and]; exact visitEach_false fa as _

mutual
theorem visit_quiet (fa : Facts) : ∀ (e : Ex), Quiet fa.opNever e → ∀ st : St, visit fa e st = st
  | .temps e, h, st => by
    cases h with | temps h => simp only [visit]; rw [visit_quiet fa e h st]; split <;> rfl
  | .lazy _ a b, h, st => by
    cases h with
    | lazy _ ha hb => simp only [visit]; rw [visit_quiet fa a ha st, visit_quiet fa b hb st]; split <;> rfl
  | .op n args, h, st => by
    cases h with
    | op _ hn ha => simp only [visit]; rw [visitAll_quiet fa args ha st, hn]; split <;> simp
  | .ret, h, _ | .retVal _, h, _ | .cont _, h, _ | .brk _, h, _ | .brkVal _ _, h, _ | .ifThen _ _, h, _
  | .ifElse _ _ _, h, _ | .mtch _ _, h, _ | .loop _ _, h, _ | .block _ _, h, _ => by cases h
theorem visitAll_quiet (fa : Facts) : ∀ (es : Exs), (∀ e ∈ es.toList, Quiet fa.opNever e) → ∀ st : St,
    visitAll fa es st = st
  | .nil, _, _ => rfl
  | .cons e es, h, st => by
    simp only [visitAll]
    rw [visit_quiet fa e (h e (by simp [Exs.toList])) st,
      visitAll_quiet fa es (fun a ha => h a (by simp [Exs.toList, ha])) st]
end

/-! ## Soundness -/

/-- What the state after a visit says about an outcome. -/
def Good {V A : Type} (st st' : St) : Out V A → Prop
  | .val _ => st'.never = false
  | .jump (.brk l _) => l ∈ st.targets.map (·.1) → (l, false) ∈ st'.targets
  | .jump _ => True

/-- What is asked of the targets and lazy operands. -/
structure Ok (fa : Facts) (is : List Id) (ls : List Ex) (st : St) : Prop where
  nodup : is.Nodup
  fresh : ∀ i ∈ is, i ∉ st.targets.map (·.1)
  quiet : ∀ r ∈ ls, Quiet fa.opNever r

theorem Ok.left {fa : Facts} {is js : List Id} {ls ms : List Ex} {st : St} (h : Ok fa (is ++ js) (ls ++ ms) st) :
    Ok fa is ls st :=
  ⟨(List.nodup_append.1 h.nodup).1, fun i hi => h.fresh i (by simp [hi]), fun r hr => h.quiet r (by simp [hr])⟩

theorem Ok.right {fa : Facts} {is js : List Id} {ls ms : List Ex} {st st' : St} (h : Ok fa (is ++ js) (ls ++ ms) st)
    (hl : Le st.targets st'.targets) : Ok fa js ms st' :=
  ⟨(List.nodup_append.1 h.nodup).2.1, fun i hi => by rw [hl.ids]; exact h.fresh i (by simp [hi]),
    fun r hr => h.quiet r (by simp [hr])⟩

theorem Ok.push {fa : Facts} {l : Id} {is : List Id} {ls : List Ex} {st : St} (h : Ok fa (l :: is) ls st) :
    Ok fa is ls (push l st) := by
  have hn := List.nodup_cons.1 h.nodup
  refine ⟨hn.2, fun i hi => ?_, h.quiet⟩
  simp only [Never.push, List.map_cons, List.mem_cons]
  rintro (rfl | hm)
  · exact hn.1 hi
  · exact h.fresh i (List.mem_cons_of_mem _ hi) hm

theorem Ok.same {fa : Facts} {is : List Id} {ls : List Ex} {st st' : St} (h : Ok fa is ls st)
    (hl : Le st.targets st'.targets) : Ok fa is ls st' :=
  ⟨h.nodup, fun i hi => by rw [hl.ids]; exact h.fresh i hi, h.quiet⟩

theorem Good.jump {V A B : Type} {st st1 st2 : St} {j : Jump V} (h : Good (A := A) st st1 (.jump j))
    (hl : Le st1.targets st2.targets) : Good (A := B) st st2 (.jump j) := by
  cases j with
  | brk l v => exact fun hm => hl.used (h hm)
  | cont l => trivial
  | ret v => trivial

theorem Good.before {V A : Type} {st st1 st2 : St} {o : Out V A} (h : Good st1 st2 o)
    (hl : Le st.targets st1.targets) : Good st st2 o := by
  cases o with
  | val v => exact h
  | jump j =>
    cases j with
    | brk l v => exact fun hm => h (by rw [hl.ids]; exact hm)
    | cont l => trivial
    | ret v => trivial

theorem andThen_some {S : Sem} {A B : Type} {r : Res S A} {k : A → S.W → Res S B} {o : Out S.V B} {w : S.W}
    (h : andThen S r k = some (o, w)) :
    (∃ v w1, r = some (.val v, w1) ∧ k v w1 = some (o, w)) ∨ (∃ j, r = some (.jump j, w) ∧ o = .jump j) := by
  match r, h with
  | some (.val v, w1), h => exact .inl ⟨v, w1, rfl, h⟩
  | some (.jump j, w1), h => cases h; exact .inr ⟨j, rfl, rfl⟩

/-- The head of the targets after a body. -/
theorem popped {l : Id} {st st2 : St} (hl : Le (push l st).targets st2.targets) :
    (l, false) ∈ st2.targets → l ∉ st.targets.map (·.1) → (pop st2.targets).1 = false := by
  obtain ⟨ts, nv⟩ := st2
  simp only [push] at hl
  cases hl with
  | @cons _ _ u' _ ts' hu h =>
    intro hm hn
    rcases List.mem_cons.1 hm with he | hm
    · cases he; rfl
    · exfalso
      apply hn
      rw [← h.ids]
      exact List.mem_map.2 ⟨_, hm, rfl⟩

theorem popped_other {l k : Id} {st st2 : St} (hl : Le (push l st).targets st2.targets) (hk : k ≠ l) :
    (k, false) ∈ st2.targets → (k, false) ∈ (pop st2.targets).2 := by
  obtain ⟨ts, nv⟩ := st2
  simp only [push] at hl
  cases hl with
  | cons _ _ h =>
    intro hm
    rcases List.mem_cons.1 hm with he | hm
    · cases he; exact absurd rfl hk
    · exact hm

section
variable {fa : Facts} {S : Sem}

/-- The claims for all kinds of code, for runs of some depth. -/
structure Sound (fa : Facts) (S : Sem) (n : Nat) : Prop where
  ex : ∀ e w o w' st, run S n e w = some (o, w') → st.never = false → Ok fa (ids e) (lazies e) st →
    Good st (visit fa e st) o
  all : ∀ es w o w' st, runAll S n es w = some (o, w') → st.never = false → Ok fa (idsAll es) (laziesAll es) st →
    Good st (visitAll fa es st) o
  arms : ∀ as nv v w o w' st, runArms S n as v w = some (o, w') →
    Ok fa (idsArms as) (laziesArms as) st → Good st (visitEach fa as nv st) o
  block : ∀ s w o w' st, runBlock S n s w = some (o, w') → st.never = false → Ok fa (idsBlock s) (laziesBlock s) st →
    Good st (visitBlock fa s st) o

theorem visit_eq {st : St} (h : st.never = false) : ¬ (st.never && st.targets.isEmpty) = true := by
  simp [h]

theorem sound (hop : ∀ k vs w, fa.opNever k = true → S.op k vs w = none) : ∀ n, Sound fa S n
  | 0 => ⟨fun _ _ _ _ _ h => by simp [run] at h, fun _ _ _ _ _ h => by simp [runAll] at h,
      fun _ _ _ _ _ _ _ h => by simp [runArms] at h, fun _ _ _ _ _ h => by simp [runBlock] at h⟩
  | n + 1 => by
    have ih := sound hop n
    refine ⟨?_, ?_, ?_, ?_⟩
    · intro e w o w' st h hst ok
      have hne := visit_eq hst
      cases e with
      | temps e => simp only [visit]; rw [if_neg hne]; exact ih.ex e w o w' st h hst ok
      | ret => simp only [run] at h; cases h; trivial
      | cont l => simp only [run] at h; cases h; trivial
      | retVal e =>
        simp only [visit]; rw [if_neg hne]
        simp only [run] at h
        rcases andThen_some h with ⟨v, w1, h1, h2⟩ | ⟨j, h1, rfl⟩
        · cases h2; trivial
        · exact (ih.ex e w _ _ st h1 hst ok).jump (.refl _)
      | brk l =>
        simp only [visit]; rw [if_neg hne]
        simp only [run] at h
        cases h
        simp only [doBreak, hst]
        exact fun hm => mark_used hm
      | brkVal l e =>
        simp only [visit]; rw [if_neg hne]
        simp only [run] at h
        rcases andThen_some h with ⟨v, w1, h1, h2⟩ | ⟨j, h1, rfl⟩
        · cases h2
          have hv := ih.ex e w _ _ st h1 hst ok
          simp only [Good] at hv
          simp only [doBreak, hv]
          intro hm
          exact mark_used (by rw [(visit_le fa e st).ids]; exact hm)
        · exact (ih.ex e w _ _ st h1 hst ok).jump (mark_le _ _ _)
      | ifThen c t =>
        simp only [visit]; rw [if_neg hne]
        simp only [run] at h
        simp only [ids, lazies] at ok
        rcases andThen_some h with ⟨v, w1, h1, h2⟩ | ⟨j, h1, rfl⟩
        · have hv : (visit fa c st).never = false := ih.ex c w _ _ st h1 hst ok.left
          rw [if_neg (by simp [hv])]
          split at h2
          · have := (ih.ex t w1 o w' _ h2 hv (ok.right (visit_le fa c st))).before (visit_le fa c st)
            cases o with
            | val _ => rfl
            | jump j => exact this.jump (.refl _)
          · cases h2; rfl
        · have hj := ih.ex c w _ _ st h1 hst ok.left
          split
          · exact hj.jump (visit_le fa t _)
          · exact hj.jump (st2 := { visit fa t (visit fa c st) with never := false }) (visit_le fa t _)
      | ifElse c t e =>
        simp only [visit]; rw [if_neg hne]
        simp only [run] at h
        simp only [ids, lazies] at ok
        have lt := visit_le fa t (visit fa c st)
        have le := visit_le fa e { visit fa t (visit fa c st) with never := false }
        rcases andThen_some h with ⟨v, w1, h1, h2⟩ | ⟨j, h1, rfl⟩
        · have hv : (visit fa c st).never = false := ih.ex c w _ _ st h1 hst ok.left
          rw [if_neg (by simp [hv])]
          have okr := ok.right (visit_le fa c st)
          split at h2
          · have := (ih.ex t w1 o w' _ h2 hv okr.left).before (visit_le fa c st)
            cases o with
            | val _ => simp only [Good] at this ⊢; simp [this]
            | jump j => exact this.jump le
          · have := (ih.ex e w1 o w' { visit fa t (visit fa c st) with never := false } h2 rfl
              (okr.right (st' := { visit fa t (visit fa c st) with never := false }) lt)).before
              ((visit_le fa c st).trans lt)
            cases o with
            | val _ => simp only [Good] at this ⊢; simp [this]
            | jump j => exact this.jump (.refl _)
        · have hj := ih.ex c w _ _ st h1 hst ok.left
          split
          · exact hj.jump (lt.trans (visit_le fa e _))
          · exact hj.jump (lt.trans le)
      | mtch s as =>
        simp only [visit]; rw [if_neg hne]
        simp only [run] at h
        simp only [ids, lazies] at ok
        rcases andThen_some h with ⟨v, w1, h1, h2⟩ | ⟨j, h1, rfl⟩
        · have hv : (visit fa s st).never = false := ih.ex s w _ _ st h1 hst ok.left
          rw [if_neg (by simp [hv])]
          exact (ih.arms as true v w1 o w' _ h2 (ok.right (visit_le fa s st))).before (visit_le fa s st)
        · have hj := ih.ex s w _ _ st h1 hst ok.left
          split
          · exact hj.jump (visitArms_le fa as _)
          · exact hj.jump (visitEach_le fa as true _)
      | loop l b =>
        simp only [visit]; rw [if_neg hne]
        simp only [run] at h
        have okb := ok.push
        have hfresh : l ∉ st.targets.map (·.1) := ok.fresh l (by simp [ids])
        have le := visitBlock_le fa b (push l st)
        have self : ∀ w, run S n (.loop l b) w = some (o, w') →
            Good st (endLoop (visitBlock fa b (push l st))) o := by
          intro w h
          have := ih.ex (.loop l b) w o w' st h hst ok
          simp only [visit] at this
          rw [if_neg hne] at this
          exact this
        match hb : runBlock S n b w, h with
        | some (.val _, w1), h => exact self w1 h
        | some (.jump (.cont k), w1), h =>
          simp only [again] at h
          split at h
          · exact self w1 h
          · cases h; trivial
        | some (.jump (.brk k v), w1), h =>
          have hj := ih.block b w _ _ (push l st) hb hst okb
          simp only [again] at h
          split at h
          · next hk =>
            cases h
            subst hk
            exact popped le (hj (by simp [push])) hfresh
          · next hk =>
            cases h
            exact fun hm => popped_other le hk (hj (List.mem_cons_of_mem _ hm))
        | some (.jump (.ret v), w1), h => simp only [again] at h; cases h; trivial
      | block l b =>
        cases l with
        | none =>
          simp only [visit]; rw [if_neg hne]
          exact ih.block b w o w' st h hst ok
        | some l =>
          simp only [visit]; rw [if_neg hne]
          simp only [run] at h
          have okb := ok.push
          have hfresh : l ∉ st.targets.map (·.1) := ok.fresh l (by simp [ids])
          have le := visitBlock_le fa b (push l st)
          match hb : runBlock S n b w, h with
          | some (.val _, w1), h =>
            simp only [catchBreak] at h
            cases h
            have hj := ih.block b w _ _ (push l st) hb hst okb
            simp only [Good] at hj
            simp only [Good, endBlock, hj, Bool.false_and]
          | some (.jump (.cont k), w1), h => simp only [catchBreak] at h; cases h; trivial
          | some (.jump (.brk k v), w1), h =>
            have hj := ih.block b w _ _ (push l st) hb hst okb
            simp only [catchBreak] at h
            split at h
            · next hk =>
              cases h
              subst hk
              simp only [Good, endBlock]
              rw [popped le (hj (by simp [push])) hfresh]
              simp
            · next hk =>
              cases h
              exact fun hm => popped_other le hk (hj (List.mem_cons_of_mem _ hm))
          | some (.jump (.ret v), w1), h => simp only [catchBreak] at h; cases h; trivial
      | lazy and a b =>
        simp only [visit]; rw [if_neg hne]
        simp only [run] at h
        have ok' : Ok fa (ids a ++ ids b) (lazies a ++ lazies b) st :=
          ⟨ok.nodup, ok.fresh, fun r hr => ok.quiet r (List.mem_cons_of_mem _ hr)⟩
        have hq : Quiet fa.opNever b := ok.quiet b (by simp [lazies])
        rcases andThen_some h with ⟨v, w1, h1, h2⟩ | ⟨j, h1, rfl⟩
        · have hv : (visit fa a st).never = false := ih.ex a w _ _ st h1 hst ok'.left
          split at h2
          · exact (ih.ex b w1 o w' _ h2 hv (ok'.right (visit_le fa a st))).before (visit_le fa a st)
          · cases h2
            rw [visit_quiet fa b hq]
            exact hv
        · exact (ih.ex a w _ _ st h1 hst ok'.left).jump (visit_le fa b _)
      | op k args =>
        simp only [visit]; rw [if_neg hne]
        simp only [run] at h
        rcases andThen_some h with ⟨vs, w1, h1, h2⟩ | ⟨j, h1, rfl⟩
        · have hv : (visitAll fa args st).never = false := ih.all args w _ _ st h1 hst ok
          cases hk : fa.opNever k with
          | true => rw [hop k vs w1 hk] at h2; cases h2
          | false =>
            cases hr : S.op k vs w1 with
            | none => rw [hr] at h2; cases h2
            | some r => rw [hr] at h2; cases h2; simp [Good, hv]
        · exact (ih.all args w _ _ st h1 hst ok).jump (.refl _)
    · intro es w o w' st h hst ok
      cases es with
      | nil => simp only [runAll] at h; cases h; exact hst
      | cons e es =>
        simp only [runAll] at h
        simp only [visitAll]
        simp only [idsAll, laziesAll] at ok
        rcases andThen_some h with ⟨v, w1, h1, h2⟩ | ⟨j, h1, rfl⟩
        · have hv : (visit fa e st).never = false := ih.ex e w _ _ st h1 hst ok.left
          rcases andThen_some h2 with ⟨vs, w2, h3, h4⟩ | ⟨j, h3, rfl⟩
          · cases h4
            exact ih.all es w1 _ _ _ h3 hv (ok.right (visit_le fa e st))
          · exact ((ih.all es w1 _ _ _ h3 hv (ok.right (visit_le fa e st))).before (visit_le fa e st)).jump (.refl _)
        · exact (ih.ex e w _ _ st h1 hst ok.left).jump (visitAll_le fa es _)
    · intro as nv v w o w' st h ok
      cases as with
      | nil => simp [runArms] at h
      | arm p b as =>
        simp only [runArms] at h
        simp only [visitEach]
        simp only [idsArms, laziesArms] at ok
        have lb := visit_le fa b { st with never := false }
        split at h
        · have hb := ih.ex b _ o w' { st with never := false } h rfl (ok.left.same (.refl _))
          cases o with
          | val _ =>
            simp only [Good] at hb
            rw [hb, Bool.and_false]
            exact visitEach_false fa as _
          | jump j => exact hb.jump (visitEach_le fa as _ _)
        · exact (ih.arms as _ v w o w' _ h (ok.right lb)).before lb
      | guarded p g b as =>
        simp only [runArms] at h
        simp only [visitEach]
        simp only [idsArms, laziesArms] at ok
        have lg := visit_le fa g { st with never := false }
        have lb := visit_le fa b { visit fa g { st with never := false } with never := false }
        have lgb : Le st.targets
          (visit fa b { visit fa g { st with never := false } with never := false }).targets := Le.trans lg lb
        have okr := ok.right (st' := { visit fa g { st with never := false } with never := false }) lg
        split at h
        · rcases andThen_some h with ⟨t, w1, h1, h2⟩ | ⟨j, h1, rfl⟩
          · split at h2
            · have hb := (ih.ex b _ o w' { visit fa g { st with never := false } with never := false } h2 rfl
                okr.left).before lg
              cases o with
              | val _ =>
                simp only [Good] at hb
                rw [hb, Bool.and_false]
                exact visitEach_false fa as _
              | jump j => exact hb.jump (visitEach_le fa as _ _)
            · exact (ih.arms as _ v w1 o w' _ h2 (okr.right lb)).before lgb
          · have hj := ih.ex g _ _ _ { st with never := false } h1 rfl (ok.left.same (.refl _))
            exact hj.jump (Le.trans lb (visitEach_le fa as _ _))
        · exact (ih.arms as _ v w o w' _ h (okr.right lb)).before lgb
    · intro s w o w' st h hst ok
      cases s with
      | nil => simp only [runBlock] at h; cases h; exact hst
      | last e => exact ih.ex e w o w' st h hst ok
      | expr e s =>
        simp only [runBlock] at h
        simp only [visitBlock]
        simp only [idsBlock, laziesBlock] at ok
        rcases andThen_some h with ⟨v, w1, h1, h2⟩ | ⟨j, h1, rfl⟩
        · have hv : (visit fa e st).never = false := ih.ex e w _ _ st h1 hst ok.left
          exact (ih.block s w1 o w' _ h2 hv (ok.right (visit_le fa e st))).before (visit_le fa e st)
        · exact (ih.ex e w _ _ st h1 hst ok.left).jump (visitBlock_le fa s _)
      | let_ p e s =>
        simp only [runBlock] at h
        simp only [visitBlock]
        simp only [idsBlock, laziesBlock] at ok
        rcases andThen_some h with ⟨v, w1, h1, h2⟩ | ⟨j, h1, rfl⟩
        · have hv : (visit fa e st).never = false := ih.ex e w _ _ st h1 hst ok.left
          cases hp : S.pat p v w1 with
          | none => rw [hp] at h2; cases h2
          | some w2 =>
            rw [hp] at h2
            exact (ih.block s w2 o w' _ h2 hv (ok.right (visit_le fa e st))).before (visit_le fa e st)
        · exact (ih.ex e w _ _ st h1 hst ok.left).jump (visitBlock_le fa s _)
      | letElse p e els s =>
        simp only [runBlock] at h
        simp only [visitBlock]
        simp only [idsBlock, laziesBlock] at ok
        have l1 := visit_le fa e st
        have l2 := visitBlock_le fa els (visit fa e st)
        have l3 := visitBlock_le fa s { visitBlock fa els (visit fa e st) with never := (visit fa e st).never }
        rcases andThen_some h with ⟨v, w1, h1, h2⟩ | ⟨j, h1, rfl⟩
        · have hv : (visit fa e st).never = false := ih.ex e w _ _ st h1 hst ok.left
          have okr := ok.right l1
          split at h2
          · exact (ih.block s _ o w' { visitBlock fa els (visit fa e st) with never := (visit fa e st).never } h2 hv
              (okr.right l2)).before (Le.trans l1 l2)
          · match hb : runBlock S n els w1, h2 with
            | some (.jump j, w2), h2 =>
              cases h2
              exact ((ih.block els w1 _ _ _ hb hv okr.left).before l1).jump l3
            | some (.val _, w2), h2 => cases h2
            | none, h2 => cases h2
        · exact (ih.ex e w _ _ st h1 hst ok.left).jump (Le.trans l2 l3)
end

/-- An expression for which `is_never_expr` answers yes never has a value: it jumps out, panics or does not end.
Partial: the right sides of `&&` and `||` do not jump. -/
theorem never_no_value_partial {fa : Facts} {S : Sem} {e : Ex} (h : isNever fa e = true)
    (hty : fa.never e = true → NoValue S e) (hop : ∀ k vs w, fa.opNever k = true → S.op k vs w = none)
    (hids : (ids e).Nodup) (hlazy : ∀ r ∈ lazies e, Quiet fa.opNever r) : NoValue S e := by
  unfold isNever at h
  split at h
  · next ht => exact hty ht
  · split at h
    · cases h
    · intro n w v w' hr
      have := (sound hop n).ex e w _ _ ⟨[], false⟩ hr rfl ⟨hids, fun _ _ => by simp, hlazy⟩
      simp only [Good] at this
      rw [this] at h; cases h

end Verif.Never
