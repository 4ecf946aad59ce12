import Verif.Collapse.Model
import Verif.Collapse.Spec
import Verif.Guard.Props

/-!
# Collapsing an inner `match` or `if` keeps what the outer one does
-/

namespace Verif.Collapse

open Verif.Guard (Id Pat Pats Fields Val Code Env Prog look pm pmAll pmFields vars varsAll varsFields Fresh Spl WfPat WfPats
  WfFields NoAt NoAts NoAtFields)

section Lists

theorem lastArm_mem {f : Arm → Bool} : ∀ {arms : List Arm} {b : Arm}, lastArm f arms = some b → b ∈ arms ∧ f b = true
  | [], b, h => by cases h
  | a :: as, b, h => by
    simp only [lastArm] at h
    split at h
    · next c hc =>
      cases h
      exact ⟨List.mem_cons_of_mem _ (lastArm_mem hc).1, (lastArm_mem hc).2⟩
    · split at h
      · next hf =>
        cases h
        exact ⟨List.mem_cons_self, hf⟩
      · cases h

theorem lastArm_append {f : Arm → Bool} {b : Arm} (hb : f b = true) : ∀ (as : List Arm), lastArm f (as ++ [b]) = some b
  | [] => by simp [lastArm, hb]
  | a :: as => by simp only [List.cons_append, lastArm, lastArm_append hb as]

end Lists

section Replace

variable {x : Id} {q : Pat} {flag : Bool}

mutual
theorem replace_id : ∀ {p : Pat}, x ∉ vars p → replace x q flag p = some p
  | .wild, _ => rfl
  | .bind r y, h => by
    simp only [vars, List.mem_singleton] at h
    simp only [replace]
    rw [if_neg (fun e => h e.symm)]
  | .bindAt r y p, h => by
    simp only [vars, List.mem_cons, not_or] at h
    simp only [replace]
    rw [if_neg (fun e => h.1 e.symm), replace_id h.2]
    rfl
  | .lit _, _ => rfl
  | .con _ ps, h => by simp only [vars] at h; simp only [replace, replaceAll_id h, Option.map_some]
  | .strct _ fs, h => by simp only [vars] at h; simp only [replace, replaceFields_id h, Option.map_some]
  | .ref p, h => by simp only [vars] at h; simp only [replace, replace_id h, Option.map_some]
  | .or ps, h => rfl
  | .slice ps, h => by simp only [vars] at h; simp only [replace, replaceAll_id h, Option.map_some]
  | .front ps, h => by simp only [vars] at h; simp only [replace, replaceAll_id h, Option.map_some]
  | .back ps, h => by simp only [vars] at h; simp only [replace, replaceAll_id h, Option.map_some]
theorem replaceAll_id : ∀ {ps : Pats}, x ∉ varsAll ps → replaceAll x q flag ps = some ps
  | .nil, _ => rfl
  | .cons p ps, h => by
    simp only [varsAll, List.mem_append, not_or] at h
    simp only [replaceAll, replace_id h.1, replaceAll_id h.2, Option.map_some, Option.bind_some]
theorem replaceFields_id : ∀ {fs : Fields}, x ∉ varsFields fs → replaceFields x q flag fs = some fs
  | .nil, _ => rfl
  | .short r y fs, h => by
    simp only [varsFields, List.mem_cons, not_or] at h
    simp only [replaceFields]
    rw [if_neg (fun e => h.1 e.symm), replaceFields_id h.2]
    rfl
  | .named f p fs, h => by
    simp only [varsFields, List.mem_append, not_or] at h
    simp only [replaceFields, replace_id h.1, replaceFields_id h.2, Option.map_some, Option.bind_some]
end

theorem replaceAll_len : ∀ {ps ps' : Pats}, replaceAll x q flag ps = some ps' → ps'.len = ps.len
  | .nil, _, h => by
    simp only [replaceAll, Option.some.injEq] at h
    rw [← h]
  | .cons p ps, _, h => by
    simp only [replaceAll, Option.bind_eq_some_iff, Option.map_eq_some_iff] at h
    obtain ⟨p', -, ps', hps, rfl⟩ := h
    simp only [Guard.Pats.len, replaceAll_len hps]

theorem count_append {a b : List Id} (h : (a ++ b).count x = 1) :
    (a.count x = 1 ∧ x ∉ b) ∨ (x ∉ a ∧ b.count x = 1) := by
  rw [List.count_append] at h
  by_cases ha : a.count x = 0
  · exact .inr ⟨List.count_eq_zero.mp ha, by omega⟩
  · exact .inl ⟨by omega, List.count_eq_zero.mp (by omega)⟩

theorem count_cons {y : Id} {b : List Id} (h : (y :: b).count x = 1) :
    (y = x ∧ x ∉ b) ∨ (y ≠ x ∧ b.count x = 1) := by
  by_cases hy : y = x
  · subst hy
    rw [List.count_cons_self] at h
    exact .inl ⟨rfl, List.count_eq_zero.mp (by omega)⟩
  · rw [List.count_cons_of_ne hy] at h
    exact .inr ⟨hy, h⟩

theorem allBind_count : ∀ {ps : Pats}, Guard.AllBind x ps → ps.len ≤ (varsAll ps).count x
  | .nil, _ => Nat.le_refl _
  | .cons p ps, h => by
    cases h with
    | cons h hs =>
      simp only [Guard.Pats.len, varsAll, List.count_append]
      have h1 := allBind_count hs
      have h3 := List.count_pos_iff.mpr h
      omega

mutual
theorem spl : ∀ {p p' : Pat}, WfPat p → NoAt x p → (vars p).count x = 1 → replace x q flag p = some p' →
    ∀ v, Spl x q (pm p v) (pm p' v)
  | .wild, _, _, _, hf, _ => by cases hf
  | .bind b y, p', _, _, hf, he => by
    intro v
    simp only [replace] at he
    rcases count_cons (by simpa only [vars] using hf) with ⟨hy, -⟩ | ⟨-, h0⟩
    · rw [if_pos hy] at he
      split at he
      · cases he
      · cases he
        refine ⟨[], v, [], by rw [← hy]; rfl, rfl, rfl, ?_⟩
        cases pm q v <;> simp
    · cases h0
  | .bindAt b y p, p', hw, hn, hf, he => by
    intro v
    cases hw with
    | bindAt hw =>
    cases hn with
    | bindAt hy hn =>
    simp only [replace] at he
    rw [if_neg hy] at he
    simp only [Option.map_eq_some_iff] at he
    obtain ⟨p1, he, rfl⟩ := he
    simp only [pm]
    rcases count_cons (by simpa only [vars] using hf) with ⟨hy', -⟩ | ⟨-, h0⟩
    · exact absurd hy' hy
    · exact Guard.spl_cons hy (spl hw hn h0 he v)
  | .lit _, _, _, _, hf, _ => by cases hf
  | .con c ps, p', hw, hn, hf, he => by
    intro v
    cases hw with
    | con hw =>
    cases hn with
    | con hn =>
    simp only [vars] at hf
    simp only [replace, Option.map_eq_some_iff] at he
    obtain ⟨ps', he, rfl⟩ := he
    have hl := replaceAll_len he
    cases v with
    | con d vs =>
      simp only [pm, hl]
      by_cases hc : d = c ∧ ps.len = vs.len
      · rw [if_pos hc, if_pos hc]
        exact splAll hw hn hf he vs
      · rw [if_neg hc, if_neg hc]
        rfl
    | _ => rfl
  | .strct c fs, p', hw, hn, hf, he => by
    intro v
    cases hw with
    | strct hw =>
    cases hn with
    | strct hn =>
    simp only [vars] at hf
    simp only [replace, Option.map_eq_some_iff] at he
    obtain ⟨fs', he, rfl⟩ := he
    cases v with
    | strct d vs =>
      simp only [pm]
      by_cases hc : d = c
      · rw [if_pos hc, if_pos hc]
        exact splFields hw hn hf he vs
      · rw [if_neg hc, if_neg hc]
        rfl
    | _ => rfl
  | .ref p, p', hw, hn, hf, he => by
    intro v
    cases hw with
    | ref hw =>
    cases hn with
    | ref hn =>
    simp only [vars] at hf
    simp only [replace, Option.map_eq_some_iff] at he
    obtain ⟨p1, he, rfl⟩ := he
    simp only [pm]
    exact spl hw hn hf he v
  | .or ps, p', hw, hn, hf, he => by
    cases hw with
    | or hw hl hx =>
    simp only [vars] at hf
    have hm : x ∈ varsAll ps := List.count_pos_iff.mp (by omega)
    have := allBind_count (hx x hm)
    omega
  | .slice ps, p', hw, hn, hf, he => by
    intro v
    cases hw with
    | slice hw =>
    cases hn with
    | slice hn =>
    simp only [vars] at hf
    simp only [replace, Option.map_eq_some_iff] at he
    obtain ⟨ps', he, rfl⟩ := he
    have hl := replaceAll_len he
    cases v with
    | slice vs =>
      simp only [pm, hl]
      by_cases hc : ps.len = vs.len
      · rw [if_pos hc, if_pos hc]
        exact splAll hw hn hf he vs
      · rw [if_neg hc, if_neg hc]
        rfl
    | _ => rfl
  | .front ps, p', hw, hn, hf, he => by
    intro v
    cases hw with
    | front hw =>
    cases hn with
    | front hn =>
    simp only [vars] at hf
    simp only [replace, Option.map_eq_some_iff] at he
    obtain ⟨ps', he, rfl⟩ := he
    cases v with
    | slice vs =>
      simp only [pm]
      exact splAll hw hn hf he vs
    | _ => rfl
  | .back ps, p', hw, hn, hf, he => by
    intro v
    cases hw with
    | back hw =>
    cases hn with
    | back hn =>
    simp only [vars] at hf
    simp only [replace, Option.map_eq_some_iff] at he
    obtain ⟨ps', he, rfl⟩ := he
    have hl := replaceAll_len he
    cases v with
    | slice vs =>
      simp only [pm, hl]
      by_cases hc : ps.len ≤ vs.len
      · rw [if_pos hc, if_pos hc]
        exact splAll hw hn hf he _
      · rw [if_neg hc, if_neg hc]
        rfl
    | _ => rfl
theorem splAll : ∀ {ps ps' : Pats}, WfPats ps → NoAts x ps → (varsAll ps).count x = 1 →
    replaceAll x q flag ps = some ps' → ∀ vs, Spl x q (pmAll ps vs) (pmAll ps' vs)
  | .nil, _, _, _, hf, _ => by cases hf
  | .cons p ps, ps', hw, hn, hf, he => by
    intro vs
    cases hw with
    | cons hw hws =>
    cases hn with
    | cons hn hns =>
    simp only [varsAll] at hf
    simp only [replaceAll, Option.bind_eq_some_iff, Option.map_eq_some_iff] at he
    obtain ⟨p1, he, ps1, hes, rfl⟩ := he
    cases vs with
    | nil => rfl
    | cons v vs =>
      simp only [pmAll]
      rcases count_append hf with ⟨h1, h2⟩ | ⟨h1, h2⟩
      · rw [replaceAll_id h2] at hes
        cases hes
        exact Guard.spl_left (spl hw hn h1 he v) fun cs hc => Guard.pmAll_fresh hc h2
      · rw [replace_id h1] at he
        cases he
        exact Guard.spl_right (splAll hws hns h2 hes vs) fun cs hc => Guard.pm_fresh hc h1
theorem splFields : ∀ {fs fs' : Fields}, WfFields fs → NoAtFields x fs → (varsFields fs).count x = 1 →
    replaceFields x q flag fs = some fs' → ∀ vs, Spl x q (pmFields fs vs) (pmFields fs' vs)
  | .nil, _, _, _, hf, _ => by cases hf
  | .short b y fs, fs', hw, hn, hf, he => by
    intro vs
    cases hw with
    | short hw =>
    cases hn with
    | short hn =>
    simp only [varsFields] at hf
    simp only [replaceFields] at he
    rcases count_cons hf with ⟨hy, h0⟩ | ⟨hy, h0⟩
    · rw [if_pos hy, replaceFields_id h0] at he
      split at he
      · cases he
        simp only [pmFields]
        cases vs.get y with
        | none => rfl
        | some v =>
          have h := Guard.spl_left (x := x) (q := q) (o := some [(x, v)]) (o' := pm q v) (s := pmFields fs vs)
            ⟨[], v, [], rfl, rfl, rfl, by cases pm q v <;> simp⟩ fun cs hc => Guard.pmFields_fresh hc h0
          simpa [hy] using h
      · cases he
    · rw [if_neg hy] at he
      simp only [Option.map_eq_some_iff] at he
      obtain ⟨fs1, he, rfl⟩ := he
      simp only [pmFields]
      cases vs.get y with
      | none => rfl
      | some v =>
        simp only [Option.bind_some]
        exact Guard.spl_cons hy (splFields hw hn h0 he vs)
  | .named f p fs, fs', hw, hn, hf, he => by
    intro vs
    cases hw with
    | named hw hws =>
    cases hn with
    | named hn hns =>
    simp only [varsFields] at hf
    simp only [replaceFields, Option.bind_eq_some_iff, Option.map_eq_some_iff] at he
    obtain ⟨p1, he, fs1, hes, rfl⟩ := he
    simp only [pmFields]
    cases vs.get f with
    | none => rfl
    | some v =>
      simp only [Option.bind_some]
      rcases count_append hf with ⟨h1, h2⟩ | ⟨h1, h2⟩
      · rw [replaceFields_id h2] at hes
        cases hes
        exact Guard.spl_left (spl hw hn h1 he v) fun cs hc => Guard.pmFields_fresh hc h2
      · rw [replace_id h1] at he
        cases he
        exact Guard.spl_right (splFields hws hns h2 hes vs) fun cs hc => Guard.pm_fresh hc h1
end

end Replace

section Run

variable {S : Prog} {env : Env} {v : Val}

theorem run_before {xs ys : List Arm} (h : run S env v xs = run S env v ys) :
    ∀ pre : List Arm, run S env v (pre ++ xs) = run S env v (pre ++ ys)
  | [] => h
  | a :: as => by simp only [List.cons_append, run, run_before h as]

theorem run_before_val {xs ys : List Arm} (h : (run S env v xs).2 = (run S env v ys).2) :
    ∀ pre : List Arm, (run S env v (pre ++ xs)).2 = (run S env v (pre ++ ys)).2
  | [] => h
  | a :: as => by
    simp only [List.cons_append, run]
    have ih := run_before_val h as
    cases pm a.pat v with
    | none => exact ih
    | some bs =>
      simp only
      split
      · rfl
      · exact ih

theorem val_skip {b : Blk} {ds : Env} (h : ∀ y ∈ b.uses, look y ds = none) : b.val (ds ++ env) = b.val env := by
  cases b with
  | unit => rfl
  | code c =>
    simp only [Blk.val, R.code.injEq, true_and]
    apply List.map_congr_left
    intro y hy
    rw [Guard.look_append, h y hy]
    rfl

theorem val_congr {b : Blk} {env' : Env} (h : ∀ y ∈ b.uses, look y env = look y env') : b.val env = b.val env' := by
  cases b with
  | unit => rfl
  | code c =>
    simp only [Blk.val, R.code.injEq, true_and]
    exact List.map_congr_left h

theorem conds_congr {env' : Env} : ∀ {g : List Code}, (∀ c ∈ g, ∀ y ∈ c.uses, look y env = look y env') →
    conds S env g = conds S env' g
  | [], _ => rfl
  | c :: g, h => by
    have hc : c.uses.map (look · env) = c.uses.map (look · env') :=
      List.map_congr_left (h c List.mem_cons_self)
    have ih := conds_congr fun d hd => h d (List.mem_cons_of_mem _ hd)
    simp only [conds, cond, event, hc, ih]
    rfl

theorem conds_append {c : Code} : ∀ {g : List Code}, conds S env (g ++ [c]) =
    if (conds S env g).2 = true then ((conds S env g).1 ++ [event env c], cond S env c) else conds S env g
  | [] => by
    simp only [List.nil_append, conds]
    cases cond S env c <;> rfl
  | d :: g => by
    simp only [List.cons_append, conds]
    rw [conds_append (g := g)]
    by_cases hd : cond S env d = true
    · simp only [hd, if_true]
      split <;> simp
    · simp [hd]

theorem sameElse_some {o : Body} {e : Option Blk} (h : sameElse (some o) e = true) :
    ∃ b, o = .blk b ∧ (∀ env, b.val env = optVal env e) ∧ ∀ y, y ∈ (e.map Blk.uses).getD [] → y ∈ b.uses := by
  cases o with
  | blk b =>
    refine ⟨b, rfl, ?_⟩
    cases e with
    | none =>
      simp only [sameElse, beq_iff_eq] at h
      subst h
      exact ⟨fun _ => rfl, fun y hy => by simp at hy⟩
    | some d =>
      simp only [sameElse, beq_iff_eq] at h
      subst h
      exact ⟨fun _ => rfl, fun y hy => hy⟩
  | _ => cases e <;> cases h

theorem total_match {p : Pat} (h : Total p) : ∃ ds, pm p v = some ds := by
  cases h <;> exact ⟨_, rfl⟩

/-- The later arms give the result of the last one. -/
theorem fall {p : Pat} {mid : List Arm} {last : Arm} {b : Blk} (hp : pm p v ≠ none) (ht : Total last.pat)
    (hg : last.guard = []) (hb : last.body = .blk b) (hu : ∀ y ∈ vars last.pat, y ∉ b.uses)
    (hm : ∀ m ∈ mid, ∀ v, pm p v ≠ none → pm m.pat v = none) :
    run S env v (mid ++ [last]) = ([], some (b.val env)) := by
  induction mid with
  | nil =>
    obtain ⟨ds, hd⟩ := total_match (v := v) ht
    simp only [List.nil_append, run, hd, hg, conds, hb, Body.run, if_true, List.nil_append]
    rw [val_skip fun y hy => Guard.pm_fresh hd fun hv => hu y hv hy]
  | cons m mid ih =>
    simp only [List.cons_append, run, hm m List.mem_cons_self v hp]
    exact ih fun m' h' => hm m' (List.mem_cons_of_mem _ h')

theorem wild_of {a : Arm} (ht : Total a.pat) (hg : a.guard = []) : wildLike a = true := by
  unfold wildLike
  rw [hg]
  generalize a.pat = p at ht
  cases ht <;> rfl

theorem split_at {arms : List Arm} {idx : Nat} {a : Arm} (h : arms[idx]? = some a) (b : Arm) :
    arms = arms.take idx ++ a :: arms.drop (idx + 1) ∧ arms.set idx b = arms.take idx ++ b :: arms.drop (idx + 1) := by
  obtain ⟨hi, rfl⟩ := List.getElem?_eq_some_iff.mp h
  refine ⟨?_, ?_⟩
  · conv => lhs; rw [← List.take_append_drop idx arms]
    rw [List.drop_eq_getElem_cons hi]
  · rw [List.set_eq_take_append_cons_drop, if_pos hi]

theorem els_last {arms : List Arm} {idx : Nat} {a last : Arm} {mid : List Arm} (h : arms[idx]? = some a)
    (hr : arms.drop (idx + 1) = mid ++ [last]) (ht : Total last.pat) (hg : last.guard = []) :
    lastArm wildLike arms = some last := by
  rw [(split_at h a).1, hr]
  have := lastArm_append (wild_of ht hg) (arms.take idx ++ a :: mid)
  simpa using this

theorem wildLike_spec {a : Arm} (h : wildLike a = true) : a.guard = [] ∧ WildLike a.pat := by
  simp only [wildLike, Bool.and_eq_true, List.isEmpty_iff] at h
  refine ⟨h.1, ?_⟩
  have hp := h.2
  generalize a.pat = p at hp
  unfold wildPat at hp
  split at hp
  · exact .wild
  · exact .bind
  · exact .bindAt
  · simp only [beq_iff_eq] at hp
    subst hp
    exact .none
  · cases hp

theorem lastIdx_none {f : Arm → Bool} : ∀ {arms : List Arm}, lastIdx f arms = none → ∀ a ∈ arms, f a = false
  | [], _, _, h => by cases h
  | b :: bs, h, a, ha => by
    simp only [lastIdx] at h
    split at h
    · cases h
    · next hn =>
      split at h
      · cases h
      · next hf =>
        rcases List.mem_cons.mp ha with rfl | ha
        · simpa using hf
        · exact lastIdx_none hn a ha

theorem lastIdx_drop {f : Arm → Bool} : ∀ {arms : List Arm} {l : Nat}, lastIdx f arms = some l →
    ∀ a ∈ arms.drop (l + 1), f a = false
  | [], _, h => by cases h
  | b :: bs, l, h => by
    simp only [lastIdx] at h
    split at h
    · next i hi =>
      cases h
      intro a ha
      exact lastIdx_drop hi a (by simpa using ha)
    · next hn =>
      split at h
      · cases h
        intro a ha
        exact lastIdx_none hn a (by simpa using ha)
      · cases h

theorem onlyWild_spec {arms : List Arm} {idx : Nat} (h : onlyWild arms idx = true) :
    ∀ a ∈ arms.drop (idx + 1), wildLike a = true := by
  intro a ha
  unfold onlyWild at h
  split at h
  · next hn =>
    have := lastIdx_none hn a (List.mem_of_mem_drop ha)
    simpa using this
  · next l hl =>
    simp only [decide_eq_true_eq] at h
    have hd : a ∈ arms.drop (l + 1) := by
      have : arms.drop (idx + 1) = (arms.drop (l + 1)).drop (idx - l) := by
        rw [List.drop_drop]
        congr 1
        omega
      rw [this] at ha
      exact List.mem_of_mem_drop ha
    have := lastIdx_drop hl a hd
    simpa using this

/-- An `if` inside of an arm can become its guard: the `match` evaluates the same conditions in the same order, and has
the same result.

Missing (see `Verif.Collapse.Witness`): arms between the arm and the last one that count as wildcards (`None`, bindings
with subpatterns) can match the same values, and the last arm can be such a one. -/
theorem if_same_partial {arms : List Arm} {idx : Nat} {a : Arm} {c : Code} {t : Blk} (ha : arms[idx]? = some a)
    (h : checkMatch arms idx = .guard c t) (hf : FallsWild a.pat (arms.drop (idx + 1)))
    (hs : Scoped a (arms.drop (idx + 1))) :
    ∃ a', newArm a (checkMatch arms idx) = some a' ∧ run S env v arms = run S env v (arms.set idx a') := by
  refine ⟨⟨a.pat, a.guard ++ [c], .blk t⟩, by rw [h]; rfl, ?_⟩
  obtain ⟨mid, last, hr, ht, hg, hm⟩ := hf
  have hl := els_last ha hr ht hg
  have hif : checkIf true a.body (some last.body) (onlyWild arms idx) = .guard c t := by
    simp only [checkMatch, hl, ha, checkArm] at h
    split at h
    · unfold checkNest at h
      split at h
      · split at h
        · cases h
        · exact h
      · exact h
    · exact h
  unfold checkIf at hif
  split at hif
  · next c' t' e hb =>
    split at hif
    · next hc =>
      cases hif
      simp only [Bool.and_eq_true] at hc
      have how := onlyWild_spec hc.1.2
      rw [hr] at how
      have hm : ∀ m ∈ mid, ∀ v, pm a.pat v ≠ none → pm m.pat v = none := fun m hmm =>
        hm m hmm (wildLike_spec (how m (by simp [hmm]))).1 (wildLike_spec (how m (by simp [hmm]))).2
      obtain ⟨b, hbl, hval, hus⟩ := sameElse_some hc.2
      obtain ⟨h1, h2⟩ := split_at ha ⟨a.pat, a.guard ++ [c], .blk t⟩
      rw [h2]
      conv => lhs; rw [h1]
      apply run_before
      simp only [run]
      cases hp : pm a.pat v with
      | none => rfl
      | some bs =>
        have hlast : last ∈ arms.drop (idx + 1) := by rw [hr]; simp
        have hE : ∀ y ∈ vars last.pat, y ∉ (e.map Blk.uses).getD [] := by
          intro y hy hu
          refine hs.earlier last hlast y hy ?_
          rw [hb]
          simp only [Body.uses, List.mem_append]
          exact .inr hu
        have hbu : ∀ y ∈ b.uses, y ∉ vars a.pat := by
          intro y hy hv
          refine hs.later last hlast y (.inl hv) ?_
          rw [hbl]
          exact hy
        have hvu : ∀ y ∈ vars last.pat, y ∉ b.uses := by
          intro y hy hu
          cases e with
          | none =>
            have : b = .unit := by
              have := hc.2
              rw [hbl] at this
              simpa only [sameElse, beq_iff_eq] using this
            rw [this] at hu
            cases hu
          | some d =>
            have : b = d := by
              have := hc.2
              rw [hbl] at this
              simpa only [sameElse, beq_iff_eq] using this
            subst this
            exact hE y hy hu
        have hrest := fall (S := S) (env := env) (p := a.pat) (v := v) (by rw [hp]; exact (fun h => nomatch h)) ht hg hbl
          hvu hm
        simp only [hr, hrest, conds_append, hb, Body.run]
        cases hcg : (conds S (bs ++ env) a.guard).2 with
        | false => simp [hcg]
        | true =>
          simp only [if_true]
          cases cond S (bs ++ env) c with
          | true => simp
          | false =>
            simp only [Bool.false_eq_true, if_false, List.append_nil]
            rw [← hval, val_skip fun y hy => Guard.pm_fresh hp (hbu y hy)]
    · cases hif
  · cases hif

theorem not_total {a : IArm} (hg : a.guard = none) (hw : ¬ wildLikeInner a = true) : ¬ Total a.pat := by
  intro ht
  apply hw
  unfold wildLikeInner
  rw [hg]
  generalize a.pat = p at ht
  cases ht <;> rfl

theorem inner_run {body : Body} {x : Id} {q : Pat} {t : Blk} {e : Option Blk} (h : parts body = some (.loc x, q, t, e))
    (hi : Inner body) (hu : ∀ y ∈ body.binds, y ∉ (e.map Blk.uses).getD []) :
    body.run S env = ([], some (match pm q ((look x env).getD (.lit 0)) with
      | some cs => t.val (cs ++ env)
      | none => optVal env e)) ∧ OnVar x body ∧ (∀ y ∈ vars q, y ∈ body.binds) ∧
      ∀ y ∈ t.uses, usedInside y body = true := by
  have hused : ∀ {b : Blk} {y : Id}, y ∈ b.uses → usedBlk y b = true := by
    intro b y hy
    cases b with
    | unit => cases hy
    | code c => simpa [usedBlk, Blk.uses] using hy
  cases body with
  | blk b => cases h
  | ite c t e => cases h
  | ifLet q' s t' e' =>
    simp only [parts, Option.some.injEq, Prod.mk.injEq] at h
    obtain ⟨rfl, rfl, rfl, rfl⟩ := h
    refine ⟨?_, .ifLet, fun y hy => hy, fun y hy => ?_⟩
    · simp only [Body.run, Scrut.val]
      split <;> simp_all
    · simp only [usedInside, hused hy, Bool.true_or]
  | mtch s arms =>
    match arms, h, hi, hu with
    | [], h, _, _ => cases h
    | [_], h, _, _ => cases h
    | _ :: _ :: _ :: _, h, _, _ => cases h
    | [a, b], h, hi, hu =>
      simp only [parts, Bool.and_eq_true, Option.isNone_iff_eq_none] at h
      split at h
      · next hg =>
        split at h
        · next hw =>
          simp only [Option.some.injEq, Prod.mk.injEq] at h
          obtain ⟨rfl, rfl, rfl, rfl⟩ := h
          refine ⟨?_, .mtch, fun y hy => ?_, fun y hy => ?_⟩
          · simp only [Body.run, Scrut.val, inner, hg.1, hg.2]
            cases ha : pm a.pat ((look x env).getD (.lit 0)) with
            | some cs => rfl
            | none =>
              cases hb : pm b.pat ((look x env).getD (.lit 0)) with
              | none => exact absurd (hi.1 ((look x env).getD (.lit 0))) (by simp [ha, hb])
              | some ds =>
                simp only [optVal]
                rw [val_skip fun y hy => Guard.pm_fresh hb fun hv => hu y (by simp [Body.binds, hv]) (by simpa using hy)]
          · simp [Body.binds, hy]
          · simp [usedInside, hused hy]
        · split at h
          · next hw' hw =>
            simp only [Option.some.injEq, Prod.mk.injEq] at h
            obtain ⟨rfl, rfl, rfl, rfl⟩ := h
            refine ⟨?_, .mtch, fun y hy => ?_, fun y hy => ?_⟩
            · simp only [Body.run, Scrut.val, inner, hg.1, hg.2]
              cases ha : pm a.pat ((look x env).getD (.lit 0)) with
              | none =>
                cases hb : pm b.pat ((look x env).getD (.lit 0)) with
                | none => exact absurd (hi.1 ((look x env).getD (.lit 0))) (by simp [ha, hb])
                | some ds => rfl
              | some ds =>
                cases hb : pm b.pat ((look x env).getD (.lit 0)) with
                | none =>
                  simp only [optVal]
                  rw [val_skip fun y hy => Guard.pm_fresh ha fun hv => hu y (by simp [Body.binds, hv]) (by simpa using hy)]
                | some cs =>
                  rcases hi.2 ((look x env).getD (.lit 0)) (by rw [hb]; exact (fun h => nomatch h)) with h | h
                  · rw [ha] at h
                    cases h
                  · exact absurd h (not_total hg.2 hw')
            · simp [Body.binds, hy]
            · simp [usedInside, hused hy]
          · cases h
      · cases h

theorem else_uses {body : Body} {s : Scrut} {q : Pat} {t d : Blk} (h : parts body = some (s, q, t, some d)) {y : Id}
    (hy : y ∈ d.uses) : y ∈ body.uses := by
  unfold parts at h
  split at h
  · simp only [Option.some.injEq, Prod.mk.injEq] at h
    obtain ⟨rfl, rfl, rfl, rfl⟩ := h
    simp [Body.uses, hy]
  · split at h
    · split at h
      · simp only [Option.some.injEq, Prod.mk.injEq] at h
        obtain ⟨rfl, rfl, rfl, rfl⟩ := h
        simp [Body.uses, hy]
      · split at h
        · simp only [Option.some.injEq, Prod.mk.injEq] at h
          obtain ⟨rfl, rfl, rfl, rfl⟩ := h
          simp [Body.uses, hy]
        · cases h
    · cases h
  · cases h

/-- The arm with the new pattern. -/
theorem nest_same {a : Arm} {x : Id} {q p' : Pat} {flag : Bool} {t : Blk} {e : Option Blk} {mid : List Arm} {last : Arm}
    (hpt : parts a.body = some (.loc x, q, t, e)) (hrep : replace x q flag a.pat = some p')
    (helse : sameElse (some last.body) e = true) (hg : ∀ c ∈ a.guard, x ∉ c.uses) (hus : usedInside x a.body = false)
    (hw : WfPat a.pat) (hx : ∀ x, OnVar x a.body → Once x a.pat) (hi : Inner a.body)
    (hs : Scoped a (mid ++ [last])) (ht : Total last.pat) (hlg : last.guard = [])
    (hm : ∀ m ∈ mid, ∀ v, pm a.pat v ≠ none → pm m.pat v = none) (hl : ∀ b, last.body = .blk b →
      ∀ y ∈ vars last.pat, y ∉ b.uses) :
    (run S env v (a :: (mid ++ [last]))).2 = (run S env v (⟨p', a.guard, .blk t⟩ :: (mid ++ [last]))).2 := by
  obtain ⟨b, hb, hval, hbu⟩ := sameElse_some helse
  have hlast : last ∈ mid ++ [last] := by simp
  have hbody : ∀ y ∈ b.uses, y ∉ vars a.pat ∧ y ∉ a.body.binds := by
    intro y hy
    refine ⟨fun hv => hs.later last hlast y (.inl hv) ?_, fun hv => hs.later last hlast y (.inr hv) ?_⟩ <;>
    · rw [hb]
      exact hy
  have hrun := fun env => inner_run (S := S) (env := env) hpt hi fun y hy hu => (hbody y (hbu y hu)).2 hy
  obtain ⟨-, honv, hqb, htu⟩ := hrun env
  obtain ⟨hcount, hno⟩ := hx x honv
  have hspl := spl hw hno hcount hrep v
  simp only [run]
  cases hp : pm a.pat v with
  | none =>
    rw [hp] at hspl
    rw [show pm p' v = none from hspl]
  | some bs =>
    rw [hp] at hspl
    obtain ⟨pre, w, post, rfl, h1, h2, h3⟩ := hspl
    have hlook : (look x ((pre ++ (x, w) :: post) ++ env)).getD (.lit 0) = w := by
      rw [Guard.look_x h1]
      rfl
    have hrest := fall (S := S) (env := env) (p := a.pat) (v := v) (by rw [hp]; exact (fun h => nomatch h)) ht hlg hb
      (hl b hb) hm
    have hold := (hrun ((pre ++ (x, w) :: post) ++ env)).1
    rw [hlook] at hold
    simp only [h3, hold, hrest]
    cases hq : pm q w with
    | none =>
      simp only [Option.map_none]
      split
      · rw [← hval, val_skip fun y hy => Guard.pm_fresh hp (hbody y hy).1]
      · rfl
    | some cs =>
      have hdisj : ∀ y, look y cs ≠ none → y ∈ vars q := fun y hy =>
        Classical.byContradiction fun hm => hy (Guard.pm_fresh hq hm)
      have hpre : ∀ y, look y cs ≠ none → look y pre = none := by
        intro y hy
        refine Classical.byContradiction fun hn => ?_
        have hm' : y ∈ vars a.pat :=
          Classical.byContradiction fun hm => Guard.bound_left hn (Guard.pm_fresh hp hm)
        exact (hs.inner y (hqb y (hdisj y hy))).1 hm'
      have hcond : conds S ((pre ++ (x, w) :: post) ++ env) a.guard = conds S ((pre ++ (cs ++ post)) ++ env) a.guard := by
        apply conds_congr
        intro c hc y hy
        refine Guard.look_drop (fun he => hg c hc (he ▸ hy)) ?_
        exact Classical.byContradiction fun hn => (hs.inner y (hqb y (hdisj y hn))).2 c hc hy
      have hthen : t.val (cs ++ ((pre ++ (x, w) :: post) ++ env)) = t.val ((pre ++ (cs ++ post)) ++ env) := by
        apply val_congr
        intro y hy
        refine Guard.look_swap (.inl fun he => ?_) (hpre y)
        rw [← he, htu y hy] at hus
        cases hus
      simp only [Option.map_some, hcond, hthen, Body.run]

theorem nest_parts {m : Bool} {p : Pat} {g : List Code} {body : Body} {els : Option Body} {ow : Bool} {p' : Pat} {t : Blk}
    (h : checkArm m p g body els ow = .help (some p') t) :
    ∃ x q e flag, parts body = some (.loc x, q, t, e) ∧ replace x q flag p = some p' ∧ sameElse els e = true ∧
      (∀ c ∈ g, x ∉ c.uses) ∧ usedInside x body = false := by
  have hno : ∀ ow, checkIf m body els ow ≠ .help (some p') t := by
    intro ow hh
    unfold checkIf at hh
    split at hh
    · split at hh <;> cases hh
    · cases hh
  unfold checkArm at h
  split at h
  · next x q t' e hp =>
    unfold checkNest at h
    split at h
    · next flag hf =>
      split at h
      · next hc =>
        simp only [Option.getD_some, Res.help.injEq] at h
        obtain ⟨hr, rfl⟩ := h
        simp only [Bool.and_eq_true, Bool.not_eq_true'] at hc
        refine ⟨x, q, e, flag, hp, hr, hc.1.1, fun c hcg hxu => ?_, hc.2⟩
        have := hc.1.2
        rw [List.any_eq_false] at this
        exact this c hcg (by simpa using hxu)
      · exact absurd h (hno _)
    · exact absurd h (hno _)
  · exact absurd h (hno _)

/-- An inner `match` or `if let` can become a part of the pattern of the arm: the result is the same.

Missing (see `Verif.Collapse.Witness`): other arms that match the same values, a last arm that does not match everything,
`x @ p`, and help texts that do not describe a pattern.  The guard is evaluated less often. -/
theorem match_same_partial {arms : List Arm} {idx : Nat} {a : Arm} {p' : Pat} {t : Blk} (ha : arms[idx]? = some a)
    (h : checkMatch arms idx = .help (some p') t) (hw : WfPat a.pat) (hx : ∀ x, OnVar x a.body → Once x a.pat)
    (hi : Inner a.body) (hf : Falls a.pat (arms.drop (idx + 1))) (hs : Scoped a (arms.drop (idx + 1))) :
    ∃ a', newArm a (checkMatch arms idx) = some a' ∧ (run S env v arms).2 = (run S env v (arms.set idx a')).2 := by
  refine ⟨⟨p', a.guard, .blk t⟩, by rw [h]; rfl, ?_⟩
  obtain ⟨mid, last, hr, ht, hg, hm⟩ := hf
  have hl := els_last ha hr ht hg
  simp only [checkMatch, hl, ha] at h
  obtain ⟨x, q, e, flag, h1, h2, h3, h4, h5⟩ := nest_parts h
  obtain ⟨ha1, ha2⟩ := split_at ha ⟨p', a.guard, .blk t⟩
  rw [ha2]
  conv => lhs; rw [ha1]
  apply run_before_val
  rw [hr] at hs ⊢
  refine nest_same h1 h2 h3 h4 h5 hw hx hi hs ht hg hm ?_
  intro b hb y hy hu
  have hlast : last ∈ mid ++ [last] := by simp
  refine hs.earlier last hlast y hy ?_
  rw [hb] at h3
  cases e with
  | none =>
    simp only [sameElse, beq_iff_eq] at h3
    rw [h3] at hu
    cases hu
  | some d =>
    simp only [sameElse, beq_iff_eq] at h3
    subst h3
    exact else_uses h1 hu

/-- An inner `match` or `if let` can become a part of the pattern of an `if let`. -/
theorem if_let_same_partial {p p' : Pat} {body : Body} {els : Option Body} {t : Blk}
    (h : checkIfLet p body els = .help (some p') t) (hw : WfPat p) (hx : ∀ x, OnVar x body → Once x p) (hi : Inner body)
    (hs : Scoped ⟨p, [], body⟩ [⟨.wild, [], els.getD (.blk .unit)⟩]) :
    (run S env v (ifLet p body els)).2 = (run S env v (ifLet p' (.blk t) els)).2 := by
  obtain ⟨x, q, e, flag, h1, h2, h3, h4, h5⟩ := nest_parts h
  have h3' : sameElse (some (els.getD (.blk .unit))) e = true := by
    cases els with
    | some o => exact h3
    | none =>
      cases e with
      | none => rfl
      | some d =>
        simp only [sameElse, beq_iff_eq] at h3
        subst h3
        rfl
  exact nest_same (a := ⟨p, [], body⟩) (mid := []) (last := ⟨.wild, [], els.getD (.blk .unit)⟩) h1 h2 h3' h4 h5 hw hx hi
    hs .wild rfl (fun _ hm => by cases hm) (fun _ _ y hy => by cases hy)

end Run

end Verif.Collapse
