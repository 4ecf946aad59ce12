import Verif.HirEq.Eval
import Verif.HirEq.HashProps

namespace Verif.HirEq

variable {α κ : Type} [DecidableEq κ]

/-! ### Maps -/

theorem look_cons (k : κ) (v : α) (m : List (κ × α)) (x : κ) : look ((k, v) :: m) x = if k = x then some v else look m x := by
  by_cases h : k = x
  · subst h; simp [look]
  · have hb : (k == x) = false := by simp [h]
    simp [look, List.find?, hb, h]

theorem look_nil (x : κ) : look ([] : List (κ × α)) x = none := rfl

theorem look_append (a b : List (κ × α)) (x : κ) : look (a ++ b) x = (look a x).or (look b x) := by
  induction a with
  | nil => simp [look_nil]
  | cons p a ih =>
    obtain ⟨k, v⟩ := p
    rw [List.cons_append, look_cons, look_cons, ih]
    by_cases h : k = x
    · simp [h]
    · simp [h]

theorem look_none {m : List (κ × α)} {x : κ} : look m x = none ↔ x ∉ m.map Prod.fst := by
  induction m with
  | nil => simp [look_nil]
  | cons p m ih =>
    obtain ⟨k, v⟩ := p
    rw [look_cons]
    by_cases h : k = x
    · simp [h]
    · rw [if_neg h, ih]; simp [Ne.symm h]

/-! ### Binders -/

theorem bindersL_append (a b : List N) : bindersL (a ++ b) = bindersL a ++ bindersL b := by
  induction a with
  | nil => rfl
  | cons x a ih => rw [List.cons_append, bindersL, bindersL, ih, List.append_assoc]

theorem binders_kids (k : K) (cs : List N) : (bindersL cs).Sublist (binders (.mk k cs)) := by
  rw [binders]; exact List.sublist_append_right _ _

theorem binders_mk {k : K} {cs : List N} (h : k.binder = []) : binders (.mk k cs) = bindersL cs := by
  rw [binders, h, List.nil_append]

theorem bindersL_cons (x : N) (xs : List N) : bindersL (x :: xs) = binders x ++ bindersL xs := by rw [bindersL]

theorem bindersL_nil : bindersL [] = [] := by rw [bindersL]

theorem reduce_cases (e : N) : reduce e = e ∨ (∃ i, (reduce e = .mk (.expr i .tup) [])) ∨
    (∃ i cs, reduce e = .mk (.expr i .ret) cs ∧ (bindersL cs).Sublist (binders e)) := by
  unfold reduce
  split
  · split
    · exact .inl rfl
    · exact .inr (.inl ⟨_, rfl⟩)
  · refine .inr (.inr ⟨_, _, rfl, ?_⟩)
    simp [binders, bindersL, K.binder]
  · refine .inr (.inr ⟨_, _, rfl, ?_⟩)
    simp [binders, bindersL, K.binder]
  · refine .inr (.inr ⟨_, _, rfl, ?_⟩)
    simp [binders, bindersL, K.binder]
  · exact .inl rfl

theorem binders_reduce (e : N) : (binders (reduce e)).Sublist (binders e) := by
  rcases reduce_cases e with h | ⟨i, h⟩ | ⟨i, cs, h, hs⟩
  · rw [h]; exact List.Sublist.refl _
  · rw [h]; simp [binders, bindersL, K.binder]
  · rw [h]; simpa [binders, K.binder] using hs

/-! ### What a comparison does to the map of variables -/

/-- The variable or item of the right side which belongs to one of the left side. -/
def St.get (st : St) : Key → Option Key
  | .var x => (look st.locals x).map .var
  | .item x => (look st.items x).map .item

/-- The maps are unchanged outside `xs`. -/
def Frame (xs : List Key) (st st' : St) : Prop := ∀ x, x ∉ xs → st'.get x = st.get x

theorem Frame.refl (xs : List Key) (st : St) : Frame xs st st := fun _ _ => rfl

theorem Frame.mono {xs ys : List Key} {st st' : St} (h : Frame xs st st') (hs : ∀ x ∈ xs, x ∈ ys) : Frame ys st st' :=
  fun x hx => h x (fun hx' => hx (hs x hx'))

theorem Frame.trans {xs : List Key} {a b c : St} (h1 : Frame xs a b) (h2 : Frame xs b c) : Frame xs a c :=
  fun x hx => (h2 x hx).trans (h1 x hx)

theorem eqAll_frame {rec : St → N → N → Bool × St} (hr : ∀ st l r, Frame (binders l) st (rec st l r).2) :
    ∀ (ls rs : List N) (st : St), Frame (bindersL ls) st (eqAll rec st ls rs).2
  | [], [], st => by rw [eqAll]; exact Frame.refl _ _
  | [], _ :: _, st => by simp only [eqAll]; exact Frame.refl _ _
  | _ :: _, [], st => by simp only [eqAll]; exact Frame.refl _ _
  | l :: ls, r :: rs, st => by
    rw [eqAll, bindersL]
    have h1 : Frame (binders l ++ bindersL ls) st (rec st l r).2 :=
      (hr st l r).mono (fun x hx => List.mem_append_left _ hx)
    by_cases hc : (rec st l r).1 = true
    · rw [if_pos hc]
      exact h1.trans ((eqAll_frame hr ls rs _).mono (fun x hx => List.mem_append_right _ hx))
    · rw [if_neg hc]; exact h1

theorem eqZip_frame {rec : St → N → N → Bool × St} (hr : ∀ st l r, Frame (binders l) st (rec st l r).2) :
    ∀ (ls rs : List N) (st : St), Frame (bindersL ls) st (eqZip rec st ls rs).2
  | [], [], st => by simp only [eqZip]; exact Frame.refl _ _
  | [], _ :: _, st => by simp only [eqZip]; exact Frame.refl _ _
  | _ :: _, [], st => by simp only [eqZip]; exact Frame.refl _ _
  | l :: ls, r :: rs, st => by
    rw [eqZip, bindersL]
    have h1 : Frame (binders l ++ bindersL ls) st (rec st l r).2 :=
      (hr st l r).mono (fun x hx => List.mem_append_left _ hx)
    by_cases hc : (rec st l r).1 = true
    · rw [if_pos hc]
      exact h1.trans ((eqZip_frame hr ls rs _).mono (fun x hx => List.mem_append_right _ hx))
    · rw [if_neg hc]; exact h1

theorem bindersL_lastN (k : Nat) (l : List N) : ∀ x ∈ bindersL (lastN k l), x ∈ bindersL l := by
  intro x hx
  have : l = l.take (l.length - k) ++ lastN k l := (List.take_append_drop _ _).symm
  rw [this, bindersL_append]
  exact List.mem_append_right _ hx

theorem eqSegs_frame {c : Cfg} {rec : St → N → N → Bool × St} (hr : ∀ st l r, Frame (binders l) st (rec st l r).2)
    (st : St) (ls : List Seg) (lcs : List N) (rs : List Seg) (rcs : List N) : Frame (bindersL lcs) st (eqSegs c rec st ls lcs rs rcs).2 := by
  unfold eqSegs
  split
  · split
    · exact (eqAll_frame hr _ _ _).mono (bindersL_lastN _ _)
    · exact Frame.refl _ _
  · split
    · exact eqAll_frame hr _ _ _
    · exact Frame.refl _ _

theorem eqPath_frame {c : Cfg} {rec : St → N → N → Bool × St} (hr : ∀ st l r, Frame (binders l) st (rec st l r).2)
    (st : St) (lres rres : Res) (ls : List Seg) (lcs : List N) (rs : List Seg) (rcs : List N) :
    Frame (bindersL lcs) st (eqPath c rec st lres rres ls lcs rs rcs).2 := by
  unfold eqPath
  split
  · exact Frame.refl _ _
  · split
    · exact eqSegs_frame hr _ _ _ _ _
    · exact Frame.refl _ _

theorem declare_frame (st : St) (lk rk : K) (ls : List N) : Frame (binders (.mk lk ls)) st (declare st lk rk) := by
  unfold declare
  split
  · next m l m' r =>
    intro x hx
    cases x with
    | var x =>
      simp only [St.get]
      rw [look_cons, if_neg]
      rintro rfl
      exact hx (by simp [binders, K.binder])
    | item x => rfl
  · next m l m' r =>
    intro x hx
    cases x with
    | item x =>
      simp only [St.get]
      rw [look_cons, if_neg]
      rintro rfl
      exact hx (by simp [binders, K.binder])
    | var x => rfl
  · exact Frame.refl _ _

theorem eqPlain_frame {c : Cfg} {rec : St → N → N → Bool × St} (hr : ∀ st l r, Frame (binders l) st (rec st l r).2)
    (st : St) (l r : N) : Frame (binders l) st (eqPlain c rec st l r).2 := by
  obtain ⟨lk, lcs⟩ := l
  have h1 : Frame (binders (.mk lk lcs)) st (eqAll rec st lcs r.kids).2 :=
    (eqAll_frame hr _ _ _).mono (fun x hx => (binders_kids lk lcs).subset hx)
  unfold eqPlain
  split
  · split
    · exact h1.trans (declare_frame _ _ _ _)
    · exact h1
  · exact Frame.refl _ _

theorem eqBin_frame {rec : St → N → N → Bool × St} (hr : ∀ st l r, Frame (binders l) st (rec st l r).2)
    (st : St) (lo : BinOp) (ll lr : N) (ro : BinOp) (rl rr : N) : Frame (bindersL [ll, lr]) st (eqBin rec st lo ll lr ro rl rr).2 := by
  have ha : Frame (bindersL [ll, lr]) st (if lo = ro then eqAll rec st [ll, lr] [rl, rr] else (false, st)).2 := by
    split
    · exact eqAll_frame hr _ _ _
    · exact Frame.refl _ _
  unfold eqBin
  generalize (if lo = ro then eqAll rec st [ll, lr] [rl, rr] else (false, st)) = a at ha
  simp only
  split
  · exact ha
  · split
    · refine ha.trans ((eqAll_frame hr [lr, ll] [rl, rr] a.2).mono ?_)
      intro x hx
      simp only [bindersL, List.append_nil, List.mem_append] at hx ⊢
      exact hx.symm
    · exact ha

theorem eqN_frame (c : Cfg) : ∀ (n : Nat) (st : St) (l r : N), Frame (binders l) st (eqN c n st l r).2
  | 0, st, l, r => by rw [eqN]; exact Frame.refl _ _
  | n + 1, st, l, r => by
    rw [eqN]
    split
    · exact Frame.refl _ _
    · refine Frame.mono ?_ (fun x hx => (binders_reduce l).subset hx)
      refine eqNode_cases (P := fun x => Frame (binders (reduce l)) st x.2) ?_ ?_ ?_ ?_ ?_
      · intro lo ll lr ro rl rr e1 e2
        obtain ⟨i, e⟩ := binOf_some e1
        rw [e, binders_mk rfl]
        exact eqBin_frame (eqN_frame c n) _ _ _ _ _ _ _
      · intro lres ls lcs rres rs rcs e1 e2
        rw [pathOf_some e1, binders_mk rfl]
        exact eqPath_frame (eqN_frame c n) _ _ _ _ _ _ _
      · intro b lq lcs rq rcs e1 e2
        have hb : binders (reduce l) = bindersL (lq :: lcs) := by
          rcases zipOf_some e1 with ⟨ns, e⟩ | e <;> rw [e, binders_mk rfl]
        rw [hb, bindersL]
        have h1 : Frame (binders lq ++ bindersL lcs) st (eqN c n st lq rq).2 :=
          (eqN_frame c n st lq rq).mono (fun x hx => List.mem_append_left _ hx)
        split
        · exact h1.trans ((eqZip_frame (eqN_frame c n) _ _ _).mono (fun x hx => List.mem_append_right _ hx))
        · exact h1
      · exact Frame.refl _ _
      · intro _ _ _
        exact eqPlain_frame (eqN_frame c n) _ _ _

/-! ### Equality as a relation -/

/-- The comparison with some bound succeeds, and the maps change from `st` to `st'`. -/
def Eqv (c : Cfg) (st : St) (l r : N) (st' : St) : Prop := ∃ n, eqN c n st l r = (true, st')

/-- Lists of equal pieces. -/
inductive EqvAll (c : Cfg) : St → List N → List N → St → Prop
  | nil {st} : EqvAll c st [] [] st
  | cons {st st1 st2 l ls r rs} : Eqv c st l r st1 → EqvAll c st1 ls rs st2 → EqvAll c st (l :: ls) (r :: rs) st2

theorem eqAll_all {c : Cfg} {n : Nat} : ∀ {ls rs : List N} {st : St}, (eqAll (eqN c n) st ls rs).1 = true →
    EqvAll c st ls rs (eqAll (eqN c n) st ls rs).2
  | [], [], st, _ => by rw [eqAll]; exact .nil
  | [], _ :: _, st, h => by simp [eqAll] at h
  | _ :: _, [], st, h => by simp [eqAll] at h
  | l :: ls, r :: rs, st, h => by
    rw [eqAll] at h ⊢
    by_cases hc : (eqN c n st l r).1 = true
    · rw [if_pos hc] at h ⊢
      exact .cons ⟨n, Prod.ext hc rfl⟩ (eqAll_all h)
    · rw [if_neg hc] at h; cases h

theorem Eqv.frame {c st l r st'} (h : Eqv c st l r st') : Frame (binders l) st st' := by
  obtain ⟨n, h⟩ := h
  have := eqN_frame c n st l r
  rwa [h] at this

theorem EqvAll.frame {c st ls rs st'} (h : EqvAll c st ls rs st') : Frame (bindersL ls) st st' := by
  induction h with
  | nil => exact Frame.refl _ _
  | cons h _ ih =>
    rw [bindersL]
    exact (h.frame.mono (fun x hx => List.mem_append_left _ hx)).trans (ih.mono (fun x hx => List.mem_append_right _ hx))

theorem EqvAll.length {c st ls rs st'} (h : EqvAll c st ls rs st') : ls.length = rs.length := by
  induction h with
  | nil => rfl
  | cons _ _ ih => simp [ih]

/-- The ways in which two pieces can be equal. -/
inductive EqvCase (c : Cfg) (st : St) (l r : N) (st' : St) : Prop
  | const (h : sameConst l r = true) (hs : st' = st)
  | bin (i j : Info) (op : BinOp) (ll lr rl rr : N) (hl : reduce l = .mk (.expr i (.binary op)) [ll, lr])
      (hr : reduce r = .mk (.expr j (.binary op)) [rl, rr]) (h : EqvAll c st [ll, lr] [rl, rr] st')
  | swap (i j : Info) (lo ro : BinOp) (ll lr rl rr : N) (hl : reduce l = .mk (.expr i (.binary lo)) [ll, lr])
      (hr : reduce r = .mk (.expr j (.binary ro)) [rl, rr]) (hs : swapOp ll.prim lo = some ro) (st1 : St)
      (h1 : Frame (bindersL [ll, lr]) st st1) (h : EqvAll c st1 [lr, ll] [rl, rr] st')
  | var (x y : Nat) (ls rs : List Seg) (lcs rcs : List N) (hl : reduce l = .mk (.path (.locl x) ls) lcs)
      (hr : reduce r = .mk (.path (.locl y) rs) rcs) (h : x = y ∨ look st.locals x = some y) (hs : st' = st)
  | path (lres rres : Res) (ls rs : List Seg) (lcs rcs : List N) (hl : reduce l = .mk (.path lres ls) lcs)
      (hr : reduce r = .mk (.path rres rs) rcs) (nl : ∀ i, lres ≠ .locl i) (nr : ∀ i, rres ≠ .locl i)
      (ho : resOk st lres rres = true) (h : c.byRes = false → segsEq c ls rs = true ∧ EqvAll c st lcs rcs st')
  | zip (b : Bool) (lq rq : N) (lcs rcs : List N) (hl : zipOf (reduce l) = some (b, lq, lcs)) (hr : zipOf (reduce r) = some (b, rq, rcs))
  | plain (h : headEq c (reduce l).kind (reduce r).kind = true) (st1 : St) (h1 : EqvAll c st (reduce l).kids (reduce r).kids st1)
      (hs : st' = declare st1 (reduce l).kind (reduce r).kind)

theorem Eqv.cases {c st l r st'} (h : Eqv c st l r st') : EqvCase c st l r st' := by
  obtain ⟨n, h⟩ := h
  cases n with
  | zero => simp [eqN] at h
  | succ n =>
    rw [eqN] at h
    by_cases hc : sameConst l r = true
    · rw [if_pos hc] at h
      cases h
      exact .const hc rfl
    rw [if_neg hc] at h
    revert h
    refine eqNode_cases (P := fun x => x = (true, st') → EqvCase c st l r st') ?_ ?_ ?_ ?_ ?_
    · intro lo ll lr ro rl rr e1 e2 h
      obtain ⟨i, e1⟩ := binOf_some e1
      obtain ⟨j, e2⟩ := binOf_some e2
      unfold eqBin at h
      by_cases ho : lo = ro
      · subst ho
        simp only [if_true] at h
        by_cases ha : (eqAll (eqN c n) st [ll, lr] [rl, rr]).1 = true
        · rw [if_pos ha] at h
          have := eqAll_all ha
          rw [h] at this
          exact .bin i j lo ll lr rl rr e1 e2 this
        · rw [if_neg ha] at h
          by_cases hs : swapOp ll.prim lo = some lo
          · rw [if_pos hs] at h
            have := eqAll_all (n := n) (c := c) (congrArg Prod.fst h)
            rw [h] at this
            exact .swap i j lo lo ll lr rl rr e1 e2 hs _ (eqAll_frame (eqN_frame c n) _ _ _) this
          · rw [if_neg hs] at h
            rw [h] at ha; exact absurd rfl ha
      · rw [if_neg ho] at h
        simp only [Bool.false_eq_true, if_false] at h
        by_cases hs : swapOp ll.prim lo = some ro
        · rw [if_pos hs] at h
          have := eqAll_all (n := n) (c := c) (congrArg Prod.fst h)
          rw [h] at this
          exact .swap i j lo ro ll lr rl rr e1 e2 hs _ (Frame.refl _ _) this
        · rw [if_neg hs] at h; cases h
    · intro lres ls lcs rres rs rcs e1 e2 h
      have e1 := pathOf_some e1
      have e2 := pathOf_some e2
      have h1 := congrArg Prod.fst h
      by_cases hloc : ∃ l r, lres = .locl l ∧ rres = .locl r
      · obtain ⟨x, y, rfl, rfl⟩ := hloc
        refine .var x y _ _ _ _ e1 e2 (eqPath_local h1) ?_
        simp only [eqPath] at h
        exact (congrArg Prod.snd h).symm
      · obtain ⟨n1, n2, ho, e⟩ := eqPath_other h1 hloc
        refine .path _ _ _ _ _ _ e1 e2 n1 n2 ho ?_
        intro hb
        rw [e] at h
        simp only [eqSegs, hb] at h
        by_cases hs : segsEq c ls rs = true
        · rw [if_pos hs] at h
          have := eqAll_all (n := n) (c := c) (congrArg Prod.fst h)
          rw [h] at this
          exact ⟨hs, this⟩
        · rw [if_neg hs] at h; cases h
    · intro b lq lcs rq rcs e1 e2 h
      exact .zip b lq rq lcs rcs e1 e2
    · intro h; cases h
    · intro _ _ _ h
      obtain ⟨h1, h2, h3⟩ := eqPlain_true (congrArg Prod.fst h)
      rw [h3] at h
      exact .plain h1 _ (eqAll_all h2) (congrArg Prod.snd h).symm

end Verif.HirEq
