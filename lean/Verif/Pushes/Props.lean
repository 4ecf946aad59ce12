import Verif.Pushes.Spec
import Verif.Pushes.Model

/-!
# Loops that push the same item (C112)

The lint looks at the statements of the body that are always run, and wants exactly one to be a push. What it doesn't look at can still change
what the loop does: the last expressions of blocks, `let`s, closures, and `continue`.
-/

namespace Verif.Pushes

/-! ## Where the visitor goes -/

theorem stmt_cases (s : Bool) (e rest : Code) :
    (s = true ∧ ∃ r i, e = .push r i) ∨
      ((∀ V, Model.visit V (.stmt s e rest) = Model.visit (Model.visit V e) rest) ∧
        pushes (.stmt s e rest) = pushes e ++ pushes rest ∧ uses (.stmt s e rest) = uses e ++ uses rest ∧
        (Branches (.stmt s e rest) = (Branches e ∨ Branches rest))) := by
  cases s
  · refine .inr ⟨fun V => by simp [Model.visit], ?_, ?_, ?_⟩ <;> cases e <;> simp [pushes, uses, Branches]
  · cases e
    case push r i => exact .inl ⟨rfl, r, i, rfl⟩
    all_goals refine .inr ⟨fun V => by simp [Model.visit, Model.vecPush], ?_, ?_, ?_⟩ <;> simp [pushes, uses, Branches]

theorem visit_branches (c : Code) : ∀ V, (Model.visit V c).nonDeterministic = true ↔ V.nonDeterministic = true ∨ Branches c := by
  induction c with
  | stmt s e rest ihe ihr =>
    intro V
    rcases stmt_cases s e rest with ⟨rfl, r, i, rfl⟩ | ⟨hv, -, -, hb⟩
    · simp only [Model.visit, Model.vecPush, Branches, ihr]
      simp only [Model.Visitor.pushed]
      split <;> rfl
    · rw [hv, hb, ihr, ihe, or_assoc]
  | _ => intro V; simp_all [Model.visit, Branches, or_assoc]

theorem visit_uses (c : Code) : ∀ V x, x ∈ (Model.visit V c).used ↔ x ∈ V.used ∨ x ∈ uses c := by
  induction c with
  | stmt s e rest ihe ihr =>
    intro V x
    rcases stmt_cases s e rest with ⟨rfl, r, i, rfl⟩ | ⟨hv, -, hb, -⟩
    · simp only [Model.visit, Model.vecPush, uses, ihr]
      simp only [Model.Visitor.pushed]
      split <;> rfl
    · rw [hv, hb, ihr, ihe, List.mem_append, or_assoc]
  | path y => intro V x; simp [Model.visit, uses, or_comm]
  | _ => intro V x; simp_all [Model.visit, uses, or_assoc]

theorem visit_push (c : Code) : ∀ V, (Model.visit V c).vecPush = V.vecPush.or (pushes c).head? := by
  induction c with
  | stmt s e rest ihe ihr =>
    intro V
    rcases stmt_cases s e rest with ⟨rfl, r, i, rfl⟩ | ⟨hv, hb, -, -⟩
    · simp only [Model.visit, Model.vecPush, pushes, ihr]
      simp only [Model.Visitor.pushed]
      cases h : V.vecPush <;> simp [h]
    · rw [hv, hb, ihr, ihe, List.head?_append, Option.or_assoc]
  | push a b iha ihb => intro V; simp [Model.visit, pushes, iha, ihb, List.head?_append, Option.or_assoc]
  | cons a b iha ihb => intro V; simp [Model.visit, pushes, iha, ihb, List.head?_append, Option.or_assoc]
  | _ => intro V; simp_all [Model.visit, pushes]

theorem visit_multiple (c : Code) : ∀ V, (Model.visit V c).multiple = true ↔
    V.multiple = true ∨ (V.vecPush.toList ++ pushes c).length ≥ 2 ∧ pushes c ≠ [] := by
  have two : ∀ (V W : Model.Visitor) (p q : List (Code × Code)),
      (W.multiple = true ↔ V.multiple = true ∨ (V.vecPush.toList ++ p).length ≥ 2 ∧ p ≠ []) →
      W.vecPush = V.vecPush.or p.head? →
      ((W.multiple = true ∨ (W.vecPush.toList ++ q).length ≥ 2 ∧ q ≠ []) ↔
        V.multiple = true ∨ (V.vecPush.toList ++ (p ++ q)).length ≥ 2 ∧ p ++ q ≠ []) := by
    intro V W p q h1 h2
    rw [h1, h2, or_assoc]
    refine or_congr Iff.rfl ?_
    cases V.vecPush <;> rcases p with _ | ⟨a, p⟩ <;> rcases q with _ | ⟨b, q⟩ <;> simp
    all_goals try omega
  induction c with
  | stmt s e rest ihe ihr =>
    intro V
    rcases stmt_cases s e rest with ⟨rfl, r, i, rfl⟩ | ⟨hv, hb, -, -⟩
    · simp only [Model.visit, Model.vecPush, pushes, ihr]
      simp only [Model.Visitor.pushed]
      rcases V with ⟨nd, m, vp, us⟩
      cases vp <;> cases pushes rest <;> simp
    · rw [hv, hb, ihr]
      exact two _ _ _ _ (ihe V) (visit_push e V)
  | push a b iha ihb =>
    intro V
    simp only [Model.visit, pushes]
    rw [ihb]
    exact two _ _ _ _ (iha V) (visit_push a V)
  | cons a b iha ihb =>
    intro V
    simp only [Model.visit, pushes]
    rw [ihb]
    exact two _ _ _ _ (iha V) (visit_push a V)
  | _ => intro V; simp_all [Model.visit, pushes]

theorem item_iff (D : Decls) (K : Nat → Nat) (i : Code) : Model.itemOk D i = true ↔ ∃ n, Fixed D K i n := by
  constructor
  · intro h
    cases i with
    | lit n => exact ⟨n, .lit⟩
    | const k => exact ⟨K k, .const⟩
    | path x =>
      simp only [Model.itemOk] at h
      split at h
      · cases h
      · rename_i hm
        have hm' : D.isMut x = false := by simpa using hm
        cases hi : D.init x with
        | none => simp [hi] at h
        | some j =>
          simp only [hi] at h
          cases j <;> simp [Model.initOk] at h
          · exact ⟨_, .litLocal hm' hi⟩
          · exact ⟨_, .constLocal hm' hi⟩
    | _ => simp [Model.itemOk] at h
  · rintro ⟨n, h⟩
    cases h with
    | lit => rfl
    | const => rfl
    | litLocal hm hi => simp [Model.itemOk, hm, hi, Model.initOk]
    | constLocal hm hi => simp [Model.itemOk, hm, hi, Model.initOk]

/-- A report is made exactly if the pattern is `_`, the elements can be cloned, and among what is always run there is one push statement, on a
local that isn't used otherwise, with an item that is always the same, and no branch and no loop. -/
theorem report_iff (D : Decls) (K : Nat → Nat) (wild clone : Bool) (body r i : Code) :
    Model.check D wild clone body = some (r, i) ↔
      wild = true ∧ clone = true ∧ pushes body = [(r, i)] ∧ ¬ Branches body ∧ (∃ v, r = .path v ∧ v ∉ uses body) ∧
        ∃ n, Fixed D K i n := by
  have hb := visit_branches body .new
  have hu := visit_uses body .new
  have hp := visit_push body .new
  have hm := visit_multiple body .new
  rw [← item_iff]
  simp only [Model.check]
  cases wild with
  | false => simp
  | true =>
    simp only [Model.Visitor.new, Bool.false_eq_true, false_or, Option.none_or, List.not_mem_nil, Option.toList_none, List.nil_append,
      ge_iff_le] at hb hu hp hm
    simp only [Bool.not_true, Bool.false_eq_true, if_false, Model.Visitor.new, true_and]
    rcases hps : pushes body with _ | ⟨⟨r', i'⟩, ps⟩
    · simp [hp, hps]
    · simp only [hps, List.head?_cons] at hp
      simp only [hp, Model.Visitor.shouldLint]
      rw [hps] at hm
      by_cases hbr : Branches body
      · simp [hb.mpr hbr, hbr]
      · have hbf : (Model.visit ⟨false, false, none, []⟩ body).nonDeterministic = false := by
          simpa using fun h => hbr (hb.mp h)
        cases ps with
        | cons q qs => simp [hm.mpr ⟨by simp, by simp⟩]
        | nil =>
          have hmf : (Model.visit ⟨false, false, none, []⟩ body).multiple = false := by
            cases hmm : (Model.visit ⟨false, false, none, []⟩ body).multiple with
            | false => rfl
            | true => have := hm.mp hmm; simp at this
          simp only [hbf, hmf, Bool.not_false, Bool.and_self, if_true, hbr, not_false_eq_true, true_and]
          constructor
          · intro h
            cases r' <;> simp at h
            obtain ⟨⟨⟨h1, h2⟩, h3⟩, rfl, rfl⟩ := h
            exact ⟨h2, rfl, ⟨_, rfl, fun hx => h1 ((hu _).mpr hx)⟩, h3⟩
          · rintro ⟨hc, hri, ⟨v, rfl, hv⟩, hi⟩
            cases hri
            simp [hc, hi, hu, hv]

example : Model.check ⟨fun _ => false, fun _ => false, fun _ => none⟩ true true
    (.block (.stmt true (.op 0 (.cons (.path 1) .nil)) (.stmt true (.push (.path 0) (.lit 7)) .done))) = some (.path 0, .lit 7) := by
  decide +kernel

/-! ## What is run -/

theorem handed_mentions {x : Nat} {c : Code} (h : Handed x c) : Mentions x c := by
  induction c with
  | op _ _ ih | block _ ih | tail _ ih => exact ih h
  | path | closure | loop => exact h
  | ite _ _ _ _ ih1 ih2 => exact h.elim (fun h => .inr (.inl (ih1 h))) fun h => .inr (.inr (ih2 h))
  | mat _ _ _ ih0 ih1 ih2 =>
    exact h.elim (fun h => .inl (ih0 h)) fun h => h.elim (fun h => .inr (.inl (ih1 h))) fun h => .inr (.inr (ih2 h))
  | cons _ _ ih1 ih2 => exact h.elim (fun h => .inl (ih1 h)) fun h => .inr (ih2 h)
  | stmt _ _ _ _ ih => exact .inr (ih h)
  | bind _ _ _ ih1 ih2 => exact h.elim .inl fun h => h.elim (fun h => .inr (.inl (ih1 h))) fun h => .inr (.inr (ih2 h))
  | _ => exact h.elim

/-- Code that doesn't have a local doesn't change it. -/
theorem frame {D : Decls} {K : Nat → Nat} {σ τ : St} {c : Code} {o : Out} (h : Run D K σ c τ o) :
    ∀ {v : Nat}, ¬ Mentions v c → τ v = σ v := by
  have tch : ∀ {args : Code} {σ τ : St} {v : Nat}, Touch D args σ τ → ¬ Mentions v args → τ v = σ v := by
    intro args σ τ v h hv
    exact Classical.byContradiction fun hne => hv (handed_mentions (h v hne).1)
  induction h <;> intro v hv <;> simp only [Mentions, not_or] at hv
  case lit | const | path | nil | done | closureEnd => rfl
  case cons ih1 ih2 | consSnd ih1 ih2 | pushSnd ih1 ih2 | stmt ih1 ih2 => rw [ih2 hv.2, ih1 hv.1]
  case consFst ih | pushFst ih | stmtJump ih | iteJump ih | matJump ih => exact ih hv.1
  case op hT ih => rw [tch hT hv, ih hv]
  case opJump ih | jmp ih | jmpJump ih | block ih | tail ih | loopBrk ih | loopRet ih => exact ih hv
  case closureVal ih1 ih2 | closureRet ih1 ih2 | loopCont ih1 ih2 | loopVal ih1 ih2 =>
    rw [ih2 (by simpa only [Mentions] using hv), ih1 hv]
  case iteThen ih1 ih2 | matFst ih1 ih2 => rw [ih2 hv.2.1, ih1 hv.1]
  case iteElse ih1 ih2 | matSnd ih1 ih2 => rw [ih2 hv.2.2, ih1 hv.1]
  case push ih => simp only [St.put]; rw [if_neg (fun h => hv.1 h.symm)]; exact ih hv.2
  case pushPlace hT ih1 ih2 => rw [tch hT hv.1, ih2 hv.2, ih1 hv.1]
  case bind ih1 ih2 =>
    rw [ih2 hv.2.2]
    simp only [St.put]
    rw [if_neg (fun h => hv.1 h.symm)]
    exact ih1 hv.2.1
  case bindJump ih => exact ih hv.2.1

theorem no_ret {D : Decls} {K : Nat → Nat} {σ τ : St} {c : Code} {o : Out} (h : Run D K σ c τ o) :
    NoRet c → o ≠ .jump .ret := by
  induction h <;> intro hn <;> simp only [NoRet] at hn <;> simp_all [NoRet]

theorem no_jump {D : Decls} {K : Nat → Nat} {σ τ : St} {c : Code} {o : Out} (h : Run D K σ c τ o) :
    NoJump c → ∃ vs, o = .vals vs := by
  induction h <;> intro hn <;> simp only [NoJump] at hn <;> try (simp_all [NoJump]; done)
  case loopRet hr _ => exact absurd rfl (no_ret hr hn)

/-- A local that isn't `mut` and has no interior mutability holds nothing, or what its initialiser gives. -/
theorem keeps {D : Decls} {K : Nat → Nat} {x n : Nat} (hm : D.isMut x = false) (hc : D.isCell x = false)
    (hi : D.init x = some (.lit n) ∨ ∃ k, D.init x = some (.const k) ∧ n = K k) {σ τ : St} {c : Code} {o : Out} (h : Run D K σ c τ o) :
    LetsAre x (D.init x) c → (σ x = none ∨ σ x = some (.num n)) → τ x = none ∨ τ x = some (.num n) := by
  have tch : ∀ {args : Code} {σ τ : St}, Touch D args σ τ → (σ x = none ∨ σ x = some (.num n)) →
      τ x = none ∨ τ x = some (.num n) := by
    intro args σ τ h hσ
    by_cases he : τ x = σ x
    · rw [he]; exact hσ
    · rcases (h x he).2 with h1 | h1 | h1
      · rw [hm] at h1; cases h1
      · rw [hc] at h1; cases h1
      · exact .inl h1
  induction h <;> intro hl hσ <;> simp only [LetsAre] at hl
  case lit | const | path | nil | done | closureEnd => exact hσ
  case cons ih1 ih2 | consSnd ih1 ih2 | pushSnd ih1 ih2 | stmt ih1 ih2 => exact ih2 hl.2 (ih1 hl.1 hσ)
  case consFst ih | pushFst ih | stmtJump ih | iteJump ih | matJump ih => exact ih hl.1 hσ
  case op hT ih => exact tch hT (ih hl hσ)
  case opJump ih | jmp ih | jmpJump ih | block ih | tail ih | loopBrk ih | loopRet ih => exact ih hl hσ
  case closureVal ih1 ih2 | closureRet ih1 ih2 | loopCont ih1 ih2 | loopVal ih1 ih2 =>
    exact ih2 (by simpa only [LetsAre] using hl) (ih1 hl hσ)
  case iteThen ih1 ih2 | matFst ih1 ih2 => exact ih2 hl.2.1 (ih1 hl.1 hσ)
  case iteElse ih1 ih2 | matSnd ih1 ih2 => exact ih2 hl.2.2 (ih1 hl.1 hσ)
  case push hmv ih =>
    simp only [St.put]
    split
    · rename_i he
      rw [← he, hm] at hmv; cases hmv
    · exact ih hl.2 hσ
  case pushPlace hT ih1 ih2 => exact tch hT (ih2 hl.2 (ih1 hl.1 hσ))
  case bind hr _ ih1 ih2 =>
    refine ih2 hl.2.2 ?_
    simp only [St.put]
    split
    · rename_i he
      have hd := hl.1 he.symm
      rcases hi with hi | ⟨k, hi, rfl⟩
      · rw [hi] at hd
        cases hd
        cases hr
        exact .inr rfl
      · rw [hi] at hd
        cases hd
        cases hr
        exact .inr rfl
    · exact ih1 hl.2.1 hσ
  case bindJump ih => exact ih hl.2.1 hσ

/-- Nothing of what is left out has the vector. -/
def Apart (v : Nat) (c : Code) : Prop := ∀ ⦃d⦄, Left c d → ¬ Mentions v d

theorem fixed_unique {D : Decls} {K : Nat → Nat} {i : Code} {n m : Nat} (h : Fixed D K i n) (h' : Fixed D K i m) : n = m := by
  cases h <;> cases h' <;> simp_all

theorem fixed_value {D : Decls} {K : Nat → Nat} {i : Code} {n : Nat} (h : Fixed D K i n) {σ τ : St} {w : List Val}
    (hs : Starts D K σ i) (hr : Run D K σ i τ (.vals w)) : w = [.num n] ∧ τ = σ := by
  cases h with
  | lit => cases hr; exact ⟨rfl, rfl⟩
  | const => cases hr; exact ⟨rfl, rfl⟩
  | litLocal hm hi =>
    cases hr with
    | path he =>
      rcases hs with h1 | ⟨m, h1, h2⟩
      · rw [h1] at he; cases he
      · rw [h2] at he
        cases he
        exact ⟨by rw [fixed_unique h1 (.litLocal hm hi)], rfl⟩
  | constLocal hm hi =>
    cases hr with
    | path he =>
      rcases hs with h1 | ⟨m, h1, h2⟩
      · rw [h1] at he; cases he
      · rw [h2] at he
        cases he
        exact ⟨by rw [fixed_unique h1 (.constLocal hm hi)], rfl⟩

theorem starts_keeps {D : Decls} {K : Nat → Nat} {i : Code} {n : Nat} (hf : Fixed D K i n) (hc : ∀ x, i = .path x → D.isCell x = false)
    {σ τ : St} {c : Code} {o : Out} (hr : Run D K σ c τ o) (hl : ∀ x, i = .path x → LetsAre x (D.init x) c)
    (hs : Starts D K σ i) : Starts D K τ i := by
  have go : ∀ x, i = .path x → D.isMut x = false → (D.init x = some (.lit n) ∨ ∃ k, D.init x = some (.const k) ∧ n = K k) →
      Starts D K τ i := by
    intro x hx hm hi
    subst hx
    have := keeps hm (hc x rfl) hi hr (hl x rfl)
      (by rcases hs with h | ⟨m, h1, h2⟩
          · exact .inl h
          · rw [fixed_unique hf h1]; exact .inr h2)
    rcases this with h | h
    · exact .inl h
    · exact .inr ⟨n, hf, h⟩
  cases hf with
  | lit => trivial
  | const => trivial
  | litLocal hm hi => exact go _ rfl hm (.inl hi)
  | constLocal hm hi => exact go _ rfl hm (.inr ⟨_, hi, rfl⟩)

theorem handed_seen {v : Nat} {c : Code} (h : Handed v c) (hb : ¬ Branches c) : v ∈ uses c ∨ ∃ d, Left c d ∧ Mentions v d := by
  induction c with
  | path y => exact .inl (by rw [show y = v from h]; exact List.mem_singleton.mpr rfl)
  | op k a ih =>
    rcases ih h hb with h1 | ⟨d, h1, h2⟩
    · exact .inl h1
    · exact .inr ⟨d, .op h1, h2⟩
  | block a ih =>
    rcases ih h hb with h1 | ⟨d, h1, h2⟩
    · exact .inl h1
    · exact .inr ⟨d, .block h1, h2⟩
  | closure a => exact .inr ⟨_, .closure, h⟩
  | tail e => exact .inr ⟨_, .tail, handed_mentions h⟩
  | loop | ite | mat => exact absurd trivial hb
  | cons a b iha ihb =>
    simp only [Branches, not_or] at hb
    simp only [uses, List.mem_append]
    rcases h with h | h
    · rcases iha h hb.1 with h1 | ⟨d, h1, h2⟩
      · exact .inl (.inl h1)
      · exact .inr ⟨d, .consFst h1, h2⟩
    · rcases ihb h hb.2 with h1 | ⟨d, h1, h2⟩
      · exact .inl (.inr h1)
      · exact .inr ⟨d, .consSnd h1, h2⟩
  | stmt s e rest _ ih =>
    have hb' : ¬ Branches rest := by
      rcases stmt_cases s e rest with ⟨rfl, r, i, rfl⟩ | ⟨-, -, -, hbr⟩
      · exact hb
      · rw [hbr, not_or] at hb; exact hb.2
    rcases ih h hb' with h1 | ⟨d, h1, h2⟩
    · refine .inl ?_
      rcases stmt_cases s e rest with ⟨rfl, r, i, rfl⟩ | ⟨-, -, hu, -⟩
      · exact h1
      · rw [hu]; exact List.mem_append.mpr (.inr h1)
    · exact .inr ⟨d, .afterStmt h1, h2⟩
  | bind y i rest _ ih =>
    rcases h with h | h | h
    · exact .inr ⟨_, .bind, .inl h⟩
    · exact .inr ⟨_, .bind, .inr (.inl (handed_mentions h))⟩
    · rcases ih h hb with h1 | ⟨d, h1, h2⟩
      · exact .inl h1
      · exact .inr ⟨d, .afterBind h1, h2⟩
  | _ => exact h.elim

/-- What the code does to the vector: nothing without push statements, and one item with one. -/
def Adds (D : Decls) (K : Nat → Nat) (v : Nat) (i : Code) (n : Nat) (c : Code) (σ τ : St) : Prop :=
  (pushes c = [] → τ v = σ v) ∧
    (pushes c = [(.path v, i)] → Starts D K σ i → (∀ x, i = .path x → LetsAre x (D.init x) c) →
      ∀ xs, σ v = some (.vec xs) → τ v = some (.vec (xs ++ [n])))

theorem adds_pair {D : Decls} {K : Nat → Nat} {v : Nat} {i : Code} {n : Nat} (hf : Fixed D K i n)
    (hc : ∀ x, i = .path x → D.isCell x = false) {a b c : Code} {σ σ₁ τ : St} {o : Out} (ha : Run D K σ a σ₁ o)
    (h1 : Adds D K v i n a σ σ₁) (h2 : Adds D K v i n b σ₁ τ) (hp : pushes c = pushes a ++ pushes b)
    (hl : ∀ x, LetsAre x (D.init x) c → LetsAre x (D.init x) a ∧ LetsAre x (D.init x) b) : Adds D K v i n c σ τ := by
  refine ⟨fun he => ?_, fun he hs hlx xs hx => ?_⟩
  · rw [hp, List.append_eq_nil_iff] at he
    rw [h2.1 he.2, h1.1 he.1]
  · rw [hp] at he
    rcases List.append_eq_cons_iff.mp he with ⟨ha0, hb0⟩ | ⟨t, ha0, hb0⟩
    · exact h2.2 hb0 (starts_keeps hf hc ha (fun x hx => (hl x (hlx x hx)).1) hs) (fun x hx => (hl x (hlx x hx)).2) xs
        (by rw [h1.1 ha0]; exact hx)
    · have := List.append_eq_nil_iff.mp hb0.symm
      rw [this.1] at ha0
      rw [h2.1 this.2]
      exact h1.2 ha0 hs (fun x hx => (hl x (hlx x hx)).1) xs hx

theorem visited {D : Decls} {K : Nat → Nat} {v : Nat} {i : Code} {n : Nat} (hf : Fixed D K i n)
    (hc : ∀ x, i = .path x → D.isCell x = false) (c : Code) :
    ∀ {σ τ : St} {ws : List Val}, Run D K σ c τ (.vals ws) → ¬ Branches c → v ∉ uses c → Apart v c → Adds D K v i n c σ τ := by
  have same : ∀ {c : Code} {σ τ : St}, pushes c = [] → τ v = σ v → Adds D K v i n c σ τ := by
    intro c σ τ hp he
    exact ⟨fun _ => he, fun h => by rw [hp] at h; cases h⟩
  have one : ∀ {a c : Code} {σ τ ρ : St}, Adds D K v i n a σ τ → ρ v = τ v → pushes c = pushes a →
      (∀ x, LetsAre x (D.init x) c → LetsAre x (D.init x) a) → Adds D K v i n c σ ρ := by
    intro a c σ τ ρ h he hp hl
    refine ⟨fun h0 => by rw [he]; exact h.1 (hp ▸ h0), fun h0 hs hlx xs hx => ?_⟩
    rw [he]
    exact h.2 (hp ▸ h0) hs (fun x hx => hl x (hlx x hx)) xs hx
  have tch : ∀ {args : Code} {σ τ : St}, Touch D args σ τ → ¬ Branches args → v ∉ uses args → Apart v args → τ v = σ v := by
    intro args σ τ hT hb hu hA
    refine Classical.byContradiction fun hne => ?_
    rcases handed_seen (hT v hne).1 hb with h | ⟨d, h1, h2⟩
    · exact hu h
    · exact hA h1 h2
  induction c with
  | lit => intro σ τ ws h _ _ _; cases h; exact same rfl rfl
  | const => intro σ τ ws h _ _ _; cases h; exact same rfl rfl
  | path => intro σ τ ws h _ _ _; cases h; exact same rfl rfl
  | nil => intro σ τ ws h _ _ _; cases h; exact same rfl rfl
  | done => intro σ τ ws h _ _ _; cases h; exact same rfl rfl
  | op k a ih =>
    intro σ τ ws h hb hu hA
    have hA' : Apart v a := fun d hd => hA (.op hd)
    cases h with
    | op hr hT => exact one (ih hr hb hu hA') (tch hT hb hu hA') rfl fun x hx => hx
  | jmp j a ih => intro σ τ ws h; cases h
  | closure b ih =>
    intro σ τ ws h _ _ hA
    exact same rfl (frame h (hA .closure))
  | ite | loop | mat => intro σ τ ws _ hb; exact absurd trivial hb
  | block a ih =>
    intro σ τ ws h hb hu hA
    cases h with
    | block hr => exact one (ih hr hb hu (fun d hd => hA (.block hd))) rfl rfl fun x hx => hx
  | push r j ihr ihj =>
    intro σ τ ws h hb hu hA
    simp only [Branches, not_or] at hb
    simp only [uses, List.mem_append, not_or] at hu
    have hA1 : Apart v r := fun d hd => hA (.pushFst hd)
    have hA2 : Apart v j := fun d hd => hA (.pushSnd hd)
    cases h with
    | @push _ _ w _ _ _ hr hw hmut =>
      have hne : v ≠ w := by
        intro he
        subst he
        exact hu.1 (List.mem_singleton.mpr rfl)
      refine one (ihj hr hb.2 hu.2 hA2) ?_ rfl fun x hx => hx.2
      simp only [St.put]
      rw [if_neg hne]
    | pushPlace _ h1 h2 hT =>
      have := adds_pair (c := .cons r j) hf hc h1 (ihr h1 hb.1 hu.1 hA1) (ihj h2 hb.2 hu.2 hA2) rfl fun x hx => hx
      exact one this (tch hT hb.1 hu.1 hA1) rfl fun x hx => hx
  | cons a b iha ihb =>
    intro σ τ ws h hb hu hA
    simp only [Branches, not_or] at hb
    simp only [uses, List.mem_append, not_or] at hu
    cases h with
    | cons h1 h2 =>
      exact adds_pair hf hc h1 (iha h1 hb.1 hu.1 fun d hd => hA (.consFst hd)) (ihb h2 hb.2 hu.2 fun d hd => hA (.consSnd hd)) rfl
        fun x hx => hx
  | stmt s e rest ihe ihr =>
    intro σ τ ws h hb hu hA
    have hA2 : Apart v rest := fun d hd => hA (.afterStmt hd)
    cases h with
    | @stmt _ σ₁ _ _ _ _ vs _ h1 h2 =>
      rcases stmt_cases s e rest with ⟨rfl, r, j, rfl⟩ | ⟨-, hp, hus, hbr⟩
      · have hrest := ihr h2 hb hu hA2
        refine ⟨fun h0 => by simp [pushes] at h0, fun h0 hs hlx xs hx => ?_⟩
        simp only [pushes, List.cons.injEq, Prod.mk.injEq] at h0
        obtain ⟨⟨rfl, rfl⟩, h0⟩ := h0
        rw [hrest.1 h0]
        cases h1 with
        | push hi hv hmut =>
          have := fixed_value hf hs hi
          obtain ⟨hw, rfl⟩ := this
          cases hw
          rw [hx] at hv
          cases hv
          simp [St.put]
        | pushPlace hne => exact absurd rfl (hne v)
      · rw [hbr, not_or] at hb
        rw [hus, List.mem_append, not_or] at hu
        exact adds_pair hf hc h1 (ihe h1 hb.1 hu.1 fun d hd => hA (.stmt hd)) (ihr h2 hb.2 hu.2 hA2) hp fun x hx => hx
  | bind x j rest _ ihr =>
    intro σ τ ws h hb hu hA
    have hA2 : Apart v rest := fun d hd => hA (.afterBind hd)
    cases h with
    | @bind _ σ₁ _ _ _ _ w _ h1 h2 =>
      have hrun : Run D K σ (.bind x j .done) (σ₁.put x w) (.vals [.num 0]) := .bind h1 .done
      have hfr : (σ₁.put x w) v = σ v := frame hrun (hA .bind)
      have h0 : Adds D K v i n (.bind x j .done) σ (σ₁.put x w) := same rfl hfr
      exact adds_pair (c := .bind x j rest) hf hc hrun h0 (ihr h2 hb hu hA2) rfl fun y hy => ⟨⟨hy.1, hy.2.1, trivial⟩, hy.2.2⟩
  | tail e ih =>
    intro σ τ ws h _ _ hA
    exact same rfl (frame h (hA .tail))

/-- If a loop is reported, each of its iterations appends the same item to the vector, whatever the rest of the body does. Missing: bodies that
can be left early, and with the vector in their `let`s, closures and last expressions of blocks; see `tail_missed`, `let_missed`,
`closure_missed`, `continue_missed`. The item isn't a local with interior mutability; see `cell_missed`. -/
theorem same_item_partial {D : Decls} {K : Nat → Nat} {wild clone : Bool} {body i : Code} {v : Nat}
    (h : Model.check D wild clone body = some (.path v, i)) (hj : NoJump body) (hA : ∀ ⦃d⦄, Left body d → ¬ Mentions v d)
    (hc : ∀ x, i = .path x → D.isCell x = false) (hl : ∀ x, i = .path x → LetsAre x (D.init x) body) :
    ∃ m, Fixed D K i m ∧ ∀ {k : Nat} {σ τ : St} {xs : List Nat}, Iterations D K body k σ τ → Starts D K σ i →
      σ v = some (.vec xs) → τ v = some (.vec (xs ++ List.replicate k m)) := by
  obtain ⟨-, -, hp, hb, ⟨v', hv', hu⟩, m, hf⟩ := (report_iff D K wild clone body (.path v) i).mp h
  cases hv'
  refine ⟨m, hf, ?_⟩
  intro k σ τ xs hit
  induction hit generalizing xs with
  | zero => intro _ hx; simpa using hx
  | whole hr _ ih =>
    intro hs hx
    have h1 := (visited (v := v) hf hc body hr hb hu hA).2 hp hs hl xs hx
    have := ih (starts_keeps hf hc hr hl hs) h1
    rw [this, List.append_assoc, List.replicate_succ]
    rfl
  | cont hr _ ih =>
    obtain ⟨vs, hvs⟩ := no_jump hr hj
    cases hvs

/-- The reported vector is a local. -/
theorem report_local {D : Decls} {wild clone : Bool} {body r i : Code} (h : Model.check D wild clone body = some (r, i)) :
    ∃ v, r = .path v :=
  let ⟨v, hv, _⟩ := ((report_iff D (fun _ => 0) wild clone body r i).mp h).2.2.2.2.1
  ⟨v, hv⟩

/-! ## What isn't seen -/

/-- The declarations of the examples: local 0 is the vector, 1 a number that can be changed, 2 a cell. -/
def decls : Decls := ⟨fun x => x = 0 || x = 1, fun x => x = 2, fun x => if x = 2 then some (.const 0) else none⟩

/-- `for _ in … { f(y); v.push(7); }`. -/
def plain : Code := .block (.stmt true (.op 0 (.cons (.path 1) .nil)) (.stmt true (.push (.path 0) (.lit 7)) .done))

theorem plain_left : ∀ ⦃d⦄, Left plain d → ¬ Mentions 0 d := by
  intro d h
  simp only [plain] at h
  cases h with
  | block h => cases h with
    | stmt h => cases h with
      | op h => cases h with
        | consFst h => cases h
        | consSnd h => cases h
    | afterStmt h => cases h with
      | stmt h => cases h with
        | pushFst h => cases h
        | pushSnd h => cases h
      | afterStmt h => cases h

example : Model.check decls true true plain = some (.path 0, .lit 7) ∧ NoJump plain ∧ (∀ ⦃d⦄, Left plain d → ¬ Mentions 0 d) :=
  ⟨by decide +kernel, by simp [plain, NoJump], plain_left⟩

example : ∃ τ, Iterations decls (fun _ => 0) plain 1 (fun x => if x = 0 then some (.vec [1]) else if x = 1 then some (.num 3) else none) τ ∧
    τ 0 = some (.vec [1, 7]) :=
  ⟨_, .whole (.block (.stmt (.op (w := .num 0) (.cons (.path rfl) .nil) (fun _ h => absurd rfl h))
    (.stmt (.push .lit rfl rfl) .done))) .zero, rfl⟩

/-- The state of the examples. -/
def start : St := fun x => if x = 0 then some (.vec []) else if x = 1 then some (.num 3) else none

/-- The last expression isn't looked at: `for _ in … { v.push(7); if y { v.push(8) } }` is reported. -/
theorem tail_missed : ∃ body, Model.check decls true true body = some (.path 0, .lit 7) ∧ NoJump body ∧
    ∃ τ, Iterations decls (fun _ => 0) body 1 start τ ∧ τ 0 = some (.vec [7, 8]) :=
  ⟨.block (.stmt true (.push (.path 0) (.lit 7))
      (.tail (.ite (.path 1) (.block (.stmt true (.push (.path 0) (.lit 8)) .done)) (.block .done)))),
    by decide +kernel, by simp [NoJump],
    _, .whole (.block (.stmt (.push .lit rfl rfl) (.tail (.iteThen (n := 2) (.path rfl)
      (.block (.stmt (.push .lit rfl rfl) .done)))))) .zero, rfl⟩

/-- `let`s aren't looked at: `for _ in … { let () = v.push(8); v.push(7); }` is reported. -/
theorem let_missed : ∃ body, Model.check decls true true body = some (.path 0, .lit 7) ∧ NoJump body ∧
    ∃ τ, Iterations decls (fun _ => 0) body 1 start τ ∧ τ 0 = some (.vec [8, 7]) :=
  ⟨.block (.bind 5 (.push (.path 0) (.lit 8)) (.stmt true (.push (.path 0) (.lit 7)) .done)),
    by decide +kernel, by simp [NoJump],
    _, .whole (.block (.bind (.push .lit rfl rfl) (.stmt (.push .lit rfl rfl) .done))) .zero, rfl⟩

/-- Closures aren't looked at: `for _ in … { v.push(7); f(|| v.push(8)); }` is reported. -/
theorem closure_missed : ∃ body, Model.check decls true true body = some (.path 0, .lit 7) ∧ NoJump body ∧
    ∃ τ, Iterations decls (fun _ => 0) body 1 start τ ∧ τ 0 = some (.vec [7, 8]) :=
  ⟨.block (.stmt true (.push (.path 0) (.lit 7)) (.stmt true (.op 0 (.cons (.closure (.push (.path 0) (.lit 8))) .nil)) .done)),
    by decide +kernel, by simp [NoJump],
    _, .whole (.block (.stmt (.push .lit rfl rfl) (.stmt (.op (w := .num 0)
      (.cons (.closureVal (.push .lit rfl rfl) (.closureEnd (w := .num 0))) .nil) (fun _ h => absurd rfl h)) .done))) .zero, rfl⟩

/-- `continue` isn't looked for: `for _ in … { let _ = if y { continue }; v.push(7); }` is reported, and need not push anything. -/
theorem continue_missed : ∃ body, Model.check decls true true body = some (.path 0, .lit 7) ∧ (∀ ⦃d⦄, Left body d → ¬ Mentions 0 d) ∧
    ∃ τ, Iterations decls (fun _ => 0) body 1 start τ ∧ τ 0 = some (.vec []) := by
  refine ⟨.block (.bind 5 (.ite (.path 1) (.jmp .cont .nil) (.block .done)) (.stmt true (.push (.path 0) (.lit 7)) .done)),
    by decide +kernel, ?_,
    _, .cont (.block (.bindJump (.iteThen (n := 2) (.path rfl) (.jmp .nil)))) .zero, rfl⟩
  intro d h
  cases h with
  | block h => cases h with
    | bind => simp [Mentions]
    | afterBind h => cases h with
      | stmt h => cases h with
        | pushFst h => cases h
        | pushSnd h => cases h
      | afterStmt h => cases h

/-- Interior mutability isn't looked for: `for _ in … { let c = CELL; change(&c); v.push(c); }` is reported, where `CELL` is `0`, and can push
anything. -/
theorem cell_missed (n : Nat) : ∃ body, Model.check decls true true body = some (.path 0, .path 2) ∧ NoJump body ∧
    LetsAre 2 (decls.init 2) body ∧ ∃ τ, Iterations decls (fun _ => 0) body 1 start τ ∧ τ 0 = some (.vec [n]) := by
  refine ⟨.block (.bind 2 (.const 0) (.stmt true (.op 0 (.cons (.path 2) .nil)) (.stmt true (.push (.path 0) (.path 2)) .done))),
    by decide +kernel, by simp [NoJump], by simp [LetsAre, decls],
    ((start.put 2 (.num 0)).put 2 (.num n)).put 0 (.vec [n]), ?_, rfl⟩
  refine .whole (.block (.bind .const (.stmt (.op (w := .num 0) (.cons (.path (x := 2) (w := .num 0) rfl) .nil)
    (σ₂ := (start.put 2 (.num 0)).put 2 (.num n)) ?_) (.stmt (.push (.path rfl) rfl rfl) .done)))) .zero
  intro x hx
  have : x = 2 := by
    refine Classical.byContradiction fun hne => hx ?_
    simp [St.put, hne]
  subst this
  exact ⟨.inl rfl, .inr (.inl rfl)⟩

end Verif.Pushes
