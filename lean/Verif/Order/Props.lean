import Verif.Order.Spec
import Verif.Order.Model

/-!
# Reads and writes in one expression (C113)
-/

namespace Verif.Order

/-! ## What is reported -/

theorem reads_iff (x r : Nat) (c : Code) : r ∈ Model.reads x c ↔ Reads x r c := by
  induction c with
  | read r' y => simp only [Model.reads, Reads]; split <;> simp_all [eq_comm]
  | assignOp r' w y e ih => simp only [Model.reads, Reads, List.mem_append, ih]; split <;> simp_all [eq_comm]
  | _ => simp_all [Model.reads, Reads, or_assoc]

/-- A list of operands. -/
def Proper : Code → Prop
  | .nil => True
  | .cons _ es => Proper es
  | _ => False

theorem snoc_reads (x : Nat) (d : Code) : ∀ l, Proper l → Model.reads x (Model.snoc l d) = Model.reads x l ++ Model.reads x d
  | .nil, _ => by simp [Model.snoc, Model.reads]
  | .cons e es, h => by simp [Model.snoc, Model.reads, snoc_reads x d es h, List.append_assoc]

theorem snoc_proper (d : Code) : ∀ l, Proper l → Proper (Model.snoc l d)
  | .nil, _ => by simp [Model.snoc, Proper]
  | .cons e es, h => by simpa [Model.snoc, Proper] using snoc_proper d es h

theorem expr_some {x : Nat} {c : Code} (h : ∀ y d, c ≠ .closure y d) :
    ∃ rs, Model.checkExpr x c = some rs ∧ ∀ r, r ∈ rs ↔ Reads x r c ∧ IsOp c := by
  cases c with
  | closure y d => exact absurd rfl (h y d)
  | op k a => exact ⟨_, rfl, fun r => by simp [reads_iff, Reads, IsOp]⟩
  | assign w y e => exact ⟨_, rfl, fun r => by simp [reads_iff, Reads, IsOp]⟩
  | assignOp r' w y e =>
    refine ⟨_, rfl, fun r => ?_⟩
    have := reads_iff x r (.assignOp r' w y e)
    simpa [Model.reads, IsOp] using this
  | _ => exact ⟨_, rfl, fun r => by simp [IsOp]⟩

/-- Whether it is a list with operands. -/
def IsCons : Code → Prop
  | .cons _ _ => True
  | _ => False

theorem reports_mem (r w : Nat) (c : Code) : ∀ (fs : List Model.Frame) (left : Code), Typed c → Proper left →
    ((r, w) ∈ Model.reports fs left c ↔ Clash r w c ∨ ElseClash r w c ∨
      ∃ x, Writes x w c ∧ (r ∈ Model.unsequenced x fs ∨ (IsCons c ∧ r ∈ Model.reads x left))) := by
  have ex : ∀ {p q s : Nat → Prop}, (∃ x, (p x ∨ q x) ∧ s x) ↔ (∃ x, p x ∧ s x) ∨ ∃ x, q x ∧ s x := by
    intro p q s
    constructor
    · rintro ⟨x, h | h, hs⟩
      · exact .inl ⟨x, h, hs⟩
      · exact .inr ⟨x, h, hs⟩
    · rintro (⟨x, h, hs⟩ | ⟨x, h, hs⟩)
      · exact ⟨x, .inl h, hs⟩
      · exact ⟨x, .inr h, hs⟩
  induction c with
  | lit n => intros; simp [Model.reports, Clash, ElseClash, Writes]
  | nil => intros; simp [Model.reports, Clash, ElseClash, Writes]
  | read r' y => intros; simp [Model.reports, Clash, ElseClash, Writes]
  | assign w' x e ih =>
    intro fs left ht hl
    simp only [Model.reports, Clash, ElseClash, Writes, List.mem_append, List.mem_map, Prod.mk.injEq, IsCons, false_and, or_false,
      ih (.operand .nil .nil :: fs) .nil ht trivial, Model.unsequenced, Model.reads, List.not_mem_nil, and_false, false_or, ex]
    constructor
    · rintro (⟨a, h1, rfl, rfl⟩ | h | h | h)
      · exact .inr (.inr (.inl ⟨x, ⟨rfl, rfl⟩, h1⟩))
      · exact .inl h
      · exact .inr (.inl h)
      · exact .inr (.inr (.inr h))
    · rintro (h | h | ⟨y, ⟨rfl, rfl⟩, h⟩ | h)
      · exact .inr (.inl h)
      · exact .inr (.inr (.inl h))
      · exact .inl ⟨r, h, rfl, rfl⟩
      · exact .inr (.inr (.inr h))
  | assignOp r' w' x e ih =>
    intro fs left ht hl
    simp only [Model.reports, Clash, ElseClash, Writes, List.mem_append, List.mem_map, Prod.mk.injEq, IsCons, false_and, or_false,
      ih (.operand (.read r' x) .nil :: fs) .nil ht trivial, Model.unsequenced, reads_iff, Reads, and_false, ex]
    constructor
    · rintro (⟨a, h1, rfl, rfl⟩ | h | h | ⟨y, h1, ⟨rfl, rfl⟩ | h2⟩)
      · exact .inr (.inr (.inl ⟨x, ⟨rfl, rfl⟩, h1⟩))
      · exact .inl (.inr h)
      · exact .inr (.inl h)
      · exact .inl (.inl ⟨rfl, h1⟩)
      · exact .inr (.inr (.inr ⟨y, h1, h2⟩))
    · rintro ((⟨rfl, h⟩ | h) | h | ⟨y, ⟨rfl, rfl⟩, h⟩ | ⟨y, h1, h2⟩)
      · exact .inr (.inr (.inr ⟨x, h, .inl ⟨rfl, rfl⟩⟩))
      · exact .inr (.inl h)
      · exact .inr (.inr (.inl h))
      · exact .inl ⟨r, h, rfl, rfl⟩
      · exact .inr (.inr (.inr ⟨y, h1, .inr h2⟩))
  | op k a ih =>
    intro fs left ht hl
    simp only [Model.reports, Clash, ElseClash, Writes, IsCons, false_and, or_false, ih fs .nil ht trivial, Model.reads, List.not_mem_nil,
      and_false]
  | cons e es ihe ihs =>
    intro fs left ht hl
    obtain ⟨h1, h2, h3⟩ := ht
    have hes : ∀ x, (Writes x w es ∧ (r ∈ Model.unsequenced x fs ∨ (IsCons es ∧ r ∈ Model.reads x (Model.snoc left e)))) ↔
        (Writes x w es ∧ (r ∈ Model.unsequenced x fs ∨ Reads x r left ∨ Reads x r e)) := by
      intro x
      rw [snoc_reads x e left hl, List.mem_append, reads_iff, reads_iff]
      rcases h3 with rfl | ⟨c, d, rfl⟩
      · simp [Writes]
      · simp [IsCons]
    have h4 := ihs fs (Model.snoc left e) h2 (snoc_proper e left hl)
    simp only [hes] at h4
    simp only [Model.reports, Clash, ElseClash, Writes, List.mem_append, IsCons, true_and, Model.unsequenced, reads_iff, Reads,
      and_false, or_false, ex, ihe (.operand left es :: fs) .nil h1 trivial, h4]
    constructor
    · rintro ((h | h | ⟨x, h, (h' | h') | h'⟩) | h | h | ⟨x, h, h' | h' | h'⟩)
      · exact .inl (.inr (.inr (.inl h)))
      · exact .inr (.inl (.inl h))
      · exact .inr (.inr (.inl ⟨x, h, .inr h'⟩))
      · exact .inl (.inr (.inl ⟨x, h, h'⟩))
      · exact .inr (.inr (.inl ⟨x, h, .inl h'⟩))
      · exact .inl (.inr (.inr (.inr h)))
      · exact .inr (.inl (.inr h))
      · exact .inr (.inr (.inr ⟨x, h, .inl h'⟩))
      · exact .inr (.inr (.inr ⟨x, h, .inr h'⟩))
      · exact .inl (.inl ⟨x, h', h⟩)
    · rintro ((⟨x, h', h⟩ | ⟨x, h, h'⟩ | h | h) | (h | h) | ⟨x, h, h' | h'⟩ | ⟨x, h, h' | h'⟩)
      · exact .inr (.inr (.inr ⟨x, h, .inr (.inr h')⟩))
      · exact .inl (.inr (.inr ⟨x, h, .inl (.inr h')⟩))
      · exact .inl (.inl h)
      · exact .inr (.inl h)
      · exact .inl (.inr (.inl h))
      · exact .inr (.inr (.inl h))
      · exact .inl (.inr (.inr ⟨x, h, .inr h'⟩))
      · exact .inl (.inr (.inr ⟨x, h, .inl (.inl h')⟩))
      · exact .inr (.inr (.inr ⟨x, h, .inl h'⟩))
      · exact .inr (.inr (.inr ⟨x, h, .inr (.inl h')⟩))
  | seq a b iha ihb =>
    intro fs left ht hl
    simp only [Model.reports, Clash, ElseClash, Writes, List.mem_append, IsCons, false_and, or_false, Model.unsequenced, Model.reads,
      List.not_mem_nil, and_false, ex, iha (.other :: fs) .nil ht.1 trivial, ihb (.other :: fs) .nil ht.2 trivial]
    simp only [or_assoc, or_comm, or_left_comm]
  | while_ a b iha ihb =>
    intro fs left ht hl
    simp only [Model.reports, Clash, ElseClash, Writes, List.mem_append, IsCons, false_and, or_false, Model.unsequenced, Model.reads,
      List.not_mem_nil, and_false, ex, iha (.other :: fs) .nil ht.1 trivial, ihb (.other :: fs) .nil ht.2 trivial]
    simp only [or_assoc, or_comm, or_left_comm]
  | ite a b c iha ihb ihc =>
    intro fs left ht hl
    simp only [Model.reports, Clash, ElseClash, Writes, List.mem_append, IsCons, false_and, or_false, Model.unsequenced, Model.reads,
      List.not_mem_nil, and_false, ex, iha (.other :: fs) .nil ht.1 trivial, ihb (.other :: fs) .nil ht.2.1 trivial,
      ihc (.other :: fs) .nil ht.2.2 trivial]
    simp only [or_assoc, or_comm, or_left_comm]
  | addr e ih =>
    intro fs left ht hl
    simp only [Model.reports, Clash, ElseClash, Writes, IsCons, false_and, or_false, ih (.other :: fs) .nil ht trivial, Model.unsequenced,
      Model.reads, List.not_mem_nil, and_false]
  | closure x b ih =>
    intro fs left ht hl
    simp only [Model.reports, Clash, ElseClash, Writes, IsCons, false_and, or_false, ih (.closure :: fs) .nil ht trivial,
      Model.unsequenced, Model.reads, List.not_mem_nil, and_false, exists_false]
  | letElse i e ihi ihe =>
    intro fs left ht hl
    obtain ⟨h1, h2, h3⟩ := ht
    have hu : ∀ x, r ∈ Model.unsequenced x (.els i :: fs) ↔ (Reads x r i ∧ IsOp i) ∨ r ∈ Model.unsequenced x fs := by
      intro x
      obtain ⟨rs, h4, h5⟩ := expr_some (x := x) h3
      simp only [Model.unsequenced, h4, List.mem_append, h5]
    simp only [Model.reports, Clash, ElseClash, Writes, List.mem_append, IsCons, false_and, or_false, Model.reads,
      List.not_mem_nil, and_false, ex, ihi (.other :: fs) .nil h1 trivial, ihe (.els i :: fs) .nil h2 trivial, hu]
    simp only [Model.unsequenced, and_or_left, exists_or]
    simp only [or_assoc, or_comm, or_left_comm]

/-- The reports are exactly the pairs of a read and a write of one local in different operands of one operation, and those of a read in the
initialiser of a `let … else` and a write in its `else`. -/
theorem report_iff {body : Code} (ht : Typed body) (r w : Nat) :
    (r, w) ∈ Model.check body ↔ Clash r w body ∨ ElseClash r w body := by
  simp [Model.check, reports_mem r w body [] .nil ht trivial, Model.unsequenced, Model.reads]

example : Model.check (.op 1 (.cons (.read 1 7) (.cons (.seq (.assign 2 7 (.lit 5)) (.read 3 7)) .nil))) = [(1, 2)] := by decide +kernel

/-! ## Orders of evaluation -/

/-- The local is changed by the job. -/
def Job.Stores (x : Nat) : Job → Prop
  | .one e => Order.Stores x e
  | .all l => ∃ p ∈ l, Order.Stores x p.2

/-- The local is used by the job. -/
def Job.Mentions (x : Nat) : Job → Prop
  | .one e => Order.Mentions x e
  | .all l => ∃ p ∈ l, Order.Mentions x p.2

theorem operands_mem : ∀ {n : Nat} {c : Code} {p : Nat × Code}, p ∈ operands n c → ∀ x,
    (Stores x p.2 → Stores x c) ∧ (Mentions x p.2 → Mentions x c)
  | n, .cons e es, p, h, x => by
    rcases List.mem_cons.mp h with rfl | h
    · exact ⟨fun ⟨w, hw⟩ => ⟨w, .inl hw⟩, .inl⟩
    · have := operands_mem h x
      exact ⟨fun hs => let ⟨w, hw⟩ := this.1 hs; ⟨w, .inr hw⟩, fun hm => .inr (this.2 hm)⟩

theorem stores_mentions {x : Nat} {c : Code} (h : Stores x c) : Mentions x c := by
  obtain ⟨w, h⟩ := h
  induction c with
  | assign w' y e ih => exact h.elim (fun h => .inl h.1) fun h => .inr (ih h)
  | assignOp r' w' y e ih => exact h.elim (fun h => .inl h.1) fun h => .inr (ih h)
  | op _ _ ih | addr _ ih => exact ih h
  | seq _ _ ih1 ih2 | while_ _ _ ih1 ih2 | letElse _ _ ih1 ih2 | cons _ _ ih1 ih2 =>
    exact h.elim (fun h => .inl (ih1 h)) fun h => .inr (ih2 h)
  | ite _ _ _ ih0 ih1 ih2 =>
    exact h.elim (fun h => .inl (ih0 h)) fun h => h.elim (fun h => .inr (.inl (ih1 h))) fun h => .inr (.inr (ih2 h))
  | _ => exact h.elim

/-- Orders that only rearrange. -/
def Rearranges (ok : List (Nat × Code) → List (Nat × Code) → Prop) : Prop := ∀ ⦃l l'⦄, ok l l' → l'.Perm l

variable {F : Nat → (Nat → Option Nat) → Nat} {ok : List (Nat × Code) → List (Nat × Code) → Prop}

theorem keeps (hok : Rearranges ok) {σ τ : St} {j : Job} {vs : List (Nat × Nat)} (h : Run F ok σ j τ vs) :
    ∀ {x}, ¬ j.Stores x → τ x = σ x := by
  have put : ∀ {σ : St} {x y n : Nat}, y ≠ x → (σ.put y n) x = σ x := by
    intro σ x y n h
    simp [St.put, Ne.symm h]
  induction h <;> intro x hx
  case lit | read | closure | allNil => rfl
  case assign ih =>
    rw [put fun he => hx ⟨_, .inl ⟨he, rfl⟩⟩]
    exact ih fun ⟨w, hw⟩ => hx ⟨w, .inr hw⟩
  case assignOp hl _ ih =>
    rw [put fun he => hx ⟨_, .inl ⟨he, rfl⟩⟩]
    refine ih fun ⟨p, hp, w, hw⟩ => ?_
    have := (hok hl).mem_iff.mp hp
    simp only [List.mem_cons, List.not_mem_nil, or_false] at this
    rcases this with rfl | rfl
    · exact hw
    · exact hx ⟨w, .inr hw⟩
  case op hl _ ih =>
    exact ih fun ⟨p, hp, hs⟩ => hx ((operands_mem ((hok hl).mem_iff.mp hp) x).1 hs)
  case seq ih1 ih2 => rw [ih2 fun ⟨w, hw⟩ => hx ⟨w, .inr hw⟩, ih1 fun ⟨w, hw⟩ => hx ⟨w, .inl hw⟩]
  case iteThen ih1 ih2 => rw [ih2 fun ⟨w, hw⟩ => hx ⟨w, .inr (.inl hw)⟩, ih1 fun ⟨w, hw⟩ => hx ⟨w, .inl hw⟩]
  case iteElse ih1 ih2 => rw [ih2 fun ⟨w, hw⟩ => hx ⟨w, .inr (.inr hw)⟩, ih1 fun ⟨w, hw⟩ => hx ⟨w, .inl hw⟩]
  case whileEnd ih => exact ih fun ⟨w, hw⟩ => hx ⟨w, .inl hw⟩
  case whileNext ih1 ih2 ih3 => rw [ih3 hx, ih2 fun ⟨w, hw⟩ => hx ⟨w, .inr hw⟩, ih1 fun ⟨w, hw⟩ => hx ⟨w, .inl hw⟩]
  case addr ih => exact ih hx
  case letElse ih1 ih2 => rw [ih2 fun ⟨w, hw⟩ => hx ⟨w, .inr hw⟩, ih1 fun ⟨w, hw⟩ => hx ⟨w, .inl hw⟩]
  case letMatch ih => exact ih fun ⟨w, hw⟩ => hx ⟨w, .inl hw⟩
  case allCons ih1 ih2 =>
    rw [ih2 fun ⟨p, hp, hs⟩ => hx ⟨p, List.mem_cons_of_mem _ hp, hs⟩, ih1 fun hs => hx ⟨_, List.mem_cons_self, hs⟩]

theorem depends (hok : Rearranges ok) {σ σ' : St} {j : Job} {vs : List (Nat × Nat)} (h : Run F ok σ j σ' vs) :
    ∀ {U : Nat → Prop} {τ : St}, (∀ x, j.Mentions x → U x) → (∀ x, U x → τ x = σ x) →
      ∃ τ', Run F ok τ j τ' vs ∧ ∀ x, U x → τ' x = σ' x := by
  have put : ∀ {U : Nat → Prop} {σ τ : St} {x n : Nat}, (∀ y, U y → τ y = σ y) → ∀ y, U y → (τ.put x n) y = (σ.put x n) y := by
    intro U σ τ x n h y hy
    simp only [St.put]
    split
    · rfl
    · exact h y hy
  induction h <;> intro U τ hU hτ
  case lit => exact ⟨τ, .lit, hτ⟩
  case read => exact ⟨τ, by rw [← hτ _ (hU _ rfl)]; exact .read, hτ⟩
  case closure => exact ⟨τ, by rw [← hτ _ (hU _ rfl)]; exact .closure, hτ⟩
  case allNil => exact ⟨τ, .allNil, hτ⟩
  case assign ih =>
    obtain ⟨τ', h1, h2⟩ := ih (fun x hx => hU x (.inr hx)) hτ
    exact ⟨_, .assign h1, put h2⟩
  case assignOp hl _ ih =>
    obtain ⟨τ', h1, h2⟩ := ih (U := U) (by
      rintro x ⟨p, hp, hm⟩
      have := (hok hl).mem_iff.mp hp
      simp only [List.mem_cons, List.not_mem_nil, or_false] at this
      rcases this with rfl | rfl
      · exact hU x (.inl hm)
      · exact hU x (.inr hm)) hτ
    exact ⟨_, .assignOp hl h1, put h2⟩
  case op hl _ ih =>
    obtain ⟨τ', h1, h2⟩ := ih (U := U) (fun x ⟨p, hp, hm⟩ => hU x ((operands_mem ((hok hl).mem_iff.mp hp) x).2 hm)) hτ
    exact ⟨_, .op hl h1, h2⟩
  case seq ih1 ih2 =>
    obtain ⟨τ₁, h1, h2⟩ := ih1 (fun x hx => hU x (.inl hx)) hτ
    obtain ⟨τ₂, h3, h4⟩ := ih2 (fun x hx => hU x (.inr hx)) h2
    exact ⟨_, .seq h1 h3, h4⟩
  case iteThen ih1 ih2 =>
    obtain ⟨τ₁, h1, h2⟩ := ih1 (fun x hx => hU x (.inl hx)) hτ
    obtain ⟨τ₂, h3, h4⟩ := ih2 (fun x hx => hU x (.inr (.inl hx))) h2
    exact ⟨_, .iteThen h1 h3, h4⟩
  case iteElse ih1 ih2 =>
    obtain ⟨τ₁, h1, h2⟩ := ih1 (fun x hx => hU x (.inl hx)) hτ
    obtain ⟨τ₂, h3, h4⟩ := ih2 (fun x hx => hU x (.inr (.inr hx))) h2
    exact ⟨_, .iteElse h1 h3, h4⟩
  case whileEnd ih =>
    obtain ⟨τ₁, h1, h2⟩ := ih (fun x hx => hU x (.inl hx)) hτ
    exact ⟨_, .whileEnd h1, h2⟩
  case whileNext ih1 ih2 ih3 =>
    obtain ⟨τ₁, h1, h2⟩ := ih1 (fun x hx => hU x (.inl hx)) hτ
    obtain ⟨τ₂, h3, h4⟩ := ih2 (fun x hx => hU x (.inr hx)) h2
    obtain ⟨τ₃, h5, h6⟩ := ih3 hU h4
    exact ⟨_, .whileNext h1 h3 h5, h6⟩
  case addr ih =>
    obtain ⟨τ₁, h1, h2⟩ := ih hU hτ
    exact ⟨_, .addr h1, h2⟩
  case letElse ih1 ih2 =>
    obtain ⟨τ₁, h1, h2⟩ := ih1 (fun x hx => hU x (.inl hx)) hτ
    obtain ⟨τ₂, h3, h4⟩ := ih2 (fun x hx => hU x (.inr hx)) h2
    exact ⟨_, .letElse h1 h3, h4⟩
  case letMatch ih =>
    obtain ⟨τ₁, h1, h2⟩ := ih (fun x hx => hU x (.inl hx)) hτ
    exact ⟨_, .letMatch h1, h2⟩
  case allCons ih1 ih2 =>
    obtain ⟨τ₁, h1, h2⟩ := ih1 (fun x hx => hU x ⟨_, List.mem_cons_self, hx⟩) hτ
    obtain ⟨τ₂, h3, h4⟩ := ih2 (fun x ⟨p, hp, hm⟩ => hU x ⟨p, List.mem_cons_of_mem _ hp, hm⟩) h2
    exact ⟨_, .allCons h1 h3, h4⟩

/-- Neither changes what the other uses. -/
def Apart (a b : Code) : Prop := ∀ x, ¬ (Stores x a ∧ Mentions x b) ∧ ¬ (Stores x b ∧ Mentions x a)

theorem swap (hok : Rearranges ok) {a b : Code} (hab : Apart a b) {σ σ₁ σ₂ : St} {vs ws : List (Nat × Nat)}
    (ha : Run F ok σ (.one a) σ₁ vs) (hb : Run F ok σ₁ (.one b) σ₂ ws) :
    ∃ ρ, Run F ok σ (.one b) ρ ws ∧ Run F ok ρ (.one a) σ₂ vs := by
  have ka : ∀ {x}, ¬ Stores x a → σ₁ x = σ x := fun {x} h => keeps hok ha h
  have kb : ∀ {x}, ¬ Stores x b → σ₂ x = σ₁ x := fun {x} h => keeps hok hb h
  obtain ⟨ρ, h1, h2⟩ := depends hok hb (U := fun x => Mentions x b) (τ := σ) (fun x h => h)
    fun x hx => (ka fun hs => (hab x).1 ⟨hs, hx⟩).symm
  have kρ : ∀ {x}, ¬ Stores x b → ρ x = σ x := fun {x} h => keeps hok h1 h
  obtain ⟨ρ', h3, h4⟩ := depends hok ha (U := fun x => Mentions x a) (τ := ρ) (fun x h => h)
    fun x hx => kρ fun hs => (hab x).2 ⟨hs, hx⟩
  have kρ' : ∀ {x}, ¬ Stores x a → ρ' x = ρ x := fun {x} h => keeps hok h3 h
  have : ρ' = σ₂ := by
    funext x
    by_cases hsa : Stores x a
    · rw [h4 x (stores_mentions hsa), kb fun hs => (hab x).2 ⟨hs, stores_mentions hsa⟩]
    · rw [kρ' hsa]
      by_cases hm : Mentions x b
      · exact h2 x hm
      · have hsb : ¬ Stores x b := fun h => hm (stores_mentions h)
        rw [kρ hsb, kb hsb, ka hsa]
  rw [this] at h3
  exact ⟨ρ, h1, h3⟩

theorem apart_symm {a b : Code} (h : Apart a b) : Apart b a := fun x => ⟨(h x).2, (h x).1⟩

theorem keys {σ τ : St} {l : List (Nat × Code)} {vs : List (Nat × Nat)} (h : Run F ok σ (.all l) τ vs) :
    vs.map (·.1) = l.map (·.1) := by
  induction l generalizing σ vs with
  | nil => cases h; rfl
  | cons p l ih =>
    cases h with
    | allCons _ h => simp [ih h]

theorem valueOf_mem : ∀ {vs : List (Nat × Nat)}, (vs.map (·.1)).Nodup → ∀ i n, valueOf vs i = some n ↔ (i, n) ∈ vs
  | [], _, i, n => by simp [valueOf]
  | (j, m) :: vs, h, i, n => by
    simp only [List.map_cons, List.nodup_cons] at h
    simp only [valueOf, List.mem_cons, Prod.mk.injEq]
    split
    · rename_i he
      subst he
      constructor
      · intro h1; cases h1; exact .inl ⟨rfl, rfl⟩
      · rintro (⟨-, rfl⟩ | h1)
        · rfl
        · exact absurd (List.mem_map.mpr ⟨_, h1, rfl⟩) h.1
    · rename_i hne
      rw [valueOf_mem h.2]
      constructor
      · exact .inr
      · rintro (⟨rfl, -⟩ | h1)
        · exact absurd rfl hne
        · exact h1

theorem valueOf_perm {vs vs' : List (Nat × Nat)} (hp : vs.Perm vs') (hn : (vs.map (·.1)).Nodup) : valueOf vs = valueOf vs' := by
  funext i
  have hn' : (vs'.map (·.1)).Nodup := (hp.map _).nodup_iff.mp hn
  cases h : valueOf vs i with
  | some n => rw [((valueOf_mem hn' i n).mpr (hp.mem_iff.mp ((valueOf_mem hn i n).mp h)))]
  | none =>
    cases h' : valueOf vs' i with
    | none => rfl
    | some n =>
      rw [((valueOf_mem hn i n).mpr (hp.mem_iff.mpr ((valueOf_mem hn' i n).mp h')))] at h
      cases h

theorem operands_keys : ∀ (c : Code) (n : Nat), (∀ p ∈ operands n c, n ≤ p.1) ∧ ((operands n c).map (·.1)).Nodup
  | .cons e es, n => by
    have ⟨h1, h2⟩ := operands_keys es (n + 1)
    simp only [operands, List.mem_cons, List.map_cons, List.nodup_cons, List.mem_map]
    refine ⟨?_, ?_, h2⟩
    · rintro p (rfl | h)
      · exact Nat.le_refl _
      · have := h1 p h; omega
    · rintro ⟨p, h, he⟩
      have := h1 p h
      omega
  | .lit _, _ | .read _ _, _ | .assign _ _ _, _ | .assignOp _ _ _ _, _ | .op _ _, _ | .seq _ _, _ | .ite _ _ _, _ | .while_ _ _, _
  | .addr _, _ | .closure _ _, _ | .letElse _ _, _ | .nil, _ => by simp [operands]

theorem rearranged (hok : Rearranges ok) {l l' : List (Nat × Code)} (hp : l.Perm l') :
    l.Pairwise (fun p q => Apart p.2 q.2) → ∀ {σ τ : St} {vs : List (Nat × Nat)}, Run F ok σ (.all l) τ vs →
      ∃ vs', Run F ok σ (.all l') τ vs' ∧ vs'.Perm vs := by
  induction hp with
  | nil => intro _ σ τ vs h; exact ⟨vs, h, .refl _⟩
  | cons p _ ih =>
    intro hw σ τ vs h
    cases h with
    | allCons h1 h2 =>
      obtain ⟨vs', h3, h4⟩ := ih (List.pairwise_cons.mp hw).2 h2
      exact ⟨_, .allCons h1 h3, h4.cons _⟩
  | swap p q l =>
    intro hw σ τ vs h
    have hpq : Apart q.2 p.2 := (List.pairwise_cons.mp hw).1 p List.mem_cons_self
    cases h with
    | allCons h1 h2 =>
      cases h2 with
      | allCons h3 h4 =>
        obtain ⟨ρ, h5, h6⟩ := swap hok hpq h1 h3
        exact ⟨_, .allCons h5 (.allCons h6 h4), .swap _ _ _⟩
  | trans p1 _ ih1 ih2 =>
    intro hw σ τ vs h
    obtain ⟨v1, h1, h2⟩ := ih1 hw h
    obtain ⟨v2, h3, h4⟩ := ih2 (p1.pairwise hw fun {_ _} h => apart_symm h) h1
    exact ⟨v2, h3, h4.trans h2⟩

/-- Operands of operations don't interfere. -/
def Fine : Code → Prop
  | .lit _ | .nil | .read _ _ | .closure _ _ => True
  | .assign _ _ e | .op _ e | .addr e => Fine e
  | .assignOp r _ x e => Apart (.read r x) e ∧ Fine e
  | .seq a b | .while_ a b | .letElse a b => Fine a ∧ Fine b
  | .ite a b c => Fine a ∧ Fine b ∧ Fine c
  | .cons a b => Apart a b ∧ Fine a ∧ Fine b

def Job.Fine : Job → Prop
  | .one e => Order.Fine e
  | .all l => ∀ p ∈ l, Order.Fine p.2

theorem operands_fine : ∀ (c : Code) (n : Nat), Fine c →
    (∀ p ∈ operands n c, Fine p.2) ∧ (operands n c).Pairwise (fun p q => Apart p.2 q.2)
  | .cons e es, n, ⟨h0, h1, h2⟩ => by
    have ⟨h3, h4⟩ := operands_fine es (n + 1) h2
    simp only [operands, List.mem_cons, List.pairwise_cons]
    refine ⟨?_, ?_, h4⟩
    · rintro p (rfl | h)
      · exact h1
      · exact h3 p h
    · intro p hp x
      have := operands_mem hp x
      exact ⟨fun h => (h0 x).1 ⟨h.1, this.2 h.2⟩, fun h => (h0 x).2 ⟨this.1 h.1, h.2⟩⟩
  | .lit _, _, _ | .read _ _, _, _ | .assign _ _ _, _, _ | .assignOp _ _ _ _, _, _ | .op _ _, _, _ | .seq _ _, _, _ | .ite _ _ _, _, _
  | .while_ _ _, _, _ | .addr _, _, _ | .closure _ _, _, _ | .letElse _ _, _, _ | .nil, _, _ => by simp [operands]

theorem ltr_ok : Rearranges LeftToRight := by
  intro l l' h
  rw [show l' = l from h]

theorem in_order {σ τ : St} {j : Job} {vs : List (Nat × Nat)} (h : Run F AnyOrder σ j τ vs) :
    j.Fine → Run F LeftToRight σ j τ vs := by
  have back : ∀ {l l' : List (Nat × Code)} {σ τ : St} {vs : List (Nat × Nat)}, AnyOrder l l' → (l.map (·.1)).Nodup →
      l.Pairwise (fun p q => Apart p.2 q.2) → Run F LeftToRight σ (.all l') τ vs →
      ∃ vs', Run F LeftToRight σ (.all l) τ vs' ∧ valueOf vs' = valueOf vs := by
    intro l l' σ τ vs hl hn hw h
    obtain ⟨vs', h1, h2⟩ := rearranged ltr_ok hl (hl.symm.pairwise hw fun {_ _} h => apart_symm h) h
    exact ⟨vs', h1, valueOf_perm h2 (by rw [keys h1]; exact hn)⟩
  induction h <;> intro hf
  case lit => exact .lit
  case read => exact .read
  case closure => exact .closure
  case allNil => exact .allNil
  case assign ih => exact .assign (ih hf)
  case assignOp hl _ ih =>
    obtain ⟨vs', h1, h2⟩ := back hl (by simp) (by simpa using hf.1) (ih (by
      intro p hp
      have := hl.mem_iff.mp hp
      simp only [List.mem_cons, List.not_mem_nil, or_false] at this
      rcases this with rfl | rfl
      · trivial
      · exact hf.2))
    rw [← h2]
    exact .assignOp rfl h1
  case op args _ _ hl _ ih =>
    have h0 := operands_fine args 0 hf
    obtain ⟨vs', h1, h2⟩ := back hl (operands_keys args 0).2 h0.2 (ih fun p hp => h0.1 p (hl.mem_iff.mp hp))
    rw [← h2]
    exact .op rfl h1
  case seq ih1 ih2 => exact .seq (ih1 hf.1) (ih2 hf.2)
  case iteThen ih1 ih2 => exact .iteThen (ih1 hf.1) (ih2 hf.2.1)
  case iteElse ih1 ih2 => exact .iteElse (ih1 hf.1) (ih2 hf.2.2)
  case whileEnd ih => exact .whileEnd (ih hf.1)
  case whileNext ih1 ih2 ih3 => exact .whileNext (ih1 hf.1) (ih2 hf.2) (ih3 hf)
  case addr ih => exact .addr (ih hf)
  case letElse ih1 ih2 => exact .letElse (ih1 hf.1) (ih2 hf.2)
  case letMatch ih => exact .letMatch (ih hf.1)
  case allCons ih1 ih2 =>
    exact .allCons (ih1 (hf _ List.mem_cons_self)) (ih2 fun p hp => hf p (List.mem_cons_of_mem _ hp))

theorem any_order {σ τ : St} {j : Job} {vs : List (Nat × Nat)} (h : Run F LeftToRight σ j τ vs) : Run F AnyOrder σ j τ vs := by
  induction h
  case lit => exact .lit
  case read => exact .read
  case closure => exact .closure
  case allNil => exact .allNil
  case assign ih => exact .assign ih
  case assignOp hl _ ih => exact .assignOp (ltr_ok hl) ih
  case op hl _ ih => exact .op (ltr_ok hl) ih
  case seq ih1 ih2 => exact .seq ih1 ih2
  case iteThen ih1 ih2 => exact .iteThen ih1 ih2
  case iteElse ih1 ih2 => exact .iteElse ih1 ih2
  case whileEnd ih => exact .whileEnd ih
  case whileNext ih1 ih2 ih3 => exact .whileNext ih1 ih2 ih3
  case addr ih => exact .addr ih
  case letElse ih1 ih2 => exact .letElse ih1 ih2
  case letMatch ih => exact .letMatch ih
  case allCons ih1 ih2 => exact .allCons ih1 ih2

theorem open_mentions {x : Nat} {c : Code} (ho : Open c) (h : Mentions x c) : (∃ r, Reads x r c) ∨ Stores x c := by
  have two : ∀ {a c : Code}, (∀ r, Reads x r a → Reads x r c) → (∀ w, Writes x w a → Writes x w c) →
      (∃ r, Reads x r a) ∨ Stores x a → (∃ r, Reads x r c) ∨ Stores x c := by
    rintro a c h1 h2 (⟨r, h⟩ | ⟨w, h⟩)
    · exact .inl ⟨r, h1 r h⟩
    · exact .inr ⟨w, h2 w h⟩
  induction c with
  | read r y => exact .inl ⟨r, h, rfl⟩
  | assign w y e ih =>
    rcases h with h | h
    · exact .inr ⟨w, .inl ⟨h, rfl⟩⟩
    · exact two (a := e) (fun _ h => h) (fun _ h => .inr h) (ih ho h)
  | assignOp r w y e ih =>
    rcases h with h | h
    · exact .inr ⟨w, .inl ⟨h, rfl⟩⟩
    · exact two (a := e) (fun _ h => .inr h) (fun _ h => .inr h) (ih ho h)
  | op k a ih => exact two (a := a) (fun _ h => h) (fun _ h => h) (ih ho h)
  | seq a b ih1 ih2 | while_ a b ih1 ih2 | letElse a b ih1 ih2 | cons a b ih1 ih2 =>
    rcases h with h | h
    · exact two (a := a) (fun _ h => .inl h) (fun _ h => .inl h) (ih1 ho.1 h)
    · exact two (a := b) (fun _ h => .inr h) (fun _ h => .inr h) (ih2 ho.2 h)
  | ite a b c ih0 ih1 ih2 =>
    rcases h with h | h | h
    · exact two (a := a) (fun _ h => .inl h) (fun _ h => .inl h) (ih0 ho.1 h)
    · exact two (a := b) (fun _ h => .inr (.inl h)) (fun _ h => .inr (.inl h)) (ih1 ho.2.1 h)
    · exact two (a := c) (fun _ h => .inr (.inr h)) (fun _ h => .inr (.inr h)) (ih2 ho.2.2 h)
  | addr | closure => exact ho.elim
  | _ => exact h.elim

theorem fine_of {c : Code} (ho : Open c) (ht : NoTwice c) (hc : ∀ r w, ¬ Clash r w c) : Fine c := by
  induction c with
  | lit | nil | read => trivial
  | addr | closure => exact ho.elim
  | assign w x e ih | op k e ih => exact ih ho ht hc
  | assignOp r w x e ih =>
    refine ⟨fun y => ⟨?_, ?_⟩, ih ho ht fun r' w' h => hc r' w' (.inr h)⟩
    · rintro ⟨⟨w', h⟩, -⟩
      exact h
    · rintro ⟨⟨w', h⟩, rfl⟩
      exact hc r w' (.inl ⟨rfl, h⟩)
  | seq a b ih1 ih2 | while_ a b ih1 ih2 | letElse a b ih1 ih2 =>
    exact ⟨ih1 ho.1 ht.1 fun r w h => hc r w (.inl h), ih2 ho.2 ht.2 fun r w h => hc r w (.inr h)⟩
  | ite a b c ih0 ih1 ih2 =>
    exact ⟨ih0 ho.1 ht.1 fun r w h => hc r w (.inl h), ih1 ho.2.1 ht.2.1 fun r w h => hc r w (.inr (.inl h)),
      ih2 ho.2.2 ht.2.2 fun r w h => hc r w (.inr (.inr h))⟩
  | cons a b ih1 ih2 =>
    refine ⟨fun x => ⟨?_, ?_⟩, ih1 ho.1 ht.2.1 fun r w h => hc r w (.inr (.inr (.inl h))),
      ih2 ho.2 ht.2.2 fun r w h => hc r w (.inr (.inr (.inr h)))⟩
    · rintro ⟨hs, hm⟩
      rcases open_mentions ho.2 hm with ⟨r, hr⟩ | hs'
      · obtain ⟨w, hw⟩ := hs
        exact hc r w (.inr (.inl ⟨x, hw, hr⟩))
      · exact ht.1 x ⟨hs, hs'⟩
    · rintro ⟨hs, hm⟩
      rcases open_mentions ho.1 hm with ⟨r, hr⟩ | hs'
      · obtain ⟨w, hw⟩ := hs
        exact hc r w (.inl ⟨x, hr, hw⟩)
      · exact ht.1 x ⟨hs', hs⟩

/-- If nothing is reported, an expression has the same value and leaves the same locals whatever the order in which operands are evaluated.
Missing: locals that are written by two operands (`twice_missed`), reads behind `&` (`addr_missed`) and captures of closures
(`closure_missed`). -/
theorem order_partial {body : Code} (ht : Typed body) (ho : Open body) (hn : NoTwice body) (h : Model.check body = [])
    {σ τ : St} {vs : List (Nat × Nat)} : Run F AnyOrder σ (.one body) τ vs ↔ Run F LeftToRight σ (.one body) τ vs := by
  refine ⟨fun hr => in_order hr (fine_of ho hn fun r w hc => ?_), any_order⟩
  have := (report_iff ht r w).mpr (.inl hc)
  rw [h] at this
  cases this

/-- `f(x + 1, { y = x; y })`. -/
def quiet : Code :=
  .op 1 (.cons (.op 2 (.cons (.read 1 7) (.cons (.lit 1) .nil))) (.cons (.seq (.assign 2 8 (.read 3 7)) (.read 4 8)) .nil))

example : Typed quiet ∧ Open quiet ∧ Model.check quiet = [] := ⟨by simp [quiet, Typed], by simp [quiet, Open], by decide +kernel⟩

example : NoTwice quiet := by simp [quiet, NoTwice, Stores, Writes]

/-! ## What the reports mean -/

/-- The operation of the examples: ten times the first operand, plus the second. -/
def digits (_ : Nat) (v : Nat → Option Nat) : Nat := 10 * (v 0).getD 0 + (v 1).getD 0

/-- A reported expression can have different values in different orders: `f(x, { x = 1; 2 })`. -/
theorem reported_differs : ∃ body, Model.check body = [(1, 2)] ∧ ∃ τ τ' n n',
    Run digits AnyOrder (fun _ => 0) (.one body) τ [(0, n)] ∧ Run digits AnyOrder (fun _ => 0) (.one body) τ' [(0, n')] ∧ n ≠ n' := by
  refine ⟨.op 1 (.cons (.read 1 7) (.cons (.seq (.assign 2 7 (.lit 1)) (.lit 2)) .nil)), by decide +kernel, _, _, _, _,
    .op (.refl _) (.allCons .read (.allCons (.seq (.assign .lit) .lit) .allNil)),
    .op (.swap _ _ _) (.allCons (.seq (.assign .lit) .lit) (.allCons .read .allNil)), by decide +kernel⟩

/-- Two writes aren't reported: `f(x = 1, x = 2)`. -/
theorem twice_missed : ∃ body, Typed body ∧ Open body ∧ Model.check body = [] ∧ ∃ τ τ' vs vs',
    Run digits AnyOrder (fun _ => 0) (.one body) τ vs ∧ Run digits AnyOrder (fun _ => 0) (.one body) τ' vs' ∧ τ 7 ≠ τ' 7 := by
  refine ⟨.op 1 (.cons (.assign 1 7 (.lit 1)) (.cons (.assign 2 7 (.lit 2)) .nil)), by simp [Typed], by simp [Open], by decide +kernel,
    _, _, _, _, .op (.refl _) (.allCons (.assign .lit) (.allCons (.assign .lit) .allNil)),
    .op (.swap _ _ _) (.allCons (.assign .lit) (.allCons (.assign .lit) .allNil)), by decide +kernel⟩

/-- Reads behind `&` aren't seen, even if what is borrowed is a temporary: `f(&g(x), { x = 1; 2 })`. -/
theorem addr_missed : ∃ body, Typed body ∧ NoTwice body ∧ Model.check body = [] ∧ ∃ τ τ' n n',
    Run digits AnyOrder (fun _ => 0) (.one body) τ [(0, n)] ∧ Run digits AnyOrder (fun _ => 0) (.one body) τ' [(0, n')] ∧ n ≠ n' := by
  refine ⟨.op 1 (.cons (.addr (.op 2 (.cons (.read 1 7) .nil))) (.cons (.seq (.assign 2 7 (.lit 1)) (.lit 2)) .nil)),
    by simp [Typed], by simp [NoTwice, Stores, Writes], by decide +kernel, _, _, _, _,
    .op (.refl _) (.allCons (.addr (.op (.refl _) (.allCons .read .allNil))) (.allCons (.seq (.assign .lit) .lit) .allNil)),
    .op (.swap _ _ _) (.allCons (.seq (.assign .lit) .lit) (.allCons (.addr (.op (.refl _) (.allCons .read .allNil))) .allNil)),
    by decide +kernel⟩

/-- What closures capture isn't seen: `f(move || x, { x = 1; 2 })`. -/
theorem closure_missed : ∃ body, Typed body ∧ NoTwice body ∧ Model.check body = [] ∧ ∃ τ τ' n n',
    Run digits AnyOrder (fun _ => 0) (.one body) τ [(0, n)] ∧ Run digits AnyOrder (fun _ => 0) (.one body) τ' [(0, n')] ∧ n ≠ n' := by
  refine ⟨.op 1 (.cons (.closure 7 (.read 1 7)) (.cons (.seq (.assign 2 7 (.lit 1)) (.lit 2)) .nil)),
    by simp [Typed], by simp [NoTwice, Stores, Writes], by decide +kernel, _, _, _, _,
    .op (.refl _) (.allCons .closure (.allCons (.seq (.assign .lit) .lit) .allNil)),
    .op (.swap _ _ _) (.allCons (.seq (.assign .lit) .lit) (.allCons .closure .allNil)), by decide +kernel⟩

/-- Something is reported that doesn't depend on any order: `let Some(_) = f(x) else { x = 1; return }`. -/
theorem else_reported : ∃ body, Model.check body = [(1, 2)] ∧ ∀ {F : Nat → (Nat → Option Nat) → Nat} {σ τ : St} {vs : List (Nat × Nat)},
    Run F AnyOrder σ (.one body) τ vs ↔ Run F LeftToRight σ (.one body) τ vs :=
  ⟨.letElse (.op 1 (.cons (.read 1 7) .nil)) (.assign 2 7 (.lit 1)), by decide +kernel,
    fun {_ _ _ _} => ⟨fun h => in_order h (fine_of (by simp [Open]) (by simp [NoTwice, Stores, Writes])
      (by simp [Clash, Reads, Writes])), any_order⟩⟩

end Verif.Order
