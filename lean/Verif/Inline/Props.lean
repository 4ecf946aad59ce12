import Verif.Inline.Spec
import Verif.Inline.Model

/-!
# Writing variables into the format string keeps what is printed
-/

namespace Verif.Inline

/-- The argument stays. -/
def kept (a : Arg) : Bool :=
  match a.val with
  | .var _ => false
  | .expr _ => true

section
variable (args : List Arg)

/-- The new index of an argument. -/
def rank (i : Nat) : Nat := ((args.take i).filter kept).length

/-- What a reference means afterwards. -/
def newTarget : Target → Target
  | .arg i =>
    match args[i]? with
    | some ⟨_, .var x⟩ => .captured x
    | _ => .arg (rank args i)
  | .captured x => .captured x

def mapRef (r : Ref) : Ref := ⟨newPos args r, newTarget args r.target⟩

def mapPiece : RPiece → RPiece
  | .lit s => .lit s
  | .hole h => .hole ⟨mapRef args h.arg, h.width.map (mapRef args), h.prec.map (mapRef args), h.spec⟩

theorem take_succ_of {n : Nat} {a : Arg} (h : args[n]? = some a) : args.take (n + 1) = args.take n ++ [a] := by
  rw [List.take_add_one, h]; rfl

theorem rank_succ {n : Nat} {a : Arg} (h : args[n]? = some a) :
    rank args (n + 1) = rank args n + if kept a then 1 else 0 := by
  simp only [rank, take_succ_of args h, List.filter_append, List.length_append]
  cases hk : kept a with
  | true => rw [List.filter_cons_of_pos hk]; rfl
  | false => rw [List.filter_cons_of_neg (by rw [hk]; decide)]; rfl

theorem at_rank {n : Nat} {a : Arg} (h : args[n]? = some a) (hk : kept a = true) :
    (args.filter kept)[rank args n]? = some a := by
  have hlt := (List.getElem?_eq_some_iff.1 h).1
  have e : args = args.take n ++ (a :: args.drop (n + 1)) := by
    have h1 := List.take_append_drop n args
    rw [List.drop_eq_getElem_cons hlt, (List.getElem?_eq_some_iff.1 h).2] at h1
    exact h1.symm
  have e2 : args.filter kept = (args.take n).filter kept ++ (a :: args.drop (n + 1)).filter kept := by
    rw [← List.filter_append, ← e]
  rw [e2, List.filter_cons_of_pos hk, rank, List.getElem?_append_right (Nat.le_refl _), Nat.sub_self]
  rfl

theorem nameIdx_none {x : Name} {as : List Arg} : nameIdx x as = none ↔ ∀ a ∈ as, a.name ≠ some x := by
  induction as with
  | nil => simp [nameIdx]
  | cons a as ih =>
    simp only [nameIdx]
    by_cases h : a.name = some x
    · simp [h]
    · simp [h, ih]

theorem nameIdx_some {x : Name} {as : List Arg} {i : Nat} (h : nameIdx x as = some i) :
    ∃ a, as[i]? = some a ∧ a.name = some x := by
  induction as generalizing i with
  | nil => simp [nameIdx] at h
  | cons a as ih =>
    simp only [nameIdx] at h
    by_cases ha : a.name = some x
    · rw [if_pos ha] at h; cases h; exact ⟨a, rfl, ha⟩
    · rw [if_neg ha] at h
      simp only [Option.map_eq_some_iff] at h
      obtain ⟨j, hj, rfl⟩ := h
      simpa using ih hj

/-- The first argument of a name is still the first one, if it is kept. -/
theorem nameIdx_filter {x : Name} {i : Nat} {a : Arg} (h : nameIdx x args = some i) (ha : args[i]? = some a)
    (hk : kept a = true) : nameIdx x (args.filter kept) = some (rank args i) := by
  induction args generalizing i with
  | nil => simp [nameIdx] at h
  | cons b bs ih =>
    simp only [nameIdx] at h
    by_cases hb : b.name = some x
    · rw [if_pos hb] at h
      cases h
      simp at ha
      subst ha
      rw [List.filter_cons_of_pos hk]
      simp [nameIdx, hb, rank]
    · rw [if_neg hb] at h
      simp only [Option.map_eq_some_iff] at h
      obtain ⟨j, hj, rfl⟩ := h
      have := ih hj (by simpa using ha)
      by_cases hkb : kept b = true
      · rw [List.filter_cons_of_pos hkb]
        simp only [nameIdx, if_neg hb, this, Option.map_some, rank, List.take_succ_cons,
          List.filter_cons_of_pos hkb, List.length_cons]
      · rw [List.filter_cons_of_neg hkb]
        simp only [this, rank, List.take_succ_cons, List.filter_cons_of_neg hkb]

/-- No argument that stays has the name of a variable that is written into the string. -/
def Free : Prop := ∀ a ∈ args, kept a = true → ∀ b ∈ args, ∀ x, b.val = .var x → a.name ≠ some x

theorem free_none (hf : Free args) {i : Nat} {nm : Option Name} {x : Name} (h : args[i]? = some ⟨nm, .var x⟩) :
    nameIdx x (args.filter kept) = none := by
  rw [nameIdx_none]
  intro a ha
  rw [List.mem_filter] at ha
  exact hf a ha.1 ha.2 _ (List.mem_of_getElem? h) x rfl

theorem locate_pos {n n' : Nat} {p : Pos} {r : Ref} (h : locate args n p = some (r, n')) : r.pos = p := by
  cases p with
  | implicit => simp only [locate] at h; split at h <;> simp at h; rw [← h.1]
  | number i => simp only [locate] at h; split at h <;> simp at h; rw [← h.1]
  | named x => simp only [locate] at h; split at h <;> simp at h <;> rw [← h.1]

theorem locate_new (m : Bool) (hf : Free args) {n n' : Nat} {p : Pos} {r : Ref} (h : locate args n p = some (r, n'))
    (hc : checkOne m args r = true) :
    locate (args.filter kept) (rank args n) (newPos args r) = some (mapRef args r, rank args n') := by
  cases p with
  | implicit =>
    simp only [locate] at h
    split at h
    · rename_i hlt
      simp only [Option.some.injEq, Prod.mk.injEq] at h
      obtain ⟨rfl, rfl⟩ := h
      obtain ⟨⟨nm, v⟩, ha⟩ : ∃ a, args[n]? = some a := ⟨_, List.getElem?_eq_getElem hlt⟩
      cases v with
      | var x =>
        simp only [newPos, inlined, ha, mapRef, newTarget, locate, free_none args hf ha]
        rw [rank_succ args ha]; rfl
      | expr e =>
        have hr := at_rank args ha (by rfl)
        have hl := (List.getElem?_eq_some_iff.1 hr).1
        simp only [newPos, inlined, ha, mapRef, newTarget, locate, if_pos hl]
        rw [rank_succ args ha]; rfl
    · simp at h
  | number i =>
    simp only [locate] at h
    split at h
    · rename_i hlt
      simp only [Option.some.injEq, Prod.mk.injEq] at h
      obtain ⟨rfl, rfl⟩ := h
      obtain ⟨⟨nm, v⟩, ha⟩ : ∃ a, args[i]? = some a := ⟨_, List.getElem?_eq_getElem hlt⟩
      cases v with
      | var x => simp only [newPos, inlined, ha, mapRef, newTarget, locate, free_none args hf ha]
      | expr e => simp [checkOne, inlined, ha] at hc
    · simp at h
  | named y =>
    simp only [locate] at h
    split at h
    · rename_i i hi
      simp only [Option.some.injEq, Prod.mk.injEq] at h
      obtain ⟨rfl, rfl⟩ := h
      obtain ⟨⟨nm, v⟩, ha, hname⟩ := nameIdx_some hi
      cases v with
      | var x => simp only [newPos, inlined, ha, mapRef, newTarget, locate, free_none args hf ha]
      | expr e =>
        have := nameIdx_filter args hi ha (by rfl)
        simp only [newPos, inlined, ha, mapRef, newTarget, locate, this]
    · rename_i hi
      simp only [Option.some.injEq, Prod.mk.injEq] at h
      obtain ⟨rfl, rfl⟩ := h
      have : nameIdx y (args.filter kept) = none := by
        rw [nameIdx_none] at hi ⊢
        intro a ha
        exact hi a (List.mem_filter.1 ha).1
      simp only [newPos, inlined, mapRef, newTarget, locate, this]

theorem locateOpt_new (m : Bool) (hf : Free args) {n n' : Nat} {p : Option Pos} {r : Option Ref}
    (h : locateOpt args n p = some (r, n')) (hc : ∀ x, r = some x → checkOne m args x = true) :
    locateOpt (args.filter kept) (rank args n) (r.map (newPos args)) = some (r.map (mapRef args), rank args n') := by
  cases p with
  | none =>
    simp only [locateOpt, Option.some.injEq, Prod.mk.injEq] at h
    obtain ⟨rfl, rfl⟩ := h
    rfl
  | some p =>
    simp only [locateOpt, Option.map_eq_some_iff, Prod.mk.injEq] at h
    obtain ⟨⟨r', k⟩, h, rfl, rfl⟩ := h
    simp only [Option.map_some, locateOpt, locate_new args m hf h (hc r' rfl)]

theorem lowerHole_new (m : Bool) (hf : Free args) {n n' : Nat} {h : Hole} {r : RHole}
    (hl : lowerHole args n h = some (r, n')) (hc : ∀ x ∈ r.refs, checkOne m args x = true) :
    lowerHole (args.filter kept) (rank args n)
      ⟨newPos args r.arg, r.width.map (newPos args), r.prec.map (newPos args), r.spec⟩ =
      some (⟨mapRef args r.arg, r.width.map (mapRef args), r.prec.map (mapRef args), r.spec⟩, rank args n') := by
  simp only [lowerHole] at hl
  split at hl
  · simp at hl
  rename_i p n1 hp
  split at hl
  · simp at hl
  rename_i a n2 ha
  split at hl
  · simp at hl
  rename_i hw0
  split at hl
  · simp at hl
  rename_i w n3 hw
  simp only [Option.some.injEq, Prod.mk.injEq] at hl
  obtain ⟨rfl, rfl⟩ := hl
  simp only [RHole.refs, List.mem_cons, List.mem_append, Option.mem_toList] at hc
  have e1 := locateOpt_new args m hf hp (fun x hx => hc x (Or.inr (Or.inr hx)))
  have e2 := locate_new args m hf ha (hc a (Or.inl rfl))
  have e3 := locateOpt_new args m hf hw (fun x hx => hc x (Or.inr (Or.inl hx)))
  have e4 : w.map (newPos args) ≠ some .implicit := by
    intro e
    cases w with
    | none => simp at e
    | some x =>
      simp only [Option.map_some, Option.some.injEq, newPos] at e
      cases hh : h.width with
      | none => rw [hh] at hw; simp [locateOpt] at hw
      | some q =>
        rw [hh] at hw hw0
        simp only [locateOpt, Option.map_eq_some_iff, Prod.mk.injEq, Option.some.injEq] at hw
        obtain ⟨⟨r', k⟩, hq, rfl, _⟩ := hw
        split at e
        · cases e
        · rw [locate_pos args hq] at e
          exact hw0 (by rw [e])
  simp only [lowerHole, e1, e2, if_neg e4, e3]

theorem lowerFrom_new (m : Bool) (hf : Free args) {n : Nat} {ps : List Piece} {rs : List RPiece}
    (h : lowerFrom args n ps = some rs) (hc : ∀ x ∈ refs rs, checkOne m args x = true) :
    lowerFrom (args.filter kept) (rank args n) (rs.map (newPiece args)) = some (rs.map (mapPiece args)) := by
  induction ps generalizing n rs with
  | nil => simp only [lowerFrom, Option.some.injEq] at h; subst h; rfl
  | cons p ps ih =>
    cases p with
    | lit s =>
      simp only [lowerFrom, Option.map_eq_some_iff] at h
      obtain ⟨rs', h, rfl⟩ := h
      simp only [List.map_cons, newPiece, lowerFrom, ih h (by simpa [refs] using hc), Option.map_some, mapPiece]
    | hole q =>
      simp only [lowerFrom] at h
      split at h
      · simp at h
      rename_i r n' hr
      simp only [Option.map_eq_some_iff] at h
      obtain ⟨rs', h, rfl⟩ := h
      simp only [refs, List.mem_append] at hc
      simp only [List.map_cons, newPiece, lowerFrom, lowerHole_new args m hf hr (fun x hx => hc x (Or.inl hx)),
        ih h (fun x hx => hc x (Or.inr hx)), Option.map_some, mapPiece]

theorem refs_map (rs : List RPiece) : refs (rs.map (mapPiece args)) = (refs rs).map (mapRef args) := by
  induction rs with
  | nil => rfl
  | cons r rs ih =>
    cases r with
    | lit s => simp [mapPiece, refs, ih]
    | hole h =>
      simp only [List.map_cons, mapPiece, refs, ih, List.map_append, RHole.refs]
      cases h.width <;> cases h.prec <;> rfl

/-- Every argument is used. -/
def Used (rs : List RPiece) : Prop := ∀ i < args.length, ∃ r ∈ refs rs, r.target = .arg i

theorem newArgs_eq (rs : List RPiece) (hu : Used args rs) : newArgs args rs = args.filter kept := by
  have go : ∀ (as : List Arg) (i : Nat), args.drop i = as → keepFrom args rs i as = as.filter kept := by
    intro as
    induction as with
    | nil => intro i _; rfl
    | cons a as ih =>
      intro i hd
      have ha : args[i]? = some a := by
        have := congrArg (fun l => l[0]?) hd
        simpa using this
      have hd' : args.drop (i + 1) = as := by
        have := congrArg List.tail hd
        simpa using this
      have hlt := (List.getElem?_eq_some_iff.1 ha).1
      simp only [keepFrom]
      obtain ⟨nm, v⟩ := a
      cases v with
      | var x =>
        have hany : (refs rs).any (fun r => r.target == .arg i && (inlined args r.target).isSome) = true := by
          obtain ⟨r, hr, ht⟩ := hu i hlt
          exact List.any_eq_true.2 ⟨r, hr, by simp [ht, inlined, ha]⟩
        rw [if_pos hany, List.filter_cons_of_neg (by simp [kept]), ih (i + 1) hd']
      | expr e =>
        have hany : ¬ (refs rs).any (fun r => r.target == .arg i && (inlined args r.target).isSome) = true := by
          intro h
          obtain ⟨r, _, h⟩ := List.any_eq_true.1 h
          simp only [Bool.and_eq_true, beq_iff_eq] at h
          rw [h.1] at h
          simp [inlined, ha] at h
        rw [if_neg hany, List.filter_cons_of_pos (by simp [kept]), ih (i + 1) hd']
  exact go args 0 rfl

/-- Every kept argument has an old index. -/
theorem rank_surj (as : List Arg) : ∀ j < (as.filter kept).length, ∃ i a, as[i]? = some a ∧ kept a = true ∧ rank as i = j := by
  induction as with
  | nil => intro j h; simp at h
  | cons b bs ih =>
    intro j h
    by_cases hb : kept b = true
    · rw [List.filter_cons_of_pos hb] at h
      cases j with
      | zero => exact ⟨0, b, rfl, hb, by simp [rank]⟩
      | succ j =>
        obtain ⟨i, a, h1, h2, h3⟩ := ih j (by simpa using h)
        refine ⟨i + 1, a, by simpa using h1, h2, ?_⟩
        simp only [rank, List.take_succ_cons, List.filter_cons_of_pos hb, List.length_cons] at h3 ⊢
        rw [h3]
    · rw [List.filter_cons_of_neg hb] at h
      obtain ⟨i, a, h1, h2, h3⟩ := ih j h
      refine ⟨i + 1, a, by simpa using h1, h2, ?_⟩
      simp only [rank, List.take_succ_cons, List.filter_cons_of_neg hb] at h3 ⊢
      exact h3

theorem target_eval {V : Type} (vars : Name → V) (exprs : Nat → V) (t : Target) :
    (newTarget args t).eval vars exprs (args.filter kept) = t.eval vars exprs args := by
  cases t with
  | captured x => rfl
  | arg i =>
    cases ha : args[i]? with
    | none =>
      have hle : args.length ≤ i := List.getElem?_eq_none_iff.1 ha
      simp only [newTarget, ha, Target.eval, rank]
      rw [List.take_of_length_le hle]
      simp
    | some a =>
      obtain ⟨nm, v⟩ := a
      cases v with
      | var x => simp [newTarget, ha, Target.eval, Val.eval]
      | expr e => simp only [newTarget, ha, Target.eval, at_rank args ha (by rfl)]

theorem piece_eval {V : Type} (vars : Name → V) (exprs : Nat → V) (r : RPiece) :
    (mapPiece args r).eval vars exprs (args.filter kept) = r.eval vars exprs args := by
  cases r with
  | lit s => rfl
  | hole h =>
    simp only [mapPiece, RPiece.eval, mapRef, target_eval]
    cases h.width <;> cases h.prec <;> simp [target_eval, mapRef]

end

theorem filterMap_sublist (args : List Arg) : ((args.filter kept).filterMap Arg.name).Sublist (args.filterMap Arg.name) :=
  List.filter_sublist.filterMap _

/-- What the compiler makes of the suggested call. -/
theorem lower_new (m : Bool) (args : List Arg) (hf : Free args) (ps : List Piece) (rs : List RPiece)
    (hl : lower args ps = some rs) (hc : check m args rs = true) :
    lower (newArgs args rs) (rs.map (newPiece args)) = some (rs.map (mapPiece args)) := by
  simp only [lower] at hl
  split at hl
  · simp at hl
  rename_i rs' hrs
  split at hl
  · rename_i hok
    simp only [Option.some.injEq] at hl
    subst hl
    simp only [Bool.and_eq_true, List.all_eq_true, List.mem_range, List.any_eq_true, beq_iff_eq,
      decide_eq_true_eq] at hok
    obtain ⟨hu, hn⟩ := hok
    simp only [check, Bool.and_eq_true, List.all_eq_true] at hc
    have e := lowerFrom_new args m hf hrs hc.1
    have e0 : rank args 0 = 0 := by simp [rank]
    rw [e0] at e
    rw [newArgs_eq args rs' hu]
    simp only [lower, e]
    rw [if_pos]
    simp only [Bool.and_eq_true, List.all_eq_true, List.mem_range, List.any_eq_true, beq_iff_eq,
      decide_eq_true_eq]
    refine ⟨?_, (filterMap_sublist args).nodup hn⟩
    intro j hj
    obtain ⟨i, ⟨nm, v⟩, h1, h2, h3⟩ := rank_surj args j hj
    obtain ⟨r, hr, ht⟩ := hu i (List.getElem?_eq_some_iff.1 h1).1
    refine ⟨mapRef args r, by rw [refs_map]; exact List.mem_map.2 ⟨r, hr, rfl⟩, ?_⟩
    cases v with
    | var x => simp [kept] at h2
    | expr e => simp only [mapRef, ht, newTarget, h1, h3]
  · simp at hl

theorem prints_new {V : Type} (vars : Name → V) (exprs : Nat → V) (m : Bool) (args : List Arg) (hf : Free args)
    (ps : List Piece) (rs : List RPiece) (hl : lower args ps = some rs) (hc : check m args rs = true) :
    prints vars exprs (newArgs args rs) (rs.map (newPiece args)) = prints vars exprs args ps ∧
      (prints vars exprs args ps).isSome = true := by
  have hu : Used args rs := by
    simp only [lower] at hl
    split at hl
    · simp at hl
    split at hl
    · rename_i hok
      simp only [Option.some.injEq] at hl
      subst hl
      simp only [Bool.and_eq_true, List.all_eq_true, List.mem_range, List.any_eq_true, beq_iff_eq] at hok
      exact hok.1
    · simp at hl
  constructor
  · simp only [prints, lower_new m args hf ps rs hl hc, hl, Option.map_some, List.map_map, Option.some.injEq]
    apply List.map_congr_left
    intro r _
    simp only [Function.comp_apply]
    rw [newArgs_eq args rs hu, piece_eval]
  · simp [prints, hl]

/-- **Writing variables into the format string keeps what is printed**, if the lint leaves calls
alone some of whose arguments have to stay (`allow-mixed-uninlined-format-args`, the default). -/
theorem inline_same {V : Type} (vars : Name → V) (exprs : Nat → V) (args : List Arg) (ps : List Piece)
    (rs : List RPiece) (hl : lower args ps = some rs) (hc : check true args rs = true) :
    prints vars exprs (newArgs args rs) (rs.map (newPiece args)) = prints vars exprs args ps ∧
      (prints vars exprs args ps).isSome = true ∧ newArgs args rs = [] := by
  have hu : Used args rs := by
    simp only [lower] at hl
    split at hl
    · simp at hl
    split at hl
    · rename_i hok
      simp only [Option.some.injEq] at hl
      subst hl
      simp only [Bool.and_eq_true, List.all_eq_true, List.mem_range, List.any_eq_true, beq_iff_eq] at hok
      exact hok.1
    · simp at hl
  have hnone : ∀ a ∈ args, kept a = false := by
    intro a ha
    obtain ⟨i, hi⟩ := List.mem_iff_getElem?.1 ha
    obtain ⟨r, hr, ht⟩ := hu i (List.getElem?_eq_some_iff.1 hi).1
    simp only [check, Bool.and_eq_true, List.all_eq_true] at hc
    have := hc.1 r hr
    obtain ⟨nm, v⟩ := a
    cases v with
    | var x => rfl
    | expr e => simp [checkOne, inlined, ht, hi] at this
  have hf : Free args := by
    intro a ha hk
    rw [hnone a ha] at hk; cases hk
  refine ⟨(prints_new vars exprs true args hf ps rs hl hc).1, (prints_new vars exprs true args hf ps rs hl hc).2, ?_⟩
  rw [newArgs_eq args rs hu, List.filter_eq_nil_iff]
  intro a ha
  rw [hnone a ha]; decide

/-- **The same for calls some of whose arguments have to stay** (partial): not covered are those
one of which has the name of a variable that is written into the string (`name_clash`). -/
theorem inline_mixed_partial {V : Type} (vars : Name → V) (exprs : Nat → V) (args : List Arg) (hn : NoClash args)
    (ps : List Piece) (rs : List RPiece) (hl : lower args ps = some rs) (hc : check false args rs = true) :
    prints vars exprs (newArgs args rs) (rs.map (newPiece args)) = prints vars exprs args ps ∧
      (prints vars exprs args ps).isSome = true := by
  refine prints_new vars exprs false args ?_ ps rs hl hc
  intro a ha hk b hb x hx he
  obtain ⟨nm, v⟩ := a
  cases v with
  | var y => simp [kept] at hk
  | expr e => exact hn _ ha e rfl x he b hb hx

/-! ## Examples -/

/-- `format!("{0} {:>1$.*} {0}", p, w, v = x)`, for variables `p`, `w` and `x` -/
def ex1 : List Arg × List Piece :=
  ([⟨none, .var 0⟩, ⟨none, .var 1⟩, ⟨some 9, .var 2⟩],
   [.hole ⟨.number 0, none, none, 0⟩, .lit 7, .hole ⟨.named 9, some (.number 1), some .implicit, 1⟩, .lit 7,
    .hole ⟨.number 0, none, none, 0⟩])

/-- `format!("{p} {x:>w$.p$} {p}")` -/
example : ∃ rs, lower ex1.1 ex1.2 = some rs ∧ check true ex1.1 rs = true ∧ newArgs ex1.1 rs = [] ∧
    rs.map (newPiece ex1.1) = [.hole ⟨.named 0, none, none, 0⟩, .lit 7,
      .hole ⟨.named 2, some (.named 1), some (.named 0), 1⟩, .lit 7, .hole ⟨.named 0, none, none, 0⟩] := by
  refine ⟨_, rfl, ?_⟩
  decide +kernel

/-- `format!("{} {} {} {z}", x, f(), y, z = g())` becomes `format!("{x} {} {y} {z}", f(), z = g())`. -/
def ex2 : List Arg × List Piece :=
  ([⟨none, .var 0⟩, ⟨none, .expr 0⟩, ⟨none, .var 1⟩, ⟨some 5, .expr 1⟩],
   [.hole ⟨.implicit, none, none, 0⟩, .hole ⟨.implicit, none, none, 0⟩, .hole ⟨.implicit, none, none, 0⟩,
    .hole ⟨.named 5, none, none, 0⟩])

example : ∃ rs, lower ex2.1 ex2.2 = some rs ∧ check false ex2.1 rs = true ∧ check true ex2.1 rs = false ∧
    newArgs ex2.1 rs = [⟨none, .expr 0⟩, ⟨some 5, .expr 1⟩] ∧
    rs.map (newPiece ex2.1) = [.hole ⟨.named 0, none, none, 0⟩, .hole ⟨.implicit, none, none, 0⟩,
      .hole ⟨.named 1, none, none, 0⟩, .hole ⟨.named 5, none, none, 0⟩] := by
  refine ⟨_, rfl, ?_⟩
  decide +kernel

example : NoClash ex2.1 := by
  intro a ha e h x hx b hb
  simp [ex2] at ha hb
  rcases ha with rfl | rfl | rfl | rfl <;> simp at h hx
  subst hx
  rcases hb with rfl | rfl | rfl | rfl <;> simp

/-- `format!("{1} {}", x, f())` is left alone. -/
example : ∃ rs, lower [⟨none, .var 0⟩, ⟨none, .expr 0⟩]
      [.hole ⟨.number 1, none, none, 0⟩, .hole ⟨.implicit, none, none, 0⟩] = some rs ∧
    check false [⟨none, .var 0⟩, ⟨none, .expr 0⟩] rs = false := ⟨_, rfl, by decide +kernel⟩

/-- Found: with `allow-mixed-uninlined-format-args = false`, `format!("{} {y}", y, y = 5)` becomes
`format!("{y} {y}", y = 5)`, which prints the argument twice and the variable not at all. -/
theorem name_clash : ∃ (args : List Arg) (ps : List Piece) (rs : List RPiece), lower args ps = some rs ∧
    check false args rs = true ∧
    ∃ vars exprs : Nat → Nat, prints vars exprs (newArgs args rs) (rs.map (newPiece args)) ≠ prints vars exprs args ps := by
  refine ⟨[⟨none, .var 0⟩, ⟨some 0, .expr 0⟩],
    [.hole ⟨.implicit, none, none, 0⟩, .hole ⟨.named 0, none, none, 0⟩], _, rfl, by decide +kernel,
    fun _ => 1, fun _ => 5, by decide +kernel⟩

end Verif.Inline
