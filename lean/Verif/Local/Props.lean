import Verif.Local.Model
import Verif.Local.Spec

/-!
# A local constant depends on nothing else
-/

namespace Verif.Local

/-- The first result is local, so that the second cannot be another value. -/
def Same {A : Type} (r r' : Option A × Bool) : Prop := r.2 = false → ∀ v v', r.1 = some v → r'.1 = some v' → v = v'

theorem Same.mark {b b' : Bool} {r r' : Res} (h : b = false → Same r r') : Same (mark b r) (mark b' r') := by
  intro hf v v' hv hv'
  simp only [Local.mark, Bool.or_eq_false_iff] at hf
  exact h hf.1 hf.2 v v' hv hv'

theorem Same.flag {A : Type} {r r' : Option A × Bool} (h : r.1.isSome → r.2 = true) : Same r r' := by
  intro hf v v' hv _
  rw [hf] at h
  simp [hv] at h

theorem Same.same {A : Type} {r r' : Option A × Bool} (h : r.1 = r'.1) : Same r r' := by
  intro _ v v' hv hv'
  rw [h, hv'] at hv
  exact (Option.some.inj hv).symm

theorem blank_iff {t : Tok} : blank t = true ↔ Blank t := by
  cases t <;> simp [blank] <;> first | constructor | (intro h; cases h)

theorem not_hides {text : List Tok} (h : text.filter (fun t => !blank t) = [.openBrace]) : Nothing text := by
  induction text with
  | nil => cases h
  | cons t ts ih =>
    rw [List.filter_cons] at h
    by_cases hb : blank t = true
    · rw [if_neg (by simp [hb])] at h
      obtain ⟨a, b, he, ha, hb'⟩ := ih h
      refine ⟨t :: a, b, by rw [he]; rfl, fun x hx => ?_, hb'⟩
      rcases List.mem_cons.1 hx with rfl | hx
      · exact blank_iff.1 hb
      · exact ha x hx
    · rw [if_pos (by simpa using hb)] at h
      injection h with h1 h2
      subst h1
      refine ⟨[], ts, rfl, (fun x hx => nomatch hx), fun x hx => ?_⟩
      have := List.filter_eq_nil_iff.1 h2 x hx
      exact blank_iff.1 (by simpa using this)

theorem hides_of {text : List Tok} (h : ¬ Nothing text) : hides 0 (some text) = true := by
  simp only [hides, if_true, bne_iff_ne]
  exact fun he => h (not_hides he)

theorem hides_nothing {c : Ctxt} {text : List Tok} (h : Nothing text) : hides c (some text) = false := by
  obtain ⟨a, b, rfl, ha, hb⟩ := h
  have fa : a.filter (fun t => !blank t) = [] := List.filter_eq_nil_iff.2 fun t ht => by
    simp [blank_iff.2 (ha t ht)]
  have fb : b.filter (fun t => !blank t) = [] := List.filter_eq_nil_iff.2 fun t ht => by
    simp [blank_iff.2 (hb t ht)]
  simp only [hides]
  split
  · rw [List.filter_append, fa, List.filter_cons_of_pos (by rfl), fb]; rfl
  · rfl

theorem fetch_some {lib : Lib} {w : World} {c : Ctxt} {segs : List Ctxt} {p : Nat}
    (h : ¬ (lib.known p && segs.all (· == c)) = true) (hs : (fetch lib w c segs p).1.isSome) :
    (fetch lib w c segs p).2 = true := by
  simp only [fetch] at hs ⊢
  rw [if_neg h] at hs ⊢
  split at hs <;> rename_i hc
  · rw [if_pos hc]
  · cases hs

theorem all_not {c : Ctxt} {segs : List Ctxt} (h : ∃ s ∈ segs, s ≠ c) : segs.all (· == c) = false := by
  obtain ⟨s, hs, hne⟩ := h
  rw [List.all_eq_false]
  exact ⟨s, hs, by simpa using hne⟩

theorem binop_none {lib : Lib} {op : BinOp} {ty : Nat} {l r v : Const} (h : binop lib op ty l none = some v) :
    binop lib op ty l (some r) = some v := by
  cases op with
  | other o => simp [binop] at h
  | and => cases l with
    | bool b => cases b <;> simp_all [binop]
    | _ => simp [binop] at h
  | or => cases l with
    | bool b => cases b <;> simp_all [binop]
    | _ => simp [binop] at h

theorem binop_same {lib : Lib} {op : BinOp} {ty : Nat} {l : Const} {r r' : Option Const} {v v' : Const}
    (h : ∀ a b, r = some a → r' = some b → a = b) (hv : binop lib op ty l r = some v)
    (hv' : binop lib op ty l r' = some v') : v = v' := by
  match r, r' with
  | some a, some b => rw [h a b rfl rfl, hv'] at hv; exact (Option.some.inj hv).symm
  | none, some b => rw [binop_none hv] at hv'; exact Option.some.inj hv'
  | some a, none => rw [binop_none hv'] at hv; exact (Option.some.inj hv).symm
  | none, none => rw [hv'] at hv; exact (Option.some.inj hv).symm

theorem floatEq_eq {lib : Lib} {c : Const} {w b : Nat} (h : floatEq lib c w b = true) : c = .float w b := by
  cases c with
  | float w' b' =>
    simp only [floatEq, Bool.and_eq_true, beq_iff_eq] at h
    rw [h.1.1.1, h.1.2]
  | _ => simp [floatEq] at h

/-- The value of an array at an index that is not known is that of all its elements. -/
theorem anyIndex_all {lib : Lib} {cs : List Const} {v x : Const} (h : anyIndex lib cs = some v) (hx : x ∈ cs) :
    x = v := by
  match cs, h with
  | .float w b :: cs, h =>
    simp only [anyIndex] at h
    split at h
    next ha =>
      cases h
      rw [List.all_eq_true] at ha
      exact floatEq_eq (ha x hx)
    next => cases h

theorem onlyFloat_some {o : Option Const} {v : Const} (h : onlyFloat o = some v) : o = some v := by
  match o, h with
  | some (.float w b), h => cases h; rfl

/-- What an index can give. -/
theorem index_cases {lib : Lib} {a i : Option Const} {v : Const} (h : index lib a i = some v) :
    ∃ cs, a = some (.vec cs) ∧
      ((∃ n, i = some (.int n) ∧ cs[n % 2 ^ 64]? = some v) ∨ ((∀ n, i ≠ some (.int n)) ∧ anyIndex lib cs = some v)) := by
  unfold index at h
  split at h
  next cs =>
    refine ⟨cs, rfl, ?_⟩
    unfold indexIn at h
    split at h
    next n => exact .inl ⟨n, rfl, onlyFloat_some h⟩
    next hj => exact .inr ⟨fun n hn => hj n hn, h⟩
  next => cases h

theorem index_same {lib : Lib} {a a' i i' : Option Const} {v v' : Const}
    (ha : ∀ x y, a = some x → a' = some y → x = y) (hi : ∀ x y, i = some x → i' = some y → x = y)
    (h : index lib a i = some v) (h' : index lib a' i' = some v') : v = v' := by
  obtain ⟨cs, hcs, h⟩ := index_cases h
  obtain ⟨cs', hcs', h'⟩ := index_cases h'
  have := ha _ _ hcs hcs'
  injection this with this
  subst this
  rcases h with ⟨n, rfl, hn⟩ | ⟨_, hv⟩
  · rcases h' with ⟨m, rfl, hm⟩ | ⟨_, hv'⟩
    · have := hi _ _ rfl rfl
      injection this with this
      subst this
      rw [hm] at hn
      exact (Option.some.inj hn).symm
    · exact anyIndex_all hv' (List.mem_of_getElem? hn)
  · rcases h' with ⟨m, rfl, hm⟩ | ⟨_, hv'⟩
    · exact (anyIndex_all hv (List.mem_of_getElem? hm)).symm
    · rw [hv'] at hv
      exact (Option.some.inj hv).symm

theorem choose_same {c c' t t' e e' : Res} (hc : Same c c') (ht : Same t t') (he : Same e e') :
    Same (choose c t e) (choose c' t' e') := by
  intro hf v v' hv hv'
  unfold choose at hf hv hv'
  split at hv
  next h =>
    simp only [h, mark, Bool.or_eq_false_iff] at hf
    split at hv'
    next h' => exact ht hf.2 v v' hv hv'
    next h' => have := hc hf.1 _ _ h h'; cases this
    next => cases hv'
  next h =>
    simp only [h, mark, Bool.or_eq_false_iff] at hf
    split at hv'
    next h' => have := hc hf.1 _ _ h h'; cases this
    next h' => exact he hf.2 v v' hv hv'
    next => cases hv'
  next => cases hv

theorem both_same {l l' r r' : Res} {lib : Lib} {op : BinOp} {ty : Nat} (hl : Same l l') (hr : Same r r') :
    Same (both l r (binop lib op ty)) (both l' r' (binop lib op ty)) := by
  intro hf v v' hv hv'
  unfold both at hf hv hv'
  split at hv
  next a ha =>
    simp only [ha, Bool.or_eq_false_iff] at hf
    split at hv'
    next b hb =>
      have := hl hf.1 _ _ ha hb
      subst this
      exact binop_same (hr hf.2) hv hv'
    next => cases hv'
  next => cases hv

theorem fieldOf_same {lib : Lib} {c fc : Ctxt} {f : Nat} {b b' : Res} (h : Same b b') :
    Same (fieldOf lib c fc f b) (fieldOf lib c fc f b') := by
  intro hf v v' hv hv'
  unfold fieldOf at hf hv hv'
  split at hv
  next a ha =>
    simp only [ha] at hf
    split at hv
    next hh =>
      simp only [hh, if_true, Bool.or_eq_false_iff] at hf
      split at hv'
      next a' ha' =>
        have := h hf.2 _ _ ha ha'
        injection this with this
        subst this
        simp only [hh, if_true] at hv'
        rw [hv'] at hv
        exact (Option.some.inj hv).symm
      next => cases hv'
    next => cases hv
  next => cases hv

theorem fieldOf_flag {lib : Lib} {c fc : Ctxt} {f : Nat} {b : Res} (h : fc ≠ c) (hs : (fieldOf lib c fc f b).1.isSome) :
    (fieldOf lib c fc f b).2 = true := by
  unfold fieldOf at hs ⊢
  split at hs
  next a ha =>
    split at hs
    next hh => simp [hh, h]
    next => cases hs
  next => cases hs

theorem Same.map {A B : Type} {r r' : Option A × Bool} {f : A → B} (h : Same r r') :
    Same (r.1.map f, r.2) (r'.1.map f, r'.2) := by
  intro hf v v' hv hv'
  obtain ⟨a, ha, rfl⟩ := Option.map_eq_some_iff.1 hv
  obtain ⟨b, hb, rfl⟩ := Option.map_eq_some_iff.1 hv'
  rw [h hf a b ha hb]

mutual
theorem agree {lib : Lib} {w w' : World} {e e' : Ex} : Agree 0 e e' → unseen 0 e = false → unseen 0 e' = false →
    Same (expr lib w 0 e) (expr lib w' 0 e')
  | .macro (ec := ec) (ec' := ec') (k := k) (k' := k') h h', _, _ => by
    simp only [expr]
    exact .flag (fun _ => by simp [mark, h])
  | .same (k := k) (k' := k') ec h, hu, hu' => by
    simp only [expr]
    refine .mark fun hc => ?_
    have hc : ec = 0 := by simpa using hc
    simp only [unseen, hc, decide_true, Bool.true_and] at hu hu'
    exact agreeKind h hu hu'
theorem agreeKind {lib : Lib} {w w' : World} {k k' : Kind} : AgreeKind 0 k k' → unseenKind 0 k = false →
    unseenKind 0 k' = false → Same (kind lib w 0 k) (kind lib w' 0 k')
  | .constBlock h, hu, hu' => by
    simp only [kind]; simp only [unseenKind] at hu hu'; exact agree h hu hu'
  | .temps h, hu, hu' => by
    simp only [kind]; simp only [unseenKind] at hu hu'; exact agree h hu hu'
  | .path segs p, _, _ => by
    simp only [kind]
    by_cases h : (lib.known p && segs.all (· == 0)) = true
    · exact .same (by rw [fetch, fetch, if_pos h, if_pos h])
    · exact .flag (fetch_some h)
  | .pathMacro h _, _, _ => by
    simp only [kind]
    exact .flag (fetch_some (by simp [all_not h]))
  | .block bc text stmts h, hu, hu' => by
    simp only [kind]
    cases stmts with
    | true => intro _ v v' hv; cases hv
    | false =>
      simp only [Bool.false_eq_true, if_false]
      refine .mark fun hc => ?_
      simp only [Bool.or_eq_false_iff] at hc
      have hc : bc = 0 := by simpa using hc.1
      simp only [unseenKind, hc, decide_true, Bool.true_and] at hu hu'
      exact agree h hu hu'
  | .blockMacro (stmts := stmts) h h', _, _ => by
    simp only [kind]
    cases stmts with
    | true => intro _ v v' hv; cases hv
    | false => exact .flag (fun _ => by simp [mark, h])
  | .blockHidden (bc := bc) (stmts := stmts) h h', _, _ => by
    simp only [kind]
    cases stmts with
    | true => intro _ v v' hv; cases hv
    | false =>
      refine .flag (fun _ => ?_)
      by_cases hb : bc = 0
      · subst hb; simp [mark, hides_of h]
      · simp [mark, hb]
  | .blockUnknown (bc := bc) (stmts := stmts), _, _ => by
    simp only [kind]
    cases stmts with
    | true => intro _ v v' hv; cases hv
    | false =>
      refine .flag (fun _ => ?_)
      by_cases hb : bc = 0
      · subst hb; simp [mark, hides]
      · simp [mark, hb]
  | .unitBlock bc, _, _ => by
    simp only [kind]; intro _ v v' hv; cases hv
  | .lit lc v, _, _ => by
    simp only [kind]; exact .same rfl
  | .litMacro h _, _, _ => by
    simp only [kind]; exact .flag (fun _ => by simp [h])
  | .arr h, hu, hu' => by
    simp only [kind]; simp only [unseenKind] at hu hu'; exact (agreeElems h hu hu').map
  | .tup h, hu, hu' => by
    simp only [kind]; simp only [unseenKind] at hu hu'; exact (agreeElems h hu hu').map
  | .rep (.num n) h, hu, hu' => by
    simp only [kind, length]; simp only [unseenKind] at hu hu'; exact (agree h hu hu').map
  | .rep (.named n) h, hu, _ => by
    simp [unseenKind] at hu
  | .un op ty h, hu, hu' => by
    simp only [kind]; simp only [unseenKind] at hu hu'
    intro hf v v' hv hv'
    obtain ⟨a, ha, hv⟩ := Option.bind_eq_some_iff.1 hv
    obtain ⟨b, hb, hv'⟩ := Option.bind_eq_some_iff.1 hv'
    rw [agree h hu hu' hf a b ha hb, hv'] at hv
    exact (Option.some.inj hv).symm
  | .ifThen hc ht, hu, hu' => by
    simp only [kind]; simp only [unseenKind, Bool.or_eq_false_iff] at hu hu'
    exact choose_same (agree hc hu.1 hu'.1) (agree ht hu.2 hu'.2) (.same rfl)
  | .ifElse hc ht he, hu, hu' => by
    simp only [kind]; simp only [unseenKind, Bool.or_eq_false_iff] at hu hu'
    exact choose_same (agree hc hu.1.1 hu'.1.1) (agree ht hu.1.2 hu'.1.2) (agree he hu.2 hu'.2)
  | .bin op ty hl hr, hu, hu' => by
    simp only [kind]; simp only [unseenKind, Bool.or_eq_false_iff] at hu hu'
    exact both_same (agree hl hu.1 hu'.1) (agree hr hu.2 hu'.2)
  | .call fc f, _, _ => by
    simp only [kind]; exact .same rfl
  | .callMacro h _, hu, _ => by
    simp [unseenKind, h] at hu
  | .idx ha hi, hu, hu' => by
    simp only [kind]; simp only [unseenKind, Bool.or_eq_false_iff] at hu hu'
    intro hf v v' hv hv'
    simp only [Bool.or_eq_false_iff] at hf
    exact index_same (agree ha hu.1 hu'.1 hf.1) (agree hi hu.2 hu'.2 hf.2) hv hv'
  | .ref h, hu, hu' => by
    simp only [kind]; simp only [unseenKind] at hu hu'; exact (agree h hu hu').map
  | .field fc plain f h, hu, hu' => by
    simp only [kind]; simp only [unseenKind] at hu hu'
    cases plain with
    | true => exact fieldOf_same (agree h hu hu')
    | false => intro _ v v' hv; cases hv
  | .fieldMacro (plain := plain) hf _ h, hu, hu' => by
    simp only [kind]
    cases plain with
    | true => exact .flag (fieldOf_flag hf)
    | false => intro _ v v' hv; cases hv
  | .other, _, _ => by
    simp only [kind]; exact .same rfl
theorem agreeElems {lib : Lib} {w w' : World} {es es' : Elems} : AgreeElems 0 es es' → unseenElems 0 es = false →
    unseenElems 0 es' = false → Same (multi lib w 0 es) (multi lib w' 0 es')
  | .nil, _, _ => by simp only [multi]; exact .same rfl
  | .cons cfg h hs, hu, hu' => by
    simp only [unseenElems, Bool.or_eq_false_iff] at hu hu'
    have h1 := agree (lib := lib) (w := w) (w' := w') h hu.1.2 hu'.1.2
    have h2 := agreeElems (lib := lib) (w := w) (w' := w') hs hu.2 hu'.2
    intro hf v v' hv hv'
    simp only [multi] at hf hv hv'
    split at hv
    next a ha =>
      simp only [ha, Bool.or_eq_false_iff] at hf
      split at hv'
      next b hb =>
        obtain ⟨x, hx, rfl⟩ := Option.map_eq_some_iff.1 hv
        obtain ⟨y, hy, rfl⟩ := Option.map_eq_some_iff.1 hv'
        rw [h1 hf.1 _ _ ha hb, h2 hf.2 _ _ hx hy]
      next => cases hv'
    next => cases hv
  | .left _, hu, _ => by simp [unseenElems] at hu
  | .right _, _, hu => by simp [unseenElems] at hu
end

theorem evalLocal_some {lib : Lib} {w : World} {c : Ctxt} {e : Ex} {v : Const} (h : evalLocal lib w c e = some v) :
    (expr lib w c e).2 = false ∧ (expr lib w c e).1 = some v := by
  simp only [evalLocal] at h
  split at h
  · cases h
  next hf => exact ⟨by simpa using hf, h⟩

/-- If an expression in a file has a local value, then no program with the same expression gives it another value:
whatever the definitions of constants, the results of macros and the hidden code.  Partial: lengths of `[x; N]`,
elements with attributes and functions named by macros are left out. -/
theorem local_same_partial {lib : Lib} {w w' : World} {e e' : Ex} {v v' : Const} (h : Agree 0 e e')
    (hu : unseen 0 e = false) (hu' : unseen 0 e' = false) (hv : evalLocal lib w 0 e = some v)
    (hv' : eval lib w' 0 e' = some v') : v' = v :=
  ((agree h hu hu') (evalLocal_some hv).1 v v' (evalLocal_some hv).2 hv').symm

mutual
theorem own {lib : Lib} {w : World} {c : Ctxt} {e : Ex} : Own c lib.known e → (expr lib w c e).2 = false
  | .mk h => by simp [expr, mark, ownKind h]
theorem ownKind {lib : Lib} {w : World} {c : Ctxt} {k : Kind} : OwnKind c lib.known k → (kind lib w c k).2 = false
  | .constBlock h => by simp only [kind]; exact own h
  | .temps h => by simp only [kind]; exact own h
  | .path (segs := segs) hs hk => by
    have : segs.all (· == c) = true := by
      rw [List.all_eq_true]; intro s h; simpa using hs s h
    simp [kind, fetch, hk, this]
  | .block (stmts := stmts) ht h => by
    cases stmts with
    | true => simp [kind]
    | false => simp [kind, mark, hides_nothing ht, own h]
  | .unitBlock => by simp [kind]
  | .lit v => by simp [kind]
  | .arr h => by simp only [kind]; exact ownElems h
  | .tup h => by simp only [kind]; exact ownElems h
  | .rep n h => by simp only [kind, length]; exact own h
  | .un op ty h => by simp only [kind]; exact own h
  | .ifThen hc ht => by
    simp only [kind, choose]
    split <;> simp [mark, own (w := w) hc, own (w := w) ht]
  | .ifElse hc ht he => by
    simp only [kind, choose]
    split <;> simp [mark, own (w := w) hc, own (w := w) ht, own (w := w) he]
  | .bin op ty hl hr => by
    simp only [kind, both]
    split <;> simp [own (w := w) hl, own (w := w) hr]
  | .call f => by simp [kind]
  | .idx ha hi => by simp [kind, own (w := w) ha, own (w := w) hi]
  | .ref h => by simp only [kind]; exact own h
  | .field plain f h => by
    cases plain with
    | true =>
      simp only [kind, if_true, fieldOf]
      split
      · split <;> simp [own (w := w) h]
      · simp [own (w := w) h]
    | false => simp [kind]
  | .other => by simp [kind]
theorem ownElems {lib : Lib} {w : World} {c : Ctxt} {es : Elems} : OwnElems c lib.known es → (multi lib w c es).2 = false
  | .nil => by simp [multi]
  | .cons cfg h hs => by
    simp only [multi]
    split <;> simp [own (w := w) h, ownElems (w := w) hs]
end

/-- An expression of numbers, operators and constants of the standard library, all written in one place, is local. -/
theorem own_local {lib : Lib} {w : World} {c : Ctxt} {e : Ex} (h : Own c lib.known e) :
    evalLocal lib w c e = eval lib w c e := by
  simp [evalLocal, eval, own (w := w) h]

/-- A number taken out of an array is the element at the index: the constant index, or any index.  Partial: the
index is a number (not a range) and fits into 64 bits. -/
theorem index_right_partial {lib : Lib} {cs : List Const} {i : Option Const} {n : Nat} {v x : Const}
    (h : index lib (some (.vec cs)) i = some v) (hi : ∀ m, i = some (.int m) → m = n) (hn : n < 2 ^ 64)
    (hx : cs[n]? = some x) : v = x := by
  obtain ⟨cs', he, h⟩ := index_cases h
  injection he with he
  injection he with he
  subst he
  rcases h with ⟨m, rfl, hm⟩ | ⟨_, hv⟩
  · rw [hi m rfl, Nat.mod_eq_of_lt hn, hx] at hm
    exact (Option.some.inj hm).symm
  · exact (anyIndex_all hv (List.mem_of_getElem? hx)).symm

end Verif.Local
