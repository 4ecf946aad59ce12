import Verif.Guard.Model
import Verif.Guard.Spec

/-!
# Turning a guard into a pattern keeps which arm runs
-/

namespace Verif.Guard

section Env

theorem look_append (y : Id) : ∀ (a b : Env), look y (a ++ b) = (look y a).or (look y b)
  | [], b => by simp [look]
  | (z, v) :: a, b => by
    simp only [List.cons_append, look]
    by_cases h : z = y
    · rw [if_pos h, if_pos h]
      rfl
    · rw [if_neg h, if_neg h]
      exact look_append y a b

/-- The variable has no value here. -/
abbrev Fresh (x : Id) (bs : Env) : Prop := look x bs = none

theorem fresh_append {x : Id} {a b : Env} (ha : Fresh x a) (hb : Fresh x b) : Fresh x (a ++ b) := by
  show look x (a ++ b) = none
  rw [look_append, ha, hb]
  rfl

end Env

section Dom

mutual
theorem pm_fresh {x : Id} : ∀ {p : Pat} {v : Val} {bs : Env}, pm p v = some bs → x ∉ vars p → Fresh x bs
  | .wild, v, bs, h, hx => by
    simp only [pm, Option.some.injEq] at h
    rw [← h]
    rfl
  | .bind r y, v, bs, h, hx => by
    simp only [pm, Option.some.injEq] at h
    simp only [vars, List.mem_singleton] at hx
    rw [← h]
    show (if y = x then _ else _) = _
    rw [if_neg (fun e => hx e.symm)]
    rfl
  | .bindAt r y p, v, bs, h, hx => by
    simp only [pm, Option.map_eq_some_iff] at h
    simp only [vars, List.mem_cons, not_or] at hx
    obtain ⟨cs, hc, rfl⟩ := h
    show (if y = x then _ else _) = _
    rw [if_neg (fun e => hx.1 e.symm)]
    exact pm_fresh hc hx.2
  | .lit n, v, bs, h, hx => by
    cases v <;> simp only [pm] at h
    · split at h
      · cases h; rfl
      · cases h
    all_goals cases h
  | .con c ps, v, bs, h, hx => by
    cases v <;> simp only [pm] at h
    case con d vs =>
      split at h
      · exact pmAll_fresh h (by simpa only [vars] using hx)
      · cases h
    all_goals cases h
  | .strct c fs, v, bs, h, hx => by
    cases v <;> simp only [pm] at h
    case strct d vs =>
      split at h
      · exact pmFields_fresh h (by simpa only [vars] using hx)
      · cases h
    all_goals cases h
  | .ref p, v, bs, h, hx => by
    simp only [pm] at h
    exact pm_fresh h (by simpa only [vars] using hx)
  | .or ps, v, bs, h, hx => by
    simp only [pm] at h
    exact pmOr_fresh h (by simpa only [vars] using hx)
  | .slice ps, v, bs, h, hx => by
    cases v <;> simp only [pm] at h
    case slice vs =>
      split at h
      · exact pmAll_fresh h (by simpa only [vars] using hx)
      · cases h
    all_goals cases h
  | .front ps, v, bs, h, hx => by
    cases v <;> simp only [pm] at h
    case slice vs => exact pmAll_fresh h (by simpa only [vars] using hx)
    all_goals cases h
  | .back ps, v, bs, h, hx => by
    cases v <;> simp only [pm] at h
    case slice vs =>
      split at h
      · exact pmAll_fresh h (by simpa only [vars] using hx)
      · cases h
    all_goals cases h
theorem pmAll_fresh {x : Id} : ∀ {ps : Pats} {vs : Vals} {bs : Env}, pmAll ps vs = some bs → x ∉ varsAll ps → Fresh x bs
  | .nil, vs, bs, h, hx => by
    simp only [pmAll, Option.some.injEq] at h
    rw [← h]
    rfl
  | .cons p ps, vs, bs, h, hx => by
    cases vs with
    | nil => simp [pmAll] at h
    | cons v vs =>
      simp only [pmAll, Option.bind_eq_some_iff, Option.map_eq_some_iff] at h
      simp only [varsAll, List.mem_append, not_or] at hx
      obtain ⟨as, ha, cs, hc, rfl⟩ := h
      exact fresh_append (pm_fresh ha hx.1) (pmAll_fresh hc hx.2)
theorem pmOr_fresh {x : Id} : ∀ {ps : Pats} {v : Val} {bs : Env}, pmOr ps v = some bs → x ∉ varsAll ps → Fresh x bs
  | .nil, v, bs, h, hx => by simp [pmOr] at h
  | .cons p ps, v, bs, h, hx => by
    simp only [varsAll, List.mem_append, not_or] at hx
    simp only [pmOr] at h
    cases hp : pm p v with
    | some cs =>
      rw [hp] at h
      cases h
      exact pm_fresh hp hx.1
    | none =>
      rw [hp] at h
      exact pmOr_fresh h hx.2
theorem pmFields_fresh {x : Id} : ∀ {fs : Fields} {vs : FVals} {bs : Env}, pmFields fs vs = some bs →
    x ∉ varsFields fs → Fresh x bs
  | .nil, vs, bs, h, hx => by
    simp only [pmFields, Option.some.injEq] at h
    rw [← h]
    rfl
  | .short r y fs, vs, bs, h, hx => by
    simp only [pmFields, Option.bind_eq_some_iff, Option.map_eq_some_iff] at h
    simp only [varsFields, List.mem_cons, not_or] at hx
    obtain ⟨v, -, cs, hc, rfl⟩ := h
    show (if y = x then _ else _) = _
    rw [if_neg (fun e => hx.1 e.symm)]
    exact pmFields_fresh hc hx.2
  | .named f p fs, vs, bs, h, hx => by
    simp only [pmFields, Option.bind_eq_some_iff, Option.map_eq_some_iff] at h
    simp only [varsFields, List.mem_append, not_or] at hx
    obtain ⟨v, -, as, ha, cs, hc, rfl⟩ := h
    exact fresh_append (pm_fresh ha hx.1) (pmFields_fresh hc hx.2)
end

theorem bound_left {x : Id} {a b : Env} (h : look x a ≠ none) : look x (a ++ b) ≠ none := by
  rw [look_append]
  cases hl : look x a with
  | none => exact absurd hl h
  | some v => exact (fun h => nomatch h)

theorem bound_right {x : Id} {a b : Env} (h : look x b ≠ none) : look x (a ++ b) ≠ none := by
  rw [look_append]
  cases hl : look x a with
  | none => exact h
  | some v => exact (fun h => nomatch h)

theorem bound_cons {x y : Id} {v : Val} {b : Env} (h : x = y ∨ look x b ≠ none) : look x ((y, v) :: b) ≠ none := by
  show (if y = x then _ else _) ≠ _
  by_cases hy : y = x
  · rw [if_pos hy]
    exact (fun h => nomatch h)
  · rw [if_neg hy]
    exact h.resolve_left (fun e => hy e.symm)

mutual
theorem pm_bound {x : Id} : ∀ {p : Pat} {v : Val} {bs : Env}, WfPat p → pm p v = some bs → x ∈ vars p →
    look x bs ≠ none
  | .wild, v, bs, _, h, hx => by simp [vars] at hx
  | .bind r y, v, bs, _, h, hx => by
    simp only [pm, Option.some.injEq] at h
    simp only [vars, List.mem_singleton] at hx
    rw [← h]
    exact bound_cons (.inl hx)
  | .bindAt r y p, v, bs, hw, h, hx => by
    cases hw with
    | bindAt hw =>
    simp only [pm, Option.map_eq_some_iff] at h
    simp only [vars, List.mem_cons] at hx
    obtain ⟨cs, hc, rfl⟩ := h
    exact bound_cons (hx.imp id (pm_bound hw hc))
  | .lit n, v, bs, _, h, hx => by simp [vars] at hx
  | .con c ps, v, bs, hw, h, hx => by
    cases hw with
    | con hw =>
    cases v <;> simp only [pm] at h
    case con d vs =>
      split at h
      · exact pmAll_bound hw h (by simpa only [vars] using hx)
      · cases h
    all_goals cases h
  | .strct c fs, v, bs, hw, h, hx => by
    cases hw with
    | strct hw =>
    cases v <;> simp only [pm] at h
    case strct d vs =>
      split at h
      · exact pmFields_bound hw h (by simpa only [vars] using hx)
      · cases h
    all_goals cases h
  | .ref p, v, bs, hw, h, hx => by
    cases hw with
    | ref hw =>
    simp only [pm] at h
    exact pm_bound hw h (by simpa only [vars] using hx)
  | .or ps, v, bs, hw, h, hx => by
    cases hw with
    | or hw hl ha =>
    simp only [pm] at h
    exact pmOr_bound hw h (ha x (by simpa only [vars] using hx))
  | .slice ps, v, bs, hw, h, hx => by
    cases hw with
    | slice hw =>
    cases v <;> simp only [pm] at h
    case slice vs =>
      split at h
      · exact pmAll_bound hw h (by simpa only [vars] using hx)
      · cases h
    all_goals cases h
  | .front ps, v, bs, hw, h, hx => by
    cases hw with
    | front hw =>
    cases v <;> simp only [pm] at h
    case slice vs => exact pmAll_bound hw h (by simpa only [vars] using hx)
    all_goals cases h
  | .back ps, v, bs, hw, h, hx => by
    cases hw with
    | back hw =>
    cases v <;> simp only [pm] at h
    case slice vs =>
      split at h
      · exact pmAll_bound hw h (by simpa only [vars] using hx)
      · cases h
    all_goals cases h
theorem pmAll_bound {x : Id} : ∀ {ps : Pats} {vs : Vals} {bs : Env}, WfPats ps → pmAll ps vs = some bs →
    x ∈ varsAll ps → look x bs ≠ none
  | .nil, vs, bs, _, h, hx => by simp [varsAll] at hx
  | .cons p ps, vs, bs, hw, h, hx => by
    cases hw with
    | cons hw hws =>
    cases vs with
    | nil => simp [pmAll] at h
    | cons v vs =>
      simp only [pmAll, Option.bind_eq_some_iff, Option.map_eq_some_iff] at h
      simp only [varsAll, List.mem_append] at hx
      obtain ⟨as, ha, cs, hc, rfl⟩ := h
      rcases hx with hx | hx
      · exact bound_left (pm_bound hw ha hx)
      · exact bound_right (pmAll_bound hws hc hx)
theorem pmOr_bound {x : Id} : ∀ {ps : Pats} {v : Val} {bs : Env}, WfPats ps → pmOr ps v = some bs → AllBind x ps →
    look x bs ≠ none
  | .nil, v, bs, _, h, hx => by simp [pmOr] at h
  | .cons p ps, v, bs, hw, h, hx => by
    cases hw with
    | cons hw hws =>
    cases hx with
    | cons hx hxs =>
    simp only [pmOr] at h
    cases hp : pm p v with
    | some cs =>
      rw [hp] at h
      cases h
      exact pm_bound hw hp hx
    | none =>
      rw [hp] at h
      exact pmOr_bound hws h hxs
theorem pmFields_bound {x : Id} : ∀ {fs : Fields} {vs : FVals} {bs : Env}, WfFields fs → pmFields fs vs = some bs →
    x ∈ varsFields fs → look x bs ≠ none
  | .nil, vs, bs, _, h, hx => by simp [varsFields] at hx
  | .short r y fs, vs, bs, hw, h, hx => by
    cases hw with
    | short hw =>
    simp only [pmFields, Option.bind_eq_some_iff, Option.map_eq_some_iff] at h
    simp only [varsFields, List.mem_cons] at hx
    obtain ⟨v, -, cs, hc, rfl⟩ := h
    exact bound_cons (hx.imp id (pmFields_bound hw hc))
  | .named f p fs, vs, bs, hw, h, hx => by
    cases hw with
    | named hw hws =>
    simp only [pmFields, Option.bind_eq_some_iff, Option.map_eq_some_iff] at h
    simp only [varsFields, List.mem_append] at hx
    obtain ⟨v, -, as, ha, cs, hc, rfl⟩ := h
    rcases hx with hx | hx
    · exact bound_left (pm_bound hw ha hx)
    · exact bound_right (pmFields_bound hws hc hx)
end

mutual
theorem found_nil {x : Id} : ∀ {p : Pat}, found x p = [] → x ∉ vars p
  | .wild, _ => by simp [vars]
  | .bind r y, h => by
    simp only [found] at h
    simp only [vars, List.mem_singleton]
    intro he
    rw [if_pos he.symm] at h
    cases h
  | .bindAt r y p, h => by
    simp only [found] at h
    simp only [vars, List.mem_cons, not_or]
    by_cases hy : y = x
    · rw [if_pos hy] at h
      cases h
    · rw [if_neg hy] at h
      exact ⟨fun e => hy e.symm, found_nil h⟩
  | .lit _, _ => by simp [vars]
  | .con _ ps, h => by simp only [found] at h; simpa only [vars] using foundAll_nil h
  | .strct _ fs, h => by simp only [found] at h; simpa only [vars] using foundFields_nil h
  | .ref p, h => by simp only [found] at h; simpa only [vars] using found_nil h
  | .or ps, h => by simp only [found] at h; simpa only [vars] using foundAll_nil h
  | .slice ps, h => by simp only [found] at h; simpa only [vars] using foundAll_nil h
  | .front ps, h => by simp only [found] at h; simpa only [vars] using foundAll_nil h
  | .back ps, h => by simp only [found] at h; simpa only [vars] using foundAll_nil h
theorem foundAll_nil {x : Id} : ∀ {ps : Pats}, foundAll x ps = [] → x ∉ varsAll ps
  | .nil, _ => by simp [varsAll]
  | .cons p ps, h => by
    simp only [foundAll, List.append_eq_nil_iff] at h
    simp only [varsAll, List.mem_append, not_or]
    exact ⟨found_nil h.1, foundAll_nil h.2⟩
theorem foundFields_nil {x : Id} : ∀ {fs : Fields}, foundFields x fs = [] → x ∉ varsFields fs
  | .nil, _ => by simp [varsFields]
  | .short r y fs, h => by
    simp only [foundFields] at h
    simp only [varsFields, List.mem_cons, not_or]
    by_cases hy : y = x
    · rw [if_pos hy] at h
      cases h
    · rw [if_neg hy] at h
      exact ⟨fun e => hy e.symm, foundFields_nil h⟩
  | .named f p fs, h => by
    simp only [foundFields, List.append_eq_nil_iff] at h
    simp only [varsFields, List.mem_append, not_or]
    exact ⟨found_nil h.1, foundFields_nil h.2⟩
end

mutual
theorem vars_found {x : Id} : ∀ {p : Pat}, x ∉ vars p → found x p = []
  | .wild, _ => rfl
  | .bind r y, h => by
    simp only [vars, List.mem_singleton] at h
    simp only [found]
    rw [if_neg (fun e => h e.symm)]
  | .bindAt r y p, h => by
    simp only [vars, List.mem_cons, not_or] at h
    simp only [found]
    rw [if_neg (fun e => h.1 e.symm)]
    exact vars_found h.2
  | .lit _, _ => rfl
  | .con _ ps, h => by simp only [vars] at h; simpa only [found] using varsAll_found h
  | .strct _ fs, h => by simp only [vars] at h; simpa only [found] using varsFields_found h
  | .ref p, h => by simp only [vars] at h; simpa only [found] using vars_found h
  | .or ps, h => by simp only [vars] at h; simpa only [found] using varsAll_found h
  | .slice ps, h => by simp only [vars] at h; simpa only [found] using varsAll_found h
  | .front ps, h => by simp only [vars] at h; simpa only [found] using varsAll_found h
  | .back ps, h => by simp only [vars] at h; simpa only [found] using varsAll_found h
theorem varsAll_found {x : Id} : ∀ {ps : Pats}, x ∉ varsAll ps → foundAll x ps = []
  | .nil, _ => rfl
  | .cons p ps, h => by
    simp only [varsAll, List.mem_append, not_or] at h
    simp only [foundAll, List.append_eq_nil_iff]
    exact ⟨vars_found h.1, varsAll_found h.2⟩
theorem varsFields_found {x : Id} : ∀ {fs : Fields}, x ∉ varsFields fs → foundFields x fs = []
  | .nil, _ => rfl
  | .short r y fs, h => by
    simp only [varsFields, List.mem_cons, not_or] at h
    simp only [foundFields]
    rw [if_neg (fun e => h.1 e.symm)]
    exact varsFields_found h.2
  | .named f p fs, h => by
    simp only [varsFields, List.mem_append, not_or] at h
    simp only [foundFields, List.append_eq_nil_iff]
    exact ⟨vars_found h.1, varsFields_found h.2⟩
end

end Dom

section Edit

variable {x : Id} {q : Pat}

theorem bindsAll_found : ∀ {p : Pat}, bindsAll x p = true → found x p ≠ []
  | .bind r y, h => by
    simp only [bindsAll, beq_iff_eq] at h
    simp [found, h]
  | .bindAt r y p, h => by
    simp only [bindsAll, beq_iff_eq] at h
    simp [found, h]
  | .wild, h => by cases h
  | .lit _, h => by cases h
  | .con _ _, h => by cases h
  | .strct _ _, h => by cases h
  | .ref _, h => by cases h
  | .or _, h => by cases h
  | .slice _, h => by cases h
  | .front _, h => by cases h
  | .back _, h => by cases h

mutual
theorem edit_id : ∀ {p : Pat}, found x p = [] → edit x q p = some p
  | .wild, _ => rfl
  | .bind r y, h => by
    simp only [found] at h
    simp only [edit]
    split at h
    · cases h
    · next hy => rw [if_neg hy]
  | .bindAt r y p, h => by
    simp only [found] at h
    simp only [edit]
    split at h
    · cases h
    · next hy => rw [if_neg hy, edit_id h]; rfl
  | .lit _, _ => rfl
  | .con _ ps, h => by simp only [found] at h; simp only [edit, editAll_id h, Option.map_some]
  | .strct _ fs, h => by simp only [found] at h; simp only [edit, editFields_id h, Option.map_some]
  | .ref p, h => by simp only [found] at h; simp only [edit, edit_id h, Option.map_some]
  | .or ps, h => by simp only [found] at h; simp only [edit, editAll_id h, Option.map_some]
  | .slice ps, h => by simp only [found] at h; simp only [edit, editAll_id h, Option.map_some]
  | .front ps, h => by simp only [found] at h; simp only [edit, editAll_id h, Option.map_some]
  | .back ps, h => by simp only [found] at h; simp only [edit, editAll_id h, Option.map_some]
theorem editAll_id : ∀ {ps : Pats}, foundAll x ps = [] → editAll x q ps = some ps
  | .nil, _ => rfl
  | .cons p ps, h => by
    simp only [foundAll, List.append_eq_nil_iff] at h
    simp only [editAll, edit_id h.1, editAll_id h.2, Option.map_some, Option.bind_some]
theorem editFields_id : ∀ {fs : Fields}, foundFields x fs = [] → editFields x q fs = some fs
  | .nil, _ => rfl
  | .short r y fs, h => by
    simp only [foundFields] at h
    simp only [editFields]
    split at h
    · cases h
    · next hy => rw [if_neg hy, editFields_id h]; rfl
  | .named f p fs, h => by
    simp only [foundFields, List.append_eq_nil_iff] at h
    have hb : ¬ bindsAll x p = true := fun hb => bindsAll_found hb h.1
    simp only [editFields]
    rw [if_neg hb, edit_id h.1, editFields_id h.2]
    rfl
end

theorem editAll_len : ∀ {ps ps' : Pats}, editAll x q ps = some ps' → ps'.len = ps.len
  | .nil, _, h => by
    simp only [editAll, Option.some.injEq] at h
    rw [← h]
  | .cons p ps, _, h => by
    simp only [editAll, Option.bind_eq_some_iff, Option.map_eq_some_iff] at h
    obtain ⟨p', -, ps', hps, rfl⟩ := h
    simp only [Pats.len, editAll_len hps]

/-- What becomes of the variables: the tested one is replaced by those of the new pattern. -/
def Spl (x : Id) (q : Pat) : Option Env → Option Env → Prop
  | none, o' => o' = none
  | some bs, o' => ∃ pre w post, bs = pre ++ (x, w) :: post ∧ Fresh x pre ∧ Fresh x post ∧
      o' = (pm q w).map fun cs => pre ++ (cs ++ post)

theorem spl_left {o o' s : Option Env} (h : Spl x q o o') (hs : ∀ cs, s = some cs → Fresh x cs) :
    Spl x q (o.bind fun bs => s.map (bs ++ ·)) (o'.bind fun bs => s.map (bs ++ ·)) := by
  cases o with
  | none =>
    rw [show o' = none from h]
    rfl
  | some bs =>
    obtain ⟨pre, w, post, rfl, h1, h2, rfl⟩ := h
    cases s with
    | none =>
      show Option.bind _ _ = none
      cases pm q w <;> rfl
    | some cs =>
      refine ⟨pre, w, post ++ cs, by simp, h1, fresh_append h2 (hs cs rfl), ?_⟩
      cases pm q w with
      | none => rfl
      | some ds => simp

theorem spl_right {o s s' : Option Env} (h : Spl x q s s') (ho : ∀ cs, o = some cs → Fresh x cs) :
    Spl x q (o.bind fun bs => s.map (bs ++ ·)) (o.bind fun bs => s'.map (bs ++ ·)) := by
  cases o with
  | none => rfl
  | some bs =>
    cases s with
    | none =>
      rw [show s' = none from h]
      rfl
    | some cs =>
      obtain ⟨pre, w, post, rfl, h1, h2, rfl⟩ := h
      refine ⟨bs ++ pre, w, post, by simp, fresh_append (ho bs rfl) h1, h2, ?_⟩
      cases pm q w with
      | none => rfl
      | some ds => simp

theorem spl_cons {y : Id} {u : Val} {s s' : Option Env} (hy : y ≠ x) (h : Spl x q s s') :
    Spl x q (s.map ((y, u) :: ·)) (s'.map ((y, u) :: ·)) := by
  have := spl_right (o := some [(y, u)]) h fun cs hc => by
    cases hc
    show (if y = x then _ else _) = _
    rw [if_neg hy]
    rfl
  simpa using this

theorem append_single {a b : List Bool} {r : Bool} (h : a ++ b = [r]) : (a = [r] ∧ b = []) ∨ (a = [] ∧ b = [r]) := by
  cases a with
  | nil => exact .inr ⟨rfl, h⟩
  | cons t a =>
    simp only [List.cons_append, List.cons.injEq, List.append_eq_nil_iff] at h
    exact .inl ⟨by rw [h.1, h.2.1], h.2.2⟩

theorem allBind_len : ∀ {ps : Pats}, AllBind x ps → ps.len ≤ (foundAll x ps).length
  | .nil, _ => Nat.le_refl _
  | .cons p ps, h => by
    cases h with
    | cons h hs =>
      simp only [Pats.len, foundAll, List.length_append]
      have h1 := allBind_len hs
      have h2 : found x p ≠ [] := fun he => found_nil he h
      have h3 : 0 < (found x p).length := List.length_pos_iff.mpr h2
      omega

theorem fresh_of {p : Pat} (h : found x p = []) : ∀ v cs, pm p v = some cs → Fresh x cs :=
  fun _ _ hc => pm_fresh hc (found_nil h)

mutual
theorem spl : ∀ {p p' : Pat} {r : Bool}, WfPat p → NoAt x p → found x p = [r] → edit x q p = some p' →
    ∀ v, Spl x q (pm p v) (pm p' v)
  | .wild, _, _, _, _, hf, _ => by cases hf
  | .bind b y, p', r, _, _, hf, he => by
    intro v
    simp only [found] at hf
    simp only [edit] at he
    by_cases hy : y = x
    · rw [if_pos hy] at he
      cases he
      refine ⟨[], v, [], by rw [← hy]; rfl, rfl, rfl, ?_⟩
      cases pm q v <;> simp
    · rw [if_neg hy] at hf
      cases hf
  | .bindAt b y p, p', r, hw, hn, hf, he => by
    intro v
    cases hw with
    | bindAt hw =>
    cases hn with
    | bindAt hy hn =>
    simp only [found] at hf
    simp only [edit] at he
    rw [if_neg hy] at hf he
    simp only [Option.map_eq_some_iff] at he
    obtain ⟨p1, he, rfl⟩ := he
    simp only [pm]
    exact spl_cons hy (spl hw hn hf he v)
  | .lit _, _, _, _, _, hf, _ => by cases hf
  | .con c ps, p', r, hw, hn, hf, he => by
    intro v
    cases hw with
    | con hw =>
    cases hn with
    | con hn =>
    simp only [found] at hf
    simp only [edit, Option.map_eq_some_iff] at he
    obtain ⟨ps', he, rfl⟩ := he
    have hl := editAll_len he
    cases v with
    | con d vs =>
      simp only [pm, hl]
      by_cases hc : d = c ∧ ps.len = vs.len
      · rw [if_pos hc, if_pos hc]
        exact splAll hw hn hf he vs
      · rw [if_neg hc, if_neg hc]
        rfl
    | _ => rfl
  | .strct c fs, p', r, hw, hn, hf, he => by
    intro v
    cases hw with
    | strct hw =>
    cases hn with
    | strct hn =>
    simp only [found] at hf
    simp only [edit, Option.map_eq_some_iff] at he
    obtain ⟨fs', he, rfl⟩ := he
    cases v with
    | strct d vs =>
      simp only [pm]
      by_cases hc : d = c
      · rw [if_pos hc, if_pos hc]
        exact splFields hw hn hf he vs
      · rw [if_neg hc, if_neg hc]
        rfl
    | _ => rfl
  | .ref p, p', r, hw, hn, hf, he => by
    intro v
    cases hw with
    | ref hw =>
    cases hn with
    | ref hn =>
    simp only [found] at hf
    simp only [edit, Option.map_eq_some_iff] at he
    obtain ⟨p1, he, rfl⟩ := he
    simp only [pm]
    exact spl hw hn hf he v
  | .or ps, p', r, hw, hn, hf, he => by
    cases hw with
    | or hw hl hx =>
    simp only [found] at hf
    have hm : x ∈ varsAll ps := by
      refine Classical.byContradiction fun hm => ?_
      rw [varsAll_found hm] at hf
      cases hf
    have := allBind_len (hx x hm)
    rw [hf] at this
    simp only [List.length_cons, List.length_nil] at this
    omega
  | .slice ps, p', r, hw, hn, hf, he => by
    intro v
    cases hw with
    | slice hw =>
    cases hn with
    | slice hn =>
    simp only [found] at hf
    simp only [edit, Option.map_eq_some_iff] at he
    obtain ⟨ps', he, rfl⟩ := he
    have hl := editAll_len he
    cases v with
    | slice vs =>
      simp only [pm, hl]
      by_cases hc : ps.len = vs.len
      · rw [if_pos hc, if_pos hc]
        exact splAll hw hn hf he vs
      · rw [if_neg hc, if_neg hc]
        rfl
    | _ => rfl
  | .front ps, p', r, hw, hn, hf, he => by
    intro v
    cases hw with
    | front hw =>
    cases hn with
    | front hn =>
    simp only [found] at hf
    simp only [edit, Option.map_eq_some_iff] at he
    obtain ⟨ps', he, rfl⟩ := he
    cases v with
    | slice vs =>
      simp only [pm]
      exact splAll hw hn hf he vs
    | _ => rfl
  | .back ps, p', r, hw, hn, hf, he => by
    intro v
    cases hw with
    | back hw =>
    cases hn with
    | back hn =>
    simp only [found] at hf
    simp only [edit, Option.map_eq_some_iff] at he
    obtain ⟨ps', he, rfl⟩ := he
    have hl := editAll_len he
    cases v with
    | slice vs =>
      simp only [pm, hl]
      by_cases hc : ps.len ≤ vs.len
      · rw [if_pos hc, if_pos hc]
        exact splAll hw hn hf he _
      · rw [if_neg hc, if_neg hc]
        rfl
    | _ => rfl
theorem splAll : ∀ {ps ps' : Pats} {r : Bool}, WfPats ps → NoAts x ps → foundAll x ps = [r] →
    editAll x q ps = some ps' → ∀ vs, Spl x q (pmAll ps vs) (pmAll ps' vs)
  | .nil, _, _, _, _, hf, _ => by cases hf
  | .cons p ps, ps', r, hw, hn, hf, he => by
    intro vs
    cases hw with
    | cons hw hws =>
    cases hn with
    | cons hn hns =>
    simp only [foundAll] at hf
    simp only [editAll, Option.bind_eq_some_iff, Option.map_eq_some_iff] at he
    obtain ⟨p1, he, ps1, hes, rfl⟩ := he
    cases vs with
    | nil => rfl
    | cons v vs =>
      simp only [pmAll]
      rcases append_single hf with ⟨h1, h2⟩ | ⟨h1, h2⟩
      · rw [editAll_id h2] at hes
        cases hes
        exact spl_left (spl hw hn h1 he v) fun cs hc => pmAll_fresh hc (foundAll_nil h2)
      · rw [edit_id h1] at he
        cases he
        exact spl_right (splAll hws hns h2 hes vs) fun cs hc => pm_fresh hc (found_nil h1)
theorem splFields : ∀ {fs fs' : Fields} {r : Bool}, WfFields fs → NoAtFields x fs → foundFields x fs = [r] →
    editFields x q fs = some fs' → ∀ vs, Spl x q (pmFields fs vs) (pmFields fs' vs)
  | .nil, _, _, _, _, hf, _ => by cases hf
  | .short b y fs, fs', r, hw, hn, hf, he => by
    intro vs
    cases hw with
    | short hw =>
    cases hn with
    | short hn =>
    simp only [foundFields] at hf
    simp only [editFields] at he
    by_cases hy : y = x
    · rw [if_pos hy] at hf he
      simp only [List.cons.injEq] at hf
      rw [editFields_id hf.2] at he
      cases he
      simp only [pmFields]
      cases vs.get y with
      | none => rfl
      | some v =>
        have h := spl_left (x := x) (q := q) (o := some [(x, v)]) (o' := pm q v) (s := pmFields fs vs)
          ⟨[], v, [], rfl, rfl, rfl, by cases pm q v <;> simp⟩ fun cs hc => pmFields_fresh hc (foundFields_nil hf.2)
        simpa [hy] using h
    · rw [if_neg hy] at hf he
      simp only [Option.map_eq_some_iff] at he
      obtain ⟨fs1, he, rfl⟩ := he
      simp only [pmFields]
      cases vs.get y with
      | none => rfl
      | some v =>
        simp only [Option.bind_some]
        exact spl_cons hy (splFields hw hn hf he vs)
  | .named f p fs, fs', r, hw, hn, hf, he => by
    intro vs
    cases hw with
    | named hw hws =>
    cases hn with
    | named hn hns =>
    simp only [foundFields] at hf
    simp only [editFields] at he
    split at he
    · cases he
    · simp only [Option.bind_eq_some_iff, Option.map_eq_some_iff] at he
      obtain ⟨p1, he, fs1, hes, rfl⟩ := he
      simp only [pmFields]
      cases vs.get f with
      | none => rfl
      | some v =>
        simp only [Option.bind_some]
        rcases append_single hf with ⟨h1, h2⟩ | ⟨h1, h2⟩
        · rw [editFields_id h2] at hes
          cases hes
          exact spl_left (spl hw hn h1 he v) fun cs hc => pmFields_fresh hc (foundFields_nil h2)
        · rw [edit_id h1] at he
          cases he
          exact spl_right (splFields hws hns h2 hes vs) fun cs hc => pm_fresh hc (found_nil h1)
end

end Edit

section ToPat

variable {S : Prog} {env : Env}

theorem take_all : ∀ vs : Vals, vs.take vs.len = vs
  | .nil => rfl
  | .cons v vs => by simp only [Vals.len, Vals.take, take_all vs]

theorem take_eq {vs : Vals} {n : Nat} (h : vs.len = n) : vs.take n = vs := by
  rw [← h, take_all]

theorem drop_len : ∀ (n : Nat) (vs : Vals), (vs.drop n).len = vs.len - n
  | 0, vs => rfl
  | n + 1, .nil => by simp [Vals.drop, Vals.len]
  | n + 1, .cons v vs => by
    simp only [Vals.drop, Vals.len, drop_len n vs]
    omega

theorem sameAll_len : ∀ {us vs : Vals}, sameAll vs us = true → vs.len = us.len
  | .nil, .nil, _ => rfl
  | .nil, .cons _ _, h => by simp [sameAll] at h
  | .cons _ _, .nil, h => by simp [sameAll] at h
  | .cons u us, .cons v vs, h => by
    simp only [sameAll, Bool.and_eq_true] at h
    simp only [Vals.len, sameAll_len h.2]

theorem toPats_len : ∀ {es : Exs} {ps : Pats}, toPats es = some ps → ps.len = (evAll S env es).len
  | .nil, ps, h => by
    simp only [toPats, Option.some.injEq] at h
    rw [← h]
    rfl
  | .cons e es, ps, h => by
    simp only [toPats, Option.bind_eq_some_iff, Option.map_eq_some_iff] at h
    obtain ⟨p, -, ps', h, rfl⟩ := h
    simp only [Pats.len, evAll, Vals.len, toPats_len h]

theorem sameAll_exact {us vs : Vals} :
    (if us.len = vs.len then (if us.len ≤ vs.len ∧ sameAll (vs.take us.len) us = true then some ([] : Env) else none)
      else none) = if sameAll vs us = true then some [] else none := by
  by_cases hl : us.len = vs.len
  · rw [if_pos hl, hl, take_all]
    simp
  · rw [if_neg hl, if_neg]
    exact fun h => hl (sameAll_len h).symm

mutual
theorem toPat_pm : ∀ {e : Ex} {p : Pat}, toPat e = some p → ∀ v,
    pm p v = if same v (ev S env e) = true then some [] else none
  | .loc _, p, h => by cases h
  | .lit n, p, h => by
    intro v
    simp only [toPat, Option.some.injEq] at h
    subst h
    cases v <;> simp [pm, same, ev]
  | .neg n, p, h => by
    intro v
    simp only [toPat, Option.some.injEq] at h
    subst h
    cases v <;> simp [pm, same, ev]
  | .con c es, p, h => by
    intro v
    simp only [toPat, Option.map_eq_some_iff] at h
    obtain ⟨ps, h, rfl⟩ := h
    have hl := toPats_len (S := S) (env := env) h
    cases v with
    | con d vs =>
      simp only [pm, same, ev, Bool.and_eq_true, beq_iff_eq, toPats_pm h vs, hl]
      have := sameAll_exact (us := evAll S env es) (vs := vs)
      by_cases hd : d = c
      · simp only [hd, true_and]
        exact this
      · simp [hd]
    | _ => simp [pm, same, ev]
  | .strct c fs, p, h => by
    intro v
    simp only [toPat, Option.map_eq_some_iff] at h
    obtain ⟨ps, h, rfl⟩ := h
    cases v with
    | strct d vs =>
      simp only [pm, same, ev, Bool.and_eq_true, beq_iff_eq, toFields_pm h vs]
      by_cases hd : d = c <;> simp [hd]
    | _ => simp [pm, same, ev]
  | .arr es, p, h => by
    intro v
    simp only [toPat, Option.map_eq_some_iff] at h
    obtain ⟨ps, h, rfl⟩ := h
    have hl := toPats_len (S := S) (env := env) h
    cases v with
    | slice vs =>
      simp only [pm, same, ev, toPats_pm h vs, hl]
      exact sameAll_exact
    | _ => simp [pm, same, ev]
  | .addr e, p, h => by
    intro v
    simp only [toPat, Option.map_eq_some_iff] at h
    obtain ⟨p, h, rfl⟩ := h
    simp only [pm, ev]
    exact toPat_pm h v
  | .other _ _, p, h => by cases h
theorem toPats_pm : ∀ {es : Exs} {ps : Pats}, toPats es = some ps → ∀ vs, pmAll ps vs =
    if (evAll S env es).len ≤ vs.len ∧ sameAll (vs.take (evAll S env es).len) (evAll S env es) = true
    then some [] else none
  | .nil, ps, h => by
    intro vs
    simp only [toPats, Option.some.injEq] at h
    subst h
    cases vs <;> simp [pmAll, evAll, Vals.len, Vals.take, sameAll]
  | .cons e es, ps, h => by
    intro vs
    simp only [toPats, Option.bind_eq_some_iff, Option.map_eq_some_iff] at h
    obtain ⟨p, hp, ps', h, rfl⟩ := h
    cases vs with
    | nil => simp [pmAll, evAll, Vals.len]
    | cons v vs =>
      simp only [pmAll, toPat_pm hp v, toPats_pm h vs, evAll, Vals.len,
        Vals.take, sameAll, Nat.add_le_add_iff_right, Bool.and_eq_true]
      by_cases h1 : same v (ev S env e) = true
      · simp only [h1, if_true, Option.bind_some, true_and]
        split <;> simp
      · simp [h1]
theorem toFields_pm : ∀ {es : EFields} {fs : Fields}, toFields es = some fs → ∀ vs, pmFields fs vs =
    if sameFields vs (evFields S env es) = true then some [] else none
  | .nil, fs, h => by
    intro vs
    simp only [toFields, Option.some.injEq] at h
    subst h
    simp [pmFields, evFields, sameFields]
  | .cons f e es, fs, h => by
    intro vs
    simp only [toFields, Option.bind_eq_some_iff, Option.map_eq_some_iff] at h
    obtain ⟨p, hp, fs', h, rfl⟩ := h
    simp only [pmFields, evFields, sameFields]
    cases vs.get f with
    | none => simp
    | some v =>
      simp only [Option.bind_some, toPat_pm hp v, toFields_pm h vs,
        Bool.and_eq_true]
      by_cases h1 : same v (ev S env e) = true
      · simp only [h1, if_true, Option.bind_some, true_and]
        split <;> simp
      · simp [h1]
end

end ToPat

section Arm

variable {S : Prog} {env : Env} {v : Val} {a : Arm}

theorem peel_pm {p q : Pat} {r : Bool} (h : peel p r = some q) (w : Val) : pm q w = pm p w := by
  cases p <;> cases r <;> simp only [peel, Option.some.injEq, reduceCtorEq] at h <;> subst h <;> rfl

theorem binding {e : Ex} {x : Id} {r : Bool} (h : patBinding e a = some (x, r)) :
    e = .loc x ∧ found x a.pat = [r] ∧ usedInBody x a = false := by
  cases e with
  | loc y =>
    simp only [patBinding] at h
    split at h
    · cases h
    · next hu =>
      split at h
      · next hf =>
        cases h
        exact ⟨rfl, hf, by simpa using hu⟩
      · cases h
  | _ => cases h


theorem look_swap {x y : Id} {w : Val} {cs pre post : Env} (h : y ≠ x ∨ look y cs ≠ none)
    (hd : look y cs ≠ none → look y pre = none) :
    look y (cs ++ ((pre ++ (x, w) :: post) ++ env)) = look y ((pre ++ (cs ++ post)) ++ env) := by
  cases hc : look y cs with
  | some u =>
    simp only [look_append, hc, hd (by rw [hc]; exact (fun h => nomatch h))]
    rfl
  | none =>
    have hy : ¬ x = y := fun e => h.elim (fun h => h e.symm) (fun h => h hc)
    simp only [look_append, hc, look, if_neg hy]
    cases look y pre <;> rfl

theorem look_drop {x y : Id} {w : Val} {cs pre post : Env} (h : y ≠ x) (hc : look y cs = none) :
    look y ((pre ++ (x, w) :: post) ++ env) = look y ((pre ++ (cs ++ post)) ++ env) := by
  have := look_swap (w := w) (pre := pre) (post := post) (env := env) (.inl h) (fun h => absurd hc h)
  rwa [look_append, hc] at this

theorem look_x {x : Id} {w : Val} {pre post : Env} (h : Fresh x pre) :
    look x ((pre ++ (x, w) :: post) ++ env) = some w := by
  simp only [look_append, show look x pre = none from h, look, if_true]
  rfl

theorem not_used {x : Id} (h : usedInBody x a = false) (hg : hides x a.guard = false) : x ∉ a.body.uses := by
  simp only [usedInBody, hg, Bool.not_false, Bool.and_true] at h
  exact fun hm => by simp [hm] at h

theorem plain {x : Id} {q p' : Pat} {g : Grd} (hg : a.guard = some g) (hs : Spl x q (pm a.pat v) (pm p' v))
    (hu : x ∉ a.body.uses)
    (hq : ∀ pre w post, pm a.pat v = some (pre ++ (x, w) :: post) → Fresh x pre →
      ∃ t : Bool, pm q w = (if t = true then some [] else none) ∧
        guard S ((pre ++ (x, w) :: post) ++ env) g = if t = true then some [] else none) :
    arm S env v a = arm S env v ⟨p', none, a.body⟩ := by
  cases hp : pm a.pat v with
  | none =>
    rw [hp] at hs
    simp only [arm, hp, show pm p' v = none from hs]
  | some bs =>
    rw [hp] at hs
    obtain ⟨pre, w, post, rfl, h1, h2, h3⟩ := hs
    obtain ⟨t, hq1, hq2⟩ := hq pre w post hp h1
    simp only [arm, hp, h3, hg, hq1, hq2]
    cases t with
    | false => rfl
    | true =>
      simp only [if_true, Option.map_some, List.nil_append, Option.some.injEq]
      congr 1
      apply List.map_congr_left
      intro y hy
      exact look_drop (cs := []) (fun e => hu (e ▸ hy)) rfl

theorem disjoint {x : Id} {p : Pat} {w : Val} {cs pre post : Env} (hp : pm a.pat v = some (pre ++ (x, w) :: post))
    (h1 : Fresh x pre) (hc : pm p w = some cs) (hd : ∀ y ∈ vars p, y ∈ vars a.pat → Ex.loc x = .loc y) (y : Id)
    (hy : look y cs ≠ none) : look y pre = none := by
  refine Classical.byContradiction fun hn => ?_
  have hm : y ∈ vars p := Classical.byContradiction fun hm => hy (pm_fresh hc hm)
  have hm' : y ∈ vars a.pat := Classical.byContradiction fun hm => bound_left hn (pm_fresh hp hm)
  cases hd y hm hm'
  exact hn h1

theorem matches_same {x : Id} {q p p' : Pat} {c : Option Code} (hg : a.guard = some (.matches (.loc x) p c))
    (hs : Spl x q (pm a.pat v) (pm p' v)) (hu : x ∉ a.body.uses) (hq : ∀ w, pm q w = pm p w)
    (hb : ∀ y ∈ vars p, y ∉ a.body.uses) (hd : ∀ y ∈ vars p, y ∈ vars a.pat → Ex.loc x = .loc y)
    (hc : ∀ z d, Ex.loc x = .loc z → c = some d → z ∉ d.uses) :
    arm S env v a = arm S env v ⟨p', c.map .other, a.body⟩ := by
  cases hp : pm a.pat v with
  | none =>
    rw [hp] at hs
    simp only [arm, hp, show pm p' v = none from hs]
  | some bs =>
    rw [hp] at hs
    obtain ⟨pre, w, post, rfl, h1, h2, h3⟩ := hs
    have hx : ev S ((pre ++ (x, w) :: post) ++ env) (.loc x) = w := by
      show (look x _).getD _ = w
      rw [look_x h1]
      rfl
    simp only [arm, hp, h3, hg, guard, hx, hq]
    cases hm : pm p w with
    | none => rfl
    | some cs =>
      have hbody : a.body.uses.map (look · ((pre ++ (x, w) :: post) ++ env)) =
          a.body.uses.map (look · ((pre ++ (cs ++ post)) ++ env)) := by
        apply List.map_congr_left
        intro y hy
        exact look_drop (fun e => hu (e ▸ hy)) (pm_fresh hm fun hv => hb y hv hy)
      cases c with
      | none => simp only [Option.map_some, Option.map_none, List.nil_append, hbody]
      | some d =>
        have hcond : holds S (cs ++ ((pre ++ (x, w) :: post) ++ env)) d = holds S ((pre ++ (cs ++ post)) ++ env) d := by
          unfold holds
          congr 1
          apply List.map_congr_left
          intro y hy
          exact look_swap (.inl fun e => hc x d rfl rfl (e ▸ hy)) (disjoint hp h1 hm hd y)
        simp only [Option.map_some, guard, hcond]
        cases holds S ((pre ++ (cs ++ post)) ++ env) d
        · rfl
        · simp only [if_true, List.nil_append, hbody]

theorem let_same {x : Id} {q p p' : Pat} (hg : a.guard = some (.let_ p (.loc x)))
    (hs : Spl x q (pm a.pat v) (pm p' v)) (hu : usedInBody x a = false) (hq : ∀ w, pm q w = pm p w) (hw : WfPat p)
    (hd : ∀ y ∈ vars p, y ∈ vars a.pat → Ex.loc x = .loc y) :
    arm S env v a = arm S env v ⟨p', none, a.body⟩ := by
  cases hp : pm a.pat v with
  | none =>
    rw [hp] at hs
    simp only [arm, hp, show pm p' v = none from hs]
  | some bs =>
    rw [hp] at hs
    obtain ⟨pre, w, post, rfl, h1, h2, h3⟩ := hs
    have hx : ev S ((pre ++ (x, w) :: post) ++ env) (.loc x) = w := by
      show (look x _).getD _ = w
      rw [look_x h1]
      rfl
    simp only [arm, hp, h3, hg, guard, hx, hq]
    cases hm : pm p w with
    | none => rfl
    | some cs =>
      simp only [Option.map_some, Option.some.injEq]
      congr 1
      apply List.map_congr_left
      intro y hy
      refine look_swap ?_ (disjoint hp h1 hm hd y)
      by_cases he : y = x
      · subst he
        refine .inr (pm_bound hw hm (Classical.byContradiction fun hv => ?_))
        have hf := vars_found hv
        exact not_used hu (by rw [hg]; simp [hides, hf]) hy
      · exact .inl he

theorem method_pm {ty : RTy} {m : Nat} {args : List Ex} {q : Pat} {w : Val} (h : methodPat ty m args = some q)
    (hS : Methods S) (ht : Shape ty w) (h0 : m = isEmpty → args = []) (h1 : args.length ≤ 1)
    (hn : m ≠ isEmpty → args = [.addr (.arr .nil)] → m = startsWith ∨ m = endsWith) :
    pm q w = if S.meth m w (args.map (ev S env)) = true then some [] else none := by
  unfold methodPat at h
  by_cases hm : m = isEmpty
  · rw [if_pos hm] at h
    rw [h0 hm, hm]
    cases ht with
    | str =>
      simp only [Option.some.injEq] at h
      subst h
      simp [pm, hS.emptyStr]
    | @slice vs =>
      simp only [Option.some.injEq] at h
      subst h
      simp only [pm, List.map_nil, hS.emptySlice, Pats.len, pmAll]
      cases hl : vs.len <;> simp
    | other => cases h
  · rw [if_neg hm] at h
    cases ht with
    | str => simp at h
    | other => simp at h
    | @slice vs =>
      simp only [if_true] at h
      match args, h, h1, hn with
      | [], h, _, _ => simp [needles] at h
      | _ :: _ :: _, _, h1, _ => simp at h1
      | [e], h, _, hn =>
        cases e with
        | addr e =>
          cases e with
          | arr es =>
            simp only [needles] at h
            cases hp : toPats es with
            | none => rw [hp] at h; cases h
            | some ps =>
              rw [hp] at h
              have hl := toPats_len (S := S) (env := env) hp
              have hstart : pm (.front ps) (.slice vs) =
                  if S.meth startsWith (.slice vs) [.slice (evAll S env es)] = true then some [] else none := by
                simp only [pm, hS.starts, Bool.and_eq_true, decide_eq_true_eq]
                exact toPats_pm hp vs
              have hend : pm (.back ps) (.slice vs) =
                  if S.meth endsWith (.slice vs) [.slice (evAll S env es)] = true then some [] else none := by
                simp only [pm, hS.ends, Bool.and_eq_true, decide_eq_true_eq, toPats_pm (S := S) (env := env) hp, hl]
                by_cases hle : (evAll S env es).len ≤ vs.len
                · have hdl := drop_len (vs.len - (evAll S env es).len) vs
                  have hdl' : (vs.drop (vs.len - (evAll S env es).len)).len = (evAll S env es).len := by omega
                  rw [if_pos hle, take_eq hdl', hdl']
                  simp [hle]
                · simp [hle]
              have hgo : ∀ q, (if m = startsWith then some (Pat.front ps) else if m = endsWith then some (.back ps)
                  else none) = some q → pm q (.slice vs) =
                  if S.meth m (.slice vs) [.slice (evAll S env es)] = true then some [] else none := by
                intro q h
                split at h
                · next hm => cases h; rw [hm]; exact hstart
                · split at h
                  · next hm => cases h; rw [hm]; exact hend
                  · cases h
              cases ps with
              | cons p ps => exact hgo q h
              | nil =>
                simp only [Option.some.injEq] at h
                subst h
                have he : es = .nil := by
                  cases es with
                  | nil => rfl
                  | cons e es =>
                    simp only [toPats, Option.bind_eq_some_iff, Option.map_eq_some_iff] at hp
                    obtain ⟨p, -, ps, -, hh⟩ := hp
                    cases hh
                subst he
                rcases hn hm rfl with hm | hm
                · rw [hm]
                  exact hstart
                · rw [hm]
                  exact hend
          | _ => simp [needles] at h
        | _ => simp [needles] at h

theorem arm_same {fa : Facts} {a' : Arm} (h : check fa a = .sugg (some a')) (hf : Fine S fa.recvTy env v a) :
    arm S env v a = arm S env v a' := by
  unfold check at h
  cases hg : a.guard with
  | none => rw [hg] at h; cases h
  | some g =>
    rw [hg] at h
    have hok := hf.guard g hg
    cases g with
    | «matches» e p c =>
      simp only at h
      split at h
      · next x r hb =>
        obtain ⟨rfl, hfd, hu⟩ := binding hb
        cases hq : peel p r with
        | none => rw [hq] at h; cases h
        | some q =>
          rw [hq] at h
          simp only [emitIf, emit, Res.sugg.injEq, Option.map_eq_some_iff] at h
          obtain ⟨p', he, rfl⟩ := h
          cases hok with
          | «matches» h1 h2 h3 =>
          exact matches_same hg (spl hf.wf (hf.noAt _ x hg .matches) hfd he v)
            (not_used hu (by rw [hg]; rfl)) (peel_pm hq) h1 h2 h3
      · cases h
    | let_ p e =>
      simp only at h
      split at h
      · next x r hb =>
        obtain ⟨rfl, hfd, hu⟩ := binding hb
        cases hq : peel p r with
        | none => rw [hq] at h; cases h
        | some q =>
          rw [hq] at h
          simp only [emitIf, emit, Res.sugg.injEq, Option.map_eq_some_iff] at h
          obtain ⟨p', he, rfl⟩ := h
          cases hok with
          | let_ h1 h2 =>
          exact let_same hg (spl hf.wf (hf.noAt _ x hg .let_) hfd he v) hu (peel_pm hq) h1 h2
      · cases h
    | eq l r =>
      simp only at h
      split at h
      · split at h
        · next x b e hb =>
          cases hp : toPat e with
          | none => rw [hp] at h; cases h
          | some p =>
          rw [hp] at h
          simp only [Option.bind_some] at h
          cases hq : peel p b with
          | none => rw [hq] at h; cases h
          | some q =>
            rw [hq] at h
            simp only [emitIf, emit, Res.sugg.injEq, Option.map_eq_some_iff] at h
            obtain ⟨p', he, rfl⟩ := h
            cases hok with
            | eq h1 h2 =>
            unfold eqSides at hb
            split at hb
            · next b' hb' =>
              cases hb
              obtain ⟨rfl, hfd, hu⟩ := binding hb'
              refine plain hg (spl hf.wf (hf.noAt _ x hg .eqLeft) hfd he v) (not_used hu (by rw [hg]; rfl)) ?_
              intro pre w post _ hx
              refine ⟨same w (ev S ((pre ++ (x, w) :: post) ++ env) r), ?_, ?_⟩
              · rw [peel_pm hq, toPat_pm hp]
              · simp only [guard, (h1 x _ rfl _).1]
                simp only [ev, look_x hx, Option.getD_some]
            · simp only [Option.map_eq_some_iff] at hb
              obtain ⟨b', hb', hb⟩ := hb
              cases hb
              obtain ⟨rfl, hfd, hu⟩ := binding hb'
              refine plain hg (spl hf.wf (hf.noAt _ x hg .eqRight) hfd he v) (not_used hu (by rw [hg]; rfl)) ?_
              intro pre w post _ hx
              refine ⟨same w (ev S ((pre ++ (x, w) :: post) ++ env) l), ?_, ?_⟩
              · rw [peel_pm hq, toPat_pm hp]
              · simp only [guard, (h2 x _ rfl _).2]
                simp only [ev, look_x hx, Option.getD_some]
        · cases h
      · cases h
    | method recv m args =>
      simp only at h
      split at h
      · next x r hb =>
        obtain ⟨rfl, hfd, hu⟩ := binding hb
        cases hq : methodPat (fa.recvTy (.loc x)) m args with
        | none => rw [hq] at h; cases h
        | some q =>
          rw [hq] at h
          simp only [emitIf, emit, Res.sugg.injEq, Option.map_eq_some_iff] at h
          obtain ⟨p', he, rfl⟩ := h
          cases hok with
          | method hS ht h0 h1 hn =>
          refine plain hg (spl hf.wf (hf.noAt _ x hg .method) hfd he v) (not_used hu (by rw [hg]; rfl)) ?_
          intro pre w post hp hx
          have hw : ev S ((pre ++ (x, w) :: post) ++ env) (.loc x) = w := by
            simp only [ev, look_x hx, Option.getD_some]
          refine ⟨S.meth m w (args.map (ev S ((pre ++ (x, w) :: post) ++ env))), ?_, ?_⟩
          · have := ht _ hp
            rw [hw] at this
            exact method_pm hq hS this h0 h1 hn
          · simp only [guard, hw]
      · cases h
    | other c => cases h

/-- The suggestion of `redundant_guards` keeps what a `match` does, whatever the other arms are: no guard is lost, none
becomes stricter, and the body sees the same values.

Missing (see `Verif.Guard.Witness`): tested variables bound by `x @ p`, equality that is not structural, other methods
called with `&[]`, and clashes of the names in the new pattern with those used by the arm. -/
theorem guard_same_partial {fa : Facts} {a' : Arm} (h : check fa a = .sugg (some a')) (hf : Fine S fa.recvTy env v a)
    (before after : List Arm) : run S env v (before ++ a :: after) = run S env v (before ++ a' :: after) := by
  induction before with
  | nil => simp only [List.nil_append, run, arm_same h hf]
  | cons b bs ih => simp only [List.cons_append, run, ih]

end Arm

end Verif.Guard
