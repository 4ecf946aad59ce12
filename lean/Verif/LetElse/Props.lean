import Verif.LetElse.Model
import Verif.LetElse.Spec

/-!
# `manual_let_else` declares the same variables
-/

namespace Verif.LetElse

/-! ## Simple patterns do not care where a value is -/

mutual
theorem loc_irrel {S : Sem} (L : Laws S) : ∀ (p : Pat), Simple p → ∀ (l l' : Loc) (v : S.V),
    mtch S none l v p = mtch S none l' v p
  | .wild, _, _, _, _ => rfl
  | .path c, _, l, l', v => by
    rcases L.peel_cases v with h | h
    · simp only [mtch, h]
    · simp only [mtch, h l l']
  | .bind m x, h, _, _, _ => by cases h with | bind mt _ => cases mt <;> rfl
  | .bindAt m x p, h, l, l', v => by
    cases h with
    | bindAt mt _ hp => simp only [mtch]; rw [loc_irrel L p hp l l' v]; cases mt <;> rfl
  | .tuple r ps, h, l, l', v => by
    cases h with
    | tuple _ hp =>
      rcases L.peel_cases v with h | h
      · simp only [mtch, h]; exact loc_irrelL L ps hp l l' v r _ _
      · simp only [mtch, h l l']
  | .ts c r ps, h, l, l', v => by
    cases h with
    | ts _ _ hp =>
      rcases L.peel_cases v with h | h
      · simp only [mtch, h]; rw [loc_irrelL L ps hp l l' v r]
      · simp only [mtch, h l l']
  | .strct c d fs, h, l, l', v => by
    cases h with
    | strct _ _ hp =>
      rcases L.peel_cases v with h | h
      · simp only [mtch, h]; rw [loc_irrelF L fs hp l l' v]
      · simp only [mtch, h l l']
  | .lit _, h, _, _, _ | .or _, h, _, _, _ | .slice _, h, _, _, _ | .ref _, h, _, _, _ => by cases h
theorem loc_irrelL {S : Sem} (L : Laws S) : ∀ (ps : Pats), (∀ p ∈ ps.toList, Simple p) → ∀ (l l' : Loc) (v : S.V)
    (r : Option Nat) (len i : Nat), mtchL S (none, l, v) r len i ps = mtchL S (none, l', v) r len i ps
  | .nil, _, _, _, _, _, _, _ => rfl
  | .cons p ps, h, l, l', v, r, len, i => by
    simp only [mtchL]
    rw [loc_irrel L p (h p (by simp [Pats.toList])) (l.field _) (l'.field _),
      loc_irrelL L ps (fun q hq => h q (by simp [Pats.toList, hq])) l l' v r len (i + 1)]
theorem loc_irrelF {S : Sem} (L : Laws S) : ∀ (fs : Fields), (∀ p ∈ fs.toList, Simple p) → ∀ (l l' : Loc) (v : S.V),
    mtchF S (none, l, v) fs = mtchF S (none, l', v) fs
  | .nil, _, _, _, _ => rfl
  | .cons f p fs, h, l, l', v => by
    simp only [mtchF]
    rw [loc_irrel L p (h p (by simp [Fields.toList])) (l.field _) (l'.field _),
      loc_irrelF L fs (fun q hq => h q (by simp [Fields.toList, hq])) l l' v]
end

/-- Matching below a reference, or the reference. -/
theorem ref_same {S : Sem} (L : Laws S) : ∀ (p : Pat), Simple p → NotMut p → ∀ (r : Bool) (l : Loc) (v : S.V),
    mtch S (some r) l v p = mtch S none .temp (S.mkRef r l v) p
  | .wild, _, _, _, _, _ => rfl
  | .path c, _, _, r, l, v => by simp only [mtch, L.peel_ref, comb]
  | .bind m x, h, hm, r, l, v => by
    cases h with | bind mt _ => cases mt with
      | false => rfl
      | true => cases hm
  | .bindAt m x p, h, hm, r, l, v => by
    cases h with
    | bindAt mt _ hp =>
      simp only [mtch]
      rw [ref_same L p hp hm.2]
      cases mt with
      | false => rfl
      | true => cases hm.1
  | .tuple _ ps, _, _, r, l, v => by simp only [mtch, L.peel_ref, comb]
  | .ts _ _ ps, _, _, r, l, v => by simp only [mtch, L.peel_ref, comb]
  | .strct _ _ ps, _, _, r, l, v => by simp only [mtch, L.peel_ref, comb]
  | .lit _, h, _, _, _, _ | .or _, h, _, _, _, _ | .slice _, h, _, _, _, _ | .ref _, h, _, _, _, _ => by cases h

/-! ## The variables that are bound occur -/

theorem both_some {S : Sem} {a b : Option (Binds S)} {bs : Binds S} (h : both S a b = some bs) :
    ∃ x y, a = some x ∧ b = some y ∧ bs = x ++ y := by
  cases a with
  | none => cases h
  | some x =>
    cases b with
    | none => cases h
    | some y => cases h; exact ⟨x, y, rfl, rfl, rfl⟩

mutual
theorem occ_of {S : Sem} : ∀ (p : Pat) (dm : Option Bool) (l : Loc) (v : S.V) (bs : Binds S),
    mtch S dm l v p = some bs → ∀ x u, (x, u) ∈ bs → ∃ m, Occ m x p
  | .wild, _, _, _, bs, h, x, u, hx => by cases h; cases hx
  | .lit n, dm, l, v, bs, h, x, u, hx => by
    simp only [mtch] at h
    split at h
    · cases h; cases hx
    · cases h
  | .path n, dm, l, v, bs, h, x, u, hx => by
    simp only [mtch] at h
    split at h
    · cases h; cases hx
    · cases h
  | .bind m y, dm, l, v, bs, h, x, u, hx => by
    cases h
    simp only [List.mem_singleton, Prod.mk.injEq] at hx
    rw [hx.1]; exact ⟨m, .bind⟩
  | .bindAt m y p, dm, l, v, bs, h, x, u, hx => by
    simp only [mtch] at h
    obtain ⟨a, b, ha, hb, rfl⟩ := both_some h
    cases ha
    rcases List.mem_append.1 hx with hx | hx
    · simp only [List.mem_singleton, Prod.mk.injEq] at hx
      rw [hx.1]; exact ⟨m, .here p⟩
    · obtain ⟨m', h'⟩ := occ_of p _ _ _ _ hb x u hx
      exact ⟨m', .bindAt m y h'⟩
  | .tuple r ps, dm, l, v, bs, h, x, u, hx => by
    obtain ⟨p, hp, m, hm⟩ := occ_ofL ps _ _ _ _ _ h x u hx
    exact ⟨m, .tuple r hp hm⟩
  | .ts c r ps, dm, l, v, bs, h, x, u, hx => by
    simp only [mtch] at h
    split at h
    · obtain ⟨p, hp, m, hm⟩ := occ_ofL ps _ _ _ _ _ h x u hx
      exact ⟨m, .ts c r hp hm⟩
    · cases h
  | .strct c d fs, dm, l, v, bs, h, x, u, hx => by
    simp only [mtch] at h
    split at h
    · obtain ⟨p, hp, m, hm⟩ := occ_ofF fs _ _ h x u hx
      exact ⟨m, .strct c d hp hm⟩
    · cases h
  | .or ps, dm, l, v, bs, h, x, u, hx => by
    obtain ⟨p, hp, m, hm⟩ := occ_ofOr ps _ _ _ _ h x u hx
    exact ⟨m, .or hp hm⟩
  | .slice ps, dm, l, v, bs, h, x, u, hx => by
    simp only [mtch] at h
    split at h
    · obtain ⟨p, hp, m, hm⟩ := occ_ofL ps _ _ _ _ _ h x u hx
      exact ⟨m, .slice hp hm⟩
    · cases h
  | .ref p, dm, l, v, bs, h, x, u, hx => by
    simp only [mtch] at h
    split at h
    · obtain ⟨m, hm⟩ := occ_of p _ _ _ _ h x u hx
      exact ⟨m, .ref hm⟩
    · cases h
theorem occ_ofL {S : Sem} : ∀ (ps : Pats) (q : Option Bool × Loc × S.V) (r : Option Nat) (len i : Nat)
    (bs : Binds S), mtchL S q r len i ps = some bs → ∀ x u, (x, u) ∈ bs → ∃ p ∈ ps.toList, ∃ m, Occ m x p
  | .nil, _, _, _, _, bs, h, x, u, hx => by cases h; cases hx
  | .cons p ps, q, r, len, i, bs, h, x, u, hx => by
    simp only [mtchL] at h
    obtain ⟨a, b, ha, hb, rfl⟩ := both_some h
    rcases List.mem_append.1 hx with hx | hx
    · obtain ⟨m, hm⟩ := occ_of p _ _ _ _ ha x u hx
      exact ⟨p, by simp [Pats.toList], m, hm⟩
    · obtain ⟨p', hp, m, hm⟩ := occ_ofL ps _ _ _ _ _ hb x u hx
      exact ⟨p', by simp [Pats.toList, hp], m, hm⟩
theorem occ_ofF {S : Sem} : ∀ (fs : Fields) (q : Option Bool × Loc × S.V)
    (bs : Binds S), mtchF S q fs = some bs → ∀ x u, (x, u) ∈ bs → ∃ p ∈ fs.toList, ∃ m, Occ m x p
  | .nil, _, bs, h, x, u, hx => by cases h; cases hx
  | .cons f p fs, q, bs, h, x, u, hx => by
    simp only [mtchF] at h
    obtain ⟨a, b, ha, hb, rfl⟩ := both_some h
    rcases List.mem_append.1 hx with hx | hx
    · obtain ⟨m, hm⟩ := occ_of p _ _ _ _ ha x u hx
      exact ⟨p, by simp [Fields.toList], m, hm⟩
    · obtain ⟨p', hp, m, hm⟩ := occ_ofF fs _ _ hb x u hx
      exact ⟨p', by simp [Fields.toList, hp], m, hm⟩
theorem occ_ofOr {S : Sem} : ∀ (ps : Pats) (dm : Option Bool) (l : Loc) (v : S.V)
    (bs : Binds S), mtchOr S dm l v ps = some bs → ∀ x u, (x, u) ∈ bs → ∃ p ∈ ps.toList, ∃ m, Occ m x p
  | .nil, _, _, _, bs, h, x, u, hx => by cases h
  | .cons p ps, dm, l, v, bs, h, x, u, hx => by
    simp only [mtchOr] at h
    cases hp : mtch S dm l v p with
    | some b =>
      rw [hp] at h; cases h
      obtain ⟨m, hm⟩ := occ_of p _ _ _ _ hp x u hx
      exact ⟨p, by simp [Pats.toList], m, hm⟩
    | none =>
      rw [hp] at h
      obtain ⟨p', hp, m, hm⟩ := occ_ofOr ps _ _ _ _ h x u hx
      exact ⟨p', by simp [Pats.toList, hp], m, hm⟩
end

/-! ## The map -/

/-- The pairs of a map. -/
def Map.prs (map : Map) : List (Name × Pat) := map.map fun r => (r.1, r.2.1)

theorem get_mem {x : Name} {r : Pat × Mode} : ∀ {map : Map}, get x map = some r → (x, r) ∈ map
  | (y, r') :: rest, h => by
    unfold get at h
    by_cases hy : y = x
    · rw [if_pos hy] at h; cases h; rw [hy]; exact List.mem_cons_self
    · rw [if_neg hy] at h; exact List.mem_cons_of_mem _ (get_mem h)

theorem get_none {x : Name} : ∀ {map : Map}, get x map = none → ¬ Used map.prs x
  | [], _, ⟨_, h⟩ => by cases h
  | (y, r') :: rest, h, ⟨p, hp⟩ => by
    unfold get at h
    by_cases hy : y = x
    · rw [if_pos hy] at h; cases h
    · rw [if_neg hy] at h
      simp only [Map.prs, List.map_cons, List.mem_cons, Prod.mk.injEq] at hp
      rcases hp with ⟨e, _⟩ | hp
      · exact hy e.symm
      · exact get_none h ⟨p, hp⟩

theorem get_used {x : Name} {map : Map} (h : ¬ Used map.prs x) : get x map = none := by
  cases hg : get x map with
  | none => rfl
  | some r => exact absurd ⟨r.1, List.mem_map.2 ⟨_, get_mem hg, rfl⟩⟩ h

theorem mem_prs {x : Name} {p : Pat} {m : Mode} {map : Map} (h : (x, p, m) ∈ map) : (x, p) ∈ map.prs :=
  List.mem_map.2 ⟨_, h, rfl⟩

theorem shadowed_whole {map : Map} {x : Name} (h : shadowed map x = true) : Whole map.prs x := by
  simp only [shadowed, List.any_eq_true] at h
  obtain ⟨⟨z, p, m⟩, hm, h⟩ := h
  cases p with
  | bind m' y =>
    simp only [decide_eq_true_eq] at h
    subst h
    exact ⟨z, _, m', mem_prs hm, .inl rfl⟩
  | bindAt m' y q =>
    simp only [decide_eq_true_eq] at h
    subst h
    exact ⟨z, _, m', mem_prs hm, .inr ⟨q, rfl⟩⟩
  | _ => cases h

theorem whole_shadowed {map : Map} {x : Name} (h : Whole map.prs x) : shadowed map x = true := by
  obtain ⟨z, p, m, hp, h⟩ := h
  obtain ⟨⟨z', p', m'⟩, hm, he⟩ := List.mem_map.1 hp
  cases he
  simp only [shadowed, List.any_eq_true]
  refine ⟨_, hm, ?_⟩
  rcases h with h | ⟨q, h⟩ <;> simp_all

theorem whole_declared {prs : List (Name × Pat)} {x : Name} (h : Whole prs x) : Declared prs x := by
  obtain ⟨z, p, m, hp, h⟩ := h
  refine ⟨z, p, m, hp, ?_⟩
  rcases h with rfl | ⟨q, rfl⟩
  · exact .bind
  · exact .here q

/-- What becomes of the variables. -/
def expand1 (S : Sem) (map : Map) (b : Name × S.V) : Binds S :=
  match get b.1 map with
  | some r => (mtch S none .temp b.2 r.1).getD []
  | none => if shadowed map b.1 then [] else [b]

def expand (S : Sem) (map : Map) (bs : Binds S) : Binds S := bs.flatMap (expand1 S map)

theorem expand_append {S : Sem} (map : Map) (a b : Binds S) :
    expand S map (a ++ b) = expand S map a ++ expand S map b := by simp [expand]

theorem both_expand {S : Sem} (map : Map) (a b : Option (Binds S)) :
    (both S a b).map (expand S map) = both S (a.map (expand S map)) (b.map (expand S map)) := by
  cases a <;> cases b <;> simp [both, expand_append]

theorem expand_free {S : Sem} {map : Map} {p : Pat} (hf : Free map.prs p) {dm : Option Bool} {l : Loc} {v : S.V} :
    mtch S dm l v p = (mtch S dm l v p).map (expand S map) := by
  cases h : mtch S dm l v p with
  | none => rfl
  | some bs =>
    have key : ∀ b ∈ bs, expand1 S map b = [b] := by
      intro b hb
      obtain ⟨m, hm⟩ := occ_of p _ _ _ _ h b.1 b.2 hb
      obtain ⟨h1, h2⟩ := hf m b.1 hm
      have hs : shadowed map b.1 = false := by
        cases hs : shadowed map b.1 with
        | false => rfl
        | true => exact absurd (whole_declared (shadowed_whole hs)) h2
      simp [expand1, get_used h1, hs]
    have : ∀ (cs : Binds S), (∀ b ∈ cs, expand1 S map b = [b]) → expand S map cs = cs := by
      intro cs
      induction cs with
      | nil => intro _; rfl
      | cons c cs ih =>
        intro hc
        have := ih fun b hb => hc b (List.mem_cons_of_mem _ hb)
        simp only [expand, List.flatMap_cons] at this ⊢
        rw [hc c List.mem_cons_self, this]; rfl
    simp [this bs key]

/-- The binding mode and the value fit: nothing is `mut`, or there are no references. -/
def Fits (S : Sem) (map : Map) (dm : Option Bool) (v : S.V) : Prop :=
  (∀ x q, (x, q) ∈ map.prs → NotMut q) ∨ (dm = none ∧ Owned S v)

theorem fits_peel {S : Sem} {map : Map} {dm : Option Bool} {v : S.V} (h : Fits S map dm v) (l : Loc) :
    Fits S map (S.peel dm l v).1 (S.peel dm l v).2.2 := by
  rcases h with h | ⟨rfl, C, hv, hC⟩
  · exact .inl h
  · rw [(hC v hv).1 l]; exact .inr ⟨rfl, C, hv, hC⟩

theorem fits_field {S : Sem} {map : Map} {dm : Option Bool} {v : S.V} (h : Fits S map dm v) (k : Nat) :
    Fits S map dm (S.field v k) := by
  rcases h with h | ⟨rfl, C, hv, hC⟩
  · exact .inl h
  · exact .inr ⟨rfl, C, (hC v hv).2 k, hC⟩

/-- What is asked of the patterns that are put in. -/
structure MapOk (S : Sem) (map : Map) : Prop where
  simple : ∀ x q, (x, q) ∈ map.prs → Simple q
  irref : ∀ x q, (x, q) ∈ map.prs → Irref S q
  prefix_ : ∀ x q m, (x, q, m) ∈ map → m = .plain ∨ ∃ y, q = .bind .plain y

theorem withPrefix_same {S : Sem} (L : Laws S) {map : Map} (ok : MapOk S map) {x : Name} {p p' : Pat} {m : Mode}
    (hm : (x, p, m) ∈ map) (h : withPrefix m p = some p') {dm : Option Bool} {v : S.V} (hf : Fits S map dm v)
    (l : Loc) : mtch S dm l v p' = mtch S none .temp (bindVal S m dm l v) p := by
  have hs := ok.simple x p (mem_prs hm)
  rcases ok.prefix_ x p m hm with rfl | ⟨y, rfl⟩
  · have : p' = p := by simpa [withPrefix] using h.symm
    subst this
    cases dm with
    | none => exact loc_irrel L p' hs _ _ _
    | some r =>
      rcases hf with hf | ⟨h, _⟩
      · exact ref_same L p' hs (hf x p' (mem_prs hm)) r l v
      · cases h
  · by_cases hp : m = .plain
    · subst hp
      have : p' = .bind .plain y := by simpa [withPrefix] using h.symm
      subst this
      cases dm <;> rfl
    · have : p' = .bind m y := by simpa [withPrefix, hp] using h.symm
      subst this
      rfl

theorem expand_one {S : Sem} {map : Map} (ok : MapOk S map) {x : Name} {p : Pat} {m : Mode} {u : S.V}
    (h : get x map = some (p, m)) : some (expand S map [(x, u)]) = mtch S none .temp u p := by
  have hi := ok.irref x p (mem_prs (get_mem h)) none .temp u
  cases hm : mtch S none .temp u p with
  | none => rw [hm] at hi; cases hi
  | some bs => simp [expand, expand1, h, hm]

/-! ## The replaced pattern -/

theorem simple_notOr {p : Pat} (h : Simple p) : NotOr p := by cases h <;> trivial

theorem withPrefix_notOr {m : Mode} {p p' : Pat} (hs : Simple p) (h : withPrefix m p = some p') : NotOr p' := by
  unfold withPrefix at h
  split at h
  · cases h; exact simple_notOr hs
  · split at h
    · split at h
      · cases h; trivial
      · split at h
        · cases h; trivial
        · cases h
    · split at h
      · cases h; trivial
      · split at h
        · cases h; trivial
        · cases h
    · cases h

theorem atPat_eq {m : Mode} {x : Name} {p : Pat} (h : NotOr p) : atPat m x p = .bindAt m x p := by
  cases p <;> first | rfl | cases h

theorem replaceL_length {map : Map} : ∀ {ps ps' : Pats}, replaceL map ps = some ps' → ps'.length = ps.length
  | .nil, ps', h => by cases h; rfl
  | .cons p ps, ps', h => by
    simp only [replaceL] at h
    cases hp : replace map p with
    | none => rw [hp] at h; cases h
    | some q =>
      rw [hp] at h
      cases hl : replaceL map ps with
      | none => rw [hl] at h; cases h
      | some qs =>
        rw [hl] at h; cases h
        simp [Pats.length, replaceL_length hl]

theorem readTuple_eq {r : Option Nat} {ps : Pats} (h : r = none → ps.length ≠ 1) : readTuple r ps = .tuple r ps := by
  cases r with
  | some _ => rfl
  | none =>
    cases ps with
    | nil => rfl
    | cons p ps =>
      cases ps with
      | nil => exact absurd rfl (h rfl)
      | cons _ _ => rfl

theorem readStruct_eq {c : Nat} {d : Bool} {fs : Fields} {p : Pat} (h : readStruct c d fs = some p) :
    p = .strct c d fs := by
  unfold readStruct at h
  split at h
  · cases h
  · cases h; rfl

theorem replace_notOr {S : Sem} {map : Map} (ok : MapOk S map) : ∀ (p p' : Pat), Reached map.prs p → NotOr p →
    replace map p = some p' → NotOr p'
  | .wild, _, _, _, h | .lit _, _, _, _, h | .path _, _, _, _, h | .slice _, _, _, _, h | .ref _, _, _, _, h => by
    cases h; trivial
  | .bind m x, p', _, _, h => by
    simp only [replace] at h
    split at h
    · next q m' hg => exact withPrefix_notOr (ok.simple x q (mem_prs (get_mem hg))) h
    · cases h; trivial
  | .bindAt m x q, p', hr, _, h => by
    cases hr with
    | bindAt _ _ hq hn _ =>
      simp only [replace] at h
      split at h
      · cases hq' : replace map q with
        | none => rw [hq'] at h; cases h
        | some q' =>
          rw [hq'] at h
          simp only [Option.bind_some] at h
          next p1 m' hg =>
          cases hp : withPrefix m' p1 with
          | none => rw [hp] at h; cases h
          | some p2 =>
            rw [hp] at h
            simp only [Option.bind_some, withAt] at h
            split at h
            · cases h
              rw [atPat_eq (replace_notOr ok q q' hq hn hq')]; trivial
            · cases h
      · cases hq' : replace map q with
        | none => rw [hq'] at h; cases h
        | some q' =>
          rw [hq'] at h
          have := replace_notOr ok q q' hq hn hq'
          cases h
          simp only
          split
          · exact this
          · rw [atPat_eq this]; trivial
  | .tuple r ps, p', hr, _, h => by
    cases hr with
    | tuple _ _ hl =>
      simp only [replace] at h
      cases hp : replaceL map ps with
      | none => rw [hp] at h; cases h
      | some ps' =>
        rw [hp] at h; cases h
        rw [readTuple_eq fun e => by rw [replaceL_length hp]; exact hl e]; trivial
  | .ts c r ps, p', _, _, h => by
    simp only [replace] at h
    cases hp : replaceL map ps with
    | none => rw [hp] at h; cases h
    | some ps' => rw [hp] at h; cases h; trivial
  | .strct c d fs, p', _, _, h => by
    simp only [replace] at h
    cases hp : replaceF map fs with
    | none => rw [hp] at h; cases h
    | some ps' =>
      rw [hp] at h
      rw [readStruct_eq h]; trivial
  | .or _, _, _, hn, _ => by cases hn

/-- A variable that is not replaced. -/
theorem expand_other {S : Sem} {map : Map} {x : Name} {u : S.V} (hg : get x map = none)
    (hd : ¬ Used map.prs x → ¬ Declared map.prs x) : expand S map [(x, u)] = [(x, u)] := by
  have hs : shadowed map x = false := by
    cases hs : shadowed map x with
    | false => rfl
    | true => exact absurd (whole_declared (shadowed_whole hs)) (hd (get_none hg))
  simp [expand, expand1, hg, hs]

mutual
theorem replace_same {S : Sem} (L : Laws S) {map : Map} (ok : MapOk S map) : ∀ (p p' : Pat), Reached map.prs p →
    (∀ m x, Occ m x p → ∀ q m', get x map = some (q, m') → m' = m) → replace map p = some p' →
    ∀ (dm : Option Bool) (l : Loc) (v : S.V), Fits S map dm v →
    mtch S dm l v p' = (mtch S dm l v p).map (expand S map)
  | .wild, _, _, _, h, _, _, _, _ => by cases h; rfl
  | .lit n, _, _, _, h, dm, l, v, _ => by cases h; simp only [mtch]; split <;> rfl
  | .path n, _, _, _, h, dm, l, v, _ => by cases h; simp only [mtch]; split <;> rfl
  | .slice ps, _, hr, _, h, dm, l, v, _ => by cases h; cases hr with | slice hf => exact expand_free hf
  | .ref p, _, hr, _, h, dm, l, v, _ => by cases h; cases hr with | ref hf => exact expand_free hf
  | .bind m x, p', hr, hm, h, dm, l, v, hf => by
    simp only [replace] at h
    cases hg : get x map with
    | none =>
      rw [hg] at h; cases h
      cases hr with
      | bind _ _ hd => simp only [mtch, Option.map_some]; rw [expand_other hg hd]
    | some r =>
      obtain ⟨q, m'⟩ := r
      rw [hg] at h
      have : m' = m := hm m x .bind q m' hg
      subst this
      rw [withPrefix_same L ok (get_mem hg) h hf l]
      simp only [mtch, Option.map_some]
      rw [expand_one ok hg]
  | .bindAt m x q, p', hr, hm, h, dm, l, v, hf => by
    cases hr with
    | bindAt _ _ hq hn hd =>
      simp only [replace] at h
      cases hq' : replace map q with
      | none => rw [hq'] at h; cases hg : get x map <;> rw [hg] at h <;> cases h
      | some q' =>
        rw [hq'] at h
        have ih := replace_same L ok q q' hq (fun m1 y ho => hm m1 y (.bindAt m x ho)) hq' dm l v hf
        have hno := replace_notOr ok q q' hq hn hq'
        simp only [mtch]
        rw [both_expand, ← ih]
        cases hg : get x map with
        | none =>
          rw [hg] at h
          simp only [Option.map_some, Option.some.injEq] at h
          subst h
          by_cases hs : shadowed map x = true
          · rw [if_pos hs]
            simp only [expand, expand1, hg, hs, Option.map_some, List.flatMap_cons, List.flatMap_nil, if_true,
              List.append_nil, both]
            cases mtch S dm l v q' <;> simp
          · rw [if_neg hs, atPat_eq hno]
            simp only [mtch, Option.map_some]
            have hs' : shadowed map x = false := by simpa using hs
            simp [expand, expand1, hg, hs']
        | some r =>
          obtain ⟨p1, m'⟩ := r
          rw [hg] at h
          simp only [Option.bind_some] at h
          have hmm : m' = m := hm m x (.here q) p1 m' hg
          subst hmm
          cases hp : withPrefix m' p1 with
          | none => rw [hp] at h; cases h
          | some p2 =>
            rw [hp] at h
            simp only [Option.bind_some, withAt] at h
            have hone := withPrefix_same L ok (get_mem hg) hp hf l
            split at h
            · cases h
              rw [atPat_eq hno]
              simp only [mtch, Option.map_some]
              rw [expand_one ok hg, ← hone]
              rfl
            · cases h
  | .tuple r ps, p', hr, hm, h, dm, l, v, hf => by
    cases hr with
    | tuple _ hps hl =>
      simp only [replace] at h
      cases hp : replaceL map ps with
      | none => rw [hp] at h; cases h
      | some ps' =>
        rw [hp] at h; cases h
        rw [readTuple_eq fun e => by rw [replaceL_length hp]; exact hl e]
        simp only [mtch, replaceL_length hp]
        exact replace_sameL L ok ps ps' hps (fun p hp m x ho => hm m x (.tuple r hp ho)) hp _ r _ _
          (fits_peel hf l)
  | .ts c r ps, p', hr, hm, h, dm, l, v, hf => by
    cases hr with
    | ts _ _ hps =>
      simp only [replace] at h
      cases hp : replaceL map ps with
      | none => rw [hp] at h; cases h
      | some ps' =>
        rw [hp] at h; cases h
        simp only [mtch, replaceL_length hp]
        rw [replace_sameL L ok ps ps' hps (fun p hp m x ho => hm m x (.ts c r hp ho)) hp _ r _ _
          (fits_peel hf l)]
        split <;> rfl
  | .strct c d fs, p', hr, hm, h, dm, l, v, hf => by
    cases hr with
    | strct _ _ hfs =>
      simp only [replace] at h
      cases hp : replaceF map fs with
      | none => rw [hp] at h; cases h
      | some fs' =>
        rw [hp] at h
        rw [readStruct_eq h]
        simp only [mtch]
        rw [replace_sameF L ok fs fs' hfs (fun p hp m x ho => hm m x (.strct c d hp ho)) hp _ (fits_peel hf l)]
        split <;> rfl
  | .or ps, p', hr, hm, h, dm, l, v, hf => by
    cases hr with
    | or hps =>
      simp only [replace] at h
      cases hp : replaceL map ps with
      | none => rw [hp] at h; cases h
      | some ps' =>
        rw [hp] at h; cases h
        simp only [mtch]
        exact replace_sameOr L ok ps ps' hps (fun p hp m x ho => hm m x (.or hp ho)) hp dm l v hf
theorem replace_sameL {S : Sem} (L : Laws S) {map : Map} (ok : MapOk S map) : ∀ (ps ps' : Pats),
    (∀ p ∈ ps.toList, Reached map.prs p) →
    (∀ p ∈ ps.toList, ∀ m x, Occ m x p → ∀ q m', get x map = some (q, m') → m' = m) → replaceL map ps = some ps' →
    ∀ (q : Option Bool × Loc × S.V) (r : Option Nat) (len i : Nat), Fits S map q.1 q.2.2 →
    mtchL S q r len i ps' = (mtchL S q r len i ps).map (expand S map)
  | .nil, _, _, _, h, _, _, _, _, _ => by cases h; rfl
  | .cons p ps, ps', hr, hm, h, q, r, len, i, hf => by
    simp only [replaceL] at h
    cases hp : replace map p with
    | none => rw [hp] at h; cases h
    | some p1 =>
      rw [hp] at h
      cases hl : replaceL map ps with
      | none => rw [hl] at h; cases h
      | some ps1 =>
        rw [hl] at h; cases h
        simp only [mtchL]
        rw [both_expand,
          replace_same L ok p p1 (hr p (by simp [Pats.toList])) (hm p (by simp [Pats.toList])) hp _ _ _
            (fits_field hf _),
          replace_sameL L ok ps ps1 (fun a ha => hr a (by simp [Pats.toList, ha]))
            (fun a ha => hm a (by simp [Pats.toList, ha])) hl q r len (i + 1) hf]
theorem replace_sameOr {S : Sem} (L : Laws S) {map : Map} (ok : MapOk S map) : ∀ (ps ps' : Pats),
    (∀ p ∈ ps.toList, Reached map.prs p) →
    (∀ p ∈ ps.toList, ∀ m x, Occ m x p → ∀ q m', get x map = some (q, m') → m' = m) → replaceL map ps = some ps' →
    ∀ (dm : Option Bool) (l : Loc) (v : S.V), Fits S map dm v →
    mtchOr S dm l v ps' = (mtchOr S dm l v ps).map (expand S map)
  | .nil, _, _, _, h, _, _, _, _ => by cases h; rfl
  | .cons p ps, ps', hr, hm, h, dm, l, v, hf => by
    simp only [replaceL] at h
    cases hp : replace map p with
    | none => rw [hp] at h; cases h
    | some p1 =>
      rw [hp] at h
      cases hl : replaceL map ps with
      | none => rw [hl] at h; cases h
      | some ps1 =>
        rw [hl] at h; cases h
        simp only [mtchOr]
        rw [replace_same L ok p p1 (hr p (by simp [Pats.toList])) (hm p (by simp [Pats.toList])) hp _ _ _ hf,
          replace_sameOr L ok ps ps1 (fun a ha => hr a (by simp [Pats.toList, ha]))
            (fun a ha => hm a (by simp [Pats.toList, ha])) hl dm l v hf]
        cases mtch S dm l v p <;> rfl
theorem replace_sameF {S : Sem} (L : Laws S) {map : Map} (ok : MapOk S map) : ∀ (fs fs' : Fields),
    (∀ p ∈ fs.toList, Free map.prs p ∨ ∃ m x, p = .bind m x ∧ (¬ Used map.prs x → ¬ Declared map.prs x)) →
    (∀ p ∈ fs.toList, ∀ m x, Occ m x p → ∀ q m', get x map = some (q, m') → m' = m) → replaceF map fs = some fs' →
    ∀ (q : Option Bool × Loc × S.V), Fits S map q.1 q.2.2 →
    mtchF S q fs' = (mtchF S q fs).map (expand S map)
  | .nil, _, _, _, h, _, _ => by cases h; rfl
  | .cons f p fs, fs', hr, hm, h, q, hf => by
    have ih := fun fs1 hl => replace_sameF L ok fs fs1 (fun a ha => hr a (by simp [Fields.toList, ha]))
      (fun a ha => hm a (by simp [Fields.toList, ha])) hl q hf
    cases hl : replaceF map fs with
    | none =>
      cases p with
      | bind m x =>
        simp only [replaceF, hl] at h
        split at h
        · next r _ _ => cases hw : withPrefix _ r <;> rw [hw] at h <;> cases h
        · cases h
      | _ => simp [replaceF, hl] at h
    | some fs1 =>
      have ih := ih fs1 hl
      rcases hr p (by simp [Fields.toList]) with hfree | ⟨m, x, rfl, hd⟩
      · have hsame : fs' = .cons f p fs1 := by
          cases p with
          | bind m x =>
            have hg := get_used (hfree m x .bind).1
            simp only [replaceF, hl, hg] at h
            cases h; rfl
          | _ => simp only [replaceF, hl] at h; cases h; rfl
        subst hsame
        simp only [mtchF]
        rw [both_expand, ih, ← expand_free hfree]
      · simp only [replaceF, hl] at h
        cases hg : get x map with
        | none =>
          rw [hg] at h; cases h
          simp only [mtchF]
          rw [both_expand, ih]
          simp only [mtch, Option.map_some]
          rw [expand_other hg hd]
        | some r =>
          obtain ⟨p1, m'⟩ := r
          rw [hg] at h
          have hmm : m' = m := hm _ (by simp [Fields.toList]) m x .bind p1 m' hg
          subst hmm
          cases hw : withPrefix m' p1 with
          | none => simp only [hw] at h; cases h
          | some p2 =>
            simp only [hw] at h
            cases h
            simp only [mtchF]
            rw [both_expand, ih, withPrefix_same L ok (get_mem hg) hw (fits_field hf _)]
            simp only [mtch, Option.map_some]
            rw [expand_one ok hg]
end

/-! ## Where the map comes from -/

theorem take_some {x : Name} {m : Mode} : ∀ {bs bs' : List (Name × Mode)}, take x bs = some (m, bs') →
    (x, m) ∈ bs ∧ ∀ b ∈ bs', b ∈ bs ∧ b.1 ≠ x
  | (y, m') :: rest, bs', h => by
    unfold take at h
    by_cases hy : y = x
    · rw [if_pos hy] at h
      cases h
      subst hy
      refine ⟨List.mem_cons_self, fun b hb => ?_⟩
      have := List.mem_filter.1 hb
      exact ⟨List.mem_cons_of_mem _ this.1, by simpa using this.2⟩
    · rw [if_neg hy] at h
      cases ht : take x rest with
      | none => rw [ht] at h; cases h
      | some r =>
        obtain ⟨m1, r1⟩ := r
        rw [ht] at h
        cases h
        obtain ⟨h1, h2⟩ := take_some ht
        refine ⟨List.mem_cons_of_mem _ h1, fun b hb => ?_⟩
        rcases List.mem_cons.1 hb with rfl | hb
        · exact ⟨List.mem_cons_self, hy⟩
        · exact ⟨List.mem_cons_of_mem _ (h2 b hb).1, (h2 b hb).2⟩

theorem build_some : ∀ {ps : List Pat} {es : List (Option Name)} {bs : List (Name × Mode)} {map : Map},
    buildMap ps es bs = some map →
    ps = map.map (·.2.1) ∧ es = map.map (fun r => some r.1) ∧ (map.map (·.1)).Nodup ∧
      ∀ r ∈ map, (r.1, r.2.2) ∈ bs
  | [], [], bs, map, h => by cases h; simp
  | [], some _ :: _, _, _, h | [], none :: _, _, _, h | _ :: _, [], _, _, h | _ :: _, none :: _, _, _, h => by
    simp [buildMap] at h
  | p :: ps, some x :: es, bs, map, h => by
    simp only [buildMap] at h
    cases ht : take x bs with
    | none => rw [ht] at h; cases h
    | some r =>
      obtain ⟨m, r⟩ := r
      rw [ht] at h
      simp only [Option.bind_some] at h
      cases hb : buildMap ps es r with
      | none => rw [hb] at h; cases h
      | some map' =>
        rw [hb] at h
        cases h
        obtain ⟨h1, h2, h3, h4⟩ := build_some hb
        obtain ⟨t1, t2⟩ := take_some ht
        refine ⟨by rw [h1]; rfl, by rw [h2]; rfl, ?_, fun q hq => ?_⟩
        · rw [List.map_cons, List.nodup_cons]
          refine ⟨fun hx => ?_, h3⟩
          obtain ⟨q, hq, he⟩ := List.mem_map.1 hx
          exact (t2 _ (h4 q hq)).2 he
        · rcases List.mem_cons.1 hq with rfl | hq
          · exact t1
          · exact (t2 _ (h4 q hq)).1

mutual
theorem binders_occ {m : Mode} {x : Name} : ∀ (p : Pat), (x, m) ∈ binders p → Occ m x p
  | .bind m' y, h => by
    simp only [binders, List.mem_singleton, Prod.mk.injEq] at h
    rw [h.1, h.2]; exact .bind
  | .bindAt m' y p, h => by
    simp only [binders, List.mem_cons, Prod.mk.injEq] at h
    rcases h with ⟨h1, h2⟩ | h
    · rw [h1, h2]; exact .here p
    · exact .bindAt m' y (binders_occ p h)
  | .tuple r ps, h => by
    obtain ⟨p, hp, ho⟩ := binders_occL ps h
    exact .tuple r hp ho
  | .ts c r ps, h => by
    obtain ⟨p, hp, ho⟩ := binders_occL ps h
    exact .ts c r hp ho
  | .strct c d ps, h => by
    obtain ⟨p, hp, ho⟩ := binders_occF ps h
    exact .strct c d hp ho
  | .or .nil, h => by cases h
  | .or (.cons p ps), h => .or (p := p) (by simp [Pats.toList]) (binders_occ p h)
  | .slice ps, h => by
    obtain ⟨p, hp, ho⟩ := binders_occL ps h
    exact .slice hp ho
  | .ref p, h => .ref (binders_occ p h)
  | .wild, h | .lit _, h | .path _, h => by cases h
theorem binders_occL {m : Mode} {x : Name} : ∀ (ps : Pats), (x, m) ∈ bindersL ps → ∃ p ∈ ps.toList, Occ m x p
  | .nil, h => by cases h
  | .cons p ps, h => by
    rcases List.mem_append.1 h with h | h
    · exact ⟨p, by simp [Pats.toList], binders_occ p h⟩
    · obtain ⟨q, hq, ho⟩ := binders_occL ps h
      exact ⟨q, by simp [Pats.toList, hq], ho⟩
theorem binders_occF {m : Mode} {x : Name} : ∀ (fs : Fields), (x, m) ∈ bindersF fs → ∃ p ∈ fs.toList, Occ m x p
  | .nil, h => by cases h
  | .cons f p fs, h => by
    rcases List.mem_append.1 h with h | h
    · exact ⟨p, by simp [Fields.toList], binders_occ p h⟩
    · obtain ⟨q, hq, ho⟩ := binders_occF fs h
      exact ⟨q, by simp [Fields.toList, hq], ho⟩
end

mutual
theorem occ_binders {m : Mode} {x : Name} : ∀ (p : Pat), Alt p → Occ m x p → (x, m) ∈ binders p
  | .bind m' y, _, h => by cases h; simp [binders]
  | .bindAt m' y p, ha, h => by
    cases ha with
    | bindAt _ _ ha =>
      cases h with
      | here => simp [binders]
      | bindAt _ _ h => exact List.mem_cons_of_mem _ (occ_binders p ha h)
  | .tuple r ps, ha, h => by
    cases ha with | tuple _ ha => cases h with | tuple _ hp ho => exact occ_bindersL ps ha hp ho
  | .ts c r ps, ha, h => by
    cases ha with | ts _ _ ha => cases h with | ts _ _ hp ho => exact occ_bindersL ps ha hp ho
  | .strct c d ps, ha, h => by
    cases ha with | strct _ _ ha => cases h with | strct _ _ hp ho => exact occ_bindersF ps ha hp ho
  | .or .nil, _, h => by cases h with | or hp _ => cases hp
  | .or (.cons q qs), ha, h => by
    cases ha with
    | or ha hs =>
      cases h with
      | or hp ho =>
        have hq : q ∈ (Pats.cons q qs).toList := by simp [Pats.toList]
        exact occ_binders q (ha q hq) (hs _ hp q hq m x ho)
  | .slice ps, ha, h => by
    cases ha with | slice ha => cases h with | slice hp ho => exact occ_bindersL ps ha hp ho
  | .ref p, ha, h => by cases ha with | ref ha => cases h with | ref h => exact occ_binders p ha h
  | .wild, _, h | .lit _, _, h | .path _, _, h => by cases h
theorem occ_bindersL {m : Mode} {x : Name} : ∀ (ps : Pats), (∀ p ∈ ps.toList, Alt p) → ∀ {p : Pat}, p ∈ ps.toList →
    Occ m x p → (x, m) ∈ bindersL ps
  | .nil, _, _, hp, _ => by cases hp
  | .cons q qs, ha, p, hp, ho => by
    simp only [Pats.toList, List.mem_cons] at hp
    rcases hp with he | hp
    · rw [he] at ho
      exact List.mem_append.2 (.inl (occ_binders q (ha q (by simp [Pats.toList])) ho))
    · exact List.mem_append.2 (.inr (occ_bindersL qs (fun r hr => ha r (by simp [Pats.toList, hr])) hp ho))
theorem occ_bindersF {m : Mode} {x : Name} : ∀ (fs : Fields), (∀ p ∈ fs.toList, Alt p) → ∀ {p : Pat},
    p ∈ fs.toList → Occ m x p → (x, m) ∈ bindersF fs
  | .nil, _, _, hp, _ => by cases hp
  | .cons f q qs, ha, p, hp, ho => by
    simp only [Fields.toList, List.mem_cons] at hp
    rcases hp with he | hp
    · rw [he] at ho
      exact List.mem_append.2 (.inl (occ_binders q (ha q (by simp [Fields.toList])) ho))
    · exact List.mem_append.2 (.inr (occ_bindersF qs (fun r hr => ha r (by simp [Fields.toList, hr])) hp ho))
end

/-- Nothing is bound if there are no variables. -/
theorem binds_nil {S : Sem} {p : Pat} (ha : Alt p) (hb : binders p = []) {dm : Option Bool} {l : Loc} {v : S.V}
    {bs : Binds S} (h : mtch S dm l v p = some bs) : bs = [] := by
  cases bs with
  | nil => rfl
  | cons b bs =>
    obtain ⟨m, ho⟩ := occ_of p dm l v _ h b.1 b.2 List.mem_cons_self
    have := occ_binders p ha ho
    rw [hb] at this; cases this

/-! ## The declared variables -/

theorem pairs_peel (loc : Pat) : ∀ e, pairs loc e = pairs loc (peel e)
  | .blk e => by simp only [pairs, peel]; exact pairs_peel loc e
  | .path _ | .tuple _ | .array _ | .other _ => rfl

theorem value_peel {S : Sem} (out : Name → S.V) (bs : Binds S) (other : S.V) : ∀ e,
    value S out bs other e = value S out bs other (peel e)
  | .blk e => by simp only [value, peel]; exact value_peel out bs other e
  | .path _ | .tuple _ | .array _ | .other _ => rfl

theorem zip_prs : ∀ (map : Map), ((map.map fun r => some r.1).zip (map.map (·.2.1))).filterMap
    (fun q : Option Name × Pat => q.1.map fun x => (x, q.2)) = map.prs
  | [] => rfl
  | r :: map => by simp [zip_prs map, Map.prs, ← zip_prs map]

theorem length_toList : ∀ ps : Pats, ps.length = ps.toList.length
  | .nil => rfl
  | .cons _ ps => by simp [Pats.length, Pats.toList, length_toList ps]

/-- The variables declared before. -/
def decls (S : Sem) (out : Name → S.V) (bs : Binds S) (map : Map) : Binds S :=
  map.flatMap fun r => (mtch S none .temp (lookup S out r.1 bs) r.2.1).getD []

theorem declareL {S : Sem} {out : Name → S.V} {bs : Binds S} {T : S.V} {r : Option Nat} {len : Nat} :
    ∀ (ps : Pats) (map : Map) (i : Nat), ps.toList = map.map (·.2.1) → (∀ q ∈ map, Irref S q.2.1) →
    (∀ k q, map[k]? = some q → S.field T (index r len (S.arity T) (i + k)) = lookup S out q.1 bs) →
    mtchL S (none, .temp, T) r len i ps = some (decls S out bs map)
  | .nil, map, i, h, _, _ => by
    cases map with
    | nil => rfl
    | cons _ _ => cases h
  | .cons p ps, map, i, h, hi, hf => by
    cases map with
    | nil => cases h
    | cons q map =>
      simp only [Pats.toList, List.map_cons, List.cons.injEq] at h
      obtain ⟨h1, h2⟩ := h
      simp only [mtchL]
      rw [declareL ps map (i + 1) h2 (fun a ha => hi a (List.mem_cons_of_mem _ ha)) (fun k a hk => by
        rw [Nat.add_right_comm]; exact hf (k + 1) a (by simpa using hk))]
      have hq := hf 0 q rfl
      rw [Nat.add_zero] at hq
      rw [hq, h1]
      have hi := hi q List.mem_cons_self none .temp (lookup S out q.1 bs)
      simp only [Loc.field]
      cases hm : mtch S none .temp (lookup S out q.1 bs) q.2.1 with
      | none => rw [hm] at hi; cases hi
      | some b => simp [both, decls, hm]

theorem index_all {r : Option Nat} {n i : Nat} (h : i < n) : index r n n i = i := by
  unfold index
  split
  · rfl
  · split
    · rfl
    · omega

theorem get?_map_fst {S : Sem} {out : Name → S.V} {bs : Binds S} {other : S.V} {map : Map} {k : Nat}
    {q : Name × Pat × Mode} (h : map[k]? = some q) :
    ((map.map fun r => some r.1).map (element S out bs other))[k]? = some (lookup S out q.1 bs) := by
  simp [List.getElem?_map, h, element]

theorem declare_eq {S : Sem} (L : Laws S) {loc p : Pat} {t : Ex} {map : Map} (h : identityMap loc p t = some map)
    (hi : ∀ q ∈ map, Irref S q.2.1) (out : Name → S.V) (bs : Binds S) (other : S.V) :
    declare S loc (value S out bs other t) = .vars (decls S out bs map) := by
  rw [value_peel]
  simp only [identityMap] at h
  unfold declare
  split at h
  · next ps es he =>
    rw [he]
    obtain ⟨h1, h2, _, _⟩ := build_some h
    simp only [value, mtch, L.peel_tuple]
    rw [declareL ps map 0 h1 hi]
    intro k q hk
    have hlt : k < map.length := by
      rcases Nat.lt_or_ge k map.length with h | h
      · exact h
      · rw [List.getElem?_eq_none h] at hk; cases hk
    rw [L.arity_tuple, h2, length_toList, h1]
    simp only [List.length_map, Nat.zero_add]
    rw [index_all hlt]
    exact L.field_tuple _ _ _ (get?_map_fst hk)
  · next ps es he =>
    rw [he]
    obtain ⟨h1, h2, _, _⟩ := build_some h
    simp only [value, mtch, L.peel_array]
    have hlen : S.arity (S.array (es.map (element S out bs other))) = ps.length := by
      rw [L.arity_array, length_toList, h1, h2]; simp
    rw [if_pos hlen, declareL ps map 0 h1 hi]
    intro k q hk
    simp only [index, Nat.zero_add]
    rw [h2]
    exact L.field_array _ _ _ (get?_map_fst hk)
  · next x he =>
    rw [he]
    obtain ⟨h1, h2, _, _⟩ := build_some h
    simp only [value]
    match map, h1, h2, hi with
    | [(y, q, m)], h1, h2, hi =>
      cases h1; cases h2
      have := hi _ List.mem_cons_self none .temp (lookup S out y bs)
      simp only at this
      cases hm : mtch S none .temp (lookup S out y bs) q with
      | none => rw [hm] at this; cases this
      | some b => simp [decls, hm]
  · cases h

theorem identity_facts {loc p : Pat} {t : Ex} {map : Map} (h : identityMap loc p t = some map) :
    pairs loc t = map.prs ∧ (map.map (·.1)).Nodup ∧ (∀ r ∈ map, Occ r.2.2 r.1 p) ∧ IsValue t := by
  have value : ∀ e, IsValue (peel e) → IsValue e := by
    intro e
    induction e with
    | blk e ih => intro h; exact .blk (ih h)
    | _ => intro h; exact h
  simp only [identityMap] at h
  rw [pairs_peel]
  split at h
  · next ps es he =>
    obtain ⟨h1, h2, h3, h4⟩ := build_some h
    refine ⟨?_, h3, fun r hr => binders_occ p (h4 r hr), value t (by rw [he]; exact .tuple _)⟩
    rw [he]; simp only [pairs]; rw [h1, h2]; exact zip_prs map
  · next ps es he =>
    obtain ⟨h1, h2, h3, h4⟩ := build_some h
    refine ⟨?_, h3, fun r hr => binders_occ p (h4 r hr), value t (by rw [he]; exact .array _)⟩
    rw [he]; simp only [pairs]; rw [h1, h2]; exact zip_prs map
  · next x he =>
    obtain ⟨h1, h2, h3, h4⟩ := build_some h
    refine ⟨?_, h3, fun r hr => binders_occ p (h4 r hr), value t (by rw [he]; exact .path _)⟩
    rw [he]; simp only [pairs]
    match map, h1, h2 with
    | [(y, q, m)], h1, h2 => cases h1; cases h2; rfl
  · cases h

theorem get_of_mem {x : Name} {r : Pat × Mode} : ∀ {map : Map}, (map.map (·.1)).Nodup → (x, r) ∈ map →
    get x map = some r
  | (y, r') :: rest, hn, h => by
    simp only [List.map_cons, List.nodup_cons] at hn
    unfold get
    rcases List.mem_cons.1 h with h | h
    · cases h; rw [if_pos rfl]
    · by_cases hy : y = x
      · subst hy; exact absurd (List.mem_map.2 ⟨_, h, rfl⟩) hn.1
      · rw [if_neg hy]; exact get_of_mem hn.2 h

theorem lookup_of_mem {S : Sem} {out : Name → S.V} {x : Name} {u : S.V} : ∀ {bs : Binds S},
    (bs.map (·.1)).Nodup → (x, u) ∈ bs → lookup S out x bs = u
  | (y, w) :: rest, hn, h => by
    simp only [List.map_cons, List.nodup_cons] at hn
    unfold lookup
    rcases List.mem_cons.1 h with h | h
    · cases h; rw [if_pos rfl]
    · by_cases hy : y = x
      · subst hy; exact absurd (List.mem_map.2 ⟨_, h, rfl⟩) hn.1
      · rw [if_neg hy]; exact lookup_of_mem hn.2 h

/-- A name that is declared is no other variable of the pattern, unless it is dropped. -/
theorem reached_whole {prs : List (Name × Pat)} {m : Mode} {x : Name} {p : Pat} (ho : Occ m x p)
    (hu : ¬ Used prs x) (hd : Declared prs x) : Reached prs p → Whole prs x := by
  induction ho with
  | bind => intro h; cases h with | bind _ _ h => exact absurd hd (h hu)
  | here => intro h; cases h with | bindAt _ _ _ _ h => exact h hu hd
  | bindAt _ _ _ ih => intro h; cases h with | bindAt _ _ h _ _ => exact ih h
  | tuple _ hp _ ih => intro h; cases h with | tuple _ h _ => exact ih (h _ hp)
  | ts _ _ hp _ ih => intro h; cases h with | ts _ _ h => exact ih (h _ hp)
  | strct _ _ hp ho ih =>
    intro h
    cases h with
    | strct _ _ h =>
      rcases h _ hp with h | ⟨m', y, rfl, h⟩
      · exact absurd hd (h _ _ ho).2
      · cases ho; exact absurd hd (h hu)
  | or hp _ ih => intro h; cases h with | or h => exact ih (h _ hp)
  | slice hp ho _ => intro h; cases h with | slice h => exact absurd hd (h _ _ (.slice hp ho)).2
  | ref ho _ => intro h; cases h with | ref h => exact absurd hd (h _ _ (.ref ho)).2

/-! ## The theorems -/

/-- The pattern that replaces `if let`. -/
theorem emit_same {S : Sem} (L : Laws S) {loc p p' : Pat} {t : Ex} {map : Map} {els : Ex}
    (h : identityMap loc p t = some map) (he : (emit map p els).pat = some p') (hw : WellFormed S p)
    {v : S.V} (hr : Reached (pairs loc t) p) (hl : LetOk S (pairs loc t) p v) (out : Name → S.V) (other : S.V) :
    (∀ bs, mtch S none (.at []) v p = some bs → ∃ bs', mtch S none (.at []) v p' = some bs' ∧
      Same (Extra (pairs loc t) p) (declare S loc (value S out bs other t)) (.vars bs')) ∧
    (mtch S none (.at []) v p = none → mtch S none (.at []) v p' = none) := by
  obtain ⟨h1, h2, h3, _⟩ := identity_facts h
  rw [h1] at hr hl ⊢
  have hi : ∀ q ∈ map, Irref S q.2.1 := fun q hq => hl.irref q.1 q.2.1 (mem_prs (m := q.2.2) hq)
  have ok : MapOk S map := ⟨hl.simple, hl.irref, fun x q m hm =>
    hl.prefix_ x q m (mem_prs hm) (h3 _ hm)⟩
  have hmode : ∀ m x, Occ m x p → ∀ q m', get x map = some (q, m') → m' = m := fun m x ho q m' hg =>
    hw.mode _ _ x (h3 _ (get_mem hg)) ho
  have hfit : Fits S map none v := hl.mut_.imp id fun h => ⟨rfl, h⟩
  have key : mtch S none (.at []) v p' = (mtch S none (.at []) v p).map (expand S map) := by
    simp only [emit] at he
    cases map with
    | nil =>
      cases he
      cases hm : mtch S none (.at []) v p with
      | none => rfl
      | some bs =>
        have : ∀ bs : Binds S, expand S [] bs = bs := by
          intro bs
          induction bs with
          | nil => rfl
          | cons b bs ih => simp only [expand, List.flatMap_cons] at ih ⊢; rw [ih]; rfl
        simp [this bs]
    | cons r map => exact replace_same L ok p p' hr hmode he none (.at []) v hfit
  rw [key]
  refine ⟨fun bs hb => ⟨expand S map bs, by rw [hb]; rfl, ?_⟩, fun hb => by rw [hb]; rfl⟩
  rw [declare_eq L h hi]
  refine .vars _ _ fun y w hx => ⟨fun hy => ?_, fun hy => ?_⟩
  · obtain ⟨⟨x, q, m⟩, hq, hy⟩ := List.mem_flatMap.1 hy
    obtain ⟨u, hu⟩ := hw.all _ _ _ _ hb m x (h3 _ hq)
    refine List.mem_flatMap.2 ⟨(x, u), hu, ?_⟩
    simp only [expand1, get_of_mem h2 hq]
    rw [← lookup_of_mem (out := out) (hw.once _ _ _ _ hb) hu]
    exact hy
  · obtain ⟨⟨x, u⟩, hu, hy⟩ := List.mem_flatMap.1 hy
    simp only [expand1] at hy
    cases hg : get x map with
    | some r =>
      rw [hg] at hy
      refine List.mem_flatMap.2 ⟨(x, r), get_mem hg, ?_⟩
      simp only
      rw [lookup_of_mem (out := out) (hw.once _ _ _ _ hb) hu]
      exact hy
    | none =>
      rw [hg] at hy
      simp only at hy
      split at hy
      · cases hy
      · next hs =>
        simp only [List.mem_singleton, Prod.mk.injEq] at hy
        obtain ⟨rfl, rfl⟩ := hy
        obtain ⟨m, ho⟩ := occ_of p _ _ _ _ hb y w hu
        exact absurd ⟨⟨m, ho⟩, get_none hg, fun hd =>
          absurd (whole_shadowed (reached_whole ho (get_none hg) hd hr)) hs⟩ hx

/-- `let P = if let p = s { t } else { e };` declares what `let p' = s else { e };` declares, and otherwise both
leave with `e`.  Partial: the variables of `p` are where the code looks for them, and have no names that `P`
declares; the patterns of `P` bind no references and do not meet prefixes; variables which `t` does not use are not
compared. -/
theorem if_let_same_partial {fa : Facts} {S : Sem} (L : Laws S) {loc p p' : Pat} {t : Ex} {e : Option Ex}
    {ed : Edit} (h : check fa loc (.ifLet p t e) = some ed) (hp : ed.pat = some p') (hw : WellFormed S p) {v : S.V}
    (hr : Reached (pairs loc t) p) (hl : LetOk S (pairs loc t) p v) (out : Name → S.V) (other : S.V) :
    ∃ e', e = some e' ∧
      Same (Extra (pairs loc t) p) (runIfLet S out other loc p t e' v) (runLetElse S ed v) := by
  cases e with
  | none => cases h
  | some e =>
    refine ⟨e, rfl, ?_⟩
    simp only [check] at h
    by_cases hn : fa.never e = true
    · rw [if_pos hn] at h
      cases hm : identityMap loc p t with
      | none => rw [hm] at h; cases h
      | some map =>
        rw [hm] at h
        cases h
        obtain ⟨h1, h2⟩ := emit_same L hm hp hw hr hl out other
        unfold runIfLet runLetElse
        rw [hp]
        cases hb : mtch S none (.at []) v p with
        | none => simp only [h2 hb]; exact .leave [] e
        | some bs =>
          obtain ⟨bs', hb', hs⟩ := h1 bs hb
          simp only [hb']
          exact hs
    · rw [if_neg hn] at h; cases h

theorem enumVariant_ctor {fa : Facts} {p : Pat} (h : isEnumVariant fa p = true) : ∃ c, ctorOf p = some c := by
  cases p <;> first | exact ⟨_, rfl⟩ | cases h

theorem ctorOf_match {S : Sem} {p : Pat} {c : Nat} (h : ctorOf p = some c) {dm : Option Bool} {l : Loc} {v : S.V}
    {bs : Binds S} (hm : mtch S dm l v p = some bs) : S.isCtor c (S.peel dm l v).2.2 = true := by
  cases p with
  | path c' =>
    cases h
    simp only [mtch] at hm
    split at hm
    · assumption
    · cases hm
  | ts c' r ps =>
    cases h
    simp only [mtch] at hm
    split at hm
    · assumption
    · cases hm
  | strct c' d fs =>
    cases h
    simp only [mtch] at hm
    split at hm
    · assumption
    · cases hm
  | _ => cases h

/-- `let P = match s { a, b };` where one of the arms leaves declares what `let p = s else { … };` does.
Partial: as for `if let`, and two variants are different. -/
theorem match_same_partial {fa : Facts} {S : Sem} (L : Laws S) {loc : Pat} {as : List Arm} {ed : Edit} {p' : Pat}
    (h : check fa loc (.mtch as) = some ed) (hp : ed.pat = some p') {leaves : Ex → Bool}
    (hnever : ∀ e, fa.never e = true → leaves e = true) (hval : ∀ e, IsValue e → leaves e = false)
    (hctor : ∀ v c c', S.isCtor c v = true → S.isCtor c' v = true → c = c')
    (hdiff : ∀ a b, as = [a, b] → leaves a.body = true → ctorOf a.pat ≠ ctorOf b.pat)
    (hw : ∀ a ∈ as, WellFormed S a.pat) (ha : ∀ a ∈ as, Alt a.pat) {v : S.V}
    (hr : ∀ a ∈ as, leaves a.body = false → Reached (pairs loc a.body) a.pat)
    (hl : ∀ a ∈ as, leaves a.body = false → LetOk S (pairs loc a.body) a.pat v)
    (hex : ∃ a ∈ as, (mtch S none (.at []) v a.pat).isSome = true)
    (out : Name → S.V) (other : S.V) :
    ∃ a ∈ as, leaves a.body = false ∧ (∀ b ∈ as, b.guard = false) ∧
      Same (Extra (pairs loc a.body) a.pat) (runArms S out other leaves loc v as) (runLetElse S ed v) := by
  match as, h, hdiff, hw, ha, hr, hl, hex with
  | [a, b], h, hdiff, hw, ha, hr, hl, hex =>
    have ma : a ∈ [a, b] := by simp
    have mb : b ∈ [a, b] := by simp
    simp only [check] at h
    by_cases hg : (a.guard || b.guard) = true
    · rw [if_pos hg] at h; cases h
    rw [if_neg hg] at h
    have hguard : ∀ c ∈ [a, b], c.guard = false := by
      intro c hc
      simp only [List.mem_cons, List.not_mem_nil, or_false] at hc
      rcases hc with he | he <;> rw [he] <;> cases hga : a.guard <;> cases hgb : b.guard <;> simp_all
    by_cases hla : leaving fa a = true
    · rw [if_pos hla] at h
      by_cases hv : (isEnumVariant fa a.pat && isEnumVariant fa b.pat) = true
      · rw [if_pos hv] at h
        simp only [Bool.and_eq_true] at hv
        simp only [leaving, allowedElse, Bool.and_eq_true, List.isEmpty_iff] at hla
        cases hm : identityMap loc b.pat b.body with
        | none => rw [hm] at h; cases h
        | some map =>
          rw [hm] at h
          cases h
          have hb : leaves b.body = false := hval _ (identity_facts hm).2.2.2
          have hla' := hnever _ hla.1
          refine ⟨b, mb, hb, hguard, ?_⟩
          obtain ⟨h1, h2⟩ := emit_same L hm hp (hw b mb) (hr b mb hb) (hl b mb hb) out other
          obtain ⟨c, hc⟩ := enumVariant_ctor hv.1
          obtain ⟨c', hc'⟩ := enumVariant_ctor hv.2
          unfold runLetElse
          rw [hp]
          simp only [runArms]
          cases hma : mtch S none (.at []) v a.pat with
          | some bs =>
            cases hmb : mtch S none (.at []) v b.pat with
            | some bs' =>
              have := hctor _ _ _ (ctorOf_match hc hma) (ctorOf_match hc' hmb)
              exact absurd (by rw [hc, hc', this]) (hdiff a b rfl hla')
            | none =>
              have := binds_nil (ha a ma) hla.2.1 hma
              subst this
              simp only [hla', if_true, h2 hmb]
              exact .leave [] a.body
          | none =>
            cases hmb : mtch S none (.at []) v b.pat with
            | some bs' =>
              obtain ⟨bs1, hb1, hs⟩ := h1 bs' hmb
              simp only [hb, hb1]
              exact hs
            | none =>
              obtain ⟨a', ha', hs⟩ := hex
              simp only [List.mem_cons, List.not_mem_nil, or_false] at ha'
              rcases ha' with rfl | rfl
              · rw [hma] at hs; cases hs
              · rw [hmb] at hs; cases hs
      · rw [if_neg hv] at h; cases h
    · rw [if_neg hla] at h
      by_cases hlb : leaving fa b = true
      · rw [if_pos hlb] at h
        simp only [leaving, allowedElse, Bool.and_eq_true, List.isEmpty_iff] at hlb
        cases hm : identityMap loc a.pat a.body with
        | none => rw [hm] at h; cases h
        | some map =>
          rw [hm] at h
          cases h
          have hb : leaves a.body = false := hval _ (identity_facts hm).2.2.2
          have hlb' := hnever _ hlb.1
          refine ⟨a, ma, hb, hguard, ?_⟩
          obtain ⟨h1, h2⟩ := emit_same L hm hp (hw a ma) (hr a ma hb) (hl a ma hb) out other
          unfold runLetElse
          rw [hp]
          simp only [runArms]
          cases hma : mtch S none (.at []) v a.pat with
          | some bs =>
            obtain ⟨bs1, hb1, hs⟩ := h1 bs hma
            simp only [hb, hb1]
            exact hs
          | none =>
            cases hmb : mtch S none (.at []) v b.pat with
            | some bs' =>
              have := binds_nil (ha b mb) hlb.2.1 hmb
              subst this
              simp only [hlb', if_true, h2 hma]
              exact .leave [] b.body
            | none =>
              obtain ⟨a', ha', hs⟩ := hex
              simp only [List.mem_cons, List.not_mem_nil, or_false] at ha'
              rcases ha' with rfl | rfl
              · rw [hma] at hs; cases hs
              · rw [hmb] at hs; cases hs
      · rw [if_neg hlb] at h; cases h

end Verif.LetElse
