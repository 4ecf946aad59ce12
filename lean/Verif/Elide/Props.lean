import Verif.Elide.Visit

/-!
# Eliding the lifetimes keeps the signature
-/

namespace Verif.Elide

/-- What is known if the lint fires. -/
structure Fires (s : Sig) (es : List Id) : Prop where
  plainIn : s.inputs.all plain = true
  plainOut : plain s.output = true
  body : ∀ a, Lt.named a ∉ s.body
  ins : ∀ a, Lt.named a ∈ s.inputLts → a ∈ s.params
  nestedIn : ∀ a ∈ s.params, Lt.named a ∉ (s.inputs.foldl (fun v t => visit t v) V.new).nested
  nestedOut : ∀ a ∈ s.params, Lt.named a ∉ (visit s.output V.new).nested
  once : ∀ a ∈ es, s.inputLts.count (.named a) = 1
  out : ∀ a ∈ es, s.inputLts.length = 1 ∨ Lt.named a ∉ s.output.own
  preds : ∀ p ∈ s.preds, whereLt p = false

theorem fires {s : Sig} {es : List Id} (h : check s = some es) : Fires s es := by
  unfold check at h
  by_cases h1 : s.preds.any whereLt = true
  · simp [h1] at h
  rw [if_neg h1] at h
  by_cases h2 : s.preds.any boundLt = true
  · simp [h2] at h
  rw [if_neg h2] at h
  simp only [couldElide] at h
  split at h
  · simp at h
  rename_i hf
  split at h
  · simp at h
  split at h
  · simp at h
  rename_i hb
  split at h
  · simp at h
  rename_i hi
  split at h
  · simp at h
  rename_i hn
  split at h
  · simp at h
  simp only [Option.some.injEq] at h
  simp only [Bool.or_eq_true, not_or, Bool.not_eq_true, fold_flag, visit_flag] at hf
  simp only [Bool.or_eq_false_iff, Bool.not_eq_false'] at hf
  obtain ⟨⟨_, hp⟩, ⟨_, hq⟩⟩ := hf
  have el : (s.inputs.foldl (fun v t => visit t v) V.new).lts = s.inputLts := by
    rw [fold_lts _ _ hp]; simp [V.new, Sig.inputLts]
  have eo : (visit s.output V.new).lts = s.output.own := by
    rw [visit_lts _ _ hq]; simp [V.new]
  rw [el, eo] at h hi
  refine ⟨hp, hq, ?_, ?_, ?_, ?_, ?_, ?_, ?_⟩
  · intro a ha
    exact hb (List.any_eq_true.2 ⟨_, ha, rfl⟩)
  · intro a ha
    cases hc : s.params.contains a with
    | true => simpa using hc
    | false =>
      exact (hi (List.any_eq_true.2 ⟨.named a, by simp [ha], by simp only [named, hc]; rfl⟩)).elim
  · intro a ha hm
    exact hn (List.any_eq_true.2 ⟨.named a, by simp [hm], by simpa [named] using ha⟩)
  · intro a ha hm
    exact hn (List.any_eq_true.2 ⟨.named a, by simp [hm], by simpa [named] using ha⟩)
  · intro a ha; rw [← h] at ha; exact (pick_spec _ _ _ ha).1
  · intro a ha; rw [← h] at ha; exact (pick_spec _ _ _ ha).2
  · intro p hp'
    simp only [List.any_eq_true, not_exists, not_and, Bool.not_eq_true] at h1
    exact h1 p hp'

theorem Fires.mem {s : Sig} {es : List Id} (h : Fires s es) {a : Id} (ha : a ∈ es) : Lt.named a ∈ s.inputLts := by
  have := h.once a ha
  exact List.count_pos_iff.1 (by omega)

theorem Fires.param {s : Sig} {es : List Id} (h : Fires s es) {a : Id} (ha : a ∈ es) : a ∈ s.params :=
  h.ins a (h.mem ha)

/-- No lifetime that is elided occurs in an inner scope. -/
theorem Fires.site {s : Sig} {es : List Id} (h : Fires s es) (ho : ∀ a ∈ s.params, a ∉ s.objNames) {t : Ty Lt}
    (ht : t ∈ s.inputs ∨ t = s.output) : ∀ a ∈ siteNames t, a ∉ es := by
  intro a ha he
  have hp := h.param he
  have hno := ho a hp
  simp only [Sig.objNames, List.mem_append, not_or, List.mem_flatMap] at hno
  rcases ht with ht | rfl
  · rcases fold_siteNames s.inputs V.new t ht a ha with h' | h'
    · exact hno.1.1 ⟨t, ht, h'⟩
    · exact h.nestedIn a hp h'
  · rcases siteNames_seen s.output V.new a ha with h' | h'
    · exact hno.1.2 h'
    · exact h.nestedOut a hp h'

/-! ## The renaming -/

/-- The parameters that are elided become those of their position. -/
def rename (ls : List Lt) (es : List Id) : Region → Region
  | .named a => if es.contains a then .fresh (ls.idxOf (.named a)) else .named a
  | r => r

theorem map_fix (f : Region → Region) (t : Ty Lt) (h : ∀ a ∈ t.names, f (.named a) = .named a)
    (hs : f .static = .static) (hi : f .inner = .inner) :
    (t.map Lt.inside).map f = t.map Lt.inside := by
  have leaf : ∀ l : Lt, (∀ a ∈ Ty.names.nm l, f (.named a) = .named a) → f l.inside = l.inside := by
    intro l hl
    cases l with
    | named a => exact hl a (by simp [Ty.names.nm])
    | anon => exact hi
    | static => exact hs
  induction t with
  | con c => rfl
  | lt l => simp only [Ty.map]; rw [leaf l h]
  | ref l t ih =>
    simp only [Ty.map]
    rw [leaf l (fun a ha => h a (by simp [Ty.names, ha])), ih (fun a ha => h a (by simp [Ty.names, ha]))]
  | app t u ih1 ih2 =>
    simp only [Ty.map]
    rw [ih1 (fun a ha => h a (by simp [Ty.names, ha])), ih2 (fun a ha => h a (by simp [Ty.names, ha]))]
  | site t ih => simp only [Ty.map]; rw [ih h]
  | dyn l t ih =>
    simp only [Ty.map]
    rw [ih (fun a ha => h a (by simp [Ty.names, ha]))]
    cases l with
    | none => rfl
    | some l =>
      simp only [Option.map_some]
      rw [leaf l (fun a ha => h a (by simp [Ty.names, ha]))]

/-- The types are the same if their lifetimes are. -/
theorem fill_new (f g : Nat → Lt → Region) (ρ : Region → Region) (es : List Id) (t : Ty Lt) (n : Nat)
    (hp : plain t = true)
    (hl : ∀ (i : Nat) l, t.own[i]? = some l → g (n + i) (newLt es l) = ρ (f (n + i) l))
    (hs : ∀ a ∈ siteNames t, ρ (.named a) = .named a) (hst : ρ .static = .static) (hi : ρ .inner = .inner) :
    (newTy es t).own.length = t.own.length ∧ (newTy es t).fill g n = (t.fill f n).map ρ := by
  induction t generalizing n with
  | con c => exact ⟨rfl, rfl⟩
  | lt l =>
    refine ⟨rfl, ?_⟩
    have : g n (newLt es l) = ρ (f n l) := hl 0 l rfl
    simp only [newTy, Ty.fill, Ty.map]
    rw [← this]
  | ref l t ih =>
    have h0 : g n (newLt es l) = ρ (f n l) := hl 0 l rfl
    obtain ⟨e1, e2⟩ := ih (n + 1) hp (fun i x hx => by
      have := hl (i + 1) x (by simpa [Ty.own] using hx)
      rw [show n + 1 + i = n + (i + 1) by omega]; exact this) hs
    simp only [newTy, Ty.fill, Ty.map, Ty.own, List.length_cons]
    rw [e2, ← h0, e1]
    exact ⟨rfl, rfl⟩
  | app t u ih1 ih2 =>
    simp only [plain, Bool.and_eq_true] at hp
    obtain ⟨e1, e2⟩ := ih1 n hp.1 (fun i x hx => hl i x (by
      simp only [Ty.own]
      rw [List.getElem?_append_left (by
        have := (List.getElem?_eq_some_iff.1 hx).1; exact this)]
      exact hx)) (fun a ha => hs a (by simp [siteNames, ha]))
    obtain ⟨e3, e4⟩ := ih2 (n + t.own.length) hp.2 (fun i x hx => by
      have := hl (t.own.length + i) x (by
        simp only [Ty.own]
        rw [List.getElem?_append_right (by omega)]
        rw [show t.own.length + i - t.own.length = i by omega]; exact hx)
      rw [show n + t.own.length + i = n + (t.own.length + i) by omega]; exact this)
      (fun a ha => hs a (by simp [siteNames, ha]))
    simp only [newTy, Ty.fill, Ty.map, Ty.own, List.length_append]
    rw [e2, e1, e4, e3]
    exact ⟨rfl, rfl⟩
  | site t ih =>
    refine ⟨rfl, ?_⟩
    simp only [newTy, Ty.fill, Ty.map]
    rw [map_fix ρ t hs hst hi]
  | dyn l t ih =>
    simp only [plain, Bool.and_eq_true, Option.isNone_iff_eq_none] at hp
    obtain ⟨rfl, hp⟩ := hp
    obtain ⟨e1, e2⟩ := ih n hp (fun i x hx => hl i x (by simpa [Ty.own] using hx)) hs
    simp only [newTy, Ty.fill, Ty.map, Ty.own, Option.toList, List.nil_append]
    rw [e2]
    exact ⟨e1, rfl⟩

theorem own_new (es : List Id) (t : Ty Lt) (hp : plain t = true) : (newTy es t).own = t.own.map (newLt es) := by
  induction t with
  | con c => rfl
  | lt l => rfl
  | ref l t ih => simp only [newTy, Ty.own, List.map_cons]; rw [ih hp]
  | app t u ih1 ih2 =>
    simp only [plain, Bool.and_eq_true] at hp
    simp only [newTy, Ty.own, List.map_append]; rw [ih1 hp.1, ih2 hp.2]
  | site t ih => rfl
  | dyn l t ih =>
    simp only [plain, Bool.and_eq_true, Option.isNone_iff_eq_none] at hp
    obtain ⟨rfl, hp⟩ := hp
    simp only [newTy, Ty.own, Option.toList, List.nil_append]; rw [ih hp]

/-- The renaming does what elision does, position by position. -/
theorem rename_at {s : Sig} {es : List Id} (h : Fires s es) (i : Nat) (l : Lt) (hl : s.inputLts[i]? = some l) :
    inRegion i (newLt es l) = rename s.inputLts es (inRegion i l) := by
  cases l with
  | anon => rfl
  | static => rfl
  | named a =>
    simp only [newLt, named, inRegion, rename]
    by_cases ha : es.contains a = true
    · rw [if_pos ha, if_pos ha]
      have hm : Lt.named a ∈ s.inputLts := List.mem_of_getElem? hl
      have hlt := List.idxOf_lt_length_of_mem hm
      have hg : s.inputLts[s.inputLts.idxOf (.named a)]? = some (.named a) := by
        rw [List.getElem?_eq_getElem hlt, List.getElem_idxOf hlt]
      rw [count_unique (h.once a (by simpa using ha)) i _ hl hg]
    · rw [if_neg ha, if_neg ha]

theorem fillAll_new {s : Sig} {es : List Id} (h : Fires s es) (ts : List (Ty Lt)) (n : Nat)
    (hp : ts.all plain = true)
    (hl : ∀ (i : Nat) l, (ts.flatMap Ty.own)[i]? = some l → s.inputLts[n + i]? = some l)
    (hs : ∀ t ∈ ts, ∀ a ∈ siteNames t, a ∉ es) :
    fillAll n (ts.map (newTy es)) = (fillAll n ts).map (Ty.map (rename s.inputLts es)) := by
  induction ts generalizing n with
  | nil => rfl
  | cons t ts ih =>
    simp only [List.all_cons, Bool.and_eq_true] at hp
    simp only [List.flatMap_cons] at hl
    obtain ⟨e1, e2⟩ := fill_new inRegion inRegion (rename s.inputLts es) es t n hp.1
      (fun i l hi => rename_at h (n + i) l (hl i l (by
        rw [List.getElem?_append_left (List.getElem?_eq_some_iff.1 hi).1]; exact hi)))
      (fun a ha => by
        have := hs t (by simp) a ha
        simp [rename, this]) rfl rfl
    simp only [List.map_cons, fillAll]
    rw [e2, e1, ih (n + t.own.length) hp.2 (fun i l hi => by
      have := hl (t.own.length + i) l (by
        rw [List.getElem?_append_right (by omega), show t.own.length + i - t.own.length = i by omega]; exact hi)
      rw [show n + t.own.length + i = n + (t.own.length + i) by omega]; exact this)
      (fun u hu => hs u (by simp [hu]))]

theorem regions_new {s : Sig} {es : List Id} (h : Fires s es) (ls : List Lt) (n : Nat)
    (hl : ∀ (i : Nat) l, ls[i]? = some l → s.inputLts[n + i]? = some l) :
    regionsFrom n (ls.map (newLt es)) = (regionsFrom n ls).map (rename s.inputLts es) := by
  induction ls generalizing n with
  | nil => rfl
  | cons l ls ih =>
    simp only [List.map_cons, regionsFrom]
    rw [rename_at h n l (hl 0 l rfl), ih (n + 1) (fun i x hx => by
      have := hl (i + 1) x (by simpa using hx)
      rw [show n + 1 + i = n + (i + 1) by omega]; exact this)]

theorem only_map (f : Region → Region) (rs : List Region) (r : Region) (h : only rs = some r) :
    only (rs.map f) = some (f r) := by
  cases rs with
  | nil => simp [only] at h
  | cons x rs =>
    simp only [only, Option.ite_none_right_eq_some, Option.some.injEq] at h
    obtain ⟨h, rfl⟩ := h
    simp only [List.map_cons, only]
    rw [if_pos]
    simp only [List.all_eq_true, List.mem_map, beq_iff_eq] at h ⊢
    rintro y ⟨z, hz, rfl⟩
    rw [h z hz]

theorem inputLts_elide {s : Sig} {es : List Id} (h : Fires s es) :
    (elide es s).inputLts = s.inputLts.map (newLt es) := by
  simp only [Sig.inputLts, elide]
  have := h.plainIn
  generalize s.inputs = ts at this ⊢
  induction ts with
  | nil => rfl
  | cons t ts ih =>
    simp only [List.all_cons, Bool.and_eq_true] at this
    simp [own_new es t this.1, ih this.2]

/-- The lifetime for those that are not written in the result. -/
theorem default_new {s : Sig} {es : List Id} (h : Fires s es) (r : Region) (hr : s.default = some r) :
    (elide es s).default = some (rename s.inputLts es r) := by
  simp only [Sig.default] at hr ⊢
  have e : (elide es s).selfRef = s.selfRef := rfl
  rw [e]
  by_cases hs : s.selfRef = true
  · rw [if_pos hs] at hr ⊢
    cases hin : s.inputs with
    | nil => rw [hin] at hr; simp at hr
    | cons t ts =>
      rw [hin] at hr
      cases t with
      | ref l t =>
        simp only [Option.some.injEq] at hr
        subst hr
        simp only [elide, hin, List.map_cons, newTy]
        rw [rename_at h 0 l (by simp [Sig.inputLts, hin, Ty.own])]
      | _ => simp at hr
  · rw [if_neg hs] at hr ⊢
    rw [inputLts_elide h, regions_new h s.inputLts 0 (fun i l hl => by simpa using hl)]
    exact only_map _ _ _ hr

/-- If a lifetime that is elided occurs in the result, it is the one for those not written. -/
theorem default_out {s : Sig} {es : List Id} (h : Fires s es) {a : Id} (ha : a ∈ es) (ho : Lt.named a ∈ s.output.own)
    (hr : s.selfRef = true → s.default ≠ none) : s.default = some (.named a) := by
  have h1 : s.inputLts.length = 1 := by
    rcases h.out a ha with h' | h'
    · exact h'
    · exact absurd ho h'
  have hm := h.mem ha
  have e : s.inputLts = [.named a] := by
    match hls : s.inputLts, h1 with
    | [x], _ => rw [hls] at hm; simp at hm; rw [← hm]
  by_cases hs : s.selfRef = true
  · have := hr hs
    simp only [Sig.default] at this ⊢
    rw [if_pos hs] at this ⊢
    cases hin : s.inputs with
    | nil => rw [hin] at this; simp at this
    | cons t ts =>
      rw [hin] at this
      cases t with
      | ref l t =>
        simp only [Sig.inputLts, hin, List.flatMap_cons, Ty.own, List.cons_append, List.cons.injEq] at e
        rw [e.1]; rfl
      | _ => simp at this
  · simp only [Sig.default]
    rw [if_neg hs, e]
    rfl

/-- The result after the suggestion. -/
theorem result_new {s : Sig} {es : List Id} (h : Fires s es) (hself : s.Self)
    (ho : ∀ a ∈ s.params, a ∉ s.objNames) (o : Ty Region) (hr : s.result = some o) :
    (elide es s).result = some (o.map (rename s.inputLts es)) := by
  have eo : (elide es s).output = newTy es s.output := rfl
  have hself' : s.selfRef = true → s.default ≠ none := by
    intro hs
    obtain ⟨l, t, ts, e⟩ := hself hs
    simp only [Sig.default, e]
    rw [if_pos hs]; simp
  have hsite : ∀ a ∈ siteNames s.output, rename s.inputLts es (.named a) = .named a := by
    intro a ha
    have := h.site ho (Or.inr rfl) a ha
    simp [rename, this]
  have step : ∀ r r' : Region,
      (∀ l ∈ s.output.own, outRegion r' 0 (newLt es l) = rename s.inputLts es (outRegion r 0 l)) →
      (newTy es s.output).fill (outRegion r') 0 = (s.output.fill (outRegion r) 0).map (rename s.inputLts es) := by
    intro r r' hl
    refine (fill_new (outRegion r) (outRegion r') (rename s.inputLts es) es s.output 0 h.plainOut ?_ hsite rfl rfl).2
    intro i l hi
    exact hl l (List.mem_of_getElem? hi)
  have hnamed : ∀ a, a ∉ es → newLt es (.named a) = .named a := by
    intro a ha; simp [newLt, named, ha]
  simp only [Sig.result, eo, own_new es s.output h.plainOut] at hr ⊢
  by_cases ha : ∃ a ∈ es, Lt.named a ∈ s.output.own
  · obtain ⟨a, ha, hm⟩ := ha
    have hd := default_out h ha hm hself'
    have hc : (s.output.own.map (newLt es)).contains Lt.anon = true := by
      simp only [List.contains_eq_mem, List.mem_map, decide_eq_true_eq]
      exact ⟨_, hm, by simp [newLt, named, ha]⟩
    rw [if_pos hc, default_new h _ hd]
    have hall : ∀ b ∈ es, Lt.named b ∈ s.output.own → b = a := by
      intro b hb hbm
      have := default_out h hb hbm hself'
      rw [hd] at this
      simpa using this.symm
    have key : ∀ r : Region, (Lt.anon ∈ s.output.own → r = .named a) →
        ∀ l ∈ s.output.own, outRegion (rename s.inputLts es (.named a)) 0 (newLt es l)
          = rename s.inputLts es (outRegion r 0 l) := by
      intro r hra l hl
      cases l with
      | anon => rw [hra hl]; rfl
      | static => rfl
      | named b =>
        by_cases hb : b ∈ es
        · rw [hall b hb hl]; simp [newLt, named, ha, outRegion]
        · rw [hnamed b hb]; simp [outRegion, rename, hb]
    by_cases hcon : s.output.own.contains Lt.anon = true
    · rw [if_pos hcon, hd] at hr
      simp only [Option.map_some, Option.some.injEq] at hr ⊢
      rw [← hr, step (.named a) _ (key _ (fun _ => rfl))]
    · rw [if_neg hcon] at hr
      simp only [Option.map_some, Option.some.injEq] at hr ⊢
      rw [← hr, step .static _ (key _ (fun hm => (hcon (by simpa using hm)).elim))]
  · have hno : ∀ l ∈ s.output.own, newLt es l = l := by
      intro l hl
      cases l with
      | anon => rfl
      | static => rfl
      | named a => exact hnamed a (fun he => ha ⟨a, he, hl⟩)
    have hmap : s.output.own.map (newLt es) = s.output.own := by
      conv => rhs; rw [← List.map_id s.output.own]
      exact List.map_congr_left hno
    rw [hmap]
    have key : ∀ r : Region, ∀ l ∈ s.output.own, outRegion (rename s.inputLts es r) 0 (newLt es l)
        = rename s.inputLts es (outRegion r 0 l) := by
      intro r l hl
      rw [hno l hl]
      cases l with
      | anon => rfl
      | static => rfl
      | named b =>
        have hb : b ∉ es := fun he => ha ⟨b, he, hl⟩
        simp [outRegion, rename, hb]
    by_cases hcon : s.output.own.contains Lt.anon = true
    · rw [if_pos hcon] at hr ⊢
      cases hd : s.default with
      | none => rw [hd] at hr; simp at hr
      | some r =>
        rw [hd] at hr
        simp only [Option.map_some, Option.some.injEq] at hr
        rw [default_new h r hd]
        simp only [Option.map_some, Option.some.injEq]
        rw [← hr, step r _ (key r)]
    · rw [if_neg hcon] at hr ⊢
      simp only [Option.some.injEq] at hr ⊢
      rw [← hr]
      exact step .static .static (key .static)

/-! ## The renaming is one -/

/-- A region that occurs: if it has no name, it comes from a lifetime that is not written. -/
def Occurs (s : Sig) (r : Region) : Prop := ∀ k, r = .fresh k → s.inputLts[k]? = some .anon

theorem occurs_in {s : Sig} (k : Nat) (l : Lt) (h : s.inputLts[k]? = some l) : Occurs s (inRegion k l) := by
  intro j hj
  cases l <;> simp [inRegion] at hj
  rw [← hj]; exact h

theorem inside_occurs {s : Sig} (t : Ty Lt) : ∀ r ∈ (t.map Lt.inside).regions, Occurs s r := by
  have leaf : ∀ l : Lt, Occurs s l.inside := by
    intro l j hj; cases l <;> simp [Lt.inside] at hj
  induction t with
  | con c => intro r hr; simp [Ty.map, Ty.regions] at hr
  | lt l => intro r hr; simp [Ty.map, Ty.regions] at hr; rw [hr]; exact leaf l
  | ref l t ih =>
    intro r hr
    simp only [Ty.map, Ty.regions, List.mem_cons] at hr
    rcases hr with rfl | hr
    · exact leaf l
    · exact ih r hr
  | app t u ih1 ih2 =>
    intro r hr
    simp only [Ty.map, Ty.regions, List.mem_append] at hr
    rcases hr with hr | hr
    · exact ih1 r hr
    · exact ih2 r hr
  | site t ih => exact ih
  | dyn l t ih =>
    intro r hr
    simp only [Ty.map, Ty.regions, List.mem_append] at hr
    rcases hr with hr | hr
    · cases l with
      | none => simp at hr
      | some l => simp at hr; rw [hr]; exact leaf l
    · exact ih r hr

theorem fill_occurs {s : Sig} (f : Nat → Lt → Region) (t : Ty Lt) (n : Nat)
    (hl : ∀ (i : Nat) l, t.own[i]? = some l → Occurs s (f (n + i) l)) :
    ∀ r ∈ (t.fill f n).regions, Occurs s r := by
  induction t generalizing n with
  | con c => intro r hr; simp [Ty.fill, Ty.regions] at hr
  | lt l => intro r hr; simp [Ty.fill, Ty.regions] at hr; rw [hr]; exact hl 0 l rfl
  | ref l t ih =>
    intro r hr
    simp only [Ty.fill, Ty.regions, List.mem_cons] at hr
    rcases hr with rfl | hr
    · exact hl 0 l rfl
    · refine ih (n + 1) (fun i x hx => ?_) r hr
      have := hl (i + 1) x (by simpa [Ty.own] using hx)
      rw [show n + 1 + i = n + (i + 1) by omega]; exact this
  | app t u ih1 ih2 =>
    intro r hr
    simp only [Ty.fill, Ty.regions, List.mem_append] at hr
    rcases hr with hr | hr
    · refine ih1 n (fun i x hx => hl i x ?_) r hr
      simp only [Ty.own]
      rw [List.getElem?_append_left (List.getElem?_eq_some_iff.1 hx).1]; exact hx
    · refine ih2 (n + t.own.length) (fun i x hx => ?_) r hr
      have := hl (t.own.length + i) x (by
        simp only [Ty.own]
        rw [List.getElem?_append_right (by omega), show t.own.length + i - t.own.length = i by omega]; exact hx)
      rw [show n + t.own.length + i = n + (t.own.length + i) by omega]; exact this
  | site t ih => exact inside_occurs t
  | dyn l t ih =>
    intro r hr
    cases l with
    | none =>
      simp only [Ty.fill, Ty.regions, Option.toList, List.nil_append] at hr
      exact ih n (fun i x hx => hl i x (by simpa [Ty.own] using hx)) r hr
    | some l =>
      simp only [Ty.fill, Ty.regions, Option.toList, List.cons_append, List.nil_append, List.mem_cons] at hr
      rcases hr with rfl | hr
      · exact hl 0 l rfl
      · refine ih (n + 1) (fun i x hx => ?_) r hr
        have := hl (i + 1) x (by simpa [Ty.own] using hx)
        rw [show n + 1 + i = n + (i + 1) by omega]; exact this

theorem fillAll_occurs {s : Sig} (ts : List (Ty Lt)) (n : Nat)
    (hl : ∀ (i : Nat) l, (ts.flatMap Ty.own)[i]? = some l → s.inputLts[n + i]? = some l) :
    ∀ r ∈ (fillAll n ts).flatMap Ty.regions, Occurs s r := by
  induction ts generalizing n with
  | nil => intro r hr; simp [fillAll] at hr
  | cons t ts ih =>
    intro r hr
    simp only [List.flatMap_cons] at hl
    simp only [fillAll, List.flatMap_cons, List.mem_append] at hr
    rcases hr with hr | hr
    · refine fill_occurs inRegion t n (fun i l hi => occurs_in _ _ (hl i l ?_)) r hr
      rw [List.getElem?_append_left (List.getElem?_eq_some_iff.1 hi).1]; exact hi
    · refine ih (n + t.own.length) (fun i l hi => ?_) r hr
      have := hl (t.own.length + i) l (by
        rw [List.getElem?_append_right (by omega), show t.own.length + i - t.own.length = i by omega]; exact hi)
      rw [show n + t.own.length + i = n + (t.own.length + i) by omega]; exact this

theorem regions_occur {s : Sig} (ls : List Lt) (n : Nat)
    (hl : ∀ (i : Nat) l, ls[i]? = some l → s.inputLts[n + i]? = some l) :
    ∀ r ∈ regionsFrom n ls, Occurs s r := by
  induction ls generalizing n with
  | nil => intro r hr; simp [regionsFrom] at hr
  | cons l ls ih =>
    intro r hr
    simp only [regionsFrom, List.mem_cons] at hr
    rcases hr with rfl | hr
    · exact occurs_in n l (hl 0 l rfl)
    · refine ih (n + 1) (fun i x hx => ?_) r hr
      have := hl (i + 1) x (by simpa using hx)
      rw [show n + 1 + i = n + (i + 1) by omega]; exact this

theorem default_occurs {s : Sig} (r : Region) (h : s.default = some r) : Occurs s r := by
  simp only [Sig.default] at h
  by_cases hs : s.selfRef = true
  · rw [if_pos hs] at h
    cases hin : s.inputs with
    | nil => rw [hin] at h; simp at h
    | cons t ts =>
      rw [hin] at h
      cases t with
      | ref l t =>
        simp only [Option.some.injEq] at h
        rw [← h]
        exact occurs_in 0 l (by simp [Sig.inputLts, hin, Ty.own])
      | _ => simp at h
  · rw [if_neg hs] at h
    refine regions_occur s.inputLts 0 (fun i l hl => by simpa using hl) r ?_
    cases hrs : regionsFrom 0 s.inputLts with
    | nil => rw [hrs] at h; simp [only] at h
    | cons x xs =>
      rw [hrs] at h
      simp only [only, Option.ite_none_right_eq_some, Option.some.injEq] at h
      simp [h.2]

theorem result_occurs {s : Sig} (o : Ty Region) (h : s.result = some o) : ∀ r ∈ o.regions, Occurs s r := by
  have leaf : ∀ d : Region, Occurs s d → ∀ r ∈ (s.output.fill (outRegion d) 0).regions, Occurs s r := by
    intro d hd
    refine fill_occurs _ _ _ ?_
    intro i l _
    cases l with
    | anon => exact hd
    | static => intro k hk; simp [outRegion] at hk
    | named a => intro k hk; simp [outRegion] at hk
  simp only [Sig.result] at h
  split at h
  · cases hd : s.default with
    | none => rw [hd] at h; simp at h
    | some d =>
      rw [hd] at h
      simp only [Option.map_some, Option.some.injEq] at h
      rw [← h]; exact leaf d (default_occurs d hd)
  · simp only [Option.some.injEq] at h
    rw [← h]; exact leaf .static (fun k hk => by simp at hk)

theorem rename_inj {s : Sig} {es : List Id} (h : Fires s es) (r r' : Region) (hr : Occurs s r) (hr' : Occurs s r')
    (e : rename s.inputLts es r = rename s.inputLts es r') : r = r' := by
  have at_ : ∀ a ∈ es, s.inputLts[s.inputLts.idxOf (.named a)]? = some (.named a) := by
    intro a ha
    have hlt := List.idxOf_lt_length_of_mem (h.mem ha)
    rw [List.getElem?_eq_getElem hlt, List.getElem_idxOf hlt]
  have mixed : ∀ a ∈ es, ∀ k, Occurs s (.fresh k) → s.inputLts.idxOf (.named a) = k → False := by
    intro a ha k hk e
    have h1 := at_ a ha
    rw [e, hk k rfl] at h1
    simp at h1
  cases r with
  | named a =>
    cases r' with
    | named b =>
      by_cases ha : a ∈ es <;> by_cases hb : b ∈ es <;> simp [rename, ha, hb] at e
      · have h1 := at_ a ha
        rw [e, at_ b hb] at h1
        simpa using h1.symm
      · rw [e]
    | fresh k =>
      by_cases ha : a ∈ es <;> simp [rename, ha] at e
      exact (mixed a ha k hr' e).elim
    | static => by_cases ha : a ∈ es <;> simp [rename, ha] at e
    | inner => by_cases ha : a ∈ es <;> simp [rename, ha] at e
  | fresh k =>
    cases r' with
    | named a =>
      by_cases ha : a ∈ es <;> simp [rename, ha] at e
      exact (mixed a ha k hr e.symm).elim
    | _ => simpa [rename] using e
  | static =>
    cases r' with
    | named a => by_cases ha : a ∈ es <;> simp [rename, ha] at e
    | _ => simpa [rename] using e
  | inner =>
    cases r' with
    | named a => by_cases ha : a ∈ es <;> simp [rename, ha] at e
    | _ => simpa [rename] using e

/-! ## No name is left -/

theorem names_new (es : List Id) (t : Ty Lt) (hp : plain t = true) (hs : ∀ a ∈ siteNames t, a ∉ es) :
    ∀ a ∈ (newTy es t).names, a ∉ es := by
  have leaf : ∀ l a, a ∈ Ty.names.nm (newLt es l) → a ∉ es := by
    intro l a h he
    cases l with
    | anon => simp [newLt, named, Ty.names.nm] at h
    | static => simp [newLt, named, Ty.names.nm] at h
    | named b =>
      by_cases hb : b ∈ es
      · simp [newLt, named, hb, Ty.names.nm] at h
      · simp [newLt, named, hb, Ty.names.nm] at h
        exact hb (h ▸ he)
  induction t with
  | con c => intro a h; simp [newTy, Ty.names] at h
  | lt l => intro a h; exact leaf l a h
  | ref l t ih =>
    intro a h
    simp only [newTy, Ty.names, List.mem_append] at h
    rcases h with h | h
    · exact leaf l a h
    · exact ih hp hs a h
  | app t u ih1 ih2 =>
    simp only [plain, Bool.and_eq_true] at hp
    intro a h
    simp only [newTy, Ty.names, List.mem_append] at h
    rcases h with h | h
    · exact ih1 hp.1 (fun x hx => hs x (by simp [siteNames, hx])) a h
    · exact ih2 hp.2 (fun x hx => hs x (by simp [siteNames, hx])) a h
  | site t ih => exact hs
  | dyn l t ih =>
    simp only [plain, Bool.and_eq_true, Option.isNone_iff_eq_none] at hp
    obtain ⟨rfl, hp⟩ := hp
    intro a h
    simp only [newTy, Ty.names, List.nil_append] at h
    exact ih hp hs a h

theorem pred_names (p : Pred) (h : whereLt p = false) :
    ∀ a ∈ p.names, a ∈ p.objNames ∨ ∃ t bs b c, p = .bound t bs b c ∧ a ∈ bs := by
  cases p with
  | region a b => simp [whereLt] at h
  | bound t bs b c =>
    simp only [whereLt, Bool.or_eq_false_iff, Bool.not_eq_false', List.isEmpty_iff] at h
    obtain ⟨h1, h2⟩ := h
    intro a ha
    simp only [Pred.names, List.mem_append] at ha
    simp only [Pred.objNames, List.mem_append]
    rcases ha with ha | ha
    · rcases walk_seen t a ha with h' | h'
      · exact Or.inl (Or.inl h')
      · rw [h1] at h'; simp at h'
    · rcases names_seen b (walk t V.new) a ha with h' | h'
      · exact Or.inl (Or.inr h')
      · right
        refine ⟨t, bs, b, c, rfl, ?_⟩
        have := List.any_eq_false.1 h2 _ h'
        simpa [named] using this

/-! ## The theorems -/

/-- **Eliding the lifetimes keeps the signature** (partial): the function that is suggested has the
same signature, up to the names of the parameters that are elided, and mentions none of them any
more.  Not covered: functions one of whose lifetimes is that of a trait object
(`dyn_hidden`). -/
theorem elide_same_partial (s : Sig) (es : List Id) (h : check s = some es) (hself : s.Self) (hb : s.Bound)
    (ho : ∀ a ∈ s.params, a ∉ s.objNames) (old : List (Ty Region) × Ty Region) (hr : s.resolve = some old) :
    (∃ new, (elide es s).resolve = some new ∧ Same es old new) ∧ ∀ a ∈ es, a ∉ (elide es s).names := by
  have hf := fires h
  have hsites : ∀ t ∈ s.inputs, ∀ a ∈ siteNames t, a ∉ es := fun t ht => hf.site ho (Or.inl ht)
  constructor
  · simp only [Sig.resolve, Option.map_eq_some_iff] at hr
    obtain ⟨o, hr, rfl⟩ := hr
    refine ⟨_, by simp only [Sig.resolve, result_new hf hself ho o hr, Option.map_some]; rfl, ?_⟩
    refine ⟨rename s.inputLts es, ?_, ?_, ?_, ?_⟩
    · have := fillAll_new hf s.inputs 0 hf.plainIn (fun i l hl => by simpa [Sig.inputLts] using hl) hsites
      simp only [elide]
      rw [this]
    · intro r hne
      cases r with
      | named a =>
        have ha : a ∉ es := fun he => hne a he rfl
        simp [rename, ha]
      | _ => rfl
    · intro a ha; exact ⟨s.inputLts.idxOf (.named a), by simp [rename, ha]⟩
    · have occ : ∀ r ∈ (fillAll 0 s.inputs).flatMap Ty.regions ++ o.regions, Occurs s r := by
        intro r hm
        rcases List.mem_append.1 hm with hm | hm
        · exact fillAll_occurs s.inputs 0 (fun i l hl => by simpa [Sig.inputLts] using hl) r hm
        · exact result_occurs o hr r hm
      intro r h1 r' h2 e
      exact rename_inj hf r r' (occ r h1) (occ r' h2) e
  · intro a ha hm
    have hp := hf.param ha
    have hno := ho a hp
    simp only [Sig.objNames, List.mem_append, not_or, List.mem_flatMap] at hno
    simp only [Sig.names, elide, List.mem_append, List.mem_flatMap, List.mem_map] at hm
    rcases hm with ((⟨_, ⟨t, ht, rfl⟩, hm⟩ | hm) | ⟨p, hp', hm⟩) | ⟨l, hl, hm⟩
    · exact names_new es t (List.all_eq_true.1 hf.plainIn t ht) (hsites t ht) a hm ha
    · exact names_new es s.output hf.plainOut (hf.site ho (Or.inr rfl)) a hm ha
    · rcases pred_names p (hf.preds p hp') a hm with h' | ⟨t, bs, b, c, rfl, h'⟩
      · exact hno.2 ⟨p, hp', h'⟩
      · exact hb t bs b c hp' a hp h'
    · exact hf.body a (mem_nm hm ▸ hl)

end Verif.Elide
