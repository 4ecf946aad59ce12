import Verif.Config.Schema
import Mathlib.Data.List.Perm.Subperm

/-!
# Properties C04–C07: configuration
-/

namespace Verif.Config

/-! ## C04: file lookup -/

section Lookup
variable {δ σ : Type} (fs : δ → ConfName → Probe σ)

/-- Directory `d` provides configuration file `src`: `.clippy.toml` is preferred over `clippy.toml`. -/
def Provides (d : δ) (src : σ) : Prop :=
  fs d .dotClippy = .file src ∨
    ((fs d .dotClippy = .absent ∨ fs d .dotClippy = .notAFile) ∧ fs d .clippy = .file src)

/-- Reading a candidate in `d` fails unexpectedly before a file is found. -/
def Broken (d : δ) : Prop :=
  fs d .dotClippy = .error ∨
    ((fs d .dotClippy = .absent ∨ fs d .dotClippy = .notAFile) ∧ fs d .clippy = .error)

/-- Neither candidate is a file. -/
def Empty (d : δ) : Prop :=
  (fs d .dotClippy = .absent ∨ fs d .dotClippy = .notAFile) ∧
    (fs d .clippy = .absent ∨ fs d .clippy = .notAFile)

/-- Both candidates exist and the first one is used. -/
def Clash (d : δ) : Prop := (∃ src, fs d .dotClippy = .file src) ∧ fs d .clippy ≠ .absent

theorem probeDir_cases (d : δ) :
    (∃ src, Provides fs d src ∧
      ((¬ Clash fs d ∧ probeDir (fs d) [.dotClippy, .clippy] none [] = (some (some src), [])) ∨
       (Clash fs d ∧ probeDir (fs d) [.dotClippy, .clippy] none [] = (some (some src), [.ignored])))) ∨
    (Broken fs d ∧ probeDir (fs d) [.dotClippy, .clippy] none [] = (none, [.readError])) ∨
    (Empty fs d ∧ probeDir (fs d) [.dotClippy, .clippy] none [] = (some none, [])) := by
  unfold Provides Broken Empty Clash probeDir
  cases h1 : fs d .dotClippy <;> cases h2 : fs d .clippy <;> simp [probeDir, h2]

theorem kinds_disjoint (d : δ) :
    (∀ src, Provides fs d src → ¬ Broken fs d ∧ ¬ Empty fs d ∧ ∀ src', Provides fs d src' → src' = src)
      ∧ (Broken fs d → ¬ Empty fs d) := by
  unfold Provides Broken Empty
  cases h1 : fs d .dotClippy <;> cases h2 : fs d .clippy <;> simp [eq_comm]

/-- **C04**: a file is used iff it is the one provided by the nearest directory that has one, with only
empty directories before it. -/
theorem loadConf_found_iff (dirs : List δ) (src : σ) :
    (loadConf fs dirs).1 = some src ↔
      ∃ pre d post, dirs = pre ++ d :: post ∧ (∀ e ∈ pre, Empty fs e) ∧ Provides fs d src := by
  induction dirs with
  | nil => simp [loadConf]
  | cons d ds ih =>
    have hd := kinds_disjoint fs d
    unfold loadConf
    rcases probeDir_cases fs d with ⟨s, hp, ⟨_, h⟩ | ⟨_, h⟩⟩ | ⟨hb, h⟩ | ⟨he, h⟩ <;> rw [h]
    · constructor
      · intro he
        simp only [Option.some.injEq] at he; subst he
        exact ⟨[], d, ds, rfl, by simp, hp⟩
      · rintro ⟨pre, d', post, heq, hpre, hp'⟩
        cases pre with
        | nil => simp at heq; obtain ⟨rfl, rfl⟩ := heq; simp [(hd.1 s hp).2.2 src hp']
        | cons p pre => simp at heq; exact absurd (hpre p (by simp)) (heq.1 ▸ (hd.1 s hp).2.1)
    · constructor
      · intro he
        simp only [Option.some.injEq] at he; subst he
        exact ⟨[], d, ds, rfl, by simp, hp⟩
      · rintro ⟨pre, d', post, heq, hpre, hp'⟩
        cases pre with
        | nil => simp at heq; obtain ⟨rfl, rfl⟩ := heq; simp [(hd.1 s hp).2.2 src hp']
        | cons p pre => simp at heq; exact absurd (hpre p (by simp)) (heq.1 ▸ (hd.1 s hp).2.1)
    · simp only [reduceCtorEq, false_iff]
      rintro ⟨pre, d', post, heq, hpre, hp'⟩
      cases pre with
      | nil => simp at heq; obtain ⟨rfl, rfl⟩ := heq; exact (hd.1 src hp').1 hb
      | cons p pre => simp at heq; exact absurd (hpre p (by simp)) (heq.1 ▸ hd.2 hb)
    · simp only [ih]
      constructor
      · rintro ⟨pre, d', post, rfl, hpre, hp'⟩
        exact ⟨d :: pre, d', post, rfl, by simpa using ⟨he, hpre⟩, hp'⟩
      · rintro ⟨pre, d', post, heq, hpre, hp'⟩
        cases pre with
        | nil => simp at heq; obtain ⟨rfl, rfl⟩ := heq; exact absurd he (hd.1 src hp').2.1
        | cons p pre =>
          simp at heq
          exact ⟨pre, d', post, heq.2, fun e he => hpre e (by simp [he]), hp'⟩

/-- **C04**: no file is used iff every directory is empty, or an unexpected error occurs before any file
is found; that error is then the only diagnostic. -/
theorem loadConf_none_iff (dirs : List δ) :
    (loadConf fs dirs).1 = none ↔
      (∀ d ∈ dirs, Empty fs d) ∨
      ((loadConf fs dirs).2 = [.readError] ∧
        ∃ pre d post, dirs = pre ++ d :: post ∧ (∀ e ∈ pre, Empty fs e) ∧ Broken fs d) := by
  induction dirs with
  | nil => simp [loadConf]
  | cons d ds ih =>
    have hd := kinds_disjoint fs d
    unfold loadConf
    rcases probeDir_cases fs d with ⟨s, hp, ⟨_, h⟩ | ⟨_, h⟩⟩ | ⟨hb, h⟩ | ⟨he, h⟩ <;> rw [h]
    · simp only [reduceCtorEq, false_iff, List.mem_cons, forall_eq_or_imp]
      intro hh
      rcases hh with hh | ⟨h2, _⟩
      · exact (hd.1 s hp).2.1 hh.1
      · simp at h2
    · simp only [reduceCtorEq, false_iff, List.mem_cons, forall_eq_or_imp]
      intro hh
      rcases hh with hh | ⟨h2, _⟩
      · exact (hd.1 s hp).2.1 hh.1
      · simp at h2
    · simp only [true_iff, true_and]
      exact .inr ⟨[], d, ds, rfl, by simp, hb⟩
    · simp only [ih, List.nil_append, List.mem_cons, forall_eq_or_imp]
      refine or_congr (by simp [he]) (and_congr Iff.rfl ?_)
      constructor
      · rintro ⟨pre, d', post, rfl, hpre, hp'⟩
        exact ⟨d :: pre, d', post, rfl, by simpa using ⟨he, hpre⟩, hp'⟩
      · rintro ⟨pre, d', post, heq, hpre, hp'⟩
        cases pre with
        | nil => simp at heq; obtain ⟨rfl, rfl⟩ := heq; exact absurd he (hd.2 hp')
        | cons p pre =>
          simp at heq
          exact ⟨pre, d', post, heq.2, fun e he => hpre e (by simp [he]), hp'⟩

/-- **C04**: when a file is used, the clash of the two names in its directory is reported, and nothing
else is. -/
theorem loadConf_clash (dirs pre post : List δ) (d : δ) (src : σ)
    (hdirs : dirs = pre ++ d :: post) (hpre : ∀ e ∈ pre, Empty fs e) (hp : Provides fs d src) :
    (Clash fs d → (loadConf fs dirs).2 = [.ignored]) ∧
      (¬ Clash fs d → (loadConf fs dirs).2 = []) := by
  subst hdirs
  induction pre with
  | nil =>
    have hd := kinds_disjoint fs d
    simp only [List.nil_append]
    unfold loadConf
    rcases probeDir_cases fs d with ⟨s, _, ⟨hc, h⟩ | ⟨hc, h⟩⟩ | ⟨hb, h⟩ | ⟨he, h⟩ <;> rw [h]
    · simp [hc]
    · simp [hc]
    · exact absurd hb (hd.1 src hp).1
    · exact absurd he (hd.1 src hp).2.1
  | cons p pre ih =>
    have hpe := hpre p (by simp)
    have hd := kinds_disjoint fs p
    have ih := ih (fun e he => hpre e (by simp [he]))
    simp only [List.cons_append]
    unfold loadConf
    rcases probeDir_cases fs p with ⟨s, hp', _⟩ | ⟨hb, h⟩ | ⟨he, h⟩
    · exact absurd hpe (hd.1 s hp').2.1
    · exact absurd hpe (hd.2 hb)
    · rw [h]; simpa using ih

/-- Three directories: the nearest one has no file, the second has both. -/
example :
    let fs : Nat → ConfName → Probe String := fun d n =>
      match d, n with
      | 1, .dotClippy => .file "b" | 1, .clippy => .file "c" | 2, .clippy => .file "a"
      | _, _ => .absent
    loadConf fs [0, 1, 2] = (some "b", [.ignored]) ∧ Empty fs 0 ∧ Provides fs 1 "b" ∧ Clash fs 1 := by
  refine ⟨rfl, ⟨.inl rfl, .inl rfl⟩, .inl rfl, ⟨_, rfl⟩, by simp⟩

end Lookup

/-- **C04**: the start directory is `CLIPPY_CONF_DIR` if set, else `CARGO_MANIFEST_DIR` if set, else `.`. -/
theorem startDir_spec {π : Type} (a b : Option π) (dot : π) :
    startDir a b dot = (a.or b).getD dot := by
  cases a <;> cases b <;> rfl

/-- The MSRV from `clippy.toml` wins over the one from `Cargo.toml`, and a difference is reported. -/
theorem mergeMsrv_spec {ν : Type} [DecidableEq ν] (conf cargo : Option ν) :
    (mergeMsrv conf cargo).1 = conf.or cargo ∧
      ((mergeMsrv conf cargo).2 = true ↔ ∃ v c, conf = some v ∧ cargo = some c ∧ v ≠ c) := by
  cases conf <;> cases cargo <;> simp [mergeMsrv]

example : mergeMsrv (some 63) (some 70) = (some 63, true) := by decide

/-! ## C05: the key table -/

section Keys
variable {V T : Type}

/-- The keys of a table. -/
def keys (table : List (String × V)) : List String := table.map (·.1)

/-- A declaration is sound: an ordinary field is not renamed, and a deprecated one has no type of its own
and names an ordinary field as its replacement. -/
def SoundDecl (s : Schema) (d : FieldDecl) : Prop :=
  (d.typed = true ∧ d.renamedTo = none) ∨
  (d.typed = false ∧ ∃ n, d.renamedTo = some n ∧ ⟨n, none, true⟩ ∈ s)

/-- Names are declared once and are not the reserved name. -/
def UniqueNames (s : Schema) : Prop :=
  (s.map (·.name)).Nodup ∧ "third-party" ∉ s.map (·.name)

theorem parse_of_mem {s : Schema} (hu : UniqueNames s) {d : FieldDecl} (hd : d ∈ s) :
    s.parse d.name = some d := by
  unfold Schema.parse
  have hn := hu.1
  clear hu
  induction s with
  | nil => simp at hd
  | cons e s ih =>
    simp only [List.map_cons, List.nodup_cons] at hn
    rcases List.mem_cons.1 hd with rfl | h
    · simp
    · have hne : e.name ≠ d.name := fun h' => hn.1 (h' ▸ List.mem_map_of_mem h)
      rw [List.find?_cons_of_neg (by simpa using hne)]
      exact ih h hn.2

theorem parse_none {s : Schema} {k : String} : s.parse k = none ↔ k ∉ s.map (·.name) := by
  unfold Schema.parse
  simp only [List.find?_eq_none, beq_iff_eq, List.mem_map, not_exists, not_and]

/-- What the property says an entry with key `k` must do. -/
inductive Meaning (s : Schema) (keys : List String) (k : String) : Action → List KeyDiag → Prop where
  /-- the name of an ordinary field sets that field -/
  | field : ⟨k, none, true⟩ ∈ s → Meaning s keys k (.assign k) []
  /-- a deprecated name sets the new field, with a warning -/
  | renamed (n : String) : ⟨k, some n, false⟩ ∈ s → n ∉ keys →
      Meaning s keys k (.assign n) [.deprecatedField k n]
  /-- a deprecated name next to its replacement is an error -/
  | clash (n : String) : ⟨k, some n, false⟩ ∈ s → n ∈ keys →
      Meaning s keys k .nothing [.deprecatedField k n, .duplicateKey k n]
  /-- the reserved name is ignored -/
  | reserved : k = "third-party" → Meaning s keys k .nothing []
  /-- any other name is an error -/
  | unknown : k ∉ s.map (·.name) → k ≠ "third-party" → Meaning s keys k .nothing [.unknownField k]

theorem entryAction_meaning (s : Schema) (hu : UniqueNames s) (table : List (String × V)) (k : String)
    (hs : ∀ d ∈ s, d.name = k → SoundDecl s d) :
    Meaning s (keys table) k
      (entryAction s (fun k => table.any (fun e => e.1 == k)) k).1
      (entryAction s (fun k => table.any (fun e => e.1 == k)) k).2 := by
  have hpres : ∀ n, table.any (fun e => e.1 == n) = true ↔ n ∈ keys table := by
    intro n; simp [keys]
  unfold entryAction
  by_cases h3 : k = "third-party"
  · rw [if_neg (by simp [h3])]
    simp only [resolve, h3, if_true]
    exact .reserved rfl
  · by_cases hk : k ∈ s.map (·.name)
    · obtain ⟨d, hd, rfl⟩ := List.mem_map.1 hk
      have hp := parse_of_mem hu hd
      rw [if_neg (by simp [hp])]
      simp only [resolve, h3, if_false, hp]
      rcases hs d hd rfl with ⟨ht, hr⟩ | ⟨ht, n, hr, hn⟩
      · simp only [ht, if_true]
        refine .field ?_
        rw [← hr, ← ht]; exact hd
      · simp only [ht, Bool.false_eq_true, if_false, hr, Option.getD_some]
        have hd' : ⟨d.name, some n, false⟩ ∈ s := by rw [← hr, ← ht]; exact hd
        by_cases hpn : n ∈ keys table
        · rw [if_pos ((hpres n).2 hpn)]
          exact .clash n hd' hpn
        · rw [if_neg (by simpa using mt (hpres n).1 hpn)]
          have hne3 : n ≠ "third-party" := fun h =>
            hu.2 (h ▸ List.mem_map_of_mem (f := fun d : FieldDecl => d.name) hn)
          have hlen : ∃ m, s.length = m + 1 := by
            cases s with
            | nil => simp at hd
            | cons _ s => exact ⟨s.length, rfl⟩
          obtain ⟨m, hm⟩ := hlen
          have hpn' := parse_of_mem hu hn
          simp only at hpn'
          simp only [hm, resolve, hne3, if_false, hpn', if_true]
          exact .renamed n hd' hpn
    · rw [if_pos ⟨by rw [parse_none.2 hk]; rfl, h3⟩]
      exact .unknown hk h3

/-- The specification: the value the user gave for field `f`, under its own name or a deprecated one. -/
inductive UserValue (s : Schema) (table : List (String × V)) (f : String) : V → Prop where
  | own (v : V) : (f, v) ∈ table → UserValue s table f v
  | deprecated (old : String) (v : V) : f ∉ keys table → ⟨old, some f, false⟩ ∈ s → (old, v) ∈ table →
      UserValue s table f v

/-- The update one entry performs. -/
private def upd (s : Schema) (deser : String → V → T) (pres : String → Bool)
    (st : (String → Option T) × List KeyDiag) (kv : String × V) :
    (String → Option T) × List KeyDiag :=
  ((match (entryAction s pres kv.1).1 with
    | .assign f => fun g => if g = f then some (deser f kv.2) else st.1 g
    | _ => st.1), st.2 ++ (entryAction s pres kv.1).2)

private theorem deserialize_eq (s : Schema) (deser : String → V → T) (table : List (String × V)) :
    deserialize s deser table =
      table.foldl (upd s deser (fun k => table.any (fun e => e.1 == k))) (fun _ => none, []) := by
  rfl

private theorem foldl_diags (s : Schema) (deser : String → V → T) (pres : String → Bool)
    (l : List (String × V)) (st : (String → Option T) × List KeyDiag) :
    (l.foldl (upd s deser pres) st).2 = st.2 ++ l.flatMap (fun kv => (entryAction s pres kv.1).2) := by
  induction l generalizing st with
  | nil => simp
  | cons a l ih => simp [ih, upd]

private theorem foldl_keep (s : Schema) (deser : String → V → T) (pres : String → Bool)
    (l : List (String × V)) (st : (String → Option T) × List KeyDiag) (f : String)
    (h : ∀ kv ∈ l, (entryAction s pres kv.1).1 ≠ .assign f) :
    (l.foldl (upd s deser pres) st).1 f = st.1 f := by
  induction l generalizing st with
  | nil => rfl
  | cons a l ih =>
    simp only [List.foldl_cons]
    rw [ih _ (fun kv hkv => h kv (by simp [hkv]))]
    have ha := h a (by simp)
    simp only [upd]
    cases hg : (entryAction s pres a.1).1 with
    | assign g =>
      have : f ≠ g := fun h' => ha (h' ▸ hg)
      simp [this]
    | nothing => rfl
    | diverges => rfl

/-- **C05** (partial: every key the user wrote must have a sound declaration, which fails for one key of
the real table, see `deprecated_key_ignored`): each field ends up with the value the user gave
under its own name or a deprecated name, else with its default. The result does not depend on
the order of the entries. -/
theorem field_value_partial (s : Schema) (hu : UniqueNames s) (deser : String → V → T)
    (default : String → T) (table : List (String × V)) (hk : (keys table).Nodup)
    (hs : ∀ d ∈ s, d.name ∈ keys table → SoundDecl s d)
    (hone : ∀ d ∈ s, ∀ d' ∈ s, d.renamedTo = d'.renamedTo → d.renamedTo ≠ none → d = d')
    (f : String) (hf : ⟨f, none, true⟩ ∈ s) :
    (∀ v, UserValue s table f v → fieldValue s deser default table f = deser f v) ∧
      ((¬ ∃ v, UserValue s table f v) → fieldValue s deser default table f = default f) := by
  have hmean : ∀ kv ∈ table, Meaning s (keys table) kv.1
      (entryAction s (fun k => table.any (fun e => e.1 == k)) kv.1).1
      (entryAction s (fun k => table.any (fun e => e.1 == k)) kv.1).2 := fun kv hkv =>
    entryAction_meaning s hu table kv.1 (fun d hd hn => hs d hd (hn ▸ List.mem_map_of_mem hkv))
  -- which entries assign `f`
  have hassign : ∀ kv ∈ table,
      (entryAction s (fun k => table.any (fun e => e.1 == k)) kv.1).1 = .assign f ↔
        kv.1 = f ∨ (f ∉ keys table ∧ ⟨kv.1, some f, false⟩ ∈ s) := by
    intro kv hkv
    have hm := hmean kv hkv
    have hpf := parse_of_mem hu hf
    simp only at hpf
    have huniq : ∀ {d d' : FieldDecl}, d ∈ s → d' ∈ s → d.name = d'.name → d = d' := by
      intro d d' hd hd' hn
      have h1 := parse_of_mem hu hd
      have h2 := parse_of_mem hu hd'
      rw [hn, h2] at h1
      exact (Option.some.inj h1).symm
    generalize entryAction s (fun k => table.any (fun e => e.1 == k)) kv.1 = r at hm
    obtain ⟨a, ds⟩ := r
    simp only at hm ⊢
    cases hm with
    | field hd =>
      constructor
      · intro h; simp only [Action.assign.injEq] at h; exact .inl h
      · rintro (h | ⟨_, h⟩)
        · rw [h]
        · have := huniq hd h rfl; simp at this
    | renamed n hd hn =>
      constructor
      · intro h
        simp only [Action.assign.injEq] at h
        subst h
        exact .inr ⟨hn, hd⟩
      · rintro (h | ⟨_, h⟩)
        · have := huniq hd hf h; simp at this
        · have := huniq hd h rfl; simp at this; rw [this]
    | clash n hd hn =>
      constructor
      · intro h; simp at h
      · rintro (h | ⟨h', h⟩)
        · have := huniq hd hf h; simp at this
        · have := huniq hd h rfl; simp at this; exact absurd (this ▸ hn) h'
    | reserved h3 =>
      constructor
      · intro h; simp at h
      · rintro (h | ⟨_, h⟩)
        · exact absurd (List.mem_map.2 ⟨_, hf, h.symm.trans h3⟩) hu.2
        · exact absurd (List.mem_map.2 ⟨_, h, h3⟩) hu.2
    | unknown hno _ =>
      constructor
      · intro h; simp at h
      · rintro (h | ⟨_, h⟩)
        · exact absurd (List.mem_map.2 ⟨_, hf, h.symm⟩) hno
        · exact absurd (List.mem_map.2 ⟨_, h, rfl⟩) hno
  -- an entry that assigns `f` is the only one
  have hval : ∀ kv ∈ table,
      (entryAction s (fun k => table.any (fun e => e.1 == k)) kv.1).1 = .assign f →
      (deserialize s deser table).1 f = some (deser f kv.2) := by
    intro kv hkv ha
    obtain ⟨l1, l2, hl⟩ := List.append_of_mem hkv
    rw [deserialize_eq]
    generalize hpres : (fun k => table.any (fun e => e.1 == k)) = pres at *
    have hkeys : keys table = keys l1 ++ kv.1 :: keys l2 := by simp [hl, keys]
    have hno : ∀ e ∈ l2, (entryAction s pres e.1).1 ≠ .assign f := by
      intro e he hae
      have hmem : e ∈ table := by rw [hl]; simp [he]
      have h1 := (hassign kv hkv).1 ha
      have h2 := (hassign e hmem).1 hae
      have hne : e.1 ≠ kv.1 := by
        intro heq
        rw [hkeys, List.nodup_append] at hk
        have := (List.nodup_cons.1 hk.2.1).1
        exact this (heq ▸ List.mem_map_of_mem he)
      rcases h1 with h1 | ⟨h1, h1'⟩
      · rcases h2 with h2 | ⟨h2, _⟩
        · exact hne (h2.trans h1.symm)
        · exact h2 (h1 ▸ List.mem_map_of_mem hkv)
      · rcases h2 with h2 | ⟨_, h2'⟩
        · exact h1 (h2 ▸ List.mem_map_of_mem hmem)
        · have := hone _ h1' _ h2' rfl (by simp)
          simp at this; exact hne this.symm
    rw [hl, List.foldl_append, List.foldl_cons, foldl_keep _ _ _ _ _ _ hno]
    simp only [upd, ha, if_true]
  constructor
  · intro v hv
    have : ∃ k, (k, v) ∈ table ∧
        (entryAction s (fun k => table.any (fun e => e.1 == k)) k).1 = .assign f := by
      cases hv with
      | own _ hm => exact ⟨f, hm, (hassign _ hm).2 (.inl rfl)⟩
      | deprecated old _ hno hd hm => exact ⟨old, hm, (hassign _ hm).2 (.inr ⟨hno, hd⟩)⟩
    obtain ⟨k, hm, ha⟩ := this
    simp [fieldValue, hval _ hm ha]
  · intro hno
    have : (deserialize s deser table).1 f = none := by
      rw [deserialize_eq, foldl_keep]
      intro kv hkv ha
      rcases (hassign kv hkv).1 ha with h | ⟨h, h'⟩
      · exact hno ⟨kv.2, .own _ (by rw [← h]; exact hkv)⟩
      · exact hno ⟨kv.2, .deprecated kv.1 _ h h' hkv⟩
    simp [fieldValue, this]

/-- **C05** (partial, same restriction): the diagnostics are exactly: one error per unknown key, one
warning per deprecated key, and one error per deprecated key next to its replacement. -/
theorem diagnostics_partial (s : Schema) (hu : UniqueNames s) (deser : String → V → T)
    (table : List (String × V))
    (hs : ∀ d ∈ s, d.name ∈ keys table → SoundDecl s d) (g : KeyDiag) :
    g ∈ (deserialize s deser table).2 ↔
      match g with
      | .unknownField k => k ∈ keys table ∧ k ∉ s.map (·.name) ∧ k ≠ "third-party"
      | .deprecatedField k n => k ∈ keys table ∧ ⟨k, some n, false⟩ ∈ s
      | .duplicateKey k n => k ∈ keys table ∧ n ∈ keys table ∧ ⟨k, some n, false⟩ ∈ s := by
  have hmean : ∀ kv ∈ table, Meaning s (keys table) kv.1
      (entryAction s (fun k => table.any (fun e => e.1 == k)) kv.1).1
      (entryAction s (fun k => table.any (fun e => e.1 == k)) kv.1).2 := fun kv hkv =>
    entryAction_meaning s hu table kv.1 (fun d hd hn => hs d hd (hn ▸ List.mem_map_of_mem hkv))
  rw [deserialize_eq, foldl_diags, List.nil_append, List.mem_flatMap]
  have huniq : ∀ {d d' : FieldDecl}, d ∈ s → d' ∈ s → d.name = d'.name → d = d' := by
    intro d d' hd hd' hn
    have h1 := parse_of_mem hu hd
    have h2 := parse_of_mem hu hd'
    rw [hn, h2] at h1
    exact (Option.some.inj h1).symm
  constructor
  · rintro ⟨kv, hkv, hg⟩
    have hm := hmean kv hkv
    have hmem : kv.1 ∈ keys table := List.mem_map_of_mem hkv
    generalize entryAction s (fun k => table.any (fun e => e.1 == k)) kv.1 = r at hm hg
    obtain ⟨a, ds⟩ := r
    cases hm with
    | field _ => simp at hg
    | renamed n hd hn => simp at hg; subst hg; exact ⟨hmem, hd⟩
    | clash n hd hn =>
      simp at hg
      rcases hg with rfl | rfl
      · exact ⟨hmem, hd⟩
      · exact ⟨hmem, hn, hd⟩
    | reserved _ => simp at hg
    | unknown h1 h2 => simp at hg; subst hg; exact ⟨hmem, h1, h2⟩
  · intro hg
    have key : ∃ kv ∈ table, kv.1 = (match g with
        | .unknownField k => k | .deprecatedField k _ => k | .duplicateKey k _ => k) := by
      cases g <;> exact List.mem_map.1 hg.1
    obtain ⟨kv, hkv, hkey⟩ := key
    refine ⟨kv, hkv, ?_⟩
    have hm := hmean kv hkv
    generalize entryAction s (fun k => table.any (fun e => e.1 == k)) kv.1 = r at hm
    obtain ⟨a, ds⟩ := r
    simp only at hm ⊢
    have hnm : ∀ {d : FieldDecl}, d ∈ s → d.name ∈ s.map (·.name) := fun h => List.mem_map_of_mem h
    cases g with
    | unknownField k =>
      simp only at hkey hg
      subst hkey
      cases hm with
      | field h => exact absurd (hnm h) hg.2.1
      | renamed n h _ => exact absurd (hnm h) hg.2.1
      | clash n h _ => exact absurd (hnm h) hg.2.1
      | reserved h => exact absurd h hg.2.2
      | unknown _ _ => simp
    | deprecatedField k n =>
      simp only at hkey hg
      subst hkey
      cases hm with
      | field h => have := huniq h hg.2 rfl; simp at this
      | renamed m h _ => have := huniq h hg.2 rfl; simp at this; simp [this]
      | clash m h _ => have := huniq h hg.2 rfl; simp at this; simp [this]
      | reserved h => exact absurd (h ▸ hnm hg.2) hu.2
      | unknown h _ => exact absurd (hnm hg.2) h
    | duplicateKey k n =>
      simp only at hkey hg
      subst hkey
      cases hm with
      | field h => have := huniq h hg.2.2 rfl; simp at this
      | renamed m h hm' =>
        have := huniq h hg.2.2 rfl; simp at this; exact absurd hg.2.1 (this ▸ hm')
      | clash m h _ => have := huniq h hg.2.2 rfl; simp at this; simp [this]
      | reserved h => exact absurd (h ▸ hnm hg.2.2) hu.2
      | unknown h _ => exact absurd (hnm hg.2.2) h

/-- The real table declares every name once. -/
theorem confSchema_unique : UniqueNames confSchema := by
  constructor
  · decide +kernel
  · decide +kernel

/-- Decidable form of `SoundDecl`. -/
def soundDeclB (s : Schema) (d : FieldDecl) : Bool :=
  (d.typed && d.renamedTo == none) ||
  (!d.typed && match d.renamedTo with
    | some n => s.any (fun e => e == ⟨n, none, true⟩)
    | none => false)

theorem soundDeclB_iff (s : Schema) (d : FieldDecl) : soundDeclB s d = true → SoundDecl s d := by
  unfold soundDeclB SoundDecl
  cases d.typed <;> cases h : d.renamedTo <;> simp

/-- Every entry of the real table is sound except one. -/
theorem confSchema_sound (d : FieldDecl) (hd : d ∈ confSchema)
    (hne : d.name ≠ "lint-inconsistent-struct-field-initializers") : SoundDecl confSchema d := by
  have h : confSchema.all (fun d => soundDeclB confSchema d ||
      d.name == "lint-inconsistent-struct-field-initializers") = true := by decide +kernel
  have := List.all_eq_true.1 h d hd
  simp only [Bool.or_eq_true, beq_iff_eq, hne, or_false] at this
  exact soundDeclB_iff _ _ this

/-- No two entries of the real table are renamed to the same field. -/
theorem confSchema_one_alias : ∀ d ∈ confSchema, ∀ d' ∈ confSchema,
    d.renamedTo = d'.renamedTo → d.renamedTo ≠ none → d = d' := by
  have h : confSchema.all (fun d => d.renamedTo == none || confSchema.all (fun d' =>
      d.renamedTo != d'.renamedTo || d == d')) = true := by decide +kernel
  intro d hd d' hd' he hn
  have := List.all_eq_true.1 h d hd
  simp only [Bool.or_eq_true, beq_iff_eq, hn, false_or] at this
  have := List.all_eq_true.1 this d' hd'
  simpa [he] using this

/-- **C05** for clippy's real key table (partial: files that do not use the one unsound key). -/
theorem conf_field_value_partial (deser : String → V → T) (default : String → T)
    (table : List (String × V)) (hk : (keys table).Nodup)
    (hbad : "lint-inconsistent-struct-field-initializers" ∉ keys table)
    (f : String) (hf : ⟨f, none, true⟩ ∈ confSchema) :
    (∀ v, UserValue confSchema table f v → fieldValue confSchema deser default table f = deser f v) ∧
      ((¬ ∃ v, UserValue confSchema table f v) →
        fieldValue confSchema deser default table f = default f) :=
  field_value_partial confSchema confSchema_unique deser default table hk
    (fun d hd hn => confSchema_sound d hd (fun h => hbad (h ▸ hn))) confSchema_one_alias f hf

/-- **C05** is violated by the code: the deprecated key `lint-inconsistent-struct-field-initializers` is
declared with a type, so it is treated as an ordinary field. Setting it produces no diagnostic and
leaves the field it was renamed to at its default. -/
theorem deprecated_key_ignored :
    (⟨"lint-inconsistent-struct-field-initializers",
      some "check-inconsistent-struct-field-initializers", true⟩ : FieldDecl) ∈ confSchema ∧
    fieldValue confSchema (fun _ (v : Bool) => v) (fun _ => false)
      [("lint-inconsistent-struct-field-initializers", true)]
      "check-inconsistent-struct-field-initializers" = false ∧
    (deserialize confSchema (fun _ (v : Bool) => v)
      [("lint-inconsistent-struct-field-initializers", true)]).2 = [] := by
  refine ⟨by decide +kernel, by decide +kernel, by decide +kernel⟩

/-- A file with a deprecated key, an ordinary key and a typo. -/
example :
    let table := [("cyclomatic-complexity-threshold", 30), ("msrvv", 1), ("array-size-threshold", 5)]
    fieldValue confSchema (fun _ (v : Nat) => v) (fun _ => 0) table "cognitive-complexity-threshold" = 30 ∧
    fieldValue confSchema (fun _ (v : Nat) => v) (fun _ => 0) table "array-size-threshold" = 5 ∧
    (deserialize confSchema (fun _ (v : Nat) => v) table).2 =
      [.deprecatedField "cyclomatic-complexity-threshold" "cognitive-complexity-threshold",
       .unknownField "msrvv"] ∧
    (keys table).Nodup := by
  refine ⟨by decide +kernel, by decide +kernel, by decide +kernel, by decide +kernel⟩

end Keys

/-! ## C06: list options -/

/-- **C06**: without `..` the option is exactly the user's valid entries; with `..` anywhere the default
entries follow them; `..` itself is never an entry; a non-array is the default plus an error. -/
theorem deserializeArray_spec {V T : Type} (isDots : V → Bool) (deser : V → Option T)
    (default : List T) (values : Option (List V)) :
    deserializeArray isDots deser default values =
      match values with
      | none => (default, true)
      | some vs =>
          ((vs.filter (fun v => !isDots v)).filterMap deser ++
            (if ∃ v ∈ vs, isDots v = true then default else []), false) := by
  cases values with
  | none => rfl
  | some vs =>
    have key : ∀ (vs : List V) (has : Bool), (arrayLoop isDots deser vs has).1 =
        (vs.filter (fun v => !isDots v)).filterMap deser ∧
        ((arrayLoop isDots deser vs has).2.1 = true ↔ has = true ∨ ∃ v ∈ vs, isDots v = true) := by
      intro vs
      induction vs with
      | nil => intro has; simp [arrayLoop]
      | cons v vs ih =>
        intro has
        unfold arrayLoop
        by_cases hd : isDots v = true
        · have := ih true
          simp [hd, this.1, this.2]
        · have := ih has
          cases hv : deser v <;> simp [hd, this.1, this.2, hv]
    have := key vs false
    simp only [deserializeArray, this.1]
    by_cases h : ∃ v ∈ vs, isDots v = true
    · rw [if_pos (this.2.2 (.inr h)), if_pos h]
    · rw [if_neg (fun h' => h ((this.2.1 h').resolve_left (by simp))), if_neg h, List.append_nil]

example : deserializeArray (· == "..") (fun s => if s == "bad" then none else some s)
    ["Foo", "Bar"] (some ["Baz", "..", "bad", "Qux"]) = (["Baz", "Qux", "Foo", "Bar"], false) := by
  decide +kernel

/-! ## C07: item-order groupings -/

/-- `k` is in exactly one group, exactly once. -/
def ExactlyOnce (groups : Groups) (k : Kind) : Prop := (groups.flatMap (·.2)).count k = 1

/-- The position of the group that contains `k`. -/
def InGroup (groups : Groups) (k : Kind) (i : Nat) : Prop :=
  ∃ g, groups[i]? = some g ∧ k ∈ g.2

theorem lutGroup_eq (idx : Nat) (items : List Kind) (lut : Kind → Option Nat) (k : Kind) :
    lutGroup idx items lut k = if k ∈ items then some idx else lut k := by
  unfold lutGroup
  induction items generalizing lut with
  | nil => simp
  | cons it items ih =>
    rw [List.foldl_cons, ih]
    by_cases h1 : k ∈ items
    · simp [h1]
    · by_cases h2 : k = it
      · simp [h2]
      · simp [h1, h2]

theorem lutLoop_some (i : Nat) (groups : Groups) (lut : Kind → Option Nat) (k : Kind) (j : Nat)
    (h : lutLoop i groups lut k = some j) :
    (k ∉ groups.flatMap (·.2) ∧ lut k = some j) ∨ (∃ n, j = i + n ∧ InGroup groups k n) := by
  induction groups generalizing i lut with
  | nil => left; simpa [lutLoop] using h
  | cons g gs ih =>
    rw [lutLoop] at h
    rcases ih _ _ h with ⟨hn, hl⟩ | ⟨n, hj, g', hg, hk⟩
    · rw [lutGroup_eq] at hl
      by_cases hm : k ∈ g.2
      · rw [if_pos hm] at hl
        right; exact ⟨0, by simp at hl; omega, g, by simp, hm⟩
      · rw [if_neg hm] at hl
        left; refine ⟨?_, hl⟩
        rw [List.flatMap_cons, List.mem_append, not_or]; exact ⟨hm, hn⟩
    · right; exact ⟨n + 1, by omega, g', by simpa using hg, hk⟩

theorem lutLoop_isSome (i : Nat) (groups : Groups) (lut : Kind → Option Nat) (k : Kind)
    (h : k ∈ groups.flatMap (·.2) ∨ (lut k).isSome = true) :
    (lutLoop i groups lut k).isSome = true := by
  induction groups generalizing i lut with
  | nil => simpa [lutLoop] using h
  | cons g gs ih =>
    rw [lutLoop]
    apply ih
    rw [lutGroup_eq]
    rw [List.flatMap_cons, List.mem_append] at h
    rcases h with (h | h) | h
    · right; simp [h]
    · left; exact h
    · right; split
      · rfl
      · exact h

theorem buildLut_isSome_iff (groups : Groups) (k : Kind) :
    (buildLut groups k).isSome = true ↔ k ∈ groups.flatMap (·.2) := by
  constructor
  · intro h
    obtain ⟨j, hj⟩ := Option.isSome_iff_exists.1 h
    rcases lutLoop_some _ _ _ _ _ hj with ⟨_, h⟩ | ⟨n, _, g, hg, hk⟩
    · simp at h
    · exact List.mem_flatMap.2 ⟨g, List.mem_of_getElem? hg, hk⟩
  · intro h; exact lutLoop_isSome _ _ _ _ (.inl h)

theorem mem_allVariants (k : Kind) : k ∈ allVariants := by cases k <;> decide

theorem total_eq (groups : Groups) :
    (groups.map (fun g => g.2.length)).sum = (groups.flatMap (·.2)).length := by
  rw [List.length_flatMap]

theorem exactlyOnce_iff (groups : Groups) :
    (∀ k, ExactlyOnce groups k) ↔
      (∀ k, k ∈ groups.flatMap (·.2)) ∧ (groups.flatMap (·.2)).length = allVariants.length := by
  have hnd : allVariants.Nodup := by decide
  constructor
  · intro h
    have hmem : ∀ k, k ∈ groups.flatMap (·.2) := fun k => by
      have := h k
      exact List.count_pos_iff.1 (by unfold ExactlyOnce at this; omega)
    have hnd' : (groups.flatMap (·.2)).Nodup := by
      rw [List.nodup_iff_count]
      intro k; exact Nat.le_of_eq (h k)
    refine ⟨hmem, Nat.le_antisymm ?_ ?_⟩
    · exact (List.subperm_of_subset hnd' (fun k _ => mem_allVariants k)).length_le
    · exact (List.subperm_of_subset hnd (fun k _ => hmem k)).length_le
  · rintro ⟨hmem, hlen⟩ k
    have hp := (List.subperm_of_subset hnd (fun k _ => hmem k)).perm_of_length_le (by omega)
    unfold ExactlyOnce
    rw [← hp.count_eq]
    cases k <;> decide

/-- **C07**: a grouping is accepted iff every item kind is in exactly one group, exactly once, and the
group that contains `use` contains nothing else. -/
theorem checkGroups_ok_iff (groups : Groups) :
    (∃ r, checkGroups groups = .ok r) ↔
      (∀ k, ExactlyOnce groups k) ∧ ∀ g ∈ groups, Kind.use ∈ g.2 → g.2 = [.use] := by
  have hexp : (allVariants.filter (fun i => (buildLut groups i).isNone)).isEmpty = true ↔
      ∀ k, k ∈ groups.flatMap (·.2) := by
    rw [List.isEmpty_iff, List.filter_eq_nil_iff]
    constructor
    · intro h k
      have := h k (mem_allVariants k)
      rw [← buildLut_isSome_iff]
      cases hb : buildLut groups k <;> simp_all
    · intro h k _
      have := (buildLut_isSome_iff groups k).2 (h k)
      cases hb : buildLut groups k <;> simp_all
  by_cases hcond : (∀ k, k ∈ groups.flatMap (·.2)) ∧
      (groups.flatMap (·.2)).length = allVariants.length
  · have hc : ((allVariants.filter (fun i => (buildLut groups i).isNone)).isEmpty &&
        ((groups.map (fun g => g.2.length)).sum == allVariants.length)) = true := by
      rw [Bool.and_eq_true, hexp, total_eq]; exact ⟨hcond.1, by simpa using hcond.2⟩
    have hone := (exactlyOnce_iff groups).2 hcond
    simp only [hone, implies_true, true_and]
    have hsome := (buildLut_isSome_iff groups .use).2 (hcond.1 .use)
    obtain ⟨i, hi⟩ := Option.isSome_iff_exists.1 hsome
    rcases lutLoop_some _ _ _ _ _ hi with ⟨_, h⟩ | ⟨n, hin, g, hg, hk⟩
    · simp at h
    · rw [Nat.zero_add] at hin; subst hin
      -- the group with `use` is unique
      have huniq : ∀ g' ∈ groups, Kind.use ∈ g'.2 → g'.2 = g.2 := by
        intro g' hg' hk'
        obtain ⟨m, hm⟩ := List.mem_iff_getElem?.1 hg'
        by_cases hmi : m = i
        · subst hmi; rw [hm] at hg; simp at hg; rw [hg]
        · exfalso
          have h1 := hone .use
          unfold ExactlyOnce at h1
          have : ∀ (gs : Groups) (a b : Nat) (x y : String × List Kind), a < b → gs[a]? = some x →
              gs[b]? = some y → Kind.use ∈ x.2 → Kind.use ∈ y.2 →
              2 ≤ (gs.flatMap (·.2)).count .use := by
            intro gs
            induction gs with
            | nil => intro a b x y _ h; simp at h
            | cons z gs ih =>
              intro a b x y hab ha hb hx hy
              rw [List.flatMap_cons, List.count_append]
              cases a with
              | zero =>
                simp at ha; subst ha
                cases b with
                | zero => omega
                | succ b =>
                  have : 0 < (gs.flatMap (·.2)).count .use :=
                    List.count_pos_iff.2 (List.mem_flatMap.2
                      ⟨y, List.mem_of_getElem? (by simpa using hb), hy⟩)
                  have := List.count_pos_iff.2 hx
                  omega
              | succ a =>
                cases b with
                | zero => omega
                | succ b =>
                  have := ih a b x y (by omega) (by simpa using ha) (by simpa using hb) hx hy
                  omega
          rcases Nat.lt_or_gt_of_ne hmi with h | h
          · have := this groups m i g' g h hm hg hk' hk; omega
          · have := this groups i m g g' h hg hm hk hk'; omega
      have hres : checkGroups groups =
          if g.2.length > 1 then .error .useNotAlone else .ok (groups, buildLut groups) := by
        unfold checkGroups
        simp only [hc, if_true, hi, hg]
      rw [hres]
      constructor
      · rintro ⟨r, hr⟩
        split at hr
        · simp at hr
        · next hlen =>
          intro g' hg' hk'
          rw [huniq g' hg' hk']
          match hgi : g.2, hk with
          | [], hk => simp at hk
          | [a], hk => simp at hk; rw [hk]
          | a :: b :: l, hk => rw [hgi] at hlen; simp at hlen
      · intro h
        have := h g (List.mem_of_getElem? hg) hk
        exact ⟨(groups, buildLut groups), by rw [if_neg (by rw [this]; simp)]⟩
  · have hc : ¬ ((allVariants.filter (fun i => (buildLut groups i).isNone)).isEmpty &&
        ((groups.map (fun g => g.2.length)).sum == allVariants.length)) = true := by
      rw [Bool.and_eq_true, hexp, total_eq]
      rintro ⟨h1, h2⟩; exact hcond ⟨h1, by simpa using h2⟩
    constructor
    · rintro ⟨r, hr⟩
      exfalso
      unfold checkGroups at hr
      simp only [hc, Bool.false_eq_true, if_false] at hr
      split at hr <;> simp at hr
    · rintro ⟨h, _⟩
      exact absurd ((exactlyOnce_iff groups).1 h) hcond

/-- **C07**: in an accepted grouping the order of a kind is the position of the group that contains it. -/
theorem checkGroups_order (groups gs : Groups) (lut : Kind → Option Nat)
    (h : checkGroups groups = .ok (gs, lut)) (k : Kind) :
    gs = groups ∧ ∃ i, lut k = some i ∧ InGroup groups k i := by
  have hok := (checkGroups_ok_iff groups).1 ⟨_, h⟩
  have hl : (gs, lut) = (groups, buildLut groups) := by
    unfold checkGroups at h
    dsimp only at h
    split at h
    · split at h
      · simp at h
      · split at h
        · simp at h
        · split at h
          · simp at h
          · simp only [Except.ok.injEq] at h; exact h.symm
    · split at h <;> simp at h
  simp only [Prod.mk.injEq] at hl
  obtain ⟨rfl, rfl⟩ := hl
  refine ⟨rfl, ?_⟩
  have hm := ((exactlyOnce_iff gs).1 hok.1).1 k
  obtain ⟨i, hi⟩ := Option.isSome_iff_exists.1 ((buildLut_isSome_iff gs k).2 hm)
  refine ⟨i, hi, ?_⟩
  rcases lutLoop_some _ _ _ _ _ hi with ⟨_, h⟩ | ⟨n, hin, hg⟩
  · simp at h
  · rw [Nat.zero_add] at hin; subst hin; exact hg

/-- The default grouping — types.rs:622-654. -/
def defaultGroups : Groups := [
  ("modules", [.externCrate, .mod, .foreignMod]), ("use", [.use]), ("macros", [.macro]),
  ("global_asm", [.globalAsm]), ("UPPER_SNAKE_CASE", [.static, .const]),
  ("PascalCase", [.tyAlias, .enum, .struct, .union, .trait, .traitAlias, .impl]),
  ("lower_snake_case", [.fn])]

/-- The built-in default passes the checks, and its hand-written lookup table (types.rs:655-672) is the
one the check would build. -/
theorem defaultGroups_ok :
    (∃ r, checkGroups defaultGroups = .ok r) ∧
    allVariants.map (buildLut defaultGroups) =
      [some 0, some 0, some 0, some 1, some 2, some 3, some 4, some 4, some 5, some 5, some 5,
       some 5, some 5, some 5, some 5, some 6] := by
  refine ⟨(checkGroups_ok_iff _).2 ⟨fun k => by unfold ExactlyOnce; cases k <;> decide, by decide⟩, by decide⟩

end Verif.Config
