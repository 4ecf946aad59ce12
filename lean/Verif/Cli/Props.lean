import Verif.Cli.Lemmas

/-!
# Properties C01, C02, C03: the command line
-/

namespace Verif.Cli
open Verif Verif.Text

/-! ## Specification -/

/-- The words before the first `--`. -/
def before (ws : List Str) : List Str := ws.takeWhile (· != kDashes)

/-- The words after the first `--` (none if there is no `--`). -/
def after (ws : List Str) : List Str := (ws.dropWhile (· != kDashes)).drop 1

/-- Sanity check of the specification: a command line is its words before `--`, then `--` and the
words after it, or just the former. -/
theorem before_after (ws : List Str) :
    ws = before ws ++ kDashes :: after ws ∨ (ws = before ws ∧ after ws = []) := by
  induction ws with
  | nil => right; simp [before, after]
  | cons w ws ih =>
    by_cases h : w = kDashes
    · left; subst h; simp [before, after]
    · have e : (w != kDashes) = true := by simpa using h
      have hb : before (w :: ws) = w :: before ws := by simp [before, e]
      have ha : after (w :: ws) = after ws := by simp [after, e]
      rw [hb, ha]
      rcases ih with h' | ⟨h', h''⟩
      · left; rw [List.cons_append, ← h']
      · right; exact ⟨by rw [← h'], h''⟩

/-! ## C02 -/

/-- **C02**: cargo is invoked with `fix` iff `--fix` occurs before `--`, followed by exactly the other
words before `--`, in order. -/
theorem cargo_words (ws : List Str) :
    (ClippyCmd.new ws).cargoWords =
      (if kFix ∈ before ws then kSubFix else kSubCheck) ::
        (before ws).filter (fun w => w != kFix && w != kNoDeps) := by
  simp [ClippyCmd.new, ClippyCmd.cargoWords, newLoop_spec, before]
  rfl

/-- **C02**: clippy receives the `--no-deps` words before `--` and then every word after `--`, in order;
with `--fix`, `--no-deps` is added at the end if none was there. -/
theorem clippy_words (ws : List Str) :
    (ClippyCmd.new ws).clippyArgs =
      (before ws).filter (· == kNoDeps) ++ after ws ++
        (if kFix ∈ before ws ∧ kNoDeps ∉ before ws ∧ kNoDeps ∉ after ws
         then [kNoDeps] else []) := by
  simp only [ClippyCmd.new, newLoop_spec, List.nil_append]
  have hm : ((before ws).filter (· == kNoDeps) ++ after ws).any (· == kNoDeps) = true ↔
      kNoDeps ∈ before ws ∨ kNoDeps ∈ after ws := by
    simp
  unfold before after at *
  by_cases hfix : kFix ∈ ws.takeWhile (· != kDashes)
  · simp only [hfix, if_true, decide_true, Bool.true_and, true_and]
    by_cases hn : ((ws.takeWhile (· != kDashes)).filter (· == kNoDeps) ++
        (ws.dropWhile (· != kDashes)).drop 1).any (· == kNoDeps) = true
    · rw [if_neg (by rw [hn]; simp), if_neg, List.append_nil]
      rintro ⟨h2, h3⟩
      exact (hm.1 hn).elim h2 h3
    · rw [if_pos (by rw [Bool.eq_false_iff.2 hn]; rfl), if_pos]
      exact not_or.1 (fun h => hn (hm.2 h))
  · have hne : ¬ (kSubCheck = kSubFix) := by decide
    simp only [hfix, if_false, hne, decide_false, Bool.false_and, false_and, List.append_nil,
      Bool.false_eq_true]

/-- **C02**: `--fix` implies `--no-deps` for clippy. -/
theorem fix_implies_no_deps (ws : List Str) (h : kFix ∈ before ws) :
    kNoDeps ∈ (ClippyCmd.new ws).clippyArgs := by
  rw [clippy_words]
  by_cases h1 : kNoDeps ∈ before ws
  · simp only [List.mem_append, List.mem_filter]; left; left; exact ⟨h1, by decide⟩
  · by_cases h2 : kNoDeps ∈ after ws
    · simp only [List.mem_append]; left; right; exact h2
    · simp [h, h1, h2]

/-- `cargo clippy --fix -p foo -- -W clippy::all --fix`: both cases of the theorems above. -/
example :
    ClippyCmd.new [kFix, str!"-p", str!"foo", kDashes, str!"-W", kFix] =
      ⟨kSubFix, [str!"-p", str!"foo"], [str!"-W", kFix, kNoDeps]⟩ := by decide

example : kFix ∈ before [str!"-p", kFix, kDashes, str!"-W"] := by decide

/-! ## C01 -/

/-- **C01**: for any list of flags none of which contains `__CLIPPY_HACKERY`, the driver decodes from
the environment variable exactly the same flags in the same order, without empty flags and
without `--no-deps`, which it records. (The English property only excludes flags that contain the
full marker; see `decode_encode_violated`.) -/
theorem decode_encode_partial (c : ClippyCmd)
    (h : ∀ w ∈ c.clippyArgs, ¬ markerStem <:+: w) :
    decodeEnv (some c.envValue) =
      (c.clippyArgs.contains (kNoDeps),
       c.clippyArgs.filter (fun w => w != [] && w != kNoDeps)) := by
  have e : c.envValue = (c.clippyArgs.map (fun w => w ++ marker)).flatten := by
    rw [ClippyCmd.envValue, envValue_eq]; simp
  rw [decodeEnv, e, Option.getD_some, split_encode _ h, decodePieces_spec]
  have : ¬ (kNoDeps = ([] : Str)) := by decide
  simp [this]

/-- **C01** is violated by the code for a flag that does not contain the marker: the marker's first
two and last two characters coincide, so the flag `__CLIPPY_HACKERY` swallows part of the marker that
follows it. -/
theorem decode_encode_violated :
    ¬ ∀ c : ClippyCmd, (∀ w ∈ c.clippyArgs, ¬ marker <:+: w) →
      decodeEnv (some c.envValue) =
        (c.clippyArgs.contains (kNoDeps),
         c.clippyArgs.filter (fun w => w != [] && w != kNoDeps)) := by
  intro h
  have := h ⟨kSubCheck, [], [markerStem]⟩ (by
    intro w hw
    simp only [List.mem_singleton] at hw
    subst hw
    intro hc
    have := hc.length_le
    revert this
    decide)
  revert this
  decide

/-- The end-to-end form of **C01**: whatever the user types after `--`, if the driver lints the crate it
passes to the compiler its own words, then those flags in order, then `--cfg clippy`. -/
theorem user_flags_reach_compiler (ws : List Str) (env : Env) (raw : List Str) (out : List Str)
    (hw : ∀ w ∈ after ws, ¬ markerStem <:+: w)
    (henv : env.clippyArgs = some (ClippyCmd.new ws).envValue)
    (hplan : driver env raw = .lint out) :
    ∃ own, out = own ++ (after ws).filter (fun w => w != [] && w != kNoDeps)
      ++ [kCfg, kClippy] ∧ own = passSysroot env
        (if wrapperMode raw then raw.eraseIdx 1 else raw) := by
  have hcl : ∀ w ∈ (ClippyCmd.new ws).clippyArgs, ¬ markerStem <:+: w := by
    have hnd : ¬ markerStem <:+: kNoDeps := fun hc => by
      have := hc.length_le; revert this; decide
    intro w hmem
    rw [clippy_words] at hmem
    simp only [List.mem_append, List.mem_filter] at hmem
    rcases hmem with (⟨_, h⟩ | h) | h
    · have : w = kNoDeps := by simpa using h
      rw [this]; exact hnd
    · exact hw w h
    · split at h
      · rw [List.mem_singleton.1 h]; exact hnd
      · simp at h
  have hdec := decode_encode_partial _ hcl
  have hfil : (ClippyCmd.new ws).clippyArgs.filter (fun w => w != [] && w != kNoDeps)
      = (after ws).filter (fun w => w != [] && w != kNoDeps) := by
    rw [clippy_words, List.filter_append, List.filter_append, List.filter_filter]
    have h1 : (before ws).filter (fun a => a != [] && a != kNoDeps && a == kNoDeps)
        = [] := by
      rw [List.filter_eq_nil_iff]; intro a _; simp
    have h2 : ∀ p : Prop, [Decidable p] → List.filter (fun w => w != [] && w != kNoDeps)
        (if p then [kNoDeps] else []) = [] := by
      intro p _; split
      · decide
      · rfl
    rw [h1, h2]; simp
  unfold driver at hplan
  split at hplan
  · split at hplan <;> simp at hplan
  · split at hplan
    · simp at hplan
    · simp only [henv, hdec, hfil] at hplan
      generalize (if wrapperMode raw then raw.eraseIdx 1 else raw) = origArgs at *
      split at hplan
      · simp at hplan
      · split at hplan
        · simp only [Plan.lint.injEq] at hplan
          exact ⟨_, by rw [← hplan]; simp, rfl⟩
        · simp at hplan

/-- A run of `cargo clippy -- -W clippy::pedantic` whose driver call lints the crate. -/
example :
    let env : Env := ⟨none, some (ClippyCmd.new [kDashes, str!"-W", str!"clippy::pedantic"]).envValue,
      true, fun _ => none⟩
    driver env [str!"clippy-driver", str!"/usr/bin/rustc", str!"src/lib.rs"] =
      .lint [str!"clippy-driver", str!"src/lib.rs", str!"-W", str!"clippy::pedantic",
        kCfg, kClippy] := by decide

/-! ## C03 -/

/-- Number of words equal to `flag` at the end of `pre`. -/
def bareRun (flag : Str) (pre : List Str) : Nat := (pre.reverse.takeWhile (· == flag)).length

/-- `flag` is given with value `v`: some word is `flag=v`, or some word is `flag` and the next word is `v`;
a word that is itself the value of a preceding bare `flag` does not count. The latter is decided by
the length of the run of bare `flag` words directly before it: an even run pairs up completely. -/
def Given (flag v : Str) (ws : List Str) : Prop :=
  ∃ pre post, bareRun flag pre % 2 = 0 ∧
    (ws = pre ++ (flag ++ '=' :: v) :: post ∨ ws = pre ++ flag :: v :: post)

theorem bareRun_cons (flag a : Str) (pre : List Str) :
    bareRun flag (a :: pre) =
      if bareRun flag pre = pre.length ∧ a = flag then pre.length + 1 else bareRun flag pre := by
  unfold bareRun
  rw [List.reverse_cons, List.takeWhile_append]
  by_cases h : (pre.reverse.takeWhile (· == flag)).length = pre.reverse.length
  · simp only [h, if_true, List.length_reverse, true_and]
    by_cases ha : a = flag
    · simp [ha]
    · have : (a == flag) = false := by simpa using ha
      simp [ha]
  · rw [if_neg h]
    rw [List.length_reverse] at h
    rw [if_neg (by simp [h])]

theorem bareRun_ne (flag a : Str) (pre : List Str) (h : a ≠ flag) :
    bareRun flag (a :: pre) = bareRun flag pre := by
  rw [bareRun_cons, if_neg (by simp [h])]

theorem bareRun_pair (flag b : Str) (pre : List Str) :
    bareRun flag (flag :: b :: pre) % 2 = bareRun flag pre % 2 := by
  have hle : ∀ l, bareRun flag l ≤ l.length := fun l => by
    unfold bareRun
    exact Nat.le_trans (List.takeWhile_sublist _).length_le (by simp)
  have h1 := bareRun_cons flag flag (b :: pre)
  have h2 := bareRun_cons flag b pre
  have h3 := hle pre
  simp only [List.length_cons, and_true] at h1
  by_cases hb : b = flag
  · simp only [hb, and_true] at h1 h2 ⊢
    split at h2 <;> rw [h2] at h1 <;> split at h1 <;> omega
  · simp only [hb, and_false, if_false] at h2
    rw [h2, if_neg (by omega)] at h1
    omega

/-- A word that is neither `flag` nor `flag=…` does not matter. -/
theorem given_cons_ne (flag v w : Str) (ws : List Str) (hw : w ≠ flag) :
    Given flag v (w :: ws) ↔ w = flag ++ '=' :: v ∨ Given flag v ws := by
  constructor
  · rintro ⟨pre, post, hr, h⟩
    cases pre with
    | nil =>
      rcases h with h | h
      · left; simp at h; exact h.1
      · simp at h; exact absurd h.1 hw
    | cons a pre =>
      right
      simp only [List.cons_append, List.cons.injEq] at h
      have ha : a = w := by rcases h with h | h <;> exact h.1.symm
      refine ⟨pre, post, ?_, ?_⟩
      · rwa [bareRun_ne _ _ _ (ha ▸ hw)] at hr
      · rcases h with h | h
        · exact .inl h.2
        · exact .inr h.2
  · rintro (h | ⟨pre, post, hr, h⟩)
    · exact ⟨[], ws, by simp [bareRun], .inl (by simp [h])⟩
    · refine ⟨w :: pre, post, by rwa [bareRun_ne _ _ _ hw], ?_⟩
      simpa using h

theorem given_flag (flag v v0 : Str) (ws : List Str) :
    Given flag v (flag :: v0 :: ws) ↔ v0 = v ∨ Given flag v ws := by
  constructor
  · rintro ⟨pre, post, hr, h⟩
    match pre, hr, h with
    | [], hr, h =>
      rcases h with h | h
      · simp at h
      · simp at h; exact .inl h.1
    | [a], hr, h =>
      exfalso
      have ha : a = flag := by
        rcases h with h | h <;> simp at h <;> exact h.1.symm
      subst ha
      simp [bareRun] at hr
    | a :: b :: pre, hr, h =>
      right
      simp only [List.cons_append, List.cons.injEq] at h
      have ha : a = flag := by rcases h with h | h <;> exact h.1.symm
      subst ha
      rw [bareRun_pair] at hr
      refine ⟨pre, post, hr, ?_⟩
      rcases h with h | h
      · exact .inl h.2.2
      · exact .inr h.2.2
  · rintro (h | ⟨pre, post, hr, h⟩)
    · exact ⟨[], ws, by simp [bareRun], .inr (by simp [h])⟩
    · refine ⟨flag :: v0 :: pre, post, by rwa [bareRun_pair], ?_⟩
      simpa using h

/-- **C03**: the flag scanner answers 'yes' iff the flag is given, in either spelling, with a value that
satisfies the predicate. -/
theorem argValue_iff (flag : Str) (pred : Str → Bool) (ws : List Str) (hflag : '=' ∉ flag) :
    argValue flag pred ws = true ↔ ∃ v, Given flag v ws ∧ pred v = true := by
  match ws with
  | [] => simp [argValue, Given]
  | w :: rest =>
    unfold argValue
    rcases hs : splitOnce '=' w with ⟨key, val⟩
    simp only
    cases val with
    | some v0 =>
      have hw := splitOnce_some.1 hs
      have hne : w ≠ flag := fun h => hflag (by rw [← h, hw.1]; simp)
      have ih := argValue_iff flag pred rest hflag
      by_cases hk : key = flag
      · subst hk
        have heq : ∀ v, w = key ++ '=' :: v ↔ v = v0 := fun v => by rw [hw.1]; simp [eq_comm]
        simp only [if_true, given_cons_ne _ _ _ _ hne, heq]
        by_cases hp : pred v0 = true
        · simp only [hp, if_true, true_iff]; exact ⟨v0, .inl rfl, hp⟩
        · simp only [hp, Bool.false_eq_true, if_false, ih]
          constructor
          · rintro ⟨v, h, h'⟩; exact ⟨v, .inr h, h'⟩
          · rintro ⟨v, rfl | h, h'⟩
            · exact absurd h' hp
            · exact ⟨v, h, h'⟩
      · have heq : ∀ v, ¬ w = flag ++ '=' :: v := fun v h => by
          have := splitOnce_some.2 ⟨h, hflag⟩
          rw [hs] at this; simp at this; exact hk this.1
        simp only [hk, if_false, given_cons_ne _ _ _ _ hne, heq, false_or, ih]
    | none =>
      have hw := splitOnce_none.1 hs
      obtain ⟨rfl, hw⟩ := hw
      by_cases hk : w = flag
      · subst hk
        simp only [if_true]
        cases rest with
        | nil =>
          simp only [Bool.false_eq_true, false_iff]
          rintro ⟨v, ⟨pre, post, hr, h⟩, _⟩
          rcases h with h | h
          · cases pre with
            | nil => simp at h
            | cons a pre => simp at h
          · have := congrArg List.length h
            simp at this; omega
        | cons v0 rest' =>
          have ih := argValue_iff w pred rest' hflag
          simp only [given_flag]
          by_cases hp : pred v0 = true
          · simp only [hp, if_true, true_iff]; exact ⟨v0, .inl rfl, hp⟩
          · simp only [hp, Bool.false_eq_true, if_false, ih]
            constructor
            · rintro ⟨v, h, h'⟩; exact ⟨v, .inr h, h'⟩
            · rintro ⟨v, rfl | h, h'⟩
              · exact absurd h' hp
              · exact ⟨v, h, h'⟩
      · have heq : ∀ v, ¬ w = flag ++ '=' :: v := fun v h => hw (by rw [h]; simp)
        simp only [hk, if_false, given_cons_ne _ _ _ _ hk, heq, false_or]
        exact argValue_iff flag pred rest hflag
termination_by ws.length

/-- The driver's notion of its own words: without the wrapped `rustc` path. -/
def ownWords (raw : List Str) : List Str := if wrapperMode raw then raw.eraseIdx 1 else raw

/-- The invocation compiles something: it is not `--rustc`, `--version`/`-V` or a help request. -/
def Compiles (raw : List Str) : Prop :=
  kRustcFlag ∉ raw ∧ kVersion ∉ raw ∧ kV ∉ raw ∧
    (wrapperMode raw = false → kHelp ∉ raw ∧ kH ∉ raw ∧ raw.length ≠ 1)

/-- **C03**: for an invocation that compiles something, lints are registered iff the crate is not capped
with `--cap-lints allow` (unless `--force-warn` names a clippy lint), the package is primary or
`--no-deps` was not requested, and it is not an information query. -/
theorem lints_run_iff (env : Env) (raw : List Str) (hc : Compiles raw) (flags : List Str)
    (hflags : ∀ w ∈ flags, ¬ str!"__CLIPPY_HACKERY" <:+: w)
    (henv : env.clippyArgs = some (⟨[], [], flags⟩ : ClippyCmd).envValue) :
    (∃ args, driver env raw = .lint args) ↔
      (Given kCapLints kAllow (ownWords raw) →
        ∃ v, Given kForceWarn v (ownWords raw) ∧ str!"clippy::" <:+: v) ∧
      (str!"--no-deps" ∈ flags → env.primaryPackage = true) ∧
      ¬ (str!"-vV" ∈ passSysroot env (ownWords raw) ∨
         ∃ v, Given kPrint v (ownWords raw) ∧ v ≠ str!"crate-root-lint-levels") := by
  obtain ⟨h1, h2, h3, h4⟩ := hc
  have hfind : raw.findIdx? (· == kRustcFlag) = none := by
    rw [List.findIdx?_eq_none_iff]; intro x hx
    simp only [beq_eq_false_iff_ne, ne_eq]; rintro rfl; exact h1 hx
  have hver : raw.any (fun a => a == kVersion || a == kV) = false := by
    rw [List.any_eq_false]; intro x hx
    simp only [Bool.or_eq_true, beq_iff_eq, not_or]
    exact ⟨by rintro rfl; exact h2 hx, by rintro rfl; exact h3 hx⟩
  have hhelp : (!wrapperMode raw && ((ownWords raw).any (fun a => a == kHelp || a == kH)
      || (ownWords raw).length == 1)) = false := by
    cases hw : wrapperMode raw with
    | true => rfl
    | false =>
      obtain ⟨h5, h6, h7⟩ := h4 hw
      have : ownWords raw = raw := by simp [ownWords, hw]
      rw [this]
      simp only [Bool.not_false, Bool.true_and, Bool.or_eq_false_iff, List.any_eq_false,
        beq_iff_eq, not_or, Bool.or_eq_true, beq_eq_false_iff_ne]
      exact ⟨fun x hx => ⟨by rintro rfl; exact h5 hx, by rintro rfl; exact h6 hx⟩, h7⟩
  have hdec := decode_encode_partial ⟨[], [], flags⟩ hflags
  have hplan : driver env raw =
      if clippyEnabled env (flags.contains kNoDeps) (ownWords raw) (passSysroot env (ownWords raw))
      then .lint (passSysroot env (ownWords raw) ++
        (flags.filter (fun w => w != [] && w != kNoDeps) ++ [kCfg, kClippy]))
      else .plain (passSysroot env (ownWords raw)) := by
    unfold driver
    simp only [hfind, hver, Bool.false_eq_true, if_false]
    simp only [henv, hdec]
    rw [show (if wrapperMode raw = true then raw.eraseIdx 1 else raw) = ownWords raw from rfl, hhelp]
    simp
  rw [hplan]
  have hen : (∃ args, (if clippyEnabled env (flags.contains kNoDeps) (ownWords raw)
      (passSysroot env (ownWords raw))
      then Plan.lint (passSysroot env (ownWords raw) ++
        (flags.filter (fun w => w != [] && w != kNoDeps) ++ [kCfg, kClippy]))
      else .plain (passSysroot env (ownWords raw))) = .lint args) ↔
      clippyEnabled env (flags.contains kNoDeps) (ownWords raw)
        (passSysroot env (ownWords raw)) = true := by
    by_cases hb : clippyEnabled env (flags.contains kNoDeps) (ownWords raw)
      (passSysroot env (ownWords raw)) = true
    · rw [if_pos hb]; exact ⟨fun _ => hb, fun _ => ⟨_, rfl⟩⟩
    · rw [if_neg hb]; exact ⟨fun ⟨_, h⟩ => by simp at h, fun h => absurd h hb⟩
  rw [hen]
  unfold clippyEnabled
  have a1 := argValue_iff kCapLints (· == kAllow) (ownWords raw) (by decide)
  have a2 := argValue_iff kForceWarn (contains kClippyPath) (ownWords raw) (by decide)
  have a3 := argValue_iff kPrint (· != kRootLevels) (ownWords raw) (by decide)
  simp only [beq_iff_eq, exists_eq_right] at a1
  simp only [contains_iff] at a2
  simp only [bne_iff_ne] at a3
  have a4 : ((passSysroot env (ownWords raw)).any (· == kVV) = true) ↔
      kVV ∈ passSysroot env (ownWords raw) := by simp
  have a5 : (flags.contains kNoDeps = true) ↔ kNoDeps ∈ flags := by simp
  change _ ↔ (Given kCapLints kAllow (ownWords raw) →
        ∃ v, Given kForceWarn v (ownWords raw) ∧ kClippyPath <:+: v) ∧
      (kNoDeps ∈ flags → env.primaryPackage = true) ∧
      ¬ (kVV ∈ passSysroot env (ownWords raw) ∨
         ∃ v, Given kPrint v (ownWords raw) ∧ v ≠ kRootLevels)
  rw [← a1, ← a2, ← a3, ← a4, ← a5]
  generalize argValue kCapLints _ _ = b1
  generalize argValue kForceWarn _ _ = b2
  generalize argValue kPrint _ _ = b3
  generalize List.any _ _ = b4
  generalize flags.contains kNoDeps = b5
  generalize env.primaryPackage = b6
  revert b1 b2 b3 b4 b5 b6
  decide

/-- A wrapped `rustc --cap-lints allow foo.rs` compiles, is capped, and is not linted. -/
example :
    let raw := [str!"clippy-driver", str!"rustc", str!"--cap-lints", str!"allow", str!"foo.rs"]
    Compiles raw ∧ Given kCapLints kAllow (ownWords raw) ∧
      driver ⟨none, some [], true, fun _ => none⟩ raw = .plain (ownWords raw) := by
  refine ⟨⟨by decide, by decide, by decide, by decide⟩, ?_, by decide⟩
  exact ⟨[str!"clippy-driver"], [str!"foo.rs"], by decide, .inr (by decide)⟩

end Verif.Cli
