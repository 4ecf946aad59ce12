import Verif.Sources.Local

/-! The preparation of sources over any history of runs, each of which may have been interrupted. -/

namespace Verif.Sources

open Model

/-- The condition for all sources. -/
def AllGood (w : World) (U : Source → Prop) (s : Disk) : Prop := ∀ src, U src → Good w s src

/-- Sources which share a directory are related. -/
def Shares (U : Source → Prop) : Prop := ∀ x y, U x → U y → dirOf x = dirOf y → Spec.Related x y

/-- Steps for one source keep the condition of the others. -/
theorem allGood_of {w : World} {U : Source → Prop} (hU : Shares U) {s : Disk} (h : AllGood w U s)
    {src : Source} (hs : U src) {os : List Op} (ho : ∀ o ∈ os, opDir o = dirOf src)
    (hg : Good w (applyAll w s os) src) : AllGood w U (applyAll w s os) := by
  intro x hx
  by_cases hd : dirOf x = dirOf src
  · exact hg.related (hU src x hs hx hd.symm) hd
  · have := applyAll_other w (os := os) s (d := dirOf x) fun o hm => by rw [ho o hm]; exact hd
    exact (h x hx).congr this.1 this.2

/-- A run keeps the condition, unless it is interrupted between two files of an archive. -/
theorem prepare_good {w : World} {U : Source → Prop} (hU : Shares U) (srcs : List Source) :
    ∀ (k : Nat) (s : Disk), AllGood w U s → (∀ src ∈ srcs, U src) →
      ¬ Torn (prepare w k s srcs).2 → AllGood w U (prepare w k s srcs).1 := by
  induction srcs with
  | nil => intro k s h _ _; exact h
  | cons src rest ih =>
    intro k s h hs ht
    have hsrc := hs src (by simp)
    simp only [prepare] at ht ⊢
    by_cases hk : (prepOps w s src).length ≤ k
    · rw [if_pos hk] at ht ⊢
      refine ih _ _ ?_ (fun x hx => hs x (List.mem_cons_of_mem _ hx)) ht
      refine allGood_of hU h hsrc (prepOps_dir w s src) ?_
      have := good_take (h src hsrc) (prepOps w s src).length (by simp [Torn])
      rwa [List.take_length] at this
    · rw [if_neg hk] at ht ⊢
      exact allGood_of hU h hsrc (fun o ho => prepOps_dir w s src o (List.mem_of_mem_take ho))
        (good_take (h src hsrc) k ht)

/-- Before the first run. -/
theorem empty_good (w : World) (U : Source → Prop) : AllGood w U empty := by
  intro src _
  cases src with
  | cratesIo n v => intro e he; cases he
  | git n u c => intro e he; cases he
  | path n p => trivial

/-- Runs keep the condition. -/
theorem history_good {w : World} {U : Source → Prop} (hU : Shares U) (runs : List (List Source × Nat)) :
    ∀ s : Disk, AllGood w U s → (∀ r ∈ runs, ∀ src ∈ r.1, U src) →
      (∀ a srcs k b, runs = a ++ (srcs, k) :: b → ¬ Torn (prepare w k (history w s a) srcs).2) →
      AllGood w U (history w s runs) := by
  induction runs with
  | nil => intro s h _ _; exact h
  | cons r runs ih =>
    obtain ⟨srcs, k⟩ := r
    intro s h hs ht
    simp only [history]
    refine ih _ ?_ (fun r hr => hs r (List.mem_cons_of_mem _ hr)) ?_
    · exact prepare_good hU srcs k s h (hs (srcs, k) (by simp)) (ht [] srcs k runs rfl)
    · intro a srcs' k' b hab
      exact ht ((srcs, k) :: a) srcs' k' b (by rw [hab]; rfl)

/-- A run leaves directories alone which belong to none of its sources. -/
theorem prepare_other {w : World} (srcs : List Source) :
    ∀ (k : Nat) (s : Disk) (d : String), (∀ src ∈ srcs, dirOf src ≠ d) →
      (prepare w k s srcs).1.dir d = s.dir d := by
  induction srcs with
  | nil => intro k s d _; rfl
  | cons src rest ih =>
    intro k s d hd
    simp only [prepare]
    have hne : d ≠ dirOf src := fun h => hd src (by simp) h.symm
    by_cases hk : (prepOps w s src).length ≤ k
    · rw [if_pos hk, ih _ _ _ fun x hx => hd x (List.mem_cons_of_mem _ hx)]
      exact (applyAll_other w s fun o ho => by rw [prepOps_dir w s src o ho]; exact hne).1
    · rw [if_neg hk]
      exact (applyAll_other w s fun o ho => by
        rw [prepOps_dir w s src o (List.mem_of_mem_take ho)]; exact hne).1

/-- A run to the end. -/
theorem prepare_done {w : World} {U : Source → Prop} (hU : Shares U) (srcs : List Source) :
    ∀ (k : Nat) (s : Disk), AllGood w U s → (∀ src ∈ srcs, U src) →
      (srcs.Pairwise fun x y => dirOf x ≠ dirOf y) →
      (∀ n v, .cratesIo n v ∈ srcs → w.crate n v ≠ []) →
      (∀ n u c, .git n u c ∈ srcs → w.repo u c ≠ none) →
      (prepare w k s srcs).2 = none →
      ∀ src ∈ srcs, ∃ d, (prepare w k s srcs).1.dir (dirOf src) = some d ∧ Spec.Right w d src := by
  induction srcs with
  | nil => intro k s _ _ _ _ _ _ src hm; cases hm
  | cons x rest ih =>
    intro k s h hs hp hc hg hd src hm
    simp only [prepare] at hd ⊢
    by_cases hk : (prepOps w s x).length ≤ k
    · rw [if_pos hk] at hd ⊢
      have hx := hs x (by simp)
      obtain ⟨hp1, hp2⟩ := List.pairwise_cons.1 hp
      have hfin := finished (w := w) (h x hx) (fun n v e => hc n v (by simp [e]))
        fun n u c e => hg n u c (by simp [e])
      rcases List.mem_cons.1 hm with rfl | hm'
      · obtain ⟨e, he, hr⟩ := hfin.1
        refine ⟨e, ?_, hr⟩
        rw [prepare_other _ _ _ _ fun y hy => (hp1 y hy).symm]
        exact he
      · exact ih _ _ (allGood_of hU h hx (prepOps_dir w s x) hfin.2)
          (fun y hy => hs y (List.mem_cons_of_mem _ hy)) hp2
          (fun n v hy => hc n v (List.mem_cons_of_mem _ hy))
          (fun n u c hy => hg n u c (List.mem_cons_of_mem _ hy)) hd src hm'
    · rw [if_neg hk] at hd
      cases hd

/-- **C108**, the directories.  After any history of runs, with any lists of crates and interrupted
at any step (but not between two files of an archive), a run that is not interrupted leaves for each
of its sources a directory with just the files of that version, that commit or that local directory.
Missing: sources which are not related but share a directory (see `same_repo`, `other_url`,
`same_dir`), and interruptions while an archive is unpacked (see `torn`). -/
theorem prepared_partial (w : World) (runs : List (List Source × Nat)) (srcs : List Source) (k : Nat)
    (hwhole : ∀ a srcs' k' b, runs = a ++ (srcs', k') :: b →
      ¬ Torn (prepare w k' (history w empty a) srcs').2)
    (hshare : Shares fun x => x ∈ srcs ∨ ∃ r ∈ runs, x ∈ r.1)
    (hdistinct : srcs.Pairwise fun x y => dirOf x ≠ dirOf y)
    (hcrate : ∀ n v, .cratesIo n v ∈ srcs → w.crate n v ≠ [])
    (hcommit : ∀ n u c, .git n u c ∈ srcs → w.repo u c ≠ none)
    (hend : (prepare w k (history w empty runs) srcs).2 = none) :
    ∀ src ∈ srcs, ∃ d, (prepare w k (history w empty runs) srcs).1.dir (dirOf src) = some d ∧
      Spec.Right w d src :=
  prepare_done hshare srcs k _
    (history_good hshare runs empty (empty_good w _) (fun r hr x hx => .inr ⟨r, hr, hx⟩) hwhole)
    (fun _ h => .inl h) hdistinct hcrate hcommit hend

/-- **C108**, the end.  A run ends after some number of steps. -/
theorem run_ends (w : World) (srcs : List Source) (s : Disk) :
    ∃ n, ∀ k, n ≤ k → (prepare w k s srcs).2 = none := by
  induction srcs generalizing s with
  | nil => exact ⟨0, fun _ _ => rfl⟩
  | cons src rest ih =>
    obtain ⟨n, hn⟩ := ih (applyAll w s (prepOps w s src))
    refine ⟨(prepOps w s src).length + n, fun k hk => ?_⟩
    simp only [prepare]
    rw [if_pos (by omega)]
    exact hn _ (by omega)

/-- A version, a repository with two commits, and a local directory. -/
def world : World where
  crate _ v := [("Cargo.toml", v.length), ("rust-toolchain", 5), ("src/lib.rs", 7)]
  head _ := [("lib.rs", 0)]
  repo u c := if u = "u" then some [("lib.rs", c.length), ("rust-toolchain.toml", 1)] else none
  localDir _ := [("main.rs", 4), ("main.rs", 3)]

/-- The first run is interrupted while the repository is cloned, the second before the toolchain
file is removed, and then another commit is wanted. -/
def before : List (List Source × Nat) :=
  [([.cratesIo "a" "1", .git "b" "u" "x"], 8), ([.git "b" "u" "xx", .path "c" "p"], 4),
   ([.cratesIo "a" "1", .path "c" "q"], 3)]

def wanted : List Source := [.cratesIo "a" "1", .git "b" "u" "xyz", .path "c" "p"]

/-- The hypotheses of `prepared_partial` are met, and what is found then. -/
example : (prepare world 100 (history world empty before) wanted).2 = none ∧
    (∀ n v, .cratesIo n v ∈ wanted → world.crate n v ≠ []) ∧
    (wanted.Pairwise fun x y => dirOf x ≠ dirOf y) ∧
    ((prepare world 100 (history world empty before) wanted).1.dir "b-git").map
      (fun d => (d.files "lib.rs", d.files "rust-toolchain.toml")) = some (some 3, none) ∧
    ((prepare world 100 (history world empty before) wanted).1.dir "c").map
      (fun d => d.files "main.rs") = some (some 3) := by
  refine ⟨by decide +kernel, ?_, by decide +kernel, by decide +kernel, by decide +kernel⟩
  intro n v _ h
  cases h

/-- None of the runs of `before` was interrupted between two files of an archive; all were
interrupted. -/
theorem before_whole : ∀ a srcs k b, before = a ++ (srcs, k) :: b →
    ¬ Torn (prepare world k (history world empty a) srcs).2 := by
  have h1 : (prepare world 8 empty [.cratesIo "a" "1", .git "b" "u" "x"]).2 =
      some ([.clone "b-git" "u"],
        [.checkout "b-git" "x", .rm "b-git" "rust-toolchain", .rm "b-git" "rust-toolchain.toml"]) := by
    decide +kernel
  have h2 : (prepare world 4 (history world empty (before.take 1))
      [.git "b" "u" "xx", .path "c" "p"]).2 = some ([.mkdir "c"], [.copy "c" "main.rs" 4,
        .copy "c" "main.rs" 3, .rm "c" "rust-toolchain", .rm "c" "rust-toolchain.toml"]) := by
    decide +kernel
  have h3 : (prepare world 3 (history world empty (before.take 2))
      [.cratesIo "a" "1", .path "c" "q"]).2 = some ([.rmdir "c"], [.mkdir "c", .copy "c" "main.rs" 4,
        .copy "c" "main.rs" 3, .rm "c" "rust-toolchain", .rm "c" "rust-toolchain.toml"]) := by
    decide +kernel
  intro a srcs k b h
  match a, h with
  | [], h =>
    obtain ⟨⟨rfl, rfl⟩, -⟩ : (_ = _ ∧ _ = _) ∧ _ = _ := by simpa [before] using h
    rw [show history world empty [] = empty from rfl, h1]
    rintro ⟨⟨d, f, x, h⟩, -⟩
    cases h
  | [r], h =>
    obtain ⟨rfl, ⟨rfl, rfl⟩, -⟩ : _ = _ ∧ (_ = _ ∧ _ = _) ∧ _ = _ := by simpa [before] using h
    erw [h2]
    rintro ⟨⟨d, f, x, h⟩, -⟩
    cases h
  | [r, r'], h =>
    obtain ⟨rfl, rfl, ⟨rfl, rfl⟩, -⟩ : _ = _ ∧ _ = _ ∧ (_ = _ ∧ _ = _) ∧ _ = _ := by
      simpa [before] using h
    erw [h3]
    rintro ⟨⟨d, f, x, h⟩, -⟩
    cases h
  | _ :: _ :: _ :: a, h => simp [before] at h

/-- Sources in `before` and `wanted` which share a directory are related. -/
theorem before_shares : Shares fun x => x ∈ wanted ∨ ∃ r ∈ before, x ∈ r.1 := by
  have key : ∀ x, (x ∈ wanted ∨ ∃ r ∈ before, x ∈ r.1) →
      x = .cratesIo "a" "1" ∨ (∃ c, x = .git "b" "u" c) ∨ ∃ p, x = .path "c" p := by
    intro x hx
    simp only [wanted, before, List.mem_cons, List.not_mem_nil, or_false, exists_eq_or_imp,
      exists_eq_left] at hx
    rcases hx with (rfl | rfl | rfl) | (rfl | rfl) | (rfl | rfl) | rfl | rfl <;> simp
  intro x y hx hy hd
  rcases key x hx with rfl | ⟨c, rfl⟩ | ⟨p, rfl⟩ <;> rcases key y hy with rfl | ⟨c', rfl⟩ | ⟨p', rfl⟩
  · exact ⟨rfl, rfl⟩
  · simp only [dirOf] at hd; exact absurd hd (by decide +kernel)
  · simp only [dirOf] at hd; exact absurd hd (by decide +kernel)
  · simp only [dirOf] at hd; exact absurd hd (by decide +kernel)
  · exact rfl
  · simp only [dirOf] at hd; exact absurd hd (by decide +kernel)
  · simp only [dirOf] at hd; exact absurd hd (by decide +kernel)
  · simp only [dirOf] at hd; exact absurd hd (by decide +kernel)
  · trivial

/-- **C108**, the list.  An entry that names exactly one kind of source is read as that. -/
theorem read_entry {e : Entry} {src : Source} (h : Spec.Means e src) : readEntry e = some src := by
  cases h <;> rfl

/-- **C108**, other entries.  An entry which is accepted names exactly one kind of source, if it
doesn't name a local directory.  Missing: entries with a local directory (see `path_and_version`). -/
theorem read_only_partial {e : Entry} {src : Source} (hp : e.path = none) (h : readEntry e = some src) :
    Spec.Means e src := by
  obtain ⟨n, v, u, c, p⟩ := e
  simp only at hp
  subst hp
  cases v <;> cases u <;> cases c <;> simp [readEntry] at h <;> subst h <;> constructor

example : readEntry ⟨"serde", none, some "u", some "c", none⟩ = some (.git "serde" "u" "c") ∧
    readEntry ⟨"serde", none, some "u", none, none⟩ = none := by decide

/-- The attempts to download. -/
theorem get_from (as : List Attempt) : ∀ r, r ≤ 4 →
    (Model.get r as = true ↔ ∃ n rest, n + r ≤ 4 ∧ as = List.replicate n .transport ++ .ok :: rest) := by
  induction as with
  | nil =>
    intro r _
    simp [Model.get]
  | cons a as ih =>
    intro r hr
    cases a with
    | ok =>
      simp only [Model.get, true_iff]
      exact ⟨0, as, by omega, rfl⟩
    | transport =>
      simp only [Model.get]
      by_cases h4 : r ≥ 4
      · rw [if_pos h4]
        simp only [Bool.false_eq_true, false_iff]
        rintro ⟨n, rest, hn, h⟩
        obtain rfl : n = 0 := by omega
        simp at h
      · rw [if_neg h4, ih (r + 1) (by omega)]
        constructor
        · rintro ⟨n, rest, hn, rfl⟩
          exact ⟨n + 1, rest, by omega, rfl⟩
        · rintro ⟨n, rest, hn, h⟩
          cases n with
          | zero => simp at h
          | succ n =>
            simp only [List.replicate_succ, List.cons_append, List.cons.injEq, true_and] at h
            exact ⟨n, rest, by omega, h⟩
    | status =>
      simp only [Model.get]
      have : ¬ ∃ n rest, n + r ≤ 4 ∧
          Attempt.status :: as = List.replicate n .transport ++ .ok :: rest := by
        rintro ⟨n, rest, -, h⟩
        cases n <;> simp [List.replicate_succ] at h
      have h0 : (if r ≥ 4 then false else false) = false := by split <;> rfl
      rw [h0]
      exact ⟨fun h => by (cases h), fun h => absurd h this⟩

/-- **C108**, downloads.  A download succeeds if and only if there are at most four failures to
connect, one after another, and then an answer without an error. -/
theorem download (as : List Attempt) : Model.get 0 as = true ↔ Spec.Succeeds as := by
  simpa [Spec.Succeeds] using get_from as 0 (by omega)

example : Model.get 0 [.transport, .transport, .transport, .transport, .ok] = true ∧
    Model.get 0 [.transport, .transport, .transport, .transport, .transport, .ok] = false ∧
    Model.get 0 [.transport, .status, .ok] = false := by decide

/-- **C108**, a violation: after an interruption while an archive is unpacked, later runs keep the
part that was unpacked: the archive and the directory are there. -/
theorem torn : ∃ d, (prepare world 100 (history world empty [([.cratesIo "a" "1"], 3)])
      [.cratesIo "a" "1"]).2 = none ∧
    (prepare world 100 (history world empty [([.cratesIo "a" "1"], 3)])
      [.cratesIo "a" "1"]).1.dir "a-1" = some d ∧ ¬ Spec.Right world d (.cratesIo "a" "1") := by
  refine ⟨_, by decide +kernel, rfl, ?_⟩
  intro h
  have h1 := (h "src/lib.rs" 7).2 ⟨⟨[("Cargo.toml", 1), ("rust-toolchain", 5)], [], by decide +kernel, by simp⟩,
    by simp [Spec.Toolchain]⟩
  revert h1
  decide +kernel

/-- **C108**, a violation: two commits of a repository in the list share a directory, so Clippy is
run twice on the second one. -/
theorem same_repo : ∃ d, (prepare world 100 empty [.git "b" "u" "x", .git "b" "u" "xyz"]).2 = none ∧
    (prepare world 100 empty [.git "b" "u" "x", .git "b" "u" "xyz"]).1.dir (dirOf (.git "b" "u" "x")) =
      some d ∧ ¬ Spec.Right world d (.git "b" "u" "x") := by
  refine ⟨_, by decide +kernel, rfl, ?_⟩
  rintro ⟨l, hl, h⟩
  obtain rfl : [("lib.rs", 1), ("rust-toolchain.toml", 1)] = l := by
    have : world.repo "u" "x" = some [("lib.rs", 1), ("rust-toolchain.toml", 1)] := by decide +kernel
    rw [hl] at this
    exact (Option.some.inj this).symm
  have h1 := (h "lib.rs" 1).2 ⟨⟨[], [("rust-toolchain.toml", 1)], rfl, by simp⟩, by simp [Spec.Toolchain]⟩
  revert h1
  decide +kernel

/-- A world with two repositories. -/
def repos : World where
  crate _ _ := []
  head u := [("lib.rs", u.length)]
  repo u c := if c = u then some [("lib.rs", u.length)] else none
  localDir _ := []

/-- **C108**, a violation: if the list now names another repository for the same crate, the old one
is kept, and Clippy is run on it. -/
theorem other_url : ∃ d, (prepare repos 100 (history repos empty [([.git "b" "u" "u"], 100)])
      [.git "b" "uu" "uu"]).2 = none ∧
    (prepare repos 100 (history repos empty [([.git "b" "u" "u"], 100)])
      [.git "b" "uu" "uu"]).1.dir (dirOf (.git "b" "uu" "uu")) = some d ∧
      ¬ Spec.Right repos d (.git "b" "uu" "uu") := by
  refine ⟨_, by decide +kernel, rfl, ?_⟩
  rintro ⟨l, hl, h⟩
  obtain rfl : [("lib.rs", 2)] = l := by
    have : repos.repo "uu" "uu" = some [("lib.rs", 2)] := by decide +kernel
    rw [hl] at this
    exact (Option.some.inj this).symm
  have h1 := (h "lib.rs" 2).2 ⟨⟨[], [], rfl, by simp⟩, by simp [Spec.Toolchain]⟩
  revert h1
  decide +kernel

/-- **C108**, a violation: a local crate can have the name of another one's directory, and then
takes its place. -/
theorem same_dir : ∃ d, (prepare world 100 empty [.cratesIo "a" "1", .path "a-1" "p"]).2 = none ∧
    (prepare world 100 empty [.cratesIo "a" "1", .path "a-1" "p"]).1.dir (dirOf (.cratesIo "a" "1")) =
      some d ∧ ¬ Spec.Right world d (.cratesIo "a" "1") := by
  refine ⟨_, by decide +kernel, rfl, ?_⟩
  intro h
  have h1 := (h "src/lib.rs" 7).2 ⟨⟨[("Cargo.toml", 1), ("rust-toolchain", 5)], [], by decide +kernel, by simp⟩,
    by simp [Spec.Toolchain]⟩
  revert h1
  decide +kernel

/-- **C108**, a violation: an entry with a local directory and a version is accepted, though it names
two kinds of sources. -/
theorem path_and_version : ∃ e src, readEntry e = some src ∧ ∀ src', ¬ Spec.Means e src' :=
  ⟨⟨"a", some "1", none, none, some "p"⟩, .path "a" "p", rfl, fun _ h => by cases h⟩

end Verif.Sources
