import Verif.Swap.Props

/-!
# Swaps: examples, and suggestions which do something else

Variable `0` is `v`, `1` is `t`, `2` is `a`, `3` is `b`.
-/

namespace Verif.Swap.Witness

abbrev v : E := .var 0
abbrev t : E := .var 1
abbrev a : E := .var 2
abbrev b : E := .var 3
abbrev at' (e : E) (i : Nat) : E := .index e (.lit i)

/-- `v = [1, 2, 5, 7]`, another `t = 3` outside of the block, `a = 4`, `b = [6, 8, 1]`. -/
def σ : Store
  | 0 => .node [.int 1, .int 2, .int 5, .int 7]
  | 1 => .int 3
  | 2 => .int 4
  | 3 => .node [.int 6, .int 8, .int 1]
  | _ => .int 0

/-- Everything is a slice. -/
abbrev ty : E → Bool := fun _ => true

abbrev swapBlock (m : Bool) (e1 e2 : E) (rest : List Stmt) (tail : Option E) : Block := ⟨.letS m 1 e1, .assign e1 e2, .assign e2 t, rest, tail⟩

/-- `let t = v[0]; v[0] = v[t + 1]; v[t + 1] = t; f(t);`: the declaration stays. -/
def good : Block := swapBlock false (at' v 0) (.index v (.add t (.lit 1))) [.out false t] (some (at' v 2))

example : manualSwap ty good = some (.slice (some (1, at' v 0)) v (.lit 0) (.add t (.lit 1))) := by decide +kernel

example : (∀ r, v.root = some r → v.IndexFree r ∧ ¬ (E.add t (.lit 1)).Occurs r) ∧ (E.add t (.lit 1)).Direct 1 := by
  refine ⟨fun r hr => ?_, trivial, fun h => h⟩
  cases hr
  exact ⟨trivial, fun h => h.elim (fun h => by cases h) (fun h => h)⟩

example : (good.before σ).map (fun r => (r.2.1, r.2.2)) = some ([.int 1], some (.int 1)) := rfl
example : (good.after (.slice (some (1, at' v 0)) v (.lit 0) (.add t (.lit 1))) σ).map (fun r => (r.2.1, r.2.2)) = some ([.int 1], some (.int 1)) := rfl

/-- `let t = a; a = b[0]; b[0] = t;` -/
def goodMem : Block := swapBlock false a (at' b 0) [] (some a)

example : manualSwap ty goodMem = some (.mem a (at' b 0)) ∧ (∀ r, a.root = some r → (at' b 0).IndexFree r) ∧ ¬ (at' b 0).Occurs 1 :=
  ⟨by decide +kernel, fun _ _ => ⟨trivial, fun h => h⟩, fun h => h.elim (fun h => by cases h) (fun h => h)⟩

example : (goodMem.before σ).map (·.2.2) = some (some (.int 6)) := rfl

/-- `v[0] ^= b[1]; b[1] ^= v[0]; v[0] ^= b[1];` -/
example : xorSwap ty ⟨.xor (at' v 0) (at' b 1), .xor (at' b 1) (at' v 0), .xor (at' v 0) (at' b 1), [], none⟩ = some (.mem (at' v 0) (at' b 1)) ∧
    place σ (at' v 0) ≠ place σ (at' b 1) ∧ (at' v 0).IndexFree 3 ∧ (at' b 1).IndexFree 0 :=
  ⟨by decide +kernel, by decide +kernel, ⟨trivial, fun h => h⟩, ⟨trivial, fun h => h⟩⟩

/-! ### What goes wrong -/

/-- `let t = v[0]; v[0] = v[v[0]]; v[v[0]] = t;`: the last place isn't the one before. -/
theorem dependent_index : ∃ s, let blk := swapBlock false (at' v 0) (.index v (at' v 0)) [] (some (at' v 1))
    manualSwap ty blk = some s ∧ ¬ SameBut 1 (blk.before σ) (blk.after s σ) := by
  refine ⟨.slice none v (.lit 0) (at' v 0), by decide +kernel, fun h => ?_⟩
  have : some (Val.int 2) = some (Val.int 1) := h.2.2
  simp at this

/-- `let t = a; a = b[0]; b[0] = t; f(t);`: the declaration is dropped, and there is another `t` outside. -/
theorem mem_used_later : ∃ s, let blk := swapBlock false a (at' b 0) [.out false t] none
    manualSwap ty blk = some s ∧ ¬ SameBut 1 (blk.before σ) (blk.after s σ) := by
  refine ⟨.mem a (at' b 0), by decide +kernel, fun h => ?_⟩
  have : [Val.int 4] = [Val.int 3] := h.2.1
  simp at this

/-- `let t = v[0]; v[0] = b[t]; b[t] = t;`: the variable is used as an index, but the declaration is dropped; here `b[3]` panics. -/
theorem mem_used_index : ∃ s, let blk := swapBlock false (at' v 0) (.index b t) [] none
    manualSwap ty blk = some s ∧ ¬ SameBut 1 (blk.before σ) (blk.after s σ) :=
  ⟨.mem (at' v 0) (.index b t), by decide +kernel, fun h => h⟩

/-- `let t = v[0]; v[0] = v[t as usize]; v[t as usize] = t;`: the declaration is dropped. -/
theorem slice_cast : ∃ s, let blk := swapBlock false (at' v 0) (.index v (.cast t)) [] (some (at' v 1))
    manualSwap ty blk = some s ∧ ¬ SameBut 1 (blk.before σ) (blk.after s σ) := by
  refine ⟨.slice none v (.lit 0) (.cast t), by decide +kernel, fun h => ?_⟩
  have : some (Val.int 1) = some (Val.int 2) := h.2.2
  simp at this

/-- `let t = v[0]; v[0] = v[1]; v[1] = t; (|| f(t))();` -/
theorem slice_closure : ∃ s, let blk := swapBlock false (at' v 0) (at' v 1) [.out true t] none
    manualSwap ty blk = some s ∧ ¬ SameBut 1 (blk.before σ) (blk.after s σ) := by
  refine ⟨.slice none v (.lit 0) (.lit 1), by decide +kernel, fun h => ?_⟩
  have : [Val.int 1] = [Val.int 3] := h.2.1
  simp at this

/-- `{ let t = v[0]; v[0] = v[1]; v[1] = t; t }`: the value of the block is overlooked. -/
theorem slice_tail : ∃ s, let blk := swapBlock false (at' v 0) (at' v 1) [] (some t)
    manualSwap ty blk = some s ∧ ¬ SameBut 1 (blk.before σ) (blk.after s σ) := by
  refine ⟨.slice none v (.lit 0) (.lit 1), by decide +kernel, fun h => ?_⟩
  have : some (Val.int 1) = some (Val.int 3) := h.2.2
  simp at this

/-- `let mut t = v[0]; v[0] = v[1]; v[1] = t; f(t);`: the suggestion has `let t = t;`. -/
theorem slice_mut : ∃ s, let blk := swapBlock true (at' v 0) (at' v 1) [.out false t] none
    manualSwap ty blk = some s ∧ ¬ SameBut 1 (blk.before σ) (blk.after s σ) := by
  refine ⟨.slice (some (1, t)) v (.lit 0) (.lit 1), by decide +kernel, fun h => ?_⟩
  have : [Val.int 1] = [Val.int 3] := h.2.1
  simp at this

/-- `v[i] ^= v[j]; v[j] ^= v[i]; v[i] ^= v[j];` with `i = b[2]`, `j = 1`, which are the same: this is `0`, while a swap has no effect. -/
theorem xor_same : ∃ s, let blk : Block := ⟨.xor (.index v (at' b 2)) (at' v 1), .xor (at' v 1) (.index v (at' b 2)),
      .xor (.index v (at' b 2)) (at' v 1), [], some (at' v 1)⟩
    xorSwap ty blk = some s ∧ (blk.before σ).map (·.2.2) = some (some (.int 0)) ∧ (blk.after s σ).map (·.2.2) = some (some (.int 2)) :=
  ⟨.slice none v (at' b 2) (.lit 1), by decide +kernel, rfl, rfl⟩

/-- `v[0] ^= v[v[0]]; v[v[0]] ^= v[0]; v[0] ^= v[v[0]];` -/
theorem xor_dependent : ∃ s, let blk : Block := ⟨.xor (at' v 0) (.index v (at' v 0)), .xor (.index v (at' v 0)) (at' v 0),
      .xor (at' v 0) (.index v (at' v 0)), [], some (at' v 0)⟩
    xorSwap ty blk = some s ∧ (blk.before σ).map (·.2.2) = some (some (.int 7)) ∧ (blk.after s σ).map (·.2.2) = some (some (.int 2)) :=
  ⟨.slice none v (.lit 0) (at' v 0), by decide +kernel, rfl, rfl⟩

/-- `a = b[0]; b[0] = a;` is reported, `a = b[0]; a = a;` isn't. -/
example : almostSwapped (.assign a (at' b 0)) (.assign (at' b 0) a) = true ∧ almostSwapped (.assign a (at' b 0)) (.assign a a) = false ∧
    almostSwapped (.letS false 2 b) (.letS false 3 a) = true ∧ almostSwapped (.letS false 2 (at' a 0)) (.assign (at' a 0) a) = false := by decide +kernel

/-- `v[0] = v[v[0]]; v[v[0]] = v[0];`: the second statement changes `v[2]`. -/
theorem almost_dependent : almostSwapped (.assign (at' v 0) (.index v (at' v 0))) (.assign (.index v (at' v 0)) (at' v 0)) = true ∧
    (run σ [.assign (at' v 0) (.index v (at' v 0))]).map (fun r => read r.1 (at' v 2)) = some (some (.int 5)) ∧
    (run σ [.assign (at' v 0) (.index v (at' v 0)), .assign (.index v (at' v 0)) (at' v 0)]).map (fun r => read r.1 (at' v 2)) = some (some (.int 2)) :=
  ⟨by decide +kernel, rfl, rfl⟩

/-- `let t = (*v)[0]; (*v)[0] = v[1]; v[1] = t;`: `mem::swap(&mut (*v)[0], &mut v[1])` borrows `v` twice. -/
theorem deref_same : canBorrow (at' (.deref v) 0) (at' v 1) = true ∧ ¬ Apart (at' (.deref v) 0) (at' v 1) := by
  refine ⟨by decide +kernel, ?_⟩
  rintro (h | ⟨π, i, j, s, u, h1, _, hk, _⟩)
  · exact h rfl
  · cases π with
    | nil => cases h1
    | cons k π =>
      simp only [E.steps, List.nil_append, List.cons_append, List.cons.injEq] at h1
      exact hk k (by simp) h1.1.symm

end Verif.Swap.Witness
