import Verif.History

/-!
# Histories that stay within the initial capacity

Specification for C48. `SmallVec<[u32; 4]>` has room for 4 blocks without any heap allocation.
-/

namespace EnumVecModel
open EV

variable {α τ : Type}

/-- Up to `F` blocks need no memory from the heap: a fresh vector has capacity `F`, `with_capacity(n)` and `clone` of up to `F`
blocks succeed and give capacity `F`, and shrinking keeps `F`. Nothing is said about growing. (`SmallVec<[_; F]>`; a `Vec`
satisfies it with `F = 0` only.) -/
structure Alloc.Inline (a : Alloc) (F : Nat) : Prop where
  fresh : a.fresh = F
  exact : ∀ n, n ≤ F → a.exact n = some F
  shrink : ∀ n, n ≤ F → a.shrinkTo F n = F

/-- The call, on vectors with the given contents, keeps all of them within `n` elements. Calls that reserve must stay strictly
below (C26, C48_collect_spills), and `resize`/`from_elem` by more than 4 blocks are not covered (C27). -/
def FitsIn (c : Inst α) (n : Nat) (v : Vecs α τ) : Op τ α → Prop
  | .withCapacity _ k => k ≤ n
  | .fromElem _ _ k => k < n ∧ k ≤ 4 * c.epb
  | .fromVec _ xs | .fromSlice _ xs => xs.length < n
  | .fromIter _ it => it.items.length < n
  | .push r _ => (v.reg r).length < n
  | .insert r _ _ => (v.reg r).length < n
  | .resize r k _ => k < n ∧ k ≤ (v.reg r).length + 4 * c.epb
  | .reserve r k => (v.reg r).length + k < n
  | .extend r it => (v.reg r).length + it.items.length < n
  | .append r o => (v.reg r).length + (v.reg o).length < n
  | _ => True

/-- All calls of the history stay within `n` elements. -/
def FitsRun (c : Inst α) [DecidableEq α] (n : Nat) : List (Op τ α) → Vecs α τ → Prop
  | [], _ => True
  | o :: os, v => FitsIn c n v o ∧ FitsRun c n os (vecStep c.E v o).2

instance (c : Inst α) (n : Nat) (v : Vecs α τ) (op : Op τ α) : Decidable (FitsIn c n v op) := by
  unfold FitsIn
  cases op <;> infer_instance

instance FitsRun.dec (c : Inst α) [DecidableEq α] (n : Nat) : ∀ (os : List (Op τ α)) (v : Vecs α τ), Decidable (FitsRun c n os v)
  | [], _ => .isTrue trivial
  | o :: os, v =>
    have := FitsRun.dec c n os (vecStep c.E v o).2
    inferInstanceAs (Decidable (_ ∧ _))

end EnumVecModel
