import Verif.NumSpec

/-!
# Exactly which calls panic

In terms of the numbers in the vectors. Calls that are not listed never panic.
-/

namespace EnumVecModel
open EV

variable {α τ : Type}

/-- The number stored at `i` is refused by `from_discr`. -/
def RefusedAt (E : EnumLike α) (ds : List Nat) (i : Nat) : Prop := ∃ d, ds[i]? = some d ∧ E.fromDiscr d = none

/-- The call panics, other than in `from_discr`. -/
def Op.Panics (c : Inst α) (v : Vecs Nat τ) : Op τ α → Prop
  -- the iterator panics, or ends before it has yielded as many elements as its `size_hint` promised
  -- (at the limit, see C66, in debug builds and if it yields nothing)
  | .fromIter _ it => if c.AtLimit it.hint then c.build.checked = true ∨ it.items = [] else it.panics = true ∨ it.items.length < it.hint
  | .extend r it => if c.AtLimit ((v.reg r).length + it.hint) then c.build.checked = true ∨ it.items = []
      else it.panics = true ∨ it.items.length < it.hint
  -- at the limit, in debug builds
  | .fromVec _ xs | .fromSlice _ xs => c.build.checked = true ∧ c.AtLimit xs.length
  | .reserve r n => c.build.checked = true ∧ c.AtLimit ((v.reg r).length + n)
  | .set r i _ => (v.reg r).length ≤ i
  -- only in debug builds: within the vector if elements are as wide as blocks, beyond its end if the index is close to `usize::MAX`
  | .insert r i _ => c.build.checked = true ∧
      if i ≤ (v.reg r).length then c.bits = c.W else 0 < i % c.epb ∧ c.build.usizeLim ≤ i - i % c.epb + c.epb
  -- out of bounds; in debug builds also if elements are as wide as blocks, at least two follow, and this one can be read
  | .remove r i => (v.reg r).length ≤ i ∨
      c.build.checked = true ∧ c.bits = c.W ∧ i + 2 < (v.reg r).length ∧ ¬ RefusedAt c.E (v.reg r) i
  | .swap r i j => (v.reg r).length ≤ i ∨ (v.reg r).length ≤ j
  | .swapRemove r i => (v.reg r).length ≤ i
  | .splitOff r at_ _ => (v.reg r).length < at_
  -- the closure panics
  | .retain r f => (numFilter c.E f (v.reg r) v.world).2.2 = some .panic
  | .forEach r f => (numMap c.E f (v.reg r) v.world).2.2 = some .panic
  | _ => False

/-- The call panics in `from_discr`. -/
def Op.Refused (c : Inst α) (v : Vecs Nat τ) : Op τ α → Prop
  | .get r i => RefusedAt c.E (v.reg r) i
  | .pop r => RefusedAt c.E (v.reg r) ((v.reg r).length - 1)
  | .remove r i => RefusedAt c.E (v.reg r) i
  | .swapRemove r i => RefusedAt c.E (v.reg r) i
  -- at an element that the closure comes to
  | .retain r f => (numFilter c.E f (v.reg r) v.world).2.2 = some .invalid
  | .forEach r f => (numMap c.E f (v.reg r) v.world).2.2 = some .invalid
  | .toVec r => ∃ i, RefusedAt c.E (v.reg r) i
  -- at an element that is yielded
  | .iterate r calls => ∃ d, .item (some d) ∈ (iterSpecRun calls (v.reg r)).1 ∧ c.E.fromDiscr d = none
  | _ => False

/-- The call returns: no panic, no refused memory, no undefined behaviour. -/
def Out.Returned : Out α → Prop
  | .panic | .invalid | .oom | .ub => False
  | _ => True

/-- The call is undefined behaviour: `split_off` before the end, or (at the limit, in release builds) adding elements whose blocks have been dropped. -/
def Op.Undefined (c : Inst α) (v : Vecs Nat τ) : Op τ α → Prop
  | .splitOff r at_ _ => at_ < (v.reg r).length
  | .extend r it => c.Drops ((v.reg r).length + it.hint) ∧ it.items ≠ []
  | .fromIter _ it => c.Drops it.hint ∧ it.items ≠ []
  | .fromVec _ xs | .fromSlice _ xs => c.Drops xs.length
  | _ => False

end EnumVecModel
