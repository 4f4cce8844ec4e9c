import Verif.History

/-!
# Exactly which calls are calls of `Vec`

`Allowed` in `History.lean` is a condition on the history alone, sufficient for C01. `Agrees` is the exact condition on a single
call, in terms of the vectors it is made on.
-/

namespace EnumVecModel
open EV

variable {α τ : Type}

/-- The two programs are in the same state: every `EnumVec` variable is the list in the `Vec` variable, and the worlds are equal. -/
structure Same (c : Inst α) (m : Mem c τ) (v : Vecs α τ) : Prop where
  world : m.world = v.world
  reg : ∀ r, Is c (m.reg r) (v.reg r)

/-- The call gives what the call on `Vec`s gives, and leaves the two programs in the same state. -/
def SameCall (c : Inst α) [DecidableEq α] (m : Mem c τ) (v : Vecs α τ) (op : Op τ α) : Prop :=
  (step c m op).1 = (vecStep c.E v op).1 ∧ Same c (step c m op).2 (vecStep c.E v op).2

/-- No position has a bit in the number of `old` that is not in the number of `new`. -/
def Inst.Covered (c : Inst α) (old new : List α) : Prop :=
  ∀ (k : Nat) (y z : α), old[k]? = some y → new[k]? = some z → c.E.toDiscr y ||| c.E.toDiscr z = c.E.toDiscr z

/-- The exact condition under which a call is the call of `Vec`. -/
def Agrees (c : Inst α) (m : Mem c τ) (v : Vecs α τ) : Op τ α → Prop
  -- not beyond the end; if elements are as wide as blocks: never in a debug build, and in a release build only if
  -- all elements from there on are the same
  | .insert r i x => i ≤ (v.reg r).length ∧ (c.bits < c.W ∨ c.build.checked = false ∧ ∀ y ∈ (v.reg r).drop i, y = x)
  -- out of bounds it panics; the unused bits of a block must not show in the element that moves into its last position
  | .remove r i => (v.reg r).length ≤ i ∨
      if c.bits < c.W then ∀ (j : Nat) (y : α), i / c.epb < j → (v.reg r)[(j + 1) * c.epb]? = some y →
        unusedBits c (m.reg r) j ||| c.E.toDiscr y = c.E.toDiscr y
      else if c.build.checked then (v.reg r).length ≤ i + 2
      else c.Covered ((v.reg r).drop (i + 1)) ((v.reg r).drop (i + 2))
  | .splitOff r at_ _ => (v.reg r).length ≤ at_
  | .append r o => c.small = true ∨ (v.reg r).length % c.epb ≠ 0 ∨ v.reg o = []
  -- at the limit (see C66) a debug build panics, a release build loses the elements
  | .reserve r n => c.AtLimit ((v.reg r).length + n) → c.build.checked = false ∧ v.reg r = []
  | .extend r it => if c.AtLimit ((v.reg r).length + it.hint) then c.build.checked = true ∧ it.items = [] ∧ it.panics = true
      else it.hint ≤ it.items.length
  | .fromIter _ it => if c.AtLimit it.hint then (c.build.checked = true ∨ it.items = []) ∧ it.panics = true
      else it.hint ≤ it.items.length ∨ it.panics = true
  | .fromVec _ xs | .fromSlice _ xs => ¬ c.AtLimit xs.length
  -- the predicate does not panic, or nothing was dropped before
  | .retain r f => (filterSpec f (v.reg r) v.world).2.2 = true ∨
      (filterSpec f (v.reg r) v.world).1 ++ filterRest f (v.reg r) v.world = v.reg r
  | _ => True

/-- All calls of a history agree, each in the state the calls before it have led to. -/
def AgreesRun (c : Inst α) [DecidableEq α] : List (Op τ α) → Mem c τ → Vecs α τ → Prop
  | [], _, _ => True
  | o :: os, m, v => Agrees c m v o ∧ AgreesRun c os (step c m o).2 (vecStep c.E v o).2

/-- All calls of a history give what the calls on `Vec`s give, and leave the same state. -/
def SameRun (c : Inst α) [DecidableEq α] : List (Op τ α) → Mem c τ → Vecs α τ → Prop
  | [], _, _ => True
  | o :: os, m, v => SameCall c m v o ∧ SameRun c os (step c m o).2 (vecStep c.E v o).2

end EnumVecModel
