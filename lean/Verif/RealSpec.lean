import Verif.NumSpec

/-!
# What every call really does

`numStep` (`NumSpec.lean`) is what the calls do to vectors of numbers where they are right. `realStep` is what they do, right or wrong, to the numbers that are stored: it differs for `insert`
beyond the end or with elements as wide as a block, for `remove`, and for iterators that yield fewer items than they promised. It reads two things of the `EnumVec` itself that cannot be seen in the
list of numbers: the unused bits of its blocks, and the numbers that are left in the storage behind its length.
-/

namespace EnumVecModel
open EV

variable {α τ : Type}

/-- The number at position `k` of the storage, also behind the length; zero where there is no storage. -/
def slot (c : Inst α) (s : EV c.W) (k : Nat) : Nat :=
  match EV.rawUnchecked c s k with
  | .ok d => d
  | .error _ => 0

/-- Both numbers at every position, bit by bit. -/
def orEach (a b : List Nat) : List Nat := List.zipWith (· ||| ·) a b

/-- `insert(i, x)`, where `d` is the number of `x`: beyond the end it is `push` (in debug builds it may panic then, if the index is close to `usize::MAX`); if elements are as wide as blocks, it panics after the
`push` in debug builds, and in release builds each position has the bits of what was there and of what should be there. -/
def realInsert (c : Inst α) (ds : List Nat) (i d : Nat) : Out α × List Nat :=
  if ds.length < i then
    (if c.build.checked = true ∧ 0 < i % c.epb ∧ c.build.usizeLim ≤ i - i % c.epb + c.epb then .panic else .unit, ds ++ [d])
  else if c.bits < c.W then (.unit, ds.take i ++ d :: ds.drop i)
  else if c.build.checked then (.panic, ds ++ [d])
  else (.unit, orEach (ds ++ [d]) (ds.take i ++ d :: ds.drop i))

/-- The numbers after `remove(i)` that returns `i`. If elements are narrower than blocks: in the blocks behind that of `i`, the number that moves to the last position of a block also gets the unused bits
of this block. If they are as wide: behind `i`, each position has the bits of what was there and of what should be there. -/
def realRemove (c : Inst α) (s : EV c.W) (ds : List Nat) (i : Nat) : List Nat :=
  (ds.eraseIdx i).mapIdx fun k d =>
    if c.bits < c.W then if i / c.epb < k / c.epb ∧ (k + 1) % c.epb = 0 then unusedBits c s (k / c.epb) ||| d else d
    else if i < k then ds.getD k 0 ||| d else d

/-- One call, as it is. -/
def realStep (c : Inst α) (m : Mem c τ) (v : Vecs Nat τ) : Op τ α → Out α × Vecs Nat τ
  | .insert r i x =>
    ((realInsert c (v.reg r) i (c.E.toDiscr x)).1, { v with reg := upd v.reg r (realInsert c (v.reg r) i (c.E.toDiscr x)).2 })
  | .remove r i =>
    match (v.reg r)[i]? with
    | none => (.panic, v)
    | some d =>
      match c.E.fromDiscr d with
      | none => (.invalid, v)
      | some x =>
        -- as wide as blocks, debug build: the panic comes after the first number has moved and the length has been decreased
        if ¬ c.bits < c.W ∧ c.build.checked = true ∧ i + 2 < (v.reg r).length then
          (.panic, { v with reg := upd v.reg r ((v.reg r).set i ((v.reg r).getD (i + 1) 0)).dropLast })
        else (.val x, { v with reg := upd v.reg r (realRemove c (m.reg r) (v.reg r) i) })
  -- too few items: the length is the promised one; behind the items is what was left in the storage
  | .extend r it =>
    if it.items.length < it.hint then
      (.panic, { v with reg := upd v.reg r (v.reg r ++ it.items.map c.E.toDiscr ++
        (List.range' ((v.reg r).length + it.items.length) (it.hint - it.items.length)).map (slot c (m.reg r))) })
    else numStep c.E v (.extend r it)
  | .fromIter r it => if it.items.length < it.hint then (.panic, v) else numStep c.E v (.fromIter r it)
  | op => numStep c.E v op

/-- The calls that can leave a vector without storage for its elements, or that have undefined behaviour (C16, C15, C66), are not made. -/
def Sane (c : Inst α) (v : Vecs Nat τ) : Op τ α → Prop
  | .splitOff r at_ _ => (v.reg r).length ≤ at_
  | .append r o => c.small = true ∨ (v.reg r).length % c.epb ≠ 0 ∨ v.reg o = []
  | .reserve r n => ¬ c.AtLimit ((v.reg r).length + n)
  | .extend r it => ¬ c.AtLimit ((v.reg r).length + it.hint)
  | .fromIter _ it => ¬ c.AtLimit it.hint
  | .fromVec _ xs | .fromSlice _ xs => ¬ c.AtLimit xs.length
  | _ => True

/-- A history, as it is: the results, and the numbers at the end. The second argument is only read for unused bits and for what is left behind the length. -/
def realRun (c : Inst α) : List (Op τ α) → Mem c τ → Vecs Nat τ → List (Out α) × Vecs Nat τ
  | [], _, v => ([], v)
  | o :: os, m, v => ((realStep c m v o).1 :: (realRun c os (step c m o).2 (realStep c m v o).2).1, (realRun c os (step c m o).2 (realStep c m v o).2).2)

/-- All calls of a history are `Sane`. -/
def SaneRun (c : Inst α) : List (Op τ α) → Mem c τ → Vecs Nat τ → Prop
  | [], _, _ => True
  | o :: os, m, v => Sane c v o ∧ SaneRun c os (step c m o).2 (realStep c m v o).2

/-- Every stored number can be read. -/
def AllReadable (c : Inst α) (v : Vecs Nat τ) : Prop := ∀ r, ∀ d ∈ v.reg r, c.E.fromDiscr d ≠ none

/-- The exact condition under which a call that finds only readable numbers leaves only readable numbers. -/
def KeepsReadable (c : Inst α) (m : Mem c τ) (v : Vecs Nat τ) : Op τ α → Prop
  -- inside the vector, elements as wide as blocks, release build
  | .insert r i x => i ≤ (v.reg r).length → ¬ c.bits < c.W → c.build.checked = false →
      ∀ k a b : Nat, (v.reg r ++ [c.E.toDiscr x])[k]? = some a → ((v.reg r).take i ++ c.E.toDiscr x :: (v.reg r).drop i)[k]? = some b → c.E.fromDiscr (a ||| b) ≠ none
  | .remove r i =>
      if c.bits < c.W then ∀ j d : Nat, i / c.epb < j → (v.reg r)[(j + 1) * c.epb]? = some d → c.E.fromDiscr (unusedBits c (m.reg r) j ||| d) ≠ none
      else c.build.checked = false → ∀ k a b : Nat, i < k → (v.reg r)[k]? = some a → (v.reg r)[k + 1]? = some b → c.E.fromDiscr (a ||| b) ≠ none
  | .extend r it => ∀ k, (v.reg r).length + it.items.length ≤ k → k < (v.reg r).length + it.hint → c.E.fromDiscr (slot c (m.reg r) k) ≠ none
  | _ => True

/-- After every call of a history, every stored number can be read. -/
def ReadableRun (c : Inst α) : List (Op τ α) → Mem c τ → Vecs Nat τ → Prop
  | [], _, _ => True
  | o :: os, m, v => AllReadable c (realStep c m v o).2 ∧ ReadableRun c os (step c m o).2 (realStep c m v o).2

/-- All calls of a history satisfy `KeepsReadable`, each in the state the calls before it have led to. -/
def KeepsRun (c : Inst α) : List (Op τ α) → Mem c τ → Vecs Nat τ → Prop
  | [], _, _ => True
  | o :: os, m, v => KeepsReadable c m v o ∧ KeepsRun c os (step c m o).2 (realStep c m v o).2

end EnumVecModel
