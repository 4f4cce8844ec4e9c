import Verif.ExactSpec

/-!
# A vector of numbers

What `EnumVec` is if nothing is assumed of the implementation of `EnumLike` except that the numbers fit: a vector of numbers, which writes with
`to_discr` and reads with `from_discr`. For `retain` this is what `EnumVec` does, which is not what `Vec` does when the predicate panics (C17).
-/

namespace EnumVecModel
open EV

variable {α τ : Type}

/-- `retain` on numbers: what it writes at the begin of the vector, the world, and how it ends early. -/
def numFilter (E : EnumLike α) (f : Closure τ α Bool) : List Nat → τ → List Nat × τ × Option (Out α)
  | [], w => ([], w, none)
  | d :: ds, w =>
    match E.fromDiscr d with
    | none => ([], w, some .invalid)
    | some x =>
      match f x w with
      | (some true, w') => (E.toDiscr x :: (numFilter E f ds w').1, (numFilter E f ds w').2)
      | (some false, w') => numFilter E f ds w'
      | (none, w') => ([], w', some .panic)

/-- `for_each` on numbers: what it writes at the begin of the vector, the world, and how it ends early. -/
def numMap (E : EnumLike α) (f : Closure τ α α) : List Nat → τ → List Nat × τ × Option (Out α)
  | [], w => ([], w, none)
  | d :: ds, w =>
    match E.fromDiscr d with
    | none => ([], w, some .invalid)
    | some x =>
      match f x w with
      | (some y, w') => (E.toDiscr y :: (numMap E f ds w').1, (numMap E f ds w').2)
      | (none, w') => ([], w', some .panic)

/-- Read what an iterator over numbers yields. -/
def IterOut.decode (E : EnumLike α) : IterOut Nat → Option (IterOut α)
  | .item none => some (.item none)
  | .item (some d) => (E.fromDiscr d).map fun x => .item (some x)
  | .hint lo hi => some (.hint lo hi)

/-- One call on vectors of numbers. -/
def numStep (E : EnumLike α) (v : Vecs Nat τ) : Op τ α → Out α × Vecs Nat τ
  | .new r => (.unit, { v with reg := upd v.reg r [] })
  | .withCapacity r _ => (.unit, { v with reg := upd v.reg r [] })
  | .fromElem r x n => (.unit, { v with reg := upd v.reg r (List.replicate n (E.toDiscr x)) })
  | .fromVec r xs => (.unit, { v with reg := upd v.reg r (xs.map E.toDiscr) })
  | .fromSlice r xs => (.unit, { v with reg := upd v.reg r (xs.map E.toDiscr) })
  | .fromIter r it => if it.panics then (.panic, v) else (.unit, { v with reg := upd v.reg r (it.items.map E.toDiscr) })
  | .clone r src => (.unit, { v with reg := upd v.reg r (v.reg src) })
  | .len r => (.num (v.reg r).length, v)
  | .isEmpty r => (.bool (v.reg r).isEmpty, v)
  | .get r i =>
    match (v.reg r)[i]? with
    | none => (.item none, v)
    | some d =>
      match E.fromDiscr d with
      | some x => (.item (some x), v)
      | none => (.invalid, v)
  | .set r i x =>
    if i < (v.reg r).length then (.unit, { v with reg := upd v.reg r ((v.reg r).set i (E.toDiscr x)) }) else (.panic, v)
  | .push r x => (.unit, { v with reg := upd v.reg r (v.reg r ++ [E.toDiscr x]) })
  | .pop r =>
    match (v.reg r).getLast? with
    | none => (.item none, v)
    | some d =>
      match E.fromDiscr d with
      | some x => (.item (some x), { v with reg := upd v.reg r (v.reg r).dropLast })
      | none => (.invalid, v)
  | .insert r i x =>
    if i ≤ (v.reg r).length then (.unit, { v with reg := upd v.reg r ((v.reg r).take i ++ E.toDiscr x :: (v.reg r).drop i) })
    else (.panic, v)
  | .remove r i =>
    match (v.reg r)[i]? with
    | none => (.panic, v)
    | some d =>
      match E.fromDiscr d with
      | some x => (.val x, { v with reg := upd v.reg r ((v.reg r).take i ++ (v.reg r).drop (i + 1)) })
      | none => (.invalid, v)
  | .swap r i j =>
    match (v.reg r)[i]?, (v.reg r)[j]? with
    | some d, some e => (.unit, { v with reg := upd v.reg r (((v.reg r).set i e).set j d) })
    | _, _ => (.panic, v)
  -- the elements are swapped before the number is read
  | .swapRemove r i =>
    match (v.reg r)[i]?, (v.reg r).getLast? with
    | some d, some e =>
      match E.fromDiscr d with
      | some x => (.val x, { v with reg := upd v.reg r ((v.reg r).set i e).dropLast })
      | none => (.invalid, { v with reg := upd v.reg r (((v.reg r).set i e).set ((v.reg r).length - 1) d) })
    | _, _ => (.panic, v)
  | .truncate r n => (.unit, { v with reg := upd v.reg r ((v.reg r).take n) })
  | .clear r => (.unit, { v with reg := upd v.reg r [] })
  | .resize r n x =>
    (.unit, { v with reg := upd v.reg r ((v.reg r).take n ++ List.replicate (n - (v.reg r).length) (E.toDiscr x)) })
  | .reserve _ _ => (.unit, v)
  | .shrinkToFit _ => (.unit, v)
  | .extend r it => (if it.panics then .panic else .unit, { v with reg := upd v.reg r (v.reg r ++ it.items.map E.toDiscr) })
  | .append r o => (.unit, { v with reg := upd (upd v.reg r (v.reg r ++ v.reg o)) o [] })
  | .splitOff r at_ d =>
    if at_ ≤ (v.reg r).length then
      (.unit, { v with reg := upd (upd v.reg r ((v.reg r).take at_)) d ((v.reg r).drop at_) })
    else (.panic, v)
  | .retain r f =>
    match numFilter E f (v.reg r) v.world with
    | (kept, w, none) => (.unit, ⟨upd v.reg r kept, w⟩)
    | (kept, w, some e) => (e, ⟨upd v.reg r (kept ++ (v.reg r).drop kept.length), w⟩)
  | .forEach r f =>
    match numMap E f (v.reg r) v.world with
    | (done, w, none) => (.unit, ⟨upd v.reg r done, w⟩)
    | (done, w, some e) => (e, ⟨upd v.reg r (done ++ (v.reg r).drop done.length), w⟩)
  | .eq r o => (.bool (v.reg r == v.reg o), v)
  | .any r x => (.bool ((v.reg r).any (· == E.toDiscr x)), v)
  | .all r x => (.bool ((v.reg r).all (· == E.toDiscr x)), v)
  | .toVec r =>
    match (v.reg r).mapM E.fromDiscr with
    | some l => (.list l, v)
    | none => (.invalid, v)
  | .iterate r calls =>
    match (iterSpecRun calls (v.reg r)).1.mapM (IterOut.decode E) with
    | some l => (.iter l, v)
    | none => (.invalid, v)
  | .hash r => (.hash (v.reg r), v)

/-- A history on vectors of numbers. -/
def numRun (E : EnumLike α) : List (Op τ α) → Vecs Nat τ → List (Out α) × Vecs Nat τ
  | [], v => ([], v)
  | o :: os, v => ((numStep E v o).1 :: (numRun E os (numStep E v o).2).1, (numRun E os (numStep E v o).2).2)

/-- The `EnumVec` has the length of the list, and stores the numbers in it. -/
structure IsNums (c : Inst α) (s : EV c.W) (ds : List Nat) : Prop where
  safe : Safe c s
  len : EV.len c s = ds.length
  at_ : ∀ i d, ds[i]? = some d → EV.rawUnchecked c s i = .ok d

/-- The two programs are in the same state. -/
structure NumSame (c : Inst α) (m : Mem c τ) (v : Vecs Nat τ) : Prop where
  world : m.world = v.world
  reg : ∀ r, IsNums c (m.reg r) (v.reg r)

/-- The call gives what the call on vectors of numbers gives, and leaves the two programs in the same state. -/
def SameNumCall (c : Inst α) (m : Mem c τ) (v : Vecs Nat τ) (op : Op τ α) : Prop :=
  (step c m op).1 = (numStep c.E v op).1 ∧ NumSame c (step c m op).2 (numStep c.E v op).2

/-- The exact condition under which a call is the call on vectors of numbers. -/
def NumAgrees (c : Inst α) (m : Mem c τ) (v : Vecs Nat τ) : Op τ α → Prop
  | .insert r i x => i ≤ (v.reg r).length ∧
      (c.bits < c.W ∨ c.build.checked = false ∧ ∀ d ∈ (v.reg r).drop i, d = c.E.toDiscr x)
  | .remove r i => (∀ d, (v.reg r)[i]? = some d → c.E.fromDiscr d = none) ∨
      if c.bits < c.W then ∀ (j d : Nat), i / c.epb < j → (v.reg r)[(j + 1) * c.epb]? = some d → unusedBits c (m.reg r) j ||| d = d
      else if c.build.checked then (v.reg r).length ≤ i + 2
      else ∀ k d e : Nat, ((v.reg r).drop (i + 1))[k]? = some d → ((v.reg r).drop (i + 2))[k]? = some e → d ||| e = e
  | .splitOff r at_ _ => (v.reg r).length ≤ at_
  | .append r o => c.small = true ∨ (v.reg r).length % c.epb ≠ 0 ∨ v.reg o = []
  -- as in `Agrees`
  | .reserve r n => c.AtLimit ((v.reg r).length + n) → c.build.checked = false ∧ v.reg r = []
  | .extend r it => if c.AtLimit ((v.reg r).length + it.hint) then c.build.checked = true ∧ it.items = [] ∧ it.panics = true
      else it.hint ≤ it.items.length
  | .fromIter _ it => if c.AtLimit it.hint then (c.build.checked = true ∨ it.items = []) ∧ it.panics = true
      else it.hint ≤ it.items.length ∨ it.panics = true
  | .fromVec _ xs | .fromSlice _ xs => ¬ c.AtLimit xs.length
  | _ => True

/-- All calls of a history agree, each in the state the calls before it have led to. -/
def NumAgreesRun (c : Inst α) : List (Op τ α) → Mem c τ → Vecs Nat τ → Prop
  | [], _, _ => True
  | o :: os, m, v => NumAgrees c m v o ∧ NumAgreesRun c os (step c m o).2 (numStep c.E v o).2

/-- All calls of a history give what the calls on vectors of numbers give, and leave the same state. -/
def SameNumRun (c : Inst α) : List (Op τ α) → Mem c τ → Vecs Nat τ → Prop
  | [], _, _ => True
  | o :: os, m, v => SameNumCall c m v o ∧ SameNumRun c os (step c m o).2 (numStep c.E v o).2

end EnumVecModel
