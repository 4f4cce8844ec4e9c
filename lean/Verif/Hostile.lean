import Verif.History

/-!
# `EnumVec` over an arbitrary implementation of `EnumLike`

`EnumVec.lean` models the element type by functions (`EnumLike α`): `to_discr` returns the same number for the same value every time and never
panics. An implementation of the trait is arbitrary user code, though: `to_discr`, `from_discr` (and `clone`, which `repeat(..)` and `.cloned()` call)
may panic, have side effects and answer differently each time. Here are the methods that call them, once more, with such an implementation.
All user code (the implementation, closures, iterators) shares one state, the `world`. The parts of methods that call no user code are those of `EnumVec.lean`.
Theorem `C56_faithful` says that for a well-behaved implementation this model and `EnumVec.lean` agree.

Line numbers refer to `enum_vec/src/vec_u32/mod.rs`.
-/

namespace EnumVecModel
namespace Hostile
open EV

/-- An implementation of `EnumLike` (enum_like/src/lib.rs:135-148) and of `Clone` (a supertrait of its supertrait `Copy`; `Copy` rules out `Drop`), as code. `NUM_VARIANTS` is a constant and is taken from `Inst.E`. -/
structure Impl (ω α : Type) where
  /-- `to_discr(self) -> usize` -/
  toDiscr : Closure ω α Nat
  /-- `from_discr(x: usize) -> Self` -/
  fromDiscr : Closure ω Nat α
  /-- `clone(&self) -> Self` -/
  clone : Closure ω α α

/-- The implementation that computes the functions of `E`. -/
def Impl.of {ω α : Type} (E : EnumLike α) : Impl ω α :=
  ⟨fun x w => (some (E.toDiscr x), w), fun d w => (E.fromDiscr d, w), fun x w => (some x, w)⟩

/-- An arbitrary iterator, as code: `size_hint().0` and `next`, with the iterator itself as state. A panic drops it. -/
structure Iter (ω ι α : Type) where
  hint : Closure ω ι Nat
  next : Closure ω ι (Option α × ι)

variable {α ω ι σ : Type} (c : Inst α) (h : Impl ω α)

/-- `x.to_discr()`. -/
def toDiscr (x : α) : M (σ × ω) Nat := call h.toDiscr x

/-- `T::from_discr(d)`; its panic has its own fault. -/
def fromDiscr (d : Nat) : M (σ × ω) α := fun p =>
  match h.fromDiscr d p.2 with
  | (some a, w) => (.ok a, (p.1, w))
  | (none, w) => (.error .badDiscr, (p.1, w))

/-- `get` (lines 108-111). -/
def get (i : Nat) : M (EV c.W × ω) (Option α) := do
  match ← onFst (getRaw c i) with
  | some x => do
    let a ← fromDiscr h x
    return some a
  | none => return none

/-- `set` (lines 112-114): `to_discr` is called before the index is checked. -/
def set (i : Nat) (x : α) : M (EV c.W × ω) Unit := do
  let d ← toDiscr h x
  onFst (setRaw c i d)

/-- `push` (lines 352-359): the length is incremented before `to_discr` is called. -/
def push (x : α) : M (EV c.W × ω) Unit := do
  onFst (growIfNeeded c)
  let p ← M.read
  let idx := p.1.num
  if p.1.num + 1 < c.build.usizeLim then M.write ({ p.1 with num := p.1.num + 1 }, p.2) else M.fail .capacity
  set c h idx x

/-- `pop` (lines 360-369). -/
def pop : M (EV c.W × ω) (Option α) := do
  let p ← M.read
  if isEmpty c p.1 then return none
  let x ← get c h (p.1.num - 1)
  let x ← M.unwrap x
  let p ← M.read
  M.write ({ p.1 with num := p.1.num - 1 }, p.2)
  return some x

/-- `swap_remove` (lines 173-178). -/
def swapRemove (index : Nat) : M (EV c.W × ω) α := do
  let p ← M.read
  let last ← M.lift (uSub c.build (len c p.1) 1)
  onFst (swap c index last)
  let x ← pop c h
  M.unwrap x

/-- the rest of `insert` (lines 223-248), where no user code is called. -/
def insertShift (index selfLen prev : Nat) : M (EV c.W) Unit := do
  let slowInsert := index % c.epb
  let (i, prev) ← (if slowInsert > 0 then do
      let slowLimit ← M.lift (uAdd c.build (index - slowInsert) c.epb)
      let slowLimit := min slowLimit selfLen
      let prev ← loop (insertSlowStep c) (slowLimit - index) index prev
      return (max index slowLimit, prev)
    else return (index, prev) : M (EV c.W) (Nat × Nat))
  let s ← M.read
  if i < len c s then
    let ib := (blockIndex c i).1
    let lastIb := (blockIndex c (len c s - 1)).1
    let _ ← loop (insertFastStep c) (lastIb + 1 - ib) ib (BitVec.ofNat c.W prev)

/-- `insert` (lines 207-249): `to_discr` is called twice. -/
def insert (index : Nat) (element : α) : M (EV c.W × ω) Unit := do
  push c h element
  let p ← M.read
  let selfLen := len c p.1
  let prev ← toDiscr h element
  onFst (insertShift c index selfLen prev)

/-- the rest of `remove` (lines 284-311), where no user code is called. -/
def removeShift (index : Nat) : M (EV c.W) Unit := do
  let s ← M.read
  let length := len c s - 1
  let blockLimit ← M.lift (uMul c.build (1 + (blockIndex c index).1) c.epb)
  let slowLimit := min length blockLimit
  loop (removeSlowStep c) (slowLimit - index) index ()
  let i := max index slowLimit
  let s ← M.read
  let prev ← getRawUnchecked c (len c s - 1)
  let s ← M.read
  M.write { s with num := s.num - 1 }
  let s ← M.read
  if i < len c s then
    let ib := (blockIndex c i).1
    let lastIb := (blockIndex c (len c s - 1)).1
    let _ ← loop (fun k prev => removeFastStep c (lastIb - k) prev) (lastIb + 1 - ib) 0 (BitVec.ofNat c.W prev)

/-- `remove` (lines 272-313). -/
def remove (index : Nat) : M (EV c.W × ω) α := do
  let x ← get c h index
  let x ← M.unwrap x
  onFst (removeShift c index)
  return x

/-- body of the `while` loop of `retain` (lines 332-339). -/
def retainStep (f : Closure ω α Bool) (iGet iSet : Nat) : M (EV c.W × ω) Nat := do
  let x ← get c h iGet
  let x ← M.unwrap x
  let keep ← call f x
  if keep then
    set c h iSet x
    return iSet + 1
  else return iSet

/-- `retain` (lines 324-344). -/
def retain (f : Closure ω α Bool) : M (EV c.W × ω) Unit := do
  let p ← M.read
  let l := len c p.1
  let iSet ← loop (retainStep c h f) l 0 0
  onFst (setLen c iSet)

/-- body of the loop of `for_each` (lines 643-648). -/
def forEachStep (f : Closure ω α α) (i : Nat) (_ : Unit) : M (EV c.W × ω) Unit := do
  let x ← get c h i
  let x ← M.unwrap x
  let x ← call f x
  set c h i x

/-- `for_each` (lines 638-649). -/
def forEach (f : Closure ω α α) : M (EV c.W × ω) Unit := do
  let p ← M.read
  let l := len c p.1
  loop (forEachStep c h f) l 0 ()

/-- `for i in 0..iter_len { self.set(self_len + i, iter.next().unwrap()) }` (lines 914-916). -/
def extendHinted (I : Iter ω ι α) : (n pos : Nat) → ι → M (EV c.W × ω) ι
  | 0, _, t => pure t
  | n + 1, pos, t => do
    let r ← call I.next t
    let x ← M.unwrap r.1
    set c h pos x
    extendHinted I n (pos + 1) r.2

/-- `for elem in iter { self.push(elem) }` (lines 919-921), at most `n` calls of `next`; `true` = the loop has ended. -/
def extendRest (I : Iter ω ι α) : Nat → ι → M (EV c.W × ω) Bool
  | 0, _ => pure false
  | n + 1, t => do
    let r ← call I.next t
    match r.1 with
    | none => return true
    | some x => do
      push c h x
      extendRest I n r.2

/-- `extend` (lines 907-922), at most `n` calls of `next` in the second loop. -/
def extend (I : Iter ω ι α) (n : Nat) (t : ι) : M (EV c.W × ω) Bool := do
  let iterLen ← call I.hint t
  let p ← M.read
  let selfLen := len c p.1
  onFst (reserve c iterLen)
  let p ← M.read
  let num ← M.lift (uAdd c.build p.1.num iterLen)
  onFst (setLen c num)
  let t ← extendHinted c h I iterLen selfLen t
  extendRest c h I n t

/-- `repeat(value).take(count)` (std): every item is a clone. -/
def repeatTake (value : α) : Iter ω Nat α where
  hint k w := (some k, w)
  next
    | 0, w => (some (none, 0), w)
    | k + 1, w =>
      match h.clone value w with
      | (some y, w') => (some (some y, k), w')
      | (none, w') => (none, w')

/-- `x.iter().cloned()` for a slice (std). -/
def cloned : Iter ω (List α) α where
  hint xs w := (some xs.length, w)
  next
    | [], w => (some (none, []), w)
    | x :: xs, w =>
      match h.clone x w with
      | (some y, w') => (some (some y, xs), w')
      | (none, w') => (none, w')

/-- `Vec<T>::into_iter()` (std): moves the items. -/
def moved : Iter ω (List α) α where
  hint xs w := (some xs.length, w)
  next
    | [], w => (some (none, []), w)
    | x :: xs, w => (some (some x, xs), w)

/-- An iterator that yields the items of `it` and then ends or panics, without side effects (compare `EV.Src`). -/
def ofSrc (it : Src α) : Iter ω (List α) α where
  hint _ w := (some it.hint, w)
  next
    | [], w => if it.panics then (none, w) else (some (none, []), w)
    | x :: xs, w => (some (some x, xs), w)

/-- `extend_with_value` (lines 494-520), from the discriminant to the last fill, where no user code is called. -/
def fillBlocks (d countBlocks toInsertLast : Nat) : M (EV c.W) Unit := do
  let blockValue := spread (BitVec.ofNat c.W d) c.bits
  let s ← M.read
  let oldLen := len c s
  fixStorage c
  let s ← M.read
  let st ← M.lift (RVec.reserve c.alloc s.storage (countBlocks + (if toInsertLast > 0 then 1 else 0)))
  M.write { s with storage := st }
  loop (fillStep c countBlocks blockValue) countBlocks 0 ()
  let n ← M.lift (uAdd c.build oldLen (countBlocks * c.epb))
  setLen c n

/-- `extend_with_value` (lines 480-525). `take(k)` ends after at most `k` items, so `k + 1` calls of `next` end the loop of `extend`. -/
def extendWithValue (value : α) (count : Nat) : M (EV c.W × ω) Unit := do
  if count ≤ 4 * c.epb then
    let _ ← extend c h (repeatTake h value) (count + 1) count
  else
    let p ← M.read
    let toInsertFirst := c.epb - len c p.1 % c.epb
    let _ ← extend c h (repeatTake h value) (toInsertFirst + 1) toInsertFirst
    let countEnd := count - toInsertFirst
    let countBlocks := countEnd / c.epb
    let toInsertMid := countBlocks * c.epb
    let toInsertLast := count - (toInsertFirst + toInsertMid)
    let d ← toDiscr h value
    onFst (fillBlocks c d countBlocks toInsertLast)
    let _ ← extend c h (repeatTake h value) (toInsertLast + 1) toInsertLast

/-- `resize` (lines 461-470). -/
def resize (newLen : Nat) (value : α) : M (EV c.W × ω) Unit := do
  let p ← M.read
  if newLen > len c p.1 then
    extendWithValue c h value (newLen - len c p.1)
  else
    onFst (truncate c newLen)

/-- Run a method on a local vector, which is dropped on panic (user code keeps its state). -/
def build {β : Type} (m : M (EV c.W × ω) β) (w : ω) : Except Fault (EV c.W) × ω :=
  match m (new c, w) with
  | (.ok _, p) => (.ok p.1, p.2)
  | (.error e, p) => (.error e, p.2)

/-- the rest of `any` (lines 784-815), from the discriminant on. -/
def anyWith (d : Nat) : M (EV c.W) Bool := do
  let s ← M.read
  let lastBlock := (blockIndex c (len c s)).1
  let lastElemShift := (blockIndex c (len c s)).2
  let xMask ← M.lift (blkMul c.build.checked (BitVec.ofNat c.W d) (oneMask c))
  let found ← anyBlocks c xMask lastBlock 0
  if found then return true
  if lastElemShift ≠ 0 then
    let lastBlockMask := BitVec.allOnes c.W <<< lastElemShift
    let b ← block c lastBlock
    if hasZero c ((b ^^^ xMask) ||| lastBlockMask) then return true
  return false

/-- `any` (lines 764-816). -/
def any (x : α) : M (EV c.W × ω) Bool := do
  let p ← M.read
  if isEmpty c p.1 then return false
  let d ← toDiscr h x
  onFst (anyWith c d)

/-- the rest of `all` (lines 862-884), from the discriminant on. -/
def allWith (d : Nat) : M (EV c.W) Bool := do
  let s ← M.read
  let lastBlock := (blockIndex c (len c s)).1
  let lastElemShift := (blockIndex c (len c s)).2
  let validMask := BitVec.allOnes c.W >>> (c.W % c.bits)
  let xMask ← M.lift (blkMul c.build.checked (BitVec.ofNat c.W d) (oneMask c))
  let ok ← allBlocks c validMask xMask lastBlock 0
  if !ok then return false
  if lastElemShift ≠ 0 then
    let lastBlockMask := ~~~(BitVec.allOnes c.W <<< lastElemShift)
    let b ← block c lastBlock
    if b &&& lastBlockMask ≠ xMask &&& lastBlockMask then return false
  return true

/-- `all` (lines 845-885). -/
def all (x : α) : M (EV c.W × ω) Bool := do
  let p ← M.read
  if isEmpty c p.1 then return true
  let d ← toDiscr h x
  onFst (allWith c d)

/-- The closure `|x| self.v.get(x).unwrap()` of the iterators (lines 1015, 1027, 1033, 1056, 1068, 1074). -/
def item (x : Nat) : M (It c.W × ω) α := fun p =>
  match get c h x (p.1.v, p.2) with
  | (.ok (some a), q) => (.ok a, ({ p.1 with v := q.1 }, q.2))
  | (.ok none, q) => (.error .unwrapNone, ({ p.1 with v := q.1 }, q.2))
  | (.error e, q) => (.error e, ({ p.1 with v := q.1 }, q.2))

/-- `Option::map` with that closure. -/
def mapItem (o : Option Nat) : M (It c.W × ω) (Option α) :=
  match o with
  | some x => do
    let a ← item c h x
    return some a
  | none => pure none

/-- `next`, `next_back`, `nth`, `size_hint` of the iterators (lines 1014-1034, 1055-1075). -/
def iterStep : IterOp → M (It c.W × ω) (IterOut α)
  | .next => fun p => (do return .item (← mapItem c h (rangeNext c p.1).1) : M (It c.W × ω) (IterOut α)) ((rangeNext c p.1).2, p.2)
  | .nextBack => fun p => (do return .item (← mapItem c h (rangeNextBack c p.1).1) : M (It c.W × ω) (IterOut α)) ((rangeNextBack c p.1).2, p.2)
  | .nth n => fun p => (do return .item (← mapItem c h (rangeNth c n p.1).1) : M (It c.W × ω) (IterOut α)) ((rangeNth c n p.1).2, p.2)
  | .sizeHint => do
    let p ← M.read
    return .hint (EV.sizeHint c p.1).1 (EV.sizeHint c p.1).2

/-- A sequence of calls on an iterator. -/
def iterRun : List IterOp → M (It c.W × ω) (List (IterOut α))
  | [] => pure []
  | o :: os => do
    let r ← iterStep c h o
    let rs ← iterRun os
    return r :: rs

/-- `Vec::extend(iter)` as in `EV.collect`. -/
def collect : Nat → M (It c.W × ω) (List α)
  | 0 => pure []
  | n + 1 => do
    match ← iterStep c h .next with
    | .item (some x) => do
      let xs ← collect n
      return x :: xs
    | _ => return []

/-- `to_vec` (lines 661-666), `Into<Vec<T>>` (lines 944-948). -/
def toVec (s : EV c.W) : M ω (List α) := fun w =>
  ((collect c h (len c s + 1) (iter c s, w)).1, (collect c h (len c s + 1) (iter c s, w)).2.2)

/-! ## Histories -/

/-- A safe public call: one of `Op`, or `extend`/`collect` with an arbitrary iterator, whose state is in the world; the number is how often `next` is
called, at most, in the second loop of `extend`. -/
inductive Call (ω α : Type)
  | op (o : Op ω α)
  | extend (r : Nat) (I : Iter ω Unit α) (n : Nat)
  | collect (r : Nat) (I : Iter ω Unit α) (n : Nat)

variable {c}

/-- Call a method of variable `r`. -/
def onReg {β : Type} (m : Mem c ω) (r : Nat) (f : M (EV c.W × ω) β) (out : β → Out α) : Out α × Mem c ω :=
  match f (m.reg r, m.world) with
  | (.ok b, p) => (out b, ⟨upd m.reg r p.1, p.2⟩)
  | (.error e, p) => (e.out, ⟨upd m.reg r p.1, p.2⟩)

/-- Assign a new vector to variable `r`, unless its construction panics. -/
def assign (m : Mem c ω) (r : Nat) (v : Except Fault (EV c.W) × ω) : Out α × Mem c ω :=
  match v with
  | (.ok s, w) => (.unit, ⟨upd m.reg r s, w⟩)
  | (.error e, w) => (e.out, ⟨m.reg, w⟩)

/-- Call a `&self` method that may call user code. -/
def ask {β : Type} (m : Mem c ω) (v : Except Fault β × ω) (out : β → Out α) : Out α × Mem c ω :=
  match v with
  | (.ok b, w) => (out b, ⟨m.reg, w⟩)
  | (.error e, w) => (e.out, ⟨m.reg, w⟩)

variable (c)

/-- One call (compare `EnumVecModel.step`). -/
def step (m : Mem c ω) : Call ω α → Out α × Mem c ω
  | .op (.fromElem r x n) => assign m r (build c (extendWithValue c h x n) m.world)
  | .op (.fromVec r xs) => assign m r (build c (extend c h moved (xs.length + 1) xs) m.world)
  | .op (.fromSlice r xs) => assign m r (build c (extend c h (cloned h) (xs.length + 1) xs) m.world)
  | .op (.fromIter r it) => assign m r (build c (extend c h (ofSrc it) (it.items.length + 1) it.items) m.world)
  | .op (.get r i) => onReg m r (get c h i) .item
  | .op (.set r i x) => onReg m r (set c h i x) fun _ => .unit
  | .op (.push r x) => onReg m r (push c h x) fun _ => .unit
  | .op (.pop r) => onReg m r (pop c h) .item
  | .op (.insert r i x) => onReg m r (insert c h i x) fun _ => .unit
  | .op (.remove r i) => onReg m r (remove c h i) .val
  | .op (.swapRemove r i) => onReg m r (swapRemove c h i) .val
  | .op (.resize r n x) => onReg m r (resize c h n x) fun _ => .unit
  | .op (.extend r it) => onReg m r (extend c h (ofSrc it) (it.items.length + 1) it.items) fun _ => .unit
  | .op (.retain r f) => onReg m r (retain c h f) fun _ => .unit
  | .op (.forEach r f) => onReg m r (forEach c h f) fun _ => .unit
  | .op (.any r x) => onReg m r (any c h x) .bool
  | .op (.all r x) => onReg m r (all c h x) .bool
  | .op (.toVec r) => ask m (toVec c h (m.reg r) m.world) .list
  | .op (.iterate r calls) =>
    ask m ((iterRun c h calls (EV.iter c (m.reg r), m.world)).1, (iterRun c h calls (EV.iter c (m.reg r), m.world)).2.2) .iter
  | .extend r I n => onReg m r (extend c h I n ()) fun _ => .unit
  | .collect r I n => assign m r (build c (extend c h I n ()) m.world)
  -- the others call no user code
  | .op o => EnumVecModel.step c m o

/-- A history, continued after every panic. -/
def runAll : List (Call ω α) → Mem c ω → List (Out α) × Mem c ω
  | [], m => ([], m)
  | o :: os, m => ((step c h m o).1 :: (runAll os (step c h m o).2).1, (runAll os (step c h m o).2).2)

/-! ## Which histories are memory-safe -/

/-- The variables a call reads or modifies. -/
def Call.uses : Call ω α → List Nat
  | .op o => o.uses
  | .extend r _ _ => [r]
  | .collect _ _ _ => []

/-- Which variables are alive after a call with the given outcome: an `append` that returns normally takes the storage of its argument (`Vec` storage,
`self.len()` a multiple of the elements per block, argument not empty; see C15); assignments, `clear` and `truncate(0)` make variables alive. -/
def alive (k : Nat → Bool) (m : Mem c ω) (out : Out α) : Call ω α → Nat → Bool
  | .op (.append r o) =>
    if out.isUnit && !(c.small || len c (m.reg r) % c.epb != 0 || len c (m.reg o) == 0) then upd k o false else k
  | .op (.new r) | .op (.withCapacity r _) | .op (.fromElem r _ _) | .op (.fromVec r _) | .op (.fromSlice r _) | .op (.fromIter r _)
  | .op (.clone r _) | .op (.splitOff _ _ r) | .collect r _ _ => if out.isUnit then upd k r true else k
  | .op (.clear r) | .op (.truncate r 0) => upd k r true
  | _ => k

/-- `clear` and `truncate(0)` also make a variable alive. -/
def Call.revives : Call ω α → Bool
  | .op o => o.revives
  | _ => false

/-- The calls that C15, C16 and Rust's borrow checker allow: all, but no use of a variable that is not alive (other than `clear` and `truncate(0)`), no `split_off` below the length,
no `a.append(&mut a)`; and, in release builds with one element per block, no call that reserves `usize::MAX` elements altogether. -/
def Admitted (k : Nat → Bool) (m : Mem c ω) (call : Call ω α) : Prop :=
  (call.revives = false → ∀ r ∈ call.uses, k r = true) ∧
  match call with
  | .op (.append r o) => r ≠ o
  | .op (.splitOff r at_ _) => len c (m.reg r) ≤ at_
  | .op (.reserve r n) => ¬ c.Drops (len c (m.reg r) + n)
  | .op (.extend r it) => ¬ c.Drops (len c (m.reg r) + it.hint)
  | .op (.fromIter _ it) => ¬ c.Drops it.hint
  | .op (.fromVec _ xs) | .op (.fromSlice _ xs) => ¬ c.Drops xs.length
  | .extend r I _ => ∀ n ∈ (I.hint () m.world).1, ¬ c.Drops (len c (m.reg r) + n)
  | .collect _ I _ => ∀ n ∈ (I.hint () m.world).1, ¬ c.Drops n
  | _ => True

/-- All calls of a history are admitted. -/
def AdmittedRun : List (Call ω α) → (Nat → Bool) → Mem c ω → Prop
  | [], _, _ => True
  | o :: os, k, m => Admitted c k m o ∧ AdmittedRun os (alive c k m (step c h m o).1 o) (step c h m o).2

/-- Which variables are alive after a history. -/
def aliveAfter : List (Call ω α) → (Nat → Bool) → Mem c ω → Nat → Bool
  | [], k, _ => k
  | o :: os, k, m => aliveAfter os (alive c k m (step c h m o).1 o) (step c h m o).2

/-! ## Implementations that may panic but never lie -/

variable {τ ρ : Type}

/-- When a function of the implementation returns, it returns what `E` says (`clone`: the same value). It may panic at any call, and change its own part `ρ` of
the world, on which this may depend, but not the part `τ` of the closures. -/
structure Impl.Honest (E : EnumLike α) (h : Impl (τ × ρ) α) : Prop where
  toDiscr : ∀ x w d w', h.toDiscr x w = (some d, w') → d = E.toDiscr x ∧ w'.1 = w.1
  fromDiscr : ∀ d w a w', h.fromDiscr d w = (some a, w') → E.fromDiscr d = some a ∧ w'.1 = w.1
  clone : ∀ x w y w', h.clone x w = (some y, w') → y = x ∧ w'.1 = w.1

/-- A closure over one part of the world. -/
def liftFst {β : Type} (f : Closure τ α β) : Closure (τ × ρ) α β := fun x w => ((f x w.1).1, ((f x w.1).2, w.2))

/-- The same call in a larger world. -/
def liftOp : Op τ α → Op (τ × ρ) α
  | .retain r f => .retain r (liftFst f)
  | .forEach r f => .forEach r (liftFst f)
  | .new r => .new r
  | .withCapacity r n => .withCapacity r n
  | .fromElem r x n => .fromElem r x n
  | .fromVec r xs => .fromVec r xs
  | .fromSlice r xs => .fromSlice r xs
  | .fromIter r it => .fromIter r it
  | .clone r src => .clone r src
  | .len r => .len r
  | .isEmpty r => .isEmpty r
  | .get r i => .get r i
  | .set r i x => .set r i x
  | .push r x => .push r x
  | .pop r => .pop r
  | .insert r i x => .insert r i x
  | .remove r i => .remove r i
  | .swap r i j => .swap r i j
  | .swapRemove r i => .swapRemove r i
  | .truncate r n => .truncate r n
  | .clear r => .clear r
  | .resize r n x => .resize r n x
  | .reserve r n => .reserve r n
  | .shrinkToFit r => .shrinkToFit r
  | .extend r it => .extend r it
  | .append r o => .append r o
  | .splitOff r at_ d => .splitOff r at_ d
  | .eq r o => .eq r o
  | .any r x => .any r x
  | .all r x => .all r x
  | .toVec r => .toVec r
  | .iterate r calls => .iterate r calls
  | .hash r => .hash r

/-- The call panicked (also inside `from_discr`). -/
def panicked : Out α → Bool
  | .panic | .invalid => true
  | _ => false

/-- A call ended by a panic of user code: `to_discr`, `clone`, a closure or an iterator (`.user`), or `from_discr`. -/
def UserPanic {β : Type} (r : Except Fault β) : Prop := r = .error .user ∨ r = .error .badDiscr

/-- `y` is an answer of the closure to `x`. -/
def Answers {α β : Type} (f : Closure ω α β) (x : α) (y : β) : Prop := ∃ w w', f x w = (some y, w')

/-- The elements whose answer is `true`; elements without answer are left out. -/
def accepted {α : Type} : List α → List Bool → List α
  | x :: xs, b :: bs => if b then x :: accepted xs bs else accepted xs bs
  | _, _ => []

end Hostile
end EnumVecModel
