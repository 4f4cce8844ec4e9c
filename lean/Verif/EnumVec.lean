import Verif.RVec
import Verif.EnumLike

/-!
# `EnumVec` (`enum_vec/src/vec_u32/mod.rs` and its generated copies)

Line numbers refer to `enum_vec/src/vec_u32/mod.rs`; `vec_u8`, `vec_u16`, `vec_u64`, `vec_u128` are generated from
it by `enum_vec/gen.sh` (other block width), `smallvec_u32` differs in `append` and in the storage type.
-/

namespace EnumVecModel

/-- One instantiation of the generic code: block width `STORAGE_BLOCK_SIZE` (line 11), the `EnumLike` impl of
the element type, build mode, storage type and allocator. -/
structure Inst (α : Type) where
  /-- `STORAGE_BLOCK_SIZE`: 8, 16, 32, 64 or 128 -/
  W : Nat
  /-- the impl of `EnumLike` for the element type -/
  E : EnumLike α
  /-- overflow checks, width of `usize` -/
  build : Build
  /-- `SmallVec` storage (`smallvec_u32`) -/
  small : Bool
  alloc : Alloc

/-- `BITS_PER_ELEM` (lines 36-69) without the two compile-error terms: the sum of
`(NUM_VARIANTS > (1 << k)) as usize` for `k` from 0 to 31. -/
def bitsPerElem (N : Nat) : Nat :=
  ((List.range 32).map fun k => if N > 2 ^ k then 1 else 0).sum

/-- `ERROR_TOO_MANY_VARIANTS` (line 71): `0 - (NUM_VARIANTS as u64 > (1 << STORAGE_BLOCK_SIZE)) as usize`, a constant
whose underflow is a compile error (modelled as a fault). -/
def errorTooManyVariants (b : Build) (W N : Nat) : Except Fault Nat := uSub b.const 0 (if N > 2 ^ W then 1 else 0)

/-- `ERROR_ZERO_SIZED` (lines 74-76): `0 - (NUM_VARIANTS <= 1) as usize`. -/
def errorZeroSized (b : Build) (N : Nat) : Except Fault Nat := uSub b.const 0 (if N ≤ 1 then 1 else 0)

/-- The constant `BITS_PER_ELEM` (lines 36-69) as the compiler evaluates it; an error is a compile error. In vec_u64 and
vec_u128 the term `ERROR_TOO_MANY_VARIANTS` is commented out (vec_u64/mod.rs:68-71, vec_u128/mod.rs:68-71). -/
def bitsConst (b : Build) (W N : Nat) : Except Fault Nat := do
  let n := bitsPerElem N
  let n ← if W ≤ 32 then do
      let e ← errorTooManyVariants b W N
      uAdd b.const n e
    else .ok n
  let e ← errorZeroSized b N
  uAdd b.const n e

namespace Inst
variable {α : Type} (c : Inst α)

/-- `BITS_PER_ELEM` (lines 36-69). -/
def bits : Nat := bitsPerElem c.E.num

/-- `ELEMS_PER_BLOCK` (line 81). -/
def epb : Nat := c.W / c.bits

/-- `ELEMENT_MASK` (line 83): `((1u64 << BITS_PER_ELEM) - 1) as StorageBlock`. -/
def mask : BitVec c.W := BitVec.ofNat c.W (2 ^ c.bits - 1)

/-- The instantiation compiles: the block width is one of the five modules',
`ERROR_ZERO_SIZED` (lines 74-76) does not underflow, and `ERROR_TOO_MANY_VARIANTS` (line 71) does not either;
the latter check is commented out in vec_u64 and vec_u128. (That `NUM_VARIANTS` is a `usize` is not needed.) Theorem `C30_compiles_iff`: this is when `bitsConst` has a value. -/
def Compiles : Prop :=
  (c.W = 8 ∨ c.W = 16 ∨ c.W = 32 ∨ c.W = 64 ∨ c.W = 128) ∧
  1 < c.E.num ∧ (c.W ≤ 32 → c.E.num ≤ 2 ^ c.W)

end Inst

/-- `struct EnumVec<T>` (lines 15-25). -/
structure EV (W : Nat) where
  storage : RVec W
  /-- `num_elements` -/
  num : Nat
  deriving DecidableEq, Repr

namespace EV
variable {α : Type} (c : Inst α)

/-- `block_index` (lines 597-602): (block, bit offset inside the block). -/
def blockIndex (i : Nat) : Nat × Nat := (i / c.epb, (i % c.epb) * c.bits)

/-- `blocks_for_elements` (lines 604-606). -/
def blocksForElements (n : Nat) : Nat := satAdd c.build n (c.epb - 1) / c.epb

/-- `new` / `default` (lines 84-86, 896-904). -/
def new : EV c.W := ⟨RVec.new c.alloc, 0⟩

/-- `with_capacity` (lines 87-93). -/
def withCapacity (n : Nat) : Except Fault (EV c.W) :=
  match RVec.withCapacity c.alloc (blocksForElements c n) with
  | .ok st => .ok ⟨st, 0⟩
  | .error e => .error e

/-- `capacity` (lines 103-107). -/
def capacity (s : EV c.W) : Nat := satMul c.build s.storage.cap c.epb

/-- `len` (lines 434-436). -/
def len (s : EV c.W) : Nat := s.num

/-- `is_empty` (lines 440-442). -/
def isEmpty (s : EV c.W) : Bool := len c s == 0

/-- `set_len` (lines 437-439). -/
def setLen (n : Nat) : M (EV c.W) Unit := fun s => (.ok (), { s with num := n })

/-- `get_raw_unchecked` (lines 538-544); `get_unchecked` outside the storage is undefined behaviour.
The shift amount is below `W`, so it cannot overflow. -/
def rawUnchecked (s : EV c.W) (i : Nat) : Except Fault Nat :=
  match s.storage.data[(blockIndex c i).1]? with
  | some block => .ok ((block >>> (blockIndex c i).2) &&& c.mask).toNat
  | none => .error .ub

/-- `get_raw_unchecked` as a method call. -/
def getRawUnchecked (i : Nat) : M (EV c.W) Nat := fun s => (rawUnchecked c s i, s)

/-- `set_raw_unchecked` (lines 558-569). -/
def setRawUnchecked (i discr : Nat) : M (EV c.W) Unit := fun s =>
  match s.storage.data[(blockIndex c i).1]? with
  | some block =>
    let block := block &&& ~~~(c.mask <<< (blockIndex c i).2)
    let block := block ||| (BitVec.ofNat c.W discr <<< (blockIndex c i).2)
    (.ok (), { s with storage := { s.storage with data := s.storage.data.set (blockIndex c i).1 block } })
  | none => (.error .ub, s)

/-- `get_raw` (lines 527-535). -/
def getRaw (i : Nat) : M (EV c.W) (Option Nat) := do
  let s ← M.read
  if i ≥ len c s then return none
  let discr ← getRawUnchecked c i
  return some discr

/-- `set_raw` (lines 546-554). -/
def setRaw (i discr : Nat) : M (EV c.W) Unit := do
  let s ← M.read
  if i ≥ len c s then M.fail .index
  setRawUnchecked c i discr

/-- `T::from_discr(x)` as a call that may panic. -/
def fromDiscr {σ : Type} (x : Nat) : M σ α :=
  match c.E.fromDiscr x with
  | some a => pure a
  | none => M.fail .badDiscr

/-- `get` (lines 108-111). -/
def get (i : Nat) : M (EV c.W) (Option α) := do
  match ← getRaw c i with
  | some x => do
    let a ← fromDiscr c x
    return some a
  | none => return none

/-- `set` (lines 112-114). -/
def set (i : Nat) (x : α) : M (EV c.W) Unit := setRaw c i (c.E.toDiscr x)

/-- `reserve` (lines 128-145). `len().checked_add(additional).expect("capacity overflow")`, then the storage is
*resized* (possibly shortened) to `desired_cap / ELEMS_PER_BLOCK + 1` blocks; this sum overflows if there is one element
per block and `desired_cap` is `usize::MAX`. -/
def reserve (additional : Nat) : M (EV c.W) Unit := fun s =>
  if len c s + additional < c.build.usizeLim then
    let desiredCap := len c s + additional
    match uAdd c.build (desiredCap / c.epb) 1 with
    | .error e => (.error e, s)
    | .ok n =>
      match RVec.resize c.alloc s.storage n 0 with
      | .ok st => (.ok (), { s with storage := st })
      | .error e => (.error e, s)
  else (.error .capacity, s)

/-- `fix_storage` (lines 589-592). -/
def fixStorage : M (EV c.W) Unit := fun s =>
  (.ok (), { s with storage := s.storage.truncate (blocksForElements c (len c s)) })

/-- `shrink_to_fit` (lines 147-150). -/
def shrinkToFit : M (EV c.W) Unit := do
  fixStorage c
  let s ← M.read
  M.write { s with storage := s.storage.shrinkToFit c.alloc }

/-- `truncate` (lines 151-159). -/
def truncate (n : Nat) : M (EV c.W) Unit := do
  let s ← M.read
  if n < s.num then setLen c n

/-- `clear` (lines 429-432). -/
def clear : M (EV c.W) Unit := truncate c 0

/-- `grow_if_needed` (lines 579-586). -/
def growIfNeeded : M (EV c.W) Unit := fun s =>
  if len c s % c.epb = 0 ∧ blocksForElements c (len c s) = s.storage.len then
    match RVec.push c.alloc s.storage 0 with
    | .ok st => (.ok (), { s with storage := st })
    | .error e => (.error e, s)
  else (.ok (), s)

/-- `push` (lines 352-359). -/
def push (x : α) : M (EV c.W) Unit := do
  growIfNeeded c
  let s ← M.read
  let idx := s.num
  -- checked_add(1).expect("capacity overflow")
  if s.num + 1 < c.build.usizeLim then M.write { s with num := s.num + 1 } else M.fail .capacity
  set c idx x

/-- `pop` (lines 360-369). -/
def pop : M (EV c.W) (Option α) := do
  let s ← M.read
  if isEmpty c s then return none
  let x ← get c (s.num - 1)
  let x ← M.unwrap x
  let s ← M.read
  M.write { s with num := s.num - 1 }
  return some x

/-- `swap` (lines 572-577). -/
def swap (ia ib : Nat) : M (EV c.W) Unit := do
  let a ← getRaw c ia
  let a ← M.unwrap a
  let b ← getRaw c ib
  let b ← M.unwrap b
  setRaw c ia b
  setRaw c ib a

/-- `swap_remove` (lines 173-178). -/
def swapRemove (index : Nat) : M (EV c.W) α := do
  let s ← M.read
  let last ← M.lift (uSub c.build (len c s) 1)
  swap c index last
  let x ← pop c
  M.unwrap x

/-- `self.storage[i]` (bounds-checked indexing). -/
def block (i : Nat) : M (EV c.W) (BitVec c.W) := fun s =>
  match s.storage.data[i]? with
  | some b => (.ok b, s)
  | none => (.error .index, s)

/-- `self.storage[i] = b`. -/
def setBlock (i : Nat) (b : BitVec c.W) : M (EV c.W) Unit := fun s =>
  (.ok (), { s with storage := { s.storage with data := s.storage.data.set i b } })

/-- the closure `shift_storage` of `insert` (lines 208-215): (last, new block). -/
def shiftUp (blk atZero : BitVec c.W) : Except Fault (BitVec c.W × BitVec c.W) :=
  let lastBitOffset := (c.epb - 1) * c.bits
  let last := blk >>> lastBitOffset &&& c.mask
  match blkShl c.build.checked blk c.bits with
  | .ok blk => .ok (last, blk ||| atZero)
  | .error e => .error e

/-- body of the `while` loop of `insert` (lines 228-237). -/
def insertSlowStep (i prev : Nat) : M (EV c.W) Nat := do
  let next ← getRawUnchecked c i
  setRawUnchecked c i prev
  return next

/-- body of the `for` loop of `insert` (lines 245-247). -/
def insertFastStep (j : Nat) (prev : BitVec c.W) : M (EV c.W) (BitVec c.W) := do
  let blk ← block c j
  let r ← M.lift (shiftUp c blk prev)
  setBlock c j r.2
  return r.1

/-- `insert` (lines 207-249). The `while` loop runs `slow_limit - index` times and leaves
`i = max index slow_limit`. -/
def insert (index : Nat) (element : α) : M (EV c.W) Unit := do
  push c element
  let slowInsert := index % c.epb
  let s ← M.read
  let selfLen := len c s
  let prev := c.E.toDiscr element
  let (i, prev) ← (if slowInsert > 0 then do
      let slowLimit ← M.lift (uAdd c.build (index - slowInsert) c.epb)
      let slowLimit := min slowLimit selfLen
      let prev ← loop (insertSlowStep c) (slowLimit - index) index prev
      return (max index slowLimit, prev)
    else return (index, prev) : M (EV c.W) (Nat × Nat))
  let s ← M.read
  if i < len c s then
    let ib := (blockIndex c i).1
    let lastIb := (blockIndex c (len c s - 1)).1
    let _ ← loop (insertFastStep c) (lastIb + 1 - ib) ib (BitVec.ofNat c.W prev)

/-- the closure `shift_storage` of `remove` (lines 275-282): (last, new block). -/
def shiftDown (blk atZero : BitVec c.W) : Except Fault (BitVec c.W × BitVec c.W) :=
  let last := blk &&& c.mask
  let endBitOffset := (c.epb - 1) * c.bits
  match blkShr c.build.checked blk c.bits with
  | .ok blk => .ok (last, blk ||| (atZero <<< endBitOffset))
  | .error e => .error e

/-- body of the `while` loop of `remove` (lines 288-294). -/
def removeSlowStep (i : Nat) (_ : Unit) : M (EV c.W) Unit := do
  let next ← getRawUnchecked c (i + 1)
  setRawUnchecked c i next

/-- body of the `for` loop of `remove` (lines 307-309). -/
def removeFastStep (j : Nat) (prev : BitVec c.W) : M (EV c.W) (BitVec c.W) := do
  let blk ← block c j
  let r ← M.lift (shiftDown c blk prev)
  setBlock c j r.2
  return r.1

/-- `remove` (lines 272-313). The reversed block loop visits `last_ib, last_ib - 1, …, ib`. -/
def remove (index : Nat) : M (EV c.W) α := do
  let x ← get c index
  let x ← M.unwrap x
  let s ← M.read
  let length := len c s - 1
  let blockLimit ← M.lift (uMul c.build (1 + (blockIndex c index).1) c.epb)
  let slowLimit := min length blockLimit
  loop (removeSlowStep c) (slowLimit - index) index ()
  let i := max index slowLimit
  let s ← M.read
  let prev ← getRawUnchecked c (len c s - 1)
  let s ← M.read
  M.write { s with num := s.num - 1 }
  let s ← M.read
  if i < len c s then
    let ib := (blockIndex c i).1
    let lastIb := (blockIndex c (len c s - 1)).1
    let _ ← loop (fun k prev => removeFastStep c (lastIb - k) prev) (lastIb + 1 - ib) 0 (BitVec.ofNat c.W prev)
  return x

/-- Run a method of the first component. -/
def onFst {σ τ β : Type} (m : M σ β) : M (σ × τ) β := fun p => ((m p.1).1, ((m p.1).2, p.2))

/-- Run a method of the second component. -/
def onSnd {σ τ β : Type} (m : M τ β) : M (σ × τ) β := fun p => ((m p.2).1, (p.1, (m p.2).2))

/-- A user closure (`FnMut`) with captured state `τ`; `none` = the closure panics. -/
abbrev Closure (τ α β : Type) := α → τ → Option β × τ

/-- Call a closure. -/
def call {σ τ β : Type} (f : Closure τ α β) (x : α) : M (σ × τ) β := fun p =>
  match f x p.2 with
  | (some r, t) => (.ok r, (p.1, t))
  | (none, t) => (.error .user, (p.1, t))

/-- body of the `while` loop of `retain` (lines 332-339); the accumulator is `i_set`. -/
def retainStep {τ : Type} (f : Closure τ α Bool) (iGet iSet : Nat) : M (EV c.W × τ) Nat := do
  let x ← onFst (get c iGet)
  let x ← M.unwrap x
  let keep ← call f x
  if keep then
    onFst (set c iSet x)
    return iSet + 1
  else return iSet

/-- `retain` (lines 324-344). -/
def retain {τ : Type} (f : Closure τ α Bool) : M (EV c.W × τ) Unit := do
  let s ← M.read
  let l := len c s.1
  let iSet ← loop (retainStep c f) l 0 0
  onFst (setLen c iSet)

/-- body of the loop of `for_each` (lines 643-648). A `FnMut(&mut T)` is a closure returning the new value. -/
def forEachStep {τ : Type} (f : Closure τ α α) (i : Nat) (_ : Unit) : M (EV c.W × τ) Unit := do
  let x ← onFst (get c i)
  let x ← M.unwrap x
  let x ← call f x
  onFst (set c i x)

/-- `for_each` (lines 638-649). -/
def forEach {τ : Type} (f : Closure τ α α) : M (EV c.W × τ) Unit := do
  let s ← M.read
  let l := len c s.1
  loop (forEachStep c f) l 0 ()

/-- What `extend` can observe of an arbitrary iterator: the lower bound of `size_hint`, the items before the
first `None`, and whether the call after those items panics instead of returning `None`. -/
structure Src (α : Type) where
  hint : Nat
  items : List α
  panics : Bool

/-- `for i in 0..iter_len { self.set(self_len + i, iter.next().unwrap()) }` (lines 914-916); returns the items
not consumed yet. -/
def extendHinted (panics : Bool) : (n pos : Nat) → List α → M (EV c.W) (List α)
  | 0, _, items => pure items
  | n + 1, pos, x :: items => do
    set c pos x
    extendHinted panics n (pos + 1) items
  | _ + 1, _, [] => M.fail (if panics then .user else .unwrapNone)

/-- `for elem in iter { self.push(elem) }` (lines 919-921). -/
def extendRest (panics : Bool) : List α → M (EV c.W) Unit
  | [] => if panics then M.fail .user else pure ()
  | x :: items => do
    push c x
    extendRest panics items

/-- `extend` (lines 907-922). -/
def extend (it : Src α) : M (EV c.W) Unit := do
  let s ← M.read
  let selfLen := len c s
  reserve c it.hint
  let s ← M.read
  let n ← M.lift (uAdd c.build s.num it.hint)
  M.write { s with num := n }
  let rest ← extendHinted c it.panics it.hint selfLen it.items
  extendRest c it.panics rest

/-- `repeat(value).take(count)`. -/
def repeatTake (value : α) (count : Nat) : Src α := ⟨count, List.replicate count value, false⟩

/-- `while i < STORAGE_BLOCK_SIZE { block_value |= block_value << i; i *= 2; }` (lines 499-502).
(With `i = 0` the Rust loop would not end; `i` starts at `BITS_PER_ELEM > 0`.) -/
def spread {W : Nat} (v : BitVec W) (i : Nat) : BitVec W :=
  if _h : 0 < i ∧ i < W then spread (v ||| (v <<< i)) (i * 2) else v
termination_by W - i
decreasing_by omega

/-- body of `for _ in 0..count_blocks { storage.resize(storage.len() + count_blocks, block_value) }`
(lines 513-516). -/
def fillStep (countBlocks : Nat) (v : BitVec c.W) (_ : Nat) (_ : Unit) : M (EV c.W) Unit := fun s =>
  match RVec.resize c.alloc s.storage (s.storage.len + countBlocks) v with
  | .ok st => (.ok (), { s with storage := st })
  | .error e => (.error e, s)

/-- `extend_with_value` (lines 480-525). -/
def extendWithValue (value : α) (count : Nat) : M (EV c.W) Unit := do
  if count ≤ 4 * c.epb then
    extend c (repeatTake value count)
  else
    let s ← M.read
    let toInsertFirst := c.epb - len c s % c.epb
    extend c (repeatTake value toInsertFirst)
    let countEnd := count - toInsertFirst
    let countBlocks := countEnd / c.epb
    let toInsertMid := countBlocks * c.epb
    let toInsertLast := count - (toInsertFirst + toInsertMid)
    let d := c.E.toDiscr value
    let blockValue := spread (BitVec.ofNat c.W d) c.bits
    let s ← M.read
    let oldLen := len c s
    fixStorage c
    let s ← M.read
    let st ← M.lift (RVec.reserve c.alloc s.storage (countBlocks + (if toInsertLast > 0 then 1 else 0)))
    M.write { s with storage := st }
    loop (fillStep c countBlocks blockValue) countBlocks 0 ()
    let n ← M.lift (uAdd c.build oldLen (countBlocks * c.epb))
    setLen c n
    extend c (repeatTake value toInsertLast)

/-- `resize` (lines 461-470). -/
def resize (newLen : Nat) (value : α) : M (EV c.W) Unit := do
  let s ← M.read
  if newLen > len c s then
    extendWithValue c value (newLen - len c s)
  else
    truncate c newLen

/-- Run a method on a local vector and return the vector (dropped on panic). -/
def build (s : EV c.W) (m : M (EV c.W) Unit) : Except Fault (EV c.W) :=
  match m s with
  | (.ok _, s') => .ok s'
  | (.error e, _) => .error e

/-- `from_elem` (lines 668-674), `enum_vec![x; n]` (enum_vec/src/lib.rs:29-31). -/
def fromElem (x : α) (n : Nat) : Except Fault (EV c.W) := build c (new c) (extendWithValue c x n)

/-- `from_iter` (lines 925-932). -/
def fromIter (it : Src α) : Except Fault (EV c.W) := build c (new c) (extend c it)

/-- `from_slice` (lines 685-691), `enum_vec![a, b, c]` (enum_vec/src/lib.rs:32-34); slice iterators have an
exact size hint. -/
def fromSlice (xs : List α) : Except Fault (EV c.W) := build c (new c) (extend c ⟨xs.length, xs, false⟩)

/-- `From<Vec<T>>` (lines 938-942); `vec::IntoIter` has an exact size hint. -/
def fromVec (xs : List α) : Except Fault (EV c.W) := fromIter c ⟨xs.length, xs, false⟩

/-- loop body of the unaligned branch of `append` (lines 405-407). -/
def appendStep (selfLen i : Nat) (_ : Unit) : M (EV c.W × EV c.W) Unit := do
  let d ← onSnd (getRawUnchecked c i)
  onFst (setRawUnchecked c (selfLen + i) d)

/-- `self.storage.append(&mut other.storage)` (line 398, `Vec` storage): moves the blocks out of `other.storage`;
in `smallvec_u32/mod.rs:399-400`: `self.storage.extend_from_slice(&other.storage); other.clear();`. -/
def appendStorage : M (EV c.W × EV c.W) Unit := fun p =>
  match RVec.extendFromSlice c.alloc p.1.storage p.2.storage.data with
  | .error e => (.error e, p)
  | .ok st =>
    if c.small then onSnd (clear c) ({ p.1 with storage := st }, p.2)
    else (.ok (), ({ p.1 with storage := st }, { p.2 with storage := { p.2.storage with data := [] } }))

/-- `append` (lines 388-412) of `(self, other)`. -/
def append : M (EV c.W × EV c.W) Unit := do
  let p ← M.read
  let otherLen := len c p.2
  let selfLen := len c p.1
  if len c p.1 % c.epb = 0 then
    onFst (fixStorage c)
    onSnd (fixStorage c)
    appendStorage c
    let p ← M.read
    let n ← M.lift (uAdd c.build p.1.num otherLen)
    onFst (setLen c n)
  else
    onFst (reserve c otherLen)
    let n ← M.lift (uAdd c.build selfLen otherLen)
    onFst (setLen c n)
    loop (appendStep c selfLen) otherLen 0 ()
    onSnd (clear c)

/-- loop body of `split_off` (lines 452-454); the state is `(self, other)`. -/
def splitOffStep (at_ i : Nat) (_ : Unit) : M (EV c.W × EV c.W) Unit := do
  let d ← onFst (getRawUnchecked c (at_ + i))
  onSnd (setRawUnchecked c i d)

/-- `split_off` (lines 443-459). `other` has allocated capacity but its storage has length 0. -/
def splitOff (at_ : Nat) : M (EV c.W) (EV c.W) := fun s =>
  if at_ ≤ len c s then
    let otherLen := len c s - at_
    match withCapacity c otherLen with
    | .error e => (.error e, s)
    | .ok other =>
      match loop (splitOffStep c at_) otherLen 0 () (s, { other with num := otherLen }) with
      | (.ok _, (s, other)) => (.ok other, { s with num := at_ })
      | (.error e, (s, _)) => (.error e, s)
  else (.error .index, s)

/-- `#[derive(Clone)]` (line 14). -/
def clone (s : EV c.W) : Except Fault (EV c.W) :=
  match s.storage.clone c.alloc with
  | .ok st => .ok ⟨st, s.num⟩
  | .error e => .error e

/-- `one_mask` (lines 779, 857): `(!0 / num_variants_p2) >> (STORAGE_BLOCK_SIZE % BITS_PER_ELEM)`. -/
def oneMask : BitVec c.W := (BitVec.allOnes c.W / c.mask) >>> (c.W % c.bits)

/-- `high_mask` (line 781). -/
def highMask : BitVec c.W := oneMask c <<< (c.bits - 1)

/-- closure `haszero` of `any` (lines 793-795). -/
def hasZero (v : BitVec c.W) : Bool := ((v - oneMask c) &&& ~~~v &&& highMask c) != 0

/-- `for i in 0..last_block { if haszero(self.storage[i] ^ x_mask) { return true; } }` (lines 797-801). -/
def anyBlocks (xMask : BitVec c.W) : (n i : Nat) → M (EV c.W) Bool
  | 0, _ => pure false
  | n + 1, i => do
    let b ← block c i
    if hasZero c (b ^^^ xMask) then return true
    anyBlocks xMask n (i + 1)

/-- `any` (lines 764-816). -/
def any (x : α) : M (EV c.W) Bool := do
  let s ← M.read
  if isEmpty c s then return false
  let lastBlock := (blockIndex c (len c s)).1
  let lastElemShift := (blockIndex c (len c s)).2
  let xMask ← M.lift (blkMul c.build.checked (BitVec.ofNat c.W (c.E.toDiscr x)) (oneMask c))
  let found ← anyBlocks c xMask lastBlock 0
  if found then return true
  if lastElemShift ≠ 0 then
    let lastBlockMask := BitVec.allOnes c.W <<< lastElemShift
    let b ← block c lastBlock
    if hasZero c ((b ^^^ xMask) ||| lastBlockMask) then return true
  return false

/-- `for i in 0..last_block { if self.storage[i] & valid_mask != x_mask { return false; } }` (lines 868-872);
`true` = loop finished. -/
def allBlocks (validMask xMask : BitVec c.W) : (n i : Nat) → M (EV c.W) Bool
  | 0, _ => pure true
  | n + 1, i => do
    let b ← block c i
    if b &&& validMask ≠ xMask then return false
    allBlocks validMask xMask n (i + 1)

/-- `all` (lines 845-885). -/
def all (x : α) : M (EV c.W) Bool := do
  let s ← M.read
  if isEmpty c s then return true
  let lastBlock := (blockIndex c (len c s)).1
  let lastElemShift := (blockIndex c (len c s)).2
  let validMask := BitVec.allOnes c.W >>> (c.W % c.bits)
  let xMask ← M.lift (blkMul c.build.checked (BitVec.ofNat c.W (c.E.toDiscr x)) (oneMask c))
  let ok ← allBlocks c validMask xMask lastBlock 0
  if !ok then return false
  if lastElemShift ≠ 0 then
    let lastBlockMask := ~~~(BitVec.allOnes c.W <<< lastElemShift)
    let b ← block c lastBlock
    if b &&& lastBlockMask ≠ xMask &&& lastBlockMask then return false
  return true

/-- loop of `eq` (lines 1097-1103). -/
def eqLoop (a b : EV c.W) : (n i : Nat) → Except Fault Bool
  | 0, _ => .ok true
  | n + 1, i =>
    match rawUnchecked c a i, rawUnchecked c b i with
    | .ok x, .ok y => if x ≠ y then .ok false else eqLoop a b n (i + 1)
    | .error e, _ => .error e
    | _, .error e => .error e

/-- `PartialEq::eq` (lines 1092-1110). -/
def eq (a b : EV c.W) : Except Fault Bool :=
  if len c a = len c b then eqLoop c a b (len c a) 0 else .ok false

/-- loop of `hash` (lines 1117-1120). -/
def hashLoop (s : EV c.W) : (n i : Nat) → Except Fault (List Nat)
  | 0, _ => .ok []
  | n + 1, i =>
    match rawUnchecked c s i with
    | .ok x => (hashLoop s n (i + 1)).map (x :: ·)
    | .error e => .error e

/-- `Hash::hash` (lines 1114-1122): the `usize` values fed to the hasher, in order. -/
def hash (s : EV c.W) : Except Fault (List Nat) := hashLoop c s (len c s) 0

end EV
end EnumVecModel
