import Verif.Iter

/-!
# Which blocks of the storage a call accesses

The methods of `EnumVec` once more, as programs that keep a log of the indices of the blocks of the storage they read or write. Each definition is the one of the same
name in `EnumVec.lean` with the accesses logged; that it does the same otherwise is a theorem (`C71_logs`). The log is the unit of cost of C71.
A block that is read and written by one expression (`set_raw_unchecked`: `let block = get_unchecked_mut(i); *block &= …; *block |= …`) is logged once.
`resize`, `push` and `append` of the storage log the blocks they append. The copying of all blocks when the storage is reallocated is not logged: it changes none of them, and
its cost is the subject of C51.
-/

namespace EnumVecModel
open EV
variable {α τ : Type}

/-- A vector and the log of block accesses. -/
abbrev LV (W : Nat) := EV W × List Nat

namespace Access
variable {W : Nat}

/-- Log accesses. -/
def touch (is : List Nat) : M (LV W) Unit := fun p => (.ok (), (p.1, p.2 ++ is))

variable (c : Inst α)

/-- `len` (vec_u32/mod.rs:434-436): the field `num_elements`, no access to the storage. -/
def len : M (LV c.W) Nat := fun p => (.ok (EV.len c p.1), p)

/-- `set_len` (lines 437-439). -/
def setLen (n : Nat) : M (LV c.W) Unit := onFst (EV.setLen c n)

/-- `get_raw_unchecked` (lines 538-544). -/
def getRawUnchecked (i : Nat) : M (LV c.W) Nat := do
  touch [(blockIndex c i).1]
  onFst (EV.getRawUnchecked c i)

/-- `set_raw_unchecked` (lines 558-569). -/
def setRawUnchecked (i discr : Nat) : M (LV c.W) Unit := do
  touch [(blockIndex c i).1]
  onFst (EV.setRawUnchecked c i discr)

/-- `get_raw` (lines 527-535). -/
def getRaw (i : Nat) : M (LV c.W) (Option Nat) := do
  let n ← len c
  if i ≥ n then return none
  let discr ← getRawUnchecked c i
  return some discr

/-- `set_raw` (lines 546-554). -/
def setRaw (i discr : Nat) : M (LV c.W) Unit := do
  let n ← len c
  if i ≥ n then M.fail .index
  setRawUnchecked c i discr

/-- `get` (lines 108-111). -/
def get (i : Nat) : M (LV c.W) (Option α) := do
  match ← getRaw c i with
  | some x => do
    let a ← fromDiscr c x
    return some a
  | none => return none

/-- `set` (lines 112-114). -/
def set (i : Nat) (x : α) : M (LV c.W) Unit := setRaw c i (c.E.toDiscr x)

/-- `self.storage.resize(n, x)`. -/
def resizeStorage (n : Nat) (x : BitVec c.W) : M (LV c.W) Unit := fun p =>
  match RVec.resize c.alloc p.1.storage n x with
  | .ok st => (.ok (), ({ p.1 with storage := st }, p.2 ++ List.range' p.1.storage.len (n - p.1.storage.len)))
  | .error e => (.error e, p)

/-- `reserve` (lines 128-145). -/
def reserve (additional : Nat) : M (LV c.W) Unit := do
  let l ← len c
  if l + additional < c.build.usizeLim then
    let desiredCap := l + additional
    let n ← M.lift (uAdd c.build (desiredCap / c.epb) 1)
    resizeStorage c n 0
  else M.fail .capacity

/-- `fix_storage` (lines 589-592): `truncate` of a `Vec` of integers changes its length only. -/
def fixStorage : M (LV c.W) Unit := onFst (EV.fixStorage c)

/-- `self.storage.shrink_to_fit()` (line 149). -/
def shrinkStorage : M (LV c.W) Unit := fun p => (.ok (), ({ p.1 with storage := p.1.storage.shrinkToFit c.alloc }, p.2))

/-- `shrink_to_fit` (lines 147-150). -/
def shrinkToFit : M (LV c.W) Unit := do
  fixStorage c
  shrinkStorage c

/-- `truncate` (lines 151-159). -/
def truncate (n : Nat) : M (LV c.W) Unit := do
  let l ← len c
  if n < l then setLen c n

/-- `clear` (lines 429-432). -/
def clear : M (LV c.W) Unit := truncate c 0

/-- `grow_if_needed` (lines 579-586). -/
def growIfNeeded : M (LV c.W) Unit := fun p =>
  if EV.len c p.1 % c.epb = 0 ∧ blocksForElements c (EV.len c p.1) = p.1.storage.len then
    match RVec.push c.alloc p.1.storage 0 with
    | .ok st => (.ok (), ({ p.1 with storage := st }, p.2 ++ [p.1.storage.len]))
    | .error e => (.error e, p)
  else (.ok (), p)

/-- `push` (lines 352-359). -/
def push (x : α) : M (LV c.W) Unit := do
  growIfNeeded c
  let idx ← len c
  if idx + 1 < c.build.usizeLim then setLen c (idx + 1) else M.fail .capacity
  set c idx x

/-- `pop` (lines 360-369). -/
def pop : M (LV c.W) (Option α) := do
  let l ← len c
  if l == 0 then return none
  let x ← get c (l - 1)
  let x ← M.unwrap x
  let l ← len c
  setLen c (l - 1)
  return some x

/-- `swap` (lines 572-577). -/
def swap (ia ib : Nat) : M (LV c.W) Unit := do
  let a ← getRaw c ia
  let a ← M.unwrap a
  let b ← getRaw c ib
  let b ← M.unwrap b
  setRaw c ia b
  setRaw c ib a

/-- `swap_remove` (lines 173-178). -/
def swapRemove (index : Nat) : M (LV c.W) α := do
  let l ← len c
  let last ← M.lift (uSub c.build l 1)
  swap c index last
  let x ← pop c
  M.unwrap x

/-- `self.storage[i]`. -/
def block (i : Nat) : M (LV c.W) (BitVec c.W) := do
  touch [i]
  onFst (EV.block c i)

/-- `self.storage[i] = b`. -/
def setBlock (i : Nat) (b : BitVec c.W) : M (LV c.W) Unit := do
  touch [i]
  onFst (EV.setBlock c i b)

/-- body of the `while` loop of `insert` (lines 228-237). -/
def insertSlowStep (i prev : Nat) : M (LV c.W) Nat := do
  let next ← getRawUnchecked c i
  setRawUnchecked c i prev
  return next

/-- body of the `for` loop of `insert` (lines 245-247). -/
def insertFastStep (j : Nat) (prev : BitVec c.W) : M (LV c.W) (BitVec c.W) := do
  let blk ← block c j
  let r ← M.lift (shiftUp c blk prev)
  setBlock c j r.2
  return r.1

/-- `insert` (lines 207-249). -/
def insert (index : Nat) (element : α) : M (LV c.W) Unit := do
  push c element
  let slowInsert := index % c.epb
  let selfLen ← len c
  let prev := c.E.toDiscr element
  let (i, prev) ← (if slowInsert > 0 then do
      let slowLimit ← M.lift (uAdd c.build (index - slowInsert) c.epb)
      let slowLimit := min slowLimit selfLen
      let prev ← loop (insertSlowStep c) (slowLimit - index) index prev
      return (max index slowLimit, prev)
    else return (index, prev) : M (LV c.W) (Nat × Nat))
  let l ← len c
  if i < l then
    let ib := (blockIndex c i).1
    let lastIb := (blockIndex c (l - 1)).1
    let _ ← loop (insertFastStep c) (lastIb + 1 - ib) ib (BitVec.ofNat c.W prev)

/-- body of the `while` loop of `remove` (lines 288-294). -/
def removeSlowStep (i : Nat) (_ : Unit) : M (LV c.W) Unit := do
  let next ← getRawUnchecked c (i + 1)
  setRawUnchecked c i next

/-- body of the `for` loop of `remove` (lines 307-309). -/
def removeFastStep (j : Nat) (prev : BitVec c.W) : M (LV c.W) (BitVec c.W) := do
  let blk ← block c j
  let r ← M.lift (shiftDown c blk prev)
  setBlock c j r.2
  return r.1

/-- `remove` (lines 272-313). -/
def remove (index : Nat) : M (LV c.W) α := do
  let x ← get c index
  let x ← M.unwrap x
  let l ← len c
  let length := l - 1
  let blockLimit ← M.lift (uMul c.build (1 + (blockIndex c index).1) c.epb)
  let slowLimit := min length blockLimit
  loop (removeSlowStep c) (slowLimit - index) index ()
  let i := max index slowLimit
  let l ← len c
  let prev ← getRawUnchecked c (l - 1)
  let l ← len c
  setLen c (l - 1)
  let l ← len c
  if i < l then
    let ib := (blockIndex c i).1
    let lastIb := (blockIndex c (l - 1)).1
    let _ ← loop (fun k prev => removeFastStep c (lastIb - k) prev) (lastIb + 1 - ib) 0 (BitVec.ofNat c.W prev)
  return x

/-- body of the `while` loop of `retain` (lines 332-339). -/
def retainStep (f : Closure τ α Bool) (iGet iSet : Nat) : M (LV c.W × τ) Nat := do
  let x ← onFst (get c iGet)
  let x ← M.unwrap x
  let keep ← call f x
  if keep then
    onFst (set c iSet x)
    return iSet + 1
  else return iSet

/-- `retain` (lines 324-344). -/
def retain (f : Closure τ α Bool) : M (LV c.W × τ) Unit := do
  let l ← onFst (len c)
  let iSet ← loop (retainStep c f) l 0 0
  onFst (setLen c iSet)

/-- body of the loop of `for_each` (lines 643-648). -/
def forEachStep (f : Closure τ α α) (i : Nat) (_ : Unit) : M (LV c.W × τ) Unit := do
  let x ← onFst (get c i)
  let x ← M.unwrap x
  let x ← call f x
  onFst (set c i x)

/-- `for_each` (lines 638-649). -/
def forEach (f : Closure τ α α) : M (LV c.W × τ) Unit := do
  let l ← onFst (len c)
  loop (forEachStep c f) l 0 ()

/-- `for i in 0..iter_len { self.set(self_len + i, iter.next().unwrap()) }` (lines 914-916). -/
def extendHinted (panics : Bool) : (n pos : Nat) → List α → M (LV c.W) (List α)
  | 0, _, items => pure items
  | n + 1, pos, x :: items => do
    set c pos x
    extendHinted panics n (pos + 1) items
  | _ + 1, _, [] => M.fail (if panics then .user else .unwrapNone)

/-- `for elem in iter { self.push(elem) }` (lines 919-921). -/
def extendRest (panics : Bool) : List α → M (LV c.W) Unit
  | [] => if panics then M.fail .user else pure ()
  | x :: items => do
    push c x
    extendRest panics items

/-- `extend` (lines 907-922). -/
def extend (it : Src α) : M (LV c.W) Unit := do
  let selfLen ← len c
  reserve c it.hint
  let l ← len c
  let n ← M.lift (uAdd c.build l it.hint)
  setLen c n
  let rest ← extendHinted c it.panics it.hint selfLen it.items
  extendRest c it.panics rest

/-- body of `for _ in 0..count_blocks { storage.resize(storage.len() + count_blocks, block_value) }` (lines 513-516). -/
def fillStep (countBlocks : Nat) (v : BitVec c.W) (_ : Nat) (_ : Unit) : M (LV c.W) Unit := fun p =>
  resizeStorage c (p.1.storage.len + countBlocks) v p

/-- `self.storage.reserve(n)` (lines 508-512). -/
def reserveStorage (n : Nat) : M (LV c.W) Unit := fun p =>
  match RVec.reserve c.alloc p.1.storage n with
  | .ok st => (.ok (), ({ p.1 with storage := st }, p.2))
  | .error e => (.error e, p)

/-- `extend_with_value` (lines 480-525). -/
def extendWithValue (value : α) (count : Nat) : M (LV c.W) Unit := do
  if count ≤ 4 * c.epb then
    extend c (repeatTake value count)
  else
    let l ← len c
    let toInsertFirst := c.epb - l % c.epb
    extend c (repeatTake value toInsertFirst)
    let countEnd := count - toInsertFirst
    let countBlocks := countEnd / c.epb
    let toInsertMid := countBlocks * c.epb
    let toInsertLast := count - (toInsertFirst + toInsertMid)
    let d := c.E.toDiscr value
    let blockValue := spread (BitVec.ofNat c.W d) c.bits
    let oldLen ← len c
    fixStorage c
    reserveStorage c (countBlocks + (if toInsertLast > 0 then 1 else 0))
    loop (fillStep c countBlocks blockValue) countBlocks 0 ()
    let n ← M.lift (uAdd c.build oldLen (countBlocks * c.epb))
    setLen c n
    extend c (repeatTake value toInsertLast)

/-- `resize` (lines 461-470). -/
def resize (newLen : Nat) (value : α) : M (LV c.W) Unit := do
  let l ← len c
  if newLen > l then
    extendWithValue c value (newLen - l)
  else
    truncate c newLen

/-- loop body of the unaligned branch of `append` (lines 405-407). -/
def appendStep (selfLen i : Nat) (_ : Unit) : M (LV c.W × LV c.W) Unit := do
  let d ← onSnd (getRawUnchecked c i)
  onFst (setRawUnchecked c (selfLen + i) d)

/-- `self.storage.append(&mut other.storage)` (line 398); smallvec_u32/mod.rs:399-400. The blocks of `other` are read, and the new blocks of `self` are written. -/
def appendStorage : M (LV c.W × LV c.W) Unit := fun p =>
  match RVec.extendFromSlice c.alloc p.1.1.storage p.2.1.storage.data with
  | .error e => (.error e, p)
  | .ok st =>
    let self : LV c.W := ({ p.1.1 with storage := st },
      p.1.2 ++ List.range' p.1.1.storage.len p.2.1.storage.len)
    let other : LV c.W := (p.2.1, p.2.2 ++ List.range p.2.1.storage.len)
    if c.small then onSnd (clear c) (self, other)
    else (.ok (), (self, ({ p.2.1 with storage := { p.2.1.storage with data := [] } }, other.2)))

/-- `append` (lines 388-412) of `(self, other)`. -/
def append : M (LV c.W × LV c.W) Unit := do
  let otherLen ← onSnd (len c)
  let selfLen ← onFst (len c)
  if selfLen % c.epb = 0 then
    onFst (fixStorage c)
    onSnd (fixStorage c)
    appendStorage c
    let l ← onFst (len c)
    let n ← M.lift (uAdd c.build l otherLen)
    onFst (setLen c n)
  else
    onFst (reserve c otherLen)
    let n ← M.lift (uAdd c.build selfLen otherLen)
    onFst (setLen c n)
    loop (appendStep c selfLen) otherLen 0 ()
    onSnd (clear c)

/-- `for i in 0..last_block { if haszero(self.storage[i] ^ x_mask) { return true; } }` (lines 797-801). -/
def anyBlocks (xMask : BitVec c.W) : (n i : Nat) → M (LV c.W) Bool
  | 0, _ => pure false
  | n + 1, i => do
    let b ← block c i
    if hasZero c (b ^^^ xMask) then return true
    anyBlocks xMask n (i + 1)

/-- `any` (lines 764-816). -/
def any (x : α) : M (LV c.W) Bool := do
  let l ← len c
  if l == 0 then return false
  let lastBlock := (blockIndex c l).1
  let lastElemShift := (blockIndex c l).2
  let xMask ← M.lift (blkMul c.build.checked (BitVec.ofNat c.W (c.E.toDiscr x)) (oneMask c))
  let found ← anyBlocks c xMask lastBlock 0
  if found then return true
  if lastElemShift ≠ 0 then
    let lastBlockMask := BitVec.allOnes c.W <<< lastElemShift
    let b ← block c lastBlock
    if hasZero c ((b ^^^ xMask) ||| lastBlockMask) then return true
  return false

/-- `for i in 0..last_block { if self.storage[i] & valid_mask != x_mask { return false; } }` (lines 868-872). -/
def allBlocks (validMask xMask : BitVec c.W) : (n i : Nat) → M (LV c.W) Bool
  | 0, _ => pure true
  | n + 1, i => do
    let b ← block c i
    if b &&& validMask ≠ xMask then return false
    allBlocks validMask xMask n (i + 1)

/-- `all` (lines 845-885). -/
def all (x : α) : M (LV c.W) Bool := do
  let l ← len c
  if l == 0 then return true
  let lastBlock := (blockIndex c l).1
  let lastElemShift := (blockIndex c l).2
  let validMask := BitVec.allOnes c.W >>> (c.W % c.bits)
  let xMask ← M.lift (blkMul c.build.checked (BitVec.ofNat c.W (c.E.toDiscr x)) (oneMask c))
  let ok ← allBlocks c validMask xMask lastBlock 0
  if !ok then return false
  if lastElemShift ≠ 0 then
    let lastBlockMask := ~~~(BitVec.allOnes c.W <<< lastElemShift)
    let b ← block c lastBlock
    if b &&& lastBlockMask ≠ xMask &&& lastBlockMask then return false
  return true

/-- loop of `eq` (lines 1097-1103). -/
def eqLoop : (n i : Nat) → M (LV c.W × LV c.W) Bool
  | 0, _ => pure true
  | n + 1, i => do
    let x ← onFst (getRawUnchecked c i)
    let y ← onSnd (getRawUnchecked c i)
    if x ≠ y then return false
    eqLoop n (i + 1)

/-- `PartialEq::eq` (lines 1092-1110). -/
def eq : M (LV c.W × LV c.W) Bool := do
  let a ← onFst (len c)
  let b ← onSnd (len c)
  if a = b then eqLoop c a 0 else return false

/-- loop of `hash` (lines 1117-1120). -/
def hashLoop : (n i : Nat) → M (LV c.W) (List Nat)
  | 0, _ => pure []
  | n + 1, i => do
    let x ← getRawUnchecked c i
    let xs ← hashLoop n (i + 1)
    return x :: xs

/-- `Hash::hash` (lines 1114-1122): the values fed to the hasher. -/
def hash : M (LV c.W) (List Nat) := do
  let l ← len c
  hashLoop c l 0

/-- `#[derive(Clone)]` (line 14): `storage.clone()` reads all blocks. -/
def clone : M (LV c.W) (EV c.W) := fun p =>
  match EV.clone c p.1 with
  | .ok v => (.ok v, (p.1, p.2 ++ List.range p.1.storage.len))
  | .error e => (.error e, p)

/-! The iterators (both have the same methods, see `Iter.lean`): the vector with its log, and the range. -/

/-- `Range<usize>::next` (std), as in `Iter.lean`. -/
def rangeNext : M (Nat × Nat) (Option Nat) := fun r => if r.1 < r.2 then (.ok (some r.1), (r.1 + 1, r.2)) else (.ok none, r)

/-- `Range<usize>::next_back` (std). -/
def rangeNextBack : M (Nat × Nat) (Option Nat) := fun r => if r.1 < r.2 then (.ok (some (r.2 - 1)), (r.1, r.2 - 1)) else (.ok none, r)

/-- `Range<usize>::nth` (std). -/
def rangeNth (n : Nat) : M (Nat × Nat) (Option Nat) := fun r =>
  if r.1 + n < c.build.usizeLim ∧ r.1 + n < r.2 then (.ok (some (r.1 + n)), (r.1 + n + 1, r.2)) else (.ok none, (r.2, r.2))

/-- `.map(|x| self.v.get(x).unwrap())` (lines 1015, 1027, 1033, 1056, 1068, 1074). -/
def mapItem (o : Option Nat) : M (LV c.W × (Nat × Nat)) (Option α) :=
  match o with
  | some x => do
    let a ← onFst (get c x)
    let a ← M.unwrap a
    return some a
  | none => pure none

/-- `next` (lines 1014-1016, 1055-1057). -/
def next : M (LV c.W × (Nat × Nat)) (Option α) := do
  let o ← onSnd rangeNext
  mapItem c o

/-- `next_back` (lines 1032-1034, 1073-1075). -/
def nextBack : M (LV c.W × (Nat × Nat)) (Option α) := do
  let o ← onSnd rangeNextBack
  mapItem c o

/-- `nth` (lines 1026-1028, 1067-1069). -/
def nth (n : Nat) : M (LV c.W × (Nat × Nat)) (Option α) := do
  let o ← onSnd (rangeNth c n)
  mapItem c o

/-- `while let Some(x) = iter.next() { v.push(x) }`: `to_vec` (lines 661-666) and `Into<Vec<T>>` (lines 944-948). -/
def collect : Nat → M (LV c.W × (Nat × Nat)) (List α)
  | 0 => pure []
  | n + 1 => do
    match ← next c with
    | none => return []
    | some x => do
      let xs ← collect n
      return x :: xs

end Access
end EnumVecModel
