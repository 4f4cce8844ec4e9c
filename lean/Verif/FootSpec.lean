import Verif.PanicSpec

/-!
# Exactly how much memory

What every call does to the storage of the vectors: blocks in use and capacity in blocks, from these, the lengths and the sizes of the arguments
alone. The first component of a result is `false` if memory is refused (by the allocator, or because a length exceeds `usize`).
-/

namespace EnumVecModel
open EV

variable {α τ : Type}

/-- The storage of a vector. -/
structure Foot where
  blocks : Nat
  cap : Nat
  deriving DecidableEq, Repr

def EV.foot {W : Nat} (s : EV W) : Foot := ⟨s.storage.data.length, s.storage.cap⟩

namespace Foot

/-- Make room for `n` blocks. -/
def room (a : Alloc) (n : Nat) (f : Foot) : Bool × Foot :=
  if n ≤ f.cap then (true, f)
  else match a.grow f.cap n with
    | some k => (true, { f with cap := k })
    | none => (false, f)

/-- Use exactly `n` blocks. -/
def use (a : Alloc) (n : Nat) (f : Foot) : Bool × Foot :=
  if n ≤ f.blocks then (true, { f with blocks := n })
  else match room a n f with
    | (true, f) => (true, { f with blocks := n })
    | (false, f) => (false, f)

/-- One after the other, unless memory is refused. -/
def andThen (r : Bool × Foot) (g : Foot → Bool × Foot) : Bool × Foot :=
  match r with
  | (true, f) => g f
  | (false, f) => (false, f)

/-- Drop the blocks that `len` elements do not need. -/
def fix (c : Inst α) (len : Nat) (f : Foot) : Foot := { f with blocks := min (c.blocks len) f.blocks }

/-- `reserve(n)`: one block more than is needed if the length will be a multiple; blocks may be dropped as well. At the limit (one element per
block, and a total of `usize::MAX` elements) a debug build panics, and a release build drops all blocks. -/
def reserve (c : Inst α) (len n : Nat) (f : Foot) : Bool × Foot :=
  if c.AtLimit (len + n) then (true, if c.build.checked then f else { f with blocks := 0 })
  else if len + n < c.build.usizeLim then use c.alloc ((len + n) / c.epb + 1) f else (false, f)

/-- `push`: a block is added if all are full. -/
def push (c : Inst α) (len : Nat) (f : Foot) : Bool × Foot :=
  if len = f.blocks * c.epb then use c.alloc (f.blocks + 1) f else (true, f)

/-- `n` times `push`. -/
def pushes (c : Inst α) : (n len : Nat) → Foot → Bool × Foot
  | 0, _, f => (true, f)
  | n + 1, len, f => andThen (push c len f) (pushes c n (len + 1))

/-- `extend` from an iterator that promises `hint` elements and yields `n`. -/
def extend (c : Inst α) (len hint n : Nat) (f : Foot) : Bool × Foot :=
  if c.AtLimit (len + hint) then reserve c len hint f
  else andThen (reserve c len hint f) (pushes c (n - hint) (len + hint))

/-- `k` times `n` blocks more. -/
def fill (a : Alloc) (n : Nat) : (k : Nat) → Foot → Bool × Foot
  | 0, f => (true, f)
  | k + 1, f => andThen (use a (f.blocks + n) f) (fill a n k)

/-- `n` elements more, all the same: up to four blocks of them one by one. Otherwise the last block is filled up (or a block of elements is
added), then `m` whole blocks are needed, but `m * m` are added, then the rest is added, and the storage is cut. -/
def repeated (c : Inst α) (len n : Nat) (f : Foot) : Bool × Foot :=
  if n ≤ 4 * c.epb then extend c len n n f
  else
    let first := c.epb - len % c.epb
    let m := (n - first) / c.epb
    let last := (n - first) % c.epb
    andThen (extend c len first first f) fun f =>
    let f := fix c (len + first) f
    andThen (room c.alloc (f.blocks + (m + if 0 < last then 1 else 0)) f) fun f =>
    andThen (fill c.alloc m m f) fun f =>
    extend c (len + first + m * c.epb) last last f

/-- `append` of `k` elements with storage `g` to `n` elements with storage `f`. If the receiver has only full blocks, the blocks are copied (those
of a `Vec` are taken from the argument); otherwise the elements are. -/
def append (c : Inst α) (n k : Nat) (f g : Foot) : Bool × Foot × Foot :=
  if n % c.epb = 0 then
    match room c.alloc ((fix c n f).blocks + (fix c k g).blocks) (fix c n f) with
    | (true, a) => (true, { a with blocks := a.blocks + (fix c k g).blocks }, if c.small then fix c k g else { fix c k g with blocks := 0 })
    | (false, a) => (false, a, fix c k g)
  else ((reserve c n k f).1, (reserve c n k f).2, g)

/-- A fresh vector. -/
def fresh (c : Inst α) : Foot := ⟨0, c.alloc.fresh⟩

/-- Memory for `n` blocks of which `b` are used. -/
def exact (a : Alloc) (n b : Nat) : Bool × Foot :=
  match a.exact n with
  | some k => (true, ⟨b, k⟩)
  | none => (false, ⟨0, 0⟩)

/-- Assign the vector that has been made to `r`, unless memory was refused. -/
def assign (F : Nat → Foot) (r : Nat) (p : Bool × Foot) : Bool × (Nat → Foot) := (p.1, if p.1 then upd F r p.2 else F)

/-- A method of `r`. -/
def on (F : Nat → Foot) (r : Nat) (g : Foot → Bool × Foot) : Bool × (Nat → Foot) := ((g (F r)).1, upd F r (g (F r)).2)

/-- The number of blocks `with_capacity(n)` and `split_off` ask for (`usize` addition saturates). -/
def wanted (c : Inst α) (n : Nat) : Nat := min (n + (c.epb - 1)) (c.build.usizeLim - 1) / c.epb

/-- One call, on vectors of these lengths and with this storage. -/
def step (c : Inst α) (len : Nat → Nat) (F : Nat → Foot) : Op τ α → Bool × (Nat → Foot)
  | .new r => (true, upd F r (fresh c))
  | .withCapacity r n => assign F r (exact c.alloc (wanted c n) 0)
  | .fromElem r _ n => assign F r (repeated c 0 n (fresh c))
  | .fromVec r xs | .fromSlice r xs => if c.AtLimit xs.length then (true, F) else assign F r (extend c 0 xs.length xs.length (fresh c))
  -- dropped if the iterator panics or breaks its promise
  | .fromIter r it =>
    if c.AtLimit it.hint ∨ it.panics = true ∨ it.items.length < it.hint then ((extend c 0 it.hint it.items.length (fresh c)).1, F)
    else assign F r (extend c 0 it.hint it.items.length (fresh c))
  | .clone r src => assign F r (exact c.alloc (F src).blocks (F src).blocks)
  | .push r _ | .insert r _ _ => on F r (push c (len r))
  | .resize r n _ => if len r < n then on F r (repeated c (len r) (n - len r)) else (true, F)
  | .reserve r n => on F r (reserve c (len r) n)
  | .shrinkToFit r => on F r fun f => (true, ⟨(fix c (len r) f).blocks, c.alloc.shrinkTo f.cap (fix c (len r) f).blocks⟩)
  | .extend r it => on F r (extend c (len r) it.hint it.items.length)
  | .append r o =>
    let p := append c (len r) (len o) (F r) (F o)
    (p.1, upd (upd F r p.2.1) o p.2.2)
  -- memory for the new vector is asked for; only if it is empty there is a new vector
  | .splitOff r at_ d =>
    if at_ ≤ len r then
      let p := exact c.alloc (wanted c (len r - at_)) 0
      if at_ = len r then assign F d p else (p.1, F)
    else (true, F)
  | _ => (true, F)

/-- A history on vectors of these numbers and with this storage, up to the first call that is refused memory. -/
def run (c : Inst α) : List (Op τ α) → Vecs Nat τ → (Nat → Foot) → Bool × (Nat → Foot)
  | [], _, F => (true, F)
  | o :: os, v, F =>
    match step c (fun r => (v.reg r).length) F o with
    | (true, F') => run c os (numStep c.E v o).2 F'
    | (false, F') => (false, F')

end Foot

/-- The storage of all vectors. -/
def Mem.foots {c : Inst α} (m : Mem c τ) : Nat → Foot := fun r => (m.reg r).foot

/-- The lengths of all vectors. -/
def Mem.lens {c : Inst α} (m : Mem c τ) : Nat → Nat := fun r => EV.len c (m.reg r)

end EnumVecModel
