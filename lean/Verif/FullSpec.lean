import Verif.RealSpec
import Verif.FootSpec
import Verif.Recover

/-!
# What every call does, also if memory is refused

`Foot.step` (`FootSpec.lean`) says exactly which calls are refused memory. Here: how far they had come.
-/

namespace EnumVecModel
open EV

variable {α τ : Type}

namespace Foot

/-- How many of `n` elements are pushed before memory is refused. -/
def pushesDone (c : Inst α) : (n len : Nat) → Foot → Nat
  | 0, _, _ => 0
  | n + 1, len, f => if (push c len f).1 then pushesDone c n (len + 1) (push c len f).2 + 1 else 0

/-- How many elements `extend` has appended before memory is refused: none, or all the promised ones and some of the others. -/
def extendDone (c : Inst α) (len hint n : Nat) (f : Foot) : Nat :=
  if (reserve c len hint f).1 then hint + pushesDone c (n - hint) (len + hint) (reserve c len hint f).2 else 0

/-- How many of `n` equal elements are appended before memory is refused: if there are more than four blocks of them, none, or those that fill the last block, or also all whole blocks. -/
def repeatedDone (c : Inst α) (len n : Nat) (f : Foot) : Nat :=
  if n ≤ 4 * c.epb then 0
  else
    let first := c.epb - len % c.epb
    let m := (n - first) / c.epb
    let last := (n - first) % c.epb
    if (extend c len first first f).1 then
      let f := fix c (len + first) (extend c len first first f).2
      if (andThen (room c.alloc (f.blocks + (m + if 0 < last then 1 else 0)) f) (fill c.alloc m m)).1 then first + m * c.epb else first
    else 0

end Foot

/-- The numbers after a call that is refused memory: `extend` and `resize` may have appended the first of the new elements, all other calls have done nothing. -/
def refusedStep (c : Inst α) (m : Mem c τ) (v : Vecs Nat τ) : Op τ α → Vecs Nat τ
  | .extend r it => { v with reg := upd v.reg r (v.reg r ++ (it.items.take (Foot.extendDone c (v.reg r).length it.hint it.items.length (m.foots r))).map c.E.toDiscr) }
  | .resize r n x => { v with reg := upd v.reg r (v.reg r ++ List.replicate (Foot.repeatedDone c (v.reg r).length (n - (v.reg r).length) (m.foots r)) (c.E.toDiscr x)) }
  | _ => v

/-- One call, as it is, whether or not memory is refused. -/
def fullStep (c : Inst α) (m : Mem c τ) (v : Vecs Nat τ) (op : Op τ α) : Out α × Vecs Nat τ :=
  if (Foot.step c (fun r => (v.reg r).length) m.foots op).1 then realStep c m v op else (.oom, refusedStep c m v op)

/-- The same call with an allocator of its own. -/
def fullStepWith (c : Inst α) (m : Mem c τ) (v : Vecs Nat τ) (a : Alloc) (op : Op τ α) : Out α × Vecs Nat τ :=
  fullStep (c.withAlloc a) (⟨m.reg, m.world⟩ : Mem (c.withAlloc a) τ) v op

/-- A history in which each call has an allocator of its own, and which goes on after every panic and every refused request: the results, and the numbers at the end. -/
def fullRun (c : Inst α) : List (Alloc × Op τ α) → Mem c τ → Vecs Nat τ → List (Out α) × Vecs Nat τ
  | [], _, v => ([], v)
  | (a, o) :: os, m, v =>
    ((fullStepWith c m v a o).1 :: (fullRun c os (stepWith c m a o).2 (fullStepWith c m v a o).2).1, (fullRun c os (stepWith c m a o).2 (fullStepWith c m v a o).2).2)

/-- All calls of such a history are `Sane`. -/
def SaneFull (c : Inst α) : List (Alloc × Op τ α) → Mem c τ → Vecs Nat τ → Prop
  | [], _, _ => True
  | (a, o) :: os, m, v => Sane c v o ∧ SaneFull c os (stepWith c m a o).2 (fullStepWith c m v a o).2

end EnumVecModel
