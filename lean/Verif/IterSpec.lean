import Verif.Iter

/-!
# Specification of iteration

The iterator of a `Vec` is the list of the elements it still has to yield. `next` takes from the front, `next_back` from the
back, `nth(n)` drops `n` elements and takes the next one, `size_hint` is exact.
-/

namespace EnumVecModel
open EV

/-- The calls a user can make on an iterator (besides the consuming `count` and collecting). -/
inductive IterOp
  | next
  | nextBack
  | nth (n : Nat)
  | sizeHint

/-- What such a call returns. -/
inductive IterOut (α : Type)
  | item (x : Option α)
  | hint (lower : Nat) (upper : Option Nat)
  deriving DecidableEq

/-- One call on the iterator of a `Vec` that still has to yield `l`. -/
def iterSpec {α : Type} (l : List α) : IterOp → IterOut α × List α
  | .next => (.item l.head?, l.tail)
  | .nextBack => (.item l.getLast?, l.dropLast)
  | .nth n => (.item l[n]?, l.drop (n + 1))
  | .sizeHint => (.hint l.length (some l.length), l)

/-- A sequence of calls on the iterator of a `Vec`: all results, and what is still to be yielded. -/
def iterSpecRun {α : Type} : List IterOp → List α → List (IterOut α) × List α
  | [], l => ([], l)
  | o :: os, l => ((iterSpec l o).1 :: (iterSpecRun os (iterSpec l o).2).1, (iterSpecRun os (iterSpec l o).2).2)

variable {α : Type} {c : Inst α}

/-- One call on the modelled iterator. -/
def iterStep (c : Inst α) : IterOp → M (It c.W) (IterOut α)
  | .next => do return .item (← EV.next c)
  | .nextBack => do return .item (← EV.nextBack c)
  | .nth n => do return .item (← EV.nth c n)
  | .sizeHint => do
    let t ← M.read
    return .hint (EV.sizeHint c t).1 (EV.sizeHint c t).2

/-- A sequence of calls on the modelled iterator. -/
def iterRun (c : Inst α) : List IterOp → M (It c.W) (List (IterOut α))
  | [] => pure []
  | o :: os => do
    let r ← iterStep c o
    let rs ← iterRun c os
    return r :: rs

end EnumVecModel
