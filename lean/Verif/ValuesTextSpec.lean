import Verif.Source.LikeEval
import Verif.EnumLikeSpec

/-! Specification for property C91: histories of calls on iterators `T::values()`, on lists and by the text. -/

namespace EnumVecModel
open Source Source.Like EnumLike

variable {α β : Type}

/-- The calls: `r = T::values()`; `s = r` (the iterator is `Copy`); a call on the iterator `r`. -/
inductive IterCall
  | values (r : Nat)
  | copy (r s : Nat)
  | on (r : Nat) (o : ValOp)

/-- Assign to a variable. -/
def setVar {γ : Type} (f : Nat → γ) (r : Nat) (x : γ) : Nat → γ := fun k => if k = r then x else f k

/-- One call, on lists of the values that are still to come; `vals` are all values. -/
def listCall (vals : List α) (l : Nat → List α) : IterCall → Option (ValOut α) × (Nat → List α)
  | .values r => (none, setVar l r vals)
  | .copy r s => (none, setVar l s (l r))
  | .on r o => (some (valSpec (l r) o).1, setVar l r (valSpec (l r) o).2)

/-- A history of calls on lists. -/
def listCalls (vals : List α) : List IterCall → (Nat → List α) → List (Option (ValOut α)) × (Nat → List α)
  | [], l => ([], l)
  | c :: cs, l => ((listCall vals l c).1 :: (listCalls vals cs (listCall vals l c).2).1, (listCalls vals cs (listCall vals l c).2).2)

/-- `None` or `Some(a)`. -/
def itemOf : LV α β → Option (Option α)
  | .ctor0 .None => some none
  | .ctor .Some (.T a) => some (some a)
  | _ => none

/-- A size hint. -/
def hintOf : LV α β → Option (ValOut α)
  | .tup (.num a) (.ctor0 .None) => some (.hint a none)
  | .tup (.num a) (.ctor .Some (.num b)) => some (.hint a (some b))
  | _ => none

/-- A number. -/
def numOf : LV α β → Option (ValOut α)
  | .num n => some (.num n)
  | _ => none

/-- A call by the text of `impl Iterator for Values<T>` (enum_like/src/lib.rs:596-643): what it returns and the iterator afterwards. `size_hint` has `&self`, and `count` and `last` consume a copy. -/
def textOn (τ : Types α β) (s : LV α β) : ValOp → R (ValOut α × LV α β)
  | .next => (i_iterator.run τ 1 .next [s]).bind fun (v, s') => (itemOf v).map fun x => .ok (.item x, s')
  | .nth n => (i_iterator.run τ 2 .nth [s, .num n]).bind fun (v, s') => (itemOf v).map fun x => .ok (.item x, s')
  | .sizeHint => (i_iterator.run τ 1 .size_hint [s]).bind fun (v, _) => (hintOf v).map fun x => .ok (x, s)
  | .count => (i_iterator.run τ 1 .count [s]).bind fun (v, _) => (numOf v).map fun x => .ok (x, s)
  | .last => (i_iterator.run τ 2 .last [s]).bind fun (v, _) => (itemOf v).map fun x => .ok (.item x, s)

/-- One call, by the texts; `values()` is `Values::of()` (enum_like/src/lib.rs:564-570, 586-594). -/
def textIter (τ : Types α β) (f : Nat → LV α β) : IterCall → R (Option (ValOut α) × (Nat → LV α β))
  | .values r => (i_values.run τ 1 .of []).bind fun (s, _) => some (.ok (none, setVar f r s))
  | .copy r s => some (.ok (none, setVar f s (f r)))
  | .on r o => (textOn τ (f r) o).bind fun (x, s) => some (.ok (some x, setVar f r s))

/-- A history of calls, by the texts; a panic ends it. -/
def textIters (τ : Types α β) : List IterCall → (Nat → LV α β) → R (List (Option (ValOut α)) × (Nat → LV α β))
  | [], f => some (.ok ([], f))
  | c :: cs, f => (textIter τ f c).bind fun (x, f) => (textIters τ cs f).bind fun (xs, f) => some (.ok (x :: xs, f))

end EnumVecModel
