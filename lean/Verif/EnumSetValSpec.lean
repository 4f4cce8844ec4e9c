import Verif.EnumSetCodeSpec
import Verif.EnumLikeSpec

/-!
# Specification of `EnumSet`: sets of values

A set of values is a predicate; `vals` is the list of all values of the type, in the order of their numbers. The iterators, the formatters and their side effects are arbitrary.
-/

namespace EnumVecModel
namespace ESet
open EV (DebugList)
open Hostile (Iter)

variable {σ ω α : Type}

/-- Sets of values, iterators as the values still to come, and the world. -/
structure Vals (ω α : Type) where
  set : Nat → α → Bool
  iter : Nat → List α
  world : ω

/-- The values of an iterator over sets of values. -/
def Walk.vals (S : Nat → α → Bool) (a : α) : Walk → Bool
  | .iter r => S r a
  | .union r q => S r a || S q a
  | .intersection r q => S r a && S q a
  | .difference r q => S r a && !S q a
  | .symmetricDifference r q => S r a != S q a

variable [DecidableEq α]

/-- Inserting the first `n` items of an iterator. `false` = the iterator panicked; what was inserted before stays. -/
def extendVals (I : Iter ω Unit α) : Nat → (α → Bool) → ω → Bool × (α → Bool) × ω
  | 0, s, w => (true, s, w)
  | n + 1, s, w =>
    match I.next () w with
    | (none, w) => (false, s, w)
    | (some (none, _), w) => (true, s, w)
    | (some (some a, _), w) => extendVals I n (fun b => b = a || s b) w

omit [DecidableEq α] in
/-- Giving values to a formatter, one by one. -/
def fmtVals (D : DebugList ω α) : List α → ω → Ret α × ω
  | [], w => (.bool (D.finish w).1, (D.finish w).2)
  | a :: l, w =>
    match D.entry a w with
    | (none, w) => (.panic .user, w)
    | (some _, w) => fmtVals D l w

/-- One call on sets of values. `num` numbers the values, `members` lists the members of a `BitSet`, `feed` is what a set of numbers feeds to a hasher. -/
def valCall (vals : List α) (num : α → Nat) (members : σ → List Nat) (feed : List Nat → List Nat) (v : Vals ω α) : Call σ ω α → Ret α × Vals ω α
  | .new r => (.unit, { v with set := put v.set r fun _ => false })
  | .fromBitSet r b => (.unit, { v with set := put v.set r fun a => (members b).contains (num a) })
  | .getRef r => (.bits ((vals.filter (v.set r)).map num), v)
  | .collect r I n =>
    match extendVals I n (fun _ => false) v.world with
    | (true, s, w) => (.unit, { v with set := put v.set r s, world := w })
    | (false, _, w) => (.panic .user, { v with world := w })
  | .clone r q => (.unit, { v with set := put v.set q (v.set r) })
  | .insert r a => (.bool !v.set r a, { v with set := put v.set r fun b => b = a || v.set r b })
  | .remove r a => (.bool (v.set r a), { v with set := put v.set r fun b => b ≠ a && v.set r b })
  | .contains r a => (.bool (v.set r a), v)
  | .extend r I n =>
    match extendVals I n (v.set r) v.world with
    | (true, s, w) => (.unit, { v with set := put v.set r s, world := w })
    | (false, s, w) => (.panic .user, { v with set := put v.set r s, world := w })
  | .clear r => (.unit, { v with set := put v.set r fun _ => false })
  | .shrinkToFit _ => (.unit, v)
  | .len r => (.num (vals.countP (v.set r)), v)
  | .isEmpty r => (.bool (vals.all fun a => !v.set r a), v)
  | .unionWith r q => (.unit, { v with set := put v.set r fun a => v.set r a || v.set q a })
  | .intersectWith r q => (.unit, { v with set := put v.set r fun a => v.set r a && v.set q a })
  | .differenceWith r q => (.unit, { v with set := put v.set r fun a => v.set r a && !v.set q a })
  | .symmetricDifferenceWith r q => (.unit, { v with set := put v.set r fun a => v.set r a != v.set q a })
  | .isDisjoint r q => (.bool (vals.all fun a => !(v.set r a && v.set q a)), v)
  | .isSubset r q => (.bool (vals.all fun a => !v.set r a || v.set q a), v)
  | .isSuperset r q => (.bool (vals.all fun a => v.set r a || !v.set q a), v)
  | .eq r q => (.bool (vals.all fun a => v.set r a == v.set q a), v)
  | .cmp r q => (.ord (compare ((vals.filter (v.set r)).map num) ((vals.filter (v.set q)).map num)), v)
  | .hash r => (.feed (feed ((vals.filter (v.set r)).map num)), v)
  | .iterate i g => (.unit, { v with iter := put v.iter i (vals.filter fun a => g.vals v.set a) })
  | .next i => (.item (v.iter i).head?, { v with iter := put v.iter i (v.iter i).tail })
  | .debug r D => ((fmtVals D (vals.filter (v.set r)) (D.start v.world)).1, { v with world := (fmtVals D (vals.filter (v.set r)) (D.start v.world)).2 })

/-- A history on sets of values. -/
def valCalls (vals : List α) (num : α → Nat) (members : σ → List Nat) (feed : List Nat → List Nat) : List (Call σ ω α) → Vals ω α → List (Ret α) × Vals ω α
  | [], v => ([], v)
  | c :: cs, v =>
    ((valCall vals num members feed v c).1 :: (valCalls vals num members feed cs (valCall vals num members feed v c).2).1,
     (valCalls vals num members feed cs (valCall vals num members feed v c).2).2)

omit [DecidableEq α] in
/-- The start: all sets empty. -/
def Vals.start (w : ω) : Vals ω α := ⟨fun _ _ => false, fun _ => [], w⟩

/-- `from_bit_set` is only given sets of numbers of values. -/
def Call.Valid (members : σ → List Nat) (n : Nat) : Call σ ω α → Prop
  | .fromBitSet _ b => ∀ x ∈ members b, x < n
  | _ => True

end ESet
end EnumVecModel
