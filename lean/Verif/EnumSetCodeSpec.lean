import Verif.EnumSetCode
import Verif.EnumSetSpec

/-!
# Specification of `EnumSet` over arbitrary user code: sets of numbers

A set of numbers is written as the increasing list of its members. The specification says for every call what it returns, what it does to the sets, and
which user code it calls, in which order.
-/

namespace EnumVecModel
namespace ESet
open EV (Closure DebugList)
open Hostile (Impl Iter)

/-- The set of the numbers in a list: increasing, without duplicates. -/
def setOf (xs : List Nat) : List Nat := (List.range (xs.foldr max 0 + 1)).filter fun x => xs.contains x

variable {σ ω α : Type}

/-- Sets of numbers, iterators as the numbers still to come, and the world. -/
structure Nums (ω : Type) where
  set : Nat → List Nat
  iter : Nat → List Nat
  world : ω

/-- The numbers of an iterator over sets of numbers. -/
def Walk.nums (S : Nat → List Nat) : Walk → List Nat
  | .iter r => S r
  | .union r q => setOf (S r ++ S q)
  | .intersection r q => (S r).filter fun x => (S q).contains x
  | .difference r q => (S r).filter fun x => !(S q).contains x
  | .symmetricDifference r q => (setOf (S r ++ S q)).filter fun x => !((S r).contains x && (S q).contains x)

/-- Inserting the first `n` items of an iterator, one by one: the numbers are those that `to_discr` answers. `false` = a panic, of the iterator or of `to_discr`;
what was inserted before stays. -/
def extendNums (h : Impl ω α) (I : Iter ω Unit α) : Nat → List Nat → ω → Bool × List Nat × ω
  | 0, s, w => (true, s, w)
  | n + 1, s, w =>
    match I.next () w with
    | (none, w) => (false, s, w)
    | (some (none, _), w) => (true, s, w)
    | (some (some a, _), w) =>
      match h.toDiscr a w with
      | (none, w) => (false, s, w)
      | (some d, w) => extendNums h I n (setOf (d :: s)) w

/-- Giving the values of the numbers to a formatter, one by one. -/
def fmtNums (h : Impl ω α) (D : DebugList ω α) : List Nat → ω → Ret α × ω
  | [], w => (.bool (D.finish w).1, (D.finish w).2)
  | x :: xs, w =>
    match h.fromDiscr x w with
    | (none, w) => (.panic .badDiscr, w)
    | (some a, w) =>
      match D.entry a w with
      | (none, w) => (.panic .user, w)
      | (some _, w) => fmtNums h D xs w

/-- Ask `to_discr`, then act on the number; a panic has no other effect. -/
def withNum (h : Impl ω α) (v : Nums ω) (a : α) (f : Nat → ω → Ret α × Nums ω) : Ret α × Nums ω :=
  match h.toDiscr a v.world with
  | (some d, w) => f d w
  | (none, w) => (.panic .user, { v with world := w })

/-- One call on sets of numbers. `members` lists the members of a `BitSet`, `feed` is what a set feeds to a hasher. -/
def numCall (members : σ → List Nat) (feed : List Nat → List Nat) (h : Impl ω α) (v : Nums ω) : Call σ ω α → Ret α × Nums ω
  | .new r => (.unit, { v with set := put v.set r [] })
  | .fromBitSet r b => (.unit, { v with set := put v.set r (members b) })
  | .getRef r => (.bits (v.set r), v)
  | .collect r I n =>
    match extendNums h I n [] v.world with
    | (true, s, w) => (.unit, { v with set := put v.set r s, world := w })
    | (false, _, w) => (.panic .user, { v with world := w })
  | .clone r q => (.unit, { v with set := put v.set q (v.set r) })
  | .insert r a => withNum h v a fun d w => (.bool !(v.set r).contains d, { v with set := put v.set r (setOf (d :: v.set r)), world := w })
  | .remove r a => withNum h v a fun d w => (.bool ((v.set r).contains d), { v with set := put v.set r ((v.set r).filter (· ≠ d)), world := w })
  | .contains r a => withNum h v a fun d w => (.bool ((v.set r).contains d), { v with world := w })
  | .extend r I n =>
    match extendNums h I n (v.set r) v.world with
    | (true, s, w) => (.unit, { v with set := put v.set r s, world := w })
    | (false, s, w) => (.panic .user, { v with set := put v.set r s, world := w })
  | .clear r => (.unit, { v with set := put v.set r [] })
  | .shrinkToFit _ => (.unit, v)
  | .len r => (.num (v.set r).length, v)
  | .isEmpty r => (.bool (v.set r).isEmpty, v)
  | .unionWith r q => (.unit, { v with set := put v.set r ((Walk.union r q).nums v.set) })
  | .intersectWith r q => (.unit, { v with set := put v.set r ((Walk.intersection r q).nums v.set) })
  | .differenceWith r q => (.unit, { v with set := put v.set r ((Walk.difference r q).nums v.set) })
  | .symmetricDifferenceWith r q => (.unit, { v with set := put v.set r ((Walk.symmetricDifference r q).nums v.set) })
  | .isDisjoint r q => (.bool ((v.set r).all fun x => !(v.set q).contains x), v)
  | .isSubset r q => (.bool ((v.set r).all fun x => (v.set q).contains x), v)
  | .isSuperset r q => (.bool ((v.set q).all fun x => (v.set r).contains x), v)
  | .eq r q => (.bool (v.set r == v.set q), v)
  | .cmp r q => (.ord (compare (v.set r) (v.set q)), v)
  | .hash r => (.feed (feed (v.set r)), v)
  | .iterate i g => (.unit, { v with iter := put v.iter i (g.nums v.set) })
  | .next i =>
    match v.iter i with
    | [] => (.item none, v)
    | x :: xs =>
      match h.fromDiscr x v.world with
      | (some a, w) => (.item (some a), { v with iter := put v.iter i xs, world := w })
      | (none, w) => (.panic .badDiscr, { v with iter := put v.iter i xs, world := w })
  | .debug r D => ((fmtNums h D (v.set r) (D.start v.world)).1, { v with world := (fmtNums h D (v.set r) (D.start v.world)).2 })

/-- A history on sets of numbers. -/
def numCalls (members : σ → List Nat) (feed : List Nat → List Nat) (h : Impl ω α) : List (Call σ ω α) → Nums ω → List (Ret α) × Nums ω
  | [], v => ([], v)
  | o :: os, v =>
    ((numCall members feed h v o).1 :: (numCalls members feed h os (numCall members feed h v o).2).1, (numCalls members feed h os (numCall members feed h v o).2).2)

/-- The start: all sets empty. -/
def Nums.start (w : ω) : Nums ω := ⟨fun _ => [], fun _ => [], w⟩

end ESet
end EnumVecModel
