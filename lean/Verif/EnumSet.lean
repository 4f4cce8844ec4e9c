import Verif.EnumLike

/-!
# `EnumSet` (`enum_set/src/lib.rs`)

`EnumSet<E>` is a newtype around `bit_set::BitSet`, a dependency whose source is not in the repository. The model is
parametric in an implementation of the `BitSet` operations; the theorems assume only that it implements sets of numbers (`BitSet.Lawful`).
An iterator of `bit-set` is represented by the list of numbers it still has to yield. Allocation failure is not modelled.
-/

namespace EnumVecModel
namespace ESet

/-- The operations of `bit_set::BitSet` that `EnumSet` calls. -/
structure BitSet (σ : Type) where
  new : σ
  insert : σ → Nat → Bool × σ
  remove : σ → Nat → Bool × σ
  contains : σ → Nat → Bool
  clear : σ → σ
  shrinkToFit : σ → σ
  len : σ → Nat
  isEmpty : σ → Bool
  isDisjoint : σ → σ → Bool
  isSubset : σ → σ → Bool
  isSuperset : σ → σ → Bool
  unionWith : σ → σ → σ
  intersectWith : σ → σ → σ
  differenceWith : σ → σ → σ
  symmetricDifferenceWith : σ → σ → σ
  iter : σ → List Nat
  union : σ → σ → List Nat
  intersection : σ → σ → List Nat
  difference : σ → σ → List Nat
  symmetricDifference : σ → σ → List Nat
  /-- `PartialEq` -/
  eq : σ → σ → Bool
  /-- `Ord` (and `PartialOrd`) -/
  cmp : σ → σ → Ordering
  /-- `Hash`: what is fed to the hasher -/
  hash : σ → List Nat

/-- `struct EnumSet<E>` (enum_set/src/lib.rs:25-29): the inner `BitSet` (the type `E` is a phantom). -/
structure EnumSet (σ : Type) where
  inner : σ

variable {σ α : Type} (B : BitSet σ) (E : EnumLike α)

/-- `into_bit_set`, `get_ref` (lines 33-41). -/
def intoBitSet (s : EnumSet σ) : σ := s.inner

/-- `from_bit_set` (lines 43-49). -/
def fromBitSet (b : σ) : EnumSet σ := ⟨b⟩

/-- `new`, `default` (lines 51-58, 166-170). -/
def new : EnumSet σ := ⟨B.new⟩

/-- `shrink_to_fit` (lines 60-63). -/
def shrinkToFit (s : EnumSet σ) : EnumSet σ := ⟨B.shrinkToFit s.inner⟩

/-- `union_with` (lines 98-101). -/
def unionWith (s t : EnumSet σ) : EnumSet σ := ⟨B.unionWith s.inner t.inner⟩
/-- `intersect_with` (lines 103-106). -/
def intersectWith (s t : EnumSet σ) : EnumSet σ := ⟨B.intersectWith s.inner t.inner⟩
/-- `difference_with` (lines 108-111). -/
def differenceWith (s t : EnumSet σ) : EnumSet σ := ⟨B.differenceWith s.inner t.inner⟩
/-- `symmetric_difference_with` (lines 113-116). -/
def symmetricDifferenceWith (s t : EnumSet σ) : EnumSet σ := ⟨B.symmetricDifferenceWith s.inner t.inner⟩

/-- `len` (lines 118-121). -/
def len (s : EnumSet σ) : Nat := B.len s.inner
/-- `is_empty` (lines 123-126). -/
def isEmpty (s : EnumSet σ) : Bool := B.isEmpty s.inner
/-- `clear` (lines 128-131). -/
def clear (s : EnumSet σ) : EnumSet σ := ⟨B.clear s.inner⟩

/-- `contains` (lines 133-137). -/
def contains (s : EnumSet σ) (a : α) : Bool := B.contains s.inner (E.toDiscr a)

/-- `is_disjoint` (lines 139-142). -/
def isDisjoint (s t : EnumSet σ) : Bool := B.isDisjoint s.inner t.inner
/-- `is_subset` (lines 144-147). -/
def isSubset (s t : EnumSet σ) : Bool := B.isSubset s.inner t.inner
/-- `is_superset` (lines 149-152). -/
def isSuperset (s t : EnumSet σ) : Bool := B.isSuperset s.inner t.inner

/-- `insert` (lines 154-158). -/
def insert (s : EnumSet σ) (a : α) : Bool × EnumSet σ :=
  ((B.insert s.inner (E.toDiscr a)).1, ⟨(B.insert s.inner (E.toDiscr a)).2⟩)

/-- `remove` (lines 160-164). -/
def remove (s : EnumSet σ) (a : α) : Bool × EnumSet σ :=
  ((B.remove s.inner (E.toDiscr a)).1, ⟨(B.remove s.inner (E.toDiscr a)).2⟩)

/-- `extend` (lines 180-186): `for i in iter { self.insert(i); }`. -/
def extend : EnumSet σ → List α → EnumSet σ
  | s, [] => s
  | s, a :: as => extend (insert B E s a).2 as

/-- `from_iter` (lines 172-178). -/
def fromIter (as : List α) : EnumSet σ := extend B E (new B) as

/-- `#[derive(PartialEq)]` (line 25). -/
def eq (s t : EnumSet σ) : Bool := B.eq s.inner t.inner

/-- `#[derive(PartialOrd, Ord)]` (line 25): the comparison of the inner sets; the phantom field is always equal. -/
def cmp (s t : EnumSet σ) : Ordering := B.cmp s.inner t.inner

/-- `#[derive(Hash)]` (line 25): the hash of the inner set; the phantom field feeds nothing. -/
def hash (s : EnumSet σ) : List Nat := B.hash s.inner

/-- `#[derive(Clone)]` (line 25). -/
def clone (s : EnumSet σ) : EnumSet σ := ⟨s.inner⟩

/-- `WrapIter` (lines 196-202): the inner iterator (the numbers it still has to yield). -/
structure WrapIter where
  inner : List Nat

/-- `WrapIter::next` (lines 223-225): the inner `next` mapped with `from_discr`; `badDiscr` if that panics (the inner iterator has
advanced then). -/
def next : M WrapIter (Option α) := fun it =>
  match it.inner with
  | [] => (.ok none, it)
  | x :: xs =>
    match E.fromDiscr x with
    | some a => (.ok (some a), ⟨xs⟩)
    | none => (.error .badDiscr, ⟨xs⟩)

/-- A `for` loop over a `WrapIter`, at most `n` steps: collects what `next` returns until `None`. -/
def collect : Nat → M WrapIter (List α)
  | 0 => pure []
  | n + 1 => do
    match ← next E with
    | some a => do
      let rest ← collect n
      return a :: rest
    | none => return []

/-- `iter`, `into_iter` (lines 65-68, 231-238). -/
def iter (s : EnumSet σ) : WrapIter := ⟨B.iter s.inner⟩
/-- `union` (lines 78-81). -/
def union (s t : EnumSet σ) : WrapIter := ⟨B.union s.inner t.inner⟩
/-- `intersection` (lines 83-86). -/
def intersection (s t : EnumSet σ) : WrapIter := ⟨B.intersection s.inner t.inner⟩
/-- `difference` (lines 88-91). -/
def difference (s t : EnumSet σ) : WrapIter := ⟨B.difference s.inner t.inner⟩
/-- `symmetric_difference` (lines 93-96). -/
def symmetricDifference (s t : EnumSet σ) : WrapIter := ⟨B.symmetricDifference s.inner t.inner⟩

end ESet
end EnumVecModel
