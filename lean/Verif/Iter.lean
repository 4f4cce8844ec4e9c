import Verif.EnumVec

/-!
# Iterators of `EnumVec`, conversions to `Vec` (`enum_vec/src/vec_u32/mod.rs`)

`EnumVecIter` (lines 1006-1038, borrows the vector) and `EnumVecIntoIter` (lines 1047-1079, owns it) have the same
fields and textually the same methods, so there is one model. The vector is part of the state because `get` is a
method of it; it is never changed (a theorem, not an assumption).
-/

namespace EnumVecModel
namespace EV
variable {α : Type} (c : Inst α)

/-- `struct EnumVecIter`/`EnumVecIntoIter` (lines 1006-1009, 1047-1050): vector and `range: Range<usize>`. -/
structure It (W : Nat) where
  v : EV W
  /-- `range.start` -/
  lo : Nat
  /-- `range.end` -/
  hi : Nat
  deriving DecidableEq, Repr

/-- `into_iter` / `iter` (lines 608-610, 954-961, 967-974): `range: 0..len`. -/
def iter (s : EV c.W) : It c.W := ⟨s, 0, len c s⟩

/-- The closure `|x| self.v.get(x).unwrap()` (lines 1015, 1027, 1033, 1056, 1068, 1074). -/
def item (x : Nat) : M (It c.W) α := fun t =>
  match EV.get c x t.v with
  | (.ok (some a), v) => (.ok a, { t with v := v })
  | (.ok none, v) => (.error .unwrapNone, { t with v := v })
  | (.error e, v) => (.error e, { t with v := v })

/-- `Option::map` with a closure that may panic. -/
def mapItem (o : Option Nat) : M (It c.W) (Option α) :=
  match o with
  | some x => do
    let a ← item c x
    return some a
  | none => pure none

/-- `Range<usize>::next` (std). -/
def rangeNext (t : It c.W) : Option Nat × It c.W :=
  if t.lo < t.hi then (some t.lo, { t with lo := t.lo + 1 }) else (none, t)

/-- `Range<usize>::next_back` (std). -/
def rangeNextBack (t : It c.W) : Option Nat × It c.W :=
  if t.lo < t.hi then (some (t.hi - 1), { t with hi := t.hi - 1 }) else (none, t)

/-- `Range<usize>::nth` (std): `start.checked_add(n)` below `end`, otherwise the range becomes empty. -/
def rangeNth (n : Nat) (t : It c.W) : Option Nat × It c.W :=
  if t.lo + n < c.build.usizeLim ∧ t.lo + n < t.hi then (some (t.lo + n), { t with lo := t.lo + n + 1 })
  else (none, { t with lo := t.hi })

/-- `next` (lines 1014-1016, 1055-1057). -/
def next : M (It c.W) (Option α) := fun t => mapItem c (rangeNext c t).1 (rangeNext c t).2

/-- `next_back` (lines 1032-1034, 1073-1075). -/
def nextBack : M (It c.W) (Option α) := fun t => mapItem c (rangeNextBack c t).1 (rangeNextBack c t).2

/-- `nth` (lines 1026-1028, 1067-1069). -/
def nth (n : Nat) : M (It c.W) (Option α) := fun t => mapItem c (rangeNth c n t).1 (rangeNth c n t).2

/-- `size_hint` (lines 1018-1020, 1059-1061): `Range::size_hint`. -/
def sizeHint (t : It c.W) : Nat × Option Nat := (t.hi - t.lo, some (t.hi - t.lo))

/-- `count` (lines 1022-1024, 1063-1065): `self.size_hint().0`. -/
def count (t : It c.W) : Nat := (sizeHint c t).1

/-- `while let Some(x) = iter.next() { v.push(x) }`, what `Vec::extend` does with the iterator. The number bounds
the iterations; theorem `C21_collect` holds for every bound above the number of elements. -/
def collect : Nat → M (It c.W) (List α)
  | 0 => pure []
  | n + 1 => do
    match ← next c with
    | none => return []
    | some x => do
      let xs ← collect n
      return x :: xs

/-- `to_vec` (lines 661-666) and `Into<Vec<T>>` (lines 944-948). Allocation failure of the result `Vec` is not
modelled. -/
def toVec (s : EV c.W) : Except Fault (List α) := (collect c (len c s + 1) (iter c s)).1

end EV
end EnumVecModel
