import Verif.EnumSet
import Verif.Hostile
import Verif.Debug

/-!
# `EnumSet` over an arbitrary implementation of `EnumLike` (`enum_set/src/lib.rs`)

`EnumSet.lean` models the element type by functions. Here the methods that call user code (`to_discr`, `from_discr`, the iterator given to `extend`, the `Debug` impl of the
elements) are modelled once more for arbitrary code, which may panic, have side effects and answer differently each time; the other methods are those of `EnumSet.lean`.
All user code shares one state, the `world`. A history is any sequence of calls of any public function, on any number of sets and live iterators; it goes on after a panic.
As in `EnumSet.lean`, allocation failure inside `bit-set` is not modelled.
-/

namespace EnumVecModel
namespace ESet
open EV (Closure DebugList onFst onSnd call)
open Hostile (Impl Iter)

variable {σ ω α : Type} (B : BitSet σ) (h : Impl ω α)

/-- `contains` (lines 133-137). -/
def containsCode (s : EnumSet σ) (a : α) : M ω Bool := fun w =>
  match h.toDiscr a w with
  | (some d, w) => (.ok (B.contains s.inner d), w)
  | (none, w) => (.error .user, w)

/-- `insert` (lines 154-158). -/
def insertCode (a : α) : M (EnumSet σ × ω) Bool := do
  let d ← call h.toDiscr a
  let p ← M.read
  let r := B.insert p.1.inner d
  M.write (⟨r.2⟩, p.2)
  return r.1

/-- `remove` (lines 160-164). -/
def removeCode (a : α) : M (EnumSet σ × ω) Bool := do
  let d ← call h.toDiscr a
  let p ← M.read
  let r := B.remove p.1.inner d
  M.write (⟨r.2⟩, p.2)
  return r.1

/-- `extend` (lines 180-186) with the first `n` items of an iterator: `for i in iter { self.insert(i); }`. The iterator keeps its state in the world. (`extend(iter)` that ends after
fewer than `n` items is `extend(iter.take(n))`; one that never ends has done this after `n` items.) -/
def extendCode (I : Iter ω Unit α) : Nat → M (EnumSet σ × ω) Unit
  | 0 => pure ()
  | n + 1 => do
    match ← call I.next () with
    | (none, _) => return ()
    | (some a, _) => do
      let _ ← insertCode B h a
      extendCode I n

/-- `WrapIter::next` (lines 223-225): `self.inner.next().map(|x| E::from_discr(x))`. -/
def nextCode : M (WrapIter × ω) (Option α) := fun p =>
  match p.1.inner with
  | [] => (.ok none, p)
  | x :: xs =>
    match h.fromDiscr x p.2 with
    | (some a, w) => (.ok (some a), (⟨xs⟩, w))
    | (none, w) => (.error .badDiscr, (⟨xs⟩, w))

/-- `for x in iter { f(x) }` over a `WrapIter`, at most `n` iterations. -/
def forCode (f : Closure ω α Unit) : Nat → M (WrapIter × ω) Unit
  | 0 => pure ()
  | n + 1 => do
    match ← nextCode h with
    | none => return ()
    | some x => do
      call f x
      forCode f n

/-- `impl Debug for EnumSet` (lines 188-192): `f.debug_set().entries(self.iter()).finish()`. `DebugSet` is any state machine that takes the entries one by one. -/
def fmtCode (D : DebugList ω α) (s : EnumSet σ) : M ω Bool := fun w =>
  match forCode h D.entry ((iter B s).inner.length + 1) (iter B s, D.start w) with
  | (.ok _, p) => (.ok (D.finish p.2).1, (D.finish p.2).2)
  | (.error e, p) => (.error e, p.2)

/-- The iterators: over one set or two. -/
inductive Walk
  | iter (r : Nat) | union (r q : Nat) | intersection (r q : Nat) | difference (r q : Nat) | symmetricDifference (r q : Nat)

/-- `s.iter()`, `s.union(&t)`, … (lines 65-96). -/
def Walk.open (R : Nat → EnumSet σ) : Walk → WrapIter
  | .iter r => ESet.iter B (R r)
  | .union r q => ESet.union B (R r) (R q)
  | .intersection r q => ESet.intersection B (R r) (R q)
  | .difference r q => ESet.difference B (R r) (R q)
  | .symmetricDifference r q => ESet.symmetricDifference B (R r) (R q)

/-- The calls. Sets are held in variables `r`, `q`, live iterators in variables `i`. -/
inductive Call (σ ω α : Type)
  | new (r : Nat)
  /-- `EnumSet::from_bit_set(b)`, for any `b` -/
  | fromBitSet (r : Nat) (b : σ)
  /-- `r.get_ref()`, `r.into_bit_set()` -/
  | getRef (r : Nat)
  /-- `iter.take(n).collect()` -/
  | collect (r : Nat) (I : Iter ω Unit α) (n : Nat)
  | clone (r q : Nat)
  | insert (r : Nat) (a : α)
  | remove (r : Nat) (a : α)
  | contains (r : Nat) (a : α)
  /-- `r.extend(iter.take(n))` -/
  | extend (r : Nat) (I : Iter ω Unit α) (n : Nat)
  | clear (r : Nat)
  | shrinkToFit (r : Nat)
  | len (r : Nat)
  | isEmpty (r : Nat)
  | unionWith (r q : Nat)
  | intersectWith (r q : Nat)
  | differenceWith (r q : Nat)
  | symmetricDifferenceWith (r q : Nat)
  | isDisjoint (r q : Nat)
  | isSubset (r q : Nat)
  | isSuperset (r q : Nat)
  | eq (r q : Nat)
  | cmp (r q : Nat)
  | hash (r : Nat)
  /-- create a live iterator -/
  | iterate (i : Nat) (v : Walk)
  /-- call `next` of a live iterator. (The borrow checker sees to it that its sets have not changed since.) -/
  | next (i : Nat)
  | debug (r : Nat) (D : DebugList ω α)

/-- What a call returns. -/
inductive Ret (α : Type)
  | unit
  | bool (b : Bool)
  | num (n : Nat)
  | ord (o : Ordering)
  /-- what is fed to the hasher -/
  | feed (l : List Nat)
  /-- a `BitSet`, as the list of its members -/
  | bits (l : List Nat)
  | item (x : Option α)
  | panic (e : Fault)
  deriving DecidableEq

/-- The memory of a program. -/
structure Store (σ ω : Type) where
  set : Nat → EnumSet σ
  iter : Nat → WrapIter
  world : ω

/-- Assign a variable. -/
def put {τ : Type} (f : Nat → τ) (r : Nat) (v : τ) : Nat → τ := fun i => if i = r then v else f i

/-- A value or a panic. -/
def Ret.of {β : Type} (out : β → Ret α) : Except Fault β → Ret α
  | .ok b => out b
  | .error e => .panic e

/-- One call. -/
def exec (m : Store σ ω) : Call σ ω α → Ret α × Store σ ω
  | .new r => (.unit, { m with set := put m.set r (new B) })
  | .fromBitSet r b => (.unit, { m with set := put m.set r (fromBitSet b) })
  | .getRef r => (.bits (B.iter (intoBitSet (m.set r))), m)
  | .collect r I n =>
    match extendCode B h I n (new B, m.world) with
    | (.ok _, p) => (.unit, { m with set := put m.set r p.1, world := p.2 })
    | (.error e, p) => (.panic e, { m with world := p.2 })
  | .clone r q => (.unit, { m with set := put m.set q (clone (m.set r)) })
  | .insert r a =>
    let p := insertCode B h a (m.set r, m.world)
    (.of .bool p.1, { m with set := put m.set r p.2.1, world := p.2.2 })
  | .remove r a =>
    let p := removeCode B h a (m.set r, m.world)
    (.of .bool p.1, { m with set := put m.set r p.2.1, world := p.2.2 })
  | .contains r a =>
    let p := containsCode B h (m.set r) a m.world
    (.of .bool p.1, { m with world := p.2 })
  | .extend r I n =>
    let p := extendCode B h I n (m.set r, m.world)
    (.of (fun _ => .unit) p.1, { m with set := put m.set r p.2.1, world := p.2.2 })
  | .clear r => (.unit, { m with set := put m.set r (clear B (m.set r)) })
  | .shrinkToFit r => (.unit, { m with set := put m.set r (shrinkToFit B (m.set r)) })
  | .len r => (.num (len B (m.set r)), m)
  | .isEmpty r => (.bool (isEmpty B (m.set r)), m)
  | .unionWith r q => (.unit, { m with set := put m.set r (unionWith B (m.set r) (m.set q)) })
  | .intersectWith r q => (.unit, { m with set := put m.set r (intersectWith B (m.set r) (m.set q)) })
  | .differenceWith r q => (.unit, { m with set := put m.set r (differenceWith B (m.set r) (m.set q)) })
  | .symmetricDifferenceWith r q => (.unit, { m with set := put m.set r (symmetricDifferenceWith B (m.set r) (m.set q)) })
  | .isDisjoint r q => (.bool (isDisjoint B (m.set r) (m.set q)), m)
  | .isSubset r q => (.bool (isSubset B (m.set r) (m.set q)), m)
  | .isSuperset r q => (.bool (isSuperset B (m.set r) (m.set q)), m)
  | .eq r q => (.bool (eq B (m.set r) (m.set q)), m)
  | .cmp r q => (.ord (cmp B (m.set r) (m.set q)), m)
  | .hash r => (.feed (hash B (m.set r)), m)
  | .iterate i v => (.unit, { m with iter := put m.iter i (v.open B m.set) })
  | .next i =>
    let p := nextCode h (m.iter i, m.world)
    (.of .item p.1, { m with iter := put m.iter i p.2.1, world := p.2.2 })
  | .debug r D =>
    let p := fmtCode B h D (m.set r) m.world
    (.of .bool p.1, { m with world := p.2 })

/-- A history. -/
def execAll : List (Call σ ω α) → Store σ ω → List (Ret α) × Store σ ω
  | [], m => ([], m)
  | o :: os, m => ((exec B h m o).1 :: (execAll os (exec B h m o).2).1, (execAll os (exec B h m o).2).2)

/-- The start of a program: all variables new, all iterators at their end. -/
def Store.start (w : ω) : Store σ ω := ⟨fun _ => new B, fun _ => ⟨[]⟩, w⟩

end ESet
end EnumVecModel
