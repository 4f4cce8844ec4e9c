import Verif.EnumSet
import Verif.Live
import Verif.Debug

/-!
# `EnumSet` with live iterators, and its `Debug`

The iterators of `EnumSet` as arguments of `extend`/`collect` of `EnumVec`, any iterator (also those of `EnumVec` and `T::values()`) as argument of
`extend`/`collect` of `EnumSet`, `for` loops over the iterators of `EnumSet`, and `impl Debug for EnumSet`.
-/

namespace EnumVecModel
namespace ESet
open EV (Source Closure DebugList onFst onSnd call)

variable {σ τ α : Type} (B : BitSet σ) (E : EnumLike α)

/-- `WrapIter` as a live iterator: `next` (lines 223-225) and `size_hint` (lines 226-228). The hint is that of the inner iterator of `bit-set`, here any function
of the numbers it still has to yield. -/
def source (hint : List Nat → Nat) : Source WrapIter α := ⟨next E, fun it => .ok (hint it.inner)⟩

/-- `extend` (lines 180-186) with a live iterator, at most `n` calls of `next`; `true` = the loop has ended. -/
def extendLive (I : Source τ α) : Nat → M (EnumSet σ × τ) Bool
  | 0 => pure false
  | n + 1 => do
    match ← onSnd I.next with
    | none => return true
    | some a => do
      let _ ← onFst fun s => (.ok (insert B E s a).1, (insert B E s a).2)
      extendLive I n

/-- `from_iter` (lines 172-178) with a live iterator: the set is dropped on panic. The first component says that the loop has ended. -/
def collectLive (I : Source τ α) (n : Nat) (t : τ) : Except Fault (Bool × EnumSet σ) :=
  match extendLive B E I n (new B, t) with
  | (.ok ended, p) => .ok (ended, p.1)
  | (.error e, _) => .error e

/-- `for x in iter { f(x) }` over a `WrapIter`, at most `n` iterations. -/
def forWrap (f : Closure τ α Unit) : Nat → M (WrapIter × τ) Unit
  | 0 => pure ()
  | n + 1 => do
    match ← onFst (next E) with
    | none => return ()
    | some x => do
      call f x
      forWrap f n

/-- `impl Debug for EnumSet` (lines 188-192): `f.debug_set().entries(self.iter()).finish()`. `DebugSet` is part of std; like `DebugList` it is any state machine
that takes the entries one by one. -/
def fmt (D : DebugList τ α) (s : EnumSet σ) : M τ Bool := fun w =>
  match forWrap E D.entry ((iter B s).inner.length + 1) (iter B s, D.start w) with
  | (.ok _, p) => (.ok (D.finish p.2).1, (D.finish p.2).2)
  | (.error e, p) => (.error e, p.2)

/-- The five iterators over sets `s` and `t` (the first uses only `s`). -/
inductive View
  | iter | union | intersection | difference | symmetricDifference

/-- `s.iter()`, `s.union(&t)`, … (lines 65-96). -/
def View.of (s t : EnumSet σ) : View → WrapIter
  | .iter => ESet.iter B s
  | .union => ESet.union B s t
  | .intersection => ESet.intersection B s t
  | .difference => ESet.difference B s t
  | .symmetricDifference => ESet.symmetricDifference B s t

/-- The values in a view of the mathematical sets `p` and `q`. -/
def View.mem (p q : α → Prop) : View → α → Prop
  | .iter, a => p a
  | .union, a => p a ∨ q a
  | .intersection, a => p a ∧ q a
  | .difference, a => p a ∧ ¬ q a
  | .symmetricDifference, a => ¬ (p a ↔ q a)

end ESet
end EnumVecModel
