import Verif.Iter
import Verif.IterSpec

/-!
# Driving an iterator, `Debug`

`impl Debug for EnumVec` (`enum_vec/src/vec_u32/mod.rs`, lines 890-894) is
`f.debug_list().entries(self.iter()).finish()`. `DebugList` is part of std; here it is any state machine that takes the entries one by
one, so that every version of std, `{:?}` and `{:#?}`, width and other flags, writers that fail and `Debug` impls of the elements
that fail or panic are covered.
-/

namespace EnumVecModel
namespace EV
variable {α τ : Type} (c : Inst α)

/-- `for x in iter { f(x) }`, which is also what `DebugList::entries` does. The number bounds the iterations; any bound above the number
of elements gives the same (`C47_for`). -/
def forIter (f : Closure τ α Unit) : Nat → M (It c.W × τ) Unit
  | 0 => pure ()
  | n + 1 => do
    match ← onFst (next c) with
    | none => return ()
    | some x => do
      call f x
      forIter f n

/-- std's `DebugList`, together with the formatter and the `Debug` impl of the elements: `Formatter::debug_list`, `DebugList::entry`
(may panic in the element's `fmt`) and `DebugList::finish` (`true` = `Ok(())`, `false` = `Err(fmt::Error)`). -/
structure DebugList (τ α : Type) where
  start : τ → τ
  entry : Closure τ α Unit
  finish : τ → Bool × τ

/-- `fmt` (lines 891-893). -/
def fmt (B : DebugList τ α) (s : EV c.W) : M τ Bool := fun w =>
  match forIter c B.entry (len c s + 1) (iter c s, B.start w) with
  | (.ok _, p) => (.ok (B.finish p.2).1, (B.finish p.2).2)
  | (.error e, p) => (.error e, p.2)

/-- A program that uses one iterator, adaptively: from its state `τ` it decides on the next call (or to stop), and it processes the
result, where it may panic. -/
structure Client (τ α : Type) where
  ask : τ → Option IterOp
  got : Closure τ (IterOut α) Unit

/-- At most `n` calls of a client on the iterator of a vector; `true` = the client stopped. -/
def drive (p : Client τ α) : Nat → M (It c.W × τ) Bool
  | 0 => pure false
  | n + 1 => do
    let st ← M.read
    match p.ask st.2 with
    | none => return true
    | some o => do
      let r ← onFst (iterStep c o)
      call p.got r
      drive p n

end EV

/-! ## The same on `Vec`s -/

variable {α τ : Type}

/-- `for x in vec { f(x) }`: result and final state of `f`. -/
def forSpec (f : EV.Closure τ α Unit) : List α → M τ Unit
  | [], w => (.ok (), w)
  | x :: xs, w =>
    match f x w with
    | (some _, w') => forSpec f xs w'
    | (none, w') => (.error .user, w')

/-- `impl Debug for Vec` (std): `f.debug_list().entries(self.iter()).finish()`. -/
def vecFmt (B : EV.DebugList τ α) (l : List α) : M τ Bool := fun w =>
  match forSpec B.entry l (B.start w) with
  | (.ok _, w') => (.ok (B.finish w').1, (B.finish w').2)
  | (.error e, w') => (.error e, w')

/-- At most `n` calls of a client on the iterator of a `Vec` that still has to yield the list. -/
def driveSpec (p : EV.Client τ α) : Nat → List α → M τ Bool
  | 0, _, w => (.ok false, w)
  | n + 1, l, w =>
    match p.ask w with
    | none => (.ok true, w)
    | some o =>
      match p.got (iterSpec l o).1 w with
      | (some _, w') => driveSpec p n (iterSpec l o).2 w'
      | (none, w') => (.error .user, w')

end EnumVecModel
