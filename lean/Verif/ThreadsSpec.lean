import Verif.History

/-!
# Programs with several threads

A program has any number of threads. Each makes calls on the vector variables of the program and has its own state `σ` for the closures it
passes to `for_each` and `retain`. A schedule is any interleaving of the calls of the threads: a list of pairs of a thread and the call it
makes next. (Calls are atomic here; by `C75_schedule` threads that obey Rust's borrowing rules cannot tell.)
-/

namespace EnumVecModel
open EV

variable {α σ : Type}

/-- A closure of thread `t`: it has access to the state of this thread only. -/
def ownClosure {β : Type} (t : Nat) (f : Closure σ α β) : Closure (Nat → σ) α β :=
  fun x w => ((f x (w t)).1, upd w t (f x (w t)).2)

/-- A call made by thread `t`. -/
def Op.own (t : Nat) : Op σ α → Op (Nat → σ) α
  | .retain r f => .retain r (ownClosure t f)
  | .forEach r f => .forEach r (ownClosure t f)
  | .new r => .new r
  | .withCapacity r n => .withCapacity r n
  | .fromElem r x n => .fromElem r x n
  | .fromVec r xs => .fromVec r xs
  | .fromSlice r xs => .fromSlice r xs
  | .fromIter r it => .fromIter r it
  | .clone r src => .clone r src
  | .len r => .len r
  | .isEmpty r => .isEmpty r
  | .get r i => .get r i
  | .set r i x => .set r i x
  | .push r x => .push r x
  | .pop r => .pop r
  | .insert r i x => .insert r i x
  | .remove r i => .remove r i
  | .swap r i j => .swap r i j
  | .swapRemove r i => .swapRemove r i
  | .truncate r n => .truncate r n
  | .clear r => .clear r
  | .resize r n x => .resize r n x
  | .reserve r n => .reserve r n
  | .shrinkToFit r => .shrinkToFit r
  | .extend r it => .extend r it
  | .append r o => .append r o
  | .splitOff r i d => .splitOff r i d
  | .eq r o => .eq r o
  | .any r x => .any r x
  | .all r x => .all r x
  | .toVec r => .toVec r
  | .iterate r cs => .iterate r cs
  | .hash r => .hash r

/-- Run a schedule: the results of all calls, each with the thread that made it, and the final state. -/
def runThreads (c : Inst α) : List (Nat × Op σ α) → Mem c (Nat → σ) → List (Nat × Out α) × Mem c (Nat → σ)
  | [], m => ([], m)
  | (t, o) :: ps, m =>
    ((t, (step c m (o.own t)).1) :: (runThreads c ps (step c m (o.own t)).2).1, (runThreads c ps (step c m (o.own t)).2).2)

/-- What belongs to thread `t`, in order. -/
def ofThread {β : Type} (t : Nat) (ps : List (Nat × β)) : List β := (ps.filter fun p => p.1 == t).map Prod.snd

/-- Rust's rule for references: what one thread writes, no other thread uses. All threads may read the same variables. -/
def Borrowed (ps : List (Nat × Op σ α)) : Prop :=
  ∀ p ∈ ps, ∀ q ∈ ps, p.1 ≠ q.1 → ∀ r ∈ p.2.writes, r ∉ q.2.uses ∧ r ∉ q.2.writes

instance (ps : List (Nat × Op σ α)) : Decidable (Borrowed ps) := by unfold Borrowed; infer_instance

end EnumVecModel
