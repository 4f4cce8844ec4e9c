import Verif.Hostile

/-!
# Watching user code

An observer writes down every call of `to_discr`, `from_discr`, `clone` and of a closure, with its argument, in the order of the calls. The code itself does what it does without
the observer: results and side effects are those of the original, and the list is in a part of the world that only the observer can see.
-/

namespace EnumVecModel
namespace Hostile
open EV

/-- A call of user code. -/
inductive Ev (α : Type)
  | toDiscr (x : α)
  | fromDiscr (d : Nat)
  | clone (x : α)
  | closure (x : α)
  deriving DecidableEq

variable {α ω σ β δ : Type}

/-- The same code, watched: the call is added to the list before it is made (a call that panics is in the list). -/
def watched (ev : δ → Ev α) (f : Closure ω δ β) : Closure (ω × List (Ev α)) δ β := fun x w => ((f x w.1).1, ((f x w.1).2, w.2 ++ [ev x]))

/-- The same implementation of `EnumLike` and `Clone`, watched. -/
def Impl.watched (h : Impl ω α) : Impl (ω × List (Ev α)) α :=
  ⟨Hostile.watched .toDiscr h.toDiscr, Hostile.watched .fromDiscr h.fromDiscr, Hostile.watched .clone h.clone⟩

/-- The same call, with watched closures. -/
def watchedOp : Op ω α → Op (ω × List (Ev α)) α
  | .retain r f => .retain r (watched .closure f)
  | .forEach r f => .forEach r (watched .closure f)
  | o => liftOp o

/-- The calls of user code that a method makes, in order, if the list is empty before. -/
def callsOf (m : M (σ × (ω × List (Ev α))) β) (s : σ) (w : ω) : List (Ev α) := (m (s, (w, []))).2.2.2

/-- The method makes the calls `L`, if it returns; if it panics, a prefix of them. -/
structure Makes (m : M (σ × (ω × List (Ev α))) β) (s : σ) (w : ω) (L : List (Ev α)) : Prop where
  sub : callsOf m s w <+: L
  all : ∀ b, (m (s, (w, []))).1 = .ok b → callsOf m s w = L

/-- `clone`, if it returns, returns an equal value. -/
def Impl.Clones (h : Impl ω α) : Prop := ∀ x w y w', h.clone x w = (some y, w') → y = x

/-- What `for_each` calls for the elements still to visit: `from_discr`, the closure, and `to_discr` on its answer. -/
def forEachCalls (E : EnumLike α) (f : Closure ω α α) : List α → ω → List (Ev α)
  | [], _ => []
  | x :: xs, w => .fromDiscr (E.toDiscr x) :: .closure x ::
    match f x w with
    | (some y, w') => .toDiscr y :: forEachCalls E f xs w'
    | (none, _) => []

/-- What `retain` calls for the elements still to visit: `from_discr`, the closure, and `to_discr` if the element is kept. -/
def retainCalls (E : EnumLike α) (f : Closure ω α Bool) : List α → ω → List (Ev α)
  | [], _ => []
  | x :: xs, w => .fromDiscr (E.toDiscr x) :: .closure x ::
    match f x w with
    | (some true, w') => .toDiscr x :: retainCalls E f xs w'
    | (some false, w') => retainCalls E f xs w'
    | (none, _) => []

/-- What the calls on an iterator with these results call: `from_discr`, once for every item. -/
def itemCalls (E : EnumLike α) : List (IterOut α) → List (Ev α)
  | [] => []
  | .item (some x) :: os => .fromDiscr (E.toDiscr x) :: itemCalls E os
  | _ :: os => itemCalls E os

/-- `n` times `clone` and `to_discr`. -/
def cloneEach : Nat → α → List (Ev α)
  | 0, _ => []
  | n + 1, x => .clone x :: .toDiscr x :: cloneEach n x

/-- Adding `count` copies of `x` to `n` elements, `b` elements per block: up to four blocks one at a time; from there on, one at a time up to the next block boundary, then `to_discr` once for all the
full blocks, and the rest one at a time. -/
def fillCalls (b n count : Nat) (x : α) : List (Ev α) :=
  if count ≤ 4 * b then cloneEach count x
  else cloneEach (b - n % b) x ++ .toDiscr x :: cloneEach ((count - (b - n % b)) % b) x

end Hostile
end EnumVecModel
