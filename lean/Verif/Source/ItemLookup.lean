import Verif.Source.ItemEval

/-!
# The search for an impl in a text of items

What the compiler does with the expansions of `tuple_impls!` and `array_impls!` (enum_like/src/lib.rs:305-338, 399-433): it cuts the text into items, and the impl of a type is the only item whose header matches it.
-/

namespace EnumVecModel
namespace Source
namespace Mac
open EnumLike (Mach)
open EnumLike.Rules (Val unitImpl tuple1Impl pairImpl emptyArrayImpl)

variable {β : Type}

/-- The items of a text: each ends with braces. -/
def itemsOf : TTs → List TTs
  | .nil => []
  | .tok t r => match itemsOf r with
    | [] => [.tok t .nil]
    | p :: ps => .tok t p :: ps
  | .grp d i r => if d = .brace then .grp d i .nil :: itemsOf r else match itemsOf r with
    | [] => [.grp d i .nil]
    | p :: ps => .grp d i p :: ps

/-- The only one, if there is only one. -/
def only {γ : Type} : List γ → Option γ
  | [a] => some a
  | _ => none

/-- The impl of a tuple type with the components `Ts`: of `()`, `(T,)` and `(T, S)` those of the crate (enum_like/src/lib.rs:153-163, 221-248; by their texts, C80), otherwise the only item for this type; the tuples in its text are looked up in the same way. The number
bounds the depth. -/
def lookTuple (build : Build) (items : List TTs) : Nat → List (Mach (Val β)) → Option (Mach (Val β))
  | _, [] => some unitImpl
  | _, [T] => some (tuple1Impl T)
  | _, [T, S] => some (pairImpl build T S)
  | 0, _ => none
  | n + 1, Ts => only (items.filterMap fun it => textTuple build (lookTuple build items n) it Ts)

/-- The impl of a tuple type, given the expansion of `tuple_impls!`. -/
def tupleIn (build : Build) (tOut : TTs) (Ts : List (Mach (Val β))) : Option (Mach (Val β)) := lookTuple build (itemsOf tOut) Ts.length Ts

/-- The impl of `[T; n]`, given the expansions of `tuple_impls!` and `array_impls!`; that of `[T; 0]` is in the crate (enum_like/src/lib.rs:342-352). -/
def arrayIn (build : Build) (uninit : Bool) (tOut aOut : TTs) (n : Nat) (T : Mach (Val β)) : Option (Mach (Val β)) :=
  if n = 0 then some emptyArrayImpl else only ((itemsOf aOut).filterMap fun it => textArray build uninit (tupleIn build tOut) it n T)

end Mac
end Source
end EnumVecModel
