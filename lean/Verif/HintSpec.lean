import Verif.Source.SetEval

/-! Specification for property C94: iterators of `EnumSet`s, run from the text. -/

namespace EnumVecModel
namespace Source
namespace SetText
open ESet
open Hostile (Impl)

variable {σ ω α : Type} (B : BitSet σ) (h : Impl ω α)

/-- `k` calls of `next` (enum_set/src/lib.rs:223-225); a caller may also go on after a panic. -/
def textSkip : Nat → SV σ ω α → ω → Option (SV σ ω α × ω)
  | 0, it, w => Option.some (it, w)
  | k + 1, it, w => match srun B h 4 .wrap .next [it] w with
    | .ok _ it w => textSkip k it w
    | .fault _ it w => textSkip k it w
    | .stuck => Option.none

/-- Calls `next` until it returns `None`: the number of items. Nothing if a call panics, or if `n` calls are not enough. -/
def textCount : Nat → SV σ ω α → ω → Option Nat
  | 0, _, _ => Option.none
  | n + 1, it, w => match srun B h 4 .wrap .next [it] w with
    | .ok .none _ _ => Option.some 0
    | .ok (.some _) it w => (textCount n it w).map (· + 1)
    | _ => Option.none

/-- The five functions that make an iterator of one or two sets (enum_set/src/lib.rs:65-67, 77-95), and their arguments. -/
def makers (s t : σ) : List (Sym × List (SV σ ω α)) :=
  let o (s : σ) : SV σ ω α := .fld .inner (.bits s) (.fld ._phantom .unit .fin)
  [(.iter, [o s]), (.union, [o s, o t]), (.intersection, [o s, o t]), (.difference, [o s, o t]), (.symmetric_difference, [o s, o t])]

/-- The same, with the set that the function of the same name in place leaves behind (enum_set/src/lib.rs:97-116). -/
def inPlace (s t : σ) : List ((Sym × List (SV σ ω α)) × σ) :=
  (makers s t).zip [s, B.unionWith s t, B.intersectWith s t, B.differenceWith s t, B.symmetricDifferenceWith s t]

end SetText
end Source
end EnumVecModel
