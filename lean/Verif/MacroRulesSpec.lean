import Verif.MacroRules
import Verif.EnumLikeSpec

/-! Specification for property C62. -/

namespace EnumVecModel
namespace EnumLike
namespace Rules

variable {β : Type}

/-- A component of a tuple: its impl, its number of variants, a value and its number. -/
structure Part (β : Type) where
  T : Mach (Val β)
  n : Nat
  v : Val β
  d : Nat

/-- The products of the numbers of variants of the first components fit in `usize`. -/
def Fits (lim : Nat) (ps : List (Part β)) : Prop := ∀ i, ((ps.take i).map (·.n)).prod < lim

/-- The number of a tuple or array: the numbers of the components are its digits, the first component is the least significant one. -/
def number (ps : List (Part β)) : Nat := mixedRadix (ps.map fun p => (p.n, p.d))

end Rules
end EnumLike
end EnumVecModel
