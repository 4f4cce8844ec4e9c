import Verif.EnumSetSpec
import Verif.EnumLikeSpec

/-! Specification for property C93: a program that uses `EnumSet` and `values()`, generalised from the example of the repository. -/

namespace EnumVecModel
namespace ESet

variable {σ α : Type} (B : BitSet σ) (E : EnumLike α)

/-- The registers after a history of calls. -/
def after : List (Op α) → (Nat → EnumSet σ) → Nat → EnumSet σ
  | [], R => R
  | o :: os, R => after os (step B E R o).2

/-- Deal values to sets (example/src/enum_set.rs:47-60, 90-103): for each move `(p, i)`, `hand[p].insert(deck.remove(i))`. `none` if `Vec::remove` panics. What the calls of `insert` return, the rest of the deck, and the hands.
Simplification: the example has four players in turn, and always `i = seed % deck.len()`; here players and indices are arbitrary. -/
def deal : List (Nat × Nat) → List α → (Nat → EnumSet σ) → Option (List Bool × List α × (Nat → EnumSet σ))
  | [], deck, hands => some ([], deck, hands)
  | (p, i) :: moves, deck, hands => match deck[i]? with
    | none => none
    | some a => (deal moves (deck.eraseIdx i) (upd hands p (insert B E (hands p) a).2)).map fun r => ((insert B E (hands p) a).1 :: r.1, r.2)

end ESet
end EnumVecModel
