import Verif.Spec
import Verif.Values
import Verif.Derive

/-!
# Specification of discriminants

What "a type built from the built-in impls and the derive macro" is, the mixed-radix number of a list of digits, and
the list semantics of the `Values` iterator.
-/

namespace EnumVecModel
namespace EnumLike

/-- The `EnumLike` impls that the crate provides, over given base impls: `Built B α E` means that `E` is the impl of the type
`α` made by any nesting of `()`, `bool`, `Option`, `Result`, tuples, arrays, `#[derive(EnumLike)]` structs and
`#[derive(EnumLike)]` enums from impls in `B`. -/
inductive Built (B : (α : Type) → EnumLike α → Prop) : (α : Type) → EnumLike α → Prop
  | base {α : Type} {E : EnumLike α} : B α E → Built B α E
  | unit : Built B Unit unit
  | bool : Built B Bool bool
  | option {α : Type} {T : EnumLike α} : Built B α T → Built B (Option α) (option T)
  | result {α β : Type} {T : EnumLike α} {S : EnumLike β} : Built B α T → Built B β S → Built B (Except β α) (result T S)
  | tuple1 {α : Type} {T : EnumLike α} : Built B α T → Built B α (tuple1 T)
  | pair {α β : Type} {T : EnumLike α} {S : EnumLike β} : Built B α T → Built B β S → Built B (α × β) (pair T S)
  | tuple {cs : Comps} : (∀ A ∈ cs, Built B A.1 A.2) → Built B (Tuple cs) (tuple cs)
  | array {α : Type} {T : EnumLike α} (n : Nat) : Built B α T → Built B (Fin n → α) (array T n)
  | struct {cs : Comps} : (∀ A ∈ cs, Built B A.1 A.2) → Built B (Derive.Fields cs) (Derive.struct cs)
  | enum {vs : List Derive.Variant} : (∀ v ∈ vs, ∀ A ∈ v.fields, Built B A.1 A.2) →
      Built B (Derive.EnumVal vs) (Derive.enum vs)

/-- No base impls: only what the crate itself provides. -/
def NoBase : (α : Type) → EnumLike α → Prop := fun _ _ => False

/-- The number with the digits `ds = [(N₀, d₀), (N₁, d₁), …]`, least significant first, where digit `dᵢ` has `Nᵢ` possible values:
`d₀ + d₁·N₀ + d₂·N₀·N₁ + …`. -/
def mixedRadix (ds : List (Nat × Nat)) : Nat :=
  ((List.range ds.length).map fun i => (ds.getD i (0, 0)).2 * ((ds.take i).map Prod.fst).prod).sum

/-- `(NUM_VARIANTS, to_discr)` of each component of a tuple, first component first. -/
def tupleDigits : (cs : Comps) → Tuple cs → List (Nat × Nat)
  | [], _ => []
  | [A], x => [(A.2.num, A.2.toDiscr x)]
  | A :: B :: rest, x => tupleDigits (B :: rest) x.1 ++ [(A.2.num, A.2.toDiscr x.2)]

/-- `(NUM_VARIANTS, to_discr)` of each field of a struct, first field first. -/
def fieldDigits : (cs : Comps) → Derive.Fields cs → List (Nat × Nat)
  | [], _ => []
  | A :: rest, x => (A.2.num, A.2.toDiscr x.1) :: fieldDigits rest x.2

/-- The value of an enum that is variant number `k` (counted from 0 in declaration order) with data `x`. -/
def variant : (vs : List Derive.Variant) → (k : Nat) → (h : k < vs.length) → Derive.Fields vs[k].fields → Derive.EnumVal vs
  | _ :: _, 0, _, x => .inl x
  | _ :: vs, k + 1, h, x => .inr (variant vs k (Nat.lt_of_succ_lt_succ h) x)

/-- A data-less variant (`Fields::Unit`). -/
def dataLess (v : Derive.Variant) : Bool := v.fields.isEmpty

/-- Number of values of a variant: the product of the `NUM_VARIANTS` of its fields. -/
def variantSize (v : Derive.Variant) : Nat := (v.fields.map fun A => A.2.num).prod

/-! ## Iterating over the values -/

/-- `l` is the list of all values of the type: the `i`-th one has discriminant `i`. -/
def AllValues {α : Type} (E : EnumLike α) (l : List α) : Prop :=
  l.map E.toDiscr = List.range E.num

/-- The calls a user can make on `T::values()`. `Values` is `Copy`, so the consuming `count`, `last` leave a copy. -/
inductive ValOp
  | next
  | nth (n : Nat)
  | sizeHint
  | count
  | last

/-- What such a call returns. -/
inductive ValOut (α : Type)
  | item (x : Option α)
  | hint (lower : Nat) (upper : Option Nat)
  | num (n : Nat)
  deriving DecidableEq

/-- One call on an iterator that still has to yield the list `l`. -/
def valSpec {α : Type} (l : List α) : ValOp → ValOut α × List α
  | .next => (.item l.head?, l.tail)
  | .nth n => (.item l[n]?, l.drop (n + 1))
  | .sizeHint => (.hint l.length (some l.length), l)
  | .count => (.num l.length, l)
  | .last => (.item l.getLast?, l)

/-- A sequence of calls on an iterator that still has to yield `l`. -/
def valSpecRun {α : Type} : List ValOp → List α → List (ValOut α) × List α
  | [], l => ([], l)
  | o :: os, l => ((valSpec l o).1 :: (valSpecRun os (valSpec l o).2).1, (valSpecRun os (valSpec l o).2).2)

/-- One call on the modelled iterator. -/
def valStep {α : Type} (E : EnumLike α) (build : Build) : ValOp → M Values (ValOut α)
  | .next => do return .item (← Values.next E)
  | .nth n => do return .item (← Values.nth E build n)
  | .sizeHint => do
    let h ← M.lift (Values.sizeHint build (← M.read))
    return .hint h.1 h.2
  | .count => do return .num (← M.lift (Values.count build (← M.read)))
  | .last => do return .item (← M.lift (Values.last E (← M.read)))

/-- A sequence of calls on the modelled iterator. -/
def valRun {α : Type} (E : EnumLike α) (build : Build) : List ValOp → M Values (List (ValOut α))
  | [] => pure []
  | o :: os => do
    let r ← valStep E build o
    let rs ← valRun E build os
    return r :: rs

end EnumLike
end EnumVecModel
