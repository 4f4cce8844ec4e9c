import Verif.Derive

/-!
# The `EnumLike` impls with machine arithmetic

`EnumLike.lean` and `Derive.lean` compute with natural numbers. Here the same code is modelled with its `usize` arithmetic: every `+`, `-` and `*`
either fits or panics (checked build) or wraps (release build), and `wrapping_div`/`wrapping_rem` by zero panic. `NUM_VARIANTS` is a constant expression:
overflow there is a compile error in every build. Theorem `C50_machine` says that the two agree on every type that compiles.
-/

namespace EnumVecModel
namespace EnumLike

/-- An implementation of `trait EnumLike` (enum_like/src/lib.rs:135-148) with machine arithmetic. A fault in `num` is a compile error; in
`toDiscr`, `fromDiscr` it is a panic (or a compile error of a constant that is used there). -/
structure Mach (α : Type) where
  /-- `NUM_VARIANTS` -/
  num : Except Fault Nat
  /-- `to_discr` -/
  toDiscr : α → Except Fault Nat
  /-- `from_discr` -/
  fromDiscr : Nat → Except Fault α

/-- `a.wrapping_div(b)` on `usize`: panics for `b = 0`. -/
def uDiv (a b : Nat) : Except Fault Nat := if b = 0 then .error .badDiscr else .ok (a / b)

/-- `a.wrapping_rem(b)` on `usize`: panics for `b = 0`. -/
def uRem (a b : Nat) : Except Fault Nat := if b = 0 then .error .badDiscr else .ok (a % b)

namespace Mach

/-- `unsafe impl EnumLike for ()` (enum_like/src/lib.rs:153-163). -/
def unit : Mach Unit where
  num := .ok 1
  toDiscr _ := .ok 0
  fromDiscr _ := .ok ()

/-- `unsafe impl EnumLike for bool` (enum_like/src/lib.rs:165-181). -/
def bool : Mach Bool where
  num := .ok 2
  toDiscr b := .ok (if b then 1 else 0)
  fromDiscr x := .ok (x != 0)

variable (build : Build)

/-- `unsafe impl<T: EnumLike> EnumLike for Option<T>` (enum_like/src/lib.rs:185-201). -/
def option {α : Type} (T : Mach α) : Mach (Option α) where
  num := do uAdd build.const 1 (← T.num)
  toDiscr
    | none => T.num
    | some x => T.toDiscr x
  fromDiscr x := do
    if x = (← T.num) then return none
    else return some (← T.fromDiscr x)

/-- `unsafe impl<T: EnumLike, S: EnumLike> EnumLike for Result<T, S>` (enum_like/src/lib.rs:203-219). -/
def result {α β : Type} (T : Mach α) (S : Mach β) : Mach (Except β α) where
  num := do uAdd build.const (← T.num) (← S.num)
  toDiscr
    | .ok x => T.toDiscr x
    | .error x => do uAdd build (← T.num) (← S.toDiscr x)
  fromDiscr x := do
    if x < (← T.num) then return .ok (← T.fromDiscr x)
    else return .error (← S.fromDiscr (← uSub build x (← T.num)))

/-- `unsafe impl<T: EnumLike> EnumLike for (T,)` (enum_like/src/lib.rs:221-231). -/
def tuple1 {α : Type} (T : Mach α) : Mach α where
  num := T.num
  toDiscr x := T.toDiscr x
  fromDiscr x := T.fromDiscr x

/-- `unsafe impl<T: EnumLike, S: EnumLike> EnumLike for (T, S)` (enum_like/src/lib.rs:235-248). -/
def pair {α β : Type} (T : Mach α) (S : Mach β) : Mach (α × β) where
  num := do uMul build.const (← T.num) (← S.num)
  toDiscr p := do uAdd build (← T.toDiscr p.1) (← uMul build (← S.toDiscr p.2) (← T.num))
  fromDiscr x := do
    let a ← T.fromDiscr (← uRem x (← T.num))
    let b ← S.fromDiscr (← uDiv x (← T.num))
    return (a, b)

/-- Component types with both models of their impls. -/
abbrev MComps := List ((α : Type) × EnumLike α × Mach α)

/-- The components with the impls on natural numbers. -/
@[reducible] def pure : MComps → Comps
  | [] => []
  | A :: rest => ⟨A.1, A.2.1⟩ :: pure rest

/-- The impls made by `tuple_impls!` (enum_like/src/lib.rs:255-284). -/
def tuple : (cs : MComps) → Mach (Tuple (pure cs))
  | [] => unit
  | [A] => tuple1 A.2.2
  | A :: B :: rest => pair build (tuple (B :: rest)) A.2.2

/-- The machine impl of the tuple `(T, …, T)` that `array_impls!` uses (enum_like/src/lib.rs:342-352, 355-388). -/
def arrayTuple {α : Type} (E : EnumLike α) (T : Mach α) : (n : Nat) → Mach (Tuple (arrayComps E n))
  | 0 => unit
  | 1 => tuple1 T
  | n + 2 => pair build (arrayTuple E T (n + 1)) T

/-- `unsafe impl<T: EnumLike> EnumLike for [T; n]` (enum_like/src/lib.rs:342-352, 355-388). -/
def array {α : Type} (E : EnumLike α) (T : Mach α) (n : Nat) : Mach (Fin n → α) where
  num := (arrayTuple build E T n).num
  toDiscr f := (arrayTuple build E T n).toDiscr (arrayToTuple E n f)
  fromDiscr x := do return tupleToArray E n (← (arrayTuple build E T n).fromDiscr x)

/-! ## Derived impls -/

/-- The constants `T::NUM_VARIANTS` of the fields. -/
def nums (cs : MComps) : List (Except Fault Nat) := cs.map fun A => A.2.2.num

/-- The values of the expressions printed by `num_variants_product` (enum_like_derive/src/lib.rs:437-459):
`1usize`, `N0`, `N0 * N1`, `N0 * N1 * N2`, … -/
def products (ns : List (Except Fault Nat)) : List (Except Fault Nat) :=
  (List.range' 2 (ns.length - 2)).foldl
    (fun ps i => ps ++ [do uMul build (← ps.getLastD (.ok 1)) (← ns.getD (i - 1) (.ok 1))])
    (if 2 ≤ ns.length then [.ok 1, ns.getD 0 (.ok 1)] else [.ok 1])

/-- `total_num_variants_product` (enum_like_derive/src/lib.rs:423-433). -/
def totalNum (cs : MComps) : Except Fault Nat := (products build (nums cs ++ [.ok 0])).getLastD (.ok 1)

/-- `to_discr_body` (enum_like_derive/src/lib.rs:504-532): `(offset) + p0 * d0 + p1 * d1 + …`. -/
def toBody : (cs : MComps) → (ps : List (Except Fault Nat)) → (acc : Except Fault Nat) → Derive.Fields (pure cs) → Except Fault Nat
  | A :: rest, p :: ps, acc, x => toBody rest ps (do
      let a ← acc
      uAdd build a (← uMul build (← p) (← A.2.2.toDiscr x.1))) x.2
  | _, _, acc, _ => acc

/-- `from_discr_body` (enum_like_derive/src/lib.rs:463-501); the expression `value` is evaluated once for every field. -/
def fromBody : (cs : MComps) → (ps : List (Except Fault Nat)) → (value : Except Fault Nat) → Except Fault (Derive.Fields (pure cs))
  | [], _, _ => .ok ()
  | [A], p :: _, value => do
    let a ← A.2.2.fromDiscr (← uDiv (← value) (← p))
    return (a, ())
  | A :: B :: rest, p :: ps, value => do
    let a ← A.2.2.fromDiscr (← uRem (← uDiv (← value) (← p)) (← A.2.2.num))
    let r ← fromBody (B :: rest) ps value
    return (a, r)
  | _ :: _, [], _ => .error .badDiscr

/-- `#[derive(EnumLike)] struct` (enum_like_derive/src/lib.rs:371-421, 534-577). -/
def struct (cs : MComps) : Mach (Derive.Fields (pure cs)) :=
  match cs with
  | [] => { num := .ok 1, toDiscr := fun _ => .ok 0, fromDiscr := fun _ => .ok () }
  | A :: rest =>
    { num := totalNum build.const (A :: rest)
      toDiscr := fun x => toBody build (A :: rest) (products build (nums (A :: rest))) (.ok 0) x
      fromDiscr := fun v => fromBody (A :: rest) (products build (nums (A :: rest))) (.ok v) }

/-- A variant, with both models of the impls of its fields. -/
structure MVariant where
  fields : MComps
  explicit : Option Int

/-- The variants with the impls on natural numbers. -/
@[reducible] def pureVars : List MVariant → List Derive.Variant
  | [] => []
  | v :: vs => ⟨pure v.fields, v.explicit⟩ :: pureVars vs

/-- `Fields::Unit`. -/
def MVariant.isUnit (v : MVariant) : Bool := v.fields.isEmpty

/-- `print_num_variants` (enum_like_derive/src/lib.rs:181-188). -/
def MVariant.num (v : MVariant) : Except Fault Nat := if v.isUnit then .ok 1 else totalNum build v.fields

/-- The value of the expression `n1 + n2 + … + nk`. -/
def sum : List (Except Fault Nat) → Except Fault Nat
  | [] => .ok 0
  | n :: ns => ns.foldl (fun acc m => do uAdd build (← acc) (← m)) n

/-- `offset` (enum_like_derive/src/lib.rs:221): the number of unit variants, printed as a literal. -/
def units (vs : List MVariant) : Nat := (vs.filter MVariant.isUnit).length

/-- The arms of `to_discr` (enum_like_derive/src/lib.rs:125-155). `rh`: the summands of the expression `range_high`, `0usize + n1 + … + nk`. -/
def toArms (off : Nat) : (vs : List MVariant) → (u : Nat) → (rh : List (Except Fault Nat)) → Derive.EnumVal (pureVars vs) → Except Fault Nat
  | v :: _, u, rh, .inl x =>
    if v.isUnit then .ok u else toBody build v.fields (products build (nums v.fields)) (sum build (.ok off :: rh)) x
  | v :: vs, u, rh, .inr y =>
    if v.isUnit then toArms off vs (u + 1) rh y else toArms off vs u (rh ++ [v.num build]) y

/-- The guard `x >= (lo) && x < (hi)` (enum_like_derive/src/lib.rs:172-173). -/
def inRange (lo hi : Except Fault Nat) (x : Nat) : Except Fault Bool := do
  if (← lo) ≤ x then return decide (x < (← hi)) else return false

/-- The `from_discr` arms of the data variants (enum_like_derive/src/lib.rs:164-178):
`x if x >= (off + rh) && x < (off + rh + n) => Name { from_discr_body(x - off - (rh)) }`, then `_ => unreachable!()`. -/
def fromData (off : Nat) : (vs : List MVariant) → (rh : List (Except Fault Nat)) → (x : Nat) → Except Fault (Derive.EnumVal (pureVars vs))
  | [], _, _ => .error .badDiscr
  | v :: vs, rh, x =>
    if v.isUnit then do return .inr (← fromData off vs rh x)
    else do
      if ← inRange (sum build (.ok off :: rh)) (sum build (.ok off :: (rh ++ [v.num build]))) x then return .inl (← fromBody v.fields (products build (nums v.fields)) (do
        uSub build (← uSub build x off) (← sum build rh)))
      else return .inr (← fromData off vs (rh ++ [v.num build]) x)

/-- `generate_rusty_enum_code` (enum_like_derive/src/lib.rs:267-309): `NUM_VARIANTS` is `1 + … + 1 + n1 + … + nk + 0usize`, unit variants first. -/
def rustyEnum (vs : List MVariant) : Mach (Derive.EnumVal (pureVars vs)) where
  num := sum build.const ((vs.filter MVariant.isUnit).map (MVariant.num build.const) ++
    ((vs.filter fun v => !v.isUnit).map (MVariant.num build.const) ++ [.ok 0]))
  toDiscr := toArms build (units vs) vs 0 [.ok 0]
  fromDiscr x := match Derive.fromUnits (pureVars vs) 0 x with
    | some a => .ok a
    | none => fromData build (units vs) vs [.ok 0] x

/-- `generate_c_enum_code` (enum_like_derive/src/lib.rs:311-350): literals only; a literal that is no `usize` does not compile. -/
def cEnum (vs : List MVariant) : Mach (Derive.EnumVal (pureVars vs)) where
  num := if vs.length < build.usizeLim then .ok vs.length else .error .overflow
  toDiscr y := .ok (Derive.position (pureVars vs) y)
  fromDiscr x := match Derive.fromUnits (pureVars vs) 0 x with
    | some a => .ok a
    | none => .error .badDiscr

/-- `generate_enum_code` (enum_like_derive/src/lib.rs:352-366). -/
def enum (vs : List MVariant) : Mach (Derive.EnumVal (pureVars vs)) :=
  if vs.all MVariant.isUnit then cEnum build vs else rustyEnum build vs

end Mach

/-! ## Specification -/

/-- The machine impl `m` computes what the impl `E` on natural numbers says: no sum, product or difference overflows, and `from_discr`
panics for the same arguments. -/
structure Refines {α : Type} (build : Build) (m : Mach α) (E : EnumLike α) : Prop where
  num : m.num = .ok E.num
  fits : E.num < build.usizeLim
  to : ∀ a, m.toDiscr a = .ok (E.toDiscr a)
  «from» : ∀ x, x < build.usizeLim → m.fromDiscr x = match E.fromDiscr x with
    | some a => .ok a
    | none => .error .badDiscr

/-- `Built` (`EnumLikeSpec.lean`) with both models: `m` is the machine model of the impl `E` of the type `α`, made by any nesting of the impls of the crate
from the base impls in `B`. `empty`: enums without variants are allowed. -/
inductive MBuilt (build : Build) (empty : Bool) (B : (α : Type) → EnumLike α → Mach α → Prop) : (α : Type) → EnumLike α → Mach α → Prop
  | base {α : Type} {E : EnumLike α} {m : Mach α} : B α E m → MBuilt build empty B α E m
  | unit : MBuilt build empty B Unit unit Mach.unit
  | bool : MBuilt build empty B Bool bool Mach.bool
  | option {α : Type} {T : EnumLike α} {m : Mach α} : MBuilt build empty B α T m → MBuilt build empty B (Option α) (option T) (Mach.option build m)
  | result {α β : Type} {T : EnumLike α} {m : Mach α} {S : EnumLike β} {m' : Mach β} : MBuilt build empty B α T m → MBuilt build empty B β S m' →
      MBuilt build empty B (Except β α) (result T S) (Mach.result build m m')
  | tuple1 {α : Type} {T : EnumLike α} {m : Mach α} : MBuilt build empty B α T m → MBuilt build empty B α (tuple1 T) (Mach.tuple1 m)
  | pair {α β : Type} {T : EnumLike α} {m : Mach α} {S : EnumLike β} {m' : Mach β} : MBuilt build empty B α T m → MBuilt build empty B β S m' →
      MBuilt build empty B (α × β) (pair T S) (Mach.pair build m m')
  | tuple {cs : Mach.MComps} : (∀ A ∈ cs, MBuilt build empty B A.1 A.2.1 A.2.2) →
      MBuilt build empty B (Tuple (Mach.pure cs)) (tuple (Mach.pure cs)) (Mach.tuple build cs)
  | array {α : Type} {T : EnumLike α} {m : Mach α} (n : Nat) : MBuilt build empty B α T m →
      MBuilt build empty B (Fin n → α) (array T n) (Mach.array build T m n)
  | struct {cs : Mach.MComps} : (∀ A ∈ cs, MBuilt build empty B A.1 A.2.1 A.2.2) →
      MBuilt build empty B (Derive.Fields (Mach.pure cs)) (Derive.struct (Mach.pure cs)) (Mach.struct build cs)
  | enum {vs : List Mach.MVariant} : (empty = true ∨ vs ≠ []) → (∀ v ∈ vs, ∀ A ∈ v.fields, MBuilt build empty B A.1 A.2.1 A.2.2) →
      MBuilt build empty B (Derive.EnumVal (Mach.pureVars vs)) (Derive.enum (Mach.pureVars vs)) (Mach.enum build vs)

end EnumLike
end EnumVecModel
