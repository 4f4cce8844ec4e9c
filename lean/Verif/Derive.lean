import Verif.EnumLike

/-!
# Code generated by `#[derive(EnumLike)]` (`enum_like_derive/src/lib.rs`)

The macro prints Rust text. The model is the meaning of the printed `impl`, for an arbitrary list of field types
or of variants. `none` in `fromDiscr` is a panic (`unreachable!()`, or `wrapping_div`/`wrapping_rem` by zero).
`usize` sums and products are bounded by `NUM_VARIANTS`, whose overflow is a compile error.
-/

namespace EnumVecModel
namespace EnumLike
namespace Derive

/-- The fields of a struct or of a data variant, in declaration order. -/
@[reducible] def Fields : Comps → Type
  | [] => Unit
  | A :: rest => A.1 × Fields rest

/-- `num_variants_product` (lines 437-459) on the `NUM_VARIANTS` of the field types: `[1]`, then (if there are two or more) the first one,
then for `i in 2..n` the previous entry times `ns[i - 1]`. -/
def numVariantsProduct (ns : List Nat) : List Nat :=
  (List.range' 2 (ns.length - 2)).foldl (fun ps i => ps ++ [ps.getLastD 1 * ns.getD (i - 1) 1])
    (if 2 ≤ ns.length then [1, ns.getD 0 1] else [1])

/-- The `NUM_VARIANTS` of the fields. -/
def nums (cs : Comps) : List Nat := cs.map fun A => A.2.num

/-- `total_num_variants_product` (lines 423-433): the last entry of `num_variants_product` with an empty type appended (whose
`NUM_VARIANTS` is never used; here 0). -/
def totalNum (cs : Comps) : Nat := (numVariantsProduct (nums cs ++ [0])).getLastD 1

/-- `to_discr_body` (lines 504-532): `(offset) + p0 * A::to_discr(x0) + p1 * B::to_discr(x1) + …`. -/
def toBody : (cs : Comps) → (ps : List Nat) → (acc : Nat) → Fields cs → Nat
  | A :: rest, p :: ps, acc, x => toBody rest ps (acc + p * A.2.toDiscr x.1) x.2
  | _, _, acc, _ => acc

/-- `from_discr_body` (lines 463-501): field `i` is `T_i::from_discr((value).wrapping_div(p_i).wrapping_rem(T_i::NUM_VARIANTS))`, the last
field without the `wrapping_rem`. Division by zero panics. -/
def fromBody : (cs : Comps) → (ps : List Nat) → (value : Nat) → Option (Fields cs)
  | [], _, _ => some ()
  | [A], p :: _, value =>
    if p = 0 then none
    else match A.2.fromDiscr (value / p) with
      | some a => some (a, ())
      | none => none
  | A :: B :: rest, p :: ps, value =>
    if p = 0 ∨ A.2.num = 0 then none
    else match A.2.fromDiscr (value / p % A.2.num), fromBody (B :: rest) ps value with
      | some a, some r => some (a, r)
      | _, _ => none
  | _ :: _, [], _ => none

/-- `#[derive(EnumLike)] struct` (`generate_struct_code`, lines 562-577, and `generate_struct_with_fields`, lines 534-560): no
fields (`struct S;`, `S {}`, `S()`) is `generate_unit_struct_impl` (lines 371-392), otherwise `generate_struct_many_elem`
(lines 394-421). -/
def struct (cs : Comps) : EnumLike (Fields cs) :=
  match cs with
  | [] => { num := 1, toDiscr := fun _ => 0, fromDiscr := fun _ => some () }
  | A :: rest =>
    { num := totalNum (A :: rest)
      toDiscr := fun x => toBody (A :: rest) (numVariantsProduct (nums (A :: rest))) 0 x
      fromDiscr := fun v => fromBody (A :: rest) (numVariantsProduct (nums (A :: rest))) v }

/-- A variant of the enum: its fields (`[]` = `Fields::Unit`; a data variant without fields is rejected by the
assertions in lines 241 and 251) and its explicit discriminant `= n`, if any. -/
structure Variant where
  fields : Comps
  explicit : Option Int

/-- Values of the enum: the first variant with its data, or a value of the remaining variants. -/
@[reducible] def EnumVal : List Variant → Type
  | [] => Empty
  | v :: vs => Fields v.fields ⊕ EnumVal vs

/-- `Fields::Unit`. -/
def Variant.isUnit (v : Variant) : Bool := v.fields.isEmpty

/-- `offset` (line 221): the number of unit variants. -/
def units (vs : List Variant) : Nat := (vs.filter Variant.isUnit).length

/-- `print_num_variants` (lines 181-188). -/
def Variant.num (v : Variant) : Nat := if v.isUnit then 1 else totalNum v.fields

/-- The arms of `to_discr` (lines 125-155, `print_to_discr`). `u`: unit variants before this one; `off`: number of
unit variants; `rh`: `range_high`, the sum of the sizes of the data variants before this one. -/
def toArms (off : Nat) : (vs : List Variant) → (u rh : Nat) → EnumVal vs → Nat
  | v :: _, u, rh, .inl x => if v.isUnit then u else toBody v.fields (numVariantsProduct (nums v.fields)) (off + rh) x
  | v :: vs, u, rh, .inr y => if v.isUnit then toArms off vs (u + 1) rh y else toArms off vs u (rh + v.num) y

/-- The `from_discr` arms of the unit variants (lines 157-163): `#offset => Name,`. -/
def fromUnits : (vs : List Variant) → (u x : Nat) → Option (EnumVal vs)
  | [], _, _ => none
  | ⟨[], _⟩ :: vs, u, x => if x = u then some (.inl ()) else (fromUnits vs (u + 1) x).map .inr
  | ⟨_ :: _, _⟩ :: vs, u, x => (fromUnits vs u x).map .inr

/-- The `from_discr` arms of the data variants (lines 164-178):
`x if x >= (off + rh) && x < (off + rh + n) => Name { from_discr_body(x - off - rh) }`, then `_ => unreachable!()`. -/
def fromData (off : Nat) : (vs : List Variant) → (rh x : Nat) → Option (EnumVal vs)
  | [], _, _ => none
  | v :: vs, rh, x =>
    if v.isUnit then (fromData off vs rh x).map .inr
    else if off + rh ≤ x ∧ x < off + (rh + v.num) then (fromBody v.fields (numVariantsProduct (nums v.fields)) (x - off - rh)).map .inl
    else (fromData off vs (rh + v.num) x).map .inr

/-- `generate_rusty_enum_code` (lines 267-309): unit arms first (`all_variants_of`, lines 203-265). -/
def rustyEnum (vs : List Variant) : EnumLike (EnumVal vs) where
  num := (vs.map Variant.num).sum + 0
  toDiscr := toArms (units vs) vs 0 0
  fromDiscr x := match fromUnits vs 0 x with
    | some a => some a
    | none => fromData (units vs) vs 0 x

/-- Position of the variant of a value (`#name::#variant => #counter`, lines 341-347). -/
def position : (vs : List Variant) → EnumVal vs → Nat
  | _ :: _, .inl _ => 0
  | _ :: vs, .inr y => position vs y + 1

/-- `generate_c_enum_code` (lines 311-350): `from_discr` is `match value { 0 => V0, 1 => V1, …, _ => unreachable!() }`,
`to_discr` is the position; explicit discriminants are ignored. -/
def cEnum (vs : List Variant) : EnumLike (EnumVal vs) where
  num := vs.length
  toDiscr := position vs
  fromDiscr x := fromUnits vs 0 x

/-- `generate_enum_code` (lines 352-366). -/
def enum (vs : List Variant) : EnumLike (EnumVal vs) :=
  if vs.all Variant.isUnit then cEnum vs else rustyEnum vs

end Derive
end EnumLike
end EnumVecModel
