import Verif.Source.QuoteText
import Verif.MacroHeader

/-!
# The derive macro, with the templates of its text (`/repo/enum_like_derive/src/lib.rs`; all line numbers below are of this file)

The functions of the macro, with every `quote!` and `parse_quote!` done by filling the template of the text (`QuoteText.lean`): the only tokens written here are those of the values of variables (names, types, numbers). What is between the templates is written out by hand, as in `Macro.lean`
and `MacroHeader.lean`. `none`: a template cannot be filled, or the macro panics.
-/

namespace EnumVecModel
namespace Quote
open Macro (Tok Toks Fields Variant Input MatchArm Generics Bound GParam Item)

/-- `num_variants_product` (lines 437-459). -/
def numVariantsProduct (typeNames : List Toks) : Option (List Toks) := do
  let lastP ← q_num_variants_product_0.fill []
  let product := [lastP]
  let st ← if 2 ≤ typeNames.length then do
      let lastP ← q_num_variants_product_1.fill [(word% "type_n1", .one (typeNames.getD 0 []))]
      pure (lastP, product ++ [lastP])
    else pure (lastP, product)
  let st ← (List.range' 2 (typeNames.length - 2)).foldlM (fun (st : Toks × List Toks) i => do
    let lastP ← q_num_variants_product_2.fill [(word% "type_n1", .one (typeNames.getD (i - 1) [])), (word% "old_last_p", .one st.1)]
    pure (lastP, st.2 ++ [lastP])) st
  return st.2

/-- `total_num_variants_product` (lines 423-433). -/
def totalNumVariantsProduct (typeNames : List Toks) : Option Toks := do
  let product ← numVariantsProduct (typeNames ++ [← q_total_num_variants_product_0.fill []])
  product.getLast?

/-- `from_discr_body` (lines 463-501). -/
def fromDiscrBody (fieldNames typeNames : List Toks) (value : Toks) : Option Toks := do
  let product ← numVariantsProduct typeNames
  let rem ← (typeNames.take (typeNames.length - 1)).mapM fun tn => q_from_discr_body_0.fill [(word% "tn", .one tn)]
  let rem := rem ++ [← q_from_discr_body_1.fill []]
  q_from_discr_body_2.fill [(word% "value_r", .forever value), (word% "product", .list product), (word% "rem", .list rem), (word% "field_names", .list fieldNames),
    (word% "type_names", .list typeNames)]

/-- `to_discr_body` (lines 504-532). -/
def toDiscrBody (fieldNames typeNames : List Toks) (offset : Toks) (xfieldNames : Option (List Tok)) : Option Toks := do
  let product ← numVariantsProduct typeNames
  match xfieldNames with
  | some xs => q_to_discr_body_0.fill [(word% "product", .list product), (word% "xfield_names", .list (xs.map fun x => [x])), (word% "field_names", .list fieldNames),
      (word% "type_names", .list typeNames), (word% "offset", .one offset)]
  | none => q_to_discr_body_1.fill [(word% "product", .list product), (word% "field_names", .list fieldNames), (word% "type_names", .list typeNames), (word% "offset", .one offset)]

/-- `MatchArm::unit` (lines 63-65). -/
def unit (name : List Char) (offset : Nat) : Option MatchArm := do return ⟨name, offset, 0, [], [], ← q_unit_0.fill []⟩

/-- `print_num_variants` (lines 181-188). -/
def printNumVariants (m : MatchArm) : Option Toks :=
  if m.dataFields = 0 then q_print_num_variants_0.fill [] else totalNumVariantsProduct m.typeNames

/-- `print_next_range_high` (lines 190-200). -/
def printNextRangeHigh (m : MatchArm) : Option Toks :=
  if m.dataFields = 0 then none
  else do q_print_next_range_high_0.fill [(word% "range_high", .one m.rangeHigh), (word% "n", .one (← printNumVariants m))]

/-- `from_fields` (lines 70-124): the arm, and the updated `range_high`. -/
def fromFields (name : List Char) (fields : Fields) (offset : Nat) (rangeHigh : Toks) : Option (MatchArm × Toks) := do
  let typeNames : List Toks := match fields with
    | .unit => []
    | .named fs => fs.map fun f => [.ty f.2]
    | .unnamed ts => ts.map fun t => [.ty t]
  let fieldNames : List Toks ← match fields with
    | .unit => pure []
    | .named fs => pure (fs.map fun f => [.id f.1])
    | .unnamed ts => (List.range ts.length).mapM fun i => q_from_fields_0.fill [(word% "i", .one [.int i])]
  let m : MatchArm := ⟨name, offset, fieldNames.length, fieldNames, typeNames, rangeHigh⟩
  return (m, ← printNextRangeHigh m)

/-- `print_to_discr` (lines 125-156). -/
def printToDiscr (m : MatchArm) (parent : List Char) : Option Toks :=
  if m.dataFields = 0 then
    q_print_to_discr_0.fill [(word% "offset", .one [.int m.offset]), (word% "name", .one [.id m.name]), (word% "parent", .one [.id parent])]
  else do
    let offset ← q_print_to_discr_1.fill [(word% "range_high", .one m.rangeHigh), (word% "offset", .one [.int m.offset])]
    let xfieldNames := m.fieldNames.map fun f => Tok.id ('x' :: Macro.text f)
    let toDiscr0 ← toDiscrBody m.fieldNames m.typeNames offset (some xfieldNames)
    q_print_to_discr_2.fill [(word% "to_discr_0", .one toDiscr0), (word% "xfield_names", .list (xfieldNames.map fun x => [x])), (word% "offset", .one offset),
      (word% "field_names", .list m.fieldNames), (word% "type_names", .list m.typeNames), (word% "name", .one [.id m.name]), (word% "parent", .one [.id parent])]

/-- `print_from_discr` (lines 157-179). -/
def printFromDiscr (m : MatchArm) (parent : List Char) : Option Toks :=
  if m.dataFields = 0 then
    q_print_from_discr_0.fill [(word% "offset", .one [.int m.offset]), (word% "name", .one [.id m.name]), (word% "parent", .one [.id parent])]
  else do
    let rangeHighNext ← printNextRangeHigh m
    let value ← q_print_from_discr_1.fill [(word% "range_high", .one m.rangeHigh), (word% "offset", .one [.int m.offset])]
    let fromDiscr0 ← fromDiscrBody m.fieldNames m.typeNames value
    q_print_from_discr_2.fill [(word% "from_discr_0", .one fromDiscr0), (word% "value", .one value), (word% "range_high_next", .one rangeHighNext), (word% "range_high", .one m.rangeHigh),
      (word% "offset", .one [.int m.offset]), (word% "name", .one [.id m.name]), (word% "parent", .one [.id parent])]

/-- The first loop of `all_variants_of` (lines 203-219). -/
def unitArms (variants : List Variant) : Option (List MatchArm) :=
  variants.foldlM (fun x v => match v.fields with
    | .unit => do return x ++ [← unit v.ident x.length]
    | _ => return x) []

/-- `all_variants_of` (lines 203-265). -/
def allVariantsOf (variants : List Variant) : Option (List MatchArm) := do
  let x ← unitArms variants
  let offset := x.length
  let st ← variants.foldlM (fun (st : List MatchArm × Toks) v => match v.fields with
    | .unnamed [] => none
    | .named [] => none
    | .unit => some st
    | fields => do
      let (m, rangeHigh) ← fromFields v.ident fields offset st.2
      return (st.1 ++ [m], rangeHigh)) (x, ← q_all_variants_of_0.fill [])
  return st.1

/-- `type_param.bounds.push(parse_quote!(…))`: the parsed bound. -/
def parseBound : Toks → Option Bound
  | [.enumLike] => some .enumLike
  | [.bound b] => some (.other b)
  | _ => none

/-- `add_trait_bounds` (lines 580-588). -/
def addTraitBounds (g : Generics) : Option Generics := do
  let items ← g.params.items.mapM fun p => match p with
    | .type name bounds default => do return .type name (bounds.push (← parseBound (← q_add_trait_bounds_0.fill []))) default
    | p => pure p
  return { g with params := { g.params with items := items } }

/-- `impl_enum_like` (lines 592-602). -/
def implEnumLike (name : List Char) (generics : Generics) (body : Toks) : Option Toks := do
  let generics ← addTraitBounds generics
  q_impl_enum_like_0.fill [(word% "impl_generics", .one generics.implGenerics), (word% "ty_generics", .one generics.tyGenerics), (word% "where_clause", .one generics.whereClause),
    (word% "name", .one [.id name]), (word% "body", .one body)]

/-- `generate_rusty_enum_code` (lines 267-309). -/
def generateRustyEnumCode (name : List Char) (generics : Generics) (variants : List Variant) : Option Toks := do
  let enumVariants ← allVariantsOf variants
  let matchArmFrom ← enumVariants.mapM fun e => printFromDiscr e name
  let matchArmTo ← enumVariants.mapM fun e => printToDiscr e name
  let enumCountS ← enumVariants.mapM fun e => printNumVariants e
  let enumCount ← q_generate_rusty_enum_code_0.fill [(word% "enum_count_s", .list enumCountS)]
  implEnumLike name generics (← q_generate_rusty_enum_code_1.fill [(word% "enum_count", .one enumCount), (word% "match_arm_to", .list matchArmTo), (word% "match_arm_from", .list matchArmFrom),
    (word% "name", .one [.id name])])

/-- `generate_c_enum_code` (lines 311-350). -/
def generateCEnumCode (name : List Char) (generics : Generics) (variants : List Variant) : Option Toks := do
  let variant : List Toks := variants.map fun v => [.id v.ident]
  let counter : List Toks := (List.range variants.length).map fun k => [.int k]
  implEnumLike name generics (← q_generate_c_enum_code_0.fill [(word% "enum_count", .one [.int variants.length]), (word% "counter_b", .list counter), (word% "counter_a", .list counter),
    (word% "repeat_name_b", .forever [.id name]), (word% "repeat_name_a", .forever [.id name]), (word% "variant_b", .list variant), (word% "variant_a", .list variant), (word% "name", .one [.id name])])

/-- `generate_enum_code` (lines 352-366). -/
def generateEnumCode (name : List Char) (generics : Generics) (variants : List Variant) : Option Toks :=
  if variants.all fun v => v.fields = .unit then generateCEnumCode name generics variants else generateRustyEnumCode name generics variants

/-- `generate_unit_struct_impl` (lines 371-392). -/
def generateUnitStructImpl (name : List Char) (generics : Generics) (unit : Bool) : Option Toks := do
  let hack ← if unit then q_generate_unit_struct_impl_0.fill [] else q_generate_unit_struct_impl_1.fill []
  implEnumLike name generics (← q_generate_unit_struct_impl_2.fill [(word% "hack", .one hack), (word% "name", .one [.id name])])

/-- `generate_struct_many_elem` (lines 394-421). -/
def generateStructManyElem (name : List Char) (generics : Generics) (fieldNames typeNames : List Toks) : Option Toks := do
  let value ← q_generate_struct_many_elem_0.fill []
  let fromDiscr0 ← fromDiscrBody fieldNames typeNames value
  let offset ← q_generate_struct_many_elem_1.fill []
  let toDiscr0 ← toDiscrBody fieldNames typeNames offset none
  let total ← totalNumVariantsProduct typeNames
  implEnumLike name generics (← q_generate_struct_many_elem_2.fill [(word% "total_num_variants", .one total), (word% "to_discr_0", .one toDiscr0), (word% "offset", .one offset),
    (word% "from_discr_0", .one fromDiscr0), (word% "value", .one value), (word% "name", .one [.id name])])

/-- `generate_struct_with_fields` (lines 534-560) on the names (`none`: unnamed) and types of the fields. -/
def generateStructWithFields (name : List Char) (generics : Generics) (fields : List (Option (List Char) × Nat)) : Option Toks :=
  match fields.length with
  | 0 => generateUnitStructImpl name generics false
  | _ => do
    let typeNames : List Toks := fields.map fun f => [.ty f.2]
    let fieldNames : List Toks ← fields.zipIdx.mapM fun (f, i) => match f.1 with
      | some x => pure [.id x]
      | none => q_generate_struct_with_fields_0.fill [(word% "i", .one [.int i])]
    generateStructManyElem name generics fieldNames typeNames

/-- `generate_struct_code` (lines 562-577). -/
def generateStructCode (name : List Char) (generics : Generics) : Fields → Option Toks
  | .unit => generateUnitStructImpl name generics true
  | .named fs => generateStructWithFields name generics (fs.map fun f => (some f.1, f.2))
  | .unnamed ts => generateStructWithFields name generics (ts.map fun t => (none, t))

/-- `derive_enum_like` (lines 606-619). -/
def deriveItem (d : Item) : Option Toks :=
  match d.data with
  | .enum name variants => generateEnumCode name d.generics variants
  | .struct name fields => generateStructCode name d.generics fields
  | .union _ => none

end Quote
end EnumVecModel
