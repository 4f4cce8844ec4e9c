import Verif.Basic

/-!
# The derive macro as a program that prints Rust tokens (`/repo/enum_like_derive/src/lib.rs`; all line numbers below are of this file)

`Derive.lean` and `Machine.lean` model the *meaning* of the derived impls. This file models the macro itself: the token lists it prints, function by function.
What the printed tokens mean is specified, without reference to this file, in `RustText.lean`.

Simplifications: the path `::enum_like::EnumLike` and `unreachable!()` are one token each; a field type is one opaque token; literals carry no suffix (`0usize` and `0`
are the same token). The header `unsafe impl<…> ::enum_like::EnumLike for Name<…> where … { }` printed by `impl_enum_like` (lines 592-602) around the body is modelled in
`MacroHeader.lean`.
-/

namespace EnumVecModel
namespace Macro

/-- Tokens of the printed Rust text. -/
inductive Tok
  /-- an identifier -/
  | id (s : List Char)
  /-- an integer literal or a tuple field index -/
  | int (n : Nat)
  /-- a field type -/
  | ty (t : Nat)
  | as_ | enumLike | NUM_VARIANTS | to_discr | from_discr | wrapping_div | wrapping_rem | self_ | Self_ | match_ | if_ | const_ | fn_ | usize
  | underscore | unreachable | plus | minus | star | lt | gt | ge | andand | lpar | rpar | lbrace | rbrace | comma | colon | coloncolon | semi
  | fatArrow | arrow | dot | eq
  /-- a lifetime -/
  | life (s : List Char)
  /-- a bound of a generic parameter other than `::enum_like::EnumLike`: a trait or a lifetime, which may mention other parameters -/
  | bound (b : Nat)
  /-- a predicate of a `where` clause -/
  | pred (p : Nat)
  | unsafe_ | impl_ | for_ | where_
  deriving DecidableEq, Repr

/-- `quote::Tokens`. -/
abbrev Toks := List Tok

/-- `syn::Fields`: the names and types of the fields (named fields always have a name, unnamed ones never). -/
inductive Fields
  | unit
  | named (fs : List (List Char × Nat))
  | unnamed (ts : List Nat)
  deriving DecidableEq

/-- `syn::Variant`; `discriminant` is an explicit `= n`. -/
structure Variant where
  ident : List Char
  fields : Fields
  discriminant : Option Int

/-- `syn::Data` with the name of the type. -/
inductive Input
  | struct (name : List Char) (fields : Fields)
  | enum (name : List Char) (variants : List Variant)
  | union (name : List Char)

/-- `<#tn as ::enum_like::EnumLike>::` -/
def qself (tn : Toks) : Toks := [.lt] ++ tn ++ [.as_, .enumLike, .gt, .coloncolon]

/-- `num_variants_product` (lines 437-459). -/
def numVariantsProduct (typeNames : List Toks) : List Toks :=
  let n := typeNames.length
  -- 1usize
  let lastP : Toks := [.int 1]
  let product := [lastP]
  -- A::NUM_VARIANTS
  let (lastP, product) :=
    if 2 ≤ n then
      let lastP := qself (typeNames.getD 0 []) ++ [.NUM_VARIANTS]
      (lastP, product ++ [lastP])
    else (lastP, product)
  -- last_p * B::NUM_VARIANTS
  ((List.range' 2 (n - 2)).foldl (fun (st : Toks × List Toks) i =>
      let lastP := st.1 ++ [.star] ++ qself (typeNames.getD (i - 1) []) ++ [.NUM_VARIANTS]
      (lastP, st.2 ++ [lastP])) (lastP, product)).2

/-- `total_num_variants_product` (lines 423-433). -/
def totalNumVariantsProduct (typeNames : List Toks) : Toks :=
  let typeNamesPlusOne := typeNames ++ [[]]
  let product := numVariantsProduct typeNamesPlusOne
  product.getLastD []

/-- `from_discr_body` (lines 463-501). The repetition `#( … )*` zips its lists. -/
def fromDiscrBody (fieldNames typeNames : List Toks) (value : Toks) : Toks :=
  let product := numVariantsProduct typeNames
  let n := typeNames.length
  let rem := (typeNames.take (n - 1)).map (fun tn => [.dot, .wrapping_rem, .lpar] ++ qself tn ++ [.NUM_VARIANTS, .rpar]) ++ [[]]
  ((fieldNames.zip (typeNames.zip (product.zip rem))).map fun (f, tn, p, r) =>
    f ++ [.colon] ++ qself tn ++ [.from_discr, .lpar] ++
      [.lpar] ++ value ++ [.rpar] ++ [.dot, .wrapping_div, .lpar] ++ p ++ [.rpar] ++ r ++
    [.rpar, .comma]).flatten

/-- `to_discr_body` (lines 504-532). -/
def toDiscrBody (fieldNames typeNames : List Toks) (offset : Toks) (xfieldNames : Option (List Tok)) : Toks :=
  let product := numVariantsProduct typeNames
  match xfieldNames with
  | some xs =>
    [.lpar] ++ offset ++ [.rpar] ++
      ((product.zip (typeNames.zip xs)).map fun (p, tn, x) =>
        [.plus] ++ p ++ [.star] ++ qself tn ++ [.to_discr, .lpar, x, .rpar]).flatten
  | none =>
    [.lpar] ++ offset ++ [.rpar] ++
      ((product.zip (typeNames.zip fieldNames)).map fun (p, tn, f) =>
        [.plus] ++ p ++ [.star] ++ qself tn ++ [.to_discr, .lpar, .self_, .dot] ++ f ++ [.rpar]).flatten

/-- `struct MatchArm` (lines 29-41). -/
structure MatchArm where
  name : List Char
  offset : Nat
  dataFields : Nat
  fieldNames : List Toks
  typeNames : List Toks
  rangeHigh : Toks

/-- What `format!("{}", f)` prints for a field name. -/
def text (f : Toks) : List Char :=
  match f with
  | [.id s] => s
  | [.int n] => Nat.toDigits 10 n
  | _ => []

namespace MatchArm

/-- `MatchArm::unit` (lines 63-65). -/
def unit (name : List Char) (offset : Nat) : MatchArm := ⟨name, offset, 0, [], [], [.int 0]⟩

/-- `print_num_variants` (lines 181-188). -/
def printNumVariants (m : MatchArm) : Toks :=
  if m.dataFields = 0 then [.int 1] else totalNumVariantsProduct m.typeNames

/-- `print_next_range_high` (lines 190-200). Its panic for unit variants is never reached: it is called for data variants only. -/
def printNextRangeHigh (m : MatchArm) : Toks := m.rangeHigh ++ [.plus] ++ m.printNumVariants

/-- `from_fields` (lines 70-124): the arm, and the updated `range_high`. -/
def fromFields (name : List Char) (fields : Fields) (offset : Nat) (rangeHigh : Toks) : MatchArm × Toks :=
  let typeNames : List Toks := match fields with
    | .unit => []
    | .named fs => fs.map fun f => [.ty f.2]
    | .unnamed ts => ts.map fun t => [.ty t]
  let fieldNames : List Toks := match fields with
    | .unit => []
    | .named fs => fs.map fun f => [.id f.1]
    | .unnamed ts => (List.range ts.length).map fun i => [.int i]
  let m : MatchArm := ⟨name, offset, fieldNames.length, fieldNames, typeNames, rangeHigh⟩
  (m, m.printNextRangeHigh)

/-- `print_to_discr` (lines 125-156). -/
def printToDiscr (m : MatchArm) (parent : List Char) : Toks :=
  if m.dataFields = 0 then
    [.id parent, .coloncolon, .id m.name, .fatArrow, .int m.offset, .comma]
  else
    let offset := [.int m.offset, .plus] ++ m.rangeHigh
    let xfieldNames := m.fieldNames.map fun f => Tok.id ('x' :: text f)
    let toDiscr0 := toDiscrBody m.fieldNames m.typeNames offset (some xfieldNames)
    [.id parent, .coloncolon, .id m.name, .lbrace] ++
      ((m.fieldNames.zip xfieldNames).map fun (f, x) => f ++ [.colon, x, .comma]).flatten ++
    [.rbrace, .fatArrow] ++ toDiscr0 ++ [.comma]

/-- `print_from_discr` (lines 157-179). -/
def printFromDiscr (m : MatchArm) (parent : List Char) : Toks :=
  if m.dataFields = 0 then
    [.int m.offset, .fatArrow, .id parent, .coloncolon, .id m.name, .comma]
  else
    let rangeHighNext := m.printNextRangeHigh
    let value := [.id ['x'], .minus, .int m.offset, .minus, .lpar] ++ m.rangeHigh ++ [.rpar]
    let fromDiscr0 := fromDiscrBody m.fieldNames m.typeNames value
    [.id ['x'], .if_, .id ['x'], .ge, .lpar, .int m.offset, .plus] ++ m.rangeHigh ++ [.rpar,
      .andand, .id ['x'], .lt, .lpar, .int m.offset, .plus] ++ rangeHighNext ++ [.rpar, .fatArrow,
      .id parent, .coloncolon, .id m.name, .lbrace] ++ fromDiscr0 ++ [.rbrace, .comma]

end MatchArm

/-- The first loop of `all_variants_of` (lines 203-219). -/
def unitArms (variants : List Variant) : List MatchArm :=
  variants.foldl (fun x v => match v.fields with
    | .unit => x ++ [MatchArm.unit v.ident x.length]
    | _ => x) []

/-- `all_variants_of` (lines 203-265); `none`: one of the assertions in lines 241 and 251 fails. -/
def allVariantsOf (variants : List Variant) : Option (List MatchArm) :=
  let x := unitArms variants
  let offset := x.length
  let step : Option (List MatchArm × Toks) → Variant → Option (List MatchArm × Toks) := fun st v => do
    let (x, rangeHigh) ← st
    match v.fields with
    | .unnamed [] => none
    | .named [] => none
    | .unit => some (x, rangeHigh)
    | fields =>
      let (m, rangeHigh) := MatchArm.fromFields v.ident fields offset rangeHigh
      some (x ++ [m], rangeHigh)
  (variants.foldl step (some (x, [.int 0]))).map (·.1)

/-- `const NUM_VARIANTS: usize = #num; fn from_discr(#var: usize) -> Self { #from } fn to_discr(self) -> usize { #to }` -/
def implBody (num : Toks) (var : List Char) (from_ to_ : Toks) : Toks :=
  [.const_, .NUM_VARIANTS, .colon, .usize, .eq] ++ num ++ [.semi] ++
  [.fn_, .from_discr, .lpar, .id var, .colon, .usize, .rpar, .arrow, .Self_, .lbrace] ++ from_ ++ [.rbrace] ++
  [.fn_, .to_discr, .lpar, .self_, .rpar, .arrow, .usize, .lbrace] ++ to_ ++ [.rbrace]

/-- `value` -/
def valueId : List Char := ['v', 'a', 'l', 'u', 'e']

/-- `generate_rusty_enum_code` (lines 267-309). -/
def generateRustyEnumCode (name : List Char) (variants : List Variant) : Option Toks := do
  let enumVariants ← allVariantsOf variants
  let matchArmFrom := enumVariants.map fun e => e.printFromDiscr name
  let matchArmTo := enumVariants.map fun e => e.printToDiscr name
  let enumCountS := enumVariants.map fun e => e.printNumVariants
  let enumCount := (enumCountS.map fun e => e ++ [.plus]).flatten ++ [.int 0]
  return implBody enumCount valueId
    ([.match_, .id valueId, .lbrace] ++ matchArmFrom.flatten ++ [.underscore, .fatArrow, .unreachable, .rbrace])
    ([.match_, .self_, .lbrace] ++ matchArmTo.flatten ++ [.rbrace])

/-- `generate_c_enum_code` (lines 311-350). -/
def generateCEnumCode (name : List Char) (variants : List Variant) : Toks :=
  let counter := List.range variants.length
  let variant := variants.map fun v => v.ident
  implBody [.int variants.length] valueId
    ([.match_, .id valueId, .lbrace] ++
      ((counter.zip variant).map fun (k, v) => [.int k, .fatArrow, .id name, .coloncolon, .id v, .comma]).flatten ++
      [.underscore, .fatArrow, .unreachable, .rbrace])
    ([.match_, .self_, .lbrace] ++
      ((counter.zip variant).map fun (k, v) => [.id name, .coloncolon, .id v, .fatArrow, .int k, .comma]).flatten ++ [.rbrace])

/-- `generate_enum_code` (lines 352-366). -/
def generateEnumCode (name : List Char) (variants : List Variant) : Option Toks :=
  if variants.all fun v => v.fields = .unit then some (generateCEnumCode name variants) else generateRustyEnumCode name variants

/-- `generate_unit_struct_impl` (lines 371-392). -/
def generateUnitStructImpl (name : List Char) (unit : Bool) : Toks :=
  let hack : Toks := if unit then [] else [.lbrace, .rbrace]
  implBody [.int 1] ('_' :: valueId) ([.id name] ++ hack) [.int 0]

/-- `generate_struct_many_elem` (lines 394-421). -/
def generateStructManyElem (fieldNames typeNames : List Toks) : Toks :=
  let fromDiscr0 := fromDiscrBody fieldNames typeNames [.id valueId]
  let toDiscr0 := toDiscrBody fieldNames typeNames [.int 0] none
  implBody (totalNumVariantsProduct typeNames) valueId ([.Self_, .lbrace] ++ fromDiscr0 ++ [.rbrace]) toDiscr0

/-- `generate_struct_with_fields` (lines 534-560) on the names (`none`: unnamed) and types of the fields. -/
def generateStructWithFields (name : List Char) (fields : List (Option (List Char) × Nat)) : Toks :=
  match fields.length with
  | 0 => generateUnitStructImpl name false
  | _ =>
    let typeNames : List Toks := fields.map fun f => [.ty f.2]
    let fieldNames : List Toks := fields.zipIdx.map fun (f, i) => match f.1 with
      | some x => [.id x]
      | none => [.int i]
    generateStructManyElem fieldNames typeNames

/-- `generate_struct_code` (lines 562-577). -/
def generateStructCode (name : List Char) : Fields → Toks
  | .unit => generateUnitStructImpl name true
  | .named fs => generateStructWithFields name (fs.map fun f => (some f.1, f.2))
  | .unnamed ts => generateStructWithFields name (ts.map fun t => (none, t))

/-- `derive_enum_like` (lines 606-619), the body of the impl; `none`: the macro panics. -/
def derive : Input → Option Toks
  | .enum name variants => generateEnumCode name variants
  | .struct name fields => some (generateStructCode name fields)
  | .union _ => none

end Macro
end EnumVecModel
