import Verif.Macro

/-!
# The derive macro: generics and the header of the printed impl (`/repo/enum_like_derive/src/lib.rs`; all line numbers below are of this file)

`Macro.lean` models what the macro prints between the braces. Here: `add_trait_bounds`, `impl_enum_like` and the parts of `syn` they use, as documented (`Punctuated::push`,
`Generics::split_for_impl`).

Simplifications: a bound or a `where` predicate is one opaque token (`::enum_like::EnumLike` is its own token); attributes on parameters are left out.
-/

namespace EnumVecModel
namespace Macro

/-- `syn::punctuated::Punctuated`: items with separators between them and perhaps one after the last item. -/
structure Punctuated (α : Type) where
  items : List α
  trailing : Bool

/-- `Punctuated::push`: adds a separator if the list neither is empty nor ends with one, then the item. -/
def Punctuated.push {α : Type} (p : Punctuated α) (a : α) : Punctuated α := ⟨p.items ++ [a], false⟩

/-- Tokens of a non-empty `Punctuated`. -/
def punctuate {α : Type} (sep : Tok) (f : α → Toks) (trailing : Bool) : List α → Toks
  | [] => []
  | [a] => f a ++ if trailing then [sep] else []
  | a :: b :: l => f a ++ [sep] ++ punctuate sep f trailing (b :: l)

/-- `impl ToTokens for Punctuated`. -/
def Punctuated.toTokens {α : Type} (sep : Tok) (f : α → Toks) (p : Punctuated α) : Toks := punctuate sep f p.trailing p.items

/-- `syn::TypeParamBound`. -/
inductive Bound
  | other (b : Nat)
  | enumLike
  deriving DecidableEq

def Bound.toTokens : Bound → Toks
  | .other b => [.bound b]
  | .enumLike => [.enumLike]

/-- `syn::GenericParam`. -/
inductive GParam
  /-- `'a: bounds` -/
  | life (name : List Char) (bounds : Punctuated Nat)
  /-- `T: bounds = default` -/
  | type (name : List Char) (bounds : Punctuated Bound) (default : Option Nat)
  /-- `const N: ty` -/
  | const (name : List Char) (ty : Nat)

def GParam.isLife : GParam → Bool
  | .life _ _ => true
  | _ => false

/-- `syn::Generics`; the predicates of the `where` clause are opaque. -/
structure Generics where
  params : Punctuated GParam
  where_ : Punctuated Nat

/-- `add_trait_bounds` (lines 580-588). -/
def addTraitBounds (g : Generics) : Generics :=
  { g with params := { g.params with items := g.params.items.map fun p => match p with
      | .type name bounds default => .type name (bounds.push .enumLike) default
      | p => p } }

/-- `: bounds` if there are any. -/
def boundsTokens {α : Type} (f : α → Toks) (p : Punctuated α) : Toks :=
  if p.items.isEmpty then [] else [.colon] ++ p.toTokens .plus f

/-- A parameter as `ImplGenerics` prints it: with bounds, without the default. -/
def GParam.implTokens : GParam → Toks
  | .life name bounds => [.life name] ++ boundsTokens (fun b => [.bound b]) bounds
  | .type name bounds _ => [.id name] ++ boundsTokens Bound.toTokens bounds
  | .const name ty => [.const_, .id name, .colon, .ty ty]

/-- A parameter as `TypeGenerics` prints it: the name. -/
def GParam.tyTokens : GParam → Toks
  | .life name _ => [.life name]
  | .type name _ _ => [.id name]
  | .const name _ => [.id name]

/-- `Generics::split_for_impl` of syn: lifetimes are printed before the other parameters. -/
def Generics.lifetimesFirst (g : Generics) : List GParam := g.params.items.filter (·.isLife) ++ g.params.items.filter (!·.isLife)

/-- `<…>`, nothing if there are no parameters. -/
def angle (f : GParam → Toks) (g : Generics) : Toks :=
  if g.params.items.isEmpty then [] else [.lt] ++ (Punctuated.mk g.lifetimesFirst g.params.trailing).toTokens .comma f ++ [.gt]

/-- `ImplGenerics` of `split_for_impl`. -/
def Generics.implGenerics (g : Generics) : Toks := angle GParam.implTokens g

/-- `TypeGenerics` of `split_for_impl`. -/
def Generics.tyGenerics (g : Generics) : Toks := angle GParam.tyTokens g

/-- The `where` clause of `split_for_impl`. -/
def Generics.whereClause (g : Generics) : Toks :=
  if g.where_.items.isEmpty then [] else [.where_] ++ g.where_.toTokens .comma (fun p => [.pred p])

/-- `impl_enum_like` (lines 592-602). -/
def implEnumLike (name : List Char) (generics : Generics) (body : Toks) : Toks :=
  let generics := addTraitBounds generics
  [.unsafe_, .impl_] ++ generics.implGenerics ++ [.enumLike, .for_, .id name] ++ generics.tyGenerics ++ generics.whereClause ++ [.lbrace] ++ body ++ [.rbrace]

def Input.name : Input → List Char
  | .struct name _ => name
  | .enum name _ => name
  | .union name => name

/-- `syn::DeriveInput`. -/
structure Item where
  generics : Generics
  data : Input

/-- `derive_enum_like` (lines 606-619); `none`: the macro panics. Every `generate_…` function of `Macro.lean` ends with `impl_enum_like(name, generics, body)` on the name and the generics of the declaration (lines
287, 328, 379, 406), and prints nothing else. -/
def deriveItem (d : Item) : Option Toks := (derive d.data).map (implEnumLike d.data.name d.generics)

end Macro
end EnumVecModel
