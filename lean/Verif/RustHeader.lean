import Verif.RustText
import Verif.MacroHeader

/-!
# What the header of an impl means

A specification that does not depend on how the macro builds its tokens: the grammar of `unsafe impl<…> ::enum_like::EnumLike for Name<…> where … { … }`, and for which
instances of the generic type such a header implements the trait.
-/

namespace EnumVecModel
namespace Macro

/-! ## Syntax -/

/-- A parameter in `impl<…>`. -/
inductive HParam
  | life (x : List Char) (bounds : List Nat)
  | type (x : List Char) (bounds : List Bound)
  | const (x : List Char) (ty : Nat)
  deriving DecidableEq

/-- An argument in `Name<…>`: a lifetime or a name. -/
inductive HArg
  | life (x : List Char)
  | name (x : List Char)
  deriving DecidableEq

structure Header where
  params : List HParam
  self_ : List Char
  args : List HArg
  where_ : List Nat
  deriving DecidableEq

/-- `b + b + …`; a trailing `+` is allowed. -/
def parseLifeBounds : Toks → List Nat × Toks
  | .bound b :: .plus :: r => (b :: (parseLifeBounds r).1, (parseLifeBounds r).2)
  | .bound b :: r => ([b], r)
  | r => ([], r)

/-- `b + b + …`; a trailing `+` is allowed. -/
def parseBounds : Toks → List Bound × Toks
  | .bound b :: .plus :: r => (.other b :: (parseBounds r).1, (parseBounds r).2)
  | .bound b :: r => ([.other b], r)
  | .enumLike :: .plus :: r => (.enumLike :: (parseBounds r).1, (parseBounds r).2)
  | .enumLike :: r => ([.enumLike], r)
  | r => ([], r)

/-- `'a`, `'a: bounds`, `T`, `T: bounds`, `const N: ty`. (Defaults are not allowed in an impl.) -/
def parseParam : Toks → Option (HParam × Toks)
  | .life x :: .colon :: r => some (.life x (parseLifeBounds r).1, (parseLifeBounds r).2)
  | .life x :: r => some (.life x [], r)
  | .id x :: .colon :: r => some (.type x (parseBounds r).1, (parseBounds r).2)
  | .id x :: r => some (.type x [], r)
  | .const_ :: .id x :: .colon :: .ty t :: r => some (.const x t, r)
  | _ => none

/-- `'a`, `T`. -/
def parseArg : Toks → Option (HArg × Toks)
  | .life x :: r => some (.life x, r)
  | .id x :: r => some (.name x, r)
  | _ => none

/-- `p, p, … >`; the last comma may be left out. The number bounds the number of items. -/
def parseList {α : Type} (f : Toks → Option (α × Toks)) : Nat → Toks → Option (List α × Toks)
  | 0, _ => none
  | n + 1, ts =>
    match ts with
    | .gt :: r => some ([], r)
    | _ => match f ts with
      | some (a, .comma :: r) => (parseList f n r).map fun (l, r) => (a :: l, r)
      | some (a, .gt :: r) => some ([a], r)
      | _ => none

/-- `<…>` or nothing. -/
def parseAngle {α : Type} (f : Toks → Option (α × Toks)) : Toks → Option (List α × Toks)
  | .lt :: r => parseList f (r.length + 1) r
  | r => some ([], r)

/-- `p, p, …`; a trailing comma is allowed. -/
def parsePreds : Toks → List Nat × Toks
  | .pred p :: .comma :: r => (p :: (parsePreds r).1, (parsePreds r).2)
  | .pred p :: r => ([p], r)
  | r => ([], r)

/-- `where …` or nothing. -/
def parseWhere : Toks → List Nat × Toks
  | .where_ :: r => parsePreds r
  | r => ([], r)

/-- `unsafe impl<…> ::enum_like::EnumLike for Name<…> where … {`. -/
def parseHeader : Toks → Option (Header × Toks)
  | .unsafe_ :: .impl_ :: r =>
    match parseAngle parseParam r with
    | some (params, .enumLike :: .for_ :: .id name :: r) =>
      match parseAngle parseArg r with
      | some (args, r) =>
        match parseWhere r with
        | (preds, .lbrace :: r) => some (⟨params, name, args, preds⟩, r)
        | _ => none
      | none => none
    | _ => none
  | _ => none

/-- The tokens are an `impl` with this header, and with a body that has this syntax tree. -/
def ParsesItem (ts : Toks) (h : Header) (i : Impl) : Prop :=
  (∀ t ∈ ts, t.Ok) ∧ ∃ body, parseHeader ts = some (h, body ++ [.rbrace]) ∧ Parses body i

/-- There is at most one reading. -/
theorem ParsesItem.unique {ts : Toks} {h h' : Header} {i i' : Impl} (a : ParsesItem ts h i) (b : ParsesItem ts h' i') : h = h' ∧ i = i' := by
  obtain ⟨-, body, h1, h2⟩ := a
  obtain ⟨-, body', k1, k2⟩ := b
  rw [h1] at k1
  obtain ⟨rfl, he⟩ := Prod.mk.inj (Option.some.inj k1)
  obtain rfl := List.append_cancel_right he
  exact ⟨rfl, h2.unique k2⟩

/-! ## Well-formed headers -/

def HParam.isLife : HParam → Bool
  | .life _ _ => true
  | _ => false

/-- The parameter as an argument. -/
def HParam.arg : HParam → HArg
  | .life x _ => .life x
  | .type x _ => .name x
  | .const x _ => .name x

/-- What the compiler demands: no parameter is declared twice, lifetimes come first, the arguments of the self type are declared, every parameter occurs among them. -/
structure Header.WellFormed (h : Header) : Prop where
  distinct : (h.params.map (·.arg)).Nodup
  order : h.params.Pairwise fun p q => q.isLife = true → p.isLife = true
  declared : ∀ a ∈ h.args, a ∈ h.params.map (·.arg)
  constrained : ∀ p ∈ h.params, p.arg ∈ h.args

/-! ## Meaning -/

/-- Arguments of a generic type. -/
inductive GArg (Life Ty Val : Type)
  | life (l : Life)
  | ty (t : Ty)
  | val (v : Val)

/-- A choice of lifetimes, types and values for the names in scope. -/
structure Subst (Life Ty Val : Type) where
  life : List Char → Life
  name : List Char → Ty ⊕ Val

/-- The lifetimes, types and constants of a program, and which bounds they meet. Bounds and predicates may mention the parameters, so their meaning depends on the choice for these. -/
structure Universe where
  Life : Type
  Ty : Type
  Val : Type
  /-- the type implements `EnumLike` -/
  enumLike : Ty → Prop
  /-- the lifetime meets the bound -/
  lifeBound : Subst Life Ty Val → Nat → Life → Prop
  /-- the type meets the bound -/
  tyBound : Subst Life Ty Val → Nat → Ty → Prop
  /-- the constant has the type -/
  hasType : Nat → Val → Prop
  /-- the predicate of a `where` clause is true -/
  pred : Subst Life Ty Val → Nat → Prop

variable {W : Universe}

abbrev Universe.Arg (W : Universe) := GArg W.Life W.Ty W.Val
abbrev Universe.Choice (W : Universe) := Subst W.Life W.Ty W.Val

/-- A type meets a bound. -/
def Bound.Holds (σ : W.Choice) (t : W.Ty) : Bound → Prop
  | .other b => W.tyBound σ b t
  | .enumLike => W.enumLike t

/-- The argument that a lifetime or a name stands for. -/
def HArg.value (σ : W.Choice) : HArg → W.Arg
  | .life x => .life (σ.life x)
  | .name x => match σ.name x with
    | .inl t => .ty t
    | .inr v => .val v

/-- The choice is admissible for the parameter. -/
def HParam.Holds (σ : W.Choice) : HParam → Prop
  | .life x bs => ∀ b ∈ bs, W.lifeBound σ b (σ.life x)
  | .type x bs => ∃ t, σ.name x = .inl t ∧ ∀ b ∈ bs, b.Holds σ t
  | .const x ty => ∃ v, σ.name x = .inr v ∧ W.hasType ty v

/-- The impl with this header is an impl for `Name<args>`: for some choice of its parameters the self type is `Name<args>`, and all bounds and predicates hold. -/
def Header.Applies (h : Header) (args : List W.Arg) : Prop :=
  ∃ σ : W.Choice, h.args.map (·.value σ) = args ∧ (∀ p ∈ h.params, p.Holds σ) ∧ ∀ p ∈ h.where_, W.pred σ p

/-! ## The declared type -/

/-- A declared parameter as an argument. -/
def GParam.arg : GParam → HArg
  | .life x _ => .life x
  | .type x _ _ => .name x
  | .const x _ => .name x

/-- The choice meets what is declared for the parameter. -/
def GParam.Holds (σ : W.Choice) : GParam → Prop
  | .life x bs => ∀ b ∈ bs.items, W.lifeBound σ b (σ.life x)
  | .type x bs _ => ∃ t, σ.name x = .inl t ∧ ∀ b ∈ bs.items, b.Holds σ t
  | .const x ty => ∃ v, σ.name x = .inr v ∧ W.hasType ty v

/-- `Name<args>` is a type: the arguments are of the declared kinds, and meet the declared bounds and the `where` clause. -/
def Generics.Instance (g : Generics) (args : List W.Arg) : Prop :=
  ∃ σ : W.Choice, g.params.items.map (fun p => p.arg.value σ) = args ∧ (∀ p ∈ g.params.items, p.Holds σ) ∧ ∀ p ∈ g.where_.items, W.pred σ p

/-- The name of a lifetime or of a parameter. -/
def HArg.text : HArg → List Char
  | .life x => x
  | .name x => x

/-- What the Rust compiler checks before it expands the macro: parameters are not declared twice, are spelled as identifiers, and lifetimes come first. -/
structure Generics.Valid (g : Generics) : Prop where
  distinct : (g.params.items.map (·.arg)).Nodup
  order : g.params.items.Pairwise fun p q => q.isLife = true → p.isLife = true
  ident : ∀ p ∈ g.params.items, isIdent p.arg.text = true

end Macro
end EnumVecModel
