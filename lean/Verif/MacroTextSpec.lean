import Verif.Source.MacroText
import Verif.MacroRules

/-! Specification for properties C85 (the text of the items that `tuple_impls!` and `array_impls!` print, and of the rows they are called with) and C87 (the arguments of `enum_vec!`). -/

namespace EnumVecModel
namespace Source
namespace Mac
open EnumLike.Rules (Row TupleItem ArrayItem)

/-- The macros of the crate (enum_like/src/lib.rs:255-303, 355-397), from their text. -/
def macros : List (Word × List Rule) := [m_tuple_impls, m_reverse_idx_a, m_reverse_idx_b, m_array_impls, m_reverse_idx_c].map fun m => (m.name, m.rules)

def ident (s : String) : TTs := .tok (.id s.toList) .nil
def number (n : Nat) : TTs := .tok (.num n) .nil
def paren (t : TTs) : TTs := .grp .paren t .nil
def brace (t : TTs) : TTs := .grp .brace t .nil
def bracket (t : TTs) : TTs := .grp .bracket t .nil

/-- One text for each item of a list. -/
def each {α : Type} (l : List α) (f : α → TTs) : TTs := TTs.concat (l.map f)

/-- `a, b, c` -/
def commas : List TTs → TTs
  | [] => .nil
  | [a] => a
  | a :: l => a ++ tts% "," ++ commas l

/-- `(3) -> A3` -/
def Row.text (r : Row) : TTs := paren (number r.idx) ++ tts% "->" ++ ident r.ty

/-- `name! { (3) -> A3 (2) -> A2 … }` -/
def callText (name : Word) (rows : List Row) : TTs := .tok (.id name) (.tok (.p ['!']) (brace (each rows Row.text)))

/-- The text of an impl for tuples. -/
def tupleText (it : TupleItem) : TTs :=
  tts% "unsafe impl<" ++ commas (it.params.map fun T => ident T ++ tts% ": EnumLike") ++ tts% "> EnumLike for" ++ paren (commas (it.self_.map ident)) ++ brace (
    tts% "const NUM_VARIANTS: usize = <" ++ paren (paren (each it.inner fun T => ident T ++ tts% ",") ++ tts% "," ++ ident it.last) ++ tts% ">::NUM_VARIANTS;" ++
    tts% "fn to_discr(self) -> usize" ++ brace (
      paren (paren (each it.toIdx fun k => tts% "self." ++ number k ++ tts% ",") ++ tts% ", self." ++ number it.toLast) ++ tts% ".to_discr()") ++
    tts% "fn from_discr(x: usize) -> Self" ++ brace (
      tts% "let a = <" ++ paren (paren (each it.inner fun T => ident T ++ tts% ",") ++ tts% "," ++ ident it.last) ++ tts% ">::from_discr(x);" ++
      paren (each it.fromIdx (fun k => tts% "(a.0)." ++ number k ++ tts% ",") ++ tts% "a.1")))

/-- The text of an impl for arrays. -/
def arrayText (it : ArrayItem) : TTs :=
  tts% "unsafe impl<" ++ ident it.elem ++ tts% ": EnumLike> EnumLike for" ++ bracket (ident it.elem ++ tts% ";" ++ number it.size) ++ brace (
    tts% "const NUM_VARIANTS: usize = <" ++ paren (each it.comps fun T => ident T ++ tts% ",") ++ tts% ">::NUM_VARIANTS;" ++
    tts% "fn to_discr(mut self) -> usize" ++ brace (
      tts% "use std::mem; unsafe" ++ brace (
        paren (each it.toIdx fun k =>
          tts% "mem::replace" ++ paren (tts% "&mut self" ++ bracket (number it.size ++ tts% "- 1 -" ++ number k) ++ tts% ", mem::uninitialized()") ++ tts% ",") ++
        tts% ".to_discr()")) ++
    tts% "fn from_discr(x: usize) -> Self" ++ brace (
      tts% "let t = <" ++ paren (each it.comps fun T => ident T ++ tts% ",") ++ tts% ">::from_discr(x);" ++
      bracket (each it.fromIdx fun k => tts% "t." ++ number k ++ tts% ",")))

/-- No `,`, `;` or `=>` outside of delimiters. -/
def Plain : TTs → Prop
  | .nil => True
  | .tok t r => t ≠ .p [','] ∧ t ≠ .p [';'] ∧ t ≠ .p ['=', '>'] ∧ Plain r
  | .grp _ _ r => Plain r

/-- The text of an expression, as far as the macros can see it: not empty, and none of these outside of delimiters. -/
def ExprText (x : TTs) : Prop := x ≠ .nil ∧ Plain x

/-- `,,,` -/
def trailing (k : Nat) : TTs := each (List.replicate k ()) fun _ => tts% ","

/-- `EnumVec::from_elem(x, n)`, as a block. -/
def fromElemText (x n : TTs) : TTs := brace (tts% "EnumVec::from_elem" ++ paren (x ++ tts% "," ++ n))

/-- `EnumVec::from_slice(&[a, b, c])`, as a block. -/
def fromSliceText (xs : List TTs) : TTs := brace (tts% "EnumVec::from_slice" ++ paren (tts% "&" ++ bracket (commas xs)))

end Mac
end Source
end EnumVecModel
