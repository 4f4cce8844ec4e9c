import Verif.Source.MacroEngine
import Verif.Macro

/-!
# `quote!`

The templates of `quote!` (quote 0.5, as documented): tokens, `#x` for the value of the variable `x`, and `#( … )*` for one copy for each round of the iterators in it. The tokens are those of `Macro.lean`: the paths
`::enum_like::EnumLike` and `unreachable!()` are one token each, and `0usize` and `0` are the same. Repetitions in repetitions and separators are left out (there are none in the crate).
-/

namespace EnumVecModel
namespace Quote
open Macro (Tok Toks)
open Source (textCmd)
open Source.Mac (TTs Tk Delim treesOf Word)

set_option linter.constructorNameAsVariable false

deriving instance Lean.ToExpr for Macro.Tok

/-- Templates. -/
inductive Q
  | nil
  | tok (t : Tok) (rest : Q)
  /-- `#x` -/
  | hole (x : Word) (rest : Q)
  /-- `#( … )*` -/
  | rep (inner rest : Q)
  deriving DecidableEq, Lean.ToExpr

def Q.append : Q → Q → Q
  | .nil, b => b
  | .tok t r, b => .tok t (r.append b)
  | .hole x r, b => .hole x (r.append b)
  | .rep i r, b => .rep i (r.append b)

/-! ## Text -/

/-- Keywords, the names that have a token of their own, and other identifiers. -/
def wordTok (w : Word) : Tok :=
  if w = word% "as" then .as_ else if w = word% "NUM_VARIANTS" then .NUM_VARIANTS else if w = word% "to_discr" then .to_discr else if w = word% "from_discr" then .from_discr
  else if w = word% "wrapping_div" then .wrapping_div else if w = word% "wrapping_rem" then .wrapping_rem else if w = word% "self" then .self_ else if w = word% "Self" then .Self_
  else if w = word% "match" then .match_ else if w = word% "if" then .if_ else if w = word% "const" then .const_ else if w = word% "fn" then .fn_ else if w = word% "usize" then .usize
  else if w = word% "_" then .underscore else if w = word% "unsafe" then .unsafe_ else if w = word% "impl" then .impl_ else if w = word% "for" then .for_ else if w = word% "where" then .where_
  else .id w

/-- Punctuation. -/
def punctTok (w : Word) : Option Tok :=
  if w = word% "+" then some .plus else if w = word% "-" then some .minus else if w = word% "*" then some .star else if w = word% "<" then some .lt else if w = word% ">" then some .gt
  else if w = word% "," then some .comma else if w = word% ":" then some .colon else if w = word% "::" then some .coloncolon else if w = word% ";" then some .semi
  else if w = word% "=>" then some .fatArrow else if w = word% "->" then some .arrow else if w = word% "." then some .dot else if w = word% "=" then some .eq
  else none

/-- The tokens of delimiters. -/
def delimToks : Delim → Option (Tok × Tok)
  | .paren => some (.lpar, .rpar)
  | .brace => some (.lbrace, .rbrace)
  | .bracket => none

/-- The template of token trees. -/
def readQ : TTs → Option Q
  | .nil => some .nil
  | .tok (.p ['#']) (.grp .paren i (.tok (.p ['*']) r)) => do return .rep (← readQ i) (← readQ r)
  | .tok (.p ['#']) (.tok (.id x) r) => do return .hole x (← readQ r)
  | .tok (.p [':', ':']) (.tok (.id a) (.tok (.p [':', ':']) (.tok (.id b) r))) =>
    if a = word% "enum_like" ∧ b = word% "EnumLike" then do return .tok .enumLike (← readQ r) else none
  | .tok (.id a) (.tok (.p ['!']) (.grp .paren .nil r)) => if a = word% "unreachable" then do return .tok .unreachable (← readQ r) else none
  | .tok (.p ['>']) (.tok (.p ['=']) r) => do return .tok .ge (← readQ r)
  | .tok (.p ['&']) (.tok (.p ['&']) r) => do return .tok .andand (← readQ r)
  | .tok (.num n) (.tok (.id w) r) => if w = word% "usize" then do return .tok (.int n) (← readQ r) else none
  | .tok (.num n) r => do return .tok (.int n) (← readQ r)
  | .tok (.id w) r => do return .tok (wordTok w) (← readQ r)
  | .tok (.p w) r => do return .tok (← punctTok w) (← readQ r)
  | .grp d i r => do
    let (a, b) ← delimToks d
    return .tok a ((← readQ i).append (.tok b (← readQ r)))

/-- The template with this text. -/
def quoteText (cs : List Char) : Option Q := treesOf cs >>= readQ

/-- The text of a template. -/
elab "rust_quote " n:ident t:str : command => textCmd ``quoteText ``Q quoteText n t.getString

/-! ## Values -/

/-- The value of a variable: tokens, an iterator over tokens, or `iter::repeat`. -/
inductive Bind
  | one (t : Toks)
  | list (l : List Toks)
  | forever (t : Toks)

abbrev Env := List (Word × Bind)

/-- The value of a variable in round `k` of a repetition: all variables in it are iterators. -/
def Env.round (e : Env) (k : Nat) (x : Word) : Option Toks :=
  match e.lookup x with
  | some (.list l) => l[k]?
  | some (.forever t) => some t
  | _ => none

/-- The variables of a template. -/
def Q.holes : Q → List Word
  | .nil => []
  | .tok _ r => r.holes
  | .hole x r => x :: r.holes
  | .rep i r => i.holes ++ r.holes

/-- How many rounds: until the first iterator is exhausted. `some none`: forever. -/
def Env.rounds (e : Env) : List Word → Option (Option Nat)
  | [] => some none
  | x :: xs =>
    match e.lookup x with
    | some (.list l) =>
      match e.rounds xs with
      | some (some n) => some (some (min l.length n))
      | some none => some (some l.length)
      | none => none
    | some (.forever _) => e.rounds xs
    | _ => none

/-- A template without repetitions. -/
def Q.flat (f : Word → Option Toks) : Q → Option Toks
  | .nil => some []
  | .tok t r => do return t :: (← r.flat f)
  | .hole x r => do return (← f x) ++ (← r.flat f)
  | .rep _ _ => none

/-- What `quote!` makes of a template. `none`: does not compile, or does not terminate. -/
def Q.fill (e : Env) : Q → Option Toks
  | .nil => some []
  | .tok t r => do return t :: (← r.fill e)
  | .hole x r =>
    match e.lookup x with
    | some (.one t) => do return t ++ (← r.fill e)
    | _ => none
  | .rep i r =>
    match e.rounds i.holes with
    | some (some n) => do
      let parts ← (List.range n).mapM fun k => i.flat (e.round k)
      return parts.flatten ++ (← r.fill e)
    | _ => none

end Quote
end EnumVecModel
