import Verif.Source.Syntax

/-!
# `macro_rules!`

Lexer and token trees for the text of macros, the patterns and bodies of `macro_rules!`, matching, transcription and expansion. What is left out: fragments other than `tt`,
`ident` and `expr`, repetitions in repetitions, hygiene (the names that bodies bind are bound and used in the same body, or passed on as arguments). Where a repetition
stops because its body does not match, the compiler reports an error if it has already begun to match; the matcher here goes on with what follows in the pattern.
-/

namespace EnumVecModel
namespace Source
namespace Mac

set_option linter.constructorNameAsVariable false

/-- A word, letter by letter. -/
abbrev Word := List Char

/-- Tokens: identifiers and keywords, numbers, punctuation. -/
inductive Tk
  | id (w : Word)
  | num (n : Nat)
  | p (w : Word)
  deriving DecidableEq, Repr, Lean.ToExpr

inductive Delim
  | paren | brace | bracket
  deriving DecidableEq, Repr, Lean.ToExpr

/-- Sequences of token trees: a token, or a group in delimiters, and what follows. -/
inductive TTs
  | nil
  | tok (t : Tk) (rest : TTs)
  | grp (d : Delim) (inner rest : TTs)
  deriving DecidableEq, Repr, Lean.ToExpr

def TTs.append : TTs → TTs → TTs
  | .nil, b => b
  | .tok t r, b => .tok t (r.append b)
  | .grp d i r, b => .grp d i (r.append b)

instance : Append TTs := ⟨TTs.append⟩

/-- How many trees. -/
def TTs.length : TTs → Nat
  | .nil => 0
  | .tok _ r => r.length + 1
  | .grp _ _ r => r.length + 1

/-- One after the other. -/
def TTs.concat : List TTs → TTs
  | [] => .nil
  | a :: l => a ++ TTs.concat l

/-! ## Text -/

/-- The longest prefix of characters with `f`. -/
def spanL (f : Char → Bool) : List Char → List Char × List Char
  | [] => ([], [])
  | c :: cs => if f c then (c :: (spanL f cs).1, (spanL f cs).2) else ([], c :: cs)

def isLetter (c : Char) : Bool := c.isAlpha || c == '_'

def natOf (cs : List Char) : Nat := cs.foldl (fun n c => n * 10 + (c.toNat - 48)) 0

/-- Tokens, delimiters as punctuation. Comments are skipped. -/
def lexTk : Nat → List Char → Option (List Tk)
  | 0, _ => none
  | _, [] => some []
  | n + 1, c :: cs =>
    if c.isWhitespace then lexTk n cs
    else if isLetter c then
      let (w, r) := spanL (fun c => isLetter c || c.isDigit) (c :: cs)
      (.id w :: ·) <$> lexTk n r
    else if c.isDigit then
      let (w, r) := spanL (·.isDigit) (c :: cs)
      (.num (natOf w) :: ·) <$> lexTk n r
    else match c, cs with
      | '/', '/' :: r => lexTk n (spanL (· != '\n') r).2
      | '-', '>' :: r => (.p ['-', '>'] :: ·) <$> lexTk n r
      | '=', '>' :: r => (.p ['=', '>'] :: ·) <$> lexTk n r
      | ':', ':' :: r => (.p [':', ':'] :: ·) <$> lexTk n r
      | c, r => (.p [c] :: ·) <$> lexTk n r

def openD : Tk → Option Delim
  | .p ['('] => some .paren
  | .p ['{'] => some .brace
  | .p ['['] => some .bracket
  | _ => none

def closeD : Tk → Option Delim
  | .p [')'] => some .paren
  | .p ['}'] => some .brace
  | .p [']'] => some .bracket
  | _ => none

/-- Token trees up to the end or to a closing delimiter, and what is left. -/
def trees : Nat → List Tk → Option (TTs × List Tk)
  | 0, _ => none
  | _, [] => some (.nil, [])
  | n + 1, t :: ts =>
    match openD t with
    | some d =>
      match trees n ts with
      | some (inner, t' :: r) =>
        if closeD t' = some d then
          match trees n r with
          | some (rest, r) => some (.grp d inner rest, r)
          | none => none
        else none
      | _ => none
    | none =>
      match closeD t with
      | some _ => some (.nil, t :: ts)
      | none =>
        match trees n ts with
        | some (rest, r) => some (.tok t rest, r)
        | none => none

/-- The token trees of a text. -/
def treesOf (cs : List Char) : Option TTs :=
  match lexTk (cs.length + 1) cs with
  | some ts =>
    match trees (ts.length + 1) ts with
    | some (r, []) => some r
    | _ => none
  | none => none

open Lean Elab in
/-- The token trees of a literal. -/
elab "tts% " s:str : term => do
  let some t := treesOf s.getString.toList | throwError "no token trees"
  return toExpr t

open Lean Elab in
/-- The letters of a literal. -/
elab "word% " s:str : term => return toExpr s.getString.toList

/-! ## Rules -/

inductive Kind
  | tt | ident | expr
  deriving DecidableEq, Repr, Lean.ToExpr

/-- Patterns: tokens, groups, `$x:kind`, `$( … )+` or `$( … )*`, `$( … ),*` or `$( … ),+`. -/
inductive Pats
  | nil
  | tok (t : Tk) (rest : Pats)
  | grp (d : Delim) (inner rest : Pats)
  | frag (x : Word) (k : Kind) (rest : Pats)
  | rep (body : Pats) (plus : Bool) (rest : Pats)
  | sepRep (body : Pats) (sep : Tk) (plus : Bool) (rest : Pats)
  deriving DecidableEq, Repr, Lean.ToExpr

/-- Bodies: tokens, groups, `$x`, `$( … )+` or `$( … )*`, `$( … ),*` or `$( … ),+`. -/
inductive Trs
  | nil
  | tok (t : Tk) (rest : Trs)
  | grp (d : Delim) (inner rest : Trs)
  | var (x : Word) (rest : Trs)
  | rep (body : Trs) (plus : Bool) (rest : Trs)
  | sepRep (body : Trs) (sep : Tk) (plus : Bool) (rest : Trs)
  deriving DecidableEq, Repr, Lean.ToExpr

def toKind (w : Word) : Option Kind :=
  if w = word% "tt" then some .tt else if w = word% "ident" then some .ident else if w = word% "expr" then some .expr else none

def toPlus : Tk → Option Bool
  | .p ['+'] => some true
  | .p ['*'] => some false
  | _ => none

/-- Read a pattern. -/
def toPats : TTs → Option Pats
  | .nil => some .nil
  | .tok (.p ['$']) (.tok (.id x) (.tok (.p [':']) (.tok (.id k) r))) =>
    match toKind k, toPats r with
    | some k, some r => some (.frag x k r)
    | _, _ => none
  | .tok (.p ['$']) (.grp .paren b (.tok (.p ['+']) r)) =>
    match toPats b, toPats r with
    | some b, some r => some (.rep b true r)
    | _, _ => none
  | .tok (.p ['$']) (.grp .paren b (.tok (.p ['*']) r)) =>
    match toPats b, toPats r with
    | some b, some r => some (.rep b false r)
    | _, _ => none
  | .tok (.p ['$']) (.grp .paren b (.tok sep (.tok o r))) =>
    match toPats b, toPlus o, toPats r with
    | some b, some o, some r => some (.sepRep b sep o r)
    | _, _, _ => none
  | .tok t r => if t = .p ['$'] then none else (toPats r).map (.tok t)
  | .grp d i r =>
    match toPats i, toPats r with
    | some i, some r => some (.grp d i r)
    | _, _ => none

/-- Read a body. -/
def toTrs : TTs → Option Trs
  | .nil => some .nil
  | .tok (.p ['$']) (.tok (.id x) r) => (toTrs r).map (.var x)
  | .tok (.p ['$']) (.grp .paren b (.tok (.p ['+']) r)) =>
    match toTrs b, toTrs r with
    | some b, some r => some (.rep b true r)
    | _, _ => none
  | .tok (.p ['$']) (.grp .paren b (.tok (.p ['*']) r)) =>
    match toTrs b, toTrs r with
    | some b, some r => some (.rep b false r)
    | _, _ => none
  | .tok (.p ['$']) (.grp .paren b (.tok sep (.tok o r))) =>
    match toTrs b, toPlus o, toTrs r with
    | some b, some o, some r => some (.sepRep b sep o r)
    | _, _, _ => none
  | .tok t r => if t = .p ['$'] then none else (toTrs r).map (.tok t)
  | .grp d i r =>
    match toTrs i, toTrs r with
    | some i, some r => some (.grp d i r)
    | _, _ => none

structure Rule where
  pat : Pats
  body : Trs
  deriving DecidableEq, Repr, Lean.ToExpr

/-- `( … ) => { … }; …`: the delimiters around patterns and bodies do not matter. -/
def toRules : TTs → Option (List Rule)
  | .nil => some []
  | .grp _ p (.tok (.p ['=', '>']) (.grp _ b (.tok (.p [';']) r))) =>
    match toPats p, toTrs b, toRules r with
    | some p, some b, some r => some (⟨p, b⟩ :: r)
    | _, _, _ => none
  | .grp _ p (.tok (.p ['=', '>']) (.grp _ b .nil)) =>
    match toPats p, toTrs b with
    | some p, some b => some [⟨p, b⟩]
    | _, _ => none
  | _ => none

/-- A macro: its name and its rules. -/
structure Mac where
  name : Word
  rules : List Rule
  deriving DecidableEq, Repr, Lean.ToExpr

/-- `macro_rules! name { … }` -/
def macroText (cs : List Char) : Option Mac :=
  match treesOf cs with
  | some (.tok (.id m) (.tok (.p ['!']) (.tok (.id name) (.grp .brace b .nil)))) =>
    if m = word% "macro_rules" then (toRules b).map (⟨name, ·⟩) else none
  | _ => none

/-! ## Matching -/

/-- What a variable stands for: a tree, or one tree for each round of a repetition. -/
inductive Bnd
  | leaf (v : TTs)
  | seq (vs : List TTs)
  deriving DecidableEq, Repr

abbrev Env := List (Word × Bnd)

/-- Repeat as long as it matches. -/
def matchRep (f : TTs → Option (Env × TTs)) : Nat → TTs → List Env × TTs
  | 0, ts => ([], ts)
  | n + 1, ts =>
    match f ts with
    | none => ([], ts)
    | some (e, r) => (e :: (matchRep f n r).1, (matchRep f n r).2)

/-- Repeat as long as a separator and another match follow. -/
def matchSep (f : TTs → Option (Env × TTs)) (sep : Tk) : Nat → TTs → List Env × TTs
  | 0, ts => ([], ts)
  | n + 1, ts =>
    match f ts with
    | none => ([], ts)
    | some (e, .tok t r) => if t = sep ∧ (f r).isSome then (e :: (matchSep f sep n r).1, (matchSep f sep n r).2) else ([e], .tok t r)
    | some (e, r) => ([e], r)

/-- `,`, `;` and `=>` may follow an expression. -/
def endsExpr (t : Tk) : Bool := t = .p [','] || t = .p [';'] || t = .p ['=', '>']

/-- An expression, up to one of these (outside of delimiters), and what is left. Expressions with one of them outside of delimiters (`f::<A, B>()`, closures with two parameters) are not modelled;
that the text is an expression is left to the compiler. -/
def splitExpr : TTs → TTs × TTs
  | .nil => (.nil, .nil)
  | .tok t r => if endsExpr t then (.nil, .tok t r) else (.tok t (splitExpr r).1, (splitExpr r).2)
  | .grp d i r => (.grp d i (splitExpr r).1, (splitExpr r).2)

/-- The variables of a pattern. -/
def Pats.vars : Pats → List Word
  | .nil => []
  | .tok _ r => r.vars
  | .grp _ i r => i.vars ++ r.vars
  | .frag x _ r => x :: r.vars
  | .rep b _ r => b.vars ++ r.vars
  | .sepRep b _ _ r => b.vars ++ r.vars

/-- The trees that `x` stands for in the rounds of a repetition. -/
def rounds (es : List Env) (x : Word) : Option (List TTs) :=
  es.mapM fun e => match e.lookup x with
    | some (.leaf v) => some v
    | _ => none

/-- Match a pattern: what the variables stand for, and what is left. -/
def Pats.run : Pats → TTs → Option (Env × TTs)
  | .nil, ts => some ([], ts)
  | .tok t r, ts =>
    match ts with
    | .tok t' ts => if t = t' then r.run ts else none
    | _ => none
  | .grp d i r, ts =>
    match ts with
    | .grp d' ts' ts =>
      if d = d' then
        match i.run ts', r.run ts with
        | some (e, .nil), some (e', ts) => some (e ++ e', ts)
        | _, _ => none
      else none
    | _ => none
  | .frag x k r, ts =>
    match k, ts with
    | .expr, ts =>
      match splitExpr ts with
      | (.nil, _) => none
      | (v, ts) => (r.run ts).map fun q => ((x, .leaf v) :: q.1, q.2)
    | _, .tok (.id w) ts => (r.run ts).map fun q => ((x, .leaf (.tok (.id w) .nil)) :: q.1, q.2)
    | .tt, .tok t ts => (r.run ts).map fun q => ((x, .leaf (.tok t .nil)) :: q.1, q.2)
    | .tt, .grp d i ts => (r.run ts).map fun q => ((x, .leaf (.grp d i .nil)) :: q.1, q.2)
    | _, _ => none
  | .rep b plus r, ts =>
    let m := matchRep b.run ts.length ts
    if plus && m.1.isEmpty then none
    else match b.vars.mapM fun x => (rounds m.1 x).map fun l => (x, Bnd.seq l) with
      | none => none
      | some e => (r.run m.2).map fun q => (e ++ q.1, q.2)
  | .sepRep b sep plus r, ts =>
    let m := matchSep b.run sep ts.length ts
    if plus && m.1.isEmpty then none
    else match b.vars.mapM fun x => (rounds m.1 x).map fun l => (x, Bnd.seq l) with
      | none => none
      | some e => (r.run m.2).map fun q => (e ++ q.1, q.2)

/-! ## Transcription -/

/-- The variables of a body. -/
def Trs.vars : Trs → List Word
  | .nil => []
  | .tok _ r => r.vars
  | .grp _ i r => i.vars ++ r.vars
  | .var x r => x :: r.vars
  | .rep b _ r => b.vars ++ r.vars
  | .sepRep b _ _ r => b.vars ++ r.vars

/-- The number of rounds: the variables in `xs` that stand for one tree for each round must agree, and there must be one. -/
def count (xs : List Word) (e : Env) : Option Nat :=
  match e.filterMap fun q => if xs.contains q.1 then (match q.2 with | .seq l => some l.length | .leaf _ => none) else none with
  | [] => none
  | n :: ns => if ns.all (· == n) then some n else none

/-- What the variables stand for in the round `i`. -/
def Env.at (e : Env) (i : Nat) : Env :=
  e.map fun q => match q.2 with
    | .seq l => (q.1, .leaf (l.getD i .nil))
    | .leaf v => (q.1, .leaf v)

/-- With separators between. -/
def sepConcat (sep : Tk) : List TTs → TTs
  | [] => .nil
  | [a] => a
  | a :: l => a ++ .tok sep (sepConcat sep l)

/-- Write a body. -/
def Trs.run : Trs → Env → Option TTs
  | .nil, _ => some .nil
  | .tok t r, e => (r.run e).map (.tok t)
  | .grp d i r, e =>
    match i.run e, r.run e with
    | some i, some r => some (.grp d i r)
    | _, _ => none
  | .var x r, e =>
    match e.lookup x with
    | some (.leaf v) => (r.run e).map (v ++ ·)
    | _ => none
  | .rep b plus r, e =>
    match count b.vars e with
    | none => none
    | some n =>
      if plus && n == 0 then none
      else match (List.range n).mapM fun i => b.run (e.at i) with
        | none => none
        | some ps => (r.run e).map (TTs.concat ps ++ ·)
  | .sepRep b sep plus r, e =>
    match count b.vars e with
    | none => none
    | some n =>
      if plus && n == 0 then none
      else match (List.range n).mapM fun i => b.run (e.at i) with
        | none => none
        | some ps => (r.run e).map (sepConcat sep ps ++ ·)

/-- The first rule whose pattern matches all of the argument. -/
def applyRules : List Rule → TTs → Option TTs
  | [], _ => none
  | ⟨p, b⟩ :: rs, ts =>
    match p.run ts with
    | some (e, .nil) => b.run e
    | _ => applyRules rs ts

/-! ## Expansion -/

/-- `m!( … )` begins here, for a macro that is defined. -/
def isCall (ms : List (Word × List Rule)) : TTs → Bool
  | .tok (.id m) (.tok (.p ['!']) (.grp _ _ _)) => (ms.lookup m).isSome
  | _ => false

/-- `out` is what is left when all macro calls in a text are expanded, and the calls in their results. -/
inductive Expands (ms : List (Word × List Rule)) : TTs → TTs → Prop
  | nil : Expands ms .nil .nil
  | tok {t : Tk} {r r' : TTs} : isCall ms (.tok t r) = false → Expands ms r r' → Expands ms (.tok t r) (.tok t r')
  | grp {d : Delim} {i i' r r' : TTs} : Expands ms i i' → Expands ms r r' → Expands ms (.grp d i r) (.grp d i' r')
  | call {m : Word} {rs : List Rule} {d : Delim} {a b b' r r' : TTs} : ms.lookup m = some rs → applyRules rs a = some b → Expands ms b b' → Expands ms r r' →
      Expands ms (.tok (.id m) (.tok (.p ['!']) (.grp d a r))) (b' ++ r')

/-- The text of a macro definition. -/
elab "rust_macro " n:ident t:str : command => textCmd ``macroText ``Mac macroText n t.getString

/-- The text of a macro call. -/
elab "rust_call " n:ident t:str : command => textCmd ``treesOf ``TTs treesOf n t.getString

end Mac
end Source
end EnumVecModel
