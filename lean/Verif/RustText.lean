import Verif.Macro
import Verif.Machine
import Verif.EnumLikeSpec

/-!
# What the printed tokens mean

A specification that does not depend on how the macro builds its tokens: the grammar of the fragment of Rust that is printed (operator precedence and associativity, method
calls, struct expressions, `match`), as a recursive descent parser, and the meaning of the syntax trees with `usize` arithmetic.
-/

namespace EnumVecModel
namespace Macro

/-! ## Syntax -/

/-- Integer expressions, and expressions of field type. -/
inductive Ex
  | lit (n : Nat)
  | var (x : List Char)
  /-- `self.f` -/
  | selfField (f : Tok)
  /-- `<T as EnumLike>::NUM_VARIANTS` -/
  | numVariants (t : Nat)
  /-- `<T as EnumLike>::to_discr(e)` -/
  | toDiscr (t : Nat) (e : Ex)
  /-- `<T as EnumLike>::from_discr(e)` -/
  | fromDiscr (t : Nat) (e : Ex)
  /-- `a.wrapping_div(b)` -/
  | wrappingDiv (a b : Ex)
  /-- `a.wrapping_rem(b)` -/
  | wrappingRem (a b : Ex)
  | add (a b : Ex)
  | sub (a b : Ex)
  | mul (a b : Ex)

/-- Where the parser is: the levels of precedence, from `+`/`-` (loosest) over `*` and method calls to primary expressions. The `…Tail l` modes continue after a
complete operand `l`; the operators associate to the left. -/
inductive Mode
  | sum
  | sumTail (l : Ex)
  | prod
  | prodTail (l : Ex)
  | post
  | postTail (l : Ex)
  | atom

/-- Recursive descent parser for expressions; returns the tree and the rest of the tokens. The number bounds the depth of the recursion. -/
def parse : Nat → Mode → Toks → Option (Ex × Toks)
  | 0, _, _ => none
  | n + 1, .sum, ts => do
    let (e, r) ← parse n .prod ts
    parse n (.sumTail e) r
  | n + 1, .sumTail l, ts =>
    match ts with
    | .plus :: r => do
      let (e, r) ← parse n .prod r
      parse n (.sumTail (.add l e)) r
    | .minus :: r => do
      let (e, r) ← parse n .prod r
      parse n (.sumTail (.sub l e)) r
    | _ => some (l, ts)
  | n + 1, .prod, ts => do
    let (e, r) ← parse n .post ts
    parse n (.prodTail e) r
  | n + 1, .prodTail l, ts =>
    match ts with
    | .star :: r => do
      let (e, r) ← parse n .post r
      parse n (.prodTail (.mul l e)) r
    | _ => some (l, ts)
  | n + 1, .post, ts => do
    let (e, r) ← parse n .atom ts
    parse n (.postTail e) r
  | n + 1, .postTail l, ts =>
    match ts with
    | .dot :: .wrapping_div :: .lpar :: r =>
      match parse n .sum r with
      | some (e, .rpar :: r) => parse n (.postTail (.wrappingDiv l e)) r
      | _ => none
    | .dot :: .wrapping_rem :: .lpar :: r =>
      match parse n .sum r with
      | some (e, .rpar :: r) => parse n (.postTail (.wrappingRem l e)) r
      | _ => none
    | _ => some (l, ts)
  | n + 1, .atom, ts =>
    match ts with
    | .int k :: r => some (.lit k, r)
    | .id x :: r => some (.var x, r)
    | .self_ :: .dot :: .id f :: r => some (.selfField (.id f), r)
    | .self_ :: .dot :: .int f :: r => some (.selfField (.int f), r)
    | .lpar :: r =>
      match parse n .sum r with
      | some (e, .rpar :: r) => some (e, r)
      | _ => none
    | .lt :: .ty t :: .as_ :: .enumLike :: .gt :: .coloncolon :: .NUM_VARIANTS :: r => some (.numVariants t, r)
    | .lt :: .ty t :: .as_ :: .enumLike :: .gt :: .coloncolon :: .to_discr :: .lpar :: r =>
      match parse n .sum r with
      | some (e, .rpar :: r) => some (.toDiscr t e, r)
      | _ => none
    | .lt :: .ty t :: .as_ :: .enumLike :: .gt :: .coloncolon :: .from_discr :: .lpar :: r =>
      match parse n .sum r with
      | some (e, .rpar :: r) => some (.fromDiscr t e, r)
      | _ => none
    | _ => none

/-- Conditions (looser than `+` and `-`; `&&` is loosest). -/
inductive Cond
  | ge (a b : Ex)
  | lt (a b : Ex)
  | and (a b : Cond)

/-- `a >= b`, `a < b`. -/
def parseCmp (n : Nat) (ts : Toks) : Option (Cond × Toks) :=
  match parse n .sum ts with
  | some (a, .ge :: r) => (parse n .sum r).map fun (b, r) => (.ge a b, r)
  | some (a, .lt :: r) => (parse n .sum r).map fun (b, r) => (.lt a b, r)
  | _ => none

/-- `c && c && …`. -/
def parseCond : Nat → Toks → Option (Cond × Toks)
  | 0, _ => none
  | n + 1, ts =>
    match parseCmp n ts with
    | some (c, .andand :: r) => (parseCond n r).map fun (d, r) => (.and c d, r)
    | some (c, r) => some (c, r)
    | none => none

/-- Paths of constructors: `Self`, `S`, `E::V`. -/
inductive Path
  | self_
  | name (a : List Char)
  | variant (a b : List Char)
  deriving DecidableEq

def parsePath : Toks → Option (Path × Toks)
  | .Self_ :: r => some (.self_, r)
  | .id a :: .coloncolon :: .id b :: r => some (.variant a b, r)
  | .id a :: r => some (.name a, r)
  | _ => none

/-- Field names: identifiers and tuple indices. -/
def isFieldName : Tok → Bool
  | .id _ => true
  | .int _ => true
  | _ => false

/-- `f: e, f: e, … }`. -/
def parseInits : Nat → Toks → Option (List (Tok × Ex) × Toks)
  | 0, _ => none
  | n + 1, ts =>
    match ts with
    | .rbrace :: r => some ([], r)
    | f :: .colon :: r =>
      if isFieldName f then
        match parse n .sum r with
        | some (e, .comma :: r) => (parseInits n r).map fun (l, r) => ((f, e) :: l, r)
        | some (e, .rbrace :: r) => some ([(f, e)], r)
        | _ => none
      else none
    | _ => none

/-- A constructor expression: `E::V`, or `E::V { f: e, … }`. -/
structure Ctor where
  path : Path
  inits : Option (List (Tok × Ex))

def parseCtor (n : Nat) (ts : Toks) : Option (Ctor × Toks) :=
  match parsePath ts with
  | some (p, .lbrace :: r) => (parseInits n r).map fun (l, r) => (⟨p, some l⟩, r)
  | some (p, r) => some (⟨p, none⟩, r)
  | none => none

/-- Patterns for a `usize`. -/
inductive IntPat
  | lit (n : Nat)
  /-- `x if c` -/
  | guard (x : List Char) (c : Cond)
  | wild

def parseIntPat (n : Nat) : Toks → Option (IntPat × Toks)
  | .int k :: r => some (.lit k, r)
  | .id x :: .if_ :: r => (parseCond n r).map fun (c, r) => (.guard x c, r)
  | .underscore :: r => some (.wild, r)
  | _ => none

/-- Right side of an arm of `from_discr`: a constructor expression, or (`none`) `unreachable!()`. -/
def parseFromRhs (n : Nat) (ts : Toks) : Option (Option Ctor × Toks) :=
  match ts with
  | .unreachable :: r => some (none, r)
  | _ => (parseCtor n ts).map fun (c, r) => (some c, r)

/-- `pat => rhs, pat => rhs, … }`; the last comma may be left out. -/
def parseFromArms : Nat → Toks → Option (List (IntPat × Option Ctor) × Toks)
  | 0, _ => none
  | n + 1, ts =>
    match ts with
    | .rbrace :: r => some ([], r)
    | _ =>
      match parseIntPat n ts with
      | some (p, .fatArrow :: r) =>
        match parseFromRhs n r with
        | some (b, .comma :: r) => (parseFromArms n r).map fun (l, r) => ((p, b) :: l, r)
        | some (b, .rbrace :: r) => some ([(p, b)], r)
        | _ => none
      | _ => none

/-- The body of `from_discr`: a constructor expression or `match x { … }`. -/
inductive FromFn
  | ctor (c : Ctor)
  | «match» (x : List Char) (arms : List (IntPat × Option Ctor))

def parseFromFn (n : Nat) : Toks → Option (FromFn × Toks)
  | .match_ :: .id x :: .lbrace :: r => (parseFromArms n r).map fun (l, r) => (.match x l, r)
  | ts => (parseCtor n ts).map fun (c, r) => (.ctor c, r)

/-- `f: x, f: x, … }` in a pattern. -/
def parsePatFields : Nat → Toks → Option (List (Tok × List Char) × Toks)
  | 0, _ => none
  | n + 1, ts =>
    match ts with
    | .rbrace :: r => some ([], r)
    | f :: .colon :: .id x :: .comma :: r =>
      if isFieldName f then (parsePatFields n r).map fun (l, r) => ((f, x) :: l, r) else none
    | f :: .colon :: .id x :: .rbrace :: r => if isFieldName f then some ([(f, x)], r) else none
    | _ => none

/-- A pattern for a value of the type: `E::V`, or `E::V { f: x, … }`. -/
structure Pat where
  path : Path
  fields : Option (List (Tok × List Char))

def parsePat (n : Nat) (ts : Toks) : Option (Pat × Toks) :=
  match parsePath ts with
  | some (p, .lbrace :: r) => (parsePatFields n r).map fun (l, r) => (⟨p, some l⟩, r)
  | some (p, r) => some (⟨p, none⟩, r)
  | none => none

/-- `pat => e, pat => e, … }`. -/
def parseToArms : Nat → Toks → Option (List (Pat × Ex) × Toks)
  | 0, _ => none
  | n + 1, ts =>
    match ts with
    | .rbrace :: r => some ([], r)
    | _ =>
      match parsePat n ts with
      | some (p, .fatArrow :: r) =>
        match parse n .sum r with
        | some (e, .comma :: r) => (parseToArms n r).map fun (l, r) => ((p, e) :: l, r)
        | some (e, .rbrace :: r) => some ([(p, e)], r)
        | _ => none
      | _ => none

/-- The body of `to_discr`: an expression or `match self { … }`. -/
inductive ToFn
  | ex (e : Ex)
  | «match» (arms : List (Pat × Ex))

def parseToFn (n : Nat) : Toks → Option (ToFn × Toks)
  | .match_ :: .self_ :: .lbrace :: r => (parseToArms n r).map fun (l, r) => (.match l, r)
  | ts => (parse n .sum ts).map fun (e, r) => (.ex e, r)

/-- The body of an `impl EnumLike`. -/
structure Impl where
  num : Ex
  /-- parameter of `from_discr` -/
  var : List Char
  «from» : FromFn
  to : ToFn

/-- `const NUM_VARIANTS: usize = …; fn from_discr(x: usize) -> Self { … } fn to_discr(self) -> usize { … }`. -/
def parseImpl (n : Nat) : Toks → Option Impl
  | .const_ :: .NUM_VARIANTS :: .colon :: .usize :: .eq :: r =>
    match parse n .sum r with
    | some (num, .semi :: .fn_ :: .from_discr :: .lpar :: .id var :: .colon :: .usize :: .rpar :: .arrow :: .Self_ :: .lbrace :: r) =>
      match parseFromFn n r with
      | some (f, .rbrace :: .fn_ :: .to_discr :: .lpar :: .self_ :: .rpar :: .arrow :: .usize :: .lbrace :: r) =>
        match parseToFn n r with
        | some (t, [.rbrace]) => some ⟨num, var, f, t⟩
        | _ => none
      | _ => none
    | _ => none
  | _ => none

/-- With enough depth the parser returns `b`, however much more depth is allowed. -/
def Eventually {β : Type} (f : Nat → Option β) (b : β) : Prop := ∃ k, ∀ n, k ≤ n → f n = some b

/-- The words that are not identifiers. -/
def keywords : List String :=
  ["as", "break", "const", "continue", "crate", "else", "enum", "extern", "false", "fn", "for", "if", "impl", "in", "let", "loop", "match", "mod", "move", "mut", "pub",
   "ref", "return", "self", "Self", "static", "struct", "super", "trait", "true", "type", "unsafe", "use", "where", "while", "async", "await", "dyn", "abstract", "become",
   "box", "do", "final", "macro", "override", "priv", "typeof", "unsized", "virtual", "yield", "try", "_"]

/-- First character of an identifier (all characters outside ASCII are allowed). -/
def isIdStart (c : Char) : Bool := c.isAlpha || c == '_' || 128 ≤ c.toNat

/-- Further characters of an identifier. -/
def isIdChar (c : Char) : Bool := isIdStart c || c.isDigit

/-- Identifiers of Rust, without the raw ones `r#x`. -/
def isIdent : List Char → Bool
  | [] => false
  | c :: s => isIdStart c && s.all isIdChar && !(keywords.map String.toList).contains (c :: s)

/-- Identifiers are spelled as such. -/
def Tok.Ok : Tok → Prop
  | .id s => isIdent s = true
  | .life s => isIdent s = true
  | _ => True

/-- By the grammar the tokens are the body of an impl with this syntax tree. -/
def Reads (ts : Toks) (i : Impl) : Prop := Eventually (fun n => parseImpl n ts) i

/-- The tokens are the body of an impl with this syntax tree. -/
def Parses (ts : Toks) (i : Impl) : Prop := (∀ t ∈ ts, t.Ok) ∧ Reads ts i

/-- There is at most one syntax tree. -/
theorem Parses.unique {ts : Toks} {i j : Impl} (hi : Parses ts i) (hj : Parses ts j) : i = j := by
  obtain ⟨-, k, hk⟩ := hi
  obtain ⟨-, l, hl⟩ := hj
  have h1 := hk (max k l) (Nat.le_max_left _ _)
  rw [hl (max k l) (Nat.le_max_right _ _)] at h1
  exact (Option.some.inj h1).symm

/-! ## Meaning -/

/-- The field types with their impls. -/
abbrev Interp := Nat → (α : Type) × EnumLike.Mach α

/-- The value of a field: its type and a value of that type. -/
abbrev FieldVal (I : Interp) := (t : Nat) × (I t).1

/-- A value of the type for which the impl is derived: its constructor and its fields by name, in the order of the declaration. -/
structure Obj (I : Interp) where
  ctor : List Char
  fields : List (Tok × FieldVal I)

/-- Values during evaluation. -/
inductive Val (I : Interp)
  | num (n : Nat)
  | field (v : FieldVal I)

/-- Variables and `self`. -/
structure Env (I : Interp) where
  var : List Char → Option (Val I)
  self_ : Option (Obj I)

/-- Nothing is defined. -/
def Env.empty (I : Interp) : Env I := ⟨fun _ => none, none⟩

variable {I : Interp}

/-- Expressions that Rust's type checker rejects do not evaluate. (`Fault.ub` does not occur otherwise in the impls.) -/
abbrev stuck {β : Type} : Except Fault β := .error .ub

def asNum : Val I → Except Fault Nat
  | .num n => .ok n
  | .field _ => stuck

def lookup {β : Type} (f : Tok) : List (Tok × β) → Option β
  | [] => none
  | (g, b) :: l => if g = f then some b else lookup f l

/-- `T::to_discr` of a value, which must have type `T`. -/
def toDiscrOf (t : Nat) : Val I → Except Fault Nat
  | .num _ => stuck
  | .field ⟨t', a⟩ => if t' = t then (I t').2.toDiscr a else stuck

/-- Evaluation of expressions, with `usize` arithmetic. A literal must be a `usize`. -/
def eval (build : Build) (env : Env I) : Ex → Except Fault (Val I)
  | .lit n => if n < build.usizeLim then .ok (.num n) else .error .overflow
  | .var x => match env.var x with
    | some v => .ok v
    | none => stuck
  | .selfField f => match env.self_ with
    | some o => match lookup f o.fields with
      | some v => .ok (.field v)
      | none => stuck
    | none => stuck
  | .numVariants t => do return .num (← (I t).2.num)
  | .toDiscr t e => do return .num (← toDiscrOf t (← eval build env e))
  | .fromDiscr t e => do return .field ⟨t, ← (I t).2.fromDiscr (← asNum (← eval build env e))⟩
  | .wrappingDiv a b => do return .num (← EnumLike.uDiv (← asNum (← eval build env a)) (← asNum (← eval build env b)))
  | .wrappingRem a b => do return .num (← EnumLike.uRem (← asNum (← eval build env a)) (← asNum (← eval build env b)))
  | .add a b => do return .num (← uAdd build (← asNum (← eval build env a)) (← asNum (← eval build env b)))
  | .sub a b => do return .num (← uSub build (← asNum (← eval build env a)) (← asNum (← eval build env b)))
  | .mul a b => do return .num (← uMul build (← asNum (← eval build env a)) (← asNum (← eval build env b)))

/-- An expression of type `usize`. -/
def evalNum (build : Build) (env : Env I) (e : Ex) : Except Fault Nat := do asNum (← eval build env e)

def evalCond (build : Build) (env : Env I) : Cond → Except Fault Bool
  | .ge a b => do
    let x ← evalNum build env a
    let y ← evalNum build env b
    return decide (x ≥ y)
  | .lt a b => do
    let x ← evalNum build env a
    let y ← evalNum build env b
    return decide (x < y)
  | .and a b => do if ← evalCond build env a then evalCond build env b else return false

/-- The declared names and types of the fields; the fields of a tuple struct or tuple variant are named `0`, `1`, … -/
def Fields.decl : Fields → List (Tok × Nat)
  | .unit => []
  | .named fs => fs.map fun f => (.id f.1, f.2)
  | .unnamed ts => ts.zipIdx.map fun (t, i) => (.int i, t)

/-- The constructor that a path means inside the impl: its name and fields. -/
def Input.ctor : Input → Path → Option (List Char × Fields)
  | .struct name fields, .self_ => some (name, fields)
  | .struct name fields, .name a => if a = name then some (name, fields) else none
  | .enum name variants, .variant a b =>
    if a = name then (variants.find? fun v => v.ident = b).map fun v => (v.ident, v.fields) else none
  | _, _ => none

/-- Evaluate the fields of a struct expression in the order in which they are written. -/
def evalInits (build : Build) (env : Env I) : List (Tok × Ex) → Except Fault (List (Tok × FieldVal I))
  | [] => .ok []
  | (f, e) :: l => do
    match ← eval build env e with
    | .field v => return (f, v) :: (← evalInits build env l)
    | .num _ => stuck

/-- Put the fields into the order of the declaration; every field must be there with its type. -/
def arrange (vals : List (Tok × FieldVal I)) : List (Tok × Nat) → Except Fault (List (Tok × FieldVal I))
  | [] => .ok []
  | (f, t) :: l =>
    match lookup f vals with
    | some v => if v.1 = t then do return (f, v) :: (← arrange vals l) else stuck
    | none => stuck

/-- A constructor expression: without braces for unit constructors only; with braces exactly the declared fields must be given. -/
def evalCtor (build : Build) (d : Input) (env : Env I) (c : Ctor) : Except Fault (Obj I) :=
  match d.ctor c.path with
  | none => stuck
  | some (name, fields) =>
    match c.inits with
    | none => if fields = .unit then .ok ⟨name, []⟩ else stuck
    | some l =>
      if l.length = fields.decl.length then do
        let vals ← evalInits build env l
        return ⟨name, ← arrange vals fields.decl⟩
      else stuck

/-- The first arm that matches; `unreachable!()` panics. -/
def evalFromArms (build : Build) (d : Input) (env : Env I) (x : Nat) : List (IntPat × Option Ctor) → Except Fault (Obj I)
  | [] => stuck
  | (p, rhs) :: arms => do
    let env' : Env I := match p with
      | .guard y _ => { env with var := fun z => if z = y then some (.num x) else env.var z }
      | _ => env
    let matches_ ← match p with
      | .lit n => if n < build.usizeLim then .ok (decide (x = n)) else .error .overflow
      | .guard _ c => evalCond build env' c
      | .wild => .ok true
    if matches_ then
      match rhs with
      | some c => evalCtor build d env' c
      | none => .error .badDiscr
    else evalFromArms build d env x arms

/-- `from_discr(x)`. -/
def Impl.evalFrom (i : Impl) (build : Build) (d : Input) (x : Nat) : Except Fault (Obj I) :=
  let env : Env I := ⟨fun z => if z = i.var then some (.num x) else none, none⟩
  match i.from with
  | .ctor c => evalCtor build d env c
  | .match y arms => do evalFromArms build d env (← evalNum build env (.var y)) arms

/-- The variables bound by `{ f: x, … }`: no variable twice, exactly the declared fields. -/
def bindFields (o : Obj I) (pf : List (Tok × List Char)) : Except Fault (Env I) :=
  if pf.length = o.fields.length ∧ (pf.map (·.2)).Nodup ∧ (∀ p ∈ pf, (lookup p.1 o.fields).isSome = true) then
    .ok ⟨fun z => ((pf.find? fun p => p.2 = z).bind fun p => lookup p.1 o.fields).map .field, some o⟩
  else stuck

/-- The first arm that matches. -/
def evalToArms (build : Build) (d : Input) (o : Obj I) : List (Pat × Ex) → Except Fault Nat
  | [] => stuck
  | (p, e) :: arms =>
    match d.ctor p.path with
    | none => stuck
    | some (name, fields) =>
      if name = o.ctor then
        match p.fields with
        | none => if fields = .unit then evalNum build ⟨fun _ => none, some o⟩ e else stuck
        | some pf => do evalNum build (← bindFields o pf) e
      else evalToArms build d o arms

/-- `o.to_discr()`. -/
def Impl.evalTo (i : Impl) (build : Build) (d : Input) (o : Obj I) : Except Fault Nat :=
  match i.to with
  | .ex e => evalNum build ⟨fun _ => none, some o⟩ e
  | .match arms => evalToArms build d o arms

/-- The constant `NUM_VARIANTS`: overflow does not compile. -/
def Impl.evalConst (I : Interp) (build : Build) (i : Impl) : Except Fault Nat := evalNum build.const (Env.empty I) i.num

/-! ## The declared type -/

/-- The field values have the declared names and types. -/
def HasFields : List (Tok × Nat) → List (Tok × FieldVal I) → Prop
  | [], [] => True
  | (f, t) :: ds, (g, v) :: vs => f = g ∧ v.1 = t ∧ HasFields ds vs
  | _, _ => False

/-- `o` is a value of the declared type. -/
def Input.Has (d : Input) (o : Obj I) : Prop :=
  match d with
  | .struct name fields => o.ctor = name ∧ HasFields fields.decl o.fields
  | .enum _ variants => ∃ v ∈ variants, o.ctor = v.ident ∧ HasFields v.fields.decl o.fields
  | .union _ => False

/-- No two fields have the same name. -/
def Fields.Valid (build : Build) : Fields → Prop
  | .unit => True
  | .named fs => (fs.map (·.1)).Nodup
  | .unnamed ts => ts.length < build.usizeLim

/-- Names are not declared twice (and the text has fewer than 2^64 or 2^32 variants and fields). -/
def Input.Distinct (build : Build) : Input → Prop
  | .struct _ fields => fields.Valid build
  | .enum _ variants => (variants.map (·.ident)).Nodup ∧ variants.length < build.usizeLim ∧ ∀ v ∈ variants, v.fields.Valid build
  | .union _ => True

/-- The field names, if there are any. -/
def Fields.names : Fields → List (List Char)
  | .named fs => fs.map (·.1)
  | _ => []

/-- All names in the declaration. -/
def Input.names : Input → List (List Char)
  | .struct name fields => name :: fields.names
  | .enum name variants => name :: variants.flatMap fun v => v.ident :: v.fields.names
  | .union name => [name]

/-- What the Rust compiler checks before it expands the macro. -/
def Input.Valid (build : Build) (d : Input) : Prop := d.Distinct build ∧ ∀ s ∈ d.names, isIdent s = true

/-! ## What an impl must do -/

/-- The documented contract of `trait EnumLike`, for an impl with `NUM_VARIANTS = n` of a type whose values are the `a` with `Has a`: every value has
a number below `n` from which it is recovered, and `from_discr` makes no other objects: it returns a value or panics. -/
structure Lawful {α : Type} (build : Build) (n : Nat) (Has : α → Prop) (to : α → Except Fault Nat) (from_ : Nat → Except Fault α) : Prop where
  fits : n < build.usizeLim
  to : ∀ a, Has a → ∃ k, to a = .ok k ∧ k < n ∧ from_ k = .ok a
  «from» : ∀ x, x < build.usizeLim → (∃ a, Has a ∧ from_ x = .ok a) ∨ from_ x = .error .badDiscr

/-- Every number below `n` is the number of a value. -/
def Onto {α : Type} (n : Nat) (Has : α → Prop) (to : α → Except Fault Nat) (from_ : Nat → Except Fault α) : Prop :=
  ∀ x, x < n → ∃ a, Has a ∧ from_ x = .ok a ∧ to a = .ok x

/-- The impls of the field types are lawful; `num t` is the `NUM_VARIANTS` of the type `t`. -/
def FieldImpls (build : Build) (I : Interp) (num : Nat → Nat) : Prop :=
  ∀ t, (I t).2.num = .ok (num t) ∧ Lawful build (num t) (fun _ => True) (I t).2.toDiscr (I t).2.fromDiscr

/-- Number of combinations of field values. -/
def Fields.size (num : Nat → Nat) (fields : Fields) : Nat := (fields.decl.map fun d => num d.2).prod

/-- Number of values of the declared type. -/
def Input.size (num : Nat → Nat) : Input → Nat
  | .struct _ fields => fields.size num
  | .enum _ variants => (variants.map fun v => v.fields.size num).sum
  | .union _ => 0

/-- `o`, a value of the enum or struct, has this number: the fields are the digits, least significant first, `code` their numbers. In an enum the variants without fields come
first, in the order of declaration, then the others in the order of declaration. -/
def Input.number (num : Nat → Nat) (code : FieldVal I → Nat) (d : Input) (o : Obj I) : Nat :=
  let digits := EnumLike.mixedRadix (o.fields.map fun f => (num f.2.1, code f.2))
  match d with
  | .enum _ variants =>
    let before := variants.takeWhile fun v => v.ident ≠ o.ctor
    if o.fields = [] then (before.filter fun v => v.fields = .unit).length
    else (variants.filter fun v => v.fields = .unit).length + ((before.filter fun v => v.fields ≠ .unit).map fun v => v.fields.size num).sum + digits
  | _ => digits

end Macro
end EnumVecModel
