import Verif.Source.Syntax

/-!
# Grammar of `enum_like`

The fragment of Rust in which `enum_like/src/lib.rs` is written: `impl` items with constants and functions, `match` with guards, tuples, structs. It shares the lexer and the table of
operators with `Syntax.lean`, and knows nothing of what the functions do.
-/

namespace EnumVecModel
namespace Source
namespace Like

set_option linter.constructorNameAsVariable false

/-- Patterns of `match`: `x`, `C`, `C(x)`. -/
inductive LPat
  | bind (x : Sym)
  | ctor0 (c : Sym)
  | ctor (c x : Sym)
  deriving DecidableEq, Repr, Lean.ToExpr

/-- Expressions; statements, arms of `match` and fields of struct literals too. -/
inductive LEx
  | unit
  /-- `[]` -/
  | nil
  | num (n : Nat)
  | var (x : Sym)
  /-- `P::X` -/
  | path (p x : Sym)
  /-- `<()>::X` -/
  | unitPath (x : Sym)
  | bin (o : Op) (a b : LEx)
  /-- `e as t` -/
  | cast (e : LEx) (t : Sym)
  /-- `e.f` -/
  | field (e : LEx) (f : Sym)
  /-- `e.0`, `e.1` -/
  | proj (e : LEx) (n : Nat)
  /-- `e.m(a)`; a missing argument is `unit` -/
  | meth (e : LEx) (m : Sym) (a : LEx)
  /-- `P::f(a)` -/
  | call (p f : Sym) (a : LEx)
  /-- `f(a)` -/
  | callv (f : Sym) (a : LEx)
  /-- `(a,)` -/
  | tup1 (a : LEx)
  | tup (a b : LEx)
  /-- `let x = e; rest` -/
  | letE (x : Sym) (e rest : LEx)
  /-- `a; b` -/
  | seq (a b : LEx)
  | ite (c a b : LEx)
  /-- `l = r`, `l += r`, … -/
  | assign (o : Option Op) (l r : LEx)
  /-- `assert!(e)` -/
  | assert (e : LEx)
  /-- `match e { arms }` -/
  | matchE (e arms : LEx)
  /-- `p => e, rest` -/
  | arm (p : LPat) (e rest : LEx)
  /-- `p if g => e, rest` -/
  | armIf (p : LPat) (g e rest : LEx)
  /-- no more arms -/
  | noArm
  /-- `Self { fields }` -/
  | struct (fs : LEx)
  /-- `f: e, rest` -/
  | init (f : Sym) (e rest : LEx)
  /-- no more fields -/
  | noInit
  /-- `&e` -/
  | ref (e : LEx)
  /-- `|x| e` -/
  | lam (x : Sym) (e : LEx)
  /-- `for x in e { b }` -/
  | forE (x : Sym) (e b : LEx)
  deriving DecidableEq, Repr, Lean.ToExpr

/-- A function: its name, its parameters (`self` first) and its body. -/
structure LFn where
  name : Sym
  params : List Sym
  body : LEx
  deriving DecidableEq, Repr, Lean.ToExpr

/-- The type of an `impl`: `()`, `X`, `X<A>`, `X<A, B>`, `(A,)`, `(A, B)`, `[A; n]`. -/
inductive LTy
  | unit
  | name (x : Sym)
  | app1 (x a : Sym)
  | app2 (x a b : Sym)
  | tup1 (a : Sym)
  | tup (a b : Sym)
  | array (a : Sym) (n : Nat)
  deriving DecidableEq, Repr, Lean.ToExpr

/-- `impl<params: EnumLike> tr for ty { consts fns }`; `tr` is `wild` for `impl<params> ty`. -/
structure LImpl where
  params : List Sym
  tr : Sym
  ty : LTy
  consts : List (Sym × LEx)
  fns : List LFn
  deriving DecidableEq, Repr, Lean.ToExpr

/-- Where the parser is. -/
inductive LMode
  /-- an expression whose operators bind at least this tightly -/
  | expr (p : Nat)
  /-- after an operand -/
  | tail (p : Nat) (l : LEx)
  /-- after a primary expression: method calls, fields -/
  | post (e : LEx)
  | prim
  /-- after `{`, up to and including `}` -/
  | block
  /-- in a block, after an expression that ends in `}` -/
  | stmt (e : LEx)
  /-- arms of `match`, up to and including `}` -/
  | arms
  /-- fields of a struct literal, up to and including `}` -/
  | inits

/-- A pattern; a name is a constructor if it is `None` or has an argument. -/
def lpat : Toks → Option (LPat × Toks)
  | .t c :: .t .p_lpar :: .t x :: .t .p_rpar :: r => some (.ctor c x, r)
  | .t .None :: r => some (.ctor0 .None, r)
  | .t x :: r => some (.bind x, r)
  | _ => none

/-- The parser. The number bounds the depth of the recursion. -/
def lparse : Nat → LMode → Toks → Option (LEx × Toks)
  | 0, _, _ => none
  | n + 1, .expr p, ts => do
    let (e, r) ← lparse n .prim ts
    let (e, r) ← lparse n (.post e) r
    lparse n (.tail p e) r
  | n + 1, .tail p l, ts =>
    match ts with
    | .t .k_as :: .t ty :: r => lparse n (.tail p (.cast l ty)) r
    | .t s :: r =>
      match binop s with
      | some (o, q) =>
        if p ≤ q then do
          let (e, r) ← lparse n (.expr (q + 1)) r
          lparse n (.tail p (.bin o l e)) r
        else some (l, ts)
      | none =>
        match assignop s with
        | some o =>
          if p ≤ 1 then do
            let (e, r) ← lparse n (.expr 1) r
            some (.assign o l e, r)
          else some (l, ts)
        | none => some (l, ts)
    | _ => some (l, ts)
  | n + 1, .post e, ts =>
    match ts with
    | .t .p_dot :: .num k :: r => lparse n (.post (.proj e k)) r
    | .t .p_dot :: .t m :: .t .p_lpar :: .t .p_rpar :: r => lparse n (.post (.meth e m .unit)) r
    | .t .p_dot :: .t m :: .t .p_lpar :: r =>
      match lparse n (.expr 0) r with
      | some (a, .t .p_rpar :: r) => lparse n (.post (.meth e m a)) r
      | _ => none
    | .t .p_dot :: .t f :: r => lparse n (.post (.field e f)) r
    | _ => some (e, ts)
  | n + 1, .prim, ts =>
    match ts with
    | .num k :: r => some (.num k, r)
    | .t .p_amp :: r => do
      let (e, r) ← lparse n .prim r
      let (e, r) ← lparse n (.post e) r
      some (.ref e, r)
    | .t .p_bar :: .t x :: .t .p_bar :: r => (lparse n (.expr 0) r).map fun (e, r) => (.lam x e, r)
    | .t .k_for :: .t x :: .t .k_in :: r =>
      match lparse n (.expr 0) r with
      | some (e, .t .p_lbrace :: r) => (lparse n .block r).map fun (b, r) => (.forE x e b, r)
      | _ => none
    | .t .p_lbrack :: .t .p_rbrack :: r => some (.nil, r)
    | .t .p_lt :: .t .p_lpar :: .t .p_rpar :: .t .p_gt :: .t .p_colons :: .t x :: r => some (.unitPath x, r)
    | .t .p_lpar :: .t .p_rpar :: r => some (.unit, r)
    | .t .p_lpar :: r =>
      match lparse n (.expr 0) r with
      | some (e, .t .p_rpar :: r) => some (e, r)
      | some (a, .t .p_comma :: .t .p_rpar :: r) => some (.tup1 a, r)
      | some (a, .t .p_comma :: r) =>
        match lparse n (.expr 0) r with
        | some (b, .t .p_rpar :: r) => some (.tup a b, r)
        | some (b, .t .p_comma :: .t .p_rpar :: r) => some (.tup a b, r)
        | _ => none
      | _ => none
    | .t .k_if :: r =>
      match lparse n (.expr 0) r with
      | some (c, .t .p_lbrace :: r) =>
        match lparse n .block r with
        | some (a, .t .k_else :: .t .p_lbrace :: r) => (lparse n .block r).map fun (b, r) => (.ite c a b, r)
        | some (a, r) => some (.ite c a .unit, r)
        | none => none
      | _ => none
    | .t .k_match :: r =>
      match lparse n (.expr 0) r with
      | some (e, .t .p_lbrace :: r) => (lparse n .arms r).map fun (as, r) => (.matchE e as, r)
      | _ => none
    | .t .assert :: .t .p_bang :: .t .p_lpar :: r =>
      match lparse n (.expr 0) r with
      | some (c, .t .p_rpar :: r) => some (.assert c, r)
      | _ => none
    | .t .Self :: .t .p_lbrace :: r => (lparse n .inits r).map fun (fs, r) => (.struct fs, r)
    -- `P::<A, B>::f(a)`
    | .t p :: .t .p_colons :: .t .p_lt :: .t _ :: .t .p_comma :: .t _ :: .t .p_gt :: .t .p_colons :: .t f :: .t .p_lpar :: r =>
      match lparse n (.expr 0) r with
      | some (a, .t .p_rpar :: r) => some (.call p f a, r)
      | _ => none
    | .t p :: .t .p_colons :: .t f :: .t .p_lpar :: .t .p_rpar :: r => some (.call p f .unit, r)
    | .t p :: .t .p_colons :: .t f :: .t .p_lpar :: r =>
      match lparse n (.expr 0) r with
      | some (a, .t .p_rpar :: r) => some (.call p f a, r)
      | _ => none
    | .t p :: .t .p_colons :: .t x :: r => some (.path p x, r)
    | .t f :: .t .p_lpar :: r =>
      match lparse n (.expr 0) r with
      | some (a, .t .p_rpar :: r) => some (.callv f a, r)
      | _ => none
    | .t x :: r => some (.var x, r)
    | _ => none
  | n + 1, .block, ts =>
    match ts with
    | .t .p_rbrace :: r => some (.unit, r)
    | .t .k_let :: .t .k_mut :: .t x :: .t .p_assign :: r | .t .k_let :: .t x :: .t .p_assign :: r =>
      match lparse n (.expr 0) r with
      | some (e, .t .p_semi :: r) => (lparse n .block r).map fun (rest, r) => (.letE x e rest, r)
      | _ => none
    -- statements that end in a block need no semicolon
    | .t .k_if :: _ | .t .k_match :: _ | .t .k_for :: _ => do
      let (e, r) ← lparse n .prim ts
      lparse n (.stmt e) r
    | _ => do
      let (e, r) ← lparse n (.expr 0) ts
      lparse n (.stmt e) r
  | n + 1, .stmt e, ts =>
    match ts with
    | .t .p_rbrace :: r => some (e, r)
    | .t .p_semi :: r => (lparse n .block r).map fun (b, r) => (.seq e b, r)
    | r =>
      match e with
      | .ite .. | .matchE .. | .forE .. => (lparse n .block r).map fun (b, r) => (.seq e b, r)
      | _ => none
  | n + 1, .arms, ts =>
    match ts with
    | .t .p_rbrace :: r => some (.noArm, r)
    | ts =>
      match lpat ts with
      | some (p, .t .p_fat :: r) =>
        match lparse n (.expr 0) r with
        | some (e, .t .p_comma :: r) => (lparse n .arms r).map fun (as, r) => (.arm p e as, r)
        | some (e, .t .p_rbrace :: r) => some (.arm p e .noArm, r)
        | _ => none
      | some (p, .t .k_if :: r) =>
        match lparse n (.expr 0) r with
        | some (g, .t .p_fat :: r) =>
          match lparse n (.expr 0) r with
          | some (e, .t .p_comma :: r) => (lparse n .arms r).map fun (as, r) => (.armIf p g e as, r)
          | some (e, .t .p_rbrace :: r) => some (.armIf p g e .noArm, r)
          | _ => none
        | _ => none
      | _ => none
  | n + 1, .inits, ts =>
    match ts with
    | .t .p_rbrace :: r => some (.noInit, r)
    | .t f :: .t .p_colon :: r =>
      match lparse n (.expr 0) r with
      | some (e, .t .p_comma :: r) => (lparse n .inits r).map fun (fs, r) => (.init f e fs, r)
      | some (e, .t .p_rbrace :: r) => some (.init f e .noInit, r)
      | _ => none
    -- `f` is short for `f: f`
    | .t f :: .t .p_comma :: r => (lparse n .inits r).map fun (fs, r) => (.init f (.var f) fs, r)
    | _ => none

/-- Skip to the next semicolon and past it. -/
def pastSemi : Toks → Toks
  | .t .p_semi :: r => r
  | _ :: r => pastSemi r
  | [] => []

/-- The items of an `impl`, up to and including `}`; attributes and `type X = …;` are skipped. -/
def litems : Nat → List (Sym × LEx) → List LFn → Toks → Option (List (Sym × LEx) × List LFn × Toks)
  | 0, _, _, _ => none
  | n + 1, cs, fs, ts =>
    match ts with
    | .t .p_rbrace :: r => some (cs.reverse, fs.reverse, r)
    | .t .p_hash :: .t .p_lbrack :: .t _ :: .t .p_lpar :: .t _ :: .t .p_rpar :: .t .p_rbrack :: r => litems n cs fs r
    | .t .k_type :: r => litems n cs fs (pastSemi r)
    | .t .k_pub :: r => litems n cs fs r
    | .t .k_const :: .t x :: .t .p_colon :: .t _ :: .t .p_assign :: r =>
      match lparse 1000 (.expr 2) r with
      | some (e, .t .p_semi :: r) => litems n ((x, e) :: cs) fs r
      | _ => none
    | .t .k_fn :: .t name :: r =>
      match params 1000 (toParams r) with
      | some (ps, r) =>
        match lparse 1000 .block (toBody r) with
        | some (b, r) => litems n cs (⟨name, ps, b⟩ :: fs) r
        | _ => none
      | none => none
    | _ => none

/-- The generic parameters, after `<`, up to and including `>`; every one must have the bound `EnumLike`. -/
def lgenerics : Nat → Toks → Option (List Sym × Toks)
  | 0, _ => none
  | n + 1, ts =>
    match ts with
    | .t .p_gt :: r => some ([], r)
    | .t .p_comma :: r => lgenerics n r
    | .t x :: .t .p_colon :: .t .EnumLike :: r => (lgenerics n r).map fun (xs, r) => (x :: xs, r)
    | _ => none

/-- The type of an `impl`. -/
def lty : Toks → Option (LTy × Toks)
  | .t .p_lpar :: .t .p_rpar :: r => some (.unit, r)
  | .t .p_lpar :: .t a :: .t .p_comma :: .t .p_rpar :: r => some (.tup1 a, r)
  | .t .p_lpar :: .t a :: .t .p_comma :: .t b :: .t .p_rpar :: r => some (.tup a b, r)
  | .t .p_lbrack :: .t a :: .t .p_semi :: .num n :: .t .p_rbrack :: r => some (.array a n, r)
  | .t x :: .t .p_lt :: .t a :: .t .p_gt :: r => some (.app1 x a, r)
  | .t x :: .t .p_lt :: .t a :: .t .p_comma :: .t b :: .t .p_gt :: r => some (.app2 x a b, r)
  | .t x :: r => some (.name x, r)
  | _ => none

/-- After the generic parameters. -/
def limplBody (ps : List Sym) (ts : Toks) : Option LImpl :=
  let (tr, ts) : Sym × Toks := match ts with
    | .t tr :: .t .k_for :: r => (tr, r)
    | r => (.wild, r)
  match lty ts with
  | some (ty, .t .p_lbrace :: r) =>
    match litems 100 [] [] r with
    | some (cs, fs, []) => some ⟨ps, tr, ty, cs, fs⟩
    | _ => none
  | _ => none

/-- An `impl` item. -/
def limplDecl : Toks → Option LImpl
  | .t .k_unsafe :: r => limplDecl r
  | .t .k_impl :: .t .p_lt :: r => (lgenerics 100 r).bind fun (ps, r) => limplBody ps r
  | .t .k_impl :: r => limplBody [] r
  | _ => none

/-- The `impl` with this text. -/
def limplText (cs : List Char) : Option LImpl := (lex 10000 cs).bind limplDecl

/-- An `impl` whose header is kept as it is: the words and marks from `impl` to `{`. -/
structure SImpl where
  header : List Sym
  fns : List LFn
  deriving DecidableEq, Repr, Lean.ToExpr

/-- The words and marks before the next `{`. -/
def sheader : Toks → Option (List Sym × Toks)
  | .t .p_lbrace :: r => some ([], r)
  | .t s :: r => (sheader r).map fun (h, r) => (s :: h, r)
  | _ => none

/-- An `impl` item. -/
def simplDecl (ts : Toks) : Option SImpl :=
  match sheader ts with
  | some (h, r) =>
    match litems 100 [] [] r with
    | some ([], fs, []) => some ⟨h, fs⟩
    | _ => none
  | none => none

/-- The `impl` with this text. -/
def simplText (cs : List Char) : Option SImpl := (lex 10000 cs).bind simplDecl

/-- `rust_item i "…"`, the same with `SImpl`. -/
elab "rust_item " n:ident t:str : command => textCmd ``simplText ``SImpl simplText n t.getString

/-- `rust_impl i "…"` defines `i.text`, the text, and `i`, the item that the parser makes of it, and proves that it does, `i.parses : limplText i.text.toList = some i`. -/
elab "rust_impl " n:ident t:str : command => textCmd ``limplText ``LImpl limplText n t.getString

end Like
end Source
end EnumVecModel
