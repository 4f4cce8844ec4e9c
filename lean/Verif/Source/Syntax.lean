import Verif.Source.Words

/-!
# Grammar

The fragment of Rust in which the methods of `EnumVec` are written, as a recursive descent parser. It knows nothing of what the methods do: precedence and associativity of
operators, method calls, paths, closures, blocks, `let`, `if`, `while`, `for`, `return`, `panic!`, `assert!`, and the header of a function.
-/

namespace EnumVecModel
namespace Source

set_option linter.constructorNameAsVariable false

/-- Binary operators. -/
inductive Op
  | add | sub | mul | div | rem | shl | shr | and | or | xor | eq | ne | lt | le | gt | ge | land | lor
  deriving DecidableEq, Repr, Lean.ToExpr

/-- Patterns of `let` and `for`: `x`, `(x, y)`; `_` is the name `wild`. -/
inductive Pat
  | one (x : Sym)
  | two (x y : Sym)
  deriving DecidableEq, Repr, Lean.ToExpr

/-- Expressions; statements too. Functions have at most two arguments besides `self`, a missing one is `unit`. -/
inductive Ex
  | unit
  | num (n : Nat)
  | bool (b : Bool)
  | var (x : Sym)
  /-- `Self::X`, `T::X`, or a constant of the module -/
  | const (x : Sym)
  | not (e : Ex)
  | deref (e : Ex)
  | ref (e : Ex)
  | refMut (e : Ex)
  | bin (o : Op) (a b : Ex)
  /-- `e as t` -/
  | cast (e : Ex) (t : Sym)
  /-- `e.f` -/
  | field (e : Ex) (f : Sym)
  /-- `e.0`, `e.1` -/
  | proj (e : Ex) (n : Nat)
  /-- `e.m(a, b)` -/
  | meth (e : Ex) (m : Sym) (a b : Ex)
  /-- `P::f(a, b)` -/
  | call (p f : Sym) (a b : Ex)
  /-- `f(a, b)` -/
  | callv (f : Sym) (a b : Ex)
  /-- `e[i]` -/
  | index (e i : Ex)
  | tup (a b : Ex)
  | range (a b : Ex)
  /-- `|x, y| e` -/
  | lam (x y : Sym) (e : Ex)
  /-- `let p = e; rest` -/
  | letE (p : Pat) (e rest : Ex)
  /-- `let f = |x, y| e; rest` -/
  | letFn (f x y : Sym) (e rest : Ex)
  /-- `a; b` -/
  | seq (a b : Ex)
  | ite (c a b : Ex)
  | whileE (c e : Ex)
  | forE (x : Sym) (e b : Ex)
  /-- `l = r`, `l += r`, … -/
  | assign (o : Option Op) (l r : Ex)
  | ret (e : Ex)
  | panic
  /-- `Self { storage: a, num_elements: b, phantom: PhantomData }` -/
  | struct (a b : Ex)
  /-- `EnumVecIter { v: a, range: b }`, `EnumVecIntoIter { v: a, range: b }` -/
  | iter (a b : Ex)
  deriving DecidableEq, Repr, Lean.ToExpr

/-- A function: its name, its parameters (`self` first) and its body. -/
structure Fn where
  name : Sym
  params : List Sym
  body : Ex
  deriving DecidableEq, Repr, Lean.ToExpr

/-- Binary operators and how tightly they bind. -/
def binop : Sym → Option (Op × Nat)
  | .p_oror => some (.lor, 3)
  | .p_andand => some (.land, 4)
  | .p_eqeq => some (.eq, 5)
  | .p_neq => some (.ne, 5)
  | .p_lt => some (.lt, 5)
  | .p_le => some (.le, 5)
  | .p_gt => some (.gt, 5)
  | .p_ge => some (.ge, 5)
  | .p_bar => some (.or, 6)
  | .p_caret => some (.xor, 7)
  | .p_amp => some (.and, 8)
  | .p_shl => some (.shl, 9)
  | .p_shr => some (.shr, 9)
  | .p_plus => some (.add, 10)
  | .p_minus => some (.sub, 10)
  | .p_star => some (.mul, 11)
  | .p_slash => some (.div, 11)
  | .p_percent => some (.rem, 11)
  | _ => none

/-- Assignments; they bind less tightly than all other operators, with ranges between. -/
def assignop : Sym → Option (Option Op)
  | .p_assign => some none
  | .p_addEq => some (some .add)
  | .p_subEq => some (some .sub)
  | .p_mulEq => some (some .mul)
  | .p_andEq => some (some .and)
  | .p_orEq => some (some .or)
  | .p_shlEq => some (some .shl)
  | .p_shrEq => some (some .shr)
  | _ => none

abbrev Toks := List Tok

/-- Skip to the closing parenthesis that matches (the number is the nesting) and past it. -/
def skipParens : Nat → Toks → Option Toks
  | _, [] => none
  | d, .t .p_lpar :: r => skipParens (d + 1) r
  | 0, .t .p_rpar :: r => some r
  | d + 1, .t .p_rpar :: r => skipParens d r
  | d, _ :: r => skipParens d r

/-- The type in a closure's parameter (`: &mut StorageBlock`, `: StorageBlock`) is skipped. -/
def skipType : Toks → Toks
  | .t .p_colon :: .t .p_amp :: .t .k_mut :: .t _ :: r => r
  | .t .p_colon :: .t .p_amp :: .t _ :: r => r
  | .t .p_colon :: .t _ :: r => r
  | r => r

/-- The parameters of a closure, after the first `|`, and the result type if any. -/
def lamParams : Toks → Option (Sym × Sym × Toks)
  | .t x :: r =>
    match skipType r with
    | .t .p_comma :: .t y :: r =>
      match skipType r with
      | .t .p_bar :: .t .p_arrow :: .t _ :: r => some (x, y, r)
      | .t .p_bar :: r => some (x, y, r)
      | _ => none
    | .t .p_bar :: .t .p_arrow :: .t _ :: r => some (x, .wild, r)
    | .t .p_bar :: r => some (x, .wild, r)
    | _ => none
  | _ => none

/-- A pattern. -/
def pat : Toks → Option (Pat × Toks)
  | .t .p_lpar :: .t x :: .t .p_comma :: .t y :: .t .p_rpar :: r => some (.two x y, r)
  | .t .k_mut :: .t x :: r => some (.one x, r)
  | .t x :: r => some (.one x, r)
  | _ => none

/-- Where the parser is. -/
inductive Mode
  /-- an expression whose operators bind at least this tightly -/
  | expr (p : Nat)
  /-- after an operand -/
  | tail (p : Nat) (l : Ex)
  | unary
  /-- after a primary expression: method calls, fields, `[i]` -/
  | post (e : Ex)
  | prim
  /-- after `{`, up to and including `}` -/
  | block
  /-- inside of a block, after an expression that ends in `}` -/
  | stmt (e : Ex)

/-- The arguments of a call, after `(`, given a parser for expressions. -/
def args (expr : Toks → Option (Ex × Toks)) (ts : Toks) : Option ((Ex × Ex) × Toks) :=
  match ts with
  | .t .p_rpar :: r => some ((.unit, .unit), r)
  | .str :: .t .p_rpar :: r => some ((.unit, .unit), r)
  | ts =>
    match expr ts with
    | some (a, .t .p_rpar :: r) => some ((a, .unit), r)
    | some (a, .t .p_comma :: r) =>
      match expr r with
      | some (b, .t .p_rpar :: r) => some ((a, b), r)
      | some (b, .t .p_comma :: .t .p_rpar :: r) => some ((a, b), r)
      | _ => none
    | _ => none

/-- The parser. The number bounds the depth of the recursion. -/
def parse : Nat → Mode → Toks → Option (Ex × Toks)
  | 0, _, _ => none
  | n + 1, .expr p, ts => do
    let (e, r) ← parse n .unary ts
    parse n (.tail p e) r
  | n + 1, .tail p l, ts =>
    match ts with
    | .t .k_as :: .t ty :: r => parse n (.tail p (.cast l ty)) r
    | .t .p_dots :: r =>
      if p ≤ 2 then do
        let (e, r) ← parse n (.expr 3) r
        parse n (.tail p (.range l e)) r
      else some (l, ts)
    | .t s :: r =>
      match binop s with
      | some (o, q) =>
        if p ≤ q then do
          let (e, r) ← parse n (.expr (q + 1)) r
          parse n (.tail p (.bin o l e)) r
        else some (l, ts)
      | none =>
        match assignop s with
        | some o =>
          if p ≤ 1 then do
            let (e, r) ← parse n (.expr 1) r
            some (.assign o l e, r)
          else some (l, ts)
        | none => some (l, ts)
    | _ => some (l, ts)
  | n + 1, .unary, ts =>
    match ts with
    | .t .p_bang :: r => (parse n .unary r).map fun (e, r) => (.not e, r)
    | .t .p_star :: r => (parse n .unary r).map fun (e, r) => (.deref e, r)
    | .t .p_amp :: .t .k_mut :: r => (parse n .unary r).map fun (e, r) => (.refMut e, r)
    | .t .p_amp :: r => (parse n .unary r).map fun (e, r) => (.ref e, r)
    | .t .p_bar :: r => do
      let (x, y, r) ← lamParams r
      let (e, r) ← parse n (.expr 0) r
      some (.lam x y e, r)
    | .t .k_return :: .t .p_semi :: r => some (.ret .unit, .t .p_semi :: r)
    | .t .k_return :: r => (parse n (.expr 0) r).map fun (e, r) => (.ret e, r)
    | _ => do
      let (e, r) ← parse n .prim ts
      parse n (.post e) r
  | n + 1, .post e, ts =>
    match ts with
    | .t .p_dot :: .num k :: r => parse n (.post (.proj e k)) r
    | .t .p_dot :: .t m :: .t .p_lpar :: r => do
      let ((a, b), r) ← args (parse n (.expr 0)) r
      parse n (.post (.meth e m a b)) r
    | .t .p_dot :: .t f :: r => parse n (.post (.field e f)) r
    | .t .p_lbrack :: r =>
      match parse n (.expr 0) r with
      | some (i, .t .p_rbrack :: r) => parse n (.post (.index e i)) r
      | _ => none
    | _ => some (e, ts)
  | n + 1, .prim, ts =>
    match ts with
    -- `1u64` is `1 as u64`
    | .num k :: .t .u64 :: r => some (.cast (.num k) .u64, r)
    | .num k :: r => some (.num k, r)
    | .t .k_true :: r => some (.bool true, r)
    | .t .k_false :: r => some (.bool false, r)
    | .t .p_lpar :: r =>
      match parse n (.expr 0) r with
      | some (e, .t .p_rpar :: r) => some (e, r)
      | some (a, .t .p_comma :: r) =>
        match parse n (.expr 0) r with
        | some (b, .t .p_rpar :: r) => some (.tup a b, r)
        | some (b, .t .p_comma :: .t .p_rpar :: r) => some (.tup a b, r)
        | _ => none
      | _ => none
    | .t .p_lbrace :: r => parse n .block r
    | .t .k_unsafe :: .t .p_lbrace :: r => parse n .block r
    | .t .k_if :: r =>
      match parse n (.expr 0) r with
      | some (c, .t .p_lbrace :: r) =>
        match parse n .block r with
        | some (a, .t .k_else :: .t .p_lbrace :: r) => (parse n .block r).map fun (b, r) => (.ite c a b, r)
        | some (a, r) => some (.ite c a .unit, r)
        | none => none
      | _ => none
    | .t .k_while :: r =>
      match parse n (.expr 0) r with
      | some (c, .t .p_lbrace :: r) => (parse n .block r).map fun (b, r) => (.whileE c b, r)
      | _ => none
    | .t .k_for :: .t x :: .t .k_in :: r =>
      match parse n (.expr 0) r with
      | some (c, .t .p_lbrace :: r) => (parse n .block r).map fun (b, r) => (.forE x c b, r)
      | _ => none
    | .t .panic :: .t .p_bang :: .t .p_lpar :: r => (skipParens 0 r).map fun r => (.panic, r)
    | .t .assert :: .t .p_bang :: .t .p_lpar :: r =>
      match parse n (.expr 0) r with
      | some (c, .t .p_comma :: r) => (skipParens 0 r).map fun r => (.ite c .unit .panic, r)
      | _ => none
    | .t .Self :: .t .p_lbrace :: .t .storage :: .t .p_colon :: r =>
      match parse n (.expr 0) r with
      | some (a, .t .p_comma :: .t .num_elements :: .t .p_colon :: r) =>
        match parse n (.expr 0) r with
        | some (b, .t .p_comma :: .t .phantom :: .t .p_colon :: .t .PhantomData :: .t .p_comma :: .t .p_rbrace :: r) => some (.struct a b, r)
        | _ => none
      | _ => none
    | .t .EnumVecIter :: .t .p_lbrace :: .t .v :: .t .p_colon :: r =>
      match parse n (.expr 0) r with
      | some (a, .t .p_comma :: .t .range :: .t .p_colon :: r) =>
        match parse n (.expr 0) r with
        | some (b, .t .p_comma :: .t .p_rbrace :: r) => some (.iter a b, r)
        | _ => none
      | _ => none
    | .t .EnumVecIntoIter :: .t .p_lbrace :: .t .v :: .t .p_colon :: r =>
      match parse n (.expr 0) r with
      | some (a, .t .p_comma :: .t .range :: .t .p_colon :: r) =>
        match parse n (.expr 0) r with
        | some (b, .t .p_comma :: .t .p_rbrace :: r) => some (.iter a b, r)
        | _ => none
      | _ => none
    | .t p :: .t .p_colons :: .t f :: .t .p_lpar :: r => do
      let ((a, b), r) ← args (parse n (.expr 0)) r
      some (.call p f a b, r)
    | .t .Self :: .t .p_colons :: .t x :: r => some (.const x, r)
    | .t .T :: .t .p_colons :: .t x :: r => some (.const x, r)
    | .t .STORAGE_BLOCK_SIZE :: r => some (.const .STORAGE_BLOCK_SIZE, r)
    | .t f :: .t .p_lpar :: r => do
      let ((a, b), r) ← args (parse n (.expr 0)) r
      some (.callv f a b, r)
    | .t x :: r => some (.var x, r)
    | _ => none
  | n + 1, .block, ts =>
    match ts with
    | .t .p_rbrace :: r => some (.unit, r)
    | .t .k_let :: r =>
      match pat r with
      | some (p, .t .p_assign :: r) =>
        match parse n (.expr 0) r with
        | some (e, .t .p_semi :: r) => do
          let (rest, r) ← parse n .block r
          match p, e with
          | .one f, .lam x y e => some (.letFn f x y e rest, r)
          | p, e => some (.letE p e rest, r)
        | _ => none
      | _ => none
    -- statements that end in a block need no semicolon
    | .t .k_if :: _ | .t .k_while :: _ | .t .k_for :: _ | .t .k_unsafe :: _ => do
      let (e, r) ← parse n .prim ts
      parse n (.stmt e) r
    | _ => do
      let (e, r) ← parse n (.expr 0) ts
      parse n (.stmt e) r
  | n + 1, .stmt e, ts =>
    match ts with
    | .t .p_rbrace :: r => some (e, r)
    | .t .p_semi :: r => (parse n .block r).map fun (b, r) => (.seq e b, r)
    | r =>
      match e with
      | .ite .. | .whileE .. | .forE .. | .seq .. | .letE .. => (parse n .block r).map fun (b, r) => (.seq e b, r)
      | _ => none

/-- The parameters of a function, after `(`; types are skipped. -/
def params : Nat → Toks → Option (List Sym × Toks)
  | 0, _ => none
  | n + 1, ts =>
    match ts with
    | .t .p_rpar :: r => some ([], r)
    | .t .self :: r => (params n r).map fun (ps, r) => (.self :: ps, r)
    | .t .p_amp :: .t .self :: r => (params n r).map fun (ps, r) => (.self :: ps, r)
    | .t .p_amp :: .t .k_mut :: .t .self :: r => (params n r).map fun (ps, r) => (.self :: ps, r)
    | .t .k_mut :: .t x :: .t .p_colon :: r => (params n r).map fun (ps, r) => (x :: ps, r)
    | .t x :: .t .p_colon :: r => (params n r).map fun (ps, r) => (x :: ps, r)
    | _ :: r => params n r
    | [] => none

/-- Skip to the parameters. -/
def toParams : Toks → Toks
  | .t .p_lpar :: r => r
  | _ :: r => toParams r
  | [] => []

/-- Skip the result type and the `where` clause. -/
def toBody : Toks → Toks
  | .t .p_lbrace :: r => r
  | _ :: r => toBody r
  | [] => []

/-- `pub unsafe fn name<…>(params) -> T where … { … }`. -/
def fnDecl (ts : Toks) : Option Fn :=
  match ts with
  | .t .k_pub :: r => fnDecl r
  | .t .k_unsafe :: r => fnDecl r
  | .t .k_fn :: .t name :: r =>
    match params 1000 (toParams r) with
    | some (ps, r) =>
      match parse 1000 .block (toBody r) with
      | some (b, []) => some ⟨name, ps, b⟩
      | _ => none
    | none => none
  | _ => none

/-- The function with this text. -/
def fnText (cs : List Char) : Option Fn := (lex 10000 cs).bind fnDecl

/-- A constant: its name, its type and its value. -/
structure Const where
  name : Sym
  type : Sym
  value : Ex
  deriving DecidableEq, Repr, Lean.ToExpr

/-- `const NAME: type = e;`, and `type NAME = t;`, which is kept as a constant of type `wild`. -/
def constDecl (ts : Toks) : Option Const :=
  match ts with
  | .t .k_const :: .t name :: .t .p_colon :: .t type :: .t .p_assign :: r =>
    match parse 1000 (.expr 2) r with
    | some (e, [.t .p_semi]) => some ⟨name, type, e⟩
    | _ => none
  | [.t .k_type, .t name, .t .p_assign, .t t, .t .p_semi] => some ⟨name, .wild, .var t⟩
  | _ => none

/-- The constant with this text. -/
def constText (cs : List Char) : Option Const := (lex 10000 cs).bind constDecl

open Lean Elab Command Meta in
/-- Define `n.text`, the text, and `n`, what `parser` makes of it, and prove that it does: `n.parses : parser n.text.toList = some n`. -/
def textCmd {α : Type} [ToExpr α] (parser : Name) (type : Name) (run : List Char → Option α) (n : TSyntax `ident) (s : String) : CommandElabM Unit := do
  let name := (← getCurrNamespace) ++ n.getId
  liftTermElabM do
    let some f := run s.toList | throwError "no parse"
    let list := mkApp (mkConst ``List [.zero]) (mkConst ``Char)
    let def' (m : Name) (type value : Lean.Expr) := addAndCompile <| .defnDecl
      { name := m, levelParams := [], type := type, value := value, hints := .regular 0, safety := .safe }
    def' (name ++ `text) (mkConst ``String) (mkStrLit s)
    def' (name ++ `chars) list (toExpr s.toList)
    def' name (mkConst type) (toExpr f)
    addDecl <| .thmDecl { name := name ++ `toList_eq, levelParams := [], type := (← mkEq (mkApp (mkConst ``String.toList) (mkConst (name ++ `text))) (mkConst (name ++ `chars))), value := mkApp (mkConst ``String.toList_ofList) (mkConst (name ++ `chars)) }
  let f := mkIdent n.getId
  elabCommand (← `(theorem $(mkIdent (n.getId ++ `parses)) : $(mkCIdent parser) (String.toList $(mkIdent (n.getId ++ `text))) = some $f := by
    rw [$(mkIdent (n.getId ++ `toList_eq)):ident]; decide +kernel))

/-- `rust_fn f "…"` defines `f.text`, the text, and `f`, the function that the parser makes of it, and proves that it does, `f.parses : fnText f.text.toList = some f`. -/
elab "rust_fn " n:ident t:str : command => textCmd ``fnText ``Fn fnText n t.getString

/-- The same for a constant. -/
elab "rust_const " n:ident t:str : command => textCmd ``constText ``Const constText n t.getString

end Source
end EnumVecModel
