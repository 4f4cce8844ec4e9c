import Verif.Source.LikeText
import Verif.Machine

/-!
# What the text of `enum_like` means

An interpreter for the fragment of Rust in `LikeSyntax.lean`. The type parameters `T` and `S` stand for any two types with any two impls of `EnumLike`, good or bad; a value of `T` is
opaque, all that can be done with it is `to_discr`. Numbers are `usize` (a `u8` or `u16` is only made by `as` and only used by `as usize`); a sum, difference or product that
does not fit panics or wraps, as in `Basic.lean`; a constant that overflows is a compile error in every build.
-/

namespace EnumVecModel
namespace Source
namespace Like

set_option linter.constructorNameAsVariable false

/-- Values. -/
inductive LV (α β : Type)
  | unit
  /-- `[]` -/
  | nil
  | num (n : Nat)
  | bool (b : Bool)
  /-- a value of the type parameter `T` -/
  | T (a : α)
  /-- a value of the type parameter `S` -/
  | S (b : β)
  /-- `None` -/
  | ctor0 (c : Sym)
  /-- `Some(v)`, `Ok(v)`, `Err(v)` -/
  | ctor (c : Sym) (v : LV α β)
  /-- `(v,)` -/
  | tup1 (v : LV α β)
  | tup (v w : LV α β)
  /-- a field of a struct, and the other fields -/
  | fld (f : Sym) (v rest : LV α β)
  /-- no more fields -/
  | recEnd
  deriving Repr

/-- A result or a panic; or no meaning (an ill-typed program). -/
abbrev R (X : Type) := Option (Except Fault X)

/-- Sequencing. -/
def R.bind {X Y : Type} (r : R X) (f : X → R Y) : R Y :=
  match r with
  | Option.some (.ok v) => f v
  | Option.some (.error e) => Option.some (.error e)
  | Option.none => Option.none

variable {α β : Type}

/-- Local variables. -/
abbrev Env (α β : Type) := List (Sym × LV α β)

/-- The value of a variable. -/
def Env.get : Env α β → Sym → Option (LV α β)
  | [], _ => Option.none
  | (y, v) :: r, x => if y = x then Option.some v else Env.get r x

/-- Assign to a variable. -/
def Env.set : Env α β → Sym → LV α β → Env α β
  | [], _, _ => []
  | (y, v) :: r, x, w => if y = x then (y, w) :: r else (y, v) :: Env.set r x w

/-- A field of a struct. -/
def LV.field : LV α β → Sym → Option (LV α β)
  | .fld g v r, f => if g = f then Option.some v else r.field f
  | _, _ => Option.none

/-- Replace a field of a struct. -/
def LV.setField : LV α β → Sym → LV α β → LV α β
  | .fld g v r, f, w => if g = f then .fld g w r else .fld g v (r.setField f w)
  | v, _, _ => v

/-- What an `impl` can refer to. -/
structure Ctx (α β : Type) where
  /-- the impls of `EnumLike` for the type parameters -/
  T : EnumLike.Mach α
  S : EnumLike.Mach β
  /-- `<()>::NUM_VARIANTS` -/
  unitNum : R (LV α β)
  build : Build
  /-- `Self::X` -/
  const : Sym → R (LV α β)
  /-- a call of a method of `Self` with this argument: the result, and `self` afterwards -/
  call : Sym → LV α β → LV α β → R (LV α β × LV α β)

/-- A number, or a panic, or a compile error. -/
def ofNum (r : Except Fault Nat) : R (LV α β) :=
  match r with
  | .ok n => Option.some (.ok (.num n))
  | .error e => Option.some (.error e)

/-- `a op b` on numbers and truth values; `&&` and `||` are not here. -/
def binVal (B : Build) (o : Op) : LV α β → LV α β → R (LV α β)
  | .num a, .num b =>
    match o with
    | .add => ofNum (uAdd B a b)
    | .sub => ofNum (uSub B a b)
    | .mul => ofNum (uMul B a b)
    | .shl => Option.some (if b < (if B.wide then 64 else 32) then .ok (.num (a * 2 ^ b % B.usizeLim)) else if B.checked then .error .overflow
      else .ok (.num (a * 2 ^ (b % (if B.wide then 64 else 32)) % B.usizeLim)))
    | .eq => Option.some (.ok (.bool (decide (a = b))))
    | .ne => Option.some (.ok (.bool (decide (a ≠ b))))
    | .lt => Option.some (.ok (.bool (decide (a < b))))
    | .le => Option.some (.ok (.bool (decide (a ≤ b))))
    | .gt => Option.some (.ok (.bool (decide (b < a))))
    | .ge => Option.some (.ok (.bool (decide (b ≤ a))))
    | _ => Option.none
  | _, _ => Option.none

/-- `n as t`. -/
def castVal (B : Build) (t : Sym) : LV α β → R (LV α β)
  | .num n =>
    match t with
    | .usize => Option.some (.ok (.num (n % B.usizeLim)))
    | .u8 => Option.some (.ok (.num (n % 2 ^ 8)))
    | .u16 => Option.some (.ok (.num (n % 2 ^ 16)))
    | _ => Option.none
  | _ => Option.none

/-- `v.to_discr()`, for a value of a type parameter. -/
def toDiscrVal (Γ : Ctx α β) : LV α β → R (LV α β)
  | .T a => ofNum (Γ.T.toDiscr a)
  | .S b => ofNum (Γ.S.toDiscr b)
  | _ => Option.none

/-- `P::f(v)`. -/
def callVal (Γ : Ctx α β) (p f : Sym) (v : LV α β) : R (LV α β) :=
  match p, f, v with
  | .T, .from_discr, .num x => Option.some ((Γ.T.fromDiscr x).map .T)
  | .S, .from_discr, .num x => Option.some ((Γ.S.fromDiscr x).map .S)
  | .T, .to_discr, .T a => ofNum (Γ.T.toDiscr a)
  | .S, .to_discr, .S b => ofNum (Γ.S.toDiscr b)
  | _, _, _ => Option.none

/-- `P::X`. -/
def pathVal (Γ : Ctx α β) : Sym → Sym → R (LV α β)
  | .T, .NUM_VARIANTS => ofNum Γ.T.num
  | .S, .NUM_VARIANTS => ofNum Γ.S.num
  | .Self, x => Γ.const x
  | _, _ => Option.none

/-- Methods of numbers and of type parameters. -/
def methVal (Γ : Ctx α β) (m : Sym) (v a : LV α β) : R (LV α β) :=
  match m, v, a with
  | .to_discr, v, .unit => toDiscrVal Γ v
  | .wrapping_rem, .num x, .num y => ofNum (EnumLike.uRem x y)
  | .wrapping_div, .num x, .num y => ofNum (EnumLike.uDiv x y)
  | _, _, _ => Option.none

/-- The variables bound by a pattern, if it matches. -/
def matches? (p : LPat) (v : LV α β) : Option (Env α β) :=
  match p, v with
  | .bind x, v => Option.some [(x, v)]
  | .ctor0 c, .ctor0 d => if c = d then Option.some [] else Option.none
  | .ctor c x, .ctor d v => if c = d then Option.some [(x, v)] else Option.none
  | _, _ => Option.none

/-- The interpreter: the value, and the variables afterwards. `sc` is the value that is matched, for the arms of a `match`. -/
def leval (Γ : Ctx α β) (sc : LV α β) : Env α β → LEx → R (LV α β × Env α β)
  | env, .unit => Option.some (.ok (.unit, env))
  | env, .nil => Option.some (.ok (.nil, env))
  | env, .num n => Option.some (.ok (.num n, env))
  | env, .var x =>
    match env.get x with
    | Option.some v => Option.some (.ok (v, env))
    | Option.none => if x = .None then Option.some (.ok (.ctor0 .None, env)) else if x = .PhantomData then Option.some (.ok (.unit, env)) else Option.none
  | env, .path p x => (pathVal Γ p x).bind fun v => Option.some (.ok (v, env))
  | env, .unitPath x => if x = .NUM_VARIANTS then Γ.unitNum.bind fun v => Option.some (.ok (v, env)) else Option.none
  | env, .bin o a b =>
    if o = .land then
      (leval Γ sc env a).bind fun (v, env) =>
        match v with
        | .bool true => leval Γ sc env b
        | .bool false => Option.some (.ok (.bool false, env))
        | _ => Option.none
    else if o = .lor then
      (leval Γ sc env a).bind fun (v, env) =>
        match v with
        | .bool true => Option.some (.ok (.bool true, env))
        | .bool false => leval Γ sc env b
        | _ => Option.none
    else
      (leval Γ sc env a).bind fun (v, env) => (leval Γ sc env b).bind fun (w, env) => (binVal Γ.build o v w).bind fun r => Option.some (.ok (r, env))
  | env, .cast e t => (leval Γ sc env e).bind fun (v, env) => (castVal Γ.build t v).bind fun r => Option.some (.ok (r, env))
  | env, .field e f => (leval Γ sc env e).bind fun (v, env) =>
    match v.field f with
    | Option.some w => Option.some (.ok (w, env))
    | Option.none => Option.none
  | env, .proj e n => (leval Γ sc env e).bind fun (v, env) =>
    match v, n with
    | .tup1 v, 0 => Option.some (.ok (v, env))
    | .tup v _, 0 => Option.some (.ok (v, env))
    | .tup _ w, 1 => Option.some (.ok (w, env))
    | _, _ => Option.none
  | env, .meth e m a =>
    if e = .var .self ∧ (m = .next ∨ m = .nth) then
      (leval Γ sc env a).bind fun (w, env) =>
        match env.get .self with
        | Option.some s => (Γ.call m s w).bind fun (r, s) => Option.some (.ok (r, env.set .self s))
        | Option.none => Option.none
    else
      (leval Γ sc env e).bind fun (v, env) => (leval Γ sc env a).bind fun (w, env) => (methVal Γ m v w).bind fun r => Option.some (.ok (r, env))
  | env, .call p f a => (leval Γ sc env a).bind fun (v, env) => (callVal Γ p f v).bind fun r => Option.some (.ok (r, env))
  | env, .callv f a =>
    if f = .Some ∨ f = .Ok ∨ f = .Err then (leval Γ sc env a).bind fun (v, env) => Option.some (.ok (.ctor f v, env)) else Option.none
  | env, .tup1 a => (leval Γ sc env a).bind fun (v, env) => Option.some (.ok (.tup1 v, env))
  | env, .tup a b => (leval Γ sc env a).bind fun (v, env) => (leval Γ sc env b).bind fun (w, env) => Option.some (.ok (.tup v w, env))
  | env, .letE x e rest => (leval Γ sc env e).bind fun (v, env) => (leval Γ sc ((x, v) :: env) rest).bind fun (r, env) => Option.some (.ok (r, env.drop 1))
  | env, .seq a b => (leval Γ sc env a).bind fun (_, env) => leval Γ sc env b
  | env, .ite c a b => (leval Γ sc env c).bind fun (v, env) =>
    match v with
    | .bool true => leval Γ sc env a
    | .bool false => leval Γ sc env b
    | _ => Option.none
  | env, .assign o l r =>
    match l with
    | .field (.var x) f => (leval Γ sc env r).bind fun (w, env) =>
      match env.get x with
      | Option.some s =>
        match o with
        | Option.none => Option.some (.ok (.unit, env.set x (s.setField f w)))
        | Option.some o =>
          match s.field f with
          | Option.some v => (binVal Γ.build o v w).bind fun r => Option.some (.ok (.unit, env.set x (s.setField f r)))
          | Option.none => Option.none
      | Option.none => Option.none
    | _ => Option.none
  | env, .assert e => (leval Γ sc env e).bind fun (v, env) =>
    match v with
    | .bool true => Option.some (.ok (.unit, env))
    | .bool false => Option.some (.error .index)
    | _ => Option.none
  | env, .matchE e arms => (leval Γ sc env e).bind fun (v, env) => leval Γ v env arms
  | env, .arm p e rest =>
    match matches? p sc with
    | Option.some bs => (leval Γ sc (bs ++ env) e).bind fun (r, env) => Option.some (.ok (r, env.drop bs.length))
    | Option.none => leval Γ sc env rest
  | env, .armIf p g e rest =>
    match matches? p sc with
    | Option.some bs => (leval Γ sc (bs ++ env) g).bind fun (v, env') =>
      match v with
      | .bool true => (leval Γ sc env' e).bind fun (r, env) => Option.some (.ok (r, env.drop bs.length))
      | .bool false => leval Γ sc env rest
      | _ => Option.none
    | Option.none => leval Γ sc env rest
  | _, .noArm => Option.none
  | env, .struct fs => leval Γ sc env fs
  | env, .init f e rest => (leval Γ sc env e).bind fun (v, env) => (leval Γ sc env rest).bind fun (w, env) => Option.some (.ok (.fld f v w, env))
  | env, .noInit => Option.some (.ok (.recEnd, env))
  | _, .ref _ | _, .lam _ _ | _, .forE _ _ _ => Option.none

/-! ## Running an `impl` -/

/-- The impls of the type parameters, and the build. -/
structure Types (α β : Type) where
  T : EnumLike.Mach α
  S : EnumLike.Mach β
  build : Build

/-- Look up a constant. -/
def LImpl.constOf (i : LImpl) (x : Sym) : Option LEx := (i.consts.find? fun k => k.1 = x).map (·.2)

/-- Look up a function. -/
def LImpl.fnOf (i : LImpl) (f : Sym) : Option LFn := i.fns.find? fun k => k.name = f

/-- The context in which constants are evaluated: with overflow checks, and without functions or other constants of the `impl`. -/
def Types.constCtx (τ : Types α β) (unitNum : R (LV α β)) : Ctx α β :=
  { T := τ.T, S := τ.S, unitNum := unitNum, build := τ.build.const, const := fun _ => Option.none, call := fun _ _ _ => Option.none }

/-- `NUM_VARIANTS` of `()`. -/
def Types.unitNum (τ : Types α β) : R (LV α β) :=
  match i_unit.constOf .NUM_VARIANTS with
  | Option.some e => (leval (τ.constCtx Option.none) .unit [] e).bind fun (v, _) => Option.some (.ok v)
  | Option.none => Option.none

/-- The value of a constant of an `impl`. -/
def LImpl.const (i : LImpl) (τ : Types α β) (x : Sym) : R (LV α β) :=
  match i.constOf x with
  | Option.some e => (leval (τ.constCtx τ.unitNum) .unit [] e).bind fun (v, _) => Option.some (.ok v)
  | Option.none => Option.none

/-- Bind parameters to arguments. -/
def bindArgs : List Sym → List (LV α β) → Option (Env α β)
  | [], [] => Option.some []
  | x :: xs, v :: vs => (bindArgs xs vs).map ((x, v) :: ·)
  | _, _ => Option.none

/-- The arguments of `self.m(a)`. -/
def callArgs (s : LV α β) : LV α β → List (LV α β)
  | .unit => [s]
  | a => [s, a]

/-- Call a function of an `impl`: the result, and `self` afterwards (`unit` if there is none). The number bounds the depth of the calls. -/
def LImpl.run (i : LImpl) (τ : Types α β) : Nat → Sym → List (LV α β) → R (LV α β × LV α β)
  | 0, _, _ => Option.none
  | d + 1, f, args =>
    match i.fnOf f with
    | Option.some fn =>
      match bindArgs fn.params args with
      | Option.some env =>
        (leval { T := τ.T, S := τ.S, unitNum := τ.unitNum, build := τ.build, const := i.const τ,
                 call := fun g s a => i.run τ d g (callArgs s a) } .unit env fn.body).bind fun (v, env) =>
          Option.some (.ok (v, (env.get .self).getD .unit))
      | Option.none => Option.none
    | Option.none => Option.none

end Like
end Source
end EnumVecModel
