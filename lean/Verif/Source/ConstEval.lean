import Verif.Source.ConstText
import Verif.Basic

/-!
# Constants

How the compiler evaluates constants: with overflow checks, whatever the build; a failed check is a compile error. Integers have types: a literal takes the type of the other operand,
or the one that is expected.
-/

namespace EnumVecModel
namespace Source

set_option linter.constructorNameAsVariable false

/-- Values of constants. -/
inductive CVal
  /-- a number of this type -/
  | num (t : Sym) (n : Nat)
  | bool (b : Bool)
  deriving DecidableEq, Repr

/-- A value, a compile error found by evaluation, or no meaning. -/
abbrev CRes := Option (Except Fault CVal)

def CRes.bind (r : CRes) (f : CVal → CRes) : CRes :=
  match r with
  | Option.some (.ok v) => f v
  | r => r

/-- Width of a type. -/
def builtinBits (B : Build) : Sym → Option Nat
  | .usize => Option.some (if B.wide then 64 else 32)
  | .u8 => Option.some 8
  | .u16 => Option.some 16
  | .u32 => Option.some 32
  | .u64 => Option.some 64
  | .u128 => Option.some 128
  | _ => Option.none

/-- The declaration of a name. -/
def lookup (cs : List Const) (x : Sym) : Option Const := cs.find? fun k => k.name = x

/-- Width of a type of the module. -/
def typeBits (cs : List Const) (B : Build) (t : Sym) : Option Nat :=
  match builtinBits B t with
  | Option.some w => Option.some w
  | Option.none =>
    match lookup cs t with
    | Option.some ⟨_, .wild, .var t⟩ => builtinBits B t
    | _ => Option.none

/-- Arithmetic. -/
def arith : Op → Bool
  | .add | .sub | .mul | .div => true
  | _ => false

/-- Comparisons. -/
def compare : Op → Option (Nat → Nat → Bool)
  | .lt => Option.some fun x y => decide (x < y)
  | .le => Option.some fun x y => decide (x ≤ y)
  | .gt => Option.some fun x y => decide (y < x)
  | .ge => Option.some fun x y => decide (y ≤ x)
  | .eq => Option.some fun x y => decide (x = y)
  | .ne => Option.some fun x y => decide (x ≠ y)
  | _ => Option.none

/-- The type of an expression, if it does not depend on the context. -/
def typeOf (cs : List Const) : Ex → Option Sym
  | .const x => if x = .NUM_VARIANTS then Option.some .usize else (lookup cs x).map (·.type)
  | .cast _ t => Option.some t
  | .bin o a b =>
    if o = .shl ∨ o = .shr then typeOf cs a
    else if arith o then
      match typeOf cs a with
      | Option.some t => Option.some t
      | Option.none => typeOf cs b
    else Option.none
  | _ => Option.none

/-- `x op y` in a type of `w` bits. -/
def arithVal (o : Op) (w : Nat) (t : Sym) (x y : Nat) : CRes :=
  match o with
  | .add => Option.some (if x + y < 2 ^ w then .ok (.num t (x + y)) else .error .overflow)
  | .sub => Option.some (if y ≤ x then .ok (.num t (x - y)) else .error .overflow)
  | .mul => Option.some (if x * y < 2 ^ w then .ok (.num t (x * y)) else .error .overflow)
  | .div => Option.some (if y = 0 then .error .overflow else .ok (.num t (x / y)))
  | _ => Option.none

/-- Shifts in a type of `w` bits: the amount must be below `w`, bits are lost. -/
def shiftVal (o : Op) (w : Nat) (t : Sym) (x n : Nat) : CRes :=
  match o with
  | .shl => Option.some (if n < w then .ok (.num t (x * 2 ^ n % 2 ^ w)) else .error .overflow)
  | .shr => Option.some (if n < w then .ok (.num t (x / 2 ^ n)) else .error .overflow)
  | _ => Option.none

/-- `v as t`, for a type of `w` bits. -/
def castC (w : Nat) (t : Sym) : CVal → CVal
  | .bool b => .num t (if b then 1 else 0)
  | .num _ n => .num t (n % 2 ^ w)

/-- The value of an expression, where a literal on its own has type `t`; `Γ` has the values of the constants. (The amount of a shift that is a literal is a `usize` here; for the compiler it is an `i32`.) -/
def evalC (cs : List Const) (B : Build) (Γ : Sym → CRes) : Option Sym → Ex → CRes
  | t, .num n =>
    match t with
    | Option.some t =>
      match typeBits cs B t with
      | Option.some w => if n < 2 ^ w then Option.some (.ok (.num t n)) else Option.none
      | Option.none => Option.none
    | Option.none => Option.none
  | _, .const x => Γ x
  | _, .cast e t =>
    match typeBits cs B t with
    | Option.some w => (evalC cs B Γ ((typeOf cs e).orElse fun _ => Option.some t) e).bind fun v => Option.some (.ok (castC w t v))
    | Option.none => Option.none
  | t, .bin o a b =>
    if o = .shl ∨ o = .shr then
      (evalC cs B Γ t a).bind fun x =>
      (evalC cs B Γ ((typeOf cs b).orElse fun _ => Option.some .usize) b).bind fun y =>
        match x, y with
        | .num t x, .num _ n =>
          match typeBits cs B t with
          | Option.some w => shiftVal o w t x n
          | Option.none => Option.none
        | _, _ => Option.none
    else if arith o then
      (evalC cs B Γ ((typeOf cs (.bin o a b)).orElse fun _ => t) a).bind fun x =>
      (evalC cs B Γ ((typeOf cs (.bin o a b)).orElse fun _ => t) b).bind fun y =>
        match x, y with
        | .num t x, .num t' y =>
          if t = t' then
            match typeBits cs B t with
            | Option.some w => arithVal o w t x y
            | Option.none => Option.none
          else Option.none
        | _, _ => Option.none
    else
      match compare o with
      | Option.some f =>
        (evalC cs B Γ ((typeOf cs a).orElse fun _ => typeOf cs b) a).bind fun x =>
        (evalC cs B Γ ((typeOf cs a).orElse fun _ => typeOf cs b) b).bind fun y =>
          match x, y with
          | .num t x, .num t' y => if t = t' then Option.some (.ok (.bool (f x y))) else Option.none
          | _, _ => Option.none
      | Option.none => Option.none
  | _, _ => Option.none

/-- The value must have the declared type. -/
def CRes.typed (t : Sym) (r : CRes) : CRes :=
  r.bind fun v =>
    match v with
    | .num t' n => if t = t' then Option.some (.ok (.num t n)) else Option.none
    | _ => Option.none

/-- The value of a constant for a type with `N` variants (`T::NUM_VARIANTS`). The number bounds how deep constants refer to each other. -/
def constOf (cs : List Const) (B : Build) (N : Nat) : Nat → Sym → CRes
  | 0, _ => Option.none
  | d + 1, x =>
    if x = .NUM_VARIANTS then Option.some (.ok (.num .usize N))
    else
      match lookup cs x with
      | Option.some k => (evalC cs B (constOf cs B N d) (Option.some k.type) k.value).typed k.type
      | Option.none => Option.none

/-- The modules: the width of their blocks, and their constants. -/
def modules : List (Nat × List Const) :=
  [(8, consts_vec_u8), (16, consts_vec_u16), (32, consts_vec_u32), (32, consts_smallvec_u32), (64, consts_vec_u64), (128, consts_vec_u128)]

end Source
end EnumVecModel
