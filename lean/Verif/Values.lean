import Verif.EnumLike

/-!
# `T::values()` and packed values (`enum_like/src/lib.rs`)
-/

namespace EnumVecModel
namespace EnumLike
variable {α : Type}

/-- `struct Values<T>` (enum_like/src/lib.rs:579-584, `Copy`). -/
structure Values where
  current : Nat
  max : Nat
  deriving DecidableEq, Repr

namespace Values
variable (E : EnumLike α)

/-- `values()` / `Values::of()` (lines 563-568, 586-594). -/
def of : Values := ⟨0, E.num⟩

/-- `next` (lines 599-608). -/
def next : M Values (Option α) := fun v =>
  if v.current < v.max then
    match E.fromDiscr v.current with
    | some x => (.ok (some x), { v with current := v.current + 1 })
    | none => (.error .badDiscr, v)
  else (.ok none, v)

/-- `size_hint` (lines 610-614): `self.max - self.current`. -/
def sizeHint (build : Build) (v : Values) : Except Fault (Nat × Option Nat) :=
  match uSub build v.max v.current with
  | .ok n => .ok (n, some n)
  | .error e => .error e

/-- `count` (lines 616-620). -/
def count (build : Build) (v : Values) : Except Fault Nat := uSub build v.max v.current

/-- `last` (lines 622-630). -/
def last (v : Values) : Except Fault (Option α) :=
  if v.max = 0 ∨ v.current = v.max then .ok none
  else (next E { v with current := v.max - 1 }).1

/-- `nth` (lines 632-642); `self.current + n` may overflow. -/
def nth (build : Build) (n : Nat) : M Values (Option α) := fun v =>
  match uAdd build v.current n with
  | .error e => (.error e, v)
  | .ok k => if k < v.max then next E { v with current := k } else (.ok none, { v with current := v.max })

end Values

/-- `PackedU8`/`PackedU16` (enum_like/src/lib.rs:435-482) with `B` = 8 or 16 bits: the discriminant `as u8`/`as u16`. -/
structure Packed (B : Nat) where
  discr : BitVec B
  deriving DecidableEq, Repr

namespace Packed
variable (build : Build) (E : EnumLike α) (B : Nat)

/-- `const CHECK_LIMIT_VARIANTS: usize = (1 << B) - T::NUM_VARIANTS` (lines 444, 468). Constants are evaluated at compile
time, always with overflow checks. -/
def checkLimit : Except Fault Nat := uSub build.const (2 ^ B) E.num

/-- The program that uses the packed type compiles: the constant can be evaluated. -/
def Compiles : Prop := ∃ k, checkLimit build E B = .ok k

/-- `new` (lines 446-452, 470-476): `assert!(CHECK_LIMIT_VARIANTS <= (1 << B))`, then `T::to_discr(a) as uB`. -/
def new (a : α) : Except Fault (Packed B) :=
  match checkLimit build E B with
  | .error e => .error e
  | .ok k => if k ≤ 2 ^ B then .ok ⟨BitVec.ofNat B (E.toDiscr a)⟩ else .error .index

/-- `get` (lines 454-456, 478-480). -/
def get {B : Nat} (p : Packed B) : Option α := E.fromDiscr p.discr.toNat

/-- `#[derive(PartialOrd)]` (lines 436, 460): comparison of the `discr` fields. -/
def lt {B : Nat} (p q : Packed B) : Prop := p.discr.toNat < q.discr.toNat

end Packed
end EnumLike
end EnumVecModel
