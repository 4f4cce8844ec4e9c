import Verif.Basic

/-!
# The `EnumLike` trait and its built-in implementations (`enum_like/src/lib.rs`)
-/

namespace EnumVecModel

/-- An implementation of `trait EnumLike` (enum_like/src/lib.rs:135-148).
`fromDiscr x = none` means that `from_discr(x)` panics. `usize` values are `Nat`: the sums and products in
the impls are bounded by `NUM_VARIANTS`, which is a `usize` constant (overflow there is a compile error). -/
structure EnumLike (α : Type) where
  /-- `NUM_VARIANTS` -/
  num : Nat
  /-- `to_discr` -/
  toDiscr : α → Nat
  /-- `from_discr` -/
  fromDiscr : Nat → Option α

namespace EnumLike

/-- `unsafe impl EnumLike for ()` (enum_like/src/lib.rs:153-163). -/
def unit : EnumLike Unit where
  num := 1
  toDiscr _ := 0
  fromDiscr _ := some ()

/-- `unsafe impl EnumLike for bool` (enum_like/src/lib.rs:165-181). -/
def bool : EnumLike Bool where
  num := 2
  toDiscr b := if b then 1 else 0
  fromDiscr x := some (x != 0)

/-- `unsafe impl<T: EnumLike> EnumLike for Option<T>` (enum_like/src/lib.rs:185-201). -/
def option {α : Type} (T : EnumLike α) : EnumLike (Option α) where
  num := 1 + T.num
  toDiscr
    | none => T.num
    | some x => T.toDiscr x
  fromDiscr x := if x = T.num then some none else (T.fromDiscr x).map some

/-- `unsafe impl<T: EnumLike, S: EnumLike> EnumLike for Result<T, S>` (enum_like/src/lib.rs:203-219);
`Result<T, S>` is `Except S T` in Lean. -/
def result {α β : Type} (T : EnumLike α) (S : EnumLike β) : EnumLike (Except β α) where
  num := T.num + S.num
  toDiscr
    | .ok x => T.toDiscr x
    | .error x => T.num + S.toDiscr x
  fromDiscr x :=
    if x < T.num then (T.fromDiscr x).map .ok else (S.fromDiscr (x - T.num)).map .error

/-- `unsafe impl<T: EnumLike> EnumLike for (T,)` (enum_like/src/lib.rs:221-231); a 1-tuple `(T,)` is `T`. -/
def tuple1 {α : Type} (T : EnumLike α) : EnumLike α where
  num := T.num
  toDiscr x := T.toDiscr x
  fromDiscr x := T.fromDiscr x

/-- `unsafe impl<T: EnumLike, S: EnumLike> EnumLike for (T, S)` (enum_like/src/lib.rs:235-248).
`wrapping_rem`/`wrapping_div` panic on a zero divisor, hence the guard. -/
def pair {α β : Type} (T : EnumLike α) (S : EnumLike β) : EnumLike (α × β) where
  num := T.num * S.num
  toDiscr p := T.toDiscr p.1 + S.toDiscr p.2 * T.num
  fromDiscr x :=
    if T.num = 0 then none
    else match T.fromDiscr (x % T.num), S.fromDiscr (x / T.num) with
      | some a, some b => some (a, b)
      | _, _ => none

/-- The types of a tuple, **last component first**, as in the argument of `tuple_impls!`
(enum_like/src/lib.rs:255-284, 305-338), each with its impl. -/
abbrev Comps := List ((α : Type) × EnumLike α)

/-- The Rust tuple type `(A0, …, An)`, given its components last-first. An n-ary tuple is represented by
the nested pair `((A0, …, An-1), An)`, which is how the macro encodes it; the flattening `reverse_idx_a!`/
`reverse_idx_b!` (enum_like/src/lib.rs:287-303) is thereby the identity (the macros themselves are in `MacroRules.lean`). -/
@[reducible] def Tuple : Comps → Type
  | [] => Unit
  | [A] => A.1
  | A :: B :: rest => Tuple (B :: rest) × A.1

/-- The impls made by `tuple_impls!` (enum_like/src/lib.rs:255-284): the impl of an n-ary tuple delegates to
the pair of the (n-1)-ary tuple and the last component. -/
def tuple : (cs : Comps) → EnumLike (Tuple cs)
  | [] => unit
  | [A] => tuple1 A.2
  | A :: B :: rest => pair (tuple (B :: rest)) A.2

/-- The tuple `(T, …, T)` of `n` components that `array_impls!` uses for `[T; n]`
(enum_like/src/lib.rs:355-388). -/
@[reducible] def arrayComps {α : Type} (T : EnumLike α) (n : Nat) : Comps := List.replicate n ⟨α, T⟩

/-- `(self[0], self[1], …, self[n-1])`: array to tuple (enum_like/src/lib.rs:367-376). -/
def arrayToTuple {α : Type} (T : EnumLike α) : (n : Nat) → (Fin n → α) → Tuple (arrayComps T n)
  | 0, _ => ()
  | 1, f => f 0
  | n + 2, f => (arrayToTuple T (n + 1) (fun i => f i.castSucc), f (Fin.last _))

/-- `[t.0, t.1, …]`: tuple to array (`reverse_idx_c!`, enum_like/src/lib.rs:377-380, 390-397). -/
def tupleToArray {α : Type} (T : EnumLike α) : (n : Nat) → Tuple (arrayComps T n) → (Fin n → α)
  | 0, _ => fun i => i.elim0
  | 1, t => fun _ => t
  | n + 2, t => fun i =>
      if h : i.1 < n + 1 then tupleToArray T (n + 1) t.1 ⟨i.1, h⟩ else t.2

/-- `unsafe impl<T: EnumLike> EnumLike for [T; n]` (enum_like/src/lib.rs:342-352 for `n = 0`, 355-388 else).
The repository instantiates `n ≤ 32`; the model is for all `n`. -/
def array {α : Type} (T : EnumLike α) (n : Nat) : EnumLike (Fin n → α) where
  num := (tuple (arrayComps T n)).num
  toDiscr f := (tuple (arrayComps T n)).toDiscr (arrayToTuple T n f)
  fromDiscr x := ((tuple (arrayComps T n)).fromDiscr x).map (tupleToArray T n)

end EnumLike
end EnumVecModel
