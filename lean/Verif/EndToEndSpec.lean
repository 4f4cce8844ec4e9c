import Verif.Hostile
import Verif.Machine
import Verif.RustText

/-!
# From the declaration of a type to the running program

`EnumVec.lean` takes the numbering of the element type as functions on natural numbers. Here it is the compiled code: the impl of `EnumLike` that
the crate or the derive macro provides, with machine arithmetic, constants evaluated by the compiler and panics, called by the methods of `EnumVec`
as arbitrary user code (`Hostile.lean`).
-/

namespace EnumVecModel
open EnumLike

variable {α ω : Type}

/-- The impl `m` of `EnumLike` as code that `EnumVec` calls. A panic of any kind, also an overflow, is `none`. What `from_discr` is called with is
a `usize`. `clone` of a `Copy` type copies. -/
def Hostile.Impl.ofMach (build : Build) (m : Mach α) : Hostile.Impl ω α where
  toDiscr x w := ((m.toDiscr x).toOption, w)
  fromDiscr d w := (if d < build.usizeLim then (m.fromDiscr d).toOption else none, w)
  clone x w := (some x, w)

/-- The functions it computes where it does not panic. -/
def EnumLike.ofMach (build : Build) (m : Mach α) : EnumLike α where
  num := m.num.toOption.getD 0
  toDiscr x := (m.toDiscr x).toOption.getD 0
  fromDiscr d := if d < build.usizeLim then (m.fromDiscr d).toOption else none

/-- `EnumVec<T>` with blocks of `W` bits, where `m` is the impl of `EnumLike` for `T`. -/
abbrev compiled (W : Nat) (build : Build) (small : Bool) (alloc : Alloc) (m : Mach α) : Inst α := ⟨W, .ofMach build m, build, small, alloc⟩

/-- The compiler accepts `EnumVec<T>`: there is a module for the block width, the constants `NUM_VARIANTS` of `T` and `BITS_PER_ELEM` can be evaluated
without overflow; and, not checked by the compiler for 64- and 128-bit blocks (see C30), there are at most `2^32` variants. -/
def Accepted (W : Nat) (build : Build) (m : Mach α) : Prop :=
  (W = 8 ∨ W = 16 ∨ W = 32 ∨ W = 64 ∨ W = 128) ∧ ∃ n b, m.num = .ok n ∧ bitsConst build W n = .ok b ∧ (32 < W → n ≤ 2 ^ 32)

/-- The values of a declared type. -/
abbrev Macro.Value (I : Macro.Interp) (d : Macro.Input) : Type := { o : Macro.Obj I // d.Has o }

open Classical in
/-- The impl in a text that is printed by the derive macro for the declaration `d`: `i` is the syntax tree of the text. (An object that is no value
of the declared type would be rejected by the type checker.) -/
noncomputable def Macro.Impl.mach {I : Macro.Interp} (build : Build) (d : Macro.Input) (i : Macro.Impl) : Mach (Macro.Value I d) where
  num := i.evalConst I build
  toDiscr o := i.evalTo build d o.1
  fromDiscr x :=
    match i.evalFrom build d x with
    | .ok o => if h : d.Has o then .ok ⟨o, h⟩ else .error .ub
    | .error e => .error e

end EnumVecModel
