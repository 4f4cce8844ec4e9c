import Verif.Machine

/-!
# The macros `tuple_impls!`, `array_impls!`, `reverse_idx_a!`, `reverse_idx_b!`, `reverse_idx_c!`

`EnumLike.lean` and `Machine.lean` contain the tuple and array impls as one expects them from the macros. Here the macros themselves are modelled
(enum_like/src/lib.rs:255-435): the rows they are called with, the items they expand to, how the compiler finds an impl for a type, and what the bodies do
with the components. A tuple is a flat list of values here, and projections `self.k` and indexing may go wrong.
-/

namespace EnumVecModel
namespace EnumLike
namespace Rules

/-- A row `(3) -> A3` of an invocation. -/
structure Row where
  idx : Nat
  ty : String
  deriving DecidableEq, Repr

/-- `reverse_idx_a!`, `reverse_idx_b!`, `reverse_idx_c!` (enum_like/src/lib.rs:287-303, 390-397): the numbers in brackets are moved to the front of the others one by one;
the result is the list of numbers the base case prints. -/
def reverseIdx : List Nat → List Nat → List Nat
  | [], reversed => reversed
  | first :: rest, reversed => reverseIdx rest (first :: reversed)

/-- `unsafe impl<…> EnumLike for (…)` printed by `tuple_impls!` (enum_like/src/lib.rs:265-277). -/
structure TupleItem where
  /-- `impl<$($T:EnumLike,)+ $last_T:EnumLike>` -/
  params : List String
  /-- `for ($($T,)+ $last_T)` -/
  self_ : List String
  /-- `(($($T,)+), $last_T)`, in `NUM_VARIANTS` and `from_discr` -/
  inner : List String
  last : String
  /-- `((self.0, self.1, …), self.n)` in `to_discr` -/
  toIdx : List Nat
  toLast : Nat
  /-- `((a.0).0, (a.0).1, …, a.1)` in `from_discr` -/
  fromIdx : List Nat
  deriving DecidableEq, Repr

/-- `tuple_impls!` (enum_like/src/lib.rs:255-284): `none` if no rule matches (a compile error). -/
def tupleImpls : List Row → Option (List TupleItem)
  | [] => none
  | [_] => none
  | [_, _] => some []
  | last :: rows => do
    let items ← tupleImpls rows
    return {
      params := rows.map (·.ty) ++ [last.ty]
      self_ := rows.map (·.ty) ++ [last.ty]
      inner := rows.map (·.ty)
      last := last.ty
      toIdx := reverseIdx (rows.map (·.idx)) []
      toLast := last.idx
      fromIdx := reverseIdx (rows.map (·.idx)) [] } :: items

/-- `unsafe impl<…> EnumLike for [T; N]` printed by `array_impls!` (enum_like/src/lib.rs:365-381). -/
structure ArrayItem where
  /-- `impl<$T0: EnumLike> … for [$T0; $N]` -/
  elem : String
  size : Nat
  /-- `<($($T,)+)>` -/
  comps : List String
  /-- the numbers `$idx` in `self[$N - 1 - $idx]` in `to_discr` -/
  toIdx : List Nat
  /-- `[t.0, t.1, …]` in `from_discr` -/
  fromIdx : List Nat
  deriving DecidableEq, Repr

/-- `array_impls!` (enum_like/src/lib.rs:355-388). -/
def arrayImpls : List Row → Option (List ArrayItem)
  | [] => none
  | [_] => some []
  | n :: rows => do
    let items ← arrayImpls rows
    return {
      elem := n.ty
      size := n.idx
      comps := rows.map (·.ty)
      toIdx := rows.map (·.idx)
      fromIdx := reverseIdx (rows.map (·.idx)) [] } :: items

/-- The invocation of `tuple_impls!` (enum_like/src/lib.rs:305-338). -/
def tupleRows : List Row :=
  [⟨31, "A31"⟩, ⟨30, "A30"⟩, ⟨29, "A29"⟩, ⟨28, "A28"⟩, ⟨27, "A27"⟩, ⟨26, "A26"⟩, ⟨25, "A25"⟩, ⟨24, "A24"⟩, ⟨23, "A23"⟩, ⟨22, "A22"⟩, ⟨21, "A21"⟩,
   ⟨20, "A20"⟩, ⟨19, "A19"⟩, ⟨18, "A18"⟩, ⟨17, "A17"⟩, ⟨16, "A16"⟩, ⟨15, "A15"⟩, ⟨14, "A14"⟩, ⟨13, "A13"⟩, ⟨12, "A12"⟩, ⟨11, "A11"⟩, ⟨10, "A10"⟩,
   ⟨9, "A9"⟩, ⟨8, "A8"⟩, ⟨7, "A7"⟩, ⟨6, "A6"⟩, ⟨5, "A5"⟩, ⟨4, "A4"⟩, ⟨3, "A3"⟩, ⟨2, "A2"⟩, ⟨1, "A1"⟩, ⟨0, "A0"⟩]

/-- The invocation of `array_impls!` (enum_like/src/lib.rs:399-433). -/
def arrayRows : List Row :=
  [⟨32, "A"⟩, ⟨31, "A"⟩, ⟨30, "A"⟩, ⟨29, "A"⟩, ⟨28, "A"⟩, ⟨27, "A"⟩, ⟨26, "A"⟩, ⟨25, "A"⟩, ⟨24, "A"⟩, ⟨23, "A"⟩, ⟨22, "A"⟩, ⟨21, "A"⟩,
   ⟨20, "A"⟩, ⟨19, "A"⟩, ⟨18, "A"⟩, ⟨17, "A"⟩, ⟨16, "A"⟩, ⟨15, "A"⟩, ⟨14, "A"⟩, ⟨13, "A"⟩, ⟨12, "A"⟩, ⟨11, "A"⟩, ⟨10, "A"⟩,
   ⟨9, "A"⟩, ⟨8, "A"⟩, ⟨7, "A"⟩, ⟨6, "A"⟩, ⟨5, "A"⟩, ⟨4, "A"⟩, ⟨3, "A"⟩, ⟨2, "A"⟩, ⟨1, "A"⟩, ⟨0, "A"⟩]

/-! ## What the items do -/

/-- Values of Rust: those of other types, tuples, arrays. -/
inductive Val (β : Type)
  | leaf (b : β)
  | tup (vs : List (Val β))
  | arr (vs : List (Val β))

variable {β : Type}

/-- What is not well typed has no meaning. -/
def illTyped {γ : Type} : Except Fault γ := .error .ub

/-- `impl EnumLike for ()` (enum_like/src/lib.rs:153-163). -/
def unitImpl : Mach (Val β) where
  num := Mach.unit.num
  toDiscr
    | .tup [] => Mach.unit.toDiscr ()
    | _ => illTyped
  fromDiscr x := do
    let _ ← Mach.unit.fromDiscr x
    return .tup []

/-- `impl EnumLike for (T,)` (enum_like/src/lib.rs:221-231). -/
def tuple1Impl (T : Mach (Val β)) : Mach (Val β) where
  num := (Mach.tuple1 T).num
  toDiscr
    | .tup [v] => (Mach.tuple1 T).toDiscr v
    | _ => illTyped
  fromDiscr x := do return .tup [← (Mach.tuple1 T).fromDiscr x]

/-- `impl EnumLike for (T, S)` (enum_like/src/lib.rs:235-248). -/
def pairImpl (build : Build) (T S : Mach (Val β)) : Mach (Val β) where
  num := (Mach.pair build T S).num
  toDiscr
    | .tup [v, w] => (Mach.pair build T S).toDiscr (v, w)
    | _ => illTyped
  fromDiscr x := do
    let p ← (Mach.pair build T S).fromDiscr x
    return .tup [p.1, p.2]

/-- `(v.i, v.j, …)`: projections of a tuple. -/
def project {γ : Type} (vs : List γ) (idx : List Nat) : Except Fault (List γ) :=
  match idx.mapM (fun k => vs[k]?) with
  | some ws => .ok ws
  | none => illTyped

/-- The impl of a tuple type printed by `tuple_impls!`, given the impl of the inner tuple that `to_discr` uses, the one that `NUM_VARIANTS` and `from_discr` use, and those of the last components. -/
def TupleItem.impl (it : TupleItem) (build : Build) (toInner toLast inner last : Mach (Val β)) : Mach (Val β) where
  num := (pairImpl build inner last).num
  toDiscr
    | .tup vs => do
      let ws ← project vs it.toIdx
      match vs[it.toLast]? with
      | some w => (pairImpl build toInner toLast).toDiscr (.tup [.tup ws, w])
      | none => illTyped
    | _ => illTyped
  fromDiscr x := do
    match ← (pairImpl build inner last).fromDiscr x with
    | .tup [.tup ws, w] => do return .tup ((← project ws it.fromIdx) ++ [w])
    | _ => illTyped

/-- The item is accepted by the compiler: no parameter is declared twice, and `from_discr` returns `Self`. (That the parts of `to_discr` have an impl is checked by the search.) -/
def TupleItem.compiles (it : TupleItem) : Bool :=
  it.params.Nodup && it.self_.all (it.params.contains ·) && (it.fromIdx.mapM (fun k => it.inner[k]?) == some (it.self_.dropLast)) && it.self_.getLast? == some it.last

/-- The impl of the tuple type with these components: the compiler looks for the only item that matches, binds its parameters, and looks for the impls its body needs.
The number bounds the search. -/
def findTuple (build : Build) (items : List TupleItem) : Nat → List (Mach (Val β)) → Option (Mach (Val β))
  | _, [] => some unitImpl
  | _, [T] => some (tuple1Impl T)
  | _, [T, S] => some (pairImpl build T S)
  | 0, _ => none
  | fuel + 1, Ts =>
    match items.filter fun it => it.self_.length == Ts.length with
    | [it] => do
      if !it.compiles then none else
      let bound := fun ty : String => Ts[it.self_.idxOf ty]?
      let toInner ← it.toIdx.mapM fun k => it.self_[k]?.bind bound
      let toLast ← it.self_[it.toLast]?.bind bound
      let inner ← it.inner.mapM bound
      let last ← bound it.last
      let mTo ← findTuple build items fuel toInner
      let mFrom ← findTuple build items fuel inner
      return it.impl build mTo toLast mFrom last
    | _ => none

/-- `mem::replace(&mut self[i], mem::uninitialized())`: moves the item out and leaves nothing there. Recent compilers panic in `uninitialized()` for some types (`uninit = false`). -/
def moveOut (uninit : Bool) (cells : List (Option (Val β))) (i : Nat) : Except Fault (Val β × List (Option (Val β))) :=
  if !uninit then .error .user
  else match cells[i]? with
    | some (some v) => .ok (v, cells.set i none)
    -- not initialised any more
    | some none => .error .ub
    | none => .error .index

/-- The components of the tuple in `to_discr` of arrays, evaluated in order (enum_like/src/lib.rs:370-374). -/
def moveAll (build : Build) (uninit : Bool) (n : Nat) : List Nat → List (Option (Val β)) → Except Fault (List (Val β))
  | [], _ => .ok []
  | idx :: rest, cells => do
    let i ← uSub build.const (← uSub build.const n 1) idx
    let (v, cells) ← moveOut uninit cells i
    return v :: (← moveAll build uninit n rest cells)

/-- The impl of an array type printed by `array_impls!`. -/
def ArrayItem.impl (it : ArrayItem) (build : Build) (uninit : Bool) (tuple : Mach (Val β)) : Mach (Val β) where
  num := tuple.num
  toDiscr
    | .arr vs => do
      let ws ← moveAll build uninit it.size it.toIdx (vs.map some)
      tuple.toDiscr (.tup ws)
    | _ => illTyped
  fromDiscr x := do
    match ← tuple.fromDiscr x with
    | .tup ws => do return .arr (← project ws it.fromIdx)
    | _ => illTyped

/-- `impl EnumLike for [T; 0]` (enum_like/src/lib.rs:342-352). -/
def emptyArrayImpl : Mach (Val β) where
  num := (unitImpl (β := β)).num
  toDiscr
    | .arr [] => .ok 0
    | _ => illTyped
  fromDiscr _ := .ok (.arr [])

/-- The impl of `[T; n]`. -/
def findArray (build : Build) (uninit : Bool) (tuples : List TupleItem) (arrays : List ArrayItem) (n : Nat) (T : Mach (Val β)) : Option (Mach (Val β)) :=
  if n = 0 then some emptyArrayImpl
  else match arrays.filter fun it => it.size == n with
    | [it] => do
      -- the length of the array `from_discr` returns
      if it.fromIdx.length ≠ it.size then none else
      let comps ← it.comps.mapM fun ty => if ty = it.elem then some T else none
      let tuple ← findTuple build tuples comps.length comps
      return it.impl build uninit tuple
    | _ => none

/-- The impl of a tuple type in this crate. -/
def tupleOf (build : Build) (Ts : List (Mach (Val β))) : Option (Mach (Val β)) := do
  findTuple build (← tupleImpls tupleRows) Ts.length Ts

/-- The impl of an array type in this crate. -/
def arrayOf (build : Build) (uninit : Bool) (n : Nat) (T : Mach (Val β)) : Option (Mach (Val β)) := do
  findArray build uninit (← tupleImpls tupleRows) (← arrayImpls arrayRows) n T

end Rules
end EnumLike
end EnumVecModel
