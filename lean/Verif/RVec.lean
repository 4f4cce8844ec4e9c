import Verif.Basic

/-!
# The storage vector (`Vec<StorageBlock>` / `SmallVec<[StorageBlock; 4]>`)

`std::vec::Vec` and `smallvec::SmallVec` are external to `/repo`; this is the contract of the methods that
`enum_vec/src/vec_u32/mod.rs` calls. Only the initialised part (`data`, whose length is `storage.len()`) and the
capacity are represented. Reading the allocated but uninitialised part is undefined behaviour and has no value.
The allocator is an arbitrary partial function, so every growth may fail.
-/

namespace EnumVecModel

/-- Allocation behaviour: the capacity obtained by each kind of request (in blocks), `none` = failure.
Simplification: a function of the request only, the allocator has no hidden state (allocators with state: `Stateful.lean`, C67). -/
structure Alloc where
  /-- capacity of a fresh empty vector (`Vec::new()`: 0, `SmallVec::new()`: 4). -/
  fresh : Nat
  /-- `with_capacity(n)` and `clone` of `n` blocks. -/
  exact : Nat → Option Nat
  /-- `grow cap needed`: reallocation of a vector of capacity `cap` that must hold `needed > cap` blocks. -/
  grow : Nat → Nat → Option Nat
  /-- `shrinkTo cap len`: capacity after `shrink_to_fit`. -/
  shrinkTo : Nat → Nat → Nat

/-- What the documentation of `Vec`/`SmallVec` promises: the requested room is there. -/
structure Alloc.Lawful (a : Alloc) : Prop where
  exact_ge : ∀ n k, a.exact n = some k → n ≤ k
  grow_ge : ∀ cap needed k, a.grow cap needed = some k → needed ≤ k
  shrink_ge : ∀ cap len, len ≤ cap → len ≤ a.shrinkTo cap len

/-- The storage: initialised blocks and capacity (in blocks). -/
structure RVec (W : Nat) where
  data : List (BitVec W)
  cap : Nat
  deriving DecidableEq, Repr

namespace RVec
variable {W : Nat}

/-- `Storage::new()`. -/
def new (a : Alloc) : RVec W := ⟨[], a.fresh⟩

/-- `storage.len()`. -/
def len (v : RVec W) : Nat := v.data.length

/-- `storage.reserve(additional)`. -/
def reserve (a : Alloc) (v : RVec W) (additional : Nat) : Except Fault (RVec W) :=
  if v.len + additional ≤ v.cap then .ok v
  else match a.grow v.cap (v.len + additional) with
    | some k => .ok { v with cap := k }
    | none => .error .capacity

/-- `storage.push(x)`. -/
def push (a : Alloc) (v : RVec W) (x : BitVec W) : Except Fault (RVec W) :=
  match reserve a v 1 with
  | .ok v' => .ok { v' with data := v'.data ++ [x] }
  | .error e => .error e

/-- `storage.truncate(n)`: keeps the capacity. -/
def truncate (v : RVec W) (n : Nat) : RVec W := { v with data := v.data.take n }

/-- `storage.resize(n, x)`. -/
def resize (a : Alloc) (v : RVec W) (n : Nat) (x : BitVec W) : Except Fault (RVec W) :=
  if n ≤ v.len then .ok (v.truncate n)
  else match reserve a v (n - v.len) with
    | .ok v' => .ok { v' with data := v'.data ++ List.replicate (n - v.len) x }
    | .error e => .error e

/-- `storage.extend_from_slice(xs)` (also what `Vec::append` does to the receiver). -/
def extendFromSlice (a : Alloc) (v : RVec W) (xs : List (BitVec W)) : Except Fault (RVec W) :=
  match reserve a v xs.length with
  | .ok v' => .ok { v' with data := v'.data ++ xs }
  | .error e => .error e

/-- `storage.shrink_to_fit()`. -/
def shrinkToFit (a : Alloc) (v : RVec W) : RVec W := { v with cap := a.shrinkTo v.cap v.len }

/-- `Storage::with_capacity(n)`. -/
def withCapacity (a : Alloc) (n : Nat) : Except Fault (RVec W) :=
  match a.exact n with
  | some k => .ok ⟨[], k⟩
  | none => .error .capacity

/-- `storage.clone()`: copies the initialised blocks only. -/
def clone (a : Alloc) (v : RVec W) : Except Fault (RVec W) :=
  match a.exact v.len with
  | some k => .ok ⟨v.data, k⟩
  | none => .error .capacity

end RVec
end EnumVecModel
