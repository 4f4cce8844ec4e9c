import Verif.EnumVec

/-!
# Specification vocabulary

Everything a reader needs to understand the property theorems, besides the model itself:
the `EnumLike` contract, the assumptions on an instantiation, observation of a vector through its public API,
and what a failed allocation means.
-/

namespace EnumVecModel

/-- The contract of `unsafe trait EnumLike` (enum_like/src/lib.rs:31-35). -/
structure EnumLike.Contract {α : Type} (E : EnumLike α) : Prop where
  /-- `self.to_discr()` returns a value `x < NUM_VARIANTS` -/
  lt : ∀ a, E.toDiscr a < E.num
  /-- `Self::from_discr(self.to_discr()) == self` -/
  roundtrip : ∀ a, E.fromDiscr (E.toDiscr a) = some a

/-- Every number below `NUM_VARIANTS` is the discriminant of a value ("all the values are consecutive
starting from zero", enum_like/src/lib.rs:5-8). Not part of the written contract of the trait. -/
def EnumLike.Consecutive {α : Type} (E : EnumLike α) : Prop :=
  ∀ x, x < E.num → ∃ a, E.fromDiscr x = some a ∧ E.toDiscr a = x

/-- The machine has memory for fewer than 2^64 (32-bit targets: 2^32) elements in one vector, if a block holds `n` of them: no granted
capacity reaches that, up to one block and four elements. (On 64-bit targets no machine has so much memory; on 32-bit targets this is a limit for elements of at most 4 bits only,
because a `Vec` has less than 2^31 bytes.) -/
structure Alloc.Bounded (a : Alloc) (b : Build) (n : Nat) : Prop where
  fresh : (a.fresh + 1) * n + 4 < b.usizeLim
  exact : ∀ m k, a.exact m = some k → (k + 1) * n + 4 < b.usizeLim
  grow : ∀ cap m k, a.grow cap m = some k → (k + 1) * n + 4 < b.usizeLim
  shrink : ∀ cap len, len ≤ cap → a.shrinkTo cap len ≤ cap

/-- Assumptions on an instantiation `EnumVec<T>`: it compiles and the allocator does what `Vec` documents. If `strict`, also:
`T` has at most 2^32 variants (implied by `Compiles` for blocks of up to 32 bits; see C30 for what happens otherwise) and
`T` obeys the `EnumLike` contract. -/
structure Inst.Fits {α : Type} (c : Inst α) (strict : Prop) : Prop where
  compiles : c.Compiles
  lawful : c.alloc.Lawful
  bounded : c.alloc.Bounded c.build c.epb
  few : strict → c.E.num ≤ 2 ^ 32
  contract : strict → c.E.Contract

/-- The assumptions of almost all theorems. -/
abbrev Inst.Ok {α : Type} (c : Inst α) : Prop := c.Fits True

/-- The weaker assumptions, without any on the implementation of `EnumLike`: `to_discr` may return anything and
`from_discr` may panic at will. -/
abbrev Inst.Sound {α : Type} (c : Inst α) : Prop := c.Fits False

theorem Inst.Ok.few {α : Type} {c : Inst α} (hc : c.Ok) : c.E.num ≤ 2 ^ 32 := Inst.Fits.few hc trivial

theorem Inst.Ok.contract {α : Type} {c : Inst α} (hc : c.Ok) : c.E.Contract := Inst.Fits.contract hc trivial

theorem Inst.Ok.sound {α : Type} {c : Inst α} (hc : c.Ok) : c.Sound :=
  ⟨hc.compiles, hc.lawful, hc.bounded, False.elim, False.elim⟩

/-! ## Outcomes -/

/-- A `&mut self` call either returns normally, with result and new state as `Q` says, or fails, with fault and
state as `E` says. -/
def Runs {σ β : Type} (r : Except Fault β × σ) (Q : β → σ → Prop) (E : Fault → σ → Prop) : Prop :=
  match r with
  | (.ok a, s) => Q a s
  | (.error e, s) => E e s

/-- A constructor call either returns a value as `Q` says or fails as `E` says. -/
def Res {β : Type} (r : Except Fault β) (Q : β → Prop) (E : Fault → Prop) : Prop :=
  match r with
  | .ok a => Q a
  | .error e => E e

/-! ## Vectors -/

/-- Well-formed state of a vector: the initialised storage has room for `len()` elements, it fits in its allocation,
and the capacity is below 2^64 (32-bit targets: 2^32) elements. -/
structure Safe {α : Type} (c : Inst α) (s : EV c.W) : Prop where
  cover : s.num ≤ s.storage.data.length * c.epb
  capLen : s.storage.data.length ≤ s.storage.cap
  capBound : (s.storage.cap + 1) * c.epb + 4 < c.build.usizeLim

/-- A vector of `n` elements is at the limit: there is one element per block and `n` is `usize::MAX`, so that the number of blocks that
`reserve` asks for, `n / ELEMS_PER_BLOCK + 1`, is not a `usize`. -/
def Inst.AtLimit {α : Type} (c : Inst α) (n : Nat) : Prop := c.epb = 1 ∧ n + 1 = c.build.usizeLim

instance {α : Type} (c : Inst α) (n : Nat) : Decidable (c.AtLimit n) := inferInstanceAs (Decidable (_ ∧ _))

/-- Then a release build drops all blocks of the vector (`desired_cap / ELEMS_PER_BLOCK + 1` wraps to 0, line 144); a debug build panics. -/
def Inst.Drops {α : Type} (c : Inst α) (n : Nat) : Prop := c.build.checked = false ∧ c.AtLimit n

instance {α : Type} (c : Inst α) (n : Nat) : Decidable (c.Drops n) := inferInstanceAs (Decidable (_ ∧ _))

theorem Inst.not_drops {α : Type} {c : Inst α} {n : Nat} (h : ¬ c.AtLimit n) : ¬ c.Drops n := fun h' => h h'.2

theorem Inst.not_atLimit_of_mod {α : Type} {c : Inst α} {m n : Nat} (h : ¬ m % c.epb = 0) : ¬ c.AtLimit n :=
  fun h' => h (by rw [h'.1, Nat.mod_one])

/-- Observation through the public API: `v.len()` is the length of `l`, and `v.get(i)` is `l[i]?` for **every**
index, without panic and without changing `v`. -/
def Shows {α : Type} (c : Inst α) (s : EV c.W) (l : List α) : Prop :=
  EV.len c s = l.length ∧ ∀ i, EV.get c i s = (.ok l[i]?, s)

/-- The vector `s` **is** the list `l`: it is well-formed, it shows `l` through `len` and `get`, and the raw
discriminant of every element (`get_raw_unchecked(i)`) is the one of `l[i]`. -/
structure Is {α : Type} (c : Inst α) (s : EV c.W) (l : List α) : Prop where
  safe : Safe c s
  shows : Shows c s l
  discr : ∀ i (h : i < l.length), EV.rawUnchecked c s i = .ok (c.E.toDiscr l[i])

/-- The bits of block `j` above its last element (the block width need not be a multiple of the element width). -/
def unusedBits {α : Type} (c : Inst α) (s : EV c.W) (j : Nat) : Nat :=
  (s.storage.data[j]?.getD 0).toNat / 2 ^ (c.epb * c.bits)

/-- The unused bits of all blocks are zero. -/
def UnusedZero {α : Type} (c : Inst α) (s : EV c.W) : Prop := ∀ j, unusedBits c s j = 0

/-- Every element in the storage, also behind `len()`, is a number below `NUM_VARIANTS`. -/
def AllValid {α : Type} (c : Inst α) (s : EV c.W) : Prop :=
  ∀ i d, EV.rawUnchecked c s i = .ok d → d < c.E.num

/-- What in-place mapping with a stateful function that may panic gives: new elements, state of the function,
`true` if it was completed. -/
def mapSpec {τ α : Type} (f : EV.Closure τ α α) : List α → τ → List α × τ × Bool
  | [], t => ([], t, true)
  | x :: xs, t =>
    match f x t with
    | (some y, t') => (y :: (mapSpec f xs t').1, (mapSpec f xs t').2)
    | (none, t') => (x :: xs, t', false)

/-- What filtering with a stateful predicate that may panic gives: accepted elements, state of the predicate,
`true` if it was completed. -/
def filterSpec {τ α : Type} (f : EV.Closure τ α Bool) : List α → τ → List α × τ × Bool
  | [], t => ([], t, true)
  | x :: xs, t =>
    match f x t with
    | (some true, t') => (x :: (filterSpec f xs t').1, (filterSpec f xs t').2)
    | (some false, t') => filterSpec f xs t'
    | (none, t') => ([], t', false)

/-! ## Failures -/

/-- Why a call may fail with a "capacity overflow"/out-of-memory panic although it asked for at most `n` blocks:
the allocator refused to grow a vector to hold `k ≤ n` blocks (more than its capacity), or `n` blocks hold 2^64 elements or more (32-bit targets: 2^32). -/
def Refused {α : Type} (c : Inst α) (n : Nat) : Prop :=
  c.build.usizeLim ≤ n * c.epb ∨ ∃ cap k, cap < k ∧ k ≤ n ∧ c.alloc.grow cap k = none

/-- Blocks needed for `n` elements. -/
def Inst.blocks {α : Type} (c : Inst α) (n : Nat) : Nat := (n + c.epb - 1) / c.epb

/-- Why a bulk fill of `count` elements on top of `n` may fail: storage for the result is refused, or the
quadratic temporary storage of `extend_with_value` (lines 513-516) is refused. -/
def FillRefused {α : Type} (c : Inst α) (n count : Nat) : Prop :=
  Refused c ((n + count) / c.epb + 1) ∨
    4 * c.epb < count ∧ ∃ cap k, cap < k ∧ k ≤ (n + count) / c.epb + (count / c.epb) * (count / c.epb) ∧
      c.alloc.grow cap k = none

/-- The same instantiation with another allocator. A call that behaves the same with *every* allocator does not
(re)allocate. -/
@[reducible] def Inst.withAlloc {α : Type} (c : Inst α) (a : Alloc) : Inst α := { c with alloc := a }

end EnumVecModel
