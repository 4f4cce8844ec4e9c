/-!
# Outcomes of Rust code: values, panics, undefined behaviour

Rust functions of `/repo` are modelled as total Lean functions. A panic is an explicit error value, and so is
undefined behaviour (an out-of-bounds `get_unchecked`). A `&mut self` method is a state transformer that keeps
the state also when it panics (what a caller sees after `catch_unwind`).
-/

namespace EnumVecModel

/-- How a Rust call can fail to return normally. -/
inductive Fault
  /-- "capacity overflow" panics and allocation failure (`Vec` growth, `reserve`, `push`). -/
  | capacity
  /-- explicit index panics, slice index out of bounds, failed `assert!`. -/
  | index
  /-- `Option::unwrap` on `None`. -/
  | unwrapNone
  /-- arithmetic or shift overflow in a build with overflow checks (debug build). -/
  | overflow
  /-- `from_discr` panicked (`unreachable!()`) because the number is no valid discriminant. -/
  | badDiscr
  /-- user code (closure or iterator) passed to a method panicked. -/
  | user
  /-- undefined behaviour: unchecked access outside the initialised part of the storage. -/
  | ub
  deriving DecidableEq, Repr

/-- A Rust `&mut self` call: result (value or fault) and the state afterwards. -/
def M (σ α : Type) := σ → Except Fault α × σ

namespace M
variable {σ α β : Type}

/-- Normal return. -/
def pure (a : α) : M σ α := fun s => (.ok a, s)

/-- Sequencing; a fault ends the computation and keeps the state reached. -/
def bind (m : M σ α) (f : α → M σ β) : M σ β := fun s =>
  match m s with
  | (.ok a, s') => f a s'
  | (.error e, s') => (.error e, s')

instance : Monad (M σ) where
  pure := M.pure
  bind := M.bind

/-- Panic or undefined behaviour. -/
def fail (e : Fault) : M σ α := fun s => (.error e, s)

/-- Read the state (access through `&self`). -/
def read : M σ σ := fun s => (.ok s, s)

/-- Write the state (assignment through `&mut self`). -/
def write (s' : σ) : M σ Unit := fun _ => (.ok (), s')

/-- Run a pure Rust expression that may panic. -/
def lift (r : Except Fault α) : M σ α := fun s => (r, s)

/-- `o.unwrap()`. -/
def unwrap (o : Option α) : M σ α := fun s =>
  match o with
  | some a => (.ok a, s)
  | none => (.error .unwrapNone, s)

theorem bind_apply (m : M σ α) (f : α → M σ β) (s : σ) :
    (m >>= f) s = match m s with
      | (.ok a, s') => f a s'
      | (.error e, s') => (.error e, s') := rfl

theorem pure_apply (a : α) (s : σ) : (Pure.pure a : M σ α) s = (.ok a, s) := rfl

theorem bind_ok {m : M σ α} {f : α → M σ β} {s s' : σ} {a : α} (h : m s = (.ok a, s')) :
    (m >>= f) s = f a s' := by
  rw [bind_apply, h]

theorem bind_error {m : M σ α} {f : α → M σ β} {s s' : σ} {e : Fault} (h : m s = (.error e, s')) :
    (m >>= f) s = (.error e, s') := by
  rw [bind_apply, h]

theorem read_bind (f : σ → M σ β) (s : σ) : (M.read >>= f) s = f s s := rfl
theorem write_bind (t : σ) (f : Unit → M σ β) (s : σ) : (M.write t >>= f) s = f () t := rfl
theorem fail_bind (e : Fault) (f : α → M σ β) (s : σ) : (M.fail e >>= f) s = (.error e, s) := rfl
theorem lift_ok_bind (a : α) (f : α → M σ β) (s : σ) : (M.lift (.ok a) >>= f) s = f a s := rfl
theorem lift_error_bind (e : Fault) (f : α → M σ β) (s : σ) : (M.lift (.error e) >>= f) s = (.error e, s) := rfl
theorem unwrap_some_bind (a : α) (f : α → M σ β) (s : σ) : (M.unwrap (some a) >>= f) s = f a s := rfl
theorem unwrap_none_bind (f : α → M σ β) (s : σ) : (M.unwrap none >>= f) s = (.error .unwrapNone, s) := rfl
theorem pure_bind (a : α) (f : α → M σ β) (s : σ) : ((Pure.pure a : M σ α) >>= f) s = f a s := rfl
theorem read_apply (s : σ) : (M.read : M σ σ) s = (.ok s, s) := rfl
theorem write_apply (t s : σ) : (M.write t : M σ Unit) s = (.ok (), t) := rfl
theorem fail_apply (e : Fault) (s : σ) : (M.fail e : M σ α) s = (.error e, s) := rfl
theorem lift_apply (r : Except Fault α) (s : σ) : (M.lift r : M σ α) s = (r, s) := rfl
theorem unwrap_some (a : α) (s : σ) : (M.unwrap (some a) : M σ α) s = (.ok a, s) := rfl
theorem unwrap_none (s : σ) : (M.unwrap none : M σ α) s = (.error .unwrapNone, s) := rfl

theorem ite_apply (p : Prop) [Decidable p] (a b : M σ α) (s : σ) :
    (if p then a else b) s = if p then a s else b s := by split <;> rfl

end M

/-- A loop `for i in start..start + n { acc = body(i, acc) }`. -/
def loop {σ β : Type} (body : Nat → β → M σ β) : (n i : Nat) → β → M σ β
  | 0, _, acc => pure acc
  | n + 1, i, acc => do
    let acc ← body i acc
    loop body n (i + 1) acc

/-- How the crates are compiled. -/
structure Build where
  /-- overflow checks on (debug build) or off (release build) -/
  checked : Bool
  /-- the target has a `usize` of 64 bits (otherwise of 32 bits) -/
  wide : Bool
  deriving DecidableEq, Repr

namespace Build

/-- Constants are evaluated by the compiler, where overflow is an error in every build. -/
def const (b : Build) : Build := ⟨true, b.wide⟩

/-- Number of values of `usize`. -/
def usizeLim (b : Build) : Nat := if b.wide then 2 ^ 64 else 2 ^ 32

theorem usizeLim_cases (b : Build) : b.usizeLim = 4294967296 ∨ b.usizeLim = 18446744073709551616 := by
  unfold usizeLim; split
  · exact Or.inr rfl
  · exact Or.inl rfl

theorem lt_usizeLim (b : Build) {n : Nat} (h : n < 4294967296) : n < b.usizeLim := by
  rcases b.usizeLim_cases with e | e <;> omega

theorem const_usizeLim (b : Build) : b.const.usizeLim = b.usizeLim := rfl

end Build

/-- `a + b` on `usize`: panics on overflow in a checked (debug) build, wraps in a release build. -/
def uAdd (B : Build) (a b : Nat) : Except Fault Nat :=
  if a + b < B.usizeLim then .ok (a + b)
  else if B.checked then .error .overflow else .ok ((a + b) % B.usizeLim)

/-- `a - b` on `usize`: panics on underflow in a checked (debug) build, wraps in a release build. -/
def uSub (B : Build) (a b : Nat) : Except Fault Nat :=
  if b ≤ a then .ok (a - b)
  else if B.checked then .error .overflow else .ok ((a + B.usizeLim - b) % B.usizeLim)

/-- `a * b` on `usize`: panics on overflow in a checked (debug) build, wraps in a release build. -/
def uMul (B : Build) (a b : Nat) : Except Fault Nat :=
  if a * b < B.usizeLim then .ok (a * b)
  else if B.checked then .error .overflow else .ok ((a * b) % B.usizeLim)

/-- `a.saturating_add(b)` on `usize`. -/
def satAdd (B : Build) (a b : Nat) : Nat := min (a + b) (B.usizeLim - 1)

/-- `a.saturating_mul(b)` on `usize`. -/
def satMul (B : Build) (a b : Nat) : Nat := min (a * b) (B.usizeLim - 1)

/-- `v << n` on a `W`-bit unsigned integer: a shift amount `>= W` panics in a checked build and is
taken modulo `W` (the widths are powers of two) in a release build. -/
def blkShl {W : Nat} (checked : Bool) (v : BitVec W) (n : Nat) : Except Fault (BitVec W) :=
  if n < W then .ok (v <<< n)
  else if checked then .error .overflow else .ok (v <<< (n % W))

/-- `v >> n` on a `W`-bit unsigned integer, same overflow rule as `blkShl`. -/
def blkShr {W : Nat} (checked : Bool) (v : BitVec W) (n : Nat) : Except Fault (BitVec W) :=
  if n < W then .ok (v >>> n)
  else if checked then .error .overflow else .ok (v >>> (n % W))

/-- `a * b` on a `W`-bit unsigned integer: panics on overflow in a checked build, else wraps. -/
def blkMul {W : Nat} (checked : Bool) (a b : BitVec W) : Except Fault (BitVec W) :=
  if a.toNat * b.toNat < 2 ^ W then .ok (a * b)
  else if checked then .error .overflow else .ok (a * b)

end EnumVecModel
