import Verif.Values

/-!
# `check_values_of`, the repository's checker for implementations of `EnumLike`

`enum_like/src/lib.rs:652-680` and, the same text, `example/src/main.rs:63-90`. The tests of both crates call it for every kind of implementation (built-in, hand-written, derived).
-/

namespace EnumVecModel
namespace EnumLike
variable {α : Type} (E : EnumLike α) (eqv : α → α → Bool)

/-- `assert!(b)`. -/
def assertThat (b : Bool) : Except Fault Unit := if b then .ok () else .error .user

/-- `T::from_discr(x)`. -/
def fromDiscrCall (x : Nat) : Except Fault α :=
  match E.fromDiscr x with
  | some a => .ok a
  | none => .error .badDiscr

/-- The loop `for i in T::values() { … }` (lines 657-663), at most `n` iterations, with `seen` and `counter`; `eqv` is the `PartialEq` of the type. -/
def checkLoop : Nat → Values → List α → Nat → Except Fault (List α × Nat)
  | 0, _, seen, counter => .ok (seen, counter)
  | n + 1, v, seen, counter =>
    match Values.next E v with
    | (.error e, _) => .error e
    | (.ok none, _) => .ok (seen, counter)
    | (.ok (some i), v) => do
      let seen := seen ++ [i]
      let idx := E.toDiscr i
      assertThat (eqv i (← fromDiscrCall E idx))
      assertThat (idx == E.toDiscr (← fromDiscrCall E idx))
      checkLoop n v seen (counter + 1)

/-- The two nested loops (lines 669-675): `seen[i] == seen[j]` for no `i < j < counter`; an index out of bounds would panic too. -/
def noDuplicates (seen : List α) (counter : Nat) : Bool :=
  (List.range counter).all fun i => (List.range' (i + 1) (counter - (i + 1))).all fun j =>
    match seen[i]?, seen[j]? with
    | some a, some b => !eqv a b
    | _, _ => false

/-- `check_values_of::<T>(x)` (lines 652-680): returns or panics. -/
def checkValues (x : Nat) : Except Fault Unit := do
  let (seen, counter) ← checkLoop E eqv (E.num + 1) (Values.of E) [] 0
  assertThat (counter == E.num)
  assertThat (noDuplicates eqv seen counter)
  assertThat (x == E.num)

end EnumLike
end EnumVecModel
