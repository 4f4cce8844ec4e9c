import Verif.Iter
import Verif.Values

/-!
# `extend` and `collect` fed by a live iterator

`EV.extend` (lines 907-922 of `enum_vec/src/vec_u32/mod.rs`) is modelled in `EnumVec.lean` on what it can observe of an iterator (`Src`). Here is the
same code with a real iterator: a state and a `next` function that `extend` calls in turn with its own work. Theorem `C49_source` says that
the two agree. With it the iterators of this repository can be the argument: `a.extend(b)`, `a.extend(&b)`, `b.into_iter().collect()`,
`T::values().collect()`.
-/

namespace EnumVecModel
namespace EV
variable {α σ : Type} (c : Inst α)

/-- An `Iterator<Item = T>` with state `σ`, as far as `extend` uses it. -/
structure Source (σ α : Type) where
  /-- `next` (may panic) -/
  next : M σ (Option α)
  /-- `size_hint().0` (may panic) -/
  hint : σ → Except Fault Nat

/-- `for i in 0..iter_len { self.set(self_len + i, iter.next().unwrap()); }` (lines 914-916). -/
def liveHinted (I : Source σ α) : (n pos : Nat) → M (EV c.W × σ) Unit
  | 0, _ => pure ()
  | n + 1, pos => do
    let x ← onSnd I.next
    let x ← M.unwrap x
    onFst (set c pos x)
    liveHinted I n (pos + 1)

/-- `for elem in iter { self.push(elem); }` (lines 919-921), at most `n` calls of `next`; `true` = the loop has ended. -/
def liveRest (I : Source σ α) : Nat → M (EV c.W × σ) Bool
  | 0 => pure false
  | n + 1 => do
    match ← onSnd I.next with
    | none => return true
    | some x => do
      onFst (push c x)
      liveRest I n

/-- `extend` (lines 907-922) with a live iterator; at most `n` calls of `next` in the last loop. -/
def extendLive (I : Source σ α) (n : Nat) : M (EV c.W × σ) Bool := do
  let p ← M.read
  let iterLen ← M.lift (I.hint p.2)
  let selfLen := len c p.1
  onFst (reserve c iterLen)
  let p ← M.read
  let num ← M.lift (uAdd c.build p.1.num iterLen)
  onFst (setLen c num)
  liveHinted c I iterLen selfLen
  liveRest c I n

/-- `from_iter` (lines 925-932) with a live iterator: the vector is dropped on panic. The first component says that the loop has ended. -/
def collectLive (I : Source σ α) (n : Nat) (t : σ) : Except Fault (Bool × EV c.W) :=
  match extendLive c I n (new c, t) with
  | (.ok ended, p) => .ok (ended, p.1)
  | (.error e, _) => .error e

/-- The iterators of `EnumVec` (lines 1014-1020, 1055-1061). -/
def vecSource : Source (It c.W) α := ⟨next c, fun t => .ok (sizeHint c t).1⟩

/-- The iterator `T::values()` (enum_like/src/lib.rs:599-614). -/
def valuesSource (E : EnumLike α) (build : Build) : Source EnumLike.Values α :=
  ⟨EnumLike.Values.next E, fun v => (EnumLike.Values.sizeHint build v).map Prod.fst⟩

/-- What an iterator in state `t` does when it is called until it is finished: it yields the list and then returns `None` or panics. -/
inductive Drains (I : Source σ α) : σ → List α → Bool → Prop
  | done {t t' : σ} : I.next t = (.ok none, t') → Drains I t [] false
  | panic {t t' : σ} : I.next t = (.error .user, t') → Drains I t [] true
  | item {t t' : σ} {x : α} {xs : List α} {p : Bool} : I.next t = (.ok (some x), t') → Drains I t' xs p → Drains I t (x :: xs) p

/-- The iterator never ends: it yields `f 0, f 1, …`. -/
def Endless (I : Source σ α) (t : σ) (f : Nat → α) : Prop :=
  ∃ ts : Nat → σ, ts 0 = t ∧ ∀ n, I.next (ts n) = (.ok (some (f n)), ts (n + 1))

end EV
end EnumVecModel
