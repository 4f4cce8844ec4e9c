import Verif.EnumSet
import Verif.Spec

/-!
# Specification of `EnumSet`: what "a set of numbers" and "a set of values" mean
-/

namespace EnumVecModel
namespace ESet

/-- The numbers of `l` are increasing and are exactly those with `p`. -/
def Lists (l : List Nat) (p : Nat → Prop) : Prop := l.Pairwise (· < ·) ∧ ∀ x, x ∈ l ↔ p x

/-- The `BitSet` implements sets of numbers (what the documentation of the `bit-set` crate says). -/
structure BitSet.Lawful {σ : Type} (B : BitSet σ) : Prop where
  new : ∀ x, B.contains B.new x = false
  insert : ∀ s x, (B.insert s x).1 = !B.contains s x
  insert_mem : ∀ s x y, B.contains (B.insert s x).2 y = true ↔ y = x ∨ B.contains s y = true
  remove : ∀ s x, (B.remove s x).1 = B.contains s x
  remove_mem : ∀ s x y, B.contains (B.remove s x).2 y = true ↔ y ≠ x ∧ B.contains s y = true
  clear : ∀ s x, B.contains (B.clear s) x = false
  shrink : ∀ s x, B.contains (B.shrinkToFit s) x = B.contains s x
  len : ∀ s, B.len s = (B.iter s).length
  isEmpty : ∀ s, B.isEmpty s = true ↔ ∀ x, B.contains s x = false
  isDisjoint : ∀ s t, B.isDisjoint s t = true ↔ ∀ x, ¬ (B.contains s x = true ∧ B.contains t x = true)
  isSubset : ∀ s t, B.isSubset s t = true ↔ ∀ x, B.contains s x = true → B.contains t x = true
  isSuperset : ∀ s t, B.isSuperset s t = true ↔ ∀ x, B.contains t x = true → B.contains s x = true
  unionWith : ∀ s t x, B.contains (B.unionWith s t) x = (B.contains s x || B.contains t x)
  intersectWith : ∀ s t x, B.contains (B.intersectWith s t) x = (B.contains s x && B.contains t x)
  differenceWith : ∀ s t x, B.contains (B.differenceWith s t) x = (B.contains s x && !B.contains t x)
  symmetricDifferenceWith : ∀ s t x, B.contains (B.symmetricDifferenceWith s t) x = (B.contains s x != B.contains t x)
  iter : ∀ s, Lists (B.iter s) fun x => B.contains s x = true
  union : ∀ s t, Lists (B.union s t) fun x => B.contains s x = true ∨ B.contains t x = true
  intersection : ∀ s t, Lists (B.intersection s t) fun x => B.contains s x = true ∧ B.contains t x = true
  difference : ∀ s t, Lists (B.difference s t) fun x => B.contains s x = true ∧ ¬ B.contains t x = true
  symmetricDifference : ∀ s t, Lists (B.symmetricDifference s t) fun x => ¬ (B.contains s x = true ↔ B.contains t x = true)
  eq : ∀ s t, B.eq s t = true ↔ ∀ x, B.contains s x = B.contains t x
  /-- lexicographic comparison of the increasing lists of members -/
  cmp : ∀ s t, B.cmp s t = compare (B.iter s) (B.iter t)
  /-- equal sets have equal hashes -/
  hash : ∀ s t, (∀ x, B.contains s x = B.contains t x) → B.hash s = B.hash t

variable {α : Type}

/-- A mathematical set of values. -/
abbrev VSet (α : Type) := α → Prop

/-- The calls of a history. Sets are held in registers `Nat`; `new`, `fromIter`, `clone` assign a register. -/
inductive Op (α : Type)
  | new (r : Nat)
  | fromIter (r : Nat) (as : List α)
  | clone (r q : Nat)
  | insert (r : Nat) (a : α)
  | remove (r : Nat) (a : α)
  | contains (r : Nat) (a : α)
  | extend (r : Nat) (as : List α)
  | clear (r : Nat)
  | shrinkToFit (r : Nat)
  | len (r : Nat)
  | isEmpty (r : Nat)
  | unionWith (r q : Nat)
  | intersectWith (r q : Nat)
  | differenceWith (r q : Nat)
  | symmetricDifferenceWith (r q : Nat)
  | isDisjoint (r q : Nat)
  | isSubset (r q : Nat)
  | isSuperset (r q : Nat)
  | eq (r q : Nat)
  | iter (r : Nat)
  | union (r q : Nat)
  | intersection (r q : Nat)
  | difference (r q : Nat)
  | symmetricDifference (r q : Nat)

/-- What a call returns: nothing, a `bool`, a number, or the items of an iterator that is run to its end. -/
inductive Out (α : Type)
  | unit
  | bool (b : Bool)
  | num (n : Nat)
  | items (r : Except Fault (List α))

/-- Assign a register. -/
def upd {τ : Type} (f : Nat → τ) (r : Nat) (v : τ) : Nat → τ := fun i => if i = r then v else f i

/-- Mathematical sets after a call. -/
def specSets (S : Nat → VSet α) : Op α → Nat → VSet α
  | .new r => upd S r fun _ => False
  | .fromIter r as => upd S r fun a => a ∈ as
  | .clone r q => upd S q (S r)
  | .insert r a => upd S r fun b => b = a ∨ S r b
  | .remove r a => upd S r fun b => b ≠ a ∧ S r b
  | .extend r as => upd S r fun b => b ∈ as ∨ S r b
  | .clear r => upd S r fun _ => False
  | .unionWith r q => upd S r fun b => S r b ∨ S q b
  | .intersectWith r q => upd S r fun b => S r b ∧ S q b
  | .differenceWith r q => upd S r fun b => S r b ∧ ¬ S q b
  | .symmetricDifferenceWith r q => upd S r fun b => ¬ (S r b ↔ S q b)
  | _ => S

/-- The iterator yields each member of `p` exactly once, in increasing discriminant order. -/
def Items (E : EnumLike α) (p : VSet α) (o : Out α) : Prop :=
  ∃ l, o = .items (.ok l) ∧ (l.map E.toDiscr).Pairwise (· < ·) ∧ l.Nodup ∧ ∀ a, a ∈ l ↔ p a

/-- The answer `b` is right for the question `p`. -/
def Answers (p : Prop) (o : Out α) : Prop := ∃ b, o = .bool b ∧ (b = true ↔ p)

/-- The result a call must return when the mathematical sets before the call are `S`. -/
def Right (E : EnumLike α) (S : Nat → VSet α) : Op α → Out α → Prop
  | .insert r a, o => Answers (¬ S r a) o
  | .remove r a, o => Answers (S r a) o
  | .contains r a, o => Answers (S r a) o
  | .len r, o => ∃ l : List α, l.Nodup ∧ (∀ a, a ∈ l ↔ S r a) ∧ o = .num l.length
  | .isEmpty r, o => Answers (∀ a, ¬ S r a) o
  | .isDisjoint r q, o => Answers (¬ ∃ a, S r a ∧ S q a) o
  | .isSubset r q, o => Answers (∀ a, S r a → S q a) o
  | .isSuperset r q, o => Answers (∀ a, S q a → S r a) o
  | .eq r q, o => Answers (∀ a, S r a ↔ S q a) o
  | .iter r, o => Items E (S r) o
  | .union r q, o => Items E (fun a => S r a ∨ S q a) o
  | .intersection r q, o => Items E (fun a => S r a ∧ S q a) o
  | .difference r q, o => Items E (fun a => S r a ∧ ¬ S q a) o
  | .symmetricDifference r q, o => Items E (fun a => ¬ (S r a ↔ S q a)) o
  | _, o => o = .unit

/-- All results of a history are right. -/
def RightRun (E : EnumLike α) : List (Op α) → (Nat → VSet α) → List (Out α) → Prop
  | [], _, outs => outs = []
  | o :: os, S, outs => ∃ r rs, outs = r :: rs ∧ Right E S o r ∧ RightRun E os (specSets S o) rs

variable {σ : Type} (B : BitSet σ) (E : EnumLike α)

/-- All items of an iterator (it has finitely many; one step more than there are). -/
def all (it : WrapIter) : Out α := .items (collect E (it.inner.length + 1) it).1

/-- One call on the modelled `EnumSet`s. -/
def step (R : Nat → EnumSet σ) : Op α → Out α × (Nat → EnumSet σ)
  | .new r => (.unit, upd R r (new B))
  | .fromIter r as => (.unit, upd R r (fromIter B E as))
  | .clone r q => (.unit, upd R q (clone (R r)))
  | .insert r a => (.bool (insert B E (R r) a).1, upd R r (insert B E (R r) a).2)
  | .remove r a => (.bool (remove B E (R r) a).1, upd R r (remove B E (R r) a).2)
  | .contains r a => (.bool (contains B E (R r) a), R)
  | .extend r as => (.unit, upd R r (extend B E (R r) as))
  | .clear r => (.unit, upd R r (clear B (R r)))
  | .shrinkToFit r => (.unit, upd R r (shrinkToFit B (R r)))
  | .len r => (.num (len B (R r)), R)
  | .isEmpty r => (.bool (isEmpty B (R r)), R)
  | .unionWith r q => (.unit, upd R r (unionWith B (R r) (R q)))
  | .intersectWith r q => (.unit, upd R r (intersectWith B (R r) (R q)))
  | .differenceWith r q => (.unit, upd R r (differenceWith B (R r) (R q)))
  | .symmetricDifferenceWith r q => (.unit, upd R r (symmetricDifferenceWith B (R r) (R q)))
  | .isDisjoint r q => (.bool (isDisjoint B (R r) (R q)), R)
  | .isSubset r q => (.bool (isSubset B (R r) (R q)), R)
  | .isSuperset r q => (.bool (isSuperset B (R r) (R q)), R)
  | .eq r q => (.bool (eq B (R r) (R q)), R)
  | .iter r => (all E (iter B (R r)), R)
  | .union r q => (all E (union B (R r) (R q)), R)
  | .intersection r q => (all E (intersection B (R r) (R q)), R)
  | .difference r q => (all E (difference B (R r) (R q)), R)
  | .symmetricDifference r q => (all E (symmetricDifference B (R r) (R q)), R)

/-- A history on the modelled `EnumSet`s. -/
def run : List (Op α) → (Nat → EnumSet σ) → List (Out α)
  | [], _ => []
  | o :: os, R => (step B E R o).1 :: run os (step B E R o).2

end ESet
end EnumVecModel
