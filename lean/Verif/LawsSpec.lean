import Verif.History

/-!
# Equations between programs over `Vec`

Rewrite rules a programmer or a linter applies to code that uses `Vec`: `Law p q` says that the calls `p` may be replaced by the calls `q`
if nothing looks at what `p` and `q` return. `Equal p q` is the congruence they generate: the rules may be used anywhere in a program, in
both directions and any number of times.
-/

namespace EnumVecModel
open EV

variable {α τ : Type}

/-- A closure without side effects that does not panic. -/
def pureClosure {β : Type} (f : α → β) : Closure τ α β := fun x w => (some (f x), w)

/-- The call changes no contents. -/
def Op.reads : Op τ α → Bool
  | .len _ | .isEmpty _ | .get _ _ | .eq _ _ | .any _ _ | .all _ _ | .toVec _ | .iterate _ _ | .hash _ => true
  | .reserve _ _ | .shrinkToFit _ => true
  | _ => false

/-- Rewrite rules for code that uses `Vec`. They also hold if calls in them panic (e.g. `swap` out of bounds). -/
inductive Law : List (Op τ α) → List (Op τ α) → Prop
  /-- reading, `reserve` and `shrink_to_fit` have no effect -/
  | read (o : Op τ α) : o.reads = true → Law [o] []
  | push_pop (r : Nat) (x : α) : Law [.push r x, .pop r] []
  | insert_remove (r i : Nat) (x : α) : Law [.insert r i x, .remove r i] []
  | insert_front (r : Nat) (x y : α) : Law [.push r x, .insert r 0 y] [.insert r 0 y, .push r x]
  | swap_swap (r i j : Nat) : Law [.swap r i j, .swap r i j] []
  | swap_comm (r i j : Nat) : Law [.swap r i j] [.swap r j i]
  | set_set (r i : Nat) (x y : α) : Law [.set r i x, .set r i y] [.set r i y]
  | set_comm (r i j : Nat) (x y : α) : i ≠ j → Law [.set r i x, .set r j y] [.set r j y, .set r i x]
  | truncate_truncate (r n k : Nat) : Law [.truncate r n, .truncate r k] [.truncate r (min n k)]
  | clear_truncate (r : Nat) : Law [.clear r] [.truncate r 0]
  | clear_new (r : Nat) : Law [.clear r] [.new r]
  | with_capacity (r n : Nat) : Law [.withCapacity r n] [.new r]
  | from_elem (r : Nat) (x : α) (n : Nat) : Law [.fromElem r x n] [.new r, .resize r n x]
  | resize_resize (r n : Nat) (x y : α) : Law [.resize r n x, .resize r n y] [.resize r n x]
  | resize_truncate (r n k : Nat) (x : α) : k ≤ n → Law [.resize r n x, .truncate r k] [.resize r k x]
  | from_vec (r : Nat) (xs : List α) : Law [.fromVec r xs] [.fromSlice r xs]
  | from_iter (r : Nat) (it : Src α) : it.panics = false → Law [.fromIter r it] [.fromVec r it.items]
  | collect (r : Nat) (it : Src α) : it.panics = false → Law [.fromIter r it] [.new r, .extend r it]
  | extend_extend (r : Nat) (a b d : Src α) : d.items = a.items ++ b.items → Law [.extend r a, .extend r b] [.extend r d]
  | extend_one (r : Nat) (x : α) (it : Src α) : it.items = [x] → Law [.extend r it] [.push r x]
  | append_twice (r s o : Nat) : r ≠ o → s ≠ o → Law [.append r o, .append s o] [.append r o]
  | clone_append (d r o : Nat) : d ≠ r → d ≠ o → r ≠ o → Law [.clone d o, .append r d, .clear o] [.append r o, .new d]
  | clone_clone (d e s : Nat) : d ≠ s → Law [.clone d s, .clone e d] [.clone d s, .clone e s]
  /-- an assignment nobody reads -/
  | dead_clone (d s e : Nat) : d ≠ e → Law [.clone d s, .clone d e] [.clone d e]
  | retain_retain (r : Nat) (p q : α → Bool) :
      Law [.retain r (pureClosure p), .retain r (pureClosure q)] [.retain r (pureClosure fun x => p x && q x)]
  | for_each_for_each (r : Nat) (f g : α → α) :
      Law [.forEach r (pureClosure f), .forEach r (pureClosure g)] [.forEach r (pureClosure fun x => g (f x))]
  | for_each_retain (r : Nat) (f : α → α) (p : α → Bool) :
      Law [.forEach r (pureClosure f), .retain r (pureClosure p)] [.retain r (pureClosure fun x => p (f x)), .forEach r (pureClosure f)]

/-- Programs that can be rewritten into each other. -/
inductive Equal : List (Op τ α) → List (Op τ α) → Prop
  | law {p q : List (Op τ α)} : Law p q → Equal p q
  | refl (p : List (Op τ α)) : Equal p p
  | symm {p q : List (Op τ α)} : Equal p q → Equal q p
  | trans {p q s : List (Op τ α)} : Equal p q → Equal q s → Equal p s
  | inside (pre post : List (Op τ α)) {p q : List (Op τ α)} : Equal p q → Equal (pre ++ p ++ post) (pre ++ q ++ post)

end EnumVecModel
