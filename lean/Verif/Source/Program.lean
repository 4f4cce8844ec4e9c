import Verif.Source.Semantics
import Verif.History

/-!
# Calls of the source text

`textStep` makes a call of `History.lean` by running the text of the method: it puts the vectors of the call into the slots, runs the text and shows the
caller what came out. It is `none` if the interpreter gets stuck (an expression without meaning, a loop of more than `usize::MAX` rounds,
calls nested deeper than 20). `clone` is derived, there is no text; the model of it is used.
-/

namespace EnumVecModel
namespace Source

set_option linter.constructorNameAsVariable false

variable {α τ : Type} {c : Inst α}

/-- The two vectors of a call, nothing hashed, no iterator. -/
def heapOf (a b : EV c.W) (w : τ) : Heap τ c.W := ⟨a, b, w, [], (.a, 0, 0)⟩

/-- No closure. -/
def noUser : User α τ c.W := fun _ t => (Option.none, t)

/-- A call of the text. -/
def textCall (c : Inst α) (u : User α τ c.W) (f : Sym) (args : List (Val α c.W)) (h : Heap τ c.W) : Ret α τ c.W := call c u c.build.usizeLim 20 f args h

/-- What the caller sees of a value. -/
def Val.show : Val α W → Option (EnumVecModel.Out α)
  | .unit => Option.some .unit
  | .usz n => Option.some (.num n)
  | .bool b => Option.some (.bool b)
  | .elem x => Option.some (.val x)
  | .none => Option.some (.item Option.none)
  | .some (.elem x) => Option.some (.item (Option.some x))
  | .slice xs => Option.some (.list xs)
  | _ => Option.none

/-- `r.f(v, w)`, with a closure. -/
def textOn (m : Mem c τ) (u : User α τ c.W) (r : Nat) (f : Sym) (v w : Val α c.W) : Option (EnumVecModel.Out α × Mem c τ) :=
  match textCall c u f [.vec .a, v, w] (heapOf (m.reg r) (EV.new c) m.world) with
  | .val v h => v.show.map fun o => (o, ⟨upd m.reg r h.a, h.world⟩)
  | .fault e h => Option.some (e.out, ⟨upd m.reg r h.a, h.world⟩)
  | .stuck => Option.none

/-- `r.f(&mut o)`, `r.f(&o)` -/
def textOn2 (m : Mem c τ) (r o : Nat) (f : Sym) : Option (EnumVecModel.Out α × Mem c τ) :=
  match textCall c noUser f [.vec .a, .vec .b, .unit] (heapOf (m.reg r) (m.reg o) m.world) with
  | .val v h => v.show.map fun x => (x, ⟨upd (upd m.reg r h.a) o h.b, h.world⟩)
  | .fault e h => Option.some (e.out, ⟨upd (upd m.reg r h.a) o h.b, h.world⟩)
  | .stuck => Option.none

/-- `r = EnumVec::f(v, w)`: a new vector, in the second slot. -/
def textMake (m : Mem c τ) (r : Nat) (f : Sym) (v w : Val α c.W) : Option (EnumVecModel.Out α × Mem c τ) :=
  match textCall c noUser f [v, w] (heapOf (EV.new c) (EV.new c) m.world) with
  | .val (.vec .b) h => Option.some (.unit, ⟨upd m.reg r h.b, h.world⟩)
  | .fault e h => Option.some (e.out, ⟨m.reg, h.world⟩)
  | _ => Option.none

/-- `d = r.split_off(at)` -/
def textSplit (m : Mem c τ) (r at_ d : Nat) : Option (EnumVecModel.Out α × Mem c τ) :=
  match textCall c noUser .split_off [.vec .a, .usz at_, .unit] (heapOf (m.reg r) (EV.new c) m.world) with
  | .val (.vec .b) h => Option.some (.unit, ⟨upd (upd m.reg r h.a) d h.b, h.world⟩)
  | .fault e h => Option.some (e.out, ⟨upd m.reg r h.a, h.world⟩)
  | _ => Option.none

/-- `r.hash(state)`: what the hasher was fed. -/
def textHash (m : Mem c τ) (r : Nat) : Option (EnumVecModel.Out α × Mem c τ) :=
  match textCall c noUser .hash [.vec .a, .hasher, .unit] (heapOf (m.reg r) (EV.new c) m.world) with
  | .val .unit h => Option.some (.hash h.hashed, ⟨upd m.reg r h.a, h.world⟩)
  | .fault e h => Option.some (e.out, ⟨upd m.reg r h.a, h.world⟩)
  | _ => Option.none

/-- The method and its argument. -/
def iterCall : IterOp → Sym × Val α c.W
  | .next => (.next, .unit)
  | .nextBack => (.next_back, .unit)
  | .nth n => (.nth, .usz n)
  | .sizeHint => (.size_hint, .unit)

/-- What the caller of a method of an iterator sees of a value. -/
def Val.showIter : Val α W → Option (IterOut α)
  | .none => Option.some (.item Option.none)
  | .some (.elem x) => Option.some (.item (Option.some x))
  | .pair (.usz n) .none => Option.some (.hint n Option.none)
  | .pair (.usz n) (.some (.usz k)) => Option.some (.hint n (Option.some k))
  | _ => Option.none

/-- Calls on an iterator, until one panics; the results so far come first. -/
def textIter : List IterOp → List (IterOut α) → Heap τ c.W → Option (EnumVecModel.Out α × Heap τ c.W)
  | [], acc, h => Option.some (.iter acc, h)
  | o :: os, acc, h =>
    match textCall c noUser (iterCall (c := c) (α := α) o).1 [.iter, (iterCall o).2, .unit] h with
    | .val v h =>
      match v.showIter with
      | Option.some x => textIter os (acc ++ [x]) h
      | Option.none => Option.none
    | .fault e h => Option.some (e.out, h)
    | .stuck => Option.none

/-- `r.iter()`, and calls on it. -/
def textIterate (m : Mem c τ) (r : Nat) (calls : List IterOp) : Option (EnumVecModel.Out α × Mem c τ) :=
  match textCall c noUser .iter [.vec .a, .unit, .unit] (heapOf (m.reg r) (EV.new c) m.world) with
  | .val .iter h => (textIter calls [] h).map fun p => (p.1, ⟨upd m.reg r p.2.a, p.2.world⟩)
  | _ => Option.none

/-- One call, by running the text. -/
def textStep (c : Inst α) (m : Mem c τ) : EnumVecModel.Op τ α → Option (EnumVecModel.Out α × Mem c τ)
  | .new r => textMake m r .new .unit .unit
  | .withCapacity r n => textMake m r .with_capacity (.usz n) .unit
  | .fromElem r x n => textMake m r .from_elem (.elem x) (.usz n)
  | .fromVec r xs => textMake m r .from (.slice xs) .unit
  | .fromSlice r xs => textMake m r .from_slice (.slice xs) .unit
  | .fromIter r it => textMake m r .from_iter (.src it) .unit
  -- `#[derive(Clone)]`
  | .clone r src => Option.some (step c m (.clone r src))
  | .len r => textOn m noUser r .len .unit .unit
  | .isEmpty r => textOn m noUser r .is_empty .unit .unit
  | .get r i => textOn m noUser r .get (.usz i) .unit
  | .set r i x => textOn m noUser r .set (.usz i) (.elem x)
  | .push r x => textOn m noUser r .push (.elem x) .unit
  | .pop r => textOn m noUser r .pop .unit .unit
  | .insert r i x => textOn m noUser r .insert (.usz i) (.elem x)
  | .remove r i => textOn m noUser r .remove (.usz i) .unit
  | .swap r i j => textOn m noUser r .swap (.usz i) (.usz j)
  | .swapRemove r i => textOn m noUser r .swap_remove (.usz i) .unit
  | .truncate r n => textOn m noUser r .truncate (.usz n) .unit
  | .clear r => textOn m noUser r .clear .unit .unit
  | .resize r n x => textOn m noUser r .resize (.usz n) (.elem x)
  | .reserve r n => textOn m noUser r .reserve (.usz n) .unit
  | .shrinkToFit r => textOn m noUser r .shrink_to_fit .unit .unit
  | .extend r it => textOn m noUser r .extend (.src it) .unit
  | .append r o => textOn2 m r o .append
  | .splitOff r at_ d => textSplit m r at_ d
  | .retain r f => textOn m (userBool f) r .retain .unit .unit
  | .forEach r f => textOn m (userElem f) r .for_each .unit .unit
  | .eq r o => textOn2 m r o .eq
  | .any r x => textOn m noUser r .any (.elem x) .unit
  | .all r x => textOn m noUser r .all (.elem x) .unit
  | .toVec r => textOn m noUser r .to_vec .unit .unit
  | .iterate r calls => textIterate m r calls
  | .hash r => textHash m r

/-- A history, by running the text; the program continues after every panic. -/
def textRunAll (c : Inst α) : List (EnumVecModel.Op τ α) → Mem c τ → Option (List (EnumVecModel.Out α) × Mem c τ)
  | [], m => Option.some ([], m)
  | o :: os, m =>
    match textStep c m o with
    | Option.some (out, m) => (textRunAll c os m).map fun p => (out :: p.1, p.2)
    | Option.none => Option.none

/-- A history, by running the text, that ends at the first failed allocation. -/
def textRun (c : Inst α) : List (EnumVecModel.Op τ α) → Mem c τ → Option (List (EnumVecModel.Out α) × Mem c τ)
  | [], m => Option.some ([], m)
  | o :: os, m =>
    match textStep c m o with
    | Option.some (.oom, m) => Option.some ([.oom], m)
    | Option.some (out, m) => (textRun c os m).map fun p => (out :: p.1, p.2)
    | Option.none => Option.none

/-- What is documented of `Vec`, and holds of `SmallVec`: an allocation has at most `isize::MAX` bytes. -/
structure AllocSmall (c : Inst α) : Prop where
  fresh : 2 * c.alloc.fresh < c.build.usizeLim
  exact : ∀ n k, c.alloc.exact n = some k → 2 * k < c.build.usizeLim
  grow : ∀ cap n k, c.alloc.grow cap n = some k → 2 * k < c.build.usizeLim

/-- The numbers passed as `usize` are below the limit. -/
def _root_.EnumVecModel.Op.Usizes (c : Inst α) : EnumVecModel.Op τ α → Prop
  | .withCapacity _ n | .fromElem _ _ n | .get _ n | .set _ n _ | .insert _ n _ | .remove _ n | .swapRemove _ n | .truncate _ n | .resize _ n _ | .reserve _ n
  | .splitOff _ n _ => n < c.build.usizeLim
  | .swap _ i j => i < c.build.usizeLim ∧ j < c.build.usizeLim
  | .fromIter _ it | .extend _ it => it.hint < c.build.usizeLim
  | _ => True

end Source
end EnumVecModel
