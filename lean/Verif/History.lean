import Verif.Spec
import Verif.IterSpec

/-!
# Histories of calls over any number of vectors

A program has vector variables `0, 1, 2, …` (registers) and a `world` shared by the closures it passes to `for_each` and
`retain`. A history is a list of calls. `step` makes a call on modelled `EnumVec`s, `vecStep` makes the same call on
`Vec`s, i.e. on lists.
-/

namespace EnumVecModel
open EV

variable {α τ : Type}

/-- A safe public call. The first number is the variable the method is called on or the result is stored in. -/
inductive Op (τ α : Type)
  | new (r : Nat)
  | withCapacity (r n : Nat)
  /-- `r = EnumVec::from_elem(x, n)` or `enum_vec![x; n]` -/
  | fromElem (r : Nat) (x : α) (n : Nat)
  /-- `r = vec.into()` -/
  | fromVec (r : Nat) (xs : List α)
  /-- `r = EnumVec::from_slice(xs)` or `enum_vec![a, b, c]` -/
  | fromSlice (r : Nat) (xs : List α)
  /-- `r = iterator.collect()` -/
  | fromIter (r : Nat) (it : Src α)
  /-- `r = src.clone()` -/
  | clone (r src : Nat)
  | len (r : Nat)
  | isEmpty (r : Nat)
  | get (r i : Nat)
  | set (r i : Nat) (x : α)
  | push (r : Nat) (x : α)
  | pop (r : Nat)
  | insert (r i : Nat) (x : α)
  | remove (r i : Nat)
  | swap (r i j : Nat)
  | swapRemove (r i : Nat)
  | truncate (r n : Nat)
  | clear (r : Nat)
  | resize (r n : Nat) (x : α)
  | reserve (r n : Nat)
  | shrinkToFit (r : Nat)
  | extend (r : Nat) (it : Src α)
  /-- `r.append(&mut o)` -/
  | append (r o : Nat)
  /-- `d = r.split_off(at)` -/
  | splitOff (r at_ d : Nat)
  | retain (r : Nat) (f : Closure τ α Bool)
  | forEach (r : Nat) (f : Closure τ α α)
  /-- `r == o` -/
  | eq (r o : Nat)
  | any (r : Nat) (x : α)
  | all (r : Nat) (x : α)
  | toVec (r : Nat)
  /-- any sequence of calls on `r.iter()` or `r.into_iter()` -/
  | iterate (r : Nat) (calls : List IterOp)
  /-- what `r.hash(…)` feeds to the hasher -/
  | hash (r : Nat)

/-- What the caller sees of a call. -/
inductive Out (α : Type)
  | unit
  | num (n : Nat)
  | bool (b : Bool)
  | val (x : α)
  | item (x : Option α)
  | list (l : List α)
  | iter (l : List (IterOut α))
  | hash (l : List Nat)
  /-- a panic, whatever the message -/
  | panic
  /-- `from_discr` was called with a number that is no discriminant (and panicked) -/
  | invalid
  /-- "capacity overflow" or failed allocation -/
  | oom
  /-- undefined behaviour -/
  | ub
  deriving DecidableEq

/-- What the caller sees of a fault. -/
def Fault.out : Fault → Out α
  | .capacity => .oom
  | .ub => .ub
  | .badDiscr => .invalid
  | .index | .unwrapNone | .overflow | .user => .panic

/-- Change one variable. -/
def upd {β : Type} (f : Nat → β) (r : Nat) (x : β) : Nat → β := fun k => if k = r then x else f k

/-! ## On `EnumVec`s -/

/-- State of a program over `EnumVec`s. -/
structure Mem (c : Inst α) (τ : Type) where
  reg : Nat → EV c.W
  world : τ

/-- Call a method of variable `r`; also after a panic the variable keeps what the method left. -/
def Mem.call {c : Inst α} {β : Type} (m : Mem c τ) (r : Nat) (f : M (EV c.W) β) (out : β → Out α) : Out α × Mem c τ :=
  match f (m.reg r) with
  | (.ok b, s) => (out b, { m with reg := upd m.reg r s })
  | (.error e, s) => (e.out, { m with reg := upd m.reg r s })

/-- Call a method of variable `r` with a closure over the world. -/
def Mem.callW {c : Inst α} (m : Mem c τ) (r : Nat) (f : M (EV c.W × τ) Unit) : Out α × Mem c τ :=
  match f (m.reg r, m.world) with
  | (.ok _, p) => (.unit, ⟨upd m.reg r p.1, p.2⟩)
  | (.error e, p) => (e.out, ⟨upd m.reg r p.1, p.2⟩)

/-- Assign a new vector to variable `r`, unless its construction panics. -/
def Mem.assign {c : Inst α} (m : Mem c τ) (r : Nat) (v : Except Fault (EV c.W)) : Out α × Mem c τ :=
  match v with
  | .ok s => (.unit, { m with reg := upd m.reg r s })
  | .error e => (e.out, m)

/-- Call a `&self` method. -/
def Mem.ask {c : Inst α} {β : Type} (m : Mem c τ) (v : Except Fault β) (out : β → Out α) : Out α × Mem c τ :=
  match v with
  | .ok b => (out b, m)
  | .error e => (e.out, m)

/-- One call on `EnumVec`s. -/
def step (c : Inst α) (m : Mem c τ) : Op τ α → Out α × Mem c τ
  | .new r => m.assign r (.ok (EV.new c))
  | .withCapacity r n => m.assign r (EV.withCapacity c n)
  | .fromElem r x n => m.assign r (EV.fromElem c x n)
  | .fromVec r xs => m.assign r (EV.fromVec c xs)
  | .fromSlice r xs => m.assign r (EV.fromSlice c xs)
  | .fromIter r it => m.assign r (EV.fromIter c it)
  | .clone r src => m.assign r (EV.clone c (m.reg src))
  | .len r => (.num (EV.len c (m.reg r)), m)
  | .isEmpty r => (.bool (EV.isEmpty c (m.reg r)), m)
  | .get r i => m.call r (EV.get c i) .item
  | .set r i x => m.call r (EV.set c i x) fun _ => .unit
  | .push r x => m.call r (EV.push c x) fun _ => .unit
  | .pop r => m.call r (EV.pop c) .item
  | .insert r i x => m.call r (EV.insert c i x) fun _ => .unit
  | .remove r i => m.call r (EV.remove c i) .val
  | .swap r i j => m.call r (EV.swap c i j) fun _ => .unit
  | .swapRemove r i => m.call r (EV.swapRemove c i) .val
  | .truncate r n => m.call r (EV.truncate c n) fun _ => .unit
  | .clear r => m.call r (EV.clear c) fun _ => .unit
  | .resize r n x => m.call r (EV.resize c n x) fun _ => .unit
  | .reserve r n => m.call r (EV.reserve c n) fun _ => .unit
  | .shrinkToFit r => m.call r (EV.shrinkToFit c) fun _ => .unit
  | .extend r it => m.call r (EV.extend c it) fun _ => .unit
  | .append r o =>
    match EV.append c (m.reg r, m.reg o) with
    | (.ok _, p) => (.unit, { m with reg := upd (upd m.reg r p.1) o p.2 })
    | (.error e, p) => (e.out, { m with reg := upd (upd m.reg r p.1) o p.2 })
  | .splitOff r at_ d =>
    match EV.splitOff c at_ (m.reg r) with
    | (.ok o, s) => (.unit, { m with reg := upd (upd m.reg r s) d o })
    | (.error e, s) => (e.out, { m with reg := upd m.reg r s })
  | .retain r f => m.callW r (EV.retain c f)
  | .forEach r f => m.callW r (EV.forEach c f)
  | .eq r o => m.ask (EV.eq c (m.reg r) (m.reg o)) .bool
  | .any r x => m.call r (EV.any c x) .bool
  | .all r x => m.call r (EV.all c x) .bool
  | .toVec r => m.ask (EV.toVec c (m.reg r)) .list
  | .iterate r calls => m.ask (iterRun c calls (EV.iter c (m.reg r))).1 .iter
  | .hash r => m.ask (EV.hash c (m.reg r)) .hash

/-- A history on `EnumVec`s: the results of the calls, and the final state. The program ends at the first failed
allocation; it continues after other panics. -/
def run (c : Inst α) : List (Op τ α) → Mem c τ → List (Out α) × Mem c τ
  | [], m => ([], m)
  | o :: os, m =>
    match step c m o with
    | (.oom, m') => ([.oom], m')
    | (out, m') => (out :: (run c os m').1, (run c os m').2)

/-- A history on `EnumVec`s that is continued after every panic, also after failed allocations. -/
def runAll (c : Inst α) : List (Op τ α) → Mem c τ → List (Out α) × Mem c τ
  | [], m => ([], m)
  | o :: os, m => ((step c m o).1 :: (runAll c os (step c m o).2).1, (runAll c os (step c m o).2).2)

/-- All variables are empty. -/
def Mem.start (c : Inst α) (w : τ) : Mem c τ := ⟨fun _ => EV.new c, w⟩

/-! ## On `Vec`s -/

/-- State of a program over `Vec`s. -/
structure Vecs (α τ : Type) where
  reg : Nat → List α
  world : τ

/-- The elements not visited by a filter whose predicate panics, from the one it panicked on. -/
def filterRest (f : Closure τ α Bool) : List α → τ → List α
  | [], _ => []
  | x :: xs, t =>
    match f x t with
    | (some _, t') => filterRest f xs t'
    | (none, _) => x :: xs

/-- One call on `Vec`s. Allocation never fails. -/
def vecStep (E : EnumLike α) [DecidableEq α] (v : Vecs α τ) : Op τ α → Out α × Vecs α τ
  | .new r => (.unit, { v with reg := upd v.reg r [] })
  | .withCapacity r _ => (.unit, { v with reg := upd v.reg r [] })
  | .fromElem r x n => (.unit, { v with reg := upd v.reg r (List.replicate n x) })
  | .fromVec r xs => (.unit, { v with reg := upd v.reg r xs })
  | .fromSlice r xs => (.unit, { v with reg := upd v.reg r xs })
  | .fromIter r it => if it.panics then (.panic, v) else (.unit, { v with reg := upd v.reg r it.items })
  | .clone r src => (.unit, { v with reg := upd v.reg r (v.reg src) })
  | .len r => (.num (v.reg r).length, v)
  | .isEmpty r => (.bool (v.reg r).isEmpty, v)
  | .get r i => (.item (v.reg r)[i]?, v)
  | .set r i x =>
    if i < (v.reg r).length then (.unit, { v with reg := upd v.reg r ((v.reg r).set i x) }) else (.panic, v)
  | .push r x => (.unit, { v with reg := upd v.reg r (v.reg r ++ [x]) })
  | .pop r => (.item (v.reg r).getLast?, { v with reg := upd v.reg r (v.reg r).dropLast })
  | .insert r i x =>
    if i ≤ (v.reg r).length then (.unit, { v with reg := upd v.reg r ((v.reg r).take i ++ x :: (v.reg r).drop i) })
    else (.panic, v)
  | .remove r i =>
    match (v.reg r)[i]? with
    | some x => (.val x, { v with reg := upd v.reg r ((v.reg r).take i ++ (v.reg r).drop (i + 1)) })
    | none => (.panic, v)
  | .swap r i j =>
    match (v.reg r)[i]?, (v.reg r)[j]? with
    | some x, some y => (.unit, { v with reg := upd v.reg r (((v.reg r).set i y).set j x) })
    | _, _ => (.panic, v)
  | .swapRemove r i =>
    match (v.reg r)[i]?, (v.reg r).getLast? with
    | some x, some y => (.val x, { v with reg := upd v.reg r ((v.reg r).set i y).dropLast })
    | _, _ => (.panic, v)
  | .truncate r n => (.unit, { v with reg := upd v.reg r ((v.reg r).take n) })
  | .clear r => (.unit, { v with reg := upd v.reg r [] })
  | .resize r n x => (.unit, { v with reg := upd v.reg r ((v.reg r).take n ++ List.replicate (n - (v.reg r).length) x) })
  | .reserve _ _ => (.unit, v)
  | .shrinkToFit _ => (.unit, v)
  | .extend r it => (if it.panics then .panic else .unit, { v with reg := upd v.reg r (v.reg r ++ it.items) })
  | .append r o => (.unit, { v with reg := upd (upd v.reg r (v.reg r ++ v.reg o)) o [] })
  | .splitOff r at_ d =>
    if at_ ≤ (v.reg r).length then
      (.unit, { v with reg := upd (upd v.reg r ((v.reg r).take at_)) d ((v.reg r).drop at_) })
    else (.panic, v)
  | .retain r f =>
    match filterSpec f (v.reg r) v.world with
    | (kept, w, true) => (.unit, ⟨upd v.reg r kept, w⟩)
    | (kept, w, false) => (.panic, ⟨upd v.reg r (kept ++ filterRest f (v.reg r) v.world), w⟩)
  | .forEach r f =>
    match mapSpec f (v.reg r) v.world with
    | (l, w, true) => (.unit, ⟨upd v.reg r l, w⟩)
    | (l, w, false) => (.panic, ⟨upd v.reg r l, w⟩)
  | .eq r o => (.bool (v.reg r == v.reg o), v)
  | .any r x => (.bool ((v.reg r).any (· == x)), v)
  | .all r x => (.bool ((v.reg r).all (· == x)), v)
  | .toVec r => (.list (v.reg r), v)
  | .iterate r calls => (.iter (iterSpecRun calls (v.reg r)).1, v)
  -- `Vec` hashes its length and elements instead; here: the discriminants of the elements
  | .hash r => (.hash ((v.reg r).map E.toDiscr), v)

/-- A history on `Vec`s. -/
def vecRun (E : EnumLike α) [DecidableEq α] : List (Op τ α) → Vecs α τ → List (Out α) × Vecs α τ
  | [], v => ([], v)
  | o :: os, v =>
    ((vecStep E v o).1 :: (vecRun E os (vecStep E v o).2).1, (vecRun E os (vecStep E v o).2).2)

/-- All variables are empty. -/
def Vecs.start (w : τ) : Vecs α τ := ⟨fun _ => [], w⟩

/-! ## Which histories behave

Not all histories of `EnumVec` behave like those of `Vec` (see C06, C07, C08, C15, C16). `Allowed` says which calls are
claimed to, in terms of the `Vec` history and of three marks per variable:

* `clean` — nothing wrong,
* `dirty` — a block-wise `insert` or fill may have left garbage in unused bits of a block (only if the block width is no
  multiple of the element width); a `remove` across blocks would mix it into elements,
* `dead` — was the argument of an `append` that left its length without storage; only usable again after `clear`,
  `truncate(0)` or an assignment. -/
inductive Mark
  | clean
  | dirty
  | dead
  deriving DecidableEq

/-- The block width is a multiple of the element width: a block has no unused bits. -/
def Inst.tight (c : Inst α) : Prop := c.W % c.bits = 0

instance (c : Inst α) : Decidable c.tight := inferInstanceAs (Decidable (_ = _))

/-- Mark after leaving garbage in unused bits, if there are any. -/
def Inst.soil (c : Inst α) (k : Mark) : Mark := if c.tight then k else .dirty

/-- `insert(i, …)` into `n` elements stays within one block, not at its begin. -/
def Inst.nearInsert (c : Inst α) (n i : Nat) : Prop := 0 < i % c.epb ∧ n < i - i % c.epb + c.epb

/-- `remove(i)` from `n` elements moves only elements up to the begin of the next block. -/
def Inst.nearRemove (c : Inst α) (n i : Nat) : Prop := n - 1 ≤ (1 + i / c.epb) * c.epb

instance (c : Inst α) (n i : Nat) : Decidable (c.nearInsert n i) := inferInstanceAs (Decidable (_ ∧ _))
instance (c : Inst α) (n i : Nat) : Decidable (c.nearRemove n i) := inferInstanceAs (Decidable (_ ≤ _))

/-- The variables a call reads or modifies (not the ones it only assigns). -/
def Op.uses : Op τ α → List Nat
  | .new _ | .withCapacity _ _ | .fromElem _ _ _ | .fromVec _ _ | .fromSlice _ _ | .fromIter _ _ => []
  | .clone _ src => [src]
  | .append r o | .eq r o => [r, o]
  | .len r | .isEmpty r | .get r _ | .set r _ _ | .push r _ | .pop r | .insert r _ _ | .remove r _ | .swap r _ _
  | .swapRemove r _ | .truncate r _ | .clear r | .resize r _ _ | .reserve r _ | .shrinkToFit r | .extend r _
  | .splitOff r _ _ | .retain r _ | .forEach r _ | .any r _ | .all r _ | .toVec r | .iterate r _ | .hash r => [r]

/-- The call is one of the two that make a dead variable usable: `clear` and `truncate(0)`. -/
def Op.revives : Op τ α → Bool
  | .clear _ => true
  | .truncate _ 0 => true
  | _ => false

/-- Rust's borrow checker: `a.append(&mut a)` does not compile. -/
def Op.Borrows : Op τ α → Prop
  | .append r o => r ≠ o
  | _ => True

/-- Calls that behave like those of `Vec`. -/
def Allowed (c : Inst α) (k : Nat → Mark) (v : Vecs α τ) (op : Op τ α) : Prop :=
  op.Borrows ∧ (op.revives = false → ∀ r ∈ op.uses, k r ≠ .dead) ∧
  match op with
  -- C07: beyond the end `insert` pushes instead of panicking; C06: elements as wide as a block
  | .insert r i _ => i ≤ (v.reg r).length ∧ (c.bits < c.W ∨ c.nearInsert (v.reg r).length i)
  -- C08
  | .remove r i => (v.reg r).length ≤ i ∨ c.nearRemove (v.reg r).length i ∨ c.bits < c.W ∧ (c.tight ∨ k r = .clean)
  -- C16
  | .splitOff r at_ _ => (v.reg r).length ≤ at_
  -- C14: `size_hint` must be a lower bound, and not reach `usize::MAX` if there is one element per block; C17: the predicate must not panic
  | .extend r it => it.hint ≤ it.items.length ∧ ¬ c.AtLimit ((v.reg r).length + it.hint)
  | .fromIter _ it => it.hint ≤ it.items.length ∧ ¬ c.AtLimit it.hint
  | .fromVec _ xs | .fromSlice _ xs => ¬ c.AtLimit xs.length
  | .reserve r n => ¬ c.AtLimit ((v.reg r).length + n)
  | .retain r f => (filterSpec f (v.reg r) v.world).2.2 = true
  | _ => True

/-- The marks after a call. -/
def marks (c : Inst α) (k : Nat → Mark) (v : Vecs α τ) : Op τ α → (Nat → Mark)
  | .new r | .withCapacity r _ | .fromVec r _ | .fromSlice r _ => upd k r .clean
  | .fromIter r it => if it.panics then k else upd k r .clean
  | .fromElem r _ n => upd k r (if n ≤ 4 * c.epb then .clean else c.soil .clean)
  | .clone r src => upd k r (k src)
  | .insert r i _ => if c.nearInsert (v.reg r).length i then k else upd k r (c.soil (k r))
  | .resize r n _ => if n ≤ (v.reg r).length + 4 * c.epb then k else upd k r (c.soil (k r))
  | .append r o =>
    upd (upd k r (if (v.reg r).length % c.epb ≠ 0 ∨ k o = .clean then k r else .dirty)) o
      (if c.small = true ∨ (v.reg r).length % c.epb ≠ 0 then k o else if v.reg o = [] then .clean else .dead)
  | .splitOff r at_ d => if at_ = (v.reg r).length then upd k d .clean else k
  | .clear r => if k r = .dead then upd k r .clean else k
  | .truncate r 0 => if k r = .dead then upd k r .clean else k
  | _ => k

/-- All calls of the history are allowed. -/
def AllowedRun (c : Inst α) [DecidableEq α] : List (Op τ α) → (Nat → Mark) → Vecs α τ → Prop
  | [], _, _ => True
  | o :: os, k, v => Allowed c k v o ∧ AllowedRun c os (marks c k v o) (vecStep c.E v o).2

instance (c : Inst α) (k : Nat → Mark) (v : Vecs α τ) (op : Op τ α) : Decidable (Allowed c k v op) := by
  unfold Allowed
  refine @instDecidableAnd _ _ ?_ (@instDecidableAnd _ _ inferInstance ?_)
  · cases op <;> simp only [Op.Borrows] <;> infer_instance
  · cases op <;> infer_instance

instance AllowedRun.dec (c : Inst α) [DecidableEq α] :
    ∀ (os : List (Op τ α)) (k : Nat → Mark) (v : Vecs α τ), Decidable (AllowedRun c os k v)
  | [], _, _ => .isTrue trivial
  | o :: os, k, v =>
    have := AllowedRun.dec c os (marks c k v o) (vecStep c.E v o).2
    inferInstanceAs (Decidable (_ ∧ _))

/-- The marks after a history. -/
def marksRun (c : Inst α) [DecidableEq α] : List (Op τ α) → (Nat → Mark) → Vecs α τ → (Nat → Mark)
  | [], k, _ => k
  | o :: os, k, v => marksRun c os (marks c k v o) (vecStep c.E v o).2

/-! ## Wider classes of histories: memory safety and validity

The same marks, but computed along the run of the `EnumVec` program itself, from the outcomes and lengths it can
observe, so that they are defined for all histories: also those that do not behave like on `Vec`s, continue after
panics and failed allocations, use dishonest iterators and so on. -/

/-- The call returned normally, without a value. -/
def Out.isUnit : Out α → Bool
  | .unit => true
  | _ => false

/-- The marks after a call. -/
def runMarks (c : Inst α) (k : Nat → Mark) (m : Mem c τ) (op : Op τ α) : Nat → Mark :=
  match op with
  | .new r | .withCapacity r _ | .fromVec r _ | .fromSlice r _ | .fromIter r _ =>
    if (step c m op).1.isUnit then upd k r .clean else k
  | .fromElem r _ n => if (step c m op).1.isUnit then upd k r (if n ≤ 4 * c.epb then .clean else c.soil .clean) else k
  | .clone r src => if (step c m op).1.isUnit then upd k r (k src) else k
  | .insert r i _ => if c.nearInsert (EV.len c (m.reg r)) i then k else upd k r (c.soil (k r))
  | .resize r n _ => if n ≤ EV.len c (m.reg r) + 4 * c.epb then k else upd k r (c.soil (k r))
  | .append r o =>
    if (step c m op).1.isUnit then
      upd (upd k r (if EV.len c (m.reg r) % c.epb ≠ 0 ∨ k o = .clean then k r else .dirty)) o
        (if c.small = true ∨ EV.len c (m.reg r) % c.epb ≠ 0 then k o
          else if EV.len c (m.reg o) = 0 then .clean else .dead)
    else k
  | .splitOff _ _ d => if (step c m op).1.isUnit then upd k d .clean else k
  | .clear r => if k r = .dead then upd k r .clean else k
  | .truncate r 0 => if k r = .dead then upd k r .clean else k
  | _ => k

/-- Calls that are memory-safe: no use of a dead variable (C15), no `split_off` before the end (C16), and not, in a release build with one
element per block, reserving `usize::MAX` elements altogether. -/
def SafeUse (c : Inst α) (k : Nat → Mark) (m : Mem c τ) (op : Op τ α) : Prop :=
  op.Borrows ∧ (op.revives = false → ∀ r ∈ op.uses, k r ≠ .dead) ∧
  match op with
  | .splitOff r at_ _ => EV.len c (m.reg r) ≤ at_
  | .reserve r n => ¬ c.Drops (EV.len c (m.reg r) + n)
  | .extend r it => ¬ c.Drops (EV.len c (m.reg r) + it.hint)
  | .fromIter _ it => ¬ c.Drops it.hint
  | .fromVec _ xs | .fromSlice _ xs => ¬ c.Drops xs.length
  | _ => True

/-- Calls that do not mix bits of different elements: not `insert` and `remove` across blocks for elements as wide as a
block (C06, C08), nor `remove` across blocks with garbage in unused bits (C08). -/
def ValidUse (c : Inst α) (k : Nat → Mark) (m : Mem c τ) (op : Op τ α) : Prop :=
  SafeUse c k m op ∧
  match op with
  | .insert r i _ => c.bits < c.W ∨ c.nearInsert (EV.len c (m.reg r)) i ∨ EV.len c (m.reg r) < i
  | .remove r i => EV.len c (m.reg r) ≤ i ∨ c.nearRemove (EV.len c (m.reg r)) i ∨
      c.bits < c.W ∧ (c.tight ∨ k r = .clean)
  | _ => True

/-- All calls of a history satisfy `P`, which may depend on the marks and the state. -/
def Along (c : Inst α) (P : (Nat → Mark) → Mem c τ → Op τ α → Prop) : List (Op τ α) → (Nat → Mark) → Mem c τ → Prop
  | [], _, _ => True
  | o :: os, k, m => P k m o ∧ Along c P os (runMarks c k m o) (step c m o).2

/-- The marks after a history. -/
def runMarksAll (c : Inst α) : List (Op τ α) → (Nat → Mark) → Mem c τ → Nat → Mark
  | [], k, _ => k
  | o :: os, k, m => runMarksAll c os (runMarks c k m o) (step c m o).2

instance (c : Inst α) (k : Nat → Mark) (m : Mem c τ) (op : Op τ α) : Decidable (SafeUse c k m op) := by
  unfold SafeUse
  refine @instDecidableAnd _ _ ?_ (@instDecidableAnd _ _ inferInstance ?_)
  · cases op <;> simp only [Op.Borrows] <;> infer_instance
  · cases op <;> infer_instance

instance (c : Inst α) (k : Nat → Mark) (m : Mem c τ) (op : Op τ α) : Decidable (ValidUse c k m op) := by
  unfold ValidUse
  refine @instDecidableAnd _ _ inferInstance ?_
  cases op <;> infer_instance

instance Along.dec (c : Inst α) (P : (Nat → Mark) → Mem c τ → Op τ α → Prop) [∀ k m o, Decidable (P k m o)] :
    ∀ (os : List (Op τ α)) (k : Nat → Mark) (m : Mem c τ), Decidable (Along c P os k m)
  | [], _, _ => .isTrue trivial
  | o :: os, k, m =>
    have := Along.dec c P os (runMarks c k m o) (step c m o).2
    inferInstanceAs (Decidable (_ ∧ _))

/-- The variables a call may modify or assign. -/
def Op.writes : Op τ α → List Nat
  | .new r | .withCapacity r _ | .fromElem r _ _ | .fromVec r _ | .fromSlice r _ | .fromIter r _ | .clone r _ => [r]
  | .append r o => [r, o]
  | .splitOff r _ d => [r, d]
  | .set r _ _ | .push r _ | .pop r | .insert r _ _ | .remove r _ | .swap r _ _ | .swapRemove r _ | .truncate r _
  | .clear r | .resize r _ _ | .reserve r _ | .shrinkToFit r | .extend r _ | .retain r _ | .forEach r _ => [r]
  | .len _ | .isEmpty _ | .get _ _ | .eq _ _ | .any _ _ | .all _ _ | .toVec _ | .iterate _ _ | .hash _ => []

/-- The call may store the value `y` (for `for_each`: the closure may return it). -/
def Op.Stores (y : α) : Op τ α → Prop
  | .fromElem _ x _ | .set _ _ x | .push _ x | .insert _ _ x | .resize _ _ x => y = x
  | .fromVec _ xs | .fromSlice _ xs => y ∈ xs
  | .fromIter _ it | .extend _ it => y ∈ it.items
  | .forEach _ f => ∃ x w w', f x w = (some y, w')
  | _ => False

/-- The elements in what a call returns. -/
def Out.values : Out α → List α
  | .val x => [x]
  | .item x => x.toList
  | .list l => l
  | .iter l => l.flatMap fun | .item x => x.toList | .hint _ _ => []
  | _ => []

/-- Why a call may fail for lack of memory; calls not listed never do. -/
def OomReason (c : Inst α) (m : Mem c τ) : Op τ α → Prop
  | .withCapacity _ n => ∃ k, k ≤ c.blocks n ∧ c.alloc.exact k = none
  | .fromElem _ _ n => FillRefused c 0 n
  | .fromVec _ xs | .fromSlice _ xs => Refused c (xs.length / c.epb + 1)
  | .fromIter _ it => Refused c (max it.hint it.items.length / c.epb + 1)
  | .clone _ src => c.alloc.exact (m.reg src).storage.data.length = none
  | .push r _ | .insert r _ _ => Refused c (c.blocks (EV.len c (m.reg r) + 1))
  | .resize r n _ => EV.len c (m.reg r) < n ∧ FillRefused c (EV.len c (m.reg r)) (n - EV.len c (m.reg r))
  | .reserve r n => Refused c ((EV.len c (m.reg r) + n) / c.epb + 1)
  | .extend r it => Refused c ((EV.len c (m.reg r) + max it.hint it.items.length) / c.epb + 1)
  | .append r o => Refused c ((EV.len c (m.reg r) + EV.len c (m.reg o)) / c.epb + 1)
  | .splitOff _ _ _ => c.alloc.exact 0 = none
  | _ => False

end EnumVecModel
