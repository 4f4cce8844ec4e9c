import Verif.Recover

/-!
# Allocators with state

`RVec.lean` models an allocator as a function of the request. A real allocator has state: what it answers may depend on all requests made
before, also on earlier requests of the same call. Here the methods of `EnumVec` that allocate are modelled once more with such an
allocator: the state of the call is the vector together with the state of the allocator. Each definition is the one of the same name in
`EnumVec.lean` with the requests to the allocator threaded through; the methods they call that do not allocate (`set`, `fix_storage`, …) are
the ones of `EnumVec.lean`, whose parameter `c.alloc` is not consulted.
-/

namespace EnumVecModel
open EV

/-- An allocator with a state of type `ω` (the rest of the heap, a random generator, the operating system …). A request changes the state.
`Vec::new()` and `SmallVec::new()` do not allocate. -/
structure SAlloc (ω : Type) where
  /-- capacity of a fresh empty vector -/
  fresh : Nat
  /-- `with_capacity(n)` and `clone` of `n` blocks -/
  exact : Nat → ω → Option Nat × ω
  /-- reallocation of a vector of capacity `cap` that must hold `needed > cap` blocks -/
  grow : Nat → Nat → ω → Option Nat × ω
  /-- capacity after `shrink_to_fit` -/
  shrinkTo : Nat → Nat → ω → Nat × ω

variable {α τ ω : Type}

/-- The allocator that answers every request as `S` does in the state `t`. -/
def SAlloc.frozen (S : SAlloc ω) (t : ω) : Alloc where
  fresh := S.fresh
  exact n := (S.exact n t).1
  grow cap needed := (S.grow cap needed t).1
  shrinkTo cap len := (S.shrinkTo cap len t).1

/-- The allocator without state `a` answers every request as `S` does in some state. -/
structure Alloc.Follows (a : Alloc) (S : SAlloc ω) : Prop where
  fresh : a.fresh = S.fresh
  exact : ∀ n, ∃ t, a.exact n = (S.exact n t).1
  grow : ∀ cap needed, ∃ t, a.grow cap needed = (S.grow cap needed t).1
  shrinkTo : ∀ cap len, ∃ t, a.shrinkTo cap len = (S.shrinkTo cap len t).1

/-- A question to the allocator. -/
inductive Request where
  | exact (n : Nat)
  | grow (cap needed : Nat)
  | shrinkTo (cap len : Nat)
  deriving DecidableEq

/-- The answer of an allocator without state. -/
def Alloc.ask (a : Alloc) : Request → Option Nat
  | .exact n => a.exact n
  | .grow cap needed => a.grow cap needed
  | .shrinkTo cap len => some (a.shrinkTo cap len)

/-- The answer of an allocator with state, and its next state. -/
def SAlloc.ask (S : SAlloc ω) (t : ω) : Request → Option Nat × ω
  | .exact n => S.exact n t
  | .grow cap needed => S.grow cap needed t
  | .shrinkTo cap len => (some (S.shrinkTo cap len t).1, (S.shrinkTo cap len t).2)

/-- A conversation: the answers to a list of questions, and the state afterwards. -/
def SAlloc.talk (S : SAlloc ω) : ω → List Request → List (Option Nat) × ω
  | t, [] => ([], t)
  | t, q :: qs => ((S.ask t q).1 :: (S.talk (S.ask t q).2 qs).1, (S.talk (S.ask t q).2 qs).2)

/-- What the documentation of `Vec`/`SmallVec` promises, in every state (compare `Alloc.Lawful`). -/
structure SAlloc.Lawful (S : SAlloc ω) : Prop where
  exact_ge : ∀ n t k, (S.exact n t).1 = some k → n ≤ k
  grow_ge : ∀ cap needed t k, (S.grow cap needed t).1 = some k → needed ≤ k
  shrink_ge : ∀ cap len t, len ≤ cap → len ≤ (S.shrinkTo cap len t).1

/-- No vector gets room for nearly as many elements as `usize` has values (compare `Alloc.Bounded`); `n` is the number of elements per block. -/
structure SAlloc.Bounded (S : SAlloc ω) (b : Build) (n : Nat) : Prop where
  fresh : (S.fresh + 1) * n + 4 < b.usizeLim
  exact : ∀ m t k, (S.exact m t).1 = some k → (k + 1) * n + 4 < b.usizeLim
  grow : ∀ cap m t k, (S.grow cap m t).1 = some k → (k + 1) * n + 4 < b.usizeLim
  shrink : ∀ cap len t, len ≤ cap → (S.shrinkTo cap len t).1 ≤ cap

namespace RVec
variable {W : Nat} (S : SAlloc ω)

/-- `storage.reserve(additional)` (`Vec`, `SmallVec`; see `RVec.reserve`). -/
def reserveS (v : RVec W) (additional : Nat) (t : ω) : Except Fault (RVec W) × ω :=
  if v.len + additional ≤ v.cap then (.ok v, t)
  else match S.grow v.cap (v.len + additional) t with
    | (some k, t') => (.ok { v with cap := k }, t')
    | (none, t') => (.error .capacity, t')

/-- `storage.push(x)` (see `RVec.push`). -/
def pushS (v : RVec W) (x : BitVec W) (t : ω) : Except Fault (RVec W) × ω :=
  match reserveS S v 1 t with
  | (.ok v', t') => (.ok { v' with data := v'.data ++ [x] }, t')
  | (.error e, t') => (.error e, t')

/-- `storage.resize(n, x)` (see `RVec.resize`). -/
def resizeS (v : RVec W) (n : Nat) (x : BitVec W) (t : ω) : Except Fault (RVec W) × ω :=
  if n ≤ v.len then (.ok (v.truncate n), t)
  else match reserveS S v (n - v.len) t with
    | (.ok v', t') => (.ok { v' with data := v'.data ++ List.replicate (n - v.len) x }, t')
    | (.error e, t') => (.error e, t')

/-- `storage.extend_from_slice(xs)`, `storage.append(…)` (see `RVec.extendFromSlice`). -/
def extendFromSliceS (v : RVec W) (xs : List (BitVec W)) (t : ω) : Except Fault (RVec W) × ω :=
  match reserveS S v xs.length t with
  | (.ok v', t') => (.ok { v' with data := v'.data ++ xs }, t')
  | (.error e, t') => (.error e, t')

/-- `Storage::with_capacity(n)` (see `RVec.withCapacity`). -/
def withCapacityS (n : Nat) (t : ω) : Except Fault (RVec W) × ω :=
  match S.exact n t with
  | (some k, t') => (.ok ⟨[], k⟩, t')
  | (none, t') => (.error .capacity, t')

end RVec

namespace Stateful
variable (c : Inst α) (S : SAlloc ω)

/-- `new` (vec_u32/mod.rs:84-86). -/
def new : EV c.W := ⟨⟨[], S.fresh⟩, 0⟩

/-- `with_capacity` (lines 87-93). -/
def withCapacity (n : Nat) (t : ω) : Except Fault (EV c.W) × ω :=
  match RVec.withCapacityS S (blocksForElements c n) t with
  | (.ok st, t') => (.ok ⟨st, 0⟩, t')
  | (.error e, t') => (.error e, t')

/-- `#[derive(Clone)]` (line 14). -/
def clone (s : EV c.W) (t : ω) : Except Fault (EV c.W) × ω :=
  match S.exact s.storage.len t with
  | (some k, t') => (.ok ⟨⟨s.storage.data, k⟩, s.num⟩, t')
  | (none, t') => (.error .capacity, t')

/-- `reserve` (lines 128-145). -/
def reserve (additional : Nat) : M (EV c.W × ω) Unit := fun p =>
  if len c p.1 + additional < c.build.usizeLim then
    let desiredCap := len c p.1 + additional
    match uAdd c.build (desiredCap / c.epb) 1 with
    | .error e => (.error e, p)
    | .ok n =>
      match RVec.resizeS S p.1.storage n 0 p.2 with
      | (.ok st, t) => (.ok (), ({ p.1 with storage := st }, t))
      | (.error e, t) => (.error e, (p.1, t))
  else (.error .capacity, p)

/-- `shrink_to_fit` (lines 147-150). -/
def shrinkToFit : M (EV c.W × ω) Unit := do
  onFst (fixStorage c)
  let p ← M.read
  let r := S.shrinkTo p.1.storage.cap p.1.storage.len p.2
  M.write ({ p.1 with storage := { p.1.storage with cap := r.1 } }, r.2)

/-- `grow_if_needed` (lines 579-586). -/
def growIfNeeded : M (EV c.W × ω) Unit := fun p =>
  if len c p.1 % c.epb = 0 ∧ blocksForElements c (len c p.1) = p.1.storage.len then
    match RVec.pushS S p.1.storage 0 p.2 with
    | (.ok st, t) => (.ok (), ({ p.1 with storage := st }, t))
    | (.error e, t) => (.error e, (p.1, t))
  else (.ok (), p)

/-- `push` (lines 352-359). -/
def push (x : α) : M (EV c.W × ω) Unit := do
  growIfNeeded c S
  let p ← M.read
  let idx := p.1.num
  if p.1.num + 1 < c.build.usizeLim then M.write ({ p.1 with num := p.1.num + 1 }, p.2) else M.fail .capacity
  onFst (EV.set c idx x)

/-- `insert` (lines 207-249). -/
def insert (index : Nat) (element : α) : M (EV c.W × ω) Unit := do
  push c S element
  let slowInsert := index % c.epb
  let p ← M.read
  let selfLen := len c p.1
  let prev := c.E.toDiscr element
  let (i, prev) ← (if slowInsert > 0 then do
      let slowLimit ← M.lift (uAdd c.build (index - slowInsert) c.epb)
      let slowLimit := min slowLimit selfLen
      let prev ← onFst (loop (insertSlowStep c) (slowLimit - index) index prev)
      return (max index slowLimit, prev)
    else return (index, prev) : M (EV c.W × ω) (Nat × Nat))
  let p ← M.read
  if i < len c p.1 then
    let ib := (blockIndex c i).1
    let lastIb := (blockIndex c (len c p.1 - 1)).1
    let _ ← onFst (loop (insertFastStep c) (lastIb + 1 - ib) ib (BitVec.ofNat c.W prev))

/-- `for elem in iter { self.push(elem) }` (lines 919-921). -/
def extendRest (panics : Bool) : List α → M (EV c.W × ω) Unit
  | [] => if panics then M.fail .user else pure ()
  | x :: items => do
    push c S x
    extendRest panics items

/-- `extend` (lines 907-922). -/
def extend (it : Src α) : M (EV c.W × ω) Unit := do
  let p ← M.read
  let selfLen := len c p.1
  reserve c S it.hint
  let p ← M.read
  let n ← M.lift (uAdd c.build p.1.num it.hint)
  M.write ({ p.1 with num := n }, p.2)
  let rest ← onFst (extendHinted c it.panics it.hint selfLen it.items)
  extendRest c S it.panics rest

/-- body of `for _ in 0..count_blocks { storage.resize(storage.len() + count_blocks, block_value) }` (lines 513-516). -/
def fillStep (countBlocks : Nat) (v : BitVec c.W) (_ : Nat) (_ : Unit) : M (EV c.W × ω) Unit := fun p =>
  match RVec.resizeS S p.1.storage (p.1.storage.len + countBlocks) v p.2 with
  | (.ok st, t) => (.ok (), ({ p.1 with storage := st }, t))
  | (.error e, t) => (.error e, (p.1, t))

/-- `self.storage.reserve(…)` in `extend_with_value` (lines 508-512). -/
def reserveStorage (n : Nat) : M (EV c.W × ω) Unit := fun p =>
  match RVec.reserveS S p.1.storage n p.2 with
  | (.ok st, t) => (.ok (), ({ p.1 with storage := st }, t))
  | (.error e, t) => (.error e, (p.1, t))

/-- `extend_with_value` (lines 480-525). -/
def extendWithValue (value : α) (count : Nat) : M (EV c.W × ω) Unit := do
  if count ≤ 4 * c.epb then
    extend c S (repeatTake value count)
  else
    let p ← M.read
    let toInsertFirst := c.epb - len c p.1 % c.epb
    extend c S (repeatTake value toInsertFirst)
    let countEnd := count - toInsertFirst
    let countBlocks := countEnd / c.epb
    let toInsertMid := countBlocks * c.epb
    let toInsertLast := count - (toInsertFirst + toInsertMid)
    let d := c.E.toDiscr value
    let blockValue := spread (BitVec.ofNat c.W d) c.bits
    let p ← M.read
    let oldLen := len c p.1
    onFst (fixStorage c)
    reserveStorage c S (countBlocks + (if toInsertLast > 0 then 1 else 0))
    loop (fillStep c S countBlocks blockValue) countBlocks 0 ()
    let n ← M.lift (uAdd c.build oldLen (countBlocks * c.epb))
    onFst (setLen c n)
    extend c S (repeatTake value toInsertLast)

/-- `resize` (lines 461-470). -/
def resize (newLen : Nat) (value : α) : M (EV c.W × ω) Unit := do
  let p ← M.read
  if newLen > len c p.1 then
    extendWithValue c S value (newLen - len c p.1)
  else
    onFst (truncate c newLen)

/-- Run a method on a local vector and return the vector (dropped on panic). -/
def build (s : EV c.W) (m : M (EV c.W × ω) Unit) (t : ω) : Except Fault (EV c.W) × ω :=
  match m (s, t) with
  | (.ok _, p) => (.ok p.1, p.2)
  | (.error e, p) => (.error e, p.2)

/-- `from_elem` (lines 668-674), `enum_vec![x; n]`. -/
def fromElem (x : α) (n : Nat) (t : ω) : Except Fault (EV c.W) × ω := build c (new c S) (extendWithValue c S x n) t

/-- `from_iter` (lines 925-932); `from_slice` (lines 685-691) and `From<Vec<T>>` (lines 938-942) with an exact size hint. -/
def fromIter (it : Src α) (t : ω) : Except Fault (EV c.W) × ω := build c (new c S) (extend c S it) t

/-- `self.storage.append(&mut other.storage)` (line 398); for SmallVec smallvec_u32/mod.rs:399-400. The state is `((self, other), allocator)`. -/
def appendStorage : M ((EV c.W × EV c.W) × ω) Unit := fun p =>
  match RVec.extendFromSliceS S p.1.1.storage p.1.2.storage.data p.2 with
  | (.error e, t) => (.error e, (p.1, t))
  | (.ok st, t) =>
    if c.small then onFst (onSnd (clear c)) (({ p.1.1 with storage := st }, p.1.2), t)
    else (.ok (), (({ p.1.1 with storage := st }, { p.1.2 with storage := { p.1.2.storage with data := [] } }), t))

/-- `self.reserve(n)` in `append`, on the first of two vectors. -/
def reserveFst (n : Nat) : M ((EV c.W × EV c.W) × ω) Unit := fun p =>
  let r := reserve c S n (p.1.1, p.2)
  (r.1, ((r.2.1, p.1.2), r.2.2))

/-- `append` (lines 388-412) of `(self, other)`. -/
def append : M ((EV c.W × EV c.W) × ω) Unit := do
  let p ← M.read
  let otherLen := len c p.1.2
  let selfLen := len c p.1.1
  if len c p.1.1 % c.epb = 0 then
    onFst (onFst (fixStorage c))
    onFst (onSnd (fixStorage c))
    appendStorage c S
    let p ← M.read
    let n ← M.lift (uAdd c.build p.1.1.num otherLen)
    onFst (onFst (setLen c n))
  else
    reserveFst c S otherLen
    let n ← M.lift (uAdd c.build selfLen otherLen)
    onFst (onFst (setLen c n))
    onFst (loop (appendStep c selfLen) otherLen 0 ())
    onFst (onSnd (clear c))

/-- `split_off` (lines 443-459): one `with_capacity`. -/
def splitOff (at_ : Nat) : M (EV c.W × ω) (EV c.W) := fun p =>
  if at_ ≤ len c p.1 then
    let otherLen := len c p.1 - at_
    match withCapacity c S otherLen p.2 with
    | (.error e, t) => (.error e, (p.1, t))
    | (.ok other, t) =>
      match loop (splitOffStep c at_) otherLen 0 () (p.1, { other with num := otherLen }) with
      | (.ok _, (s, other)) => (.ok other, ({ s with num := at_ }, t))
      | (.error e, (s, _)) => (.error e, (s, t))
  else (.error .index, p)

/-! ## Histories -/

/-- Call a method of variable `r` that may allocate. -/
def call {β : Type} (m : Mem c τ) (t : ω) (r : Nat) (f : M (EV c.W × ω) β) (out : β → Out α) : Out α × Mem c τ × ω :=
  match f (m.reg r, t) with
  | (.ok b, p) => (out b, { m with reg := upd m.reg r p.1 }, p.2)
  | (.error e, p) => (e.out, { m with reg := upd m.reg r p.1 }, p.2)

/-- Assign a new vector to variable `r`, unless its construction panics. -/
def assign (m : Mem c τ) (r : Nat) (v : Except Fault (EV c.W) × ω) : Out α × Mem c τ × ω :=
  match v with
  | (.ok s, t) => (.unit, { m with reg := upd m.reg r s }, t)
  | (.error e, t) => (e.out, m, t)

/-- One call of a history (compare `step`); the calls of the last line do not allocate, so they do not change the state of the
allocator (nor look at it: theorem `C67_no_request`). -/
def step (m : Mem c τ) (t : ω) : Op τ α → Out α × Mem c τ × ω
  | .new r => assign c m r (.ok (new c S), t)
  | .withCapacity r n => assign c m r (withCapacity c S n t)
  | .fromElem r x n => assign c m r (fromElem c S x n t)
  | .fromVec r xs => assign c m r (fromIter c S ⟨xs.length, xs, false⟩ t)
  | .fromSlice r xs => assign c m r (fromIter c S ⟨xs.length, xs, false⟩ t)
  | .fromIter r it => assign c m r (fromIter c S it t)
  | .clone r src => assign c m r (clone c S (m.reg src) t)
  | .push r x => call c m t r (push c S x) fun _ => .unit
  | .insert r i x => call c m t r (insert c S i x) fun _ => .unit
  | .resize r n x => call c m t r (resize c S n x) fun _ => .unit
  | .reserve r n => call c m t r (reserve c S n) fun _ => .unit
  | .shrinkToFit r => call c m t r (shrinkToFit c S) fun _ => .unit
  | .extend r it => call c m t r (extend c S it) fun _ => .unit
  | .append r o =>
    match append c S ((m.reg r, m.reg o), t) with
    | (.ok _, p) => (.unit, { m with reg := upd (upd m.reg r p.1.1) o p.1.2 }, p.2)
    | (.error e, p) => (e.out, { m with reg := upd (upd m.reg r p.1.1) o p.1.2 }, p.2)
  | .splitOff r at_ d =>
    match splitOff c S at_ (m.reg r, t) with
    | (.ok o, p) => (.unit, { m with reg := upd (upd m.reg r p.1) d o }, p.2)
    | (.error e, p) => (e.out, { m with reg := upd m.reg r p.1 }, p.2)
  | op => ((stepWith c m (S.frozen t) op).1, (stepWith c m (S.frozen t) op).2, t)

/-- A history, continued after every panic and failed allocation. -/
def run : List (Op τ α) → Mem c τ → ω → List (Out α) × Mem c τ × ω
  | [], m, t => ([], m, t)
  | o :: os, m, t =>
    let p := step c S m t o
    let q := run os p.2.1 p.2.2
    (p.1 :: q.1, q.2)

/-- All variables are empty. -/
def start (w : τ) : Mem c τ := ⟨fun _ => new c S, w⟩

/-- The marks (see `Mark`) after a call; `ok`: the call returned normally, without a value (compare `runMarks`). -/
def marks (k : Nat → Mark) (m : Mem c τ) (op : Op τ α) (ok : Bool) : Nat → Mark :=
  match op with
  | .new r | .withCapacity r _ | .fromVec r _ | .fromSlice r _ | .fromIter r _ => if ok then upd k r .clean else k
  | .fromElem r _ n => if ok then upd k r (if n ≤ 4 * c.epb then .clean else c.soil .clean) else k
  | .clone r src => if ok then upd k r (k src) else k
  | .insert r i _ => if c.nearInsert (EV.len c (m.reg r)) i then k else upd k r (c.soil (k r))
  | .resize r n _ => if n ≤ EV.len c (m.reg r) + 4 * c.epb then k else upd k r (c.soil (k r))
  | .append r o =>
    if ok then
      upd (upd k r (if EV.len c (m.reg r) % c.epb ≠ 0 ∨ k o = .clean then k r else .dirty)) o
        (if c.small = true ∨ EV.len c (m.reg r) % c.epb ≠ 0 then k o
          else if EV.len c (m.reg o) = 0 then .clean else .dead)
    else k
  | .splitOff _ _ d => if ok then upd k d .clean else k
  | .clear r => if k r = .dead then upd k r .clean else k
  | .truncate r 0 => if k r = .dead then upd k r .clean else k
  | _ => k

/-- All calls of a history satisfy `P`, which may depend on the marks and the state (compare `Along`). -/
def Along (P : (Nat → Mark) → Mem c τ → Op τ α → Prop) : List (Op τ α) → (Nat → Mark) → Mem c τ → ω → Prop
  | [], _, _, _ => True
  | o :: os, k, m, t =>
    P k m o ∧ Along P os (marks c k m o (step c S m t o).1.isUnit) (step c S m t o).2.1 (step c S m t o).2.2

/-- The marks after a history. -/
def marksAll : List (Op τ α) → (Nat → Mark) → Mem c τ → ω → Nat → Mark
  | [], k, _, _ => k
  | o :: os, k, m, t =>
    marksAll os (marks c k m o (step c S m t o).1.isUnit) (step c S m t o).2.1 (step c S m t o).2.2

instance Along.dec (P : (Nat → Mark) → Mem c τ → Op τ α → Prop) [∀ k m o, Decidable (P k m o)] :
    ∀ (os : List (Op τ α)) (k : Nat → Mark) (m : Mem c τ) (t : ω), Decidable (Along c S P os k m t)
  | [], _, _, _ => .isTrue trivial
  | o :: os, k, m, t =>
    have := Along.dec P os (marks c k m o (step c S m t o).1.isUnit) (step c S m t o).2.1 (step c S m t o).2.2
    inferInstanceAs (Decidable (_ ∧ _))

end Stateful
end EnumVecModel
