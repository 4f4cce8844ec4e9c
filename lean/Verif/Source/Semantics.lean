import Verif.Source.Text
import Verif.EnumVec

/-!
# Meaning of the source text

An interpreter for the syntax trees that the parser makes of the text: statement by statement, with an environment of local variables, references to vectors and to blocks,
overflow checks at every arithmetic operation on `usize` (as the build has them), bounds checks, `while` loops that test their condition each time, `return`, panics.

What is not in the text is taken from the model: the methods of the storage (`RVec`, contract of `Vec`/`SmallVec`), arithmetic of `usize` and of blocks (`Basic.lean`),
the constants `BITS_PER_ELEM`, `ELEMS_PER_BLOCK`, `ELEMENT_MASK`, the methods of `EnumLike`, and what an iterator shows of itself (`Src`).

Types are not in the text either. A number literal has no type until it meets a `usize` or a block (`Val.int`); a variable initialised with a literal is a `usize` in these
texts, and `!0` is a block.
-/

namespace EnumVecModel
namespace Source

set_option linter.constructorNameAsVariable false

variable {α τ : Type} {W : Nat}

/-- There are at most two vectors: that of the outermost call, and `other` or a local vector. -/
inductive Slot
  | a
  | b
  deriving DecidableEq

/-- Values. -/
inductive Val (α : Type) (W : Nat)
  | unit
  | bool (b : Bool)
  | usz (n : Nat)
  /-- a literal -/
  | int (n : Nat)
  | blk (b : BitVec W)
  | elem (x : α)
  | none
  | some (v : Val α W)
  | pair (v w : Val α W)
  | range (lo hi : Nat)
  /-- `(lo..hi).rev()` -/
  | rangeRev (lo hi : Nat)
  /-- a (reference to a) vector -/
  | vec (s : Slot)
  /-- (a reference to) its storage -/
  | storage (s : Slot)
  /-- a reference to a block of its storage -/
  | block (s : Slot) (i : Nat)
  /-- a storage that belongs to no vector yet -/
  | rvec (v : RVec W)
  /-- an iterator -/
  | src (it : EV.Src α)
  /-- `repeat(x)` -/
  | rep (x : α)
  /-- a slice -/
  | slice (xs : List α)
  | hasher
  /-- (a reference to) the iterator over a vector -/
  | iter
  /-- (a reference to) the range in this iterator -/
  | iterRange
  /-- a formatter, `DebugList` -/
  | fmtr

/-- What outlives a call: the vectors, the state captured by user code, what a hasher was fed. -/
structure Heap (τ : Type) (W : Nat) where
  a : EV W
  b : EV W
  world : τ
  hashed : List Nat
  /-- the iterator, if there is one (there is at most one): its vector and what its range still has to yield -/
  it : Slot × Nat × Nat

/-- The vector in a slot. -/
def Heap.get (h : Heap τ W) : Slot → EV W
  | .a => h.a
  | .b => h.b

/-- Put a vector into a slot. -/
def Heap.set (h : Heap τ W) (s : Slot) (v : EV W) : Heap τ W :=
  match s with
  | .a => { h with a := v }
  | .b => { h with b := v }

/-- Change the state captured by user code. -/
def Heap.withWorld (h : Heap τ W) (t : τ) : Heap τ W := { h with world := t }

/-- Feed a number to the hasher. -/
def Heap.feed (h : Heap τ W) (n : Nat) : Heap τ W := { h with hashed := h.hashed ++ [n] }

/-- Put an iterator. -/
def Heap.setIt (h : Heap τ W) (s : Slot) (lo hi : Nat) : Heap τ W := { h with it := (s, lo, hi) }

/-- Local variables, the innermost first. -/
abbrev Env (α : Type) (W : Nat) := List (Sym × Val α W)

def Env.get : Env α W → Sym → Option (Val α W)
  | [], _ => Option.none
  | (y, v) :: r, x => if y = x then Option.some v else Env.get r x

/-- Assign to the innermost variable of this name. -/
def Env.set : Env α W → Sym → Val α W → Env α W
  | [], _, _ => []
  | (y, v) :: r, x, w => if y = x then (y, w) :: r else (y, v) :: Env.set r x w

structure St (α τ : Type) (W : Nat) where
  env : Env α W
  heap : Heap τ W

/-- Outcomes of an expression: a value, an early return, a fault; `stuck` if the expression has no meaning here or a loop takes too long. -/
inductive Out (α τ : Type) (W : Nat)
  | val (v : Val α W) (st : St α τ W)
  | ret (v : Val α W) (h : Heap τ W)
  | fault (e : Fault) (h : Heap τ W)
  | stuck

/-- Outcomes of a call. -/
inductive Ret (α τ : Type) (W : Nat)
  | val (v : Val α W) (h : Heap τ W)
  | fault (e : Fault) (h : Heap τ W)
  | stuck

def Out.bind (o : Out α τ W) (f : Val α W → St α τ W → Out α τ W) : Out α τ W :=
  match o with
  | .val v st => f v st
  | .ret v h => .ret v h
  | .fault e h => .fault e h
  | .stuck => .stuck

/-- The end of a function body. -/
def Out.finish : Out α τ W → Ret α τ W
  | .val v st => .val v st.heap
  | .ret v h => .val v h
  | .fault e h => .fault e h
  | .stuck => .stuck

/-- A call in an expression. -/
def Ret.out (r : Ret α τ W) (st : St α τ W) : Out α τ W :=
  match r with
  | .val v h => .val v ⟨st.env, h⟩
  | .fault e h => .fault e h
  | .stuck => .stuck

/-- Forget the innermost `k` variables. -/
def Out.pop (o : Out α τ W) (k : Nat) : Out α τ W := o.bind fun v st => .val v ⟨st.env.drop k, st.heap⟩

/-- A computation without effects. -/
def pureOut (r : Except Fault (Val α W)) (st : St α τ W) : Out α τ W :=
  match r with
  | .ok v => .val v st
  | .error e => .fault e st.heap

/-- Operations on `usize`. -/
def usizeOp (B : Build) (o : Op) (x y : Nat) : Option (Except Fault (Val α W)) :=
  match o with
  | .add => Option.some ((uAdd B x y).map .usz)
  | .sub => Option.some ((uSub B x y).map .usz)
  | .mul => Option.some ((uMul B x y).map .usz)
  | .div => Option.some (if y = 0 then .error .overflow else .ok (.usz (x / y)))
  | .rem => Option.some (if y = 0 then .error .overflow else .ok (.usz (x % y)))
  | .eq => Option.some (.ok (.bool (x = y)))
  | .ne => Option.some (.ok (.bool (x ≠ y)))
  | .lt => Option.some (.ok (.bool (x < y)))
  | .le => Option.some (.ok (.bool (x ≤ y)))
  | .gt => Option.some (.ok (.bool (y < x)))
  | .ge => Option.some (.ok (.bool (y ≤ x)))
  | _ => Option.none

/-- Operations on blocks. -/
def blockOp (B : Build) (o : Op) (x y : BitVec W) : Option (Except Fault (Val α W)) :=
  match o with
  | .and => Option.some (.ok (.blk (x &&& y)))
  | .or => Option.some (.ok (.blk (x ||| y)))
  | .xor => Option.some (.ok (.blk (x ^^^ y)))
  | .mul => Option.some ((blkMul B.checked x y).map .blk)
  | .div => Option.some (if y = 0 then .error .overflow else .ok (.blk (x / y)))
  | .eq => Option.some (.ok (.bool (x = y)))
  | .ne => Option.some (.ok (.bool (x ≠ y)))
  | _ => Option.none

/-- Shifts of a block by a number. -/
def shiftOp (B : Build) (o : Op) (x : BitVec W) (n : Nat) : Option (Except Fault (Val α W)) :=
  match o with
  | .shl => Option.some ((blkShl B.checked x n).map .blk)
  | .shr => Option.some ((blkShr B.checked x n).map .blk)
  | _ => Option.none

/-- Operations on two values. -/
def binOp (B : Build) (o : Op) : Val α W → Val α W → Option (Except Fault (Val α W))
  | .usz x, .usz y | .usz x, .int y | .int x, .usz y | .int x, .int y => usizeOp B o x y
  | .blk x, .blk y => blockOp B o x y
  | .blk x, .usz n => shiftOp B o x n
  | .blk x, .int n =>
    match shiftOp B o x n with
    | Option.some r => Option.some r
    | Option.none => blockOp B o x (BitVec.ofNat W n)
  | .int n, .blk y => blockOp B o (BitVec.ofNat W n) y
  | _, _ => Option.none

/-- A reference to a block in an expression stands for the block. -/
def load (h : Heap τ W) : Val α W → Except Fault (Val α W)
  | .block s i =>
    match (h.get s).storage.data[i]? with
    | Option.some b => .ok (.blk b)
    | Option.none => .error .ub
  | v => .ok v

/-- A variable initialised with a literal is a `usize`. -/
def Val.dflt : Val α W → Val α W
  | .int n => .usz n
  | v => v

/-- Both operands, then the operation. -/
def Out.ofOp (B : Build) (o : Op) (v w : Val α W) (st : St α τ W) : Out α τ W :=
  match load st.heap v with
  | .error e => .fault e st.heap
  | .ok v =>
    match load st.heap w with
    | .error e => .fault e st.heap
    | .ok w =>
      match binOp B o v w with
      | Option.some r => pureOut r st
      | Option.none => .stuck

/-- The new value in `l = r` (`o` is absent) and in `l += r` etc. -/
def Out.update (B : Build) (o : Option Op) (v w : Val α W) (st : St α τ W) : Out α τ W :=
  match o with
  | Option.none => .val w.dflt st
  | Option.some o => .ofOp B o v w st

/-- `v as t`. -/
def castVal (t : Sym) : Val α W → Option (Val α W)
  | .usz n => if t = .StorageBlock then Option.some (.blk (BitVec.ofNat W n)) else if t = .usize then Option.some (.usz n) else Option.none
  | .blk b => if t = .StorageBlock then Option.some (.blk b) else if t = .usize then Option.some (.usz b.toNat) else Option.none
  | .bool b => if t = .usize then Option.some (.usz (if b then 1 else 0)) else Option.none
  | _ => Option.none

/-- A number. -/
def Val.nat : Val α W → Option Nat
  | .usz n | .int n => Option.some n
  | _ => Option.none

/-- A block, or a literal in its place. -/
def Val.toBlock : Val α W → Option (BitVec W)
  | .blk b => Option.some b
  | .int n => Option.some (BitVec.ofNat W n)
  | _ => Option.none

/-- The constants. -/
def constVal (c : Inst α) (x : Sym) : Option (Val α c.W) :=
  match x with
  | .ELEMS_PER_BLOCK => Option.some (.usz c.epb)
  | .BITS_PER_ELEM => Option.some (.usz c.bits)
  | .ELEMENT_MASK => Option.some (.blk c.mask)
  | .STORAGE_BLOCK_SIZE => Option.some (.usz c.W)
  | _ => Option.none

/-- Replace the storage of a vector. -/
def St.putStorage (st : St α τ W) (s : Slot) (r : Except Fault (RVec W)) : Out α τ W :=
  match r with
  | .ok v => .val .unit ⟨st.env, st.heap.set s { st.heap.get s with storage := v }⟩
  | .error e => .fault e st.heap

/-- Methods of the storage. -/
def storageMeth (c : Inst α) (m : Sym) (s : Slot) (v w : Val α c.W) (st : St α τ c.W) : Out α τ c.W :=
  match m with
  | .len => .val (.usz (st.heap.get s).storage.len) st
  | .capacity => .val (.usz (st.heap.get s).storage.cap) st
  | .push =>
    match v.toBlock with
    | Option.some x => st.putStorage s (RVec.push c.alloc (st.heap.get s).storage x)
    | Option.none => .stuck
  | .truncate =>
    match v.nat with
    | Option.some n => st.putStorage s (.ok ((st.heap.get s).storage.truncate n))
    | Option.none => .stuck
  | .resize =>
    match v.nat, w.toBlock with
    | Option.some n, Option.some x => st.putStorage s (RVec.resize c.alloc (st.heap.get s).storage n x)
    | _, _ => .stuck
  | .reserve =>
    match v.nat with
    | Option.some n => st.putStorage s (RVec.reserve c.alloc (st.heap.get s).storage n)
    | Option.none => .stuck
  | .shrink_to_fit => st.putStorage s (.ok ((st.heap.get s).storage.shrinkToFit c.alloc))
  -- undefined behaviour outside of the initialised part
  | .get_unchecked | .get_unchecked_mut =>
    match v.nat with
    | Option.some i => if i < (st.heap.get s).storage.len then .val (.block s i) st else .fault .ub st.heap
    | Option.none => .stuck
  | .extend_from_slice =>
    match v with
    | .storage t => st.putStorage s (RVec.extendFromSlice c.alloc (st.heap.get s).storage (st.heap.get t).storage.data)
    | _ => .stuck
  | .append =>
    match v with
    | .storage t =>
      (st.putStorage s (RVec.extendFromSlice c.alloc (st.heap.get s).storage (st.heap.get t).storage.data)).bind fun _ st =>
        st.putStorage t (.ok { (st.heap.get t).storage with data := [] })
    | _ => .stuck
  | _ => .stuck

/-- Methods of numbers. -/
def usizeMeth (B : Build) (m : Sym) (n : Nat) (v : Val α W) (st : St α τ W) : Out α τ W :=
  match m, v.nat with
  | .checked_add, Option.some k => .val (if n + k < B.usizeLim then .some (.usz (n + k)) else .none) st
  | .saturating_add, Option.some k => .val (.usz (satAdd B n k)) st
  | .saturating_mul, Option.some k => .val (.usz (satMul B n k)) st
  -- `n.hash(state)` feeds the number to the hasher
  | .hash, _ => .val .unit ⟨st.env, st.heap.feed n⟩
  | _, _ => .stuck

/-- `o.unwrap()`, `o.expect("capacity overflow")`. -/
def optMeth (m : Sym) (o : Option (Val α W)) (st : St α τ W) : Out α τ W :=
  match o, m with
  | Option.some v, .unwrap | Option.some v, .expect => .val v st
  | Option.none, .unwrap => .fault .unwrapNone st.heap
  | Option.none, .expect => .fault .capacity st.heap
  | _, _ => .stuck

/-- Methods of `Range<usize>` (std). -/
def rangeMeth (B : Build) (m : Sym) (v : Val α W) (st : St α τ W) : Out α τ W :=
  match st.heap.it with
  | (s, lo, hi) =>
    match m, v.nat with
    | .next, _ => if lo < hi then .val (.some (.usz lo)) ⟨st.env, st.heap.setIt s (lo + 1) hi⟩ else .val .none st
    | .next_back, _ => if lo < hi then .val (.some (.usz (hi - 1))) ⟨st.env, st.heap.setIt s lo (hi - 1)⟩ else .val .none st
    -- `lo.checked_add(n)`, if it is in the range; otherwise the range becomes empty
    | .nth, Option.some n =>
      if lo + n < B.usizeLim ∧ lo + n < hi then .val (.some (.usz (lo + n))) ⟨st.env, st.heap.setIt s (lo + n + 1) hi⟩
      else .val .none ⟨st.env, st.heap.setIt s hi hi⟩
    | .size_hint, _ => .val (.pair (.usz (hi - lo)) (.some (.usz (hi - lo)))) st
    | _, _ => .stuck

/-- What `Vec::extend` does with an iterator: `while let Some(x) = it.next() { xs.push(x) }`, at most this many rounds. -/
def drain (next : Heap τ W → Ret α τ W) : Nat → List α → Heap τ W → Ret α τ W
  | 0, _, _ => .stuck
  | n + 1, xs, h =>
    match next h with
    | .val .none h => .val (.slice xs) h
    | .val (.some (.elem x)) h => drain next n (xs ++ [x]) h
    | .fault e h => .fault e h
    | _ => .stuck

/-- `e.m(v, w)`, where `Γ` says what the methods of `EnumVec` do (a literal passed to one of these is a `usize`). -/
def methVal (c : Inst α) (Γ : Sym → List (Val α c.W) → Heap τ c.W → Ret α τ c.W) (m : Sym) (r v w : Val α c.W) (st : St α τ c.W) : Out α τ c.W :=
  match r with
  | .vec s => (Γ m [.vec s, v.dflt, w.dflt] st.heap).out st
  | .iter => (Γ m [.iter, v.dflt, w.dflt] st.heap).out st
  | .fmtr => (Γ m [.fmtr, v.dflt, w.dflt] st.heap).out st
  | .iterRange => rangeMeth c.build m v st
  | .storage s => storageMeth c m s v w st
  | .usz n => usizeMeth c.build m n v st
  | .none => optMeth m Option.none st
  | .some x => optMeth m (Option.some x) st
  | .blk x =>
    match m, v.toBlock with
    | .wrapping_sub, Option.some y => .val (.blk (x - y)) st
    | _, _ => .stuck
  | .elem x => if m = .to_discr then .val (.usz (c.E.toDiscr x)) st else .stuck
  | .range lo hi => if m = .rev then .val (.rangeRev lo hi) st else .stuck
  | .src it => if m = .into_iter then .val (.src it) st else if m = .size_hint then .val (.pair (.usz it.hint) .unit) st else .stuck
  | .rep x =>
    match m, v.nat with
    | .take, Option.some n => .val (.src (EV.repeatTake x n)) st
    | _, _ => .stuck
  -- `xs.iter()`, `xs.iter().cloned()`, `xs.into_iter()` (the last two yield elements)
  | .slice xs => if m = .iter ∨ m = .into_iter then .val (.src ⟨xs.length, xs, false⟩) st else .stuck
  | _ => .stuck

/-- `P::f(v, w)`. -/
def callVal (c : Inst α) (Γ : Sym → List (Val α c.W) → Heap τ c.W → Ret α τ c.W) (p f : Sym) (v w : Val α c.W) (st : St α τ c.W) : Out α τ c.W :=
  match p with
  | .Self | .EnumVec => (Γ f [v, w] st.heap).out st
  | .Default => (Γ .default [v, w] st.heap).out st
  | .cmp =>
    match v.nat, w.nat with
    | Option.some x, Option.some y => if f = .min then .val (.usz (min x y)) st else .stuck
    | _, _ => .stuck
  | .T =>
    match v.nat with
    | Option.some n =>
      if f = .from_discr then
        match c.E.fromDiscr n with
        | Option.some x => .val (.elem x) st
        | Option.none => .fault .badDiscr st.heap
      else .stuck
    | Option.none => .stuck
  -- a `Vec<T>`; its allocation does not fail here
  | .Vec => if f = .with_capacity then .val (.slice []) st else .stuck
  | .Storage =>
    if f = .new then .val (.rvec (RVec.new c.alloc)) st
    else if f = .with_capacity then
      match v.nat with
      | Option.some n => pureOut ((RVec.withCapacity c.alloc n).map .rvec) st
      | Option.none => .stuck
    else .stuck
  | _ => .stuck

/-- `while`: at most this many rounds. -/
def whileLoop (cond body : St α τ W → Out α τ W) : Nat → St α τ W → Out α τ W
  | 0, _ => .stuck
  | n + 1, st =>
    (cond st).bind fun v st =>
      match v with
      | .bool true => (body st).bind fun _ st => whileLoop cond body n st
      | .bool false => .val .unit st
      | _ => .stuck

/-- `for x in i..i + n`. -/
def forLoop (body : Nat → St α τ W → Out α τ W) : Nat → Nat → St α τ W → Out α τ W
  | 0, _, st => .val .unit st
  | n + 1, i, st => (body i st).bind fun _ st => forLoop body n (i + 1) st

/-- `for x in (lo..lo + n).rev()`. -/
def forLoopRev (body : Nat → St α τ W → Out α τ W) (lo : Nat) : Nat → St α τ W → Out α τ W
  | 0, st => .val .unit st
  | n + 1, st => (body (lo + n) st).bind fun _ st => forLoopRev body lo n st

/-- `for x in it`. -/
def forSrc (body : α → St α τ W → Out α τ W) (panics : Bool) : List α → St α τ W → Out α τ W
  | [], st => if panics then .fault .user st.heap else .val .unit st
  | x :: xs, st => (body x st).bind fun _ st => forSrc body panics xs st

/-- Local closures and closures passed by the user. -/
abbrev Fns (α τ : Type) (W : Nat) := Sym → Option (Val α W → Val α W → St α τ W → Out α τ W)

/-- Meaning of expressions. `K` bounds the number of rounds of a `while` loop, `Γ` says what the methods of `EnumVec` do. -/
def eval (c : Inst α) (K : Nat) (Γ : Sym → List (Val α c.W) → Heap τ c.W → Ret α τ c.W) : Ex → Fns α τ c.W → St α τ c.W → Out α τ c.W
  | .unit, _, st => .val .unit st
  | .num n, _, st => .val (.int n) st
  | .bool b, _, st => .val (.bool b) st
  | .var x, _, st =>
    if x = .None then .val .none st
    else
      match st.env.get x with
      | Option.some v => .val v st
      | Option.none => .stuck
  | .const x, _, st =>
    match constVal c x with
    | Option.some v => .val v st
    | Option.none => .stuck
  | .not e, Δ, st => (eval c K Γ e Δ st).bind fun v st =>
    match v with
    | .bool b => .val (.bool (!b)) st
    | .blk b => .val (.blk (~~~b)) st
    | .int n => .val (.blk (~~~(BitVec.ofNat c.W n))) st
    | _ => .stuck
  | .deref e, Δ, st => (eval c K Γ e Δ st).bind fun v st => pureOut (load st.heap v) st
  | .ref e, Δ, st => eval c K Γ e Δ st
  | .refMut e, Δ, st =>
    match e with
    | .index e i => (eval c K Γ e Δ st).bind fun v st => (eval c K Γ i Δ st).bind fun i st =>
      match v, i.nat with
      | .storage s, Option.some i => if i < (st.heap.get s).storage.len then .val (.block s i) st else .fault .index st.heap
      | _, _ => .stuck
    | e => eval c K Γ e Δ st
  | .bin o a b, Δ, st =>
    match o with
    | .land => (eval c K Γ a Δ st).bind fun v st =>
      match v with
      | .bool true => eval c K Γ b Δ st
      | .bool false => .val (.bool false) st
      | _ => .stuck
    | .lor => (eval c K Γ a Δ st).bind fun v st =>
      match v with
      | .bool true => .val (.bool true) st
      | .bool false => eval c K Γ b Δ st
      | _ => .stuck
    | o => (eval c K Γ a Δ st).bind fun v st => (eval c K Γ b Δ st).bind fun w st => .ofOp c.build o v w st
  | .cast e t, Δ, st => (eval c K Γ e Δ st).bind fun v st =>
    match castVal t v with
    | Option.some v => .val v st
    | Option.none => .stuck
  | .field e f, Δ, st => (eval c K Γ e Δ st).bind fun v st =>
    match v, f with
    | .vec s, .num_elements => .val (.usz (st.heap.get s).num) st
    | .vec s, .storage => .val (.storage s) st
    | .iter, .v => .val (.vec st.heap.it.1) st
    | .iter, .range => .val .iterRange st
    | _, _ => .stuck
  | .proj e n, Δ, st => (eval c K Γ e Δ st).bind fun v st =>
    match v, n with
    | .pair v _, 0 => .val v st
    | .pair _ v, 1 => .val v st
    | _, _ => .stuck
  | .meth e m a b, Δ, st =>
    -- `o.map(|x| …)`
    if m = .map then (eval c K Γ e Δ st).bind fun v st =>
      match a with
      | .lam x _ body =>
        match v with
        | .none => .val .none st
        | .some v => ((eval c K Γ body Δ ⟨(x, v) :: st.env, st.heap⟩).pop 1).bind fun v st => .val (.some v) st
        | _ => .stuck
      | _ => .stuck
    -- `it.next()`: the iterator is a local variable
    else if m = .next then
      match e with
      | .var x =>
        match st.env.get x with
        | Option.some (.src it) =>
          match it.items with
          | [] => if it.panics then .fault .user st.heap else .val .none st
          | y :: ys => .val (.some (.elem y)) ⟨st.env.set x (.src ⟨it.hint, ys, it.panics⟩), st.heap⟩
        | _ => .stuck
      | e => (eval c K Γ e Δ st).bind fun r st => methVal c Γ m r .unit .unit st
    -- `xs.iter().cloned()`
    else if m = .cloned then eval c K Γ e Δ st
    else if m = .extend then
      match e with
      | .var x =>
        match st.env.get x with
        -- `xs.extend(it)`, where `xs` is a local `Vec<T>`
        | Option.some (.slice xs) => (eval c K Γ a Δ st).bind fun v st =>
          match v with
          | .iter => ((drain (fun h => Γ .next [.iter, .unit, .unit] h) K xs st.heap).out st).bind fun v st => .val .unit ⟨st.env.set x v, st.heap⟩
          | _ => .stuck
        | Option.some r => (eval c K Γ a Δ st).bind fun v st => (eval c K Γ b Δ st).bind fun w st => methVal c Γ m r v w st
        | Option.none => .stuck
      | _ => .stuck
    else (eval c K Γ e Δ st).bind fun r st => (eval c K Γ a Δ st).bind fun v st => (eval c K Γ b Δ st).bind fun w st => methVal c Γ m r v w st
  | .call p f a b, Δ, st => (eval c K Γ a Δ st).bind fun v st => (eval c K Γ b Δ st).bind fun w st => callVal c Γ p f v w st
  | .callv f a b, Δ, st =>
    if f = .Some then (eval c K Γ a Δ st).bind fun v st => .val (.some v) st
    else if f = .repeat then (eval c K Γ a Δ st).bind fun v st =>
      match v with
      | .elem x => .val (.rep x) st
      | _ => .stuck
    else
      match Δ f with
      | Option.none => .stuck
      | Option.some g =>
        match a with
        -- `f(&mut x)`: the closure changes the variable
        | .refMut (.var x) =>
          match st.env.get x with
          | Option.some v => (g v .unit st).bind fun v st => .val .unit ⟨st.env.set x v, st.heap⟩
          | Option.none => .stuck
        | a => (eval c K Γ a Δ st).bind fun v st => (eval c K Γ b Δ st).bind fun w st => g v w st
  | .index e i, Δ, st => (eval c K Γ e Δ st).bind fun v st => (eval c K Γ i Δ st).bind fun i st =>
    match v, i.nat with
    | .storage s, Option.some i =>
      match (st.heap.get s).storage.data[i]? with
      | Option.some b => .val (.blk b) st
      | Option.none => .fault .index st.heap
    | _, _ => .stuck
  | .tup a b, Δ, st => (eval c K Γ a Δ st).bind fun v st => (eval c K Γ b Δ st).bind fun w st => .val (.pair v w) st
  | .range a b, Δ, st => (eval c K Γ a Δ st).bind fun v st => (eval c K Γ b Δ st).bind fun w st =>
    match v.nat, w.nat with
    | Option.some lo, Option.some hi => .val (.range lo hi) st
    | _, _ => .stuck
  | .lam _ _ _, _, _ => .stuck
  | .letE p e r, Δ, st => (eval c K Γ e Δ st).bind fun v st =>
    match p with
    | .one x => (eval c K Γ r Δ ⟨(x, v.dflt) :: st.env, st.heap⟩).pop 1
    | .two x y =>
      match v with
      | .pair v w => (eval c K Γ r Δ ⟨(x, v) :: (y, w) :: st.env, st.heap⟩).pop 2
      | _ => .stuck
  -- the closure sees its parameters and the variables that were there when it was made; those in these texts assign to no variable
  | .letFn f x y e r, Δ, st =>
    eval c K Γ r (fun g => if g = f then Option.some (fun v w st' =>
      (eval c K Γ e Δ ⟨(x, v) :: (y, w) :: st'.env.drop (st'.env.length - st.env.length), st'.heap⟩).bind fun v st'' => .val v ⟨st'.env, st''.heap⟩)
      else Δ g) st
  | .seq a b, Δ, st => (eval c K Γ a Δ st).bind fun _ st => eval c K Γ b Δ st
  | .ite e a b, Δ, st => (eval c K Γ e Δ st).bind fun v st =>
    match v with
    | .bool true => eval c K Γ a Δ st
    | .bool false => eval c K Γ b Δ st
    | _ => .stuck
  | .whileE e b, Δ, st => whileLoop (eval c K Γ e Δ) (eval c K Γ b Δ) K st
  | .forE x e b, Δ, st => (eval c K Γ e Δ st).bind fun v st =>
    match v with
    | .range lo hi => forLoop (fun i st => (eval c K Γ b Δ ⟨(x, .usz i) :: st.env, st.heap⟩).pop 1) (hi - lo) lo st
    | .rangeRev lo hi => forLoopRev (fun i st => (eval c K Γ b Δ ⟨(x, .usz i) :: st.env, st.heap⟩).pop 1) lo (hi - lo) st
    | .src it => forSrc (fun y st => (eval c K Γ b Δ ⟨(x, .elem y) :: st.env, st.heap⟩).pop 1) it.panics it.items st
    | _ => .stuck
  | .assign o l r, Δ, st => (eval c K Γ r Δ st).bind fun w st =>
    match l with
    | .var x =>
      match st.env.get x with
      | Option.none => .stuck
      | Option.some v =>
        (Out.update c.build o v w st).bind fun w st => .val .unit ⟨st.env.set x w, st.heap⟩
    | .field e .num_elements => (eval c K Γ e Δ st).bind fun v st =>
      match v with
      | .vec s =>
        (Out.update c.build o (.usz (st.heap.get s).num) w st).bind fun w st =>
            match w with
            | .usz n => .val .unit ⟨st.env, st.heap.set s { st.heap.get s with num := n }⟩
            | _ => .stuck
      | _ => .stuck
    | .deref e => (eval c K Γ e Δ st).bind fun v st =>
      match v with
      | .block s i =>
        (Out.update c.build o (.block s i) w st).bind fun w st =>
            match w with
            | .blk x =>
              .val .unit ⟨st.env, st.heap.set s { st.heap.get s with storage := { (st.heap.get s).storage with data := (st.heap.get s).storage.data.set i x } }⟩
            | _ => .stuck
      | _ => .stuck
    | _ => .stuck
  | .ret e, Δ, st => (eval c K Γ e Δ st).bind fun v st => .ret v st.heap
  | .panic, _, st => .fault .index st.heap
  -- a new vector is put into the second slot
  | .struct a b, Δ, st => (eval c K Γ a Δ st).bind fun v st => (eval c K Γ b Δ st).bind fun w st =>
    match v, w.nat with
    | .rvec v, Option.some n => .val (.vec .b) ⟨st.env, st.heap.set .b ⟨v, n⟩⟩
    | _, _ => .stuck

  -- there is at most one iterator
  | .iter a b, Δ, st => (eval c K Γ a Δ st).bind fun v st => (eval c K Γ b Δ st).bind fun w st =>
    match v, w with
    | .vec s, .range lo hi => .val .iter ⟨st.env, st.heap.setIt s lo hi⟩
    | _, _ => .stuck

/-- The methods. -/
def prog (small : Bool) (f : Sym) : Option Fn :=
  match f with
  | .block_index => Option.some f_block_index
  | .blocks_for_elements => Option.some f_blocks_for_elements
  | .len => Option.some f_len
  | .is_empty => Option.some f_is_empty
  | .set_len => Option.some f_set_len
  | .get_raw_unchecked => Option.some f_get_raw_unchecked
  | .set_raw_unchecked => Option.some f_set_raw_unchecked
  | .get_raw => Option.some f_get_raw
  | .set_raw => Option.some f_set_raw
  | .get => Option.some f_get
  | .set => Option.some f_set
  | .swap => Option.some f_swap
  | .fix_storage => Option.some f_fix_storage
  | .grow_if_needed => Option.some f_grow_if_needed
  | .push => Option.some f_push
  | .pop => Option.some f_pop
  | .truncate => Option.some f_truncate
  | .clear => Option.some f_clear
  | .capacity => Option.some f_capacity
  | .reserve => Option.some f_reserve
  | .shrink_to_fit => Option.some f_shrink_to_fit
  | .swap_remove => Option.some f_swap_remove
  | .insert => Option.some f_insert
  | .remove => Option.some f_remove
  | .any => Option.some f_any
  | .all => Option.some f_all
  | .retain => Option.some f_retain
  | .for_each => Option.some f_for_each
  | .extend => Option.some f_extend
  | .extend_with_value => Option.some f_extend_with_value
  | .resize => Option.some f_resize
  | .with_capacity => Option.some f_with_capacity
  | .default => Option.some f_default
  | .new => Option.some f_new
  | .from_elem => Option.some f_from_elem
  | .from_slice => Option.some f_from_slice
  | .from_iter => Option.some f_from_iter
  | .append => Option.some (if small then f_append_small else f_append)
  | .split_off => Option.some f_split_off
  | .eq => Option.some f_eq
  | .hash => Option.some f_hash
  | .from => Option.some f_from
  | .iter => Option.some f_iter
  | .to_vec => Option.some f_to_vec
  -- of `&EnumVec<T>`
  | .into_iter => Option.some f_into_iter
  -- of `EnumVecIter` and `EnumVecIntoIter`
  | .next => Option.some f_next
  | .size_hint => Option.some f_size_hint
  | .count => Option.some f_count
  | .nth => Option.some f_nth
  | .next_back => Option.some f_next_back
  | _ => Option.none

/-- A closure passed by the user: `f` in `retain` and `for_each`. It gets the element and its own state, and returns a value, or panics. -/
abbrev User (α τ : Type) (W : Nat) := α → τ → Option (Val α W) × τ

/-- A closure that decides, as for `retain`. -/
def userBool (f : EV.Closure τ α Bool) : User α τ W := fun x t => ((f x t).1.map .bool, (f x t).2)

/-- A closure that changes an element, as for `for_each`. -/
def userElem (f : EV.Closure τ α α) : User α τ W := fun x t => ((f x t).1.map .elem, (f x t).2)

def User.fns (u : User α τ W) : Fns α τ W := fun g =>
  if g = .f then Option.some fun v _ st =>
    match v with
    | .elem x =>
      match u x st.heap.world with
      | (Option.some r, t) => .val r ⟨st.env, st.heap.withWorld t⟩
      | (Option.none, t) => .fault .user (st.heap.withWorld t)
    | _ => .stuck
  else Option.none

/-- Call a method of the text. The last number bounds the depth of calls. -/
def call (c : Inst α) (u : User α τ c.W) (K : Nat) : Nat → Sym → List (Val α c.W) → Heap τ c.W → Ret α τ c.W
  | 0, _, _, _ => .stuck
  | d + 1, f, args, h =>
    match prog c.small f with
    | Option.none => .stuck
    | Option.some fn => (eval c K (call c u K d) fn.body u.fns ⟨fn.params.zip args, h⟩).finish

end Source
end EnumVecModel
