import Verif.Source.Attr
import Verif.Source.Semantics
import Verif.Lemmas.Inv

/-! # Running the source text -/

namespace EnumVecModel
namespace Source
open EV

set_option linter.constructorNameAsVariable false

variable {α τ : Type} {W : Nat}

/-- The result of a `&mut self` method on the vector in a slot. -/
def Ret.ofM {β : Type} (h : Heap τ W) (sl : Slot) (f : β → Val α W) (r : Except Fault β × EV W) : Ret α τ W :=
  match r with
  | (.ok b, s) => .val (f b) (h.set sl s)
  | (.error e, s) => .fault e (h.set sl s)

@[text] theorem Heap.get_set (h : Heap τ W) (s : Slot) (v : EV W) : (h.set s v).get s = v := by cases s <;> rfl
@[text] theorem Heap.set_set (h : Heap τ W) (s : Slot) (v w : EV W) : (h.set s v).set s w = h.set s w := by cases s <;> rfl
@[text] theorem Heap.set_get (h : Heap τ W) (s : Slot) : h.set s (h.get s) = h := by cases s <;> rfl
@[text] theorem Heap.world_set (h : Heap τ W) (s : Slot) (v : EV W) : (h.set s v).world = h.world := by cases s <;> rfl

@[text] theorem Heap.world_withWorld (h : Heap τ W) (t : τ) : (h.withWorld t).world = t := rfl
@[text] theorem Heap.get_withWorld (h : Heap τ W) (t : τ) (s : Slot) : (h.withWorld t).get s = h.get s := by cases s <;> rfl
@[text] theorem Heap.set_withWorld (h : Heap τ W) (t : τ) (s : Slot) (v : EV W) : (h.withWorld t).set s v = (h.set s v).withWorld t := by cases s <;> rfl
@[text] theorem Heap.withWorld_withWorld (h : Heap τ W) (t t' : τ) : (h.withWorld t).withWorld t' = h.withWorld t' := rfl
@[text] theorem Heap.withWorld_world (h : Heap τ W) : h.withWorld h.world = h := rfl
@[text] theorem Heap.get_setIt (h : Heap τ W) (t : Slot) (lo hi : Nat) (s : Slot) : (h.setIt t lo hi).get s = h.get s := by cases s <;> rfl
@[text] theorem Heap.it_setIt (h : Heap τ W) (t : Slot) (lo hi : Nat) : (h.setIt t lo hi).it = (t, lo, hi) := rfl
@[text] theorem Heap.setIt_setIt (h : Heap τ W) (t t' : Slot) (lo hi lo' hi' : Nat) : (h.setIt t lo hi).setIt t' lo' hi' = h.setIt t' lo' hi' := rfl
@[text] theorem Heap.get_feed (h : Heap τ W) (n : Nat) (s : Slot) : (h.feed n).get s = h.get s := by cases s <;> rfl

theorem bind_val (v : Val α W) (st : St α τ W) (f : Val α W → St α τ W → Out α τ W) : (Out.val v st).bind f = f v st := rfl
theorem bind_ret (v : Val α W) (h : Heap τ W) (f : Val α W → St α τ W → Out α τ W) : (Out.ret v h).bind f = .ret v h := rfl
theorem bind_fault (e : Fault) (h : Heap τ W) (f : Val α W → St α τ W → Out α τ W) : (Out.fault e h).bind f = .fault e h := rfl
@[text] theorem finish_val (v : Val α W) (st : St α τ W) : (Out.val v st).finish = .val v st.heap := rfl
@[text] theorem finish_ret (v : Val α W) (h : Heap τ W) : (Out.ret v h : Out α τ W).finish = .val v h := rfl
@[text] theorem finish_fault (e : Fault) (h : Heap τ W) : (Out.fault e h : Out α τ W).finish = .fault e h := rfl
@[text] theorem out_val (v : Val α W) (h : Heap τ W) (st : St α τ W) : (Ret.val v h).out st = .val v ⟨st.env, h⟩ := rfl
@[text] theorem out_fault (e : Fault) (h : Heap τ W) (st : St α τ W) : (Ret.fault e h).out st = .fault e h := rfl
@[text] theorem pop_val (v : Val α W) (st : St α τ W) (k : Nat) : (Out.val v st).pop k = .val v ⟨st.env.drop k, st.heap⟩ := rfl
@[text] theorem pop_ret (v : Val α W) (h : Heap τ W) (k : Nat) : (Out.ret v h : Out α τ W).pop k = .ret v h := rfl
@[text] theorem pop_fault (e : Fault) (h : Heap τ W) (k : Nat) : (Out.fault e h : Out α τ W).pop k = .fault e h := rfl
@[text] theorem pureOut_ok (v : Val α W) (st : St α τ W) : pureOut (.ok v) st = .val v st := rfl
@[text] theorem pureOut_error (e : Fault) (st : St α τ W) : pureOut (.error e) st = (.fault e st.heap : Out α τ W) := rfl

open Lean Meta Simp in
/-- Evaluate from the outside: look at the rest of the program only when the first part has an outcome. -/
simproc_decl bindStep (Out.bind _ _) := fun e => do
  let f := e.appArg!
  let r ← simp e.appFn!.appArg!
  let r' ← mkCongrFun (← mkCongr { expr := e.appFn!.appFn! } r) f
  let o := (← instantiateMVars r.expr).consumeMData
  if o.isAppOfArity ``EnumVecModel.Source.Out.val 5 then
    return .visit { r' with expr := (mkApp2 f o.appFn!.appArg! o.appArg!).headBeta }
  else if o.isAppOfArity ``EnumVecModel.Source.Out.ret 5 || o.isAppOfArity ``EnumVecModel.Source.Out.fault 5 then
    return .visit { r' with expr := o }
  else
    return .done r'

theorem uAdd_ok {B : Build} {a b : Nat} (h : a + b < B.usizeLim) : uAdd B a b = .ok (a + b) := if_pos h
theorem uSub_ok {B : Build} {a b : Nat} (h : b ≤ a) : uSub B a b = .ok (a - b) := if_pos h
theorem uMul_ok {B : Build} {a b : Nat} (h : a * b < B.usizeLim) : uMul B a b = .ok (a * b) := if_pos h

section
variable (c : Inst α) (K : Nat) (Γ : Sym → List (Val α c.W) → Heap τ c.W → Ret α τ c.W) (Δ : Fns α τ c.W) (st : St α τ c.W)

@[text] theorem eval_unit : eval c K Γ .unit Δ st = .val .unit st := rfl
@[text] theorem eval_num (n : Nat) : eval c K Γ (.num n) Δ st = .val (.int n) st := rfl
@[text] theorem eval_bool (b : Bool) : eval c K Γ (.bool b) Δ st = .val (.bool b) st := rfl
@[text] theorem eval_var (x : Sym) : eval c K Γ (.var x) Δ st = if x = .None then .val .none st else
    match st.env.get x with | Option.some v => .val v st | Option.none => .stuck := rfl
@[text] theorem eval_const (x : Sym) : eval c K Γ (.const x) Δ st = match constVal c x with | Option.some v => .val v st | Option.none => .stuck := rfl
@[text] theorem eval_not (e : Ex) : eval c K Γ (.not e) Δ st = (eval c K Γ e Δ st).bind fun v st =>
    match v with
    | .bool b => .val (.bool (!b)) st
    | .blk b => .val (.blk (~~~b)) st
    | .int n => .val (.blk (~~~(BitVec.ofNat c.W n))) st
    | _ => .stuck := rfl
@[text] theorem eval_deref (e : Ex) : eval c K Γ (.deref e) Δ st = (eval c K Γ e Δ st).bind fun v st => pureOut (load st.heap v) st := rfl
@[text] theorem eval_ref (e : Ex) : eval c K Γ (.ref e) Δ st = eval c K Γ e Δ st := rfl
@[text] theorem eval_refMut_index (e i : Ex) : eval c K Γ (.refMut (.index e i)) Δ st =
    (eval c K Γ e Δ st).bind fun v st => (eval c K Γ i Δ st).bind fun i st =>
      match v, i.nat with
      | .storage s, Option.some i => if i < (st.heap.get s).storage.len then .val (.block s i) st else .fault .index st.heap
      | _, _ => .stuck := rfl
@[text] theorem eval_refMut_field (e : Ex) (f : Sym) : eval c K Γ (.refMut (.field e f)) Δ st = eval c K Γ (.field e f) Δ st := rfl
@[text] theorem eval_land (a b : Ex) : eval c K Γ (.bin .land a b) Δ st = (eval c K Γ a Δ st).bind fun v st =>
      match v with
      | .bool true => eval c K Γ b Δ st
      | .bool false => .val (.bool false) st
      | _ => .stuck := rfl
theorem eval_bin (o : Op) (h1 : o ≠ .land) (h2 : o ≠ .lor) (a b : Ex) : eval c K Γ (.bin o a b) Δ st =
    (eval c K Γ a Δ st).bind fun v st => (eval c K Γ b Δ st).bind fun w st => .ofOp c.build o v w st := by cases o <;> trivial
@[text] theorem eval_add (a b : Ex) : eval c K Γ (.bin .add a b) Δ st =
    (eval c K Γ a Δ st).bind fun v st => (eval c K Γ b Δ st).bind fun w st => .ofOp c.build .add v w st := rfl
@[text] theorem eval_sub (a b : Ex) : eval c K Γ (.bin .sub a b) Δ st =
    (eval c K Γ a Δ st).bind fun v st => (eval c K Γ b Δ st).bind fun w st => .ofOp c.build .sub v w st := rfl
@[text] theorem eval_mul (a b : Ex) : eval c K Γ (.bin .mul a b) Δ st =
    (eval c K Γ a Δ st).bind fun v st => (eval c K Γ b Δ st).bind fun w st => .ofOp c.build .mul v w st := rfl
@[text] theorem eval_div (a b : Ex) : eval c K Γ (.bin .div a b) Δ st =
    (eval c K Γ a Δ st).bind fun v st => (eval c K Γ b Δ st).bind fun w st => .ofOp c.build .div v w st := rfl
@[text] theorem eval_rem (a b : Ex) : eval c K Γ (.bin .rem a b) Δ st =
    (eval c K Γ a Δ st).bind fun v st => (eval c K Γ b Δ st).bind fun w st => .ofOp c.build .rem v w st := rfl
@[text] theorem eval_shl (a b : Ex) : eval c K Γ (.bin .shl a b) Δ st =
    (eval c K Γ a Δ st).bind fun v st => (eval c K Γ b Δ st).bind fun w st => .ofOp c.build .shl v w st := rfl
@[text] theorem eval_shr (a b : Ex) : eval c K Γ (.bin .shr a b) Δ st =
    (eval c K Γ a Δ st).bind fun v st => (eval c K Γ b Δ st).bind fun w st => .ofOp c.build .shr v w st := rfl
@[text] theorem eval_and (a b : Ex) : eval c K Γ (.bin .and a b) Δ st =
    (eval c K Γ a Δ st).bind fun v st => (eval c K Γ b Δ st).bind fun w st => .ofOp c.build .and v w st := rfl
@[text] theorem eval_or (a b : Ex) : eval c K Γ (.bin .or a b) Δ st =
    (eval c K Γ a Δ st).bind fun v st => (eval c K Γ b Δ st).bind fun w st => .ofOp c.build .or v w st := rfl
@[text] theorem eval_xor (a b : Ex) : eval c K Γ (.bin .xor a b) Δ st =
    (eval c K Γ a Δ st).bind fun v st => (eval c K Γ b Δ st).bind fun w st => .ofOp c.build .xor v w st := rfl
@[text] theorem eval_eq (a b : Ex) : eval c K Γ (.bin .eq a b) Δ st =
    (eval c K Γ a Δ st).bind fun v st => (eval c K Γ b Δ st).bind fun w st => .ofOp c.build .eq v w st := rfl
@[text] theorem eval_ne (a b : Ex) : eval c K Γ (.bin .ne a b) Δ st =
    (eval c K Γ a Δ st).bind fun v st => (eval c K Γ b Δ st).bind fun w st => .ofOp c.build .ne v w st := rfl
@[text] theorem eval_lt (a b : Ex) : eval c K Γ (.bin .lt a b) Δ st =
    (eval c K Γ a Δ st).bind fun v st => (eval c K Γ b Δ st).bind fun w st => .ofOp c.build .lt v w st := rfl
@[text] theorem eval_le (a b : Ex) : eval c K Γ (.bin .le a b) Δ st =
    (eval c K Γ a Δ st).bind fun v st => (eval c K Γ b Δ st).bind fun w st => .ofOp c.build .le v w st := rfl
@[text] theorem eval_gt (a b : Ex) : eval c K Γ (.bin .gt a b) Δ st =
    (eval c K Γ a Δ st).bind fun v st => (eval c K Γ b Δ st).bind fun w st => .ofOp c.build .gt v w st := rfl
@[text] theorem eval_ge (a b : Ex) : eval c K Γ (.bin .ge a b) Δ st =
    (eval c K Γ a Δ st).bind fun v st => (eval c K Γ b Δ st).bind fun w st => .ofOp c.build .ge v w st := rfl
@[text] theorem eval_cast (e : Ex) (t : Sym) : eval c K Γ (.cast e t) Δ st = (eval c K Γ e Δ st).bind fun v st =>
    match castVal t v with
    | Option.some v => .val v st
    | Option.none => .stuck := rfl
@[text] theorem eval_num_elements (e : Ex) : eval c K Γ (.field e .num_elements) Δ st = (eval c K Γ e Δ st).bind fun v st =>
    match v with
    | .vec s => .val (.usz (st.heap.get s).num) st
    | _ => .stuck := by
  show Out.bind _ _ = Out.bind _ _
  congr; funext v st; cases v <;> rfl
@[text] theorem eval_storage (e : Ex) : eval c K Γ (.field e .storage) Δ st = (eval c K Γ e Δ st).bind fun v st =>
    match v with
    | .vec s => .val (.storage s) st
    | _ => .stuck := by
  show Out.bind _ _ = Out.bind _ _
  congr; funext v st; cases v <;> rfl
@[text] theorem eval_field_v (e : Ex) : eval c K Γ (.field e .v) Δ st = (eval c K Γ e Δ st).bind fun v st =>
    match v with
    | .iter => .val (.vec st.heap.it.1) st
    | _ => .stuck := by
  show Out.bind _ _ = Out.bind _ _
  congr; funext v st; cases v <;> rfl
@[text] theorem eval_field_range (e : Ex) : eval c K Γ (.field e .range) Δ st = (eval c K Γ e Δ st).bind fun v st =>
    match v with
    | .iter => .val .iterRange st
    | _ => .stuck := by
  show Out.bind _ _ = Out.bind _ _
  congr; funext v st; cases v <;> rfl
@[text] theorem eval_iter (a b : Ex) : eval c K Γ (.iter a b) Δ st =
    (eval c K Γ a Δ st).bind fun v st => (eval c K Γ b Δ st).bind fun w st =>
    match v, w with
    | .vec s, .range lo hi => .val .iter ⟨st.env, st.heap.setIt s lo hi⟩
    | _, _ => .stuck := rfl
@[text] theorem eval_proj0 (e : Ex) : eval c K Γ (.proj e 0) Δ st = (eval c K Γ e Δ st).bind fun v st =>
    match v with
    | .pair v _ => .val v st
    | _ => .stuck := by
  show Out.bind _ _ = Out.bind _ _
  congr; funext v st; cases v <;> rfl
@[text] theorem eval_map (e b : Ex) (x y : Sym) (body : Ex) : eval c K Γ (.meth e .map (.lam x y body) b) Δ st = (eval c K Γ e Δ st).bind fun v st =>
        match v with
        | .none => .val .none st
        | .some v => ((eval c K Γ body Δ ⟨(x, v) :: st.env, st.heap⟩).pop 1).bind fun v st => .val (.some v) st
        | _ => .stuck := by
  conv => lhs; unfold eval
  rw [if_pos rfl]; rfl
@[text] theorem eval_next (x : Sym) (a b : Ex) : eval c K Γ (.meth (.var x) .next a b) Δ st =
        match st.env.get x with
        | Option.some (.src it) =>
          match it.items with
          | [] => if it.panics then .fault .user st.heap else .val .none st
          | y :: ys => .val (.some (.elem y)) ⟨st.env.set x (.src ⟨it.hint, ys, it.panics⟩), st.heap⟩
        | _ => .stuck := by
  unfold eval; rw [if_neg (by decide), if_pos rfl]; rfl
/-- `self.range.next()` -/
@[text] theorem eval_next_field (e : Ex) (f : Sym) (a b : Ex) : eval c K Γ (.meth (.field e f) .next a b) Δ st =
    (eval c K Γ (.field e f) Δ st).bind fun r st => methVal c Γ .next r .unit .unit st := by
  conv => lhs; unfold eval
  rw [if_neg (by decide), if_pos rfl]
/-- `x.extend(a)` -/
@[text] theorem eval_extend (x : Sym) (a b : Ex) : eval c K Γ (.meth (.var x) .extend a b) Δ st =
    match st.env.get x with
    | Option.some (.slice xs) => (eval c K Γ a Δ st).bind fun v st =>
      match v with
      | .iter => ((drain (fun h => Γ .next [.iter, .unit, .unit] h) K xs st.heap).out st).bind fun v st => .val .unit ⟨st.env.set x v, st.heap⟩
      | _ => .stuck
    | Option.some r => (eval c K Γ a Δ st).bind fun v st => (eval c K Γ b Δ st).bind fun w st => methVal c Γ .extend r v w st
    | Option.none => .stuck := by
  conv => lhs; unfold eval
  rw [if_neg (by decide), if_neg (by decide), if_neg (by decide), if_pos rfl]; rfl
@[text] theorem eval_cloned (e a b : Ex) : eval c K Γ (.meth e .cloned a b) Δ st = eval c K Γ e Δ st := by
  conv => lhs; unfold eval
  rw [if_neg (by decide), if_neg (by decide), if_pos rfl]
@[text] theorem eval_meth (e : Ex) (m : Sym) (h1 : m ≠ .map) (h2 : m ≠ .next) (h3 : m ≠ .cloned) (h4 : m ≠ .extend) (a b : Ex) : eval c K Γ (.meth e m a b) Δ st =
    (eval c K Γ e Δ st).bind fun r st => (eval c K Γ a Δ st).bind fun v st => (eval c K Γ b Δ st).bind fun w st => methVal c Γ m r v w st := by
  conv => lhs; unfold eval
  rw [if_neg h1, if_neg h2, if_neg h3, if_neg h4]
@[text] theorem eval_call (p f : Sym) (a b : Ex) : eval c K Γ (.call p f a b) Δ st =
    (eval c K Γ a Δ st).bind fun v st => (eval c K Γ b Δ st).bind fun w st => callVal c Γ p f v w st := rfl
@[text] theorem eval_some (a b : Ex) : eval c K Γ (.callv .Some a b) Δ st = (eval c K Γ a Δ st).bind fun v st => .val (.some v) st := by
  conv => lhs; unfold eval
  rw [if_pos rfl]
@[text] theorem eval_repeat (a b : Ex) : eval c K Γ (.callv .repeat a b) Δ st = (eval c K Γ a Δ st).bind fun v st =>
      match v with
      | .elem x => .val (.rep x) st
      | _ => .stuck := by
  conv => lhs; unfold eval
  rw [if_neg (by decide), if_pos rfl]; rfl
theorem eval_callv {f : Sym} (h1 : f ≠ .Some) (h2 : f ≠ .repeat) {a : Ex} (h3 : ∀ x, a ≠ .refMut (.var x)) (b : Ex)
    {g : Val α c.W → Val α c.W → St α τ c.W → Out α τ c.W} (hg : Δ f = Option.some g) : eval c K Γ (.callv f a b) Δ st =
    (eval c K Γ a Δ st).bind fun v st => (eval c K Γ b Δ st).bind fun w st => g v w st := by
  conv => lhs; unfold eval
  rw [if_neg h1, if_neg h2, hg]
  dsimp only
  split
  · exact absurd rfl (h3 _)
  · rfl
/-- `f(&mut x)` -/
theorem eval_callMut {f : Sym} (h1 : f ≠ .Some) (h2 : f ≠ .repeat) (x : Sym) (b : Ex)
    {g : Val α c.W → Val α c.W → St α τ c.W → Out α τ c.W} (hg : Δ f = Option.some g) : eval c K Γ (.callv f (.refMut (.var x)) b) Δ st =
    match st.env.get x with
    | Option.some v => (g v .unit st).bind fun v st => .val .unit ⟨st.env.set x v, st.heap⟩
    | Option.none => .stuck := by
  conv => lhs; unfold eval
  rw [if_neg h1, if_neg h2, hg]
  rfl
@[text] theorem eval_index (e i : Ex) : eval c K Γ (.index e i) Δ st = (eval c K Γ e Δ st).bind fun v st => (eval c K Γ i Δ st).bind fun i st =>
    match v, i.nat with
    | .storage s, Option.some i =>
      match (st.heap.get s).storage.data[i]? with
      | Option.some b => .val (.blk b) st
      | Option.none => .fault .index st.heap
    | _, _ => .stuck := rfl
@[text] theorem eval_tup (a b : Ex) : eval c K Γ (.tup a b) Δ st =
    (eval c K Γ a Δ st).bind fun v st => (eval c K Γ b Δ st).bind fun w st => .val (.pair v w) st := rfl
@[text] theorem eval_range (a b : Ex) : eval c K Γ (.range a b) Δ st =
    (eval c K Γ a Δ st).bind fun v st => (eval c K Γ b Δ st).bind fun w st =>
    match v.nat, w.nat with
    | Option.some lo, Option.some hi => .val (.range lo hi) st
    | _, _ => .stuck := rfl
@[text] theorem eval_let1 (x : Sym) (e r : Ex) : eval c K Γ (.letE (.one x) e r) Δ st = (eval c K Γ e Δ st).bind fun v st =>
    (eval c K Γ r Δ ⟨(x, v.dflt) :: st.env, st.heap⟩).pop 1 := rfl
@[text] theorem eval_let2 (x y : Sym) (e r : Ex) : eval c K Γ (.letE (.two x y) e r) Δ st = (eval c K Γ e Δ st).bind fun v st =>
      match v with
      | .pair v w => (eval c K Γ r Δ ⟨(x, v) :: (y, w) :: st.env, st.heap⟩).pop 2
      | _ => .stuck := rfl
@[text] theorem eval_letFn (f x y : Sym) (e r : Ex) : eval c K Γ (.letFn f x y e r) Δ st =
    eval c K Γ r (fun g => if g = f then Option.some (fun v w st' =>
      (eval c K Γ e Δ ⟨(x, v) :: (y, w) :: st'.env.drop (st'.env.length - st.env.length), st'.heap⟩).bind fun v st'' => .val v ⟨st'.env, st''.heap⟩)
      else Δ g) st := rfl
@[text] theorem eval_seq (a b : Ex) : eval c K Γ (.seq a b) Δ st = (eval c K Γ a Δ st).bind fun _ st => eval c K Γ b Δ st := rfl
@[text] theorem eval_ite (e a b : Ex) : eval c K Γ (.ite e a b) Δ st = (eval c K Γ e Δ st).bind fun v st =>
    match v with
    | .bool true => eval c K Γ a Δ st
    | .bool false => eval c K Γ b Δ st
    | _ => .stuck := rfl
@[text] theorem eval_while (e b : Ex) : eval c K Γ (.whileE e b) Δ st = whileLoop (eval c K Γ e Δ) (eval c K Γ b Δ) K st := rfl
@[text] theorem eval_for (x : Sym) (e b : Ex) : eval c K Γ (.forE x e b) Δ st = (eval c K Γ e Δ st).bind fun v st =>
    match v with
    | .range lo hi => forLoop (fun i st => (eval c K Γ b Δ ⟨(x, .usz i) :: st.env, st.heap⟩).pop 1) (hi - lo) lo st
    | .rangeRev lo hi => forLoopRev (fun i st => (eval c K Γ b Δ ⟨(x, .usz i) :: st.env, st.heap⟩).pop 1) lo (hi - lo) st
    | .src it => forSrc (fun y st => (eval c K Γ b Δ ⟨(x, .elem y) :: st.env, st.heap⟩).pop 1) it.panics it.items st
    | _ => .stuck := rfl
@[text] theorem eval_assign_var (o : Option Op) (x : Sym) (r : Ex) : eval c K Γ (.assign o (.var x) r) Δ st = (eval c K Γ r Δ st).bind fun w st =>
      match st.env.get x with
      | Option.none => .stuck
      | Option.some v => (Out.update c.build o v w st).bind fun w st => .val .unit ⟨st.env.set x w, st.heap⟩ := rfl
@[text] theorem eval_assign_num (o : Option Op) (e r : Ex) : eval c K Γ (.assign o (.field e .num_elements) r) Δ st =
    (eval c K Γ r Δ st).bind fun w st => (eval c K Γ e Δ st).bind fun v st =>
      match v with
      | .vec s =>
        (Out.update c.build o (.usz (st.heap.get s).num) w st).bind fun w st =>
            match w with
            | .usz n => .val .unit ⟨st.env, st.heap.set s { st.heap.get s with num := n }⟩
            | _ => .stuck
      | _ => .stuck := rfl
@[text] theorem eval_assign_deref (o : Option Op) (e r : Ex) : eval c K Γ (.assign o (.deref e) r) Δ st =
    (eval c K Γ r Δ st).bind fun w st => (eval c K Γ e Δ st).bind fun v st =>
      match v with
      | .block s i =>
        (Out.update c.build o (.block s i) w st).bind fun w st =>
            match w with
            | .blk x =>
              .val .unit ⟨st.env, st.heap.set s { st.heap.get s with storage := { (st.heap.get s).storage with data := (st.heap.get s).storage.data.set i x } }⟩
            | _ => .stuck
      | _ => .stuck := rfl
@[text] theorem eval_ret (e : Ex) : eval c K Γ (.ret e) Δ st = (eval c K Γ e Δ st).bind fun v st => .ret v st.heap := rfl
@[text] theorem eval_panic : eval c K Γ .panic Δ st = .fault .index st.heap := rfl
@[text] theorem eval_struct (a b : Ex) : eval c K Γ (.struct a b) Δ st =
    (eval c K Γ a Δ st).bind fun v st => (eval c K Γ b Δ st).bind fun w st =>
    match v, w.nat with
    | .rvec v, Option.some n => .val (.vec .b) ⟨st.env, st.heap.set .b ⟨v, n⟩⟩
    | _, _ => .stuck := rfl

end

attribute [text] Env.get Env.set constVal Out.ofOp load binOp usizeOp blockOp shiftOp Out.update castVal Val.nat Val.dflt Val.toBlock St.putStorage
  storageMeth usizeMeth optMeth rangeMeth methVal callVal Except.map List.zip List.zipWith List.drop

theorem User.fns_f (u : User α τ W) : u.fns .f = Option.some fun v _ st =>
    match v with
    | .elem x =>
      match u x st.heap.world with
      | (Option.some r, t) => .val r ⟨st.env, st.heap.withWorld t⟩
      | (Option.none, t) => .fault .user (st.heap.withWorld t)
    | _ => .stuck := rfl

theorem call_eq {c : Inst α} (u : User α τ c.W) (K d : Nat) {f : Sym} {fn : Fn} (hf : prog c.small f = Option.some fn) (args : List (Val α c.W))
    (h : Heap τ c.W) : call c u K (d + 1) f args h = (eval c K (call c u K d) fn.body u.fns ⟨fn.params.zip args, h⟩).finish := by
  unfold call; rw [hf]

variable {strict : Prop} {c : Inst α} (hc : c.Fits strict) (u : User α τ c.W) (K : Nat)
include hc

theorem W_lt : c.W < c.build.usizeLim := by
  rcases hc.compiles.1 with h | h | h | h | h <;> rw [h] <;> exact c.build.lt_usizeLim (by decide)

theorem off_lt (i : Nat) : i % c.epb * c.bits < c.W := by
  have := hc.fld_fits (Nat.mod_lt i hc.epb_pos)
  have := hc.bits_pos
  omega

theorem off_lim (i : Nat) : i % c.epb * c.bits < c.build.usizeLim := Nat.lt_trans (off_lt hc i) (W_lt hc)

theorem text_block_index (d : Nat) (i : Nat) (w : Val α c.W) (h : Heap τ c.W) :
    call c u K (d + 1) .block_index [.usz i, w] h = .val (.pair (.usz (blockIndex c i).1) (.usz (blockIndex c i).2)) h := by
  have h1 := off_lim hc i
  have h2 : c.epb ≠ 0 := Nat.pos_iff_ne_zero.mp hc.epb_pos
  rw [call_eq u K d (fn := f_block_index) rfl]
  simp [↓bindStep, text, f_block_index, h2, uMul_ok h1, blockIndex]

theorem text_blocks_for_elements (d : Nat) (n : Nat) (w : Val α c.W) (h : Heap τ c.W) :
    call c u K (d + 1) .blocks_for_elements [.usz n, w] h = .val (.usz (blocksForElements c n)) h := by
  have h2 : c.epb ≠ 0 := Nat.pos_iff_ne_zero.mp hc.epb_pos
  have h3 : 1 ≤ c.epb := hc.epb_pos
  rw [call_eq u K d (fn := f_blocks_for_elements) rfl]
  simp [↓bindStep, text, f_blocks_for_elements, h2, uSub_ok h3, blocksForElements]

omit hc

theorem text_len (d : Nat) (sl : Slot) (v w : Val α c.W) (h : Heap τ c.W) :
    call c u K (d + 1) .len [.vec sl, v, w] h = .val (.usz (h.get sl).num) h := by
  rw [call_eq u K d (fn := f_len) rfl]
  simp [↓bindStep, text, f_len]

theorem text_is_empty (d : Nat) (sl : Slot) (v w : Val α c.W) (h : Heap τ c.W) :
    call c u K (d + 2) .is_empty [.vec sl, v, w] h = .val (.bool (isEmpty c (h.get sl))) h := by
  rw [call_eq u K (d + 1) (fn := f_is_empty) rfl]
  simp [↓bindStep, text, f_is_empty, text_len, isEmpty, len]
  rfl

theorem text_set_len (d : Nat) (sl : Slot) (n : Nat) (w : Val α c.W) (h : Heap τ c.W) :
    call c u K (d + 1) .set_len [.vec sl, .usz n, w] h = .ofM h sl (fun _ => .unit) (setLen c n (h.get sl)) := by
  rw [call_eq u K d (fn := f_set_len) rfl]
  simp [↓bindStep, text, f_set_len, Ret.ofM, setLen]

end Source
end EnumVecModel
