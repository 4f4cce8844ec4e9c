import Verif.Source.SetText
import Verif.EnumSetCode

/-!
# What the text of `enum_set` means

An interpreter for the text of `enum_set/src/lib.rs`. The element type `E` has an arbitrary implementation of `EnumLike`, which is code (`Hostile.Impl`): it may panic, have side effects and answer
differently each time. The inner `BitSet` is any implementation of the operations of `bit_set::BitSet` (`ESet.BitSet`); references are not distinguished from values, a method that takes
`&mut self` writes its receiver back. What `size_hint` of the iterators of `bit-set` returns is a symbolic value
(`SV.hint`): any function of what the iterator has still to yield.
-/

namespace EnumVecModel
namespace Source
namespace SetText

open Like ESet
open Hostile (Impl Iter)
open EV (DebugList)

set_option linter.constructorNameAsVariable false

/-- Values. -/
inductive SV (σ ω α : Type)
  | unit
  | bool (b : Bool)
  | num (n : Nat)
  /-- a value of type `E` -/
  | elem (a : α)
  | none
  | some (v : SV σ ω α)
  /-- a `BitSet` -/
  | bits (s : σ)
  /-- an iterator of `bit-set`: the numbers it still has to yield -/
  | nums (l : List Nat)
  /-- what `size_hint` of an iterator of `bit-set` returns while it still has to yield these numbers -/
  | hint (l : List Nat)
  /-- an iterator given by the caller, of which at most `n` items are taken -/
  | src (I : Iter ω Unit α) (n : Nat)
  /-- a `fmt::Formatter`, and a `fmt::DebugSet` made from it -/
  | fmt (D : DebugList ω α)
  | builder (D : DebugList ω α)
  /-- a field of a struct, and the other fields -/
  | fld (f : Sym) (v rest : SV σ ω α)
  /-- no more fields -/
  | fin

variable {σ ω α : Type}

/-- Local variables. -/
abbrev SEnv (σ ω α : Type) := List (Sym × SV σ ω α)

/-- The value of a variable. -/
def SEnv.get : SEnv σ ω α → Sym → Option (SV σ ω α)
  | [], _ => Option.none
  | (y, v) :: r, x => if y = x then Option.some v else SEnv.get r x

/-- Assign to a variable. -/
def SEnv.set : SEnv σ ω α → Sym → SV σ ω α → SEnv σ ω α
  | [], _, _ => []
  | (y, v) :: r, x, w => if y = x then (y, w) :: r else (y, v) :: SEnv.set r x w

/-- A field of a struct. -/
def SV.field : SV σ ω α → Sym → Option (SV σ ω α)
  | .fld g v r, f => if g = f then Option.some v else r.field f
  | _, _ => Option.none

/-- Replace a field of a struct. -/
def SV.setField : SV σ ω α → Sym → SV σ ω α → SV σ ω α
  | .fld g v r, f, w => if g = f then .fld g w r else .fld g v (r.setField f w)
  | v, _, _ => v

/-- A result or a panic, with the variables and the world afterwards; or no meaning. -/
inductive SOut (σ ω α : Type)
  | ok (v : SV σ ω α) (env : SEnv σ ω α) (w : ω)
  | fault (e : Fault) (env : SEnv σ ω α) (w : ω)
  | stuck

/-- Sequencing. -/
def SOut.bind (r : SOut σ ω α) (f : SV σ ω α → SEnv σ ω α → ω → SOut σ ω α) : SOut σ ω α :=
  match r with
  | .ok v env w => f v env w
  | .fault e env w => .fault e env w
  | .stuck => .stuck

/-- Leave the scope of `k` variables. -/
def SOut.pop (k : Nat) : SOut σ ω α → SOut σ ω α
  | .ok v env w => .ok v (env.drop k) w
  | .fault e env w => .fault e (env.drop k) w
  | .stuck => .stuck

/-- Write back to a place: `x` or `x.f`; everything else is a temporary. -/
def setPlace (env : SEnv σ ω α) (e : LEx) (v : SV σ ω α) : SEnv σ ω α :=
  match e with
  | .var x => env.set x v
  | .field (.var x) f =>
    match env.get x with
    | Option.some s => env.set x (s.setField f v)
    | Option.none => env
  | _ => env

/-- The two types of the crate. -/
inductive Cls
  | set
  | wrap
  deriving DecidableEq

/-- What a call of a function of the crate does: its result or panic, `self` and the world afterwards. -/
inductive COut (σ ω α : Type)
  | ok (v self : SV σ ω α) (w : ω)
  | fault (e : Fault) (self : SV σ ω α) (w : ω)
  | stuck

/-- What the text can refer to. -/
structure SCtx (σ ω α : Type) where
  B : BitSet σ
  h : Impl ω α
  /-- the type `Self` -/
  cls : Cls
  /-- call a function of the crate -/
  call : Cls → Sym → List (SV σ ω α) → ω → COut σ ω α

/-- Methods of `bit_set::BitSet`: the result and the set afterwards. -/
def bitsMeth (B : BitSet σ) (m : Sym) (s : σ) (a : SV σ ω α) : Option (SV σ ω α × σ) :=
  match m, a with
  | .shrink_to_fit, .unit => Option.some (.unit, B.shrinkToFit s)
  | .iter, .unit => Option.some (.nums (B.iter s), s)
  | .union, .bits t => Option.some (.nums (B.union s t), s)
  | .intersection, .bits t => Option.some (.nums (B.intersection s t), s)
  | .difference, .bits t => Option.some (.nums (B.difference s t), s)
  | .symmetric_difference, .bits t => Option.some (.nums (B.symmetricDifference s t), s)
  | .union_with, .bits t => Option.some (.unit, B.unionWith s t)
  | .intersect_with, .bits t => Option.some (.unit, B.intersectWith s t)
  | .difference_with, .bits t => Option.some (.unit, B.differenceWith s t)
  | .symmetric_difference_with, .bits t => Option.some (.unit, B.symmetricDifferenceWith s t)
  | .len, .unit => Option.some (.num (B.len s), s)
  | .is_empty, .unit => Option.some (.bool (B.isEmpty s), s)
  | .clear, .unit => Option.some (.unit, B.clear s)
  | .contains, .num d => Option.some (.bool (B.contains s d), s)
  | .is_disjoint, .bits t => Option.some (.bool (B.isDisjoint s t), s)
  | .is_subset, .bits t => Option.some (.bool (B.isSubset s t), s)
  | .is_superset, .bits t => Option.some (.bool (B.isSuperset s t), s)
  | .insert, .num d => Option.some (.bool (B.insert s d).1, (B.insert s d).2)
  | .remove, .num d => Option.some (.bool (B.remove s d).1, (B.remove s d).2)
  | _, _ => Option.none

/-- The class of an object. -/
def SV.cls? : SV σ ω α → Option Cls
  | .fld .inner (.bits _) _ => Option.some .set
  | .fld .inner (.nums _) _ => Option.some .wrap
  | _ => Option.none

/-- The arguments of a call. -/
def argsOf : SV σ ω α → List (SV σ ω α)
  | .unit => []
  | a => [a]

/-- `DebugSet::entries(it)` (std): gives the items of the iterator to `entry`, one by one. At most `n` calls of `next`. -/
def entriesLoop (next : SV σ ω α → ω → COut σ ω α) (D : DebugList ω α) (env : SEnv σ ω α) : Nat → SV σ ω α → ω → SOut σ ω α
  | 0, _, _ => .stuck
  | n + 1, it, w =>
    match next it w with
    | .ok .none _ w => .ok (.builder D) env w
    | .ok (.some (.elem a)) it w =>
      match D.entry a w with
      | (Option.some _, w) => entriesLoop next D env n it w
      | (Option.none, w) => .fault .user env w
    | .ok _ _ _ => .stuck
    | .fault e _ w => .fault e env w
    | .stuck => .stuck

/-- An upper bound for the number of items of a `WrapIter`. -/
def SV.items : SV σ ω α → Nat
  | .fld _ (.nums l) _ => l.length
  | _ => 0

/-- `v.m(a)`, where `e` is the receiver. -/
def smeth (Γ : SCtx σ ω α) (e : LEx) (m : Sym) (v a : SV σ ω α) (env : SEnv σ ω α) (w : ω) : SOut σ ω α :=
  match v with
  | .bits s =>
    match bitsMeth Γ.B m s a with
    | Option.some (r, s) => .ok r (setPlace env e (.bits s)) w
    | Option.none => .stuck
  | .nums l =>
    if m = .next then
      match l with
      | [] => .ok .none env w
      | x :: l => .ok (.some (.num x)) (setPlace env e (.nums l)) w
    else if m = .size_hint then .ok (.hint l) env w
    else .stuck
  | .elem x =>
    if m = .to_discr then
      match Γ.h.toDiscr x w with
      | (Option.some d, w) => .ok (.num d) env w
      | (Option.none, w) => .fault .user env w
    else .stuck
  | .fmt D => if m = .debug_set then .ok (.builder D) env (D.start w) else .stuck
  | .builder D =>
    if m = .entries then entriesLoop (fun it w => Γ.call .wrap .next [it] w) D env (a.items + 1) a w
    else if m = .finish then .ok (.bool (D.finish w).1) env (D.finish w).2
    else .stuck
  | v =>
    match v.cls? with
    | Option.some c =>
      match Γ.call c m (v :: argsOf a) w with
      | .ok r s w => .ok r (setPlace env e s) w
      | .fault x s w => .fault x (setPlace env e s) w
      | .stuck => .stuck
    | Option.none => .stuck

/-- `P::f(a)`. -/
def scall (Γ : SCtx σ ω α) (p f : Sym) (a : SV σ ω α) (env : SEnv σ ω α) (w : ω) : SOut σ ω α :=
  match p, f, a with
  | .E, .from_discr, .num x =>
    match Γ.h.fromDiscr x w with
    | (Option.some a, w) => .ok (.elem a) env w
    | (Option.none, w) => .fault .badDiscr env w
  | .BitSet, .new, .unit => .ok (.bits Γ.B.new) env w
  | p, f, a =>
    match (if p = .Self then Option.some Γ.cls else if p = .WrapIter then Option.some .wrap else if p = .EnumSet then Option.some .set else Option.none) with
    | Option.some c =>
      match Γ.call c f (argsOf a) w with
      | .ok r _ w => .ok r env w
      | .fault x _ w => .fault x env w
      | .stuck => .stuck
    | Option.none => .stuck

/-- `for x in iter { body }` with at most `n` iterations, where `iter` is given by the caller. -/
def srcLoop (I : Iter ω Unit α) (body : SV σ ω α → SEnv σ ω α → ω → SOut σ ω α) : Nat → SEnv σ ω α → ω → SOut σ ω α
  | 0, env, w => .ok .unit env w
  | n + 1, env, w =>
    match I.next () w with
    | (Option.some (Option.none, _), w) => .ok .unit env w
    | (Option.some (Option.some a, _), w) => (body (.elem a) env w).bind fun _ env w => srcLoop I body n env w
    | (Option.none, w) => .fault .user env w

/-- The interpreter. -/
def seval (Γ : SCtx σ ω α) : SEnv σ ω α → ω → LEx → SOut σ ω α
  | env, w, .unit => .ok .unit env w
  | env, w, .num n => .ok (.num n) env w
  | env, w, .var x =>
    match env.get x with
    | Option.some v => .ok v env w
    | Option.none => if x = .PhantomData then .ok .unit env w else .stuck
  | env, w, .ref e => seval Γ env w e
  | env, w, .field e f => (seval Γ env w e).bind fun v env w =>
    match v.field f with
    | Option.some u => .ok u env w
    | Option.none => .stuck
  | env, w, .meth e m a =>
    match a with
    | .lam x b =>
      if m = .map then
        (seval Γ env w e).bind fun v env w =>
          match v with
          | .none => .ok .none env w
          | .some v => ((seval Γ ((x, v) :: env) w b).pop 1).bind fun r env w => .ok (.some r) env w
          | _ => .stuck
      else .stuck
    | a => (seval Γ env w e).bind fun v env w => (seval Γ env w a).bind fun u env w => smeth Γ e m v u env w
  | env, w, .call p f a => (seval Γ env w a).bind fun v env w => scall Γ p f v env w
  | env, w, .letE x e rest => (seval Γ env w e).bind fun v env w => (seval Γ ((x, v) :: env) w rest).pop 1
  | env, w, .seq a b => (seval Γ env w a).bind fun _ env w => seval Γ env w b
  | env, w, .forE x e b => (seval Γ env w e).bind fun v env w =>
    match v with
    | .src I n => srcLoop I (fun u env w => (seval Γ ((x, u) :: env) w b).pop 1) n env w
    | _ => .stuck
  | env, w, .struct fs => seval Γ env w fs
  | env, w, .init f e rest => (seval Γ env w e).bind fun v env w => (seval Γ env w rest).bind fun u env w => .ok (.fld f v u) env w
  | env, w, .noInit => .ok .fin env w
  | _, _, _ => .stuck

/-! ## Running the crate -/

/-- The `impl` items of a type. -/
def implsOf : Cls → List SImpl
  | .set => [s_set, s_default, s_from_iter, s_extend, s_debug, s_into_iter]
  | .wrap => [s_wrap, s_iterator]

/-- Look up a function. -/
def fnOf (c : Cls) (f : Sym) : Option LFn := ((implsOf c).flatMap (·.fns)).find? fun k => k.name = f

/-- Bind parameters to arguments. -/
def sbind : List Sym → List (SV σ ω α) → Option (SEnv σ ω α)
  | [], [] => Option.some []
  | x :: xs, v :: vs => (sbind xs vs).map ((x, v) :: ·)
  | _, _ => Option.none

/-- `self` afterwards. -/
def selfOf (env : SEnv σ ω α) : SV σ ω α := (env.get .self).getD .unit

/-- Call a function. The number bounds the depth of the calls. -/
def srun (B : BitSet σ) (h : Impl ω α) : Nat → Cls → Sym → List (SV σ ω α) → ω → COut σ ω α
  | 0, _, _, _, _ => .stuck
  | d + 1, c, f, args, w =>
    match fnOf c f with
    | Option.some fn =>
      match sbind fn.params args with
      | Option.some env =>
        match seval ⟨B, h, c, srun B h d⟩ env w fn.body with
        | .ok v env w => .ok v (selfOf env) w
        | .fault e env w => .fault e (selfOf env) w
        | .stuck => .stuck
      | Option.none => .stuck
    | Option.none => .stuck

end SetText
end Source
end EnumVecModel
