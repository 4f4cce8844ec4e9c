import Verif.Source.SetEval
import Verif.Props.EnumSetCode

/-! # Lemmas: running the text of `enum_set` -/

namespace EnumVecModel
namespace Source
namespace SetText

open Like ESet
open Hostile (Impl Iter)
open EV (DebugList)

set_option linter.constructorNameAsVariable false

variable {σ ω α : Type} (B : BitSet σ) (h : Impl ω α)

/-- A set, a `WrapIter`. -/
def obj (s : EnumSet σ) : SV σ ω α := .fld .inner (.bits s.inner) (.fld ._phantom .unit .fin)
def wrapObj (it : WrapIter) : SV σ ω α := .fld .inner (.nums it.inner) (.fld ._phantom .unit .fin)

/-- The set, the `WrapIter` that an object is. -/
def SV.set? : SV σ ω α → Option (EnumSet σ)
  | .fld .inner (.bits s) (.fld ._phantom .unit .fin) => Option.some ⟨s⟩
  | _ => Option.none
def SV.wrap? : SV σ ω α → Option WrapIter
  | .fld .inner (.nums l) (.fld ._phantom .unit .fin) => Option.some ⟨l⟩
  | _ => Option.none

/-- What a call returned. -/
def SV.ret? (members : σ → List Nat) : SV σ ω α → Option (Ret α)
  | .unit => Option.some .unit
  | .bool b => Option.some (.bool b)
  | .num n => Option.some (.num n)
  | .bits s => Option.some (.bits (members s))
  | .none => Option.some (.item Option.none)
  | .some (.elem a) => Option.some (.item (Option.some a))
  | _ => Option.none

/-- `r.f(args)`: runs the text. -/
def onSet (m : Store σ ω) (r : Nat) (f : Sym) (args : List (SV σ ω α)) : Option (Ret α × Store σ ω) :=
  match srun B h 4 .set f (obj (m.set r) :: args) m.world with
  | .ok v s w =>
    match v.ret? B.iter, s.set? with
    | Option.some x, Option.some s => Option.some (x, { m with set := put m.set r s, world := w })
    | _, _ => Option.none
  | .fault e s w =>
    match s.set? with
    | Option.some s => Option.some (.panic e, { m with set := put m.set r s, world := w })
    | Option.none => Option.none
  | .stuck => Option.none

/-- `let r = EnumSet::f(args)`. -/
def assignSet (m : Store σ ω) (r : Nat) (f : Sym) (args : List (SV σ ω α)) : Option (Ret α × Store σ ω) :=
  match srun B h 4 .set f args m.world with
  | .ok v _ w => v.set?.map fun s => (.unit, { m with set := put m.set r s, world := w })
  | .fault e _ w => Option.some (.panic e, { m with world := w })
  | .stuck => Option.none

/-- `let i = r.f(args)`, an iterator. -/
def assignIter (m : Store σ ω) (i : Nat) (f : Sym) (args : List (SV σ ω α)) : Option (Ret α × Store σ ω) :=
  match srun B h 4 .set f args m.world with
  | .ok v _ w => v.wrap?.map fun s => (.unit, { m with iter := put m.iter i s, world := w })
  | .fault e _ w => Option.some (.panic e, { m with world := w })
  | .stuck => Option.none

/-- `i.next()`. -/
def onIter (m : Store σ ω) (i : Nat) : Option (Ret α × Store σ ω) :=
  match srun B h 4 .wrap .next [wrapObj (m.iter i)] m.world with
  | .ok v s w =>
    match v.ret? B.iter, s.wrap? with
    | Option.some x, Option.some s => Option.some (x, { m with iter := put m.iter i s, world := w })
    | _, _ => Option.none
  | .fault e s w =>
    match s.wrap? with
    | Option.some s => Option.some (.panic e, { m with iter := put m.iter i s, world := w })
    | Option.none => Option.none
  | .stuck => Option.none

/-- One call: runs the text. `clone`, `eq`, `cmp` and `hash` are derived and have none. -/
def textExec (m : Store σ ω) : Call σ ω α → Option (Ret α × Store σ ω)
  | .new r => assignSet B h m r .new []
  | .fromBitSet r b => assignSet B h m r .from_bit_set [.bits b]
  | .getRef r => onSet B h m r .get_ref []
  | .collect r I n => assignSet B h m r .from_iter [.src I n]
  | .insert r a => onSet B h m r .insert [.elem a]
  | .remove r a => onSet B h m r .remove [.elem a]
  | .contains r a => onSet B h m r .contains [.elem a]
  | .extend r I n => onSet B h m r .extend [.src I n]
  | .clear r => onSet B h m r .clear []
  | .shrinkToFit r => onSet B h m r .shrink_to_fit []
  | .len r => onSet B h m r .len []
  | .isEmpty r => onSet B h m r .is_empty []
  | .unionWith r q => onSet B h m r .union_with [obj (m.set q)]
  | .intersectWith r q => onSet B h m r .intersect_with [obj (m.set q)]
  | .differenceWith r q => onSet B h m r .difference_with [obj (m.set q)]
  | .symmetricDifferenceWith r q => onSet B h m r .symmetric_difference_with [obj (m.set q)]
  | .isDisjoint r q => onSet B h m r .is_disjoint [obj (m.set q)]
  | .isSubset r q => onSet B h m r .is_subset [obj (m.set q)]
  | .isSuperset r q => onSet B h m r .is_superset [obj (m.set q)]
  | .iterate i (.iter r) => assignIter B h m i .iter [obj (m.set r)]
  | .iterate i (.union r q) => assignIter B h m i .union [obj (m.set r), obj (m.set q)]
  | .iterate i (.intersection r q) => assignIter B h m i .intersection [obj (m.set r), obj (m.set q)]
  | .iterate i (.difference r q) => assignIter B h m i .difference [obj (m.set r), obj (m.set q)]
  | .iterate i (.symmetricDifference r q) => assignIter B h m i .symmetric_difference [obj (m.set r), obj (m.set q)]
  | .next i => onIter B h m i
  | .debug r D => onSet B h m r .fmt [.fmt D]
  | c => Option.some (exec B h m c)

/-- Unfold the interpreter. -/
macro "srun_simp" "[" ls:Lean.Parser.Tactic.simpLemma,* "]" : tactic => `(tactic| simp [srun, fnOf, implsOf, s_set, s_default, s_from_iter, s_extend, s_debug, s_into_iter, s_wrap, s_iterator, List.find?,
  sbind, seval, SEnv.get, SEnv.set, SV.field, SV.setField, SOut.bind, SOut.pop, setPlace, bitsMeth, SV.cls?, argsOf, smeth, scall, selfOf, obj, wrapObj, $ls,*])

section
variable {B h} (m : Store σ ω)

theorem run_insert (d : Nat) (s : EnumSet σ) (a : α) (w : ω) :
    srun B h (d + 1) .set .insert [obj s, .elem a] w =
      match insertCode B h a (s, w) with
      | (.ok b, p) => .ok (.bool b) (obj p.1) p.2
      | (.error e, p) => .fault e (obj p.1) p.2 := by
  rcases hd : h.toDiscr a w with ⟨_ | x, w1⟩
  · have hi : insertCode B h a (s, w) = (.error .user, (s, w1)) := by
      unfold insertCode
      rw [M.bind_error (e := .user) (s' := (s, w1)) (by unfold EV.call; dsimp only; rw [hd])]
    rw [hi]
    srun_simp [hd]
  · have hi : insertCode B h a (s, w) = (.ok (B.insert s.inner x).1, (⟨(B.insert s.inner x).2⟩, w1)) := by
      unfold insertCode
      rw [M.bind_ok (a := x) (s' := (s, w1)) (by unfold EV.call; dsimp only; rw [hd])]
      rfl
    rw [hi]
    srun_simp [hd]

theorem run_remove (d : Nat) (s : EnumSet σ) (a : α) (w : ω) :
    srun B h (d + 1) .set .remove [obj s, .elem a] w =
      match removeCode B h a (s, w) with
      | (.ok b, p) => .ok (.bool b) (obj p.1) p.2
      | (.error e, p) => .fault e (obj p.1) p.2 := by
  rcases hd : h.toDiscr a w with ⟨_ | x, w1⟩
  · have hi : removeCode B h a (s, w) = (.error .user, (s, w1)) := by
      unfold removeCode
      rw [M.bind_error (e := .user) (s' := (s, w1)) (by unfold EV.call; dsimp only; rw [hd])]
    rw [hi]
    srun_simp [hd]
  · have hi : removeCode B h a (s, w) = (.ok (B.remove s.inner x).1, (⟨(B.remove s.inner x).2⟩, w1)) := by
      unfold removeCode
      rw [M.bind_ok (a := x) (s' := (s, w1)) (by unfold EV.call; dsimp only; rw [hd])]
      rfl
    rw [hi]
    srun_simp [hd]

theorem run_contains (d : Nat) (s : EnumSet σ) (a : α) (w : ω) :
    srun B h (d + 1) .set .contains [obj s, .elem a] w =
      match containsCode B h s a w with
      | (.ok b, w) => .ok (.bool b) (obj s) w
      | (.error e, w) => .fault e (obj s) w := by
  unfold containsCode
  rcases hd : h.toDiscr a w with ⟨_ | x, w1⟩ <;> srun_simp [hd]

theorem run_next (d : Nat) (it : WrapIter) (w : ω) :
    srun B h (d + 1) .wrap .next [wrapObj it] w =
      match nextCode h (it, w) with
      | (.ok Option.none, p) => .ok .none (wrapObj p.1) p.2
      | (.ok (Option.some a), p) => .ok (.some (.elem a)) (wrapObj p.1) p.2
      | (.error e, p) => .fault e (wrapObj p.1) p.2 := by
  obtain ⟨l⟩ := it
  unfold nextCode
  cases l with
  | nil => srun_simp []
  | cons x l => rcases hd : h.fromDiscr x w with ⟨_ | a, w1⟩ <;> srun_simp [hd]

/-- `for i in iter { self.insert(i); }` -/
theorem run_loop (d : Nat) (I : Iter ω Unit α) : ∀ (n : Nat) (s : EnumSet σ) (iter : SV σ ω α) (w : ω),
    srcLoop I (fun u env w => (seval ⟨B, h, .set, srun B h (d + 1)⟩ ((.i, u) :: env) w (.seq (.meth (.var .self) .insert (.var .i)) .unit)).pop 1) n [(.self, obj s), (.iter, iter)] w =
      match extendCode B h I n (s, w) with
      | (.ok _, p) => .ok .unit [(.self, obj p.1), (.iter, iter)] p.2
      | (.error e, p) => .fault e [(.self, obj p.1), (.iter, iter)] p.2
  | 0, s, iter, w => rfl
  | n + 1, s, iter, w => by
    unfold srcLoop extendCode
    rcases hn : I.next () w with ⟨_ | ⟨_ | a, u⟩, w1⟩
    · have : (EV.call I.next () : M (EnumSet σ × ω) _) (s, w) = (.error .user, (s, w1)) := by unfold EV.call; dsimp only; rw [hn]
      rw [M.bind_error this]
    · have : (EV.call I.next () : M (EnumSet σ × ω) _) (s, w) = (.ok (Option.none, u), (s, w1)) := by unfold EV.call; dsimp only; rw [hn]
      rw [M.bind_ok this]
      rfl
    · have : (EV.call I.next () : M (EnumSet σ × ω) _) (s, w) = (.ok (Option.some a, u), (s, w1)) := by unfold EV.call; dsimp only; rw [hn]
      rw [M.bind_ok this]
      have hr := run_insert (B := B) (h := h) d s a w1
      rcases hi : insertCode B h a (s, w1) with ⟨e | b, s2, w2⟩ <;> rw [hi] at hr
      · dsimp only at hr ⊢
        rw [M.bind_error hi]
        simp only [obj] at hr ⊢
        simp [seval, SEnv.get, SOut.bind, smeth, SV.cls?, argsOf, hr, setPlace, SEnv.set, SOut.pop]
      · dsimp only at hr ⊢
        rw [M.bind_ok hi]
        have ih := run_loop d I n s2 iter w2
        rw [← ih]
        simp only [obj] at hr ⊢
        simp [seval, SEnv.get, SOut.bind, smeth, SV.cls?, argsOf, hr, setPlace, SEnv.set, SOut.pop]

theorem run_extend (d : Nat) (I : Iter ω Unit α) (n : Nat) (s : EnumSet σ) (w : ω) :
    srun B h (d + 2) .set .extend [obj s, .src I n] w =
      match extendCode B h I n (s, w) with
      | (.ok _, p) => .ok .unit (obj p.1) p.2
      | (.error e, p) => .fault e (obj p.1) p.2 := by
  have hl := run_loop (B := B) (h := h) d I n s (.src I n) w
  show (match (srcLoop I (fun u env w => (seval ⟨B, h, .set, srun B h (d + 1)⟩ ((.i, u) :: env) w (.seq (.meth (.var .self) .insert (.var .i)) .unit)).pop 1) n
      [(.self, obj s), (.iter, .src I n)] w) with
    | .ok v env w => COut.ok v (selfOf env) w
    | .fault e env w => .fault e (selfOf env) w
    | .stuck => .stuck) = _
  rw [hl]
  rcases extendCode B h I n (s, w) with ⟨e | b, s2, w2⟩ <;> rfl

theorem run_from_iter (d : Nat) (I : Iter ω Unit α) (n : Nat) (w : ω) :
    ∃ s', srun B h (d + 3) .set .from_iter [.src I n] w =
      match extendCode B h I n (new B, w) with
      | (.ok _, p) => .ok (obj p.1) s' p.2
      | (.error e, p) => .fault e s' p.2 := by
  have hx := run_extend (B := B) (h := h) d I n (new B) w
  have hdef : srun B h (d + 2) .set .default [] w = .ok (obj (new B)) .unit w := rfl
  refine ⟨.unit, ?_⟩
  rcases he : extendCode B h I n (new B, w) with ⟨e | b, s2, w2⟩ <;> rw [he] at hx <;> dsimp only at hx ⊢ <;>
    rw [srun] <;> simp [fnOf, implsOf, s_set, s_default, s_from_iter, s_extend, List.find?, sbind, seval, scall, argsOf, hdef, SOut.bind, SEnv.get, smeth] <;>
    simp only [obj] at hx ⊢ <;> simp [SV.cls?, hx, setPlace, SEnv.set, SOut.pop, selfOf, SEnv.get]

/-- `entries(self.iter())` -/
theorem run_entries (d : Nat) (D : DebugList ω α) (env : SEnv σ ω α) : ∀ (n : Nat) (l : List Nat) (w : ω), l.length < n →
    entriesLoop (fun it w => srun B h (d + 1) .wrap .next [it] w) D env n (wrapObj ⟨l⟩) w =
      match forCode h D.entry n (⟨l⟩, w) with
      | (.ok _, p) => .ok (.builder D) env p.2
      | (.error e, p) => .fault e env p.2
  | 0, l, w, hl => absurd hl (Nat.not_lt_zero _)
  | n + 1, l, w, hl => by
    unfold entriesLoop forCode
    rw [run_next]
    rcases hn : nextCode h (⟨l⟩, w) with ⟨e | _ | a, it, w1⟩
    · rw [M.bind_error hn]
    · rw [M.bind_ok hn]; rfl
    · rw [M.bind_ok hn]
      dsimp only
      rcases hd : D.entry a w1 with ⟨_ | u, w2⟩
      · have hc : (EV.call D.entry a : M (WrapIter × ω) Unit) (it, w1) = (.error .user, (it, w2)) := by unfold EV.call; dsimp only; rw [hd]
        rw [M.bind_error hc]
      · have hc : (EV.call D.entry a : M (WrapIter × ω) Unit) (it, w1) = (.ok u, (it, w2)) := by unfold EV.call; dsimp only; rw [hd]
        rw [M.bind_ok hc]
        refine run_entries d D env n it.inner w2 ?_
        unfold nextCode at hn
        dsimp only at hn
        split at hn
        · cases hn
        · split at hn
          · cases hn; simpa using hl
          · cases hn

theorem run_fmt (d : Nat) (D : DebugList ω α) (s : EnumSet σ) (w : ω) :
    srun B h (d + 3) .set .fmt [obj s, .fmt D] w =
      match fmtCode B h D s w with
      | (.ok b, w) => .ok (.bool b) (obj s) w
      | (.error e, w) => .fault e (obj s) w := by
  have hit : ∀ w, srun B h (d + 2) .set .iter [obj s] w = .ok (wrapObj ⟨B.iter s.inner⟩) (obj s) w := fun _ => rfl
  have he := run_entries (B := B) (h := h) (d + 1) D [(.self, obj s), (.f, .fmt D)] ((B.iter s.inner).length + 1) (B.iter s.inner) (D.start w) (by omega)
  have hm : SV.items (wrapObj ⟨B.iter s.inner⟩ : SV σ ω α) = (B.iter s.inner).length := rfl
  unfold fmtCode
  rw [show (iter B s) = ⟨B.iter s.inner⟩ from rfl]
  dsimp only
  rcases hf : forCode h D.entry ((B.iter s.inner).length + 1) (⟨B.iter s.inner⟩, D.start w) with ⟨e | u, it, w1⟩ <;> rw [hf] at he <;> dsimp only at he ⊢ <;>
    rw [srun] <;> simp [fnOf, implsOf, s_set, s_default, s_from_iter, s_extend, s_debug, List.find?, sbind, seval, SOut.bind, SEnv.get, smeth] <;>
    simp only [obj] at hit he ⊢ <;> simp [SV.cls?, argsOf, hit, setPlace, SEnv.set, hm, he, selfOf, SEnv.get]

theorem onSet_of {f : Sym} {args : List (SV σ ω α)} {r : Nat} {s : EnumSet σ} {v : SV σ ω α} {x : Ret α} {w : ω} (hr : srun B h 4 .set f (obj (m.set r) :: args) m.world = .ok v (obj s) w)
    (hx : v.ret? B.iter = Option.some x) : onSet B h m r f args = Option.some (x, { m with set := put m.set r s, world := w }) := by
  unfold onSet
  rw [hr]
  dsimp only
  rw [hx]
  rfl

theorem onSet_fault {f : Sym} {args : List (SV σ ω α)} {r : Nat} {s : EnumSet σ} {e : Fault} {w : ω} (hr : srun B h 4 .set f (obj (m.set r) :: args) m.world = .fault e (obj s) w) :
    onSet B h m r f args = Option.some (.panic e, { m with set := put m.set r s, world := w }) := by
  unfold onSet
  rw [hr]
  rfl

theorem onSet_read {f : Sym} {args : List (SV σ ω α)} {r : Nat} (v : SV σ ω α) {x : Ret α} (hr : srun B h 4 .set f (obj (m.set r) :: args) m.world = .ok v (obj (m.set r)) m.world)
    (hx : v.ret? B.iter = Option.some x) : onSet B h m r f args = Option.some (x, m) := by
  rw [onSet_of m hr hx, put_self]

/-- The text does what the model does. -/
theorem textExec_eq (c : Call σ ω α) : textExec B h m c = Option.some (exec B h m c) := by
  cases c with
  | new r => rfl
  | fromBitSet r b => rfl
  | getRef r => rw [textExec]; exact onSet_read m (.bits (m.set r).inner) rfl rfl
  | collect r I n =>
    obtain ⟨s', hr⟩ := run_from_iter (B := B) (h := h) 1 I n m.world
    simp only [textExec, assignSet, exec]
    rw [hr]
    rcases extendCode B h I n (new B, m.world) with ⟨e | b, s2, w2⟩ <;> rfl
  | clone r q => rfl
  | insert r a =>
    have hr := run_insert (B := B) (h := h) 3 (m.set r) a m.world
    simp only [textExec, exec]
    rcases hi : insertCode B h a (m.set r, m.world) with ⟨e | b, s2, w2⟩ <;> rw [hi] at hr
    · exact onSet_fault m hr
    · exact onSet_of m hr rfl
  | remove r a =>
    have hr := run_remove (B := B) (h := h) 3 (m.set r) a m.world
    simp only [textExec, exec]
    rcases hi : removeCode B h a (m.set r, m.world) with ⟨e | b, s2, w2⟩ <;> rw [hi] at hr
    · exact onSet_fault m hr
    · exact onSet_of m hr rfl
  | contains r a =>
    have hr := run_contains (B := B) (h := h) 3 (m.set r) a m.world
    simp only [textExec, exec]
    rcases hi : containsCode B h (m.set r) a m.world with ⟨e | b, w2⟩ <;> rw [hi] at hr
    · exact (onSet_fault m hr).trans (by rw [put_self]; rfl)
    · exact (onSet_of m hr rfl).trans (by rw [put_self]; rfl)
  | extend r I n =>
    have hr := run_extend (B := B) (h := h) 2 I n (m.set r) m.world
    simp only [textExec, exec]
    rcases hi : extendCode B h I n (m.set r, m.world) with ⟨e | b, s2, w2⟩ <;> rw [hi] at hr
    · exact onSet_fault m hr
    · exact onSet_of m hr rfl
  | clear r => rfl
  | shrinkToFit r => rfl
  | len r => rw [textExec]; exact onSet_read m (.num (len B (m.set r))) rfl rfl
  | isEmpty r => rw [textExec]; exact onSet_read m (.bool (isEmpty B (m.set r))) rfl rfl
  | unionWith r q => rfl
  | intersectWith r q => rfl
  | differenceWith r q => rfl
  | symmetricDifferenceWith r q => rfl
  | isDisjoint r q => rw [textExec]; exact onSet_read m (.bool (isDisjoint B (m.set r) (m.set q))) rfl rfl
  | isSubset r q => rw [textExec]; exact onSet_read m (.bool (isSubset B (m.set r) (m.set q))) rfl rfl
  | isSuperset r q => rw [textExec]; exact onSet_read m (.bool (isSuperset B (m.set r) (m.set q))) rfl rfl
  | eq r q => rfl
  | cmp r q => rfl
  | hash r => rfl
  | iterate i v => cases v <;> rfl
  | next i =>
    have hr := run_next (B := B) (h := h) 3 (m.iter i) m.world
    simp only [textExec, onIter, exec]
    rw [hr]
    rcases nextCode h (m.iter i, m.world) with ⟨e | _ | a, it, w2⟩ <;> rfl
  | debug r D =>
    have hr := run_fmt (B := B) (h := h) 1 D (m.set r) m.world
    simp only [textExec, exec]
    rcases hi : fmtCode B h D (m.set r) m.world with ⟨e | b, w2⟩ <;> rw [hi] at hr
    · exact (onSet_fault m hr).trans (by rw [put_self]; rfl)
    · exact (onSet_of m hr rfl).trans (by rw [put_self]; rfl)
end

/-- A history: runs the text. -/
def textAll : List (Call σ ω α) → Store σ ω → Option (List (Ret α) × Store σ ω)
  | [], m => Option.some ([], m)
  | c :: cs, m => (textExec B h m c).bind fun p => (textAll cs p.2).map fun q => (p.1 :: q.1, q.2)

theorem textAll_eq : ∀ (cs : List (Call σ ω α)) (m : Store σ ω), textAll B h cs m = Option.some (execAll B h cs m)
  | [], _ => rfl
  | c :: cs, m => by
    unfold textAll
    rw [textExec_eq, Option.bind_some, textAll_eq cs]
    rfl

end SetText
end Source
end EnumVecModel
