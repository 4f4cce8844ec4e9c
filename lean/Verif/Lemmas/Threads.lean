import Verif.ThreadsSpec
import Verif.Lemmas.Frame

/-! # Calls depend only on the variables they use -/

namespace EnumVecModel
open EV

variable {α σ : Type} {c : Inst α}

theorem upd_twice {β : Type} (f : Nat → β) (t : Nat) (x y : β) : upd (upd f t x) t y = upd f t y := by
  funext k; unfold upd; split <;> rfl

theorem upd_own {β : Type} (f : Nat → β) (t : Nat) : upd f t (f t) = f := by
  funext k; unfold upd; split <;> simp_all

/-- A program over the state of thread `t`, run on the states of all threads. -/
def OnPart {S β : Type} (t : Nat) (g : M (S × σ) β) (g' : M (S × (Nat → σ)) β) : Prop :=
  ∀ s w, g' (s, w) = ((g (s, w t)).1, ((g (s, w t)).2.1, upd w t (g (s, w t)).2.2))

variable {S β γ : Type} {t : Nat}

theorem OnPart.pure (b : β) : OnPart (S := S) (σ := σ) t (Pure.pure b) (Pure.pure b) := fun s w => by
  show (Except.ok b, (s, w)) = (Except.ok b, (s, upd w t (w t)))
  rw [upd_own]

theorem OnPart.onFst (g : M S β) : OnPart (σ := σ) t (EV.onFst g) (EV.onFst g) := fun s w => by
  show ((g s).1, ((g s).2, w)) = ((g s).1, ((g s).2, upd w t (w t)))
  rw [upd_own]

theorem OnPart.call (f : Closure σ α β) (x : α) : OnPart (S := S) t (EV.call f x) (EV.call (ownClosure t f) x) := fun s w => by
  simp only [EV.call, ownClosure]
  rcases f x (w t) with ⟨_ | b, w'⟩ <;> rfl

theorem OnPart.bind {g : M (S × σ) β} {g' : M (S × (Nat → σ)) β} {k : β → M (S × σ) γ} {k' : β → M (S × (Nat → σ)) γ}
    (h : OnPart t g g') (hk : ∀ b, OnPart t (k b) (k' b)) : OnPart t (g >>= k) (g' >>= k') := fun s w => by
  rw [M.bind_apply, M.bind_apply, h s w]
  rcases g (s, w t) with ⟨e | b, s', w'⟩
  · rfl
  · simp only
    rw [hk b s' (upd w t w'), upd_same, upd_twice]

theorem OnPart.read {k : S → M (S × σ) γ} {k' : S → M (S × (Nat → σ)) γ} (h : ∀ s, OnPart t (k s) (k' s)) :
    OnPart t (M.read >>= fun p : S × σ => k p.1) (M.read >>= fun p : S × (Nat → σ) => k' p.1) := fun s w => by
  rw [M.read_bind, M.read_bind]; exact h s s w

theorem OnPart.loop {body : Nat → β → M (S × σ) β} {body' : Nat → β → M (S × (Nat → σ)) β} (h : ∀ i b, OnPart t (body i b) (body' i b)) :
    ∀ (n i : Nat) (b : β), OnPart t (EnumVecModel.loop body n i b) (EnumVecModel.loop body' n i b)
  | 0, _, b => OnPart.pure b
  | n + 1, i, b => OnPart.bind (h i b) fun b' => OnPart.loop h n (i + 1) b'

theorem OnPart.unwrap (x : Option β) : OnPart (S := S) (σ := σ) t (M.unwrap x) (M.unwrap x) := fun s w => by
  cases x with
  | none => show (_, (s, w)) = (_, (s, upd w t (w t))); rw [upd_own]; rfl
  | some x => show (_, (s, w)) = (_, (s, upd w t (w t))); rw [upd_own]; rfl

theorem retain_part (f : Closure σ α Bool) : OnPart t (EV.retain c f) (EV.retain c (ownClosure t f)) := by
  refine OnPart.read (k := fun s => EnumVecModel.loop (retainStep c f) (len c s) 0 0 >>= fun i => EV.onFst (setLen c i))
    (k' := fun s => EnumVecModel.loop (retainStep c (ownClosure t f)) (len c s) 0 0 >>= fun i => EV.onFst (setLen c i)) fun s => ?_
  refine OnPart.bind (OnPart.loop (fun i b => ?_) _ _ _) fun i => OnPart.onFst _
  refine OnPart.bind (OnPart.onFst _) fun x => OnPart.bind (OnPart.unwrap x) fun x => OnPart.bind (OnPart.call f x) fun k => ?_
  split
  · exact OnPart.bind (OnPart.onFst _) fun _ => OnPart.pure _
  · exact OnPart.pure _

theorem forEach_part (f : Closure σ α α) : OnPart t (EV.forEach c f) (EV.forEach c (ownClosure t f)) := by
  refine OnPart.read (k := fun s => EnumVecModel.loop (forEachStep c f) (len c s) 0 ())
    (k' := fun s => EnumVecModel.loop (forEachStep c (ownClosure t f)) (len c s) 0 ()) fun s => ?_
  refine OnPart.loop (fun i b => ?_) _ _ _
  exact OnPart.bind (OnPart.onFst _) fun x => OnPart.bind (OnPart.unwrap x) fun x => OnPart.bind (OnPart.call f x) fun x => OnPart.onFst _

theorem own_writes (t : Nat) (op : Op σ α) : (op.own t).writes = op.writes := by cases op <;> rfl

/-- A step of the thread alone and among other threads. -/
structure SameStep (c : Inst α) (t : Nat) (op : Op σ α) (m : Mem c (Nat → σ)) (m' : Mem c σ) : Prop where
  out : (step c m (op.own t)).1 = (step c m' op).1
  reg : ∀ r ∈ op.writes, (step c m (op.own t)).2.reg r = (step c m' op).2.reg r
  world : (step c m (op.own t)).2.world = upd m.world t (step c m' op).2.world

theorem call_local {β : Type} {m : Mem c (Nat → σ)} {m' : Mem c σ} (hw : m.world t = m'.world) {r : Nat} (hr : m.reg r = m'.reg r)
    (f : M (EV c.W) β) (out : β → Out α) : (m.call r f out).1 = (m'.call r f out).1 ∧
      (∀ q ∈ [r], (m.call r f out).2.reg q = (m'.call r f out).2.reg q) ∧ (m.call r f out).2.world = upd m.world t (m'.call r f out).2.world := by
  unfold Mem.call
  rw [hr]
  rcases f (m'.reg r) with ⟨e | b, s⟩ <;> refine ⟨rfl, fun q hq => ?_, ?_⟩
  · rw [List.mem_singleton.mp hq]; simp [upd]
  · simp only [← hw, upd_own]
  · rw [List.mem_singleton.mp hq]; simp [upd]
  · simp only [← hw, upd_own]

theorem callW_local {m : Mem c (Nat → σ)} {m' : Mem c σ} (hw : m.world t = m'.world) {r : Nat} (hr : m.reg r = m'.reg r)
    {f : M (EV c.W × σ) Unit} {f' : M (EV c.W × (Nat → σ)) Unit} (h : OnPart t f f') : (m.callW r f').1 = (m'.callW r f).1 ∧
      (∀ q ∈ [r], (m.callW r f').2.reg q = (m'.callW r f).2.reg q) ∧ (m.callW r f').2.world = upd m.world t (m'.callW r f).2.world := by
  unfold Mem.callW
  rw [h, hr, hw]
  rcases f (m'.reg r, m'.world) with ⟨e | b, s, w⟩ <;> refine ⟨rfl, fun q hq => ?_, rfl⟩
  · rw [List.mem_singleton.mp hq]; simp [upd]
  · rw [List.mem_singleton.mp hq]; simp [upd]

theorem assign_local {m : Mem c (Nat → σ)} {m' : Mem c σ} (hw : m.world t = m'.world) {r : Nat} (hr : m.reg r = m'.reg r)
    (v : Except Fault (EV c.W)) : (m.assign r v).1 = (m'.assign r v).1 ∧
      (∀ q ∈ [r], (m.assign r v).2.reg q = (m'.assign r v).2.reg q) ∧ (m.assign r v).2.world = upd m.world t (m'.assign r v).2.world := by
  unfold Mem.assign
  rcases v with e | s <;> refine ⟨rfl, fun q hq => ?_, ?_⟩
  · rw [List.mem_singleton.mp hq]; exact hr
  · simp only [← hw, upd_own]
  · rw [List.mem_singleton.mp hq]; simp [upd]
  · simp only [← hw, upd_own]

theorem ask_local {β : Type} {m : Mem c (Nat → σ)} {m' : Mem c σ} (hw : m.world t = m'.world) (v : Except Fault β) (out : β → Out α) :
    (m.ask v out).1 = (m'.ask v out).1 ∧
      (∀ q ∈ ([] : List Nat), (m.ask v out).2.reg q = (m'.ask v out).2.reg q) ∧ (m.ask v out).2.world = upd m.world t (m'.ask v out).2.world := by
  unfold Mem.ask
  rcases v with e | s <;> exact ⟨rfl, nofun, by simp only [← hw, upd_own]⟩

theorem step_local (op : Op σ α) {m : Mem c (Nat → σ)} {m' : Mem c σ} (hw : m.world t = m'.world)
    (hu : ∀ r ∈ op.uses, m.reg r = m'.reg r) (hr : ∀ r ∈ op.writes, m.reg r = m'.reg r) : SameStep c t op m m' := by
  have hone : ∀ {r : Nat}, r ∈ op.uses → m.reg r = m'.reg r := fun h => hu _ h
  suffices h : (step c m (op.own t)).1 = (step c m' op).1 ∧
      (∀ r ∈ op.writes, (step c m (op.own t)).2.reg r = (step c m' op).2.reg r) ∧
      (step c m (op.own t)).2.world = upd m.world t (step c m' op).2.world from ⟨h.1, h.2.1, h.2.2⟩
  cases op with
  | append r o =>
    have h1 := hu r (by simp [Op.uses])
    have h2 := hu o (by simp [Op.uses])
    simp only [Op.own, step, h1, h2]
    rcases EV.append c (m'.reg r, m'.reg o) with ⟨e | b, p⟩ <;> refine ⟨rfl, fun q hq => ?_, by simp only [← hw, upd_own]⟩ <;>
      (simp only [Op.writes, List.mem_cons, List.not_mem_nil, or_false] at hq; rcases hq with rfl | rfl <;> simp [upd])
  | splitOff r i d =>
    have h1 := hu r (by simp [Op.uses])
    have h2 := hr d (by simp [Op.writes])
    simp only [Op.own, step, h1]
    rcases EV.splitOff c i (m'.reg r) with ⟨e | b, p⟩ <;> refine ⟨rfl, fun q hq => ?_, by simp only [← hw, upd_own]⟩ <;>
      (simp only [Op.writes, List.mem_cons, List.not_mem_nil, or_false] at hq; rcases hq with rfl | rfl <;> simp [upd, h2])
  | retain r f => exact callW_local hw (hu r (by simp [Op.uses])) (retain_part f)
  | forEach r f => exact callW_local hw (hu r (by simp [Op.uses])) (forEach_part f)
  | new r => exact assign_local hw (hr r (by simp [Op.writes])) _
  | withCapacity r n => exact assign_local hw (hr r (by simp [Op.writes])) _
  | fromElem r x n => exact assign_local hw (hr r (by simp [Op.writes])) _
  | fromVec r xs => exact assign_local hw (hr r (by simp [Op.writes])) _
  | fromSlice r xs => exact assign_local hw (hr r (by simp [Op.writes])) _
  | fromIter r it => exact assign_local hw (hr r (by simp [Op.writes])) _
  | clone r src =>
    simp only [Op.own, step, hu src (by simp [Op.uses])]
    exact assign_local hw (hr r (by simp [Op.writes])) _
  | eq r o =>
    simp only [Op.own, step, hu r (by simp [Op.uses]), hu o (by simp [Op.uses])]
    exact ask_local hw _ _
  | toVec r => simp only [Op.own, step, hu r (by simp [Op.uses])]; exact ask_local hw _ _
  | iterate r cs => simp only [Op.own, step, hu r (by simp [Op.uses])]; exact ask_local hw _ _
  | hash r => simp only [Op.own, step, hu r (by simp [Op.uses])]; exact ask_local hw _ _
  | len r => simp only [Op.own, step, hu r (by simp [Op.uses])]; exact ⟨trivial, nofun, by simp only [← hw, upd_own]⟩
  | isEmpty r => simp only [Op.own, step, hu r (by simp [Op.uses])]; exact ⟨trivial, nofun, by simp only [← hw, upd_own]⟩
  | get r i =>
    have key := call_local (c := c) hw (hu r (by simp [Op.uses])) (EV.get c i) (Out.item)
    exact ⟨key.1, nofun, key.2.2⟩
  | any r x =>
    have key := call_local (c := c) hw (hu r (by simp [Op.uses])) (EV.any c x) (Out.bool)
    exact ⟨key.1, nofun, key.2.2⟩
  | all r x =>
    have key := call_local (c := c) hw (hu r (by simp [Op.uses])) (EV.all c x) (Out.bool)
    exact ⟨key.1, nofun, key.2.2⟩
  | set r i x => exact call_local hw (hu r (by simp [Op.uses])) _ _
  | push r x => exact call_local hw (hu r (by simp [Op.uses])) _ _
  | pop r => exact call_local hw (hu r (by simp [Op.uses])) _ _
  | insert r i x => exact call_local hw (hu r (by simp [Op.uses])) _ _
  | remove r i => exact call_local hw (hu r (by simp [Op.uses])) _ _
  | swap r i j => exact call_local hw (hu r (by simp [Op.uses])) _ _
  | swapRemove r i => exact call_local hw (hu r (by simp [Op.uses])) _ _
  | truncate r n => exact call_local hw (hu r (by simp [Op.uses])) _ _
  | clear r => exact call_local hw (hu r (by simp [Op.uses])) _ _
  | resize r n x => exact call_local hw (hu r (by simp [Op.uses])) _ _
  | reserve r n => exact call_local hw (hu r (by simp [Op.uses])) _ _
  | shrinkToFit r => exact call_local hw (hu r (by simp [Op.uses])) _ _
  | extend r it => exact call_local hw (hu r (by simp [Op.uses])) _ _

end EnumVecModel
