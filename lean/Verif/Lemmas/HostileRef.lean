import Verif.Lemmas.HostilePure

set_option linter.unusedSectionVars false

/-! # Implementations of `EnumLike` that panic now and then but answer like another one -/

namespace EnumVecModel
namespace Hostile
open EV

variable {α β γ σ ω τ ι : Type} {c : Inst α} {P : Prop} {π : ω → τ}

/-- `f` panics (if `P`) or answers as `g`. -/
def CRef (P : Prop) (π : ω → τ) {δ : Type} (f : Closure ω δ β) (g : Closure τ δ β) : Prop :=
  ∀ x w, P ∧ (f x w).1 = none ∨ (f x w).1 = (g x (π w)).1 ∧ π (f x w).2 = (g x (π w)).2

/-- The call panics in user code (if `P`), or behaves as `g`. -/
def Ref (P : Prop) (π : ω → τ) (m : M (σ × ω) β) (g : M (σ × τ) β) : Prop :=
  ∀ s w, P ∧ (m (s, w)).1 = .error .user ∨ P ∧ (m (s, w)).1 = .error .badDiscr ∨
    (m (s, w)).1 = (g (s, π w)).1 ∧ (m (s, w)).2.1 = (g (s, π w)).2.1 ∧ π (m (s, w)).2.2 = (g (s, π w)).2.2

theorem Ref.pure (a : β) : Ref (σ := σ) P π (Pure.pure a) (Pure.pure a) := fun _ _ => Or.inr (Or.inr ⟨rfl, rfl, rfl⟩)
theorem Ref.fail (e : Fault) : Ref (σ := σ) (β := β) P π (M.fail e) (M.fail e) := fun _ _ => Or.inr (Or.inr ⟨rfl, rfl, rfl⟩)
theorem Ref.lift (r : Except Fault β) : Ref (σ := σ) P π (M.lift r) (M.lift r) := fun _ _ => Or.inr (Or.inr ⟨rfl, rfl, rfl⟩)
theorem Ref.onFst (m : M σ β) : Ref P π (EV.onFst m) (EV.onFst m) := fun _ _ => Or.inr (Or.inr ⟨rfl, rfl, rfl⟩)
theorem Ref.unwrap (o : Option β) : Ref (σ := σ) P π (M.unwrap o) (M.unwrap o) := by
  cases o with
  | none => exact Ref.fail _
  | some a => exact Ref.pure a

theorem Ref.bind {m : M (σ × ω) β} {m' : M (σ × τ) β} {f : β → M (σ × ω) γ} {f' : β → M (σ × τ) γ} (hm : Ref P π m m') (hf : ∀ b, Ref P π (f b) (f' b)) :
    Ref P π (m >>= f) (m' >>= f') := by
  intro s w
  have := hm s w
  rcases hx : m (s, w) with ⟨e | b, s1, w1⟩
  · rw [hx] at this
    rw [M.bind_error hx]
    rcases this with ⟨hP, h⟩ | ⟨hP, h⟩ | ⟨h1, h2, h3⟩
    · exact Or.inl ⟨hP, by simpa using h⟩
    · exact Or.inr (Or.inl ⟨hP, by simpa using h⟩)
    · rcases hy : m' (s, π w) with ⟨e' | b, s2, w2⟩
      · rw [hy] at h1 h2 h3
        rw [M.bind_error hy]
        exact Or.inr (Or.inr ⟨by simpa using h1, h2, h3⟩)
      · rw [hy] at h1; simp at h1
  · rw [hx] at this
    rw [M.bind_ok hx]
    rcases this with ⟨hP, h⟩ | ⟨hP, h⟩ | ⟨h1, h2, h3⟩
    · simp at h
    · simp at h
    · rcases hy : m' (s, π w) with ⟨e' | b', s2, w2⟩
      · rw [hy] at h1; simp at h1
      · rw [hy] at h1 h2 h3
        rw [M.bind_ok hy]
        simp only [Except.ok.injEq] at h1
        replace h2 : s1 = s2 := h2
        replace h3 : π w1 = w2 := h3
        subst h1 h2 h3
        exact hf b s1 w1

theorem Ref.read {f : σ × ω → M (σ × ω) β} {f' : σ × τ → M (σ × τ) β}
    (h : ∀ s w, (fun r g => P ∧ Except.error Fault.user = (r : Except Fault β × σ × ω).1 ∨ P ∧ Except.error .badDiscr = r.1 ∨
      r.1 = (g : Except Fault β × σ × τ).1 ∧ r.2.1 = g.2.1 ∧ π r.2.2 = g.2.2) (f (s, w) (s, w)) (f' (s, π w) (s, π w))) : Ref P π (M.read >>= f) (M.read >>= f') := by
  intro s w
  rw [M.read_bind, M.read_bind]
  exact (h s w).imp (And.imp id Eq.symm) (Or.imp (And.imp id Eq.symm) id)

/-- Reading the state when the continuations are related for every value read. -/
theorem Ref.readR {f : σ × ω → M (σ × ω) β} {f' : σ × τ → M (σ × τ) β} (h : ∀ s w, Ref P π (f (s, w)) (f' (s, π w))) :
    Ref P π (M.read >>= f) (M.read >>= f') := by
  intro s w
  rw [M.read_bind, M.read_bind]
  exact h s w s w

theorem Ref.loop {body : Nat → β → M (σ × ω) β} {body' : Nat → β → M (σ × τ) β} (h : ∀ i a, Ref P π (body i a) (body' i a)) :
    ∀ n i a, Ref P π (EnumVecModel.loop body n i a) (EnumVecModel.loop body' n i a)
  | 0, _, a => Ref.pure a
  | n + 1, i, a => (h i a).bind fun a => Ref.loop h n (i + 1) a

theorem Ref.call {δ : Type} {f : Closure ω δ β} {g : Closure τ δ β} (h : CRef P π f g) (x : δ) : Ref (σ := σ) P π (EV.call f x) (EV.call g x) := by
  intro s w
  have := h x w
  unfold EV.call
  rcases hx : f x w with ⟨_ | b, w1⟩
  · rw [hx] at this
    rcases this with ⟨hP, h⟩ | ⟨h1, h2⟩
    · exact Or.inl ⟨hP, rfl⟩
    · rcases hy : g x (π w) with ⟨_ | b', w2⟩
      · rw [hy] at h2; exact Or.inr (Or.inr ⟨rfl, rfl, h2⟩)
      · rw [hy] at h1; simp at h1
  · rw [hx] at this
    rcases this with ⟨hP, h⟩ | ⟨h1, h2⟩
    · simp at h
    · rcases hy : g x (π w) with ⟨_ | b', w2⟩
      · rw [hy] at h1; simp at h1
      · rw [hy] at h1 h2
        simp only [Option.some.injEq] at h1
        subst h1
        exact Or.inr (Or.inr ⟨rfl, rfl, h2⟩)

/-- The implementation `h` panics or answers as `h'`. -/
structure IRef (P : Prop) (π : ω → τ) (h : Impl ω α) (h' : Impl τ α) : Prop where
  toDiscr : CRef P π h.toDiscr h'.toDiscr
  fromDiscr : CRef P π h.fromDiscr h'.fromDiscr
  clone : CRef P π h.clone h'.clone

/-- The iterator `I` panics or answers as `I'`. -/
structure TRef (P : Prop) (π : ω → τ) (I : Iter ω ι α) (I' : Iter τ ι α) : Prop where
  hint : CRef P π I.hint I'.hint
  next : CRef P π I.next I'.next

variable {h : Impl ω α} {h' : Impl τ α} (hr : IRef P π h h')
include hr

theorem fromDiscr_ref (d : Nat) : Ref (σ := σ) P π (fromDiscr h d) (fromDiscr h' d) := by
  intro s w
  have := hr.fromDiscr d w
  unfold fromDiscr
  rcases hx : h.fromDiscr d w with ⟨_ | b, w1⟩
  · rw [hx] at this
    rcases this with ⟨hP, h⟩ | ⟨h1, h2⟩
    · exact Or.inr (Or.inl ⟨hP, rfl⟩)
    · rcases hy : h'.fromDiscr d (π w) with ⟨_ | b', w2⟩
      · rw [hy] at h2; exact Or.inr (Or.inr ⟨rfl, rfl, h2⟩)
      · rw [hy] at h1; simp at h1
  · rw [hx] at this
    rcases this with ⟨hP, h⟩ | ⟨h1, h2⟩
    · simp at h
    · rcases hy : h'.fromDiscr d (π w) with ⟨_ | b', w2⟩
      · rw [hy] at h1; simp at h1
      · rw [hy] at h1 h2
        simp only [Option.some.injEq] at h1
        subst h1
        exact Or.inr (Or.inr ⟨rfl, rfl, h2⟩)

theorem toDiscr_ref (x : α) : Ref (σ := σ) P π (toDiscr h x) (toDiscr h' x) := Ref.call hr.toDiscr x

theorem get_ref (i : Nat) : Ref P π (get c h i) (get c h' i) := by
  refine (Ref.onFst _).bind fun r => ?_
  cases r with
  | none => exact Ref.pure none
  | some x => exact (fromDiscr_ref hr x).bind fun a => Ref.pure (some a)

theorem set_ref (i : Nat) (x : α) : Ref P π (set c h i x) (set c h' i x) := (toDiscr_ref hr x).bind fun _ => Ref.onFst _

theorem write_ref {f : σ → σ} {m : M (σ × ω) β} {m' : M (σ × τ) β} (s : σ) (hm : Ref P π m m') (w : ω) :
    (fun r g => P ∧ Except.error Fault.user = (r : Except Fault β × σ × ω).1 ∨ P ∧ Except.error .badDiscr = r.1 ∨
      r.1 = (g : Except Fault β × σ × τ).1 ∧ r.2.1 = g.2.1 ∧ π r.2.2 = g.2.2) ((M.write (f s, w) >>= fun _ => m) (s, w)) ((M.write (f s, π w) >>= fun _ => m') (s, π w)) := by
  rw [M.write_bind, M.write_bind]
  exact (hm (f s) w).imp (And.imp id Eq.symm) (Or.imp (And.imp id Eq.symm) id)

theorem push_ref (x : α) : Ref P π (push c h x) (push c h' x) := by
  refine (Ref.onFst _).bind fun _ => Ref.read fun s w => ?_
  simp only
  by_cases hlt : s.num + 1 < c.build.usizeLim
  · simp only [if_pos hlt]
    exact write_ref hr (f := fun s => { s with num := s.num + 1 }) s (set_ref hr s.num x) w
  · simp only [if_neg hlt]
    exact Or.inr (Or.inr ⟨rfl, rfl, rfl⟩)

theorem pop_ref : Ref P π (pop c h) (pop c h') := by
  refine Ref.readR fun s w => ?_
  simp only
  split
  · exact Ref.pure none
  · refine (get_ref hr _).bind fun x => (Ref.unwrap x).bind fun x => Ref.read fun s w => ?_
    exact write_ref hr (f := fun s => { s with num := s.num - 1 }) s (Ref.pure (some x)) w

theorem swapRemove_ref (i : Nat) : Ref P π (swapRemove c h i) (swapRemove c h' i) :=
  Ref.readR fun _ _ => (Ref.lift _).bind fun _ => (Ref.onFst _).bind fun _ => (pop_ref hr).bind fun x => Ref.unwrap x

theorem insert_ref (i : Nat) (x : α) : Ref P π (insert c h i x) (insert c h' i x) :=
  (push_ref hr x).bind fun _ => Ref.readR fun _ _ => (toDiscr_ref hr x).bind fun _ => Ref.onFst _

theorem remove_ref (i : Nat) : Ref P π (remove c h i) (remove c h' i) :=
  (get_ref hr i).bind fun x => (Ref.unwrap x).bind fun x => (Ref.onFst _).bind fun _ => Ref.pure x

theorem retain_ref {f : Closure ω α Bool} {f' : Closure τ α Bool} (hf : CRef P π f f') : Ref P π (retain c h f) (retain c h' f') := by
  refine Ref.readR fun s w => (Ref.loop (fun i a => ?_) _ _ _).bind fun _ => Ref.onFst _
  refine (get_ref hr i).bind fun x => (Ref.unwrap x).bind fun x => (Ref.call hf x).bind fun keep => ?_
  cases keep with
  | true => exact (set_ref hr a x).bind fun _ => Ref.pure _
  | false => exact Ref.pure _

theorem forEach_ref {f : Closure ω α α} {f' : Closure τ α α} (hf : CRef P π f f') : Ref P π (forEach c h f) (forEach c h' f') :=
  Ref.readR fun _ _ => Ref.loop (fun i _ => (get_ref hr i).bind fun x => (Ref.unwrap x).bind fun x => (Ref.call hf x).bind fun y => set_ref hr i y) _ _ _

theorem extendHinted_ref {I : Iter ω ι α} {I' : Iter τ ι α} (hI : TRef P π I I') : ∀ (n pos : Nat) (t : ι),
    Ref P π (extendHinted c h I n pos t) (extendHinted c h' I' n pos t)
  | 0, _, t => Ref.pure t
  | n + 1, pos, t => (Ref.call hI.next t).bind fun r => (Ref.unwrap r.1).bind fun x => (set_ref hr pos x).bind fun _ => extendHinted_ref hI n (pos + 1) r.2

theorem extendRest_ref {I : Iter ω ι α} {I' : Iter τ ι α} (hI : TRef P π I I') : ∀ (n : Nat) (t : ι),
    Ref P π (extendRest c h I n t) (extendRest c h' I' n t)
  | 0, t => Ref.pure false
  | n + 1, t => (Ref.call hI.next t).bind fun r => by
    cases r.1 with
    | none => exact Ref.pure true
    | some x => exact (push_ref hr x).bind fun _ => extendRest_ref hI n r.2

theorem extend_ref {I : Iter ω ι α} {I' : Iter τ ι α} (hI : TRef P π I I') (n : Nat) (t : ι) : Ref P π (extend c h I n t) (extend c h' I' n t) :=
  (Ref.call hI.hint t).bind fun _ => Ref.readR fun _ _ => (Ref.onFst _).bind fun _ => Ref.readR fun _ _ => (Ref.lift _).bind fun _ =>
    (Ref.onFst _).bind fun _ => (extendHinted_ref hr hI _ _ _).bind fun t => extendRest_ref hr hI n t

omit hr in
theorem CRef.const {δ : Type} (f : δ → Option β) : CRef (ω := ω) (τ := τ) P π (fun x w => (f x, w)) (fun x w => (f x, w)) := fun _ _ => Or.inr ⟨rfl, rfl⟩

theorem repeat_tref (x : α) : TRef P π (repeatTake h x) (repeatTake h' x) := by
  refine ⟨CRef.const some, fun k w => ?_⟩
  cases k with
  | zero => exact Or.inr ⟨rfl, rfl⟩
  | succ k =>
    have := hr.clone x w
    simp only [repeatTake]
    rcases hx : h.clone x w with ⟨_ | b, w1⟩
    · rw [hx] at this
      rcases this with ⟨hP, h⟩ | ⟨h1, h2⟩
      · exact Or.inl ⟨hP, rfl⟩
      · rcases hy : h'.clone x (π w) with ⟨_ | b', w2⟩
        · rw [hy] at h2; exact Or.inr ⟨rfl, h2⟩
        · rw [hy] at h1; simp at h1
    · rw [hx] at this
      rcases this with ⟨hP, h⟩ | ⟨h1, h2⟩
      · simp at h
      · rcases hy : h'.clone x (π w) with ⟨_ | b', w2⟩
        · rw [hy] at h1; simp at h1
        · rw [hy] at h1 h2
          simp only [Option.some.injEq] at h1
          subst h1
          exact Or.inr ⟨rfl, h2⟩

theorem cloned_tref : TRef P π (cloned h) (cloned h') := by
  refine ⟨fun _ _ => Or.inr ⟨rfl, rfl⟩, fun xs w => ?_⟩
  cases xs with
  | nil => exact Or.inr ⟨rfl, rfl⟩
  | cons x xs =>
    have := hr.clone x w
    simp only [cloned]
    rcases hx : h.clone x w with ⟨_ | b, w1⟩
    · rw [hx] at this
      rcases this with ⟨hP, h⟩ | ⟨h1, h2⟩
      · exact Or.inl ⟨hP, rfl⟩
      · rcases hy : h'.clone x (π w) with ⟨_ | b', w2⟩
        · rw [hy] at h2; exact Or.inr ⟨rfl, h2⟩
        · rw [hy] at h1; simp at h1
    · rw [hx] at this
      rcases this with ⟨hP, h⟩ | ⟨h1, h2⟩
      · simp at h
      · rcases hy : h'.clone x (π w) with ⟨_ | b', w2⟩
        · rw [hy] at h1; simp at h1
        · rw [hy] at h1 h2
          simp only [Option.some.injEq] at h1
          subst h1
          exact Or.inr ⟨rfl, h2⟩

omit hr in
theorem moved_tref : TRef P π (moved (α := α)) moved := by
  refine ⟨fun _ _ => Or.inr ⟨rfl, rfl⟩, fun xs w => ?_⟩
  cases xs <;> exact Or.inr ⟨rfl, rfl⟩

omit hr in
theorem ofSrc_tref (it : Src α) : TRef P π (ofSrc it) (ofSrc it) := by
  refine ⟨fun _ _ => Or.inr ⟨rfl, rfl⟩, fun xs w => ?_⟩
  cases xs with
  | cons => exact Or.inr ⟨rfl, rfl⟩
  | nil =>
    simp only [ofSrc]
    split <;> exact Or.inr ⟨rfl, rfl⟩

theorem extendWithValue_ref (x : α) (n : Nat) : Ref P π (extendWithValue c h x n) (extendWithValue c h' x n) := by
  unfold extendWithValue
  split
  · exact (extend_ref hr (repeat_tref hr x) _ _).bind fun _ => Ref.pure ()
  · exact Ref.readR fun s w => (extend_ref hr (repeat_tref hr x) _ _).bind fun _ => (toDiscr_ref hr x).bind fun d => (Ref.onFst _).bind fun _ =>
      (extend_ref hr (repeat_tref hr x) _ _).bind fun _ => Ref.pure ()

theorem resize_ref (n : Nat) (x : α) : Ref P π (resize c h n x) (resize c h' n x) := by
  refine Ref.readR fun s w => ?_
  simp only
  split
  · exact extendWithValue_ref hr x _
  · exact Ref.onFst _

theorem any_ref (x : α) : Ref P π (any c h x) (any c h' x) := by
  refine Ref.readR fun s w => ?_
  simp only
  split
  · exact Ref.pure _
  · exact (toDiscr_ref hr x).bind fun _ => Ref.onFst _

theorem all_ref (x : α) : Ref P π (all c h x) (all c h' x) := by
  refine Ref.readR fun s w => ?_
  simp only
  split
  · exact Ref.pure _
  · exact (toDiscr_ref hr x).bind fun _ => Ref.onFst _

theorem item_ref (x : Nat) : Ref P π (item c h x) (item c h' x) := by
  intro t w
  have := get_ref hr (c := c) x t.v w
  unfold item
  rcases hx : get c h x (t.v, w) with ⟨e | _ | a, q⟩
  · rw [hx] at this
    rcases this with ⟨hP, h⟩ | ⟨hP, h⟩ | ⟨h1, h2, h3⟩
    · exact Or.inl ⟨hP, by simpa using h⟩
    · exact Or.inr (Or.inl ⟨hP, by simpa using h⟩)
    · rcases hy : get c h' x (t.v, π w) with ⟨e' | _ | b, q'⟩
      · rw [hy] at h1 h2 h3
        replace h2 : q.1 = q'.1 := h2
        exact Or.inr (Or.inr ⟨by simpa using h1, by simp only [h2], h3⟩)
      · rw [hy] at h1; simp at h1
      · rw [hy] at h1; simp at h1
  · rw [hx] at this
    rcases this with ⟨hP, h⟩ | ⟨hP, h⟩ | ⟨h1, h2, h3⟩
    · simp at h
    · simp at h
    · rcases hy : get c h' x (t.v, π w) with ⟨e' | _ | b, q'⟩
      · rw [hy] at h1; simp at h1
      · rw [hy] at h1 h2 h3
        replace h2 : q.1 = q'.1 := h2
        exact Or.inr (Or.inr ⟨rfl, by simp only [h2], h3⟩)
      · rw [hy] at h1; simp at h1
  · rw [hx] at this
    rcases this with ⟨hP, h⟩ | ⟨hP, h⟩ | ⟨h1, h2, h3⟩
    · simp at h
    · simp at h
    · rcases hy : get c h' x (t.v, π w) with ⟨e' | _ | b, q'⟩
      · rw [hy] at h1; simp at h1
      · rw [hy] at h1; simp at h1
      · rw [hy] at h1 h2 h3
        replace h2 : q.1 = q'.1 := h2
        exact Or.inr (Or.inr ⟨by simpa using h1, by simp only [h2], h3⟩)

theorem mapItem_ref (o : Option Nat) : Ref P π (mapItem c h o) (mapItem c h' o) := by
  cases o with
  | none => exact Ref.pure none
  | some x => exact (item_ref hr x).bind fun a => Ref.pure (some a)

theorem iterStep_ref (o : IterOp) : Ref P π (iterStep c h o) (iterStep c h' o) := by
  have key : ∀ o : Option Nat, Ref P π (do return .item (← mapItem c h o) : M (It c.W × ω) (IterOut α)) (do return .item (← mapItem c h' o)) :=
    fun o => (mapItem_ref hr o).bind fun x => Ref.pure _
  cases o with
  | sizeHint => exact Ref.readR fun s w => Ref.pure _
  | next => exact fun t w => key (rangeNext c t).1 (rangeNext c t).2 w
  | nextBack => exact fun t w => key (rangeNextBack c t).1 (rangeNextBack c t).2 w
  | nth n => exact fun t w => key (rangeNth c n t).1 (rangeNth c n t).2 w

theorem iterRun_ref : ∀ os : List IterOp, Ref P π (iterRun c h os) (iterRun c h' os)
  | [] => Ref.pure []
  | o :: os => (iterStep_ref hr o).bind fun _ => (iterRun_ref os).bind fun _ => Ref.pure _

theorem collect_ref : ∀ n : Nat, Ref P π (collect c h n) (collect c h' n)
  | 0 => Ref.pure []
  | n + 1 => (iterStep_ref hr .next).bind fun r => by
    split
    · exact (collect_ref n).bind fun xs => Ref.pure _
    · exact Ref.pure _

/-! ### calls -/

/-- The call panicked, or both agree. -/
def Agree (P : Prop) (π : ω → τ) (a : Out α × Mem c ω) (b : Out α × Mem c τ) : Prop :=
  P ∧ panicked a.1 = true ∨ a.1 = b.1 ∧ a.2.reg = b.2.reg ∧ π a.2.world = b.2.world

omit hr in
theorem onReg_ref {m : Mem c ω} {r : Nat} {f : M (EV c.W × ω) β} {g : M (EV c.W × τ) β} (hf : Ref P π f g) (out : β → Out α) :
    Agree P π (onReg m r f out) (onReg (c := c) ⟨m.reg, π m.world⟩ r g out) := by
  have := hf (m.reg r) m.world
  unfold onReg
  simp only
  rcases hx : f (m.reg r, m.world) with ⟨e | b, s, w⟩
  · rw [hx] at this
    rcases this with ⟨hP, h⟩ | ⟨hP, h⟩ | ⟨h1, h2, h3⟩
    · simp only [Except.error.injEq] at h; subst h; exact Or.inl ⟨hP, rfl⟩
    · simp only [Except.error.injEq] at h; subst h; exact Or.inl ⟨hP, rfl⟩
    · rcases hy : g (m.reg r, π m.world) with ⟨e' | b, s', w'⟩
      · rw [hy] at h1 h2 h3
        simp only [Except.error.injEq] at h1
        replace h2 : s = s' := h2
        subst h1 h2
        exact Or.inr ⟨rfl, rfl, h3⟩
      · rw [hy] at h1; simp at h1
  · rw [hx] at this
    rcases this with ⟨hP, h⟩ | ⟨hP, h⟩ | ⟨h1, h2, h3⟩
    · simp at h
    · simp at h
    · rcases hy : g (m.reg r, π m.world) with ⟨e' | b', s', w'⟩
      · rw [hy] at h1; simp at h1
      · rw [hy] at h1 h2 h3
        simp only [Except.ok.injEq] at h1
        replace h2 : s = s' := h2
        subst h1 h2
        exact Or.inr ⟨rfl, rfl, h3⟩

omit hr in
theorem assign_ref {m : Mem c ω} {r : Nat} {f : M (EV c.W × ω) β} {g : M (EV c.W × τ) β} (hf : Ref P π f g) :
    Agree P π (assign m r (build c f m.world)) (assign (c := c) ⟨m.reg, π m.world⟩ r (build c g (π m.world))) := by
  have := hf (new c) m.world
  unfold build
  rcases hx : f (new c, m.world) with ⟨e | b, s, w⟩
  · rw [hx] at this
    rcases this with ⟨hP, h⟩ | ⟨hP, h⟩ | ⟨h1, h2, h3⟩
    · simp only [Except.error.injEq] at h; subst h; exact Or.inl ⟨hP, rfl⟩
    · simp only [Except.error.injEq] at h; subst h; exact Or.inl ⟨hP, rfl⟩
    · rcases hy : g (new c, π m.world) with ⟨e' | b, s', w'⟩
      · rw [hy] at h1 h2 h3
        simp only [Except.error.injEq] at h1
        subst h1
        exact Or.inr ⟨rfl, rfl, h3⟩
      · rw [hy] at h1; simp at h1
  · rw [hx] at this
    rcases this with ⟨hP, h⟩ | ⟨hP, h⟩ | ⟨h1, h2, h3⟩
    · simp at h
    · simp at h
    · rcases hy : g (new c, π m.world) with ⟨e' | b', s', w'⟩
      · rw [hy] at h1; simp at h1
      · rw [hy] at h1 h2 h3
        replace h2 : s = s' := h2
        subst h2
        exact Or.inr ⟨rfl, rfl, h3⟩

omit hr in
theorem ask_ref {m : Mem c ω} {t : σ} {f : M (σ × ω) β} {g : M (σ × τ) β} (hf : Ref P π f g) (out : β → Out α) :
    Agree P π (ask m ((f (t, m.world)).1, (f (t, m.world)).2.2) out)
      (ask (c := c) ⟨m.reg, π m.world⟩ ((g (t, π m.world)).1, (g (t, π m.world)).2.2) out) := by
  have := hf t m.world
  rcases hx : f (t, m.world) with ⟨e | b, s, w⟩
  · rw [hx] at this
    rcases this with ⟨hP, h⟩ | ⟨hP, h⟩ | ⟨h1, h2, h3⟩
    · simp only [Except.error.injEq] at h; subst h; exact Or.inl ⟨hP, rfl⟩
    · simp only [Except.error.injEq] at h; subst h; exact Or.inl ⟨hP, rfl⟩
    · rcases hy : g (t, π m.world) with ⟨e' | b, s', w'⟩
      · rw [hy] at h1 h2 h3
        simp only [Except.error.injEq] at h1
        subst h1
        exact Or.inr ⟨rfl, rfl, h3⟩
      · rw [hy] at h1; simp at h1
  · rw [hx] at this
    rcases this with ⟨hP, h⟩ | ⟨hP, h⟩ | ⟨h1, h2, h3⟩
    · simp at h
    · simp at h
    · rcases hy : g (t, π m.world) with ⟨e' | b', s', w'⟩
      · rw [hy] at h1; simp at h1
      · rw [hy] at h1 h2 h3
        simp only [Except.ok.injEq] at h1
        subst h1
        exact Or.inr ⟨rfl, rfl, h3⟩

end Hostile

namespace Hostile
open EV
variable {α τ ρ : Type} {c : Inst α}

theorem Impl.Honest.iref {h : Impl (τ × ρ) α} (hh : h.Honest c.E) : IRef True Prod.fst h (Impl.of (ω := τ) c.E) where
  toDiscr x w := by
    rcases hx : h.toDiscr x w with ⟨_ | d, w'⟩
    · exact Or.inl ⟨trivial, rfl⟩
    · obtain ⟨h1, h2⟩ := hh.toDiscr _ _ _ _ hx
      exact Or.inr ⟨by rw [h1]; rfl, h2⟩
  fromDiscr x w := by
    rcases hx : h.fromDiscr x w with ⟨_ | d, w'⟩
    · exact Or.inl ⟨trivial, rfl⟩
    · obtain ⟨h1, h2⟩ := hh.fromDiscr _ _ _ _ hx
      exact Or.inr ⟨h1.symm, h2⟩
  clone x w := by
    rcases hx : h.clone x w with ⟨_ | d, w'⟩
    · exact Or.inl ⟨trivial, rfl⟩
    · obtain ⟨h1, h2⟩ := hh.clone _ _ _ _ hx
      exact Or.inr ⟨by rw [h1]; rfl, h2⟩

theorem liftFst_ref {β : Type} (f : Closure τ α β) : CRef P Prod.fst (liftFst (ρ := ρ) f) f := fun _ _ => Or.inr ⟨rfl, rfl⟩

/-- One call of an implementation that (if `P`) panics now and then, and otherwise answers like `h'`. -/
theorem step_lift {P : Prop} {h : Impl (τ × ρ) α} {h' : Impl τ α} (hr : IRef P Prod.fst h h') (m : Mem c (τ × ρ)) (o : Op τ α) :
    Agree P Prod.fst (step c h m (.op (liftOp o))) (step c h' ⟨m.reg, m.world.1⟩ (.op o)) := by
  have same : ∀ {a : Out α × Mem c (τ × ρ)} {b : Out α × Mem c τ}, a.1 = b.1 → a.2.reg = b.2.reg → a.2.world.1 = b.2.world → Agree P Prod.fst a b :=
    fun h1 h2 h3 => Or.inr ⟨h1, h2, h3⟩
  cases o with
  | fromElem r x n => exact assign_ref (extendWithValue_ref hr x n)
  | fromVec r xs => exact assign_ref (extend_ref hr moved_tref _ _)
  | fromSlice r xs => exact assign_ref (extend_ref hr (cloned_tref hr) _ _)
  | fromIter r it => exact assign_ref (extend_ref hr (ofSrc_tref it) _ _)
  | get r i => exact onReg_ref (get_ref hr i) _
  | set r i x => exact onReg_ref (set_ref hr i x) _
  | push r x => exact onReg_ref (push_ref hr x) _
  | pop r => exact onReg_ref (pop_ref hr) _
  | insert r i x => exact onReg_ref (insert_ref hr i x) _
  | remove r i => exact onReg_ref (remove_ref hr i) _
  | swapRemove r i => exact onReg_ref (swapRemove_ref hr i) _
  | resize r n x => exact onReg_ref (resize_ref hr n x) _
  | extend r it => exact onReg_ref (extend_ref hr (ofSrc_tref it) _ _) _
  | retain r f => exact onReg_ref (retain_ref hr (liftFst_ref f)) _
  | forEach r f => exact onReg_ref (forEach_ref hr (liftFst_ref f)) _
  | any r x => exact onReg_ref (any_ref hr x) _
  | all r x => exact onReg_ref (all_ref hr x) _
  | toVec r => exact ask_ref (collect_ref hr _) _
  | iterate r os => exact ask_ref (iterRun_ref hr os) _
  | new r => exact same rfl rfl rfl
  | withCapacity r n =>
    simp only [liftOp, step, EnumVecModel.step, Mem.assign]
    cases EV.withCapacity c n <;> exact same rfl rfl rfl
  | clone r q =>
    simp only [liftOp, step, EnumVecModel.step, Mem.assign]
    cases EV.clone c (m.reg q) <;> exact same rfl rfl rfl
  | len r => exact same rfl rfl rfl
  | isEmpty r => exact same rfl rfl rfl
  | swap r i j =>
    simp only [liftOp, step, EnumVecModel.step, Mem.call]
    rcases EV.swap c i j (m.reg r) with ⟨_ | _, s⟩ <;> exact same rfl rfl rfl
  | truncate r n =>
    simp only [liftOp, step, EnumVecModel.step, Mem.call]
    rcases EV.truncate c n (m.reg r) with ⟨_ | _, s⟩ <;> exact same rfl rfl rfl
  | clear r =>
    simp only [liftOp, step, EnumVecModel.step, Mem.call]
    rcases EV.clear c (m.reg r) with ⟨_ | _, s⟩ <;> exact same rfl rfl rfl
  | reserve r n =>
    simp only [liftOp, step, EnumVecModel.step, Mem.call]
    rcases EV.reserve c n (m.reg r) with ⟨_ | _, s⟩ <;> exact same rfl rfl rfl
  | shrinkToFit r =>
    simp only [liftOp, step, EnumVecModel.step, Mem.call]
    rcases EV.shrinkToFit c (m.reg r) with ⟨_ | _, s⟩ <;> exact same rfl rfl rfl
  | append r q =>
    simp only [liftOp, step, EnumVecModel.step]
    rcases EV.append c (m.reg r, m.reg q) with ⟨_ | _, s⟩ <;> exact same rfl rfl rfl
  | splitOff r a d =>
    simp only [liftOp, step, EnumVecModel.step]
    rcases EV.splitOff c a (m.reg r) with ⟨_ | _, s⟩ <;> exact same rfl rfl rfl
  | eq r q =>
    simp only [liftOp, step, EnumVecModel.step, Mem.ask]
    cases EV.eq c (m.reg r) (m.reg q) <;> exact same rfl rfl rfl
  | hash r =>
    simp only [liftOp, step, EnumVecModel.step, Mem.ask]
    cases EV.hash c (m.reg r) <;> exact same rfl rfl rfl

/-- One call of an honest implementation. -/
theorem step_ref {h : Impl (τ × ρ) α} (hh : h.Honest c.E) (m : Mem c (τ × ρ)) (o : Op τ α) :
    Agree True Prod.fst (step c h m (.op (liftOp o))) (EnumVecModel.step c ⟨m.reg, m.world.1⟩ o) := by
  rw [← step_of]
  exact step_lift hh.iref m o

end Hostile
end EnumVecModel
