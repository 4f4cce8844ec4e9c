import Verif.Stateful
import Verif.Lemmas.Caps
import Verif.Lemmas.Inline

/-! # A call with a stateful allocator is a call with a function of the request -/

namespace EnumVecModel
open EV

variable {α β γ σ τ ω : Type}

/-- A request and the answer to it. -/
structure Req where
  cap : Nat
  needed : Nat
  ans : Option Nat

/-- The allocator gives these answers. -/
def AnswersAs (a : Alloc) (tr : List Req) : Prop := ∀ q ∈ tr, a.grow q.cap q.needed = q.ans

/-- What is needed of the stateful allocator: growing grows. -/
def SAlloc.Grows (S : SAlloc ω) : Prop := ∀ cap needed t k, (S.grow cap needed t).1 = some k → needed ≤ k

/-- The conversation of a call with the allocator: from state `t`, these requests get these answers and lead to state `t'`. -/
def Talk (S : SAlloc ω) : ω → List Req → ω → Prop
  | t, [], t' => t' = t
  | t, q :: tr, t' => (S.grow q.cap q.needed t).1 = q.ans ∧ Talk S (S.grow q.cap q.needed t).2 tr t'

theorem Talk.append {S : SAlloc ω} : ∀ {tr : List Req} {t t1 : ω} {tr' : List Req} {t2 : ω}, Talk S t tr t1 → Talk S t1 tr' t2 → Talk S t (tr ++ tr') t2
  | [], _, _, _, _, h, h' => h ▸ h'
  | _ :: _, _, _, _, _, h, h' => ⟨h.1, h.2.append h'⟩

theorem Talk.asked {S : SAlloc ω} : ∀ {tr : List Req} {t t1 : ω}, Talk S t tr t1 → ∀ q ∈ tr, ∃ u, (S.grow q.cap q.needed u).1 = q.ans
  | [], _, _, _, _, h' => by cases h'
  | _ :: _, t, _, h, q, h' => by
    rcases List.mem_cons.1 h' with rfl | h'
    · exact ⟨t, h.1⟩
    · exact h.2.asked q h'

/-- The stateful computation `m'` makes requests `tr`, for increasing capacities, and does what `m` does with every allocator that
answers so. -/
def SimAt (g : σ → Nat) (S : SAlloc ω) (m' : M (σ × ω) β) (m : Alloc → M σ β) (s : σ) (t : ω) : Prop :=
  ∃ tr : List Req,
    (∀ a, AnswersAs a tr → m a s = ((m' (s, t)).1, (m' (s, t)).2.1)) ∧
    tr.Pairwise (fun q q' => q.cap < q'.cap) ∧
    (∀ q ∈ tr, g s ≤ q.cap) ∧ Talk S t tr (m' (s, t)).2.2 ∧
    (∀ b, (m' (s, t)).1 = .ok b → g s ≤ g (m' (s, t)).2.1 ∧ ∀ q ∈ tr, q.cap < g (m' (s, t)).2.1)

theorem AnswersAs.left {a : Alloc} {l l' : List Req} (h : AnswersAs a (l ++ l')) : AnswersAs a l := fun q hq => h q (by simp [hq])
theorem AnswersAs.right {a : Alloc} {l l' : List Req} (h : AnswersAs a (l ++ l')) : AnswersAs a l' := fun q hq => h q (by simp [hq])

variable {g : σ → Nat} {S : SAlloc ω}

theorem SimAt.bind {m' : M (σ × ω) β} {m : Alloc → M σ β} {f' : β → M (σ × ω) γ} {f : Alloc → β → M σ γ} {s : σ} {t : ω}
    (h : SimAt g S m' m s t)
    (hf : ∀ b s1 t1, m' (s, t) = (.ok b, (s1, t1)) → SimAt g S (f' b) (fun a => f a b) s1 t1) :
    SimAt g S (m' >>= f') (fun a => m a >>= f a) s t := by
  obtain ⟨tr, h1, h2, h3, ht, h4⟩ := h
  rcases hm : m' (s, t) with ⟨e | b, s1, t1⟩
  · rw [hm] at h1 ht
    refine ⟨tr, fun a ha => ?_, h2, h3, ?_, fun b hb => ?_⟩
    · show (m a >>= f a) s = _
      rw [M.bind_error (h1 a ha), M.bind_error hm]
    · rw [M.bind_error hm]; exact ht
    · rw [M.bind_error hm] at hb; cases hb
  · obtain ⟨tr2, k1, k2, k3, kt, k4⟩ := hf b s1 t1 hm
    obtain ⟨h5, h6⟩ := h4 b (by rw [hm])
    rw [hm] at h1 h5 h6 ht
    have h5 : g s ≤ g s1 := h5
    have h6 : ∀ q ∈ tr, q.cap < g s1 := h6
    refine ⟨tr ++ tr2, fun a ha => ?_, ?_, ?_, ?_, ?_⟩
    · show (m a >>= f a) s = _
      rw [M.bind_ok (h1 a ha.left), M.bind_ok hm]
      exact k1 a ha.right
    · refine List.pairwise_append.2 ⟨h2, k2, fun q hq q' hq' => ?_⟩
      exact Nat.lt_of_lt_of_le (h6 q hq) (k3 q' hq')
    · intro q hq
      rcases List.mem_append.1 hq with hq | hq
      · exact h3 q hq
      · exact Nat.le_trans h5 (k3 q hq)
    · rw [M.bind_ok hm]; exact Talk.append ht kt
    · intro b' hb'
      rw [M.bind_ok hm] at hb' ⊢
      obtain ⟨k5, k6⟩ := k4 b' hb'
      refine ⟨Nat.le_trans h5 k5, fun q hq => ?_⟩
      rcases List.mem_append.1 hq with hq | hq
      · exact Nat.lt_of_lt_of_le (h6 q hq) k5
      · exact k6 q hq

/-- Reading the state. -/
theorem SimAt.read {f' : σ × ω → M (σ × ω) γ} {f : Alloc → σ → M σ γ} {s : σ} {t : ω} (h : SimAt g S (f' (s, t)) (fun a => f a s) s t) :
    SimAt g S (M.read >>= f') (fun a => M.read >>= f a) s t := h

/-- A computation that makes no request. -/
theorem SimAt.still {m' : M (σ × ω) β} {m : Alloc → M σ β} {s : σ} {t : ω} (h : ∀ a, m a s = ((m' (s, t)).1, (m' (s, t)).2.1))
    (hg : g s ≤ g (m' (s, t)).2.1) (ht : (m' (s, t)).2.2 = t := by rfl) : SimAt g S m' m s t :=
  ⟨[], fun a _ => h a, List.Pairwise.nil, by simp, ht, fun _ _ => ⟨hg, by simp⟩⟩

theorem SimAt.onFst {m0 : M σ β} {m : Alloc → M σ β} {s : σ} {t : ω} (h : ∀ a, m a = m0) (hg : CapsOf g (· ≤ ·) m0) :
    SimAt g S (EV.onFst m0) m s t := .still (fun a => by rw [h a]; rfl) (hg s)

theorem SimAt.congr {m' : M (σ × ω) β} {m n : Alloc → M σ β} {s : σ} {t : ω} (h : SimAt g S m' m s t) (e : ∀ a, n a s = m a s) :
    SimAt g S m' n s t := by
  obtain ⟨tr, h1, h2, h3, ht, h4⟩ := h
  exact ⟨tr, fun a ha => (e a).trans (h1 a ha), h2, h3, ht, h4⟩

theorem SimAt.lift {r : Except Fault β} {s : σ} {t : ω} : SimAt g S (M.lift r) (fun _ => M.lift r) s t :=
  .still (fun _ => rfl) (Nat.le_refl _)
theorem SimAt.liftBind {r : Except Fault β} {f' : β → M (σ × ω) γ} {f : Alloc → β → M σ γ} {s : σ} {t : ω}
    (h : ∀ b, r = .ok b → SimAt g S (f' b) (fun a => f a b) s t) : SimAt g S (M.lift r >>= f') (fun a => M.lift r >>= f a) s t := by
  refine SimAt.bind SimAt.lift fun b s1 t1 h1 => ?_
  rw [M.lift_apply] at h1
  cases h1
  exact h b rfl
theorem SimAt.pure {b : β} {s : σ} {t : ω} : SimAt g S (Pure.pure b) (fun _ => Pure.pure b) s t :=
  .still (fun _ => rfl) (Nat.le_refl _)
theorem SimAt.fail {e : Fault} {s : σ} {t : ω} : SimAt g S (M.fail e : M (σ × ω) β) (fun _ => M.fail e) s t :=
  .still (fun _ => rfl) (Nat.le_refl _)
theorem SimAt.write {s s' : σ} {t : ω} (h : g s ≤ g s') : SimAt g S (M.write (s', t)) (fun _ => M.write s') s t :=
  .still (fun _ => rfl) h

theorem SimAt.ite {p : Prop} [Decidable p] {m' n' : M (σ × ω) β} {m n : Alloc → M σ β} {s : σ} {t : ω}
    (h1 : p → SimAt g S m' m s t) (h2 : ¬ p → SimAt g S n' n s t) :
    SimAt g S (if p then m' else n') (fun a => if p then m a else n a) s t := by
  by_cases h : p
  · simp only [if_pos h]; exact h1 h
  · simp only [if_neg h]; exact h2 h

theorem SimAt.loop {body' : Nat → β → M (σ × ω) β} {body : Alloc → Nat → β → M σ β}
    (h : ∀ i b s t, SimAt g S (body' i b) (fun a => body a i b) s t) :
    ∀ n i b s t, SimAt g S (EnumVecModel.loop body' n i b) (fun a => EnumVecModel.loop (body a) n i b) s t
  | 0, _, _, _, _ => .pure
  | n + 1, i, b, s, t => SimAt.bind (f := fun a b => EnumVecModel.loop (body a) n (i + 1) b) (h i b s t) fun b s1 t1 _ => SimAt.loop h n (i + 1) b s1 t1

/-! ## Storage -/

section
variable {W : Nat}

/-- A request of the storage inside a call. -/
def ReqAt (S : SAlloc ω) (t : ω) (v : RVec W) (r' : Except Fault (RVec W) × ω) (r : Alloc → Except Fault (RVec W)) : Prop :=
  (((∀ a, r a = r'.1) ∧ ∀ v', r'.1 = .ok v' → v'.cap = v.cap) ∧ r'.2 = t) ∨
  ∃ q : Req, q.cap = v.cap ∧ Talk S t [q] r'.2 ∧
    (∀ a : Alloc, a.grow q.cap q.needed = q.ans → r a = r'.1) ∧ ∀ v', r'.1 = .ok v' → v.cap < v'.cap

theorem reserveS_at (hS : S.Grows) (v : RVec W) (n : Nat) (t : ω) : ReqAt S t v (v.reserveS S n t) fun a => v.reserve a n := by
  unfold RVec.reserveS RVec.reserve
  by_cases h : v.len + n ≤ v.cap
  · simp only [if_pos h]
    exact .inl ⟨⟨fun _ => rfl, fun v' h => by cases h; rfl⟩, rfl⟩
  · simp only [if_neg h]
    refine .inr ⟨⟨v.cap, v.len + n, (S.grow v.cap (v.len + n) t).1⟩, rfl, ⟨rfl, ?_⟩, fun a ha => ?_, fun v' hv => ?_⟩
    · dsimp only [Talk]
      rcases S.grow v.cap (v.len + n) t with ⟨_ | k, u⟩ <;> rfl
    · dsimp only
      rw [show a.grow v.cap (v.len + n) = _ from ha]
      rcases S.grow v.cap (v.len + n) t with ⟨_ | k, u⟩ <;> rfl
    · have := hS v.cap (v.len + n) t
      rcases hg : S.grow v.cap (v.len + n) t with ⟨_ | k, u⟩ <;> rw [hg] at hv this
      · cases hv
      · cases hv
        have := this k rfl
        show v.cap < k
        omega

theorem ReqAt.map {t : ω} {v w : RVec W} {r' r1' : Except Fault (RVec W) × ω} {r r1 : Alloc → Except Fault (RVec W)} (h : ReqAt S t v r' r)
    (hw : w.cap = v.cap) (f : RVec W → RVec W) (hf : ∀ v, (f v).cap = v.cap) (h1 : r1'.1 = r'.1.map f ∧ r1'.2 = r'.2) (h2 : ∀ a, r1 a = (r a).map f) :
    ReqAt S t w r1' r1 := by
  have key : ∀ v', r1'.1 = .ok v' → ∃ v0, r'.1 = .ok v0 ∧ v0.cap = v'.cap := by
    intro v' hv
    rw [h1.1] at hv
    cases hr : r'.1 with
    | error e => rw [hr] at hv; cases hv
    | ok v0 => rw [hr] at hv; cases hv; exact ⟨v0, rfl, (hf v0).symm⟩
  rcases h with ⟨⟨e1, e2⟩, e5⟩ | ⟨q, e1, e2, e3, e4⟩
  · refine .inl ⟨⟨fun a => by rw [h2, h1.1, e1], fun v' hv => ?_⟩, h1.2.trans e5⟩
    obtain ⟨v0, k1, k2⟩ := key v' hv
    rw [hw, ← e2 v0 k1, k2]
  · refine .inr ⟨q, e1.trans hw.symm, h1.2 ▸ e2, fun a ha => by rw [h2, h1.1, e3 a ha], fun v' hv => ?_⟩
    obtain ⟨v0, k1, k2⟩ := key v' hv
    rw [hw, ← k2]
    exact e4 v0 k1

theorem pushS_at (hS : S.Grows) (v : RVec W) (x : BitVec W) (t : ω) : ReqAt S t v (v.pushS S x t) fun a => v.push a x := by
  refine (reserveS_at hS v 1 t).map rfl (fun v' => { v' with data := v'.data ++ [x] }) (fun _ => rfl) ?_ fun a => ?_
  · unfold RVec.pushS
    rcases v.reserveS S 1 t with ⟨e | v', u⟩ <;> exact ⟨rfl, rfl⟩
  · unfold RVec.push
    cases v.reserve a 1 <;> rfl

theorem extendFromSliceS_at (hS : S.Grows) (v : RVec W) (xs : List (BitVec W)) (t : ω) :
    ReqAt S t v (v.extendFromSliceS S xs t) fun a => v.extendFromSlice a xs := by
  refine (reserveS_at hS v xs.length t).map rfl (fun v' => { v' with data := v'.data ++ xs }) (fun _ => rfl) ?_ fun a => ?_
  · unfold RVec.extendFromSliceS
    rcases v.reserveS S xs.length t with ⟨e | v', u⟩ <;> exact ⟨rfl, rfl⟩
  · unfold RVec.extendFromSlice
    cases v.reserve a xs.length <;> rfl

theorem resizeS_at (hS : S.Grows) (v : RVec W) (n : Nat) (x : BitVec W) (t : ω) : ReqAt S t v (v.resizeS S n x t) fun a => v.resize a n x := by
  by_cases h : n ≤ v.len
  · unfold RVec.resizeS RVec.resize
    simp only [if_pos h]
    exact .inl ⟨⟨fun _ => rfl, fun v' h => by cases h; rfl⟩, rfl⟩
  · refine (reserveS_at hS v (n - v.len) t).map rfl (fun v' => { v' with data := v'.data ++ List.replicate (n - v.len) x }) (fun _ => rfl) ?_
      fun a => ?_
    · unfold RVec.resizeS
      rw [if_neg h]
      rcases v.reserveS S (n - v.len) t with ⟨e | v', u⟩ <;> exact ⟨rfl, rfl⟩
    · unfold RVec.resize
      rw [if_neg h]
      cases v.reserve a (n - v.len) <;> rfl

/-- A request of the storage as a step of a call. -/
theorem SimAt.req {v : RVec W} {r' : Except Fault (RVec W) × ω} {r : Alloc → Except Fault (RVec W)} {m' : M (σ × ω) β} {m : Alloc → M σ β}
    {s : σ} {t : ω} (h : ReqAt S t v r' r) (hv : g s = v.cap) (F : Except Fault (RVec W) → Except Fault β × σ)
    (h0 : ((m' (s, t)).1 = (F r'.1).1 ∧ (m' (s, t)).2.1 = (F r'.1).2) ∧ (m' (s, t)).2.2 = r'.2) (h2 : ∀ a, m a s = F (r a))
    (hF : ∀ r b, (F r).1 = .ok b → ∃ v', r = .ok v' ∧ g (F r).2 = v'.cap)
    (hE : ∀ r, (∀ b, (F r).1 ≠ .ok b) → True) : SimAt g S m' m s t := by
  obtain ⟨h1, h5⟩ := h0
  rcases h with ⟨⟨e1, e2⟩, e5⟩ | ⟨q, e1, e2, e3, e4⟩
  · refine ⟨[], fun a _ => by rw [h2, e1]; exact Prod.ext h1.1.symm h1.2.symm, List.Pairwise.nil, by simp, h5.trans e5, fun b hb => ?_⟩
    rw [h1.1] at hb
    obtain ⟨v', k1, k2⟩ := hF _ b hb
    rw [h1.2, k2, hv, ← e2 v' k1]
    exact ⟨Nat.le_refl _, by simp⟩
  · refine ⟨[q], fun a ha => by rw [h2, e3 a (ha q (by simp))]; exact Prod.ext h1.1.symm h1.2.symm, List.pairwise_singleton _ _, ?_, h5 ▸ e2, fun b hb => ?_⟩
    · intro q' hq
      rw [List.mem_singleton] at hq
      subst hq
      rw [hv, e1]; exact Nat.le_refl _
    · rw [h1.1] at hb
      obtain ⟨v', k1, k2⟩ := hF _ b hb
      have := e4 v' k1
      rw [h1.2, k2, hv]
      refine ⟨by omega, fun q' hq => ?_⟩
      rw [List.mem_singleton] at hq
      subst hq
      omega

end

/-! ## Methods -/

/-- The capacity of the only vector. -/
abbrev cap0 {W : Nat} (s : EV W) : Nat := s.storage.cap

section
set_option smartUnfolding false

theorem extendHinted_wa (c : Inst α) (a : Alloc) (p : Bool) (n i : Nat) (l : List α) :
    extendHinted (c.withAlloc a) p n i l = extendHinted c p n i l := by with_unfolding_all rfl
theorem truncate_wa (c : Inst α) (a : Alloc) (n : Nat) : truncate (c.withAlloc a) n = truncate c n := by with_unfolding_all rfl
theorem fixStorage_wa (c : Inst α) (a : Alloc) : fixStorage (c.withAlloc a) = fixStorage c := by with_unfolding_all rfl
theorem setLen_wa (c : Inst α) (a : Alloc) (n : Nat) : setLen (c.withAlloc a) n = setLen c n := by with_unfolding_all rfl
theorem clear_wa (c : Inst α) (a : Alloc) : clear (c.withAlloc a) = clear c := by with_unfolding_all rfl
theorem splitOffStep_wa (c : Inst α) (a : Alloc) (n : Nat) : splitOffStep (c.withAlloc a) n = splitOffStep c n := by with_unfolding_all rfl

end

theorem extendHinted_keep (c : Inst α) (p : Bool) : ∀ (n pos : Nat) (items : List α), Caps (· ≤ ·) (extendHinted c p n pos items)
  | 0, _, _ => Caps.pure capRel_le _
  | n + 1, pos, x :: items => Caps.bind capRel_le (set_caps c capRel_le _ _) fun _ => extendHinted_keep c p n (pos + 1) items
  | _ + 1, _, [] => Caps.fail capRel_le _

section
variable (c : Inst α) (hS : S.Grows)
include hS

theorem growIfNeeded_sim (s : EV c.W) (t : ω) :
    SimAt cap0 S (Stateful.growIfNeeded c S) (fun a => EV.growIfNeeded (c.withAlloc a)) s t := by
  by_cases h : len c s % c.epb = 0 ∧ blocksForElements c (len c s) = s.storage.len
  · refine .req (pushS_at hS s.storage 0 t) rfl
      (fun | .ok st => (.ok (), { s with storage := st }) | .error e => (.error e, s)) ?_ (fun a => ?_) ?_ (fun _ _ => trivial)
    · unfold Stateful.growIfNeeded
      rw [if_pos (show len c (s, t).1 % c.epb = 0 ∧ blocksForElements c (len c (s, t).1) = (s, t).1.storage.len from h)]
      dsimp only
      rcases s.storage.pushS S 0 t with ⟨e | v', u⟩ <;> exact ⟨⟨rfl, rfl⟩, rfl⟩
    · unfold EV.growIfNeeded
      rw [if_pos (show len (c.withAlloc a) s % (c.withAlloc a).epb = 0 ∧ blocksForElements (c.withAlloc a) (len (c.withAlloc a) s) = s.storage.len from h)]
      cases s.storage.push a 0 <;> rfl
    · rintro (e | v') b hb
      · cases hb
      · exact ⟨v', rfl, rfl⟩
  · refine .still (fun a => ?_) ?_ ?_
    · unfold EV.growIfNeeded Stateful.growIfNeeded
      rw [if_neg (show ¬ (len (c.withAlloc a) s % (c.withAlloc a).epb = 0 ∧ blocksForElements (c.withAlloc a) (len (c.withAlloc a) s) = s.storage.len) from h),
        if_neg (show ¬ (len c (s, t).1 % c.epb = 0 ∧ blocksForElements c (len c (s, t).1) = (s, t).1.storage.len) from h)]
    · unfold Stateful.growIfNeeded
      rw [if_neg (show ¬ (len c (s, t).1 % c.epb = 0 ∧ blocksForElements c (len c (s, t).1) = (s, t).1.storage.len) from h)]
      exact Nat.le_refl _
    · unfold Stateful.growIfNeeded
      rw [if_neg (show ¬ (len c (s, t).1 % c.epb = 0 ∧ blocksForElements c (len c (s, t).1) = (s, t).1.storage.len) from h)]

theorem reserve_sim (n : Nat) (s : EV c.W) (t : ω) :
    SimAt cap0 S (Stateful.reserve c S n) (fun a => EV.reserve (c.withAlloc a) n) s t := by
  by_cases h : len c s + n < c.build.usizeLim
  · cases hu : uAdd c.build ((len c s + n) / c.epb) 1 with
    | error e =>
      have e1 : Stateful.reserve c S n (s, t) = (.error e, (s, t)) := by
        unfold Stateful.reserve
        rw [if_pos (show len c (s, t).1 + n < c.build.usizeLim from h)]
        dsimp only
        rw [hu]
      refine .still (fun a => ?_) (by rw [e1]; exact Nat.le_refl _) (by rw [e1])
      rw [e1]
      unfold EV.reserve
      rw [if_pos (show len (c.withAlloc a) s + n < (c.withAlloc a).build.usizeLim from h)]
      dsimp only
      rw [show uAdd (c.withAlloc a).build ((len (c.withAlloc a) s + n) / (c.withAlloc a).epb) 1 = _ from hu]
    | ok k =>
      refine .req (resizeS_at hS s.storage k 0 t) rfl
        (fun | .ok st => (.ok (), { s with storage := st }) | .error e => (.error e, s)) ?_ (fun a => ?_) ?_ (fun _ _ => trivial)
      · unfold Stateful.reserve
        rw [if_pos (show len c (s, t).1 + n < c.build.usizeLim from h)]
        dsimp only
        rw [hu]
        dsimp only
        rcases s.storage.resizeS S k 0 t with ⟨e | v', u⟩ <;> exact ⟨⟨rfl, rfl⟩, rfl⟩
      · unfold EV.reserve
        rw [if_pos (show len (c.withAlloc a) s + n < (c.withAlloc a).build.usizeLim from h)]
        dsimp only
        rw [show uAdd (c.withAlloc a).build ((len (c.withAlloc a) s + n) / (c.withAlloc a).epb) 1 = _ from hu]
        dsimp only
        cases s.storage.resize a k 0 <;> rfl
      · rintro (e | v') b hb
        · cases hb
        · exact ⟨v', rfl, rfl⟩
  · have e1 : Stateful.reserve c S n (s, t) = (.error .capacity, (s, t)) := by
      unfold Stateful.reserve
      rw [if_neg (show ¬ len c (s, t).1 + n < c.build.usizeLim from h)]
    refine .still (fun a => ?_) (by rw [e1]; exact Nat.le_refl _) (by rw [e1])
    rw [e1]
    unfold EV.reserve
    rw [if_neg (show ¬ len (c.withAlloc a) s + n < (c.withAlloc a).build.usizeLim from h)]

theorem push_sim (x : α) (s : EV c.W) (t : ω) :
    SimAt cap0 S (Stateful.push c S x) (fun a => EV.push (c.withAlloc a) x) s t := by
  refine SimAt.bind (growIfNeeded_sim c hS s t) fun _ s1 t1 _ => ?_
  refine SimAt.read (SimAt.ite (fun _ => SimAt.bind (.write (Nat.le_refl _)) fun _ s2 t2 _ => ?_) fun _ => SimAt.bind .fail fun _ s2 t2 _ => ?_)
  all_goals exact .onFst (fun a => set_wa c a _ _) (set_caps c capRel_le _ _)

theorem insert_sim (i : Nat) (x : α) (s : EV c.W) (t : ω) :
    SimAt cap0 S (Stateful.insert c S i x) (fun a => EV.insert (c.withAlloc a) i x) s t := by
  refine SimAt.bind (push_sim c hS x s t) fun _ s1 t1 _ => SimAt.read ?_
  refine SimAt.bind (f := fun a (y : Nat × Nat) => (do
      let s ← M.read
      if y.1 < len (c.withAlloc a) s then do
        let _ ← loop (insertFastStep (c.withAlloc a)) ((blockIndex c (len c s - 1)).1 + 1 - (blockIndex c y.1).1)
          (blockIndex c y.1).1 (BitVec.ofNat c.W y.2)
      else pure ())) (SimAt.ite (p := i % c.epb > 0) (fun _ => ?_) fun _ => .pure) fun y s2 t2 _ => ?_
  · refine SimAt.liftBind fun k _ => SimAt.bind (.onFst (fun a => ?_) (Caps.loop capRel_le (insertSlowStep_caps c capRel_le) _ _ _))
      fun _ _ _ _ => .pure
    rw [insertSlowStep_wa]
    rfl
  · refine SimAt.read (SimAt.ite (p := y.1 < len c s2) (fun _ => ?_) fun _ => .pure)
    refine SimAt.bind (.onFst (fun a => ?_) (Caps.loop capRel_le (insertFastStep_caps c capRel_le) _ _ _)) fun _ _ _ _ => .pure
    rw [insertFastStep_wa]

theorem extendRest_sim (p : Bool) : ∀ (items : List α) (s : EV c.W) (t : ω),
    SimAt cap0 S (Stateful.extendRest c S p items) (fun a => EV.extendRest (c.withAlloc a) p items) s t
  | [], s, t => SimAt.ite (fun _ => .fail) fun _ => .pure
  | x :: items, s, t => SimAt.bind (push_sim c hS x s t) fun _ s1 t1 _ => extendRest_sim p items s1 t1

theorem extend_sim (it : Src α) (s : EV c.W) (t : ω) :
    SimAt cap0 S (Stateful.extend c S it) (fun a => EV.extend (c.withAlloc a) it) s t := by
  refine SimAt.read (SimAt.bind (reserve_sim c hS it.hint s t) fun _ s1 t1 _ => SimAt.read (SimAt.liftBind fun n _ => ?_))
  refine SimAt.bind (.write (Nat.le_refl _)) fun _ s3 t3 _ => ?_
  refine SimAt.bind (.onFst (fun a => extendHinted_wa c a _ _ _ _) (extendHinted_keep c _ _ _ _)) fun rest s4 t4 _ => ?_
  exact extendRest_sim c hS _ rest s4 t4

theorem fillStep_sim (n : Nat) (v : BitVec c.W) (i : Nat) (u : Unit) (s : EV c.W) (t : ω) :
    SimAt cap0 S (Stateful.fillStep c S n v i u) (fun a => EV.fillStep (c.withAlloc a) n v i u) s t := by
  refine .req (resizeS_at hS s.storage (s.storage.len + n) v t) rfl
    (fun | .ok st => (.ok (), { s with storage := st }) | .error e => (.error e, s)) ?_ (fun a => ?_) ?_ (fun _ _ => trivial)
  · unfold Stateful.fillStep
    dsimp only
    rcases s.storage.resizeS S (s.storage.len + n) v t with ⟨e | v', u⟩ <;> exact ⟨⟨rfl, rfl⟩, rfl⟩
  · unfold EV.fillStep
    dsimp only
    cases s.storage.resize a (s.storage.len + n) v <;> rfl
  · rintro (e | v') b hb
    · cases hb
    · exact ⟨v', rfl, rfl⟩

/-- `self.storage.reserve(n)` with a function of the request. -/
def pureReserve {W : Nat} (a : Alloc) (n : Nat) : M (EV W) Unit := fun s =>
  match RVec.reserve a s.storage n with
  | .ok st => (.ok (), { s with storage := st })
  | .error e => (.error e, s)

theorem reserveStorage_sim (n : Nat) (s : EV c.W) (t : ω) {m' : M (EV c.W × ω) β} {m : Alloc → M (EV c.W) β}
    (h : ∀ s1 t1, SimAt cap0 S m' m s1 t1) :
    SimAt cap0 S (Stateful.reserveStorage c S n >>= fun _ => m')
      (fun a => M.read >>= fun s => M.lift (RVec.reserve (c.withAlloc a).alloc s.storage n) >>= fun st =>
        M.write { s with storage := st } >>= fun _ => m a) s t := by
  refine SimAt.congr (SimAt.bind (m' := Stateful.reserveStorage c S n) (m := fun a => pureReserve a n) (f := fun a _ => m a) ?_ fun _ s1 t1 _ => h s1 t1) fun a => ?_
  · refine .req (reserveS_at hS s.storage n t) rfl
      (fun | .ok st => (.ok (), { s with storage := st }) | .error e => (.error e, s)) ?_ (fun a => ?_) ?_ (fun _ _ => trivial)
    · unfold Stateful.reserveStorage
      dsimp only
      rcases s.storage.reserveS S n t with ⟨e | v', u⟩ <;> exact ⟨⟨rfl, rfl⟩, rfl⟩
    · unfold pureReserve
      cases s.storage.reserve a n <;> rfl
    · rintro (e | v') b hb
      · cases hb
      · exact ⟨v', rfl, rfl⟩
  · dsimp only
    rw [M.read_bind]
    show (M.lift (RVec.reserve a s.storage n) >>= fun st => M.write (⟨st, s.num⟩ : EV c.W) >>= fun _ => m a) s = _
    cases hr : s.storage.reserve a n with
    | error e => exact (M.bind_error (f := fun _ => m a) (show pureReserve a n s = (.error e, s) by unfold pureReserve; rw [hr])).symm
    | ok st => exact (M.bind_ok (f := fun _ => m a) (show pureReserve a n s = (.ok (), ⟨st, s.num⟩) by unfold pureReserve; rw [hr])).symm

theorem extendWithValue_sim (x : α) (n : Nat) (s : EV c.W) (t : ω) :
    SimAt cap0 S (Stateful.extendWithValue c S x n) (fun a => EV.extendWithValue (c.withAlloc a) x n) s t := by
  refine SimAt.ite (p := n ≤ 4 * c.epb) (fun _ => extend_sim c hS _ s t) fun _ => SimAt.read ?_
  refine SimAt.bind (extend_sim c hS _ s t) fun _ s1 t1 _ => SimAt.read ?_
  refine SimAt.bind (.onFst (fun a => fixStorage_wa c a) (fixStorage_caps c capRel_le)) fun _ s2 t2 _ => ?_
  refine reserveStorage_sim c hS _ s2 t2 fun s3 t3 => ?_
  refine SimAt.bind (SimAt.loop (fun i u s t => fillStep_sim c hS _ _ i u s t) _ _ _ _ _) fun _ s4 t4 _ => ?_
  refine SimAt.liftBind fun k _ => SimAt.bind (.onFst (fun a => setLen_wa c a _) (setLen_caps c capRel_le _)) fun _ s5 t5 _ => ?_
  exact extend_sim c hS _ s5 t5

theorem resize_sim (n : Nat) (x : α) (s : EV c.W) (t : ω) :
    SimAt cap0 S (Stateful.resize c S n x) (fun a => EV.resize (c.withAlloc a) n x) s t := by
  refine SimAt.read (SimAt.ite (p := n > len c s) (fun _ => extendWithValue_sim c hS _ _ s t) fun _ => ?_)
  exact .onFst (fun a => truncate_wa c a _) (truncate_caps c capRel_le _)

/-- The capacity of the first of two vectors. -/
abbrev capFst {W : Nat} (p : EV W × EV W) : Nat := p.1.storage.cap

theorem appendStorage_sim (p : EV c.W × EV c.W) (t : ω) :
    SimAt capFst S (Stateful.appendStorage c S) (fun a => EV.appendStorage (c.withAlloc a)) p t := by
  refine .req (extendFromSliceS_at hS p.1.storage p.2.storage.data t) rfl
    (fun | .ok st => (if c.small then onSnd (clear c) ({ p.1 with storage := st }, p.2)
          else (.ok (), ({ p.1 with storage := st }, { p.2 with storage := { p.2.storage with data := [] } })))
         | .error e => (.error e, p)) ?_ (fun a => ?_) ?_ (fun _ _ => trivial)
  · unfold Stateful.appendStorage
    dsimp only
    rcases p.1.storage.extendFromSliceS S p.2.storage.data t with ⟨e | v', u⟩
    · exact ⟨⟨rfl, rfl⟩, rfl⟩
    · dsimp only
      split <;> exact ⟨⟨rfl, rfl⟩, rfl⟩
  · unfold EV.appendStorage
    rw [clear_wa]
    dsimp only
    cases p.1.storage.extendFromSlice a p.2.storage.data <;> rfl
  · rintro (e | v') b hb
    · cases hb
    · refine ⟨v', rfl, ?_⟩
      dsimp only
      split <;> rfl

theorem reserveFst_sim (n : Nat) (p : EV c.W × EV c.W) (t : ω) :
    SimAt capFst S (Stateful.reserveFst c S n) (fun a => onFst (EV.reserve (c.withAlloc a) n)) p t := by
  obtain ⟨tr, h1, h2, h3, ht, h4⟩ := reserve_sim c hS n p.1 t
  refine ⟨tr, fun a ha => ?_, h2, h3, ht, h4⟩
  show ((EV.reserve (c.withAlloc a) n p.1).1, ((EV.reserve (c.withAlloc a) n p.1).2, p.2)) = _
  rw [show EV.reserve (c.withAlloc a) n p.1 = _ from h1 a ha]
  rfl

theorem append_sim (p : EV c.W × EV c.W) (t : ω) :
    SimAt capFst S (Stateful.append c S) (fun a => EV.append (c.withAlloc a)) p t := by
  refine SimAt.read (SimAt.ite (p := len c p.1 % c.epb = 0) (fun _ => ?_) fun _ => ?_)
  · refine SimAt.bind (.onFst (fun a => by rw [fixStorage_wa]) fun _ => Nat.le_refl _) fun _ p1 t1 _ => ?_
    refine SimAt.bind (.onFst (fun a => by rw [fixStorage_wa]) fun _ => Nat.le_refl _) fun _ p2 t2 _ => ?_
    refine SimAt.bind (appendStorage_sim c hS p2 t2) fun _ p3 t3 _ => SimAt.read (SimAt.liftBind fun k _ => ?_)
    exact .onFst (fun a => by rw [setLen_wa]) fun _ => Nat.le_refl _
  · refine SimAt.bind (reserveFst_sim c hS _ p t) fun _ p1 t1 _ => SimAt.liftBind fun k _ => ?_
    refine SimAt.bind (.onFst (fun a => by rw [setLen_wa]) fun _ => Nat.le_refl _) fun _ p2 t2 _ => ?_
    refine SimAt.bind (.onFst (fun a => by rw [appendStep_wa]; rfl) ?_) fun _ p3 t3 _ => ?_
    · refine CapsOf.loop capRel_le (fun i u => ?_) _ _ _
      exact CapsOf.bind capRel_le (fun _ => Nat.le_refl _) fun d => onFst_cap1 capRel_le (setRawUnchecked_caps c capRel_le _ _)
    · exact .onFst (fun a => by rw [clear_wa]) fun _ => Nat.le_refl _

end

/-! ## One function of the request for a whole call -/

/-- The function of the request that answers the requests of the trace as recorded, and other requests as `S` does in state `t`. -/
def traced (S : SAlloc ω) (t : ω) (tr : List Req) : Alloc :=
  { S.frozen t with
    grow := fun cap needed =>
      match tr.find? fun q => q.cap == cap && q.needed == needed with
      | some q => q.ans
      | none => (S.grow cap needed t).1 }

theorem traced_agrees {t : ω} {tr : List Req} (h : tr.Pairwise fun q q' => q.cap < q'.cap) : AnswersAs (traced S t tr) tr := by
  intro q hq
  have hsome : (tr.find? fun q' => q'.cap == q.cap && q'.needed == q.needed).isSome := by
    rw [List.find?_isSome]
    exact ⟨q, hq, by simp⟩
  obtain ⟨q', hq'⟩ := Option.isSome_iff_exists.1 hsome
  show (match tr.find? fun q' => q'.cap == q.cap && q'.needed == q.needed with
      | some q => q.ans
      | none => _) = _
  rw [hq']
  have h1 := List.find?_some hq'
  have h2 := List.mem_of_find?_eq_some hq'
  simp only [Bool.and_eq_true, beq_iff_eq] at h1
  have : q' = q := by
    obtain ⟨i, hi, rfl⟩ := List.getElem_of_mem hq
    obtain ⟨j, hj, rfl⟩ := List.getElem_of_mem h2
    have hp := List.pairwise_iff_getElem.1 h
    rcases Nat.lt_trichotomy i j with hlt | rfl | hlt
    · have := hp i j hi hj hlt; omega
    · rfl
    · have := hp j i hj hi hlt; omega
  rw [this]

theorem traced_follows {t : ω} {tr : List Req} (h : ∀ q ∈ tr, ∃ u, (S.grow q.cap q.needed u).1 = q.ans) : (traced S t tr).Follows S := by
  refine ⟨rfl, fun n => ⟨t, rfl⟩, fun cap needed => ?_, fun cap len => ⟨t, rfl⟩⟩
  show ∃ u, (match tr.find? fun q' => q'.cap == cap && q'.needed == needed with
      | some q => q.ans
      | none => (S.grow cap needed t).1) = _
  cases hf : tr.find? fun q' => q'.cap == cap && q'.needed == needed with
  | none => exact ⟨t, rfl⟩
  | some q =>
    have h1 := List.find?_some hf
    simp only [Bool.and_eq_true, beq_iff_eq] at h1
    obtain ⟨u, hu⟩ := h q (List.mem_of_find?_eq_some hf)
    exact ⟨u, by rw [← h1.1, ← h1.2, hu]⟩

/-- The call makes the requests `rs` of the allocator, no request twice, and does what it does with the allocator without state `a`, which gives the same answers. -/
def Stands (S : SAlloc ω) (t t' : ω) (a : Alloc) (rs : List Request) : Prop :=
  a.Follows S ∧ rs.Nodup ∧ S.talk t rs = (rs.map a.ask, t')

/-- A trace as a list of questions. -/
def Req.request (q : Req) : Request := .grow q.cap q.needed

theorem Talk.talk {a : Alloc} : ∀ {tr : List Req} {t t' : ω}, Talk S t tr t' → AnswersAs a tr →
    S.talk t (tr.map Req.request) = ((tr.map Req.request).map a.ask, t')
  | [], t, t', h, _ => by cases h; rfl
  | q :: tr, t, t', h, ha => by
    have h1 : S.ask t q.request = (q.ans, (S.grow q.cap q.needed t).2) := by rw [← h.1]; rfl
    have h2 : a.ask q.request = q.ans := ha q (by simp)
    show (_ :: _, _) = _
    rw [h1]
    have := h.2.talk (a := a) fun q' hq => ha q' (by simp [hq])
    dsimp only
    rw [this]
    simp only [List.map_cons, h2]

theorem SimAt.alloc {m' : M (σ × ω) β} {m : Alloc → M σ β} {s : σ} {t : ω} (h : SimAt g S m' m s t) :
    ∃ a : Alloc, ∃ rs, Stands S t (m' (s, t)).2.2 a rs ∧ m a s = ((m' (s, t)).1, (m' (s, t)).2.1) := by
  obtain ⟨tr, h1, h2, h3, ht, -⟩ := h
  refine ⟨traced S t tr, tr.map Req.request, ⟨traced_follows ht.asked, ?_, ht.talk (traced_agrees h2)⟩, h1 _ (traced_agrees h2)⟩
  refine List.pairwise_map.2 (h2.imp fun {q q'} hq he => ?_)
  have : q.cap = q'.cap := (Request.grow.inj he).1
  omega

theorem frozen_follows (S : SAlloc ω) (t : ω) : (S.frozen t).Follows S := ⟨rfl, fun _ => ⟨t, rfl⟩, fun _ _ => ⟨t, rfl⟩, fun _ _ => ⟨t, rfl⟩⟩

theorem frozen_stands (S : SAlloc ω) (t : ω) : Stands S t t (S.frozen t) [] := ⟨frozen_follows S t, List.nodup_nil, rfl⟩

theorem frozen_stands1 (S : SAlloc ω) (t : ω) (q : Request) {t' : ω} (h : t' = (S.ask t q).2 := by rfl) : Stands S t t' (S.frozen t) [q] := by
  subst h
  refine ⟨frozen_follows S t, List.pairwise_singleton _ _, ?_⟩
  cases q <;> rfl

section
variable (c : Inst α) (hS : S.Grows)

theorem call_sim {m' : M (EV c.W × ω) Unit} {m : Alloc → M (EV c.W) Unit} {mem : Mem c τ} {r : Nat} {t : ω}
    (h : SimAt cap0 S m' m (mem.reg r) t) (op : Op τ α)
    (h1 : Stateful.step c S mem t op = Stateful.call c mem t r m' fun _ => .unit)
    (h2 : ∀ a, step (c.withAlloc a) ⟨mem.reg, mem.world⟩ op = Mem.call (c := c.withAlloc a) ⟨mem.reg, mem.world⟩ r (m a) fun _ => .unit) :
    ∃ a : Alloc, ∃ rs, Stands S t (Stateful.step c S mem t op).2.2 a rs ∧
      stepWith c mem a op = ((Stateful.step c S mem t op).1, (Stateful.step c S mem t op).2.1) := by
  obtain ⟨a, rs, ha, e⟩ := h.alloc
  refine ⟨a, rs, ?_, ?_⟩
  · rw [h1]
    unfold Stateful.call
    rcases hm : m' (mem.reg r, t) with ⟨e | b, s1, t1⟩ <;> rw [hm] at ha <;> exact ha
  unfold stepWith
  rw [h1, h2]
  unfold Stateful.call Mem.call
  dsimp only
  rw [e]
  rcases m' (mem.reg r, t) with ⟨e | b, s1, t1⟩ <;> rfl

theorem assign_sim {m' : M (EV c.W × ω) Unit} {m : Alloc → M (EV c.W) Unit} {mem : Mem c τ} {r : Nat} {t : ω}
    (h : SimAt cap0 S m' m (Stateful.new c S) t) (op : Op τ α)
    (h1 : Stateful.step c S mem t op = Stateful.assign c mem r (Stateful.build c (Stateful.new c S) m' t))
    (h2 : ∀ a, step (c.withAlloc a) ⟨mem.reg, mem.world⟩ op =
      Mem.assign (c := c.withAlloc a) ⟨mem.reg, mem.world⟩ r (EV.build (c.withAlloc a) (EV.new (c.withAlloc a)) (m a))) :
    ∃ a : Alloc, ∃ rs, Stands S t (Stateful.step c S mem t op).2.2 a rs ∧
      stepWith c mem a op = ((Stateful.step c S mem t op).1, (Stateful.step c S mem t op).2.1) := by
  obtain ⟨a, rs, ha, e⟩ := h.alloc
  refine ⟨a, rs, ?_, ?_⟩
  · rw [h1]
    unfold Stateful.assign Stateful.build
    rcases hm : m' (Stateful.new c S, t) with ⟨e | b, s1, t1⟩ <;> rw [hm] at ha <;> exact ha
  have hn : EV.new (c.withAlloc a) = Stateful.new c S := by
    show (⟨⟨[], a.fresh⟩, 0⟩ : EV c.W) = ⟨⟨[], S.fresh⟩, 0⟩
    rw [ha.1.fresh]
  unfold stepWith
  rw [h1, h2]
  unfold Stateful.assign Stateful.build Mem.assign EV.build
  rw [hn]
  dsimp only
  rw [e]
  rcases m' (Stateful.new c S, t) with ⟨e | b, s1, t1⟩ <;> rfl

include hS
theorem step_stateful (mem : Mem c τ) (t : ω) (op : Op τ α) :
    ∃ a : Alloc, ∃ rs, Stands S t (Stateful.step c S mem t op).2.2 a rs ∧
      stepWith c mem a op = ((Stateful.step c S mem t op).1, (Stateful.step c S mem t op).2.1) := by
  cases op with
  | push r x => exact call_sim c (push_sim c hS x _ t) _ rfl fun _ => rfl
  | insert r i x => exact call_sim c (insert_sim c hS i x _ t) _ rfl fun _ => rfl
  | resize r n x => exact call_sim c (resize_sim c hS n x _ t) _ rfl fun _ => rfl
  | reserve r n => exact call_sim c (reserve_sim c hS n _ t) _ rfl fun _ => rfl
  | extend r it => exact call_sim c (extend_sim c hS it _ t) _ rfl fun _ => rfl
  | fromElem r x n => exact assign_sim c (extendWithValue_sim c hS x n _ t) _ rfl fun _ => rfl
  | fromVec r xs => exact assign_sim c (extend_sim c hS _ _ t) _ rfl fun _ => rfl
  | fromSlice r xs => exact assign_sim c (extend_sim c hS _ _ t) _ rfl fun _ => rfl
  | fromIter r it => exact assign_sim c (extend_sim c hS it _ t) _ rfl fun _ => rfl
  | append r o =>
    obtain ⟨a, rs, ha, e⟩ := (append_sim c hS (mem.reg r, mem.reg o) t).alloc
    refine ⟨a, rs, ?_, ?_⟩
    · unfold Stateful.step
      rcases hm : Stateful.append c S ((mem.reg r, mem.reg o), t) with ⟨e | b, p, t1⟩ <;> rw [hm] at ha <;> dsimp only <;> rw [hm] <;> exact ha
    unfold stepWith step Stateful.step
    dsimp only
    rw [e]
    rcases Stateful.append c S ((mem.reg r, mem.reg o), t) with ⟨e | b, p, t1⟩ <;> rfl
  | new r => exact ⟨_, [], frozen_stands S t, rfl⟩
  | withCapacity r n =>
    refine ⟨_, [.exact (blocksForElements c n)], frozen_stands1 S t (.exact (blocksForElements c n)) ?_, ?_⟩
    · unfold Stateful.step Stateful.assign Stateful.withCapacity RVec.withCapacityS SAlloc.ask
      dsimp only
      rcases S.exact (blocksForElements c n) t with ⟨_ | k, u⟩ <;> rfl
    show (_, _) = _
    unfold step Stateful.step Stateful.assign Stateful.withCapacity RVec.withCapacityS Mem.assign EV.withCapacity RVec.withCapacity
    show (_, _) = _
    dsimp only
    rw [show (S.frozen t).exact (blocksForElements (c.withAlloc (S.frozen t)) n) = (S.exact (blocksForElements c n) t).1 from rfl]
    rcases S.exact (blocksForElements c n) t with ⟨_ | k, u⟩ <;> rfl
  | clone r src =>
    refine ⟨_, [.exact (mem.reg src).storage.len], frozen_stands1 S t (.exact (mem.reg src).storage.len) ?_, ?_⟩
    · unfold Stateful.step Stateful.assign Stateful.clone SAlloc.ask
      dsimp only
      rcases S.exact (mem.reg src).storage.len t with ⟨_ | k, u⟩ <;> rfl
    show (_, _) = _
    unfold step Stateful.step Stateful.assign Stateful.clone Mem.assign EV.clone RVec.clone
    dsimp only
    rw [show (S.frozen t).exact (mem.reg src).storage.len = (S.exact (mem.reg src).storage.len t).1 from rfl]
    rcases S.exact (mem.reg src).storage.len t with ⟨_ | k, u⟩ <;> rfl
  | shrinkToFit r =>
    exact ⟨_, _, frozen_stands1 S t (.shrinkTo (fixStorage c (mem.reg r)).2.storage.cap (fixStorage c (mem.reg r)).2.storage.len), rfl⟩
  | splitOff r i d =>
    refine ⟨S.frozen t, if i ≤ len c (mem.reg r) then [.exact (blocksForElements c (len c (mem.reg r) - i))] else [], ?_, ?_⟩
    · by_cases h : i ≤ len c (mem.reg r)
      · rw [if_pos h]
        refine frozen_stands1 S t (.exact (blocksForElements c (len c (mem.reg r) - i))) ?_
        unfold Stateful.step Stateful.splitOff Stateful.withCapacity RVec.withCapacityS SAlloc.ask
        dsimp only
        rw [if_pos h]
        rcases S.exact (blocksForElements c (len c (mem.reg r) - i)) t with ⟨_ | k, u⟩
        · rfl
        · dsimp only
          rcases loop (splitOffStep c i) (len c (mem.reg r) - i) 0 () (mem.reg r, ⟨⟨[], k⟩, len c (mem.reg r) - i⟩) with ⟨e | b, p⟩ <;> rfl
      · rw [if_neg h]
        have : (Stateful.step c S mem t (.splitOff r i d)).2.2 = t := by
          unfold Stateful.step Stateful.splitOff
          dsimp only
          rw [if_neg h]
        rw [this]
        exact frozen_stands S t
    show (_, _) = _
    unfold step Stateful.step Stateful.splitOff EV.splitOff
    dsimp only
    by_cases h : i ≤ len c (mem.reg r)
    · rw [if_pos h, if_pos (show i ≤ len (c.withAlloc (S.frozen t)) (mem.reg r) from h)]
      unfold EV.withCapacity Stateful.withCapacity RVec.withCapacity RVec.withCapacityS
      rw [splitOffStep_wa]
      dsimp only
      rw [show (S.frozen t).exact (blocksForElements (c.withAlloc (S.frozen t)) (len (c.withAlloc (S.frozen t)) (mem.reg r) - i)) =
        (S.exact (blocksForElements c (len c (mem.reg r) - i)) t).1 from rfl]
      rcases S.exact (blocksForElements c (len c (mem.reg r) - i)) t with ⟨_ | k, u⟩
      · rfl
      · dsimp only
        rw [show len (c.withAlloc (S.frozen t)) (mem.reg r) = len c (mem.reg r) from rfl]
        rcases loop (splitOffStep c i) (len c (mem.reg r) - i) 0 () (mem.reg r, ⟨⟨[], k⟩, len c (mem.reg r) - i⟩) with ⟨e | b, p⟩ <;> rfl
    · rw [if_neg h, if_neg (show ¬ i ≤ len (c.withAlloc (S.frozen t)) (mem.reg r) from h)]
  | _ => exact ⟨_, [], frozen_stands S t, rfl⟩

end

end EnumVecModel
