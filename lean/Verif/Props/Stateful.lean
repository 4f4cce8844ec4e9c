import Verif.Lemmas.Stateful
import Verif.Props.Recover

/-! # Allocators with state (C67) -/

namespace EnumVecModel
open EV

variable {α τ ω : Type} {c : Inst α} {S : SAlloc ω}

theorem Alloc.Follows.lawful {a : Alloc} (h : a.Follows S) (hS : S.Lawful) : a.Lawful where
  exact_ge n k hk := by obtain ⟨t, e⟩ := h.exact n; exact hS.exact_ge n t k (e ▸ hk)
  grow_ge cap n k hk := by obtain ⟨t, e⟩ := h.grow cap n; exact hS.grow_ge cap n t k (e ▸ hk)
  shrink_ge cap n hn := by obtain ⟨t, e⟩ := h.shrinkTo cap n; rw [e]; exact hS.shrink_ge cap n t hn

theorem Alloc.Follows.bounded {a : Alloc} {b : Build} {n : Nat} (h : a.Follows S) (hS : S.Bounded b n) : a.Bounded b n where
  fresh := by rw [h.fresh]; exact hS.fresh
  exact m k hk := by obtain ⟨t, e⟩ := h.exact m; exact hS.exact m t k (e ▸ hk)
  grow cap m k hk := by obtain ⟨t, e⟩ := h.grow cap m; exact hS.grow cap m t k (e ▸ hk)
  shrink cap m hm := by obtain ⟨t, e⟩ := h.shrinkTo cap m; rw [e]; exact hS.shrink cap m t hm

/-- **C67** The conversation of a call with the allocator. The call asks some questions `rs`, none of them twice; the allocator, in the state in which it is when it is
asked, gives answers, and is left in the state after the last one; and the call returns and does what it does with an allocator without state that gives these answers
(and answers every other request as `S` does in some state). -/
theorem C67_conversation (hS : S.Lawful) (m : Mem c τ) (t : ω) (op : Op τ α) :
    ∃ (a : Alloc) (rs : List Request), a.Follows S ∧ rs.Nodup ∧
      S.talk t rs = (rs.map a.ask, (Stateful.step c S m t op).2.2) ∧
      stepWith c m a op = ((Stateful.step c S m t op).1, (Stateful.step c S m t op).2.1) := by
  obtain ⟨a, rs, ⟨h1, h2, h3⟩, h4⟩ := step_stateful c (fun cap n t k => hS.grow_ge cap n t k) m t op
  exact ⟨a, rs, h1, h2, h3, h4⟩

/-- **C67** Every call with an allocator whose answers depend on its hidden state, and on the requests made before in the same call, returns and
does what it does with an allocator without state, which answers every request as the first one does in some state. -/
theorem C67_call (hS : S.Lawful) (m : Mem c τ) (t : ω) (op : Op τ α) :
    ∃ a : Alloc, a.Follows S ∧ stepWith c m a op = ((Stateful.step c S m t op).1, (Stateful.step c S m t op).2.1) := by
  obtain ⟨a, -, h1, -, -, h2⟩ := C67_conversation hS m t op
  exact ⟨a, h1, h2⟩

/-- **C67** Every history with such an allocator is a history in which every call has an allocator without state. -/
theorem C67_history (hS : S.Lawful) : ∀ (ops : List (Op τ α)) (m : Mem c τ) (t : ω),
    ∃ as : List Alloc, as.length = ops.length ∧ (∀ a ∈ as, a.Follows S) ∧
      runWith c (as.zip ops) m = ((Stateful.run c S ops m t).1, (Stateful.run c S ops m t).2.1)
  | [], m, t => ⟨[], rfl, by simp, rfl⟩
  | o :: os, m, t => by
    obtain ⟨a, h1, h2⟩ := C67_call hS m t o
    obtain ⟨as, h3, h4, h5⟩ := C67_history hS os (Stateful.step c S m t o).2.1 (Stateful.step c S m t o).2.2
    refine ⟨a :: as, by simp [h3], ?_, ?_⟩
    · intro b hb
      rcases List.mem_cons.1 hb with rfl | hb
      · exact h1
      · exact h4 b hb
    · show ((stepWith c m a o).1 :: (runWith c (as.zip os) (stepWith c m a o).2).1, (runWith c (as.zip os) (stepWith c m a o).2).2) = _
      rw [h2, h5]
      rfl

/-- The calls that never ask the allocator. -/
def Op.noRequest : Op τ α → Bool
  | .len _ | .isEmpty _ | .get _ _ | .set _ _ _ | .pop _ | .remove _ _ | .swap _ _ _ | .swapRemove _ _ | .truncate _ _ | .clear _
  | .retain _ _ | .forEach _ _ | .eq _ _ | .any _ _ | .all _ _ | .toVec _ | .iterate _ _ | .hash _ => true
  | _ => false

theorem call_noRequest {β : Type} (m : Mem c τ) (a b : Alloc) (op : Op τ α) (r : Nat) (out : β → Out α) (f f' : M (EV c.W) β) (hf : f = f')
    (h1 : step (c.withAlloc a) ⟨m.reg, m.world⟩ op = Mem.call (c := c.withAlloc a) ⟨m.reg, m.world⟩ r f out)
    (h2 : step (c.withAlloc b) ⟨m.reg, m.world⟩ op = Mem.call (c := c.withAlloc b) ⟨m.reg, m.world⟩ r f' out) :
    stepWith c m a op = stepWith c m b op := by
  subst hf
  unfold stepWith
  rw [h1, h2]
  unfold Mem.call
  dsimp only
  rcases f (m.reg r) with ⟨e | x, s⟩ <;> rfl

theorem ask_noRequest {β : Type} (m : Mem c τ) (a b : Alloc) (op : Op τ α) (out : β → Out α) (v v' : Except Fault β) (hv : v = v')
    (h1 : step (c.withAlloc a) ⟨m.reg, m.world⟩ op = Mem.ask (c := c.withAlloc a) ⟨m.reg, m.world⟩ v out)
    (h2 : step (c.withAlloc b) ⟨m.reg, m.world⟩ op = Mem.ask (c := c.withAlloc b) ⟨m.reg, m.world⟩ v' out) :
    stepWith c m a op = stepWith c m b op := by
  subst hv
  unfold stepWith
  rw [h1, h2]
  unfold Mem.ask
  cases v <;> rfl

theorem callW_noRequest (m : Mem c τ) (a b : Alloc) (op : Op τ α) (r : Nat) (f f' : M (EV c.W × τ) Unit) (hf : f = f')
    (h1 : step (c.withAlloc a) ⟨m.reg, m.world⟩ op = Mem.callW (c := c.withAlloc a) ⟨m.reg, m.world⟩ r f)
    (h2 : step (c.withAlloc b) ⟨m.reg, m.world⟩ op = Mem.callW (c := c.withAlloc b) ⟨m.reg, m.world⟩ r f') :
    stepWith c m a op = stepWith c m b op := by
  subst hf
  unfold stepWith
  rw [h1, h2]
  unfold Mem.callW
  dsimp only
  rcases f (m.reg r, m.world) with ⟨e | x, s⟩ <;> rfl

set_option smartUnfolding false in
/-- **C67** These calls give the same result and effect with all allocators, in all states of the vectors. -/
theorem C67_no_request (m : Mem c τ) (a b : Alloc) (op : Op τ α) (h : op.noRequest = true) : stepWith c m a op = stepWith c m b op := by
  cases op with
  | get r i => exact call_noRequest m a b _ r _ (EV.get (c.withAlloc a) i) (EV.get (c.withAlloc b) i) (by with_unfolding_all rfl) rfl rfl
  | set r i x => exact call_noRequest m a b _ r _ (EV.set (c.withAlloc a) i x) (EV.set (c.withAlloc b) i x) (by with_unfolding_all rfl) rfl rfl
  | pop r => exact call_noRequest m a b _ r _ (EV.pop (c.withAlloc a)) (EV.pop (c.withAlloc b)) (by with_unfolding_all rfl) rfl rfl
  | remove r i => exact call_noRequest m a b _ r _ (EV.remove (c.withAlloc a) i) (EV.remove (c.withAlloc b) i) (by with_unfolding_all rfl) rfl rfl
  | swap r i j => exact call_noRequest m a b _ r _ (EV.swap (c.withAlloc a) i j) (EV.swap (c.withAlloc b) i j) (by with_unfolding_all rfl) rfl rfl
  | swapRemove r i =>
    exact call_noRequest m a b _ r _ (EV.swapRemove (c.withAlloc a) i) (EV.swapRemove (c.withAlloc b) i) (by with_unfolding_all rfl) rfl rfl
  | truncate r n => exact call_noRequest m a b _ r _ (EV.truncate (c.withAlloc a) n) (EV.truncate (c.withAlloc b) n) (by with_unfolding_all rfl) rfl rfl
  | clear r => exact call_noRequest m a b _ r _ (EV.clear (c.withAlloc a)) (EV.clear (c.withAlloc b)) (by with_unfolding_all rfl) rfl rfl
  | any r x => exact call_noRequest m a b _ r _ (EV.any (c.withAlloc a) x) (EV.any (c.withAlloc b) x) (by with_unfolding_all rfl) rfl rfl
  | all r x => exact call_noRequest m a b _ r _ (EV.all (c.withAlloc a) x) (EV.all (c.withAlloc b) x) (by with_unfolding_all rfl) rfl rfl
  | retain r f => exact callW_noRequest m a b _ r (EV.retain (c.withAlloc a) f) (EV.retain (c.withAlloc b) f) (by with_unfolding_all rfl) rfl rfl
  | forEach r f => exact callW_noRequest m a b _ r (EV.forEach (c.withAlloc a) f) (EV.forEach (c.withAlloc b) f) (by with_unfolding_all rfl) rfl rfl
  | eq r o =>
    exact ask_noRequest m a b _ _ (EV.eq (c.withAlloc a) (m.reg r) (m.reg o)) (EV.eq (c.withAlloc b) (m.reg r) (m.reg o))
      (by with_unfolding_all rfl) rfl rfl
  | toVec r => exact ask_noRequest m a b _ _ (EV.toVec (c.withAlloc a) (m.reg r)) (EV.toVec (c.withAlloc b) (m.reg r)) (by with_unfolding_all rfl) rfl rfl
  | hash r => exact ask_noRequest m a b _ _ (EV.hash (c.withAlloc a) (m.reg r)) (EV.hash (c.withAlloc b) (m.reg r)) (by with_unfolding_all rfl) rfl rfl
  | iterate r l =>
    exact ask_noRequest m a b _ _ (iterRun (c.withAlloc a) l (EV.iter (c.withAlloc a) (m.reg r))).1
      (iterRun (c.withAlloc b) l (EV.iter (c.withAlloc b) (m.reg r))).1 (by with_unfolding_all rfl) rfl rfl
  | len r => rfl
  | isEmpty r => rfl
  | _ => cases h

/-! ## What follows for histories -/

theorem marks_stateful (k : Nat → Mark) (m : Mem c τ) (a : Alloc) (op : Op τ α) :
    runMarks (c.withAlloc a) k ⟨m.reg, m.world⟩ op = Stateful.marks c k m op (stepWith c m a op).1.isUnit := by
  cases op with
  | truncate r n => cases n <;> rfl
  | _ => rfl

/-- `C67_history` with the marks. -/
theorem history_stateful (hS : S.Lawful) (P : (d : Inst α) → (Nat → Mark) → Mem d τ → Op τ α → Prop)
    (hP : ∀ a k (m : Mem c τ) o, P c k m o → P (c.withAlloc a) k ⟨m.reg, m.world⟩ o) :
    ∀ (ops : List (Op τ α)) (k : Nat → Mark) (m : Mem c τ) (t : ω),
    ∃ as : List Alloc, as.length = ops.length ∧ (∀ a ∈ as, a.Follows S) ∧
      runWith c (as.zip ops) m = ((Stateful.run c S ops m t).1, (Stateful.run c S ops m t).2.1) ∧
      (Stateful.Along c S (P c) ops k m t → AlongWith c P (as.zip ops) k m) ∧
      runMarksWith c (as.zip ops) k m = Stateful.marksAll c S ops k m t
  | [], k, m, t => ⟨[], rfl, by simp, rfl, fun _ => trivial, rfl⟩
  | o :: os, k, m, t => by
    obtain ⟨a, h1, h2⟩ := C67_call hS m t o
    obtain ⟨as, h3, h4, h5, h6, h7⟩ := history_stateful hS P hP os (Stateful.marks c k m o (Stateful.step c S m t o).1.isUnit)
      (Stateful.step c S m t o).2.1 (Stateful.step c S m t o).2.2
    refine ⟨a :: as, by simp [h3], ?_, ?_, fun ha => ⟨hP a k m o ha.1, ?_⟩, ?_⟩
    · intro b hb
      rcases List.mem_cons.1 hb with rfl | hb
      · exact h1
      · exact h4 b hb
    · show ((stepWith c m a o).1 :: (runWith c (as.zip os) (stepWith c m a o).2).1, (runWith c (as.zip os) (stepWith c m a o).2).2) = _
      rw [h2, h5]
      rfl
    · rw [marks_stateful, h2]
      exact h6 ha.2
    · show runMarksWith c (as.zip os) (runMarks (c.withAlloc a) k ⟨m.reg, m.world⟩ o) (stepWith c m a o).2 = _
      rw [marks_stateful, h2]
      exact h7

theorem zip_ok {B : Build} {n : Nat} {as : List Alloc} {ops : List (Op τ α)} (hS : S.Lawful) (hB : S.Bounded B n) (h : ∀ a ∈ as, a.Follows S) :
    ∀ p ∈ as.zip ops, p.1.Lawful ∧ p.1.Bounded B n := fun p hp =>
  have := h p.1 (List.of_mem_zip (a := p.1) (b := p.2) hp).1
  ⟨this.lawful hS, this.bounded hB⟩

theorem startS_safe (hB : S.Bounded c.build c.epb) : Safe c (Stateful.new c S) := ⟨Nat.zero_le _, Nat.zero_le _, hB.fresh⟩

/-- **C45, C28 (partial)** Memory safety (see `C28_memory_safety_partial`) for allocators with state (the parameter `c.alloc` is not used). -/
theorem C45_stateful_safety_partial (hc : c.Sound) (hS : S.Lawful) (hB : S.Bounded c.build c.epb) (w : τ) (t : ω) (ops : List (Op τ α))
    (ha : Stateful.Along c S (SafeUse c) ops (fun _ => .clean) (Stateful.start c S w) t) :
    .ub ∉ (Stateful.run c S ops (Stateful.start c S w) t).1 ∧
    ∀ r, Stateful.marksAll c S ops (fun _ => .clean) (Stateful.start c S w) t r ≠ .dead →
      Safe c ((Stateful.run c S ops (Stateful.start c S w) t).2.1.reg r) := by
  obtain ⟨as, -, h2, h3, h4, h5⟩ := history_stateful hS (fun d => SafeUse d)
    (fun a k m o h => by cases o <;> exact h) ops (fun _ => .clean) (Stateful.start c S w) t
  obtain ⟨g1, g2⟩ := runWith_safe hc (as.zip ops) (zip_ok hS hB h2) (k := fun _ => .clean) (m := Stateful.start c S w)
    (fun _ => startS_safe hB) (h4 ha)
  rw [h3] at g1 g2
  rw [h5] at g2
  exact ⟨g1, fun r hr => (g2 r).safe hr⟩

/-- **C45, C29 (partial)** Validity (see `C29_valid_partial`) for allocators with state. -/
theorem C45_stateful_valid_partial (hc : c.Ok) (hE : c.E.Consecutive) (hS : S.Lawful) (hB : S.Bounded c.build c.epb) (w : τ) (t : ω)
    (ops : List (Op τ α)) (ha : Stateful.Along c S (ValidUse c) ops (fun _ => .clean) (Stateful.start c S w) t) :
    .invalid ∉ (Stateful.run c S ops (Stateful.start c S w) t).1 ∧
    ∀ r, Stateful.marksAll c S ops (fun _ => .clean) (Stateful.start c S w) t r ≠ .dead →
      AllValid c ((Stateful.run c S ops (Stateful.start c S w) t).2.1.reg r) := by
  obtain ⟨as, -, h2, h3, h4, h5⟩ := history_stateful hS (fun d => ValidUse d)
    (fun a k m o h => by cases o <;> exact h) ops (fun _ => .clean) (Stateful.start c S w) t
  have hv := new_valid hc
  have hcl := new_clean hc
  obtain ⟨g1, g2⟩ := runWith_valid hc hE (as.zip ops) (zip_ok hS hB h2) (k := fun _ => .clean) (m := Stateful.start c S w)
    (fun _ => ⟨startS_safe hB, hv, hcl⟩) (h4 ha)
  rw [h3] at g1 g2
  rw [h5] at g2
  exact ⟨g1, fun r hr => (allValid_iff hc _).mpr ((g2 r).live hr).2⟩

section
variable [DecidableEq α]

/-- A history explained by `Vec`s, all of whose calls are allowed and none of which runs out of memory. -/
theorem explained_run : ∀ (ps : List (Alloc × Op τ α)) {k : Nat → Mark} {m : Mem c τ} {v : Vecs α τ}, Explained c ps k m v →
    AllowedRun c (ps.map Prod.snd) k v → .oom ∉ (runWith c ps m).1 →
    (runWith c ps m).1 = (vecRun c.E (ps.map Prod.snd) v).1 ∧ (runWith c ps m).2.world = (vecRun c.E (ps.map Prod.snd) v).2.world ∧
    ∀ r, marksRun c (ps.map Prod.snd) k v r ≠ .dead → Is c ((runWith c ps m).2.reg r) ((vecRun c.E (ps.map Prod.snd) v).2.reg r)
  | [], k, m, v, h, _, _ => ⟨rfl, h.1, h.2⟩
  | (a, o) :: ps, k, m, v, h, ha, hn => by
    simp only [runWith, List.mem_cons, not_or] at hn
    rcases h.2 ha.1 with ⟨h1, -, h3⟩ | ⟨h1, -⟩
    · obtain ⟨g1, g2, g3⟩ := explained_run ps h3 ha.2 hn.2
      refine ⟨?_, g2, g3⟩
      show _ :: _ = _ :: _
      rw [h1, g1]
    · exact absurd h1.symm hn.1

/-- **C45 (partial)** Refinement for allocators with state: an allowed history in which no allocation fails returns what the history on
`Vec`s returns, and ends with the same contents. -/
theorem C45_stateful_partial (hc : c.Ok) (hS : S.Lawful) (hB : S.Bounded c.build c.epb) (w : τ) (t : ω) (ops : List (Op τ α))
    (ha : AllowedRun c ops (fun _ => .clean) (Vecs.start w)) (ho : .oom ∉ (Stateful.run c S ops (Stateful.start c S w) t).1) :
    (Stateful.run c S ops (Stateful.start c S w) t).1 = (vecRun c.E ops (Vecs.start w)).1 ∧
    (Stateful.run c S ops (Stateful.start c S w) t).2.1.world = (vecRun c.E ops (Vecs.start w)).2.world ∧
    ∀ r, marksRun c ops (fun _ => .clean) (Vecs.start w) r ≠ .dead →
      Is c ((Stateful.run c S ops (Stateful.start c S w) t).2.1.reg r) ((vecRun c.E ops (Vecs.start w)).2.reg r) := by
  obtain ⟨as, h1, h2, h3⟩ := C67_history hS ops (Stateful.start c S w) t
  have he := explained hc (as.zip ops) (zip_ok hS hB h2) (k := fun _ => .clean) (m := Stateful.start c S w) (v := Vecs.start w)
    ⟨rfl, fun _ => ⟨⟨startS_safe hB, rfl, fun i h => absurd h (by simp [Vecs.start])⟩, new_clean hc⟩⟩
  have em : (as.zip ops).map Prod.snd = ops := List.map_snd_zip (by omega)
  have := explained_run (as.zip ops) he (by rw [em]; exact ha) (by rw [h3]; exact ho)
  rw [em, h3] at this
  exact this

/-- **C45 (partial)** Recovery for allocators with state: the history is explained by a history of `Vec`s (see `C45_recover_partial`), where the refusals
are those of the allocator. -/
theorem C45_stateful_recover_partial (hc : c.Ok) (hS : S.Lawful) (hB : S.Bounded c.build c.epb) (w : τ) (t : ω) (ops : List (Op τ α)) :
    ∃ as : List Alloc, as.length = ops.length ∧ (∀ a ∈ as, a.Follows S) ∧
      runWith c (as.zip ops) (Stateful.start c S w) =
        ((Stateful.run c S ops (Stateful.start c S w) t).1, (Stateful.run c S ops (Stateful.start c S w) t).2.1) ∧
      Explained c (as.zip ops) (fun _ => .clean) (Stateful.start c S w) (Vecs.start w) := by
  obtain ⟨as, h1, h2, h3⟩ := C67_history hS ops (Stateful.start c S w) t
  exact ⟨as, h1, h2, h3, explained hc (as.zip ops) (zip_ok hS hB h2) (k := fun _ => .clean) (m := Stateful.start c S w) (v := Vecs.start w)
    ⟨rfl, fun _ => ⟨⟨startS_safe hB, rfl, fun i h => absurd h (by simp [Vecs.start])⟩, new_clean hc⟩⟩⟩

end

/-! ## Examples -/

/-- A heap of `t` blocks that are used up: what is granted is exactly what is asked for, at most 1000 blocks. -/
def heap : SAlloc Nat where
  fresh := 0
  exact n t := if n ≤ t ∧ n ≤ 1000 then (some n, t - n) else (none, t)
  grow _ n t := if n ≤ t ∧ n ≤ 1000 then (some n, t - n) else (none, t)
  shrinkTo _ len t := (len, t)

theorem heap_lawful : heap.Lawful where
  exact_ge n t k h := by
    simp only [heap] at h
    split at h
    · cases h; exact Nat.le_refl _
    · cases h
  grow_ge cap n t k h := by
    simp only [heap] at h
    split at h
    · cases h; exact Nat.le_refl _
    · cases h
  shrink_ge _ _ _ _ := Nat.le_refl _

theorem heap_bounded {B : Build} {n : Nat} (h : n ≤ 128) : heap.Bounded B n := by
  have hl := B.lt_usizeLim (n := 1000000) (by omega)
  have key : ∀ k, k ≤ 1000 → (k + 1) * n + 4 < B.usizeLim := fun k hk => by
    have : (k + 1) * n ≤ 1001 * 128 := Nat.mul_le_mul (by omega) h
    omega
  refine ⟨key 0 (by omega), fun n t k h => ?_, fun cap n t k h => ?_, fun _ _ _ h => h⟩ <;>
  · simp only [heap] at h
    split at h
    · rename_i hn; cases h; exact key _ hn.2
    · cases h

/-- A heap of 18 blocks (the state the history starts in). `extend` with 60 elements of unknown number asks five times, for 2, 3, 4, 5 and 6 blocks: the
heap grants the first four and refuses the fifth (3 blocks are left), so the call panics having added 47 elements. Smaller requests are granted afterwards. -/
def heapHistory : List (Op Nat (Fin 8)) :=
  [.fromVec 0 [1, 2, 3], .extend 0 ⟨0, List.replicate 60 5, false⟩, .len 0, .push 1 7, .truncate 0 10, .shrinkToFit 0, .push 1 6, .clone 2 0, .remove 0 3,
   .resize 1 100 2, .toVec 1]

example : Stateful.Along c8 heap (SafeUse c8) heapHistory (fun _ => .clean) (Stateful.start c8 heap 0) 18 ∧
    Stateful.Along c8 heap (ValidUse c8) heapHistory (fun _ => .clean) (Stateful.start c8 heap 0) 18 ∧
    (Stateful.run c8 heap heapHistory (Stateful.start c8 heap 0) 18).1 =
      [.unit, .oom, .num 50, .unit, .unit, .unit, .unit, .unit, .val 5, .oom, .list [7, 6]] ∧
    (Stateful.run c8 heap heapHistory (Stateful.start c8 heap 0) 18).2.2 = 1 := by
  decide +kernel

/-- The conversation of that `extend`: after 1 block for `fromVec`, the heap has 17; the answers are `2, 3, 4, 5` and a refusal. -/
example : heap.talk 17 [.grow 1 2, .grow 2 3, .grow 3 4, .grow 4 5, .grow 5 6] = ([some 2, some 3, some 4, some 5, none], 3) ∧
    (Stateful.run c8 heap (heapHistory.take 2) (Stateful.start c8 heap 0) 18).2.2 = 3 := by decide +kernel

/-- No allocator without state gives these results: the request for one block is granted in the first call and refused in the second. -/
example : (Stateful.run c8 heap [.push 0 1, .push 1 2] (Stateful.start c8 heap 0) 1).1 = [.unit, .oom] := by decide +kernel

example : AllowedRun c8 exHistory (fun _ => .clean) (Vecs.start 0) ∧
    .oom ∉ (Stateful.run c8 heap exHistory (Stateful.start c8 heap 0) 500).1 := by decide +kernel

example : c8.epb ≤ 128 := by decide

end EnumVecModel
