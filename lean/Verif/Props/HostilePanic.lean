import Verif.Lemmas.HostileRef
import Verif.Lemmas.HostilePanic
import Verif.Props.Hostile
import Verif.Props.History

/-! # Implementations of `EnumLike` that panic (C57, C58) -/

namespace EnumVecModel
namespace Hostile
open EV

variable {α τ ρ ω ι : Type} {c : Inst α}

/-! ## Honest implementations (C57) -/

/-- **C57** An honest implementation of `EnumLike` and `Clone` returns the right values when it returns, but any call may panic, or have side effects on its own
data. As long as no call of a history has panicked, the results, the vectors and the data of the closures are those with an implementation that never panics. -/
theorem C57_returns {h : Impl (τ × ρ) α} (hh : h.Honest c.E) : ∀ (ops : List (Op τ α)) (m : Mem c (τ × ρ)),
    (∀ out ∈ (runAll c h (ops.map fun o => .op (liftOp o)) m).1, panicked out = false) →
    (runAll c h (ops.map fun o => .op (liftOp o)) m).1 = (EnumVecModel.runAll c ops ⟨m.reg, m.world.1⟩).1 ∧
    (runAll c h (ops.map fun o => .op (liftOp o)) m).2.reg = (EnumVecModel.runAll c ops ⟨m.reg, m.world.1⟩).2.reg ∧
    (runAll c h (ops.map fun o => .op (liftOp o)) m).2.world.1 = (EnumVecModel.runAll c ops ⟨m.reg, m.world.1⟩).2.world
  | [], _, _ => ⟨rfl, rfl, rfl⟩
  | o :: os, m, hp => by
    simp only [List.map_cons, runAll, EnumVecModel.runAll, List.mem_cons, forall_eq_or_imp] at hp ⊢
    rcases step_ref hh m o with ⟨-, h1⟩ | ⟨h1, h2, h3⟩
    · rw [hp.1] at h1; cases h1
    · obtain ⟨g1, g2, g3⟩ := C57_returns hh os _ hp.2
      have e : (⟨(step c h m (.op (liftOp o))).2.reg, (step c h m (.op (liftOp o))).2.world.1⟩ : Mem c τ) = (EnumVecModel.step c ⟨m.reg, m.world.1⟩ o).2 := by
        rw [h2, h3]
      rw [e] at g1 g2 g3
      exact ⟨by rw [h1, g1], g2, g3⟩

theorem run_eq_runAll : ∀ (ops : List (Op τ α)) (m : Mem c τ), .oom ∉ (EnumVecModel.runAll c ops m).1 → run c ops m = EnumVecModel.runAll c ops m
  | [], _, _ => rfl
  | o :: os, m, ho => by
    simp only [EnumVecModel.runAll, List.mem_cons, not_or] at ho
    unfold run EnumVecModel.runAll
    rcases hx : EnumVecModel.step c m o with ⟨out, m'⟩
    rw [hx] at ho
    have ih := run_eq_runAll os m' ho.2
    cases out with
    | oom => exact absurd rfl ho.1
    | _ => simp only [ih]

/-- **C57** So a history that behaves like on `Vec`s (see C01) also does so with such an implementation, if no call panics and no allocation fails. -/
theorem C57_like_vec [DecidableEq α] (hc : c.Ok) {h : Impl (τ × ρ) α} (hh : h.Honest c.E) (w : τ × ρ) (ops : List (Op τ α))
    (ha : AllowedRun c ops (fun _ => .clean) (Vecs.start w.1))
    (hp : ∀ out ∈ (runAll c h (ops.map fun o => .op (liftOp o)) (Mem.start c w)).1, panicked out = false ∧ out ≠ .oom) :
    (runAll c h (ops.map fun o => .op (liftOp o)) (Mem.start c w)).1 = (vecRun c.E ops (Vecs.start w.1)).1 ∧
    ∀ r, marksRun c ops (fun _ => .clean) (Vecs.start w.1) r ≠ .dead →
      Is c ((runAll c h (ops.map fun o => .op (liftOp o)) (Mem.start c w)).2.reg r) ((vecRun c.E ops (Vecs.start w.1)).2.reg r) := by
  obtain ⟨h1, h2, -⟩ := C57_returns hh ops (Mem.start c w) fun out ho => (hp out ho).1
  replace h1 : _ = (EnumVecModel.runAll c ops (Mem.start c w.1)).1 := h1
  replace h2 : _ = (EnumVecModel.runAll c ops (Mem.start c w.1)).2.reg := h2
  have ho : .oom ∉ (EnumVecModel.runAll c ops (Mem.start c w.1)).1 := by
    rw [← h1]; exact fun hm => (hp _ hm).2 rfl
  rw [h1, h2, ← run_eq_runAll ops _ ho] at *
  rcases C01_history_partial hc w.1 ops ha with ⟨g1, -, g3⟩ | ⟨pre, op, post, -, g1, -⟩
  · exact ⟨g1, g3⟩
  · rw [g1] at ho; simp at ho

/-- **C57** `for_each`: if user code panics (the closure, `to_discr` or `from_discr`), the elements visited so far have been replaced by the closure's answers and
all others are as before. -/
theorem C57_for_each (hc : c.Ok) {h : Impl (τ × ρ) α} (hh : h.Honest c.E) (f : Closure (τ × ρ) α α) {s : EV c.W} {l : List α} (hs : Is c s l) (w : τ × ρ) :
    ∃ r s' w' ys, forEach c h f (s, w) = (r, (s', w')) ∧ ys.length ≤ l.length ∧ Is c s' (ys ++ l.drop ys.length) ∧
      (∀ (i : Nat) x y, l[i]? = some x → ys[i]? = some y → Answers f x y) ∧ (r = .ok () ∧ ys.length = l.length ∨ UserPanic r) := by
  obtain ⟨r, s', w', ys, h1, h2, h3, h4⟩ := forEach_honest hh hc f ((is_iff hc).mp hs) w
  exact ⟨r, s', w', ys, h1, h2, (is_iff hc).mpr h3, h4⟩

/-- **C57** `retain`: `bs` are the predicate's answers so far. If it returns, all elements were asked and the accepted ones remain. If user code panics, the
vector has its old length: the elements accepted so far, followed by the old elements from that position on. -/
theorem C57_retain (hc : c.Ok) {h : Impl (τ × ρ) α} (hh : h.Honest c.E) (f : Closure (τ × ρ) α Bool) {s : EV c.W} {l : List α} (hs : Is c s l) (w : τ × ρ) :
    ∃ r s' w' bs, retain c h f (s, w) = (r, (s', w')) ∧ bs.length ≤ l.length ∧ (∀ (i : Nat) x b, l[i]? = some x → bs[i]? = some b → Answers f x b) ∧
      (r = .ok () ∧ bs.length = l.length ∧ Is c s' (accepted l bs) ∨
       UserPanic r ∧ Is c s' (accepted l bs ++ l.drop (accepted l bs).length)) := by
  obtain ⟨r, s', w', bs, h1, h2, h3, h4⟩ := retain_honest hh hc f ((is_iff hc).mp hs) w
  simp only [is_iff hc]
  exact ⟨r, s', w', bs, h1, h2, h3, h4⟩

/-! ### Not vacuous -/

/-- Counts the calls, panics at the `p`-th. -/
def hCount (p : Nat) : Impl (Nat × Nat) (Fin 8) where
  toDiscr x w := (if w.2 = p then none else some x.val, (w.1, w.2 + 1))
  fromDiscr d w := (if w.2 = p then none else (finLike 8).fromDiscr d, (w.1, w.2 + 1))
  clone x w := (if w.2 = p then none else some x, (w.1, w.2 + 1))

theorem hCount_honest (p : Nat) : (hCount p).Honest c8.E where
  toDiscr x w d w' hx := by
    simp only [hCount, Prod.mk.injEq] at hx
    obtain ⟨h1, rfl⟩ := hx
    split at h1
    · cases h1
    · cases h1; exact ⟨rfl, rfl⟩
  fromDiscr d w a w' hx := by
    simp only [hCount, Prod.mk.injEq] at hx
    obtain ⟨h1, rfl⟩ := hx
    split at h1
    · cases h1
    · exact ⟨h1, rfl⟩
  clone x w y w' hx := by
    simp only [hCount, Prod.mk.injEq] at hx
    obtain ⟨h1, rfl⟩ := hx
    split at h1
    · cases h1
    · cases h1; exact ⟨rfl, rfl⟩

/-- `exHistory` of C01 without its panicking calls: it calls user code more than 200 times, the panic would come at the 1000th call. -/
def calmHistory : List (Op Nat (Fin 8)) := exHistory.filter fun
  | .set _ 99 _ | .extend _ _ | .splitOff _ _ _ => false
  | _ => true

example : AllowedRun c8 calmHistory (fun _ => .clean) (Vecs.start 0) ∧
    ∀ out ∈ (runAll c8 (hCount 1000) (calmHistory.map fun o => .op (liftOp o)) (Mem.start c8 (0, 0))).1, panicked out = false ∧ out ≠ .oom := by decide +kernel

example : 200 < (runAll c8 (hCount 1000) (calmHistory.map fun o => .op (liftOp o)) (Mem.start c8 (0, 0))).2.world.2 := by decide +kernel

/-! ## What a panic of user code leaves (C58) -/

/-- **C58** Whatever the implementation of `EnumLike` is (also one that lies), a panic of user code inside `get`, `any`, `all`, `set`, `pop` and `remove` leaves the vector
as it was. -/
theorem C58_unchanged (hc : c.Sound) (h : Impl ω α) (s : EV c.W) (w : ω) :
    (∀ i, (get c h i (s, w)).2.1 = s) ∧ (∀ x, (any c h x (s, w)).2.1 = s) ∧ (∀ x, (all c h x (s, w)).2.1 = s) ∧
    (∀ i x, UserPanic (set c h i x (s, w)).1 → (set c h i x (s, w)).2.1 = s) ∧
    (UserPanic (pop c h (s, w)).1 → (pop c h (s, w)).2.1 = s) ∧
    (∀ i, UserPanic (remove c h i (s, w)).1 → (remove c h i (s, w)).2.1 = s) :=
  ⟨fun i => get_fst h hc i (s, w), fun x => any_ro h x (s, w), fun x => all_ro h x (s, w), fun i x => set_panic h i x (s, w), pop_panic h hc (s, w),
    fun i => remove_panic h hc i (s, w)⟩

/-- All elements of `s` are still there in `s'`, at their places. -/
structure Kept (c : Inst α) (s s' : EV c.W) : Prop where
  safe : Safe c s'
  len : EV.len c s ≤ EV.len c s'
  elems : ∀ i, i < EV.len c s → EV.rawUnchecked c s' i = EV.rawUnchecked c s i

theorem kept_of_front (hc : c.Sound) {s : EV c.W} (hs : Safe c s) {s' : EV c.W} (hf : Front c s.num (raw c s) s') : Kept c s s' := by
  refine ⟨hf.safe, hf.le, fun i hi => ?_⟩
  replace hi : i < s.num := hi
  have h1 : s.num ≤ s.storage.data.length * c.epb := hs.cover
  have h2 : s'.num ≤ s'.storage.data.length * c.epb := hf.safe.cover
  have h3 : s.num ≤ s'.num := hf.le
  rw [rawUnchecked_ok hc s (by omega), rawUnchecked_ok hc s' (by omega), hf.eq i hi]

/-- **C58** `push`, `extend` (with an arbitrary iterator, which may be stopped anywhere, unless the block vector is dropped at its start, see C66) and `resize` to a larger
length keep the elements of the vector, however they end; `insert` does if it is ended by a panic of user code. (The length may have grown already, see `C58_not_atomic`.) -/
theorem C58_keeps (hc : c.Sound) (h : Impl ω α) {s : EV c.W} (hs : Safe c s) (w : ω) :
    (∀ x, Kept c s (push c h x (s, w)).2.1) ∧
    (∀ (I : Iter ω ι α) n t, (∀ k ∈ (I.hint t w).1, ¬ c.Drops (len c s + k)) → Kept c s (extend c h I n t (s, w)).2.1) ∧
    (∀ n x, len c s ≤ n → Kept c s (resize c h n x (s, w)).2.1) ∧
    (∀ i x, UserPanic (insert c h i x (s, w)).1 → Kept c s (insert c h i x (s, w)).2.1) := by
  have hf : Front c s.num (raw c s) s := ⟨hs, Nat.le_refl _, fun _ _ => rfl⟩
  exact ⟨fun x => kept_of_front hc hs (push_front h hc x (s, w) hf), fun I n t hw => kept_of_front hc hs (extend_front h hc I n t hf hw),
    fun n x hn => kept_of_front hc hs (resize_front h hc hn x (s, w) hf), fun i x hu => kept_of_front hc hs (insert_panic_front h hc i x (s, w) hu hf)⟩

/-- **C58** Then `truncate` to the old length restores the old contents. -/
theorem C58_restore (hc : c.Ok) {s s' : EV c.W} {l : List α} (hs : Is c s l) (hk : Kept c s s') :
    ∃ s'', truncate c l.length s' = (.ok (), s'') ∧ Is c s'' l := by
  have hh := (is_iff hc).mp hs
  refine ⟨_, truncate_eq hc s' l.length, (is_iff hc).mpr ?_⟩
  have hlen : s.num = l.length := hh.len_eq
  have hle : s.num ≤ s'.num := hk.len
  rw [Nat.min_eq_left (by omega)]
  refine ⟨hk.safe.setNum hc (by omega), rfl, fun i hi => ?_⟩
  have h1 := hk.elems i (by show i < s.num; omega)
  have h2 : s'.num ≤ s'.storage.data.length * c.epb := hk.safe.cover
  rw [hs.discr i hi, rawUnchecked_ok hc s' (by omega)] at h1
  have : raw c s' i = c.E.toDiscr l[i] := Except.ok.inj h1
  exact this

/-- **C58** A panic inside `swap_remove` comes after the swap: nothing is lost, but two elements have changed places. -/
theorem C58_swap_remove (hc : c.Ok) (h : Impl ω α) {s : EV c.W} {l : List α} (hs : Is c s l) {i : Nat} (hi : i < l.length) (w : ω)
    (hu : UserPanic (swapRemove c h i (s, w)).1) :
    Is c (swapRemove c h i (s, w)).2.1 ((l.set i (l[l.length - 1]'(by omega))).set (l.length - 1) l[i]) :=
  (is_iff hc).mpr (swapRemove_panic hc h ((is_iff hc).mp hs) hi w hu)

/-- **C58** `push`, `insert` and `extend` are not atomic: after a panic in `to_discr` the vector is longer, and the new element is whatever the storage contains there
(here a popped 5). -/
theorem C58_not_atomic :
    (runAll c8 (hCount 3) [.op (.fromVec 0 [1, 5]), .op (.pop 0), .op (.push 0 2), .op (.toVec 0)] (Mem.start c8 (0, 0))).1 =
      [.unit, .item (some 5), .panic, .list [1, 5]] ∧
    (runAll c8 (hCount 2) [.op (.fromVec 0 [1, 5]), .op (.insert 0 0 2), .op (.toVec 0)] (Mem.start c8 (0, 0))).1 = [.unit, .panic, .list [1, 5, 0]] ∧
    (runAll c8 (hCount 3) [.op (.fromVec 0 [1, 5]), .op (.extend 0 ⟨3, [2, 2, 2], false⟩), .op (.toVec 0)] (Mem.start c8 (0, 0))).1 =
      [.unit, .panic, .list [1, 5, 2, 0, 0]] := by decide +kernel

/-! ### Not vacuous: user code panics in all of these -/

example : UserPanic (set c8 (hCount 0) 0 3 (v12, (0, 0))).1 ∧ UserPanic (pop c8 (hCount 0) (v12, (0, 0))).1 ∧ UserPanic (remove c8 (hCount 0) 2 (v12, (0, 0))).1 ∧
    UserPanic (insert c8 (hCount 1) 2 3 (v12, (0, 0))).1 ∧ UserPanic (swapRemove c8 (hCount 0) 2 (v12, (0, 0))).1 ∧
    UserPanic (push c8 (hCount 0) 2 (v12, (0, 0))).1 ∧ UserPanic (resize c8 (hCount 16) 200 2 (v12, (0, 0))).1 ∧
    UserPanic (forEach c8 (hCount 5) (fun x w => (some (x + 1), w)) (v12, (0, 0))).1 ∧
    UserPanic (retain c8 (hCount 5) (fun x w => (some (x.val % 2 = 0), w)) (v12, (0, 0))).1 := by
  unfold UserPanic; decide +kernel

end Hostile
end EnumVecModel
