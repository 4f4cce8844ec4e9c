import Verif.Lemmas.CallsIter
import Verif.Lemmas.HostileRef
import Verif.Props.HostilePanic

/-! # C72: which user code is called -/

namespace EnumVecModel
namespace Hostile
open EV

variable {α ω ι : Type} {c : Inst α}

/-! ## Watching changes nothing -/

theorem watched_iref (h : Impl ω α) : IRef False Prod.fst h.watched h where
  toDiscr _ _ := Or.inr ⟨rfl, rfl⟩
  fromDiscr _ _ := Or.inr ⟨rfl, rfl⟩
  clone _ _ := Or.inr ⟨rfl, rfl⟩

theorem watched_step (h : Impl ω α) (m : Mem c (ω × List (Ev α))) (o : Op ω α) :
    Agree False Prod.fst (step c h.watched m (.op (watchedOp o))) (step c h ⟨m.reg, m.world.1⟩ (.op o)) := by
  have hr := watched_iref h
  have key := step_lift (c := c) hr m o
  cases o with
  | retain r f => exact onReg_ref (retain_ref hr fun _ _ => Or.inr ⟨rfl, rfl⟩) _
  | forEach r f => exact onReg_ref (forEach_ref hr fun _ _ => Or.inr ⟨rfl, rfl⟩) _
  | _ => exact key

/-- **C72** The observer sees the calls and changes nothing: a history with watched user code has the same results, vectors and side effects. -/
theorem C72_watching (h : Impl ω α) : ∀ (ops : List (Op ω α)) (m : Mem c (ω × List (Ev α))),
    (runAll c h.watched (ops.map fun o => .op (watchedOp o)) m).1 = (runAll c h (ops.map .op) ⟨m.reg, m.world.1⟩).1 ∧
    (runAll c h.watched (ops.map fun o => .op (watchedOp o)) m).2.reg = (runAll c h (ops.map .op) ⟨m.reg, m.world.1⟩).2.reg ∧
    (runAll c h.watched (ops.map fun o => .op (watchedOp o)) m).2.world.1 = (runAll c h (ops.map .op) ⟨m.reg, m.world.1⟩).2.world
  | [], _ => ⟨rfl, rfl, rfl⟩
  | o :: os, m => by
    simp only [List.map_cons, runAll]
    rcases watched_step h m o with ⟨h1, -⟩ | ⟨h1, h2, h3⟩
    · exact h1.elim
    · have ih := C72_watching h os (step c h.watched m (.op (watchedOp o))).2
      have e : (⟨(step c h.watched m (.op (watchedOp o))).2.reg, (step c h.watched m (.op (watchedOp o))).2.world.1⟩ : Mem c ω) =
          (step c h ⟨m.reg, m.world.1⟩ (.op o)).2 := by rw [h2, h3]
      rw [e] at ih
      exact ⟨by rw [h1, ih.1], ih.2⟩

/-! ## The calls -/

variable (h : Impl ω α)

/-- **C72** Whatever the implementation of `EnumLike` does (also if it lies or panics), on a vector that holds `l`: `get(i)`, `remove(i)`, `swap_remove(i)` call `from_discr` once, with the
discriminant of `l[i]`, if `i` is below the length, and nothing otherwise; `pop` does so for the last element. `set(i, x)` calls `to_discr(x)` once, also if `i` is
out of bounds. `any(x)` and `all(x)` call `to_discr(x)` once, however long the vector is, and nothing if it is empty. -/
theorem C72_single (hc : c.Ok) {s : EV c.W} {l : List α} (hs : Is c s l) (w : ω) :
    (∀ i, callsOf (get c h.watched i) s w = (l[i]?.map fun x => Ev.fromDiscr (c.E.toDiscr x)).toList) ∧
    (∀ i, callsOf (remove c h.watched i) s w = (l[i]?.map fun x => Ev.fromDiscr (c.E.toDiscr x)).toList) ∧
    (∀ i, callsOf (swapRemove c h.watched i) s w = (l[i]?.map fun x => Ev.fromDiscr (c.E.toDiscr x)).toList) ∧
    callsOf (pop c h.watched) s w = (l.getLast?.map fun x => Ev.fromDiscr (c.E.toDiscr x)).toList ∧
    (∀ i x, callsOf (set c h.watched i x) s w = [.toDiscr x]) ∧
    (∀ x, callsOf (any c h.watched x) s w = if l = [] then [] else [.toDiscr x]) ∧
    (∀ x, callsOf (all c h.watched x) s w = if l = [] then [] else [.toDiscr x]) := by
  have hh := (is_iff hc).mp hs
  have he : isEmpty c s = true ↔ l = [] := by
    have := hh.len_eq
    simp only [isEmpty, len, ← List.length_eq_zero_iff, beq_iff_eq]; omega
  refine ⟨fun i => get_log h hc.sound hh i w [], fun i => remove_log h hc.sound hh i w [], fun i => swapRemove_log h hc hh i w [], ?_,
    fun i x => set_log h i x _, fun x => ?_, fun x => ?_⟩
  · have := pop_log h hc.sound hh w []
    unfold callsOf
    rw [List.getLast?_eq_getElem?, this]; rfl
  · refine (any_log h x s w []).trans ?_
    simp only [he]; rfl
  · refine (all_log h x s w []).trans ?_
    simp only [he]; rfl

/-- **C72** `push(x)` calls `to_discr(x)` once and `insert(i, x)` twice. (If they panic before, for want of memory, not.) -/
theorem C72_push_insert (s : EV c.W) (w : ω) :
    (∀ x, Makes (push c h.watched x) s w [.toDiscr x]) ∧ ∀ i x, Makes (insert c h.watched i x) s w [.toDiscr x, .toDiscr x] :=
  ⟨fun x => (push_makes h x _).makes, fun i x => (insert_makes h i x _).makes⟩

theorem flat_toDiscr (xs : List α) : (xs.flatMap fun x => ([] : List (Ev α)) ++ [Ev.toDiscr x]) = xs.map .toDiscr := by
  induction xs with
  | nil => rfl
  | cons x xs ih => rw [List.flatMap_cons, ih]; rfl

/-- **C72** `extend` and `collect` (`ofSrc`: an iterator with an arbitrary size hint, which may panic at the end) and `from(Vec)` call `to_discr` once for each item, in order. `from_slice`
clones each item first. -/
theorem C72_extend (s : EV c.W) (w : ω) :
    (∀ it : Src α, Makes (extend c h.watched (ofSrc it) (it.items.length + 1) it.items) s w (it.items.map .toDiscr)) ∧
    (∀ xs : List α, Makes (extend c h.watched moved (xs.length + 1) xs) s w (xs.map .toDiscr)) ∧
    (h.Clones → ∀ xs : List α, Makes (extend c h.watched (cloned h.watched) (xs.length + 1) xs) s w (xs.flatMap fun x => [.clone x, .toDiscr x])) := by
  refine ⟨fun it => ?_, fun xs => ?_, fun hk xs => (extend_makes h (fun _ => rfl) (Nat.lt_succ_self _) (feedsLog_cloned h hk xs) _).makes⟩
  · have := (extend_makes (c := c) h (fun _ => rfl) (Nat.lt_succ_self _) (feedsLog_ofSrc (ω := ω) it it.items) (s, (w, []))).makes
    rwa [flat_toDiscr] at this
  · have := (extend_makes (c := c) h (fun _ => rfl) (Nat.lt_succ_self _) (feedsLog_moved (ω := ω) xs) (s, (w, []))).makes
    rwa [flat_toDiscr] at this

/-- **C72** `resize` (also `from_elem`, on an empty vector: `C72_from_elem`) to a smaller length calls nothing. To a larger length: see `fillCalls`. -/
theorem C72_resize (hk : h.Clones) (s : EV c.W) (w : ω) (n : Nat) (x : α) :
    Makes (resize c h.watched n x) s w (if n > len c s then fillCalls c.epb (len c s) (n - len c s) x else []) :=
  (resize_makes h hk x n s (w, [])).makes

/-- **C72** -/
theorem C72_from_elem (hk : h.Clones) (w : ω) (n : Nat) (x : α) :
    Makes (extendWithValue c h.watched x n) (EV.new c) w (fillCalls c.epb 0 n x) :=
  (extendWithValue_makes h hk x n (EV.new c) (w, [])).makes

theorem cloneEach_length (x : α) : ∀ n, (cloneEach n x).length = 2 * n
  | 0 => rfl
  | n + 1 => by simp only [cloneEach, List.length_cons, cloneEach_length x n]; omega

/-- **C72** However large the new length is, `resize` makes at most 8 calls per element of a block: their number does not grow with the length. -/
theorem C72_resize_bounded (hc : c.Sound) (hk : h.Clones) (s : EV c.W) (w : ω) (n : Nat) (x : α) : (callsOf (resize c h.watched n x) s w).length ≤ 8 * c.epb := by
  refine Nat.le_trans (List.IsPrefix.length_le (C72_resize h hk s w n x).sub) ?_
  have hb := hc.epb_pos
  split
  · unfold fillCalls
    split
    · rw [cloneEach_length]; omega
    · rw [List.length_append, List.length_cons, cloneEach_length, cloneEach_length]
      have := Nat.mod_lt (n - len c s - (c.epb - len c s % c.epb)) hb
      omega
  · simp

/-- **C72** Iterators: any calls of `next`, `next_back`, `nth`, `size_hint` call `from_discr` once for every item they return, in this order, and nothing else: `nth(n)` does not decode the
elements it skips. `to_vec` calls it once for each element. -/
theorem C72_iterate (hc : c.Ok) {s : EV c.W} {l : List α} (hs : Is c s l) (w : ω) :
    (∀ os, Makes (iterRun c h.watched os) (EV.iter c s) w (itemCalls c.E (iterSpecRun os l).1)) ∧
    (toVec c h.watched s (w, [])).2.2 <+: l.map (fun x => .fromDiscr (c.E.toDiscr x)) ∧
    ∀ xs, (toVec c h.watched s (w, [])).1 = .ok xs → (toVec c h.watched s (w, [])).2.2 = l.map fun x => .fromDiscr (c.E.toDiscr x) := by
  have hh := (is_iff hc).mp hs
  have hy := yields_iter hh
  have hlen : len c s = l.length := hh.len_eq
  have key := (collect_makes h hc hh (len c s + 1) hy (by omega) (w, [])).makes
  exact ⟨fun os => (iterRun_makes h hc hh os hy (w, [])).makes, key.sub, key.all⟩

/-- **C72** `for_each` and `retain`, for an implementation that keeps the contract: each element in order, decoded once and passed to the closure once; `for_each` encodes each answer, `retain` each element it
keeps (also if it stays in place). After a panic of the closure nothing is called any more. -/
theorem C72_closures (hc : c.Ok) {s : EV c.W} {l : List α} (hs : Is c s l) (w : ω) :
    (∀ f : Closure ω α α, callsOf (forEach c (Impl.of c.E).watched (watched .closure f)) s w = forEachCalls c.E f l w) ∧
    (∀ f : Closure ω α Bool, callsOf (retain c (Impl.of c.E).watched (watched .closure f)) s w = retainCalls c.E f l w) := by
  have hh := (is_iff hc).mp hs
  exact ⟨fun f => forEach_log hc f hh w [], fun f => retain_log hc f hh w []⟩

/-- The calls that use no user code. -/
def usesNone : Op ω α → Bool
  | .new _ | .withCapacity _ _ | .clone _ _ | .len _ | .isEmpty _ | .swap _ _ _ | .truncate _ _ | .clear _ | .reserve _ _ | .shrinkToFit _
  | .append _ _ | .splitOff _ _ _ | .eq _ _ | .hash _ => true
  | _ => false

/-- **C72** All others, among them `clone`, `==`, `hash`, `swap`, `append` and `split_off`, call no user code at all. -/
theorem C72_none (m : Mem c (ω × List (Ev α))) (o : Op (ω × List (Ev α)) α) (ho : usesNone o = true) : (step c h.watched m (.op o)).2.world = m.world := by
  cases o with
  | new r => rfl
  | withCapacity r n => simp only [step, EnumVecModel.step, Mem.assign]; cases EV.withCapacity c n <;> rfl
  | clone r q => simp only [step, EnumVecModel.step, Mem.assign]; cases EV.clone c (m.reg q) <;> rfl
  | len r => rfl
  | isEmpty r => rfl
  | swap r i j => simp only [step, EnumVecModel.step, Mem.call]; rcases EV.swap c i j (m.reg r) with ⟨_ | _, s⟩ <;> rfl
  | truncate r n => simp only [step, EnumVecModel.step, Mem.call]; rcases EV.truncate c n (m.reg r) with ⟨_ | _, s⟩ <;> rfl
  | clear r => simp only [step, EnumVecModel.step, Mem.call]; rcases EV.clear c (m.reg r) with ⟨_ | _, s⟩ <;> rfl
  | reserve r n => simp only [step, EnumVecModel.step, Mem.call]; rcases EV.reserve c n (m.reg r) with ⟨_ | _, s⟩ <;> rfl
  | shrinkToFit r => simp only [step, EnumVecModel.step, Mem.call]; rcases EV.shrinkToFit c (m.reg r) with ⟨_ | _, s⟩ <;> rfl
  | append r q => simp only [step, EnumVecModel.step]; rcases EV.append c (m.reg r, m.reg q) with ⟨_ | _, s⟩ <;> rfl
  | splitOff r a d => simp only [step, EnumVecModel.step]; rcases EV.splitOff c a (m.reg r) with ⟨_ | _, s⟩ <;> rfl
  | eq r q => simp only [step, EnumVecModel.step, Mem.ask]; cases EV.eq c (m.reg r) (m.reg q) <;> rfl
  | hash r => simp only [step, EnumVecModel.step, Mem.ask]; cases EV.hash c (m.reg r) <;> rfl
  | _ => cases ho

/-! ### Concrete cases -/

example : (Impl.of (ω := Nat) c8.E).Clones ∧ c8.Ok ∧ Is c8 v12 l12 := ⟨fun _ _ _ _ h => by cases h; rfl, c8_ok, v12_is⟩

/-- `insert` in the middle, an out-of-bounds `set`, `swap_remove` of a three. -/
example : callsOf (insert c8 (Impl.of (ω := Nat) c8.E).watched 2 (3 : Fin 8)) v12 0 = [.toDiscr 3, .toDiscr 3] ∧
    callsOf (set c8 (Impl.of (ω := Nat) c8.E).watched 99 (3 : Fin 8)) v12 0 = [.toDiscr 3] ∧
    callsOf (swapRemove c8 (Impl.of (ω := Nat) c8.E).watched 2) v12 0 = [.fromDiscr 3] ∧
    callsOf (swapRemove c8 (Impl.of (ω := Nat) c8.E).watched 12) v12 0 = [] := by decide +kernel

/-- From 12 to 1000 elements, 10 per block: 8 + 1 + 0 items. -/
example : callsOf (resize c8 (Impl.of (ω := Nat) c8.E).watched 1000 (3 : Fin 8)) v12 0 = cloneEach 8 3 ++ [.toDiscr 3] := by decide +kernel

/-- A predicate that keeps the 1 and panics at the 3. -/
example : callsOf (retain c8 (Impl.of (ω := Nat) c8.E).watched (watched .closure fun x w => (if x = 3 then none else some (x = 1), w))) v12 0 =
    [.fromDiscr 1, .closure 1, .toDiscr 1, .fromDiscr 2, .closure 2, .fromDiscr 3, .closure 3] := by decide +kernel

/-- `nth(3)` decodes one element only. -/
example : callsOf (iterRun c8 (Impl.of (ω := Nat) c8.E).watched [.next, .nth 3, .nextBack, .nth 100, .next]) (EV.iter c8 v12) 0 =
    [.fromDiscr 1, .fromDiscr 5, .fromDiscr 4] := by decide +kernel

/-- An implementation that lies: `get` and `remove` decode what is stored, `any` encodes once. -/
example : callsOf (remove c8 (Impl.watched (ω := Nat) ⟨fun _ w => (some (w + 100), w + 1), fun _ w => (some 0, w + 1), fun x w => (some x, w)⟩) 2) v12 0 = [.fromDiscr 3] := by
  decide +kernel

end Hostile
end EnumVecModel
