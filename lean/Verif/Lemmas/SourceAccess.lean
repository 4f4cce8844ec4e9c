import Verif.Lemmas.SourceTwo
import Verif.Lemmas.Frame
import Verif.Iter

/-! # Running the source text: iterators -/

namespace EnumVecModel
namespace Source
open EV

set_option linter.constructorNameAsVariable false
set_option linter.unusedSimpArgs false
attribute [local irreducible] Inst.epb Inst.bits

variable {α τ : Type} {W : Nat}

@[text] theorem Heap.set_setIt (h : Heap τ W) (t : Slot) (lo hi : Nat) (s : Slot) (v : EV W) :
    (h.setIt t lo hi).set s v = (h.set s v).setIt t lo hi := by cases s <;> rfl

/-- Put an iterator over the vector in a slot. -/
def Heap.putIt (h : Heap τ W) (sl : Slot) (t : It W) : Heap τ W := (h.set sl t.v).setIt sl t.lo t.hi

/-- The result of a method of the iterator over the vector in a slot. -/
def Ret.ofIt (h : Heap τ W) (sl : Slot) (r : Except Fault (Option α) × It W) : Ret α τ W :=
  match r with
  | (.ok o, t) => .val (o.elim .none fun x => .some (.elem x)) (h.putIt sl t)
  | (.error e, t) => .fault e (h.putIt sl t)

variable {strict : Prop} {c : Inst α} (hc : c.Fits strict) (u : User α τ c.W) (K : Nat)
include hc

/-- `(Range method).map(|x| self.v.get(x).unwrap())` -/
theorem text_map_get (d : Nat) (sl : Slot) (y : Sym) (Δ : Fns α τ c.W) (o : Option Nat) (lo hi : Nat) (e : Ex) (env : Env α c.W) (st : St α τ c.W) (h : Heap τ c.W)
    (he : eval c K (call c u K (d + 4)) e Δ st = .val (o.elim .none fun n => .some (.usz n)) ⟨(.self, .iter) :: env, h.setIt sl lo hi⟩) :
    (eval c K (call c u K (d + 4)) (.meth e .map (.lam .x y (.meth (.meth (.field (.var .self) .v) .get (.var .x) .unit) .unwrap .unit .unit)) .unit) Δ st).finish
      = .ofIt h sl (mapItem c o ⟨h.get sl, lo, hi⟩) := by
  rw [eval_map, he]
  rcases o with _ | i
  · simp [bind_val, text, mapItem, Ret.ofIt, Heap.putIt]
  have h1 := text_get hc u K d sl i .unit (h.setIt sl lo hi)
  rw [Heap.get_setIt] at h1
  rcases hx : EV.get c i (h.get sl) with ⟨e | _ | x, s⟩ <;> rw [hx] at h1 <;>
  simp [bind_val, ↓bindStep, text, h1, mapItem, item, hx, Ret.ofIt, Heap.putIt, M.bind_apply]

theorem text_next (d : Nat) (sl : Slot) (lo hi : Nat) (v w : Val α c.W) (h : Heap τ c.W) :
    call c u K (d + 5) .next [.iter, v, w] (h.setIt sl lo hi) = .ofIt h sl (next c ⟨h.get sl, lo, hi⟩) := by
  rw [call_eq u K (d + 4) (fn := f_next) rfl]
  unfold next rangeNext
  by_cases h1 : lo < hi
  · simp only [h1, if_true]
    refine text_map_get hc u K d sl _ _ (some lo) (lo + 1) hi _ [] _ h ?_
    simp [f_next, ↓bindStep, text, h1]
  · simp only [h1, if_false]
    refine text_map_get hc u K d sl _ _ none lo hi _ [] _ h ?_
    simp [f_next, ↓bindStep, text, h1]

theorem text_next_back (d : Nat) (sl : Slot) (lo hi : Nat) (v w : Val α c.W) (h : Heap τ c.W) :
    call c u K (d + 5) .next_back [.iter, v, w] (h.setIt sl lo hi) = .ofIt h sl (nextBack c ⟨h.get sl, lo, hi⟩) := by
  rw [call_eq u K (d + 4) (fn := f_next_back) rfl]
  unfold nextBack rangeNextBack
  by_cases h1 : lo < hi
  · simp only [h1, if_true]
    refine text_map_get hc u K d sl _ _ (some (hi - 1)) lo (hi - 1) _ [] _ h ?_
    simp [f_next_back, ↓bindStep, text, h1]
  · simp only [h1, if_false]
    refine text_map_get hc u K d sl _ _ none lo hi _ [] _ h ?_
    simp [f_next_back, ↓bindStep, text, h1]

theorem text_nth (d : Nat) (sl : Slot) (lo hi n : Nat) (w : Val α c.W) (h : Heap τ c.W) :
    call c u K (d + 5) .nth [.iter, .usz n, w] (h.setIt sl lo hi) = .ofIt h sl (nth c n ⟨h.get sl, lo, hi⟩) := by
  rw [call_eq u K (d + 4) (fn := f_nth) rfl]
  unfold nth rangeNth
  by_cases h1 : lo + n < c.build.usizeLim ∧ lo + n < hi
  · simp only [h1, if_true, and_self]
    refine text_map_get hc u K d sl _ _ (some (lo + n)) (lo + n + 1) hi _ [(.n, .usz n)] _ h ?_
    simp [f_nth, ↓bindStep, text, h1]
  · simp only [h1, if_false]
    refine text_map_get hc u K d sl _ _ none hi hi _ [(.n, .usz n)] _ h ?_
    simp [f_nth, ↓bindStep, text, h1]

omit hc

theorem text_size_hint (d : Nat) (sl : Slot) (lo hi : Nat) (v w : Val α c.W) (h : Heap τ c.W) :
    call c u K (d + 1) .size_hint [.iter, v, w] (h.setIt sl lo hi) =
      .val (.pair (.usz (sizeHint c ⟨h.get sl, lo, hi⟩).1) ((sizeHint c ⟨h.get sl, lo, hi⟩).2.elim .none fun n => .some (.usz n))) (h.setIt sl lo hi) := by
  rw [call_eq u K d (fn := f_size_hint) rfl]
  simp [f_size_hint, ↓bindStep, text, sizeHint]

theorem text_count (d : Nat) (sl : Slot) (lo hi : Nat) (v w : Val α c.W) (h : Heap τ c.W) :
    call c u K (d + 2) .count [.iter, v, w] (h.setIt sl lo hi) = .val (.usz (count c ⟨h.get sl, lo, hi⟩)) (h.setIt sl lo hi) := by
  rw [call_eq u K (d + 1) (fn := f_count) rfl]
  have h1 := text_size_hint u K d sl lo hi .unit .unit h
  simp [f_count, ↓bindStep, text, h1, sizeHint, count]

/-- of `&EnumVec<T>` -/
theorem text_into_iter (d : Nat) (sl : Slot) (v w : Val α c.W) (h : Heap τ c.W) :
    call c u K (d + 2) .into_iter [.vec sl, v, w] h = .val .iter (h.setIt sl (iter c (h.get sl)).lo (iter c (h.get sl)).hi) := by
  rw [call_eq u K (d + 1) (fn := f_into_iter) rfl]
  simp [f_into_iter, ↓bindStep, text, text_len, iter, len]

/-- of `EnumVec<T>` -/
theorem text_into_iter_owned (d : Nat) (sl : Slot) (v w : Val α c.W) (h : Heap τ c.W) :
    (eval c K (call c u K (d + 1)) f_into_iter_owned.body u.fns ⟨f_into_iter_owned.params.zip [.vec sl, v, w], h⟩).finish =
      .val .iter (h.setIt sl (iter c (h.get sl)).lo (iter c (h.get sl)).hi) := by
  simp [f_into_iter_owned, ↓bindStep, text, text_len, iter, len]

theorem text_iter (d : Nat) (sl : Slot) (v w : Val α c.W) (h : Heap τ c.W) :
    call c u K (d + 3) .iter [.vec sl, v, w] h = .val .iter (h.setIt sl (iter c (h.get sl)).lo (iter c (h.get sl)).hi) := by
  rw [call_eq u K (d + 2) (fn := f_iter) rfl]
  have h1 := text_into_iter u K d sl .unit .unit h
  simp [f_iter, ↓bindStep, text, h1]

theorem next_lt (s : EV c.W) {lo hi : Nat} (h : lo < hi) : next c ⟨s, lo, hi⟩ =
    (match (EV.get c lo s).1 with
    | .ok (some a) => .ok (some a)
    | .ok none => .error .unwrapNone
    | .error e => .error e, ⟨s, lo + 1, hi⟩) := by
  have h1 := get_state (c := c) lo s
  unfold next mapItem rangeNext
  simp only [h, if_true, M.bind_apply]
  unfold item
  rcases hg : EV.get c lo s with ⟨e | _ | a, s'⟩ <;> rw [hg] at h1 <;> simp_all
  rfl

theorem next_ge (s : EV c.W) {lo hi : Nat} (h : ¬ lo < hi) : next c ⟨s, lo, hi⟩ = (.ok none, ⟨s, lo, hi⟩) := by
  unfold next mapItem rangeNext
  simp only [h, if_false]
  rfl

include hc

theorem drain_eq (d : Nat) (sl : Slot) (h : Heap τ c.W) (hi : Nat) : ∀ (n lo N : Nat) (xs : List α), hi - lo = n → n < N →
    match (collect c (n + 1) ⟨h.get sl, lo, hi⟩).1 with
    | .ok ys => ∃ lo', drain (fun h => call c u K (d + 5) .next [.iter, .unit, .unit] h) N xs (h.setIt sl lo hi) = .val (.slice (xs ++ ys)) (h.setIt sl lo' hi)
    | .error e => ∃ lo', drain (fun h => call c u K (d + 5) .next [.iter, .unit, .unit] h) N xs (h.setIt sl lo hi) = .fault e (h.setIt sl lo' hi) := by
  intro n
  induction n with
  | zero =>
    intro lo N xs h1 h2
    obtain ⟨N, rfl⟩ : ∃ m, N = m + 1 := ⟨N - 1, by omega⟩
    have h3 := next_ge (c := c) (h.get sl) (lo := lo) (hi := hi) (by omega)
    unfold collect drain
    rw [M.bind_ok h3, text_next hc, h3]
    simp [Ret.ofIt, Heap.putIt, text]
    exact ⟨lo, rfl⟩
  | succ n ih =>
    intro lo N xs h1 h2
    obtain ⟨N, rfl⟩ : ∃ m, N = m + 1 := ⟨N - 1, by omega⟩
    have h3 := next_lt (c := c) (h.get sl) (lo := lo) (hi := hi) (by omega)
    rw [collect]
    unfold drain
    rw [text_next hc]
    rcases hg : (EV.get c lo (h.get sl)).1 with e | _ | a <;> rw [hg] at h3
    · rw [M.bind_error h3, h3]
      simp [Ret.ofIt, Heap.putIt, text]
      exact ⟨lo + 1, rfl⟩
    · rw [M.bind_error h3, h3]
      simp [Ret.ofIt, Heap.putIt, text]
      exact ⟨lo + 1, rfl⟩
    · rw [M.bind_ok h3, h3]
      have h4 := ih (lo + 1) N (xs ++ [a]) (by omega) (by omega)
      simp only [M.bind_apply]
      rcases hy : collect c (n + 1) ⟨h.get sl, lo + 1, hi⟩ with ⟨e | ys, t⟩ <;> rw [hy] at h4
      · simpa [Ret.ofIt, Heap.putIt, text] using h4
      · simpa [Ret.ofIt, Heap.putIt, text] using h4

theorem text_to_vec (d : Nat) (sl : Slot) (v w : Val α c.W) (h : Heap τ c.W) (hn : (h.get sl).num < K) :
    match toVec c (h.get sl) with
    | .ok xs => ∃ lo, call c u K (d + 6) .to_vec [.vec sl, v, w] h = .val (.slice xs) (h.setIt sl lo (h.get sl).num)
    | .error e => ∃ lo, call c u K (d + 6) .to_vec [.vec sl, v, w] h = .fault e (h.setIt sl lo (h.get sl).num) := by
  rw [call_eq u K (d + 5) (fn := f_to_vec) rfl]
  have h1 := text_iter (c := c) u K (d + 2) sl .unit .unit h
  have h2 := drain_eq hc u K d sl h (h.get sl).num (h.get sl).num 0 K [] rfl hn
  unfold toVec
  rcases hy : collect c (len c (h.get sl) + 1) (iter c (h.get sl)) with ⟨e | ys, t⟩
  · rw [show collect c ((h.get sl).num + 1) ⟨h.get sl, 0, (h.get sl).num⟩ = _ from hy] at h2
    obtain ⟨lo, h2⟩ := h2
    refine ⟨lo, ?_⟩
    simp [f_to_vec, ↓bindStep, text, text_len, h1, iter, len, h2]
  · rw [show collect c ((h.get sl).num + 1) ⟨h.get sl, 0, (h.get sl).num⟩ = _ from hy] at h2
    obtain ⟨lo, h2⟩ := h2
    refine ⟨lo, ?_⟩
    simp [f_to_vec, ↓bindStep, text, text_len, h1, iter, len, h2]

theorem text_from (d : Nat) (xs : List α) (w : Val α c.W) (h : Heap τ c.W) :
    ∃ s, call c u K (d + 8) .from [.slice xs, w] h = .made h (EV.fromVec c xs) s := by
  obtain ⟨s, h1⟩ := text_from_iter_vec hc u K d xs .unit h
  refine ⟨s, ?_⟩
  rw [call_eq u K (d + 7) (fn := f_from) rfl]
  unfold EV.fromVec
  rcases hx : EV.fromIter c ⟨xs.length, xs, false⟩ with e | v <;> rw [hx] at h1 <;>
  simp [f_from, ↓bindStep, text, h1, Ret.made]

end Source
end EnumVecModel
