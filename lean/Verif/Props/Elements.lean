import Verif.Lemmas.Two
import Verif.Lemmas.Api

/-! # Single elements: get, set, push, pop, swap, swap_remove, truncate, clear (C02-C05, C10, C11) -/

namespace EnumVecModel
open EV

variable {α : Type} {c : Inst α}

/-- **C02** `get(i)` is `Some` of element `i` inside the bounds and `None` outside, never panics and never changes
the vector. (`Is` already demands this of a *given* state for all `i`; the content of the theorem is that
well-formedness and the raw discriminants alone imply it.) -/
theorem C02_get (hc : c.Ok) {s : EV c.W} {l : List α} (h : Safe c s) (hl : EV.len c s = l.length)
    (hd : ∀ i (h : i < l.length), EV.rawUnchecked c s i = .ok (c.E.toDiscr l[i])) (i : Nat) :
    EV.get c i s = (.ok l[i]?, s) := by
  have hh : Holds c s l := ⟨h, hl, fun j hj => by
    have h1 := hd j hj
    have := h.cover
    have h2 : s.num = l.length := hl
    rw [rawUnchecked_eq hc s (by omega)] at h1
    exact Except.ok.inj h1⟩
  exact get_holds hc hh i

example : EV.get c8 11 v12 = (.ok (some 4), v12) ∧ EV.get c8 12 v12 = (.ok none, v12) :=
  ⟨C02_get c8_ok v12_is.safe v12_is.shows.1 v12_is.discr 11, C02_get c8_ok v12_is.safe v12_is.shows.1 v12_is.discr 12⟩

/-- **C03** `set(i, x)` inside the bounds replaces exactly element `i`. -/
theorem C03_set (hc : c.Ok) {s : EV c.W} {l : List α} (h : Is c s l) {i : Nat} (hi : i < l.length) (x : α) :
    ∃ s', EV.set c i x s = (.ok (), s') ∧ Is c s' (l.set i x) := by
  obtain ⟨h1, h2⟩ := set_lt hc (h.holds hc) x hi
  exact ⟨_, h1, h2.is hc⟩

/-- **C03** `set(i, x)` outside the bounds panics and changes nothing. -/
theorem C03_set_oob (hc : c.Ok) {s : EV c.W} {l : List α} (h : Is c s l) {i : Nat} (hi : l.length ≤ i) (x : α) :
    EV.set c i x s = (.error .index, s) := set_ge hc (h.holds hc) x hi

example : ∃ s', EV.set c8 10 7 v12 = (.ok (), s') ∧ Is c8 s' [1, 2, 3, 4, 5, 6, 7, 0, 1, 2, 7, 4] :=
  C03_set c8_ok v12_is (by decide) 7

example : EV.set c8 12 7 v12 = (.error .index, v12) := C03_set_oob c8_ok v12_is (by decide) 7

/-- **C04** `push(x)` appends `x` and keeps all elements, or fails for lack of memory and changes nothing. The
hypothesis allows any storage behind the elements: stale blocks, stale and unused bits. -/
theorem C04_push (hc : c.Ok) {s : EV c.W} {l : List α} (h : Is c s l) (x : α) :
    Runs (push c x s) (fun _ s' => Is c s' (l ++ [x]))
      (fun e s' => e = .capacity ∧ s' = s ∧ Refused c (c.blocks (l.length + 1))) :=
  (push_holds hc (h.holds hc) x).mono (fun _ _ h => h.1.is hc) (fun _ _ h => h)

/-- Concrete: a push into a vector with a stale block of garbage. -/
example : ∃ s', push c8 5 ⟨⟨[0x000000d1#32, 0xffffffff#32], 2⟩, 3⟩ = (.ok (), s') ∧ Is c8 s' [1, 2, 3, 5] := by
  have hi : Is c8 ⟨⟨[0x000000d1#32, 0xffffffff#32], 2⟩, 3⟩ [1, 2, 3] 
    := is_of_check c8_ok (by decide)
  have := C04_push c8_ok hi 5
  exact ⟨_, rfl, this⟩

/-- **C05** `pop()` returns the last element (`None` if empty) and removes it. It never fails. -/
theorem C05_pop (hc : c.Ok) {s : EV c.W} {l : List α} (h : Is c s l) :
    ∃ s', pop c s = (.ok l.getLast?, s') ∧ Is c s' l.dropLast := by
  obtain ⟨s', h1, h2, _⟩ := pop_holds hc (h.holds hc)
  exact ⟨s', h1, h2.is hc⟩

/-- **C05** `push(x)` and then `pop()` returns `x` and gives the old elements back. -/
theorem C05_push_pop (hc : c.Ok) {s : EV c.W} {l : List α} (h : Is c s l) (x : α) :
    Runs ((do push c x; pop c) s) (fun r s' => r = some x ∧ Is c s' l)
      (fun e s' => e = .capacity ∧ s' = s ∧ Refused c (c.blocks (l.length + 1))) := by
  refine runs_seq (C04_push hc h x) (fun _ _ h => h) ?_
  intro _ s' h'
  obtain ⟨s2, h1, h2⟩ := C05_pop hc h'
  rw [h1]
  simp only [List.getLast?_append, List.getLast?_singleton, Option.some_or, 
    List.dropLast_concat] at h2 ⊢
  exact ⟨rfl, h2⟩

example : ∃ s', pop c8 v12 = (.ok (some 4), s') ∧ Is c8 s' [1, 2, 3, 4, 5, 6, 7, 0, 1, 2, 3] := C05_pop c8_ok v12_is

/-- **C10** `swap(i, j)` exchanges elements `i` and `j` (also if `i = j`). -/
theorem C10_swap (hc : c.Ok) {s : EV c.W} {l : List α} (h : Is c s l) {i j : Nat} (hi : i < l.length)
    (hj : j < l.length) :
    ∃ s', swap c i j s = (.ok (), s') ∧ Is c s' ((l.set i l[j]).set j l[i]) := by
  obtain ⟨s', h1, h2, _⟩ := swap_holds hc (h.holds hc) hi hj
  exact ⟨s', h1, h2.is hc⟩

/-- **C10** `swap` with an index out of bounds panics and changes nothing. -/
theorem C10_swap_oob (hc : c.Ok) {s : EV c.W} {l : List α} (h : Is c s l) {i j : Nat}
    (hij : l.length ≤ i ∨ l.length ≤ j) : swap c i j s = (.error .unwrapNone, s) := swap_oob hc (h.holds hc) hij

/-- **C10** `swap_remove(i)` returns element `i`; the last element takes its place. -/
theorem C10_swap_remove (hc : c.Ok) {s : EV c.W} {l : List α} (h : Is c s l) {i : Nat} (hi : i < l.length) :
    ∃ s', swapRemove c i s = (.ok l[i], s') ∧
      Is c s' ((l.set i (l[l.length - 1]'(by omega))).take (l.length - 1)) := by
  obtain ⟨s', h1, h2, _⟩ := swapRemove_holds hc (h.holds hc) hi
  exact ⟨s', h1, h2.is hc⟩

/-- **C10** `swap_remove(i)` out of bounds panics and changes nothing, also on an empty vector and in a release build,
where `len() - 1` wraps. -/
theorem C10_swap_remove_oob (hc : c.Ok) {s : EV c.W} {l : List α} (h : Is c s l) {i : Nat} (hi : l.length ≤ i) :
    ∃ e, swapRemove c i s = (.error e, s) ∧ (e = .unwrapNone ∨ e = .overflow) := swapRemove_oob hc (h.holds hc) hi

example : ∃ s', swap c8 0 11 v12 = (.ok (), s') ∧ Is c8 s' [4, 2, 3, 4, 5, 6, 7, 0, 1, 2, 3, 1] :=
  C10_swap c8_ok v12_is (i := 0) (j := 11) (by decide) (by decide)

example : ∃ s', swapRemove c8 1 v12 = (.ok 2, s') ∧ Is c8 s' [1, 4, 3, 4, 5, 6, 7, 0, 1, 2, 3] :=
  C10_swap_remove c8_ok v12_is (i := 1) (by decide)

/-- **C11** `truncate(n)` keeps the first `min n len` elements (and all other operations work on the result, since
it `Is` a vector). -/
theorem C11_truncate (hc : c.Ok) {s : EV c.W} {l : List α} (h : Is c s l) (n : Nat) :
    ∃ s', truncate c n s = (.ok (), s') ∧ Is c s' (l.take n) :=
  ⟨_, truncate_eq hc s n, ((h.holds hc).take hc n).is hc⟩

/-- **C11** `clear()` removes all elements; a following `set_len(old length)` gives them back. -/
theorem C11_clear (hc : c.Ok) {s : EV c.W} {l : List α} (h : Is c s l) :
    ∃ s', EV.clear c s = (.ok (), s') ∧ Is c s' [] ∧
      ∃ s'', setLen c l.length s' = (.ok (), s'') ∧ Is c s'' l := by
  refine ⟨_, clear_eq hc s, ((h.holds hc).clear hc).is hc, _, rfl, ?_⟩
  have : s.num = l.length := h.shows.1
  rw [← this]; exact h

example : ∃ s', truncate c8 5 v12 = (.ok (), s') ∧ Is c8 s' [1, 2, 3, 4, 5] := C11_truncate c8_ok v12_is 5

end EnumVecModel
