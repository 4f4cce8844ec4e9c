import Verif.IterSpec
import Verif.Lemmas.Api

/-! # Iterators: simulation by lists -/

namespace EnumVecModel
open EV

variable {α : Type} {c : Inst α}

/-- The iterator has to yield `r`. -/
structure Yields (c : Inst α) (s : EV c.W) (l : List α) (t : It c.W) (r : List α) : Prop where
  vec : t.v = s
  le : t.lo ≤ t.hi
  hi : t.hi ≤ l.length
  rest : r = (l.take t.hi).drop t.lo

theorem Yields.length {s : EV c.W} {l : List α} {t : It c.W} {r : List α} (h : Yields c s l t r) :
    r.length = t.hi - t.lo := by
  have := h.hi; rw [h.rest]; simp [List.length_take]; omega

theorem Yields.getElem? {s : EV c.W} {l : List α} {t : It c.W} {r : List α} (h : Yields c s l t r) {i : Nat}
    (hi : t.lo + i < t.hi) : r[i]? = l[t.lo + i]? := by
  rw [h.rest, List.getElem?_drop, List.getElem?_take, if_pos hi]

theorem mapItem_some {s : EV c.W} {l : List α} (h : Is c s l) {t : It c.W} (hv : t.v = s) {i : Nat} (hi : i < l.length) :
    mapItem c (some i) t = (.ok l[i]?, t) := by
  have hg : EV.get c i t.v = (.ok (some l[i]), t.v) := by
    rw [hv, h.shows.2 i, List.getElem?_eq_getElem hi]
  simp only [mapItem, M.bind_apply, item, hg, M.pure_apply]
  rw [List.getElem?_eq_getElem hi]

theorem iterStep_spec {s : EV c.W} {l : List α} (hc : c.Ok) (h : Is c s l) {t : It c.W} {r : List α}
    (ht : Yields c s l t r) (o : IterOp) :
    ∃ t', iterStep c o t = (.ok (iterSpec r o).1, t') ∧ Yields c s l t' (iterSpec r o).2 := by
  have hlen := ht.length
  have hle := ht.le
  have hhi := ht.hi
  cases o with
  | next =>
    simp only [iterStep, M.bind_apply, EV.next, rangeNext, iterSpec]
    by_cases hlt : t.lo < t.hi
    · simp only [if_pos hlt]
      have := mapItem_some h (t := { t with lo := t.lo + 1 }) ht.vec (i := t.lo) (by omega)
      simp only [this, M.pure_apply]
      refine ⟨{ t with lo := t.lo + 1 }, ?_, ⟨ht.vec, ?_, ht.hi, ?_⟩⟩
      · rw [List.head?_eq_getElem?, ht.getElem? (by omega)]; rfl
      · show t.lo + 1 ≤ t.hi; omega
      · rw [ht.rest, List.tail_drop]
    · have hr : r = [] := List.length_eq_zero_iff.mp (by omega)
      simp only [if_neg hlt, mapItem, M.pure_apply]
      exact ⟨t, by simp [hr], by subst hr; exact ht⟩
  | nextBack =>
    simp only [iterStep, M.bind_apply, EV.nextBack, rangeNextBack, iterSpec]
    by_cases hlt : t.lo < t.hi
    · simp only [if_pos hlt]
      have := mapItem_some h (t := { t with hi := t.hi - 1 }) ht.vec (i := t.hi - 1) (by omega)
      simp only [this, M.pure_apply]
      refine ⟨{ t with hi := t.hi - 1 }, ?_, ⟨ht.vec, ?_, ?_, ?_⟩⟩
      · rw [List.getLast?_eq_getElem?, hlen, ht.getElem? (by omega)]
        have : t.lo + (t.hi - t.lo - 1) = t.hi - 1 := by omega
        rw [this]
      · show t.lo ≤ t.hi - 1; omega
      · show t.hi - 1 ≤ l.length; omega
      · rw [List.dropLast_eq_take, hlen, ht.rest, List.take_drop, List.take_take]
        congr 2
        show min (t.lo + (t.hi - t.lo - 1)) t.hi = t.hi - 1
        omega
    · have hr : r = [] := List.length_eq_zero_iff.mp (by omega)
      simp only [if_neg hlt, mapItem, M.pure_apply]
      exact ⟨t, by simp [hr], by subst hr; exact ht⟩
  | nth n =>
    simp only [iterStep, M.bind_apply, EV.nth, rangeNth, iterSpec]
    have hnum : t.hi < c.build.usizeLim := by
      have h1 : s.num = l.length := h.shows.1
      have h2 := h.safe.numRoom hc
      have h3 := hc.epb_pos
      omega
    by_cases hlt : t.lo + n < t.hi
    · have : t.lo + n < c.build.usizeLim ∧ t.lo + n < t.hi := ⟨by omega, hlt⟩
      simp only [if_pos this]
      have := mapItem_some h (t := { t with lo := t.lo + n + 1 }) ht.vec (i := t.lo + n) (by omega)
      simp only [this, M.pure_apply]
      refine ⟨{ t with lo := t.lo + n + 1 }, by rw [ht.getElem? hlt], ⟨ht.vec, ?_, ht.hi, ?_⟩⟩
      · show t.lo + n + 1 ≤ t.hi; omega
      · rw [ht.rest, List.drop_drop]; rfl
    · have : ¬ (t.lo + n < c.build.usizeLim ∧ t.lo + n < t.hi) := fun e => hlt e.2
      simp only [if_neg this, mapItem, M.pure_apply]
      refine ⟨{ t with lo := t.hi }, by rw [List.getElem?_eq_none (by omega)], ⟨ht.vec, ?_, ht.hi, ?_⟩⟩
      · show t.hi ≤ t.hi; omega
      · rw [List.drop_eq_nil_of_le (by omega), List.drop_eq_nil_of_le]
        show (l.take t.hi).length ≤ t.hi
        simp [List.length_take]; omega
  | sizeHint =>
    simp only [iterStep, M.bind_apply, M.read_apply, M.pure_apply, iterSpec, EV.sizeHint]
    exact ⟨t, by rw [hlen], ht⟩

theorem iterRun_spec {s : EV c.W} {l : List α} (hc : c.Ok) (h : Is c s l) :
    ∀ (os : List IterOp) {t : It c.W} {r : List α}, Yields c s l t r →
    ∃ t', iterRun c os t = (.ok (iterSpecRun os r).1, t') ∧ Yields c s l t' (iterSpecRun os r).2
  | [], t, r, ht => ⟨t, rfl, ht⟩
  | o :: os, t, r, ht => by
    obtain ⟨t1, h1, h1'⟩ := iterStep_spec hc h ht o
    obtain ⟨t2, h2, h2'⟩ := iterRun_spec hc h os h1'
    refine ⟨t2, ?_, h2'⟩
    simp only [iterRun]
    rw [M.bind_ok h1, M.bind_ok h2]
    rfl

theorem collect_spec {s : EV c.W} {l : List α} (hc : c.Ok) (h : Is c s l) :
    ∀ (n : Nat) {t : It c.W} {r : List α}, Yields c s l t r → r.length < n →
    (collect c n t).1 = .ok r
  | 0, t, r, ht, hn => absurd hn (by omega)
  | n + 1, t, r, ht, hn => by
    obtain ⟨t1, h1, h1'⟩ := iterStep_spec hc h ht .next
    have h2 : EV.next c t = (.ok r.head?, t1) := by
      simp only [iterStep, M.bind_apply, iterSpec] at h1
      revert h1
      rcases EV.next c t with ⟨a | a, b⟩ <;> simp [M.pure_apply]
    unfold collect
    rw [M.bind_ok h2]
    cases r with
    | nil => rfl
    | cons x xs =>
      have ih := collect_spec hc h n h1' (by simp [iterSpec] at hn ⊢; omega)
      simp only [List.head?_cons, M.bind_apply, M.pure_apply]
      revert ih
      rcases collect c n t1 with ⟨a | a, b⟩ <;> simp [iterSpec]

end EnumVecModel
