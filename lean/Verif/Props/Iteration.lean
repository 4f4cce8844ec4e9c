import Verif.Lemmas.Iteration

/-! # C21: iteration -/

namespace EnumVecModel
open EV

variable {α : Type} {c : Inst α}

/-- **C21** (calls). Any sequence of `next`, `next_back`, `nth`, `size_hint` calls, in any interleaving, on the iterator of a
vector returns what it returns on the iterator of the `Vec` with the same elements, without panic and without changing the
vector; a final `count()` returns the number of elements that are still to be yielded. -/
theorem C21_iter (hc : c.Ok) {s : EV c.W} {l : List α} (h : Is c s l) (os : List IterOp) :
    ∃ t, iterRun c os (EV.iter c s) = (.ok (iterSpecRun os l).1, t) ∧ t.v = s ∧
      EV.count c t = (iterSpecRun os l).2.length := by
  have h0 : Yields c s l (EV.iter c s) l := by
    have : len c s = l.length := h.shows.1
    refine ⟨rfl, Nat.zero_le _, Nat.le_of_eq this, ?_⟩
    show l = List.drop 0 (List.take (len c s) l)
    rw [this]; simp
  obtain ⟨t, h1, h2⟩ := iterRun_spec hc h os h0
  exact ⟨t, h1, h2.vec, h2.length.symm⟩

/-- **C21** (collecting). After any sequence of calls, collecting the rest of the iterator (at most `n` further `next` calls,
`n` above the length) gives exactly the elements not yielded yet, in order. -/
theorem C21_collect (hc : c.Ok) {s : EV c.W} {l : List α} (h : Is c s l) (os : List IterOp) {n : Nat} (hn : l.length < n) :
    ∃ t, iterRun c os (EV.iter c s) = (.ok (iterSpecRun os l).1, t) ∧
      (collect c n t).1 = .ok (iterSpecRun os l).2 := by
  have h0 : Yields c s l (EV.iter c s) l := by
    have : len c s = l.length := h.shows.1
    refine ⟨rfl, Nat.zero_le _, Nat.le_of_eq this, ?_⟩
    show l = List.drop 0 (List.take (len c s) l)
    rw [this]; simp
  obtain ⟨t, h1, h2⟩ := iterRun_spec hc h os h0
  refine ⟨t, h1, collect_spec hc h n h2 ?_⟩
  have := h2.length; have := h2.hi; omega

/-- **C21** (`to_vec`, `Into<Vec<T>>`): all elements in order. -/
theorem C21_to_vec (hc : c.Ok) {s : EV c.W} {l : List α} (h : Is c s l) : EV.toVec c s = .ok l := by
  have : len c s = l.length := h.shows.1
  obtain ⟨t, h1, h2⟩ := C21_collect hc h [] (n := len c s + 1) (by omega)
  have : t = EV.iter c s := (congrArg Prod.snd h1).symm
  subst this
  exact h2

/-! Non-trivial case: both ends of a 12-element, two-block vector. -/

example : c8.Ok ∧ Is c8 v12 l12 := ⟨c8_ok, v12_is⟩
example : (iterRun c8 [.next, .nextBack, .nth 3, .sizeHint, .nth 100, .next, .sizeHint] (EV.iter c8 v12)).1 =
    .ok [.item (some 1), .item (some 4), .item (some 5), .hint 6 (some 6), .item none, .item none, .hint 0 (some 0)] := by
  decide +kernel

end EnumVecModel
