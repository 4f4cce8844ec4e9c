import Verif.Lemmas.Near
import Verif.Lemmas.Api
import Verif.Lemmas.Full

/-! # insert and remove (C06-C09) -/

namespace EnumVecModel
open EV

variable {α : Type} {c : Inst α}

/-- **C06 (partial)** `insert(index, x)` with `index ≤ len` is `Vec::insert`, for every element narrower than a block.
Full claim: also for elements as wide as a block; that is false, see `C06_fullwidth_debug`, `C06_fullwidth_release`. -/
theorem C06_insert_partial (hc : c.Ok) (hb : c.bits < c.W) {s : EV c.W} {l : List α} (h : Is c s l) {index : Nat}
    (hi : index ≤ l.length) (x : α) :
    Runs (EV.insert c index x s) (fun _ s' => Is c s' (l.take index ++ x :: l.drop index))
      (fun e s' => e = .capacity ∧ s' = s ∧ Refused c (c.blocks (l.length + 1))) := by
  refine (insert_holds hc hb (h.holds hc) hi x).mono (fun _ s' h' => ?_) (fun _ _ h => h)
  have := h'.1.is hc
  rwa [insertIdx_take_drop hi] at this

/-- The hypotheses are met, and the call succeeds. -/
example : (c8.bits < c8.W ∧ Is c8 v12 l12 ∧ 1 ≤ l12.length) ∧ (EV.insert c8 1 6 v12).1 = .ok () :=
  ⟨⟨by decide, v12_is, by decide⟩, by decide +kernel⟩

/-- **C06 is false** for elements as wide as a block in a debug build: every `insert` inside the bounds panics (shift
overflow) after having pushed the element at the end. -/
theorem C06_fullwidth_debug (hc : c.Ok) (hb : c.bits = c.W) (hck : c.build.checked = true) {s : EV c.W} {l : List α}
    (h : Is c s l) {index : Nat} (hi : index ≤ l.length) (x : α) :
    Runs (EV.insert c index x s) (fun _ _ => False)
      (fun e s' => e = .overflow ∧ Is c s' (l ++ [x]) ∨
        e = .capacity ∧ s' = s ∧ Refused c (c.blocks (l.length + 1))) :=
  (insert_full_debug hc hb hck (h.holds hc) hi x).mono (fun _ _ h => h)
    (fun _ _ h => h.imp (fun h => ⟨h.1, h.2.is hc⟩) id)

/-- A vector of an enum as wide as its blocks. -/
abbrev w3 : EV 8 := ⟨⟨[1#8, 2#8, 4#8], 3⟩, 3⟩

theorem w3_is (ck : Bool) : Is (exInst 8 200 ⟨ck, true⟩ false) w3 [1, 2, 4] := by
  cases ck
  · exact is_of_check c200r_ok (by decide)
  · exact is_of_check c200_ok (by decide)

example : EV.insert c200 1 8 w3 = (.error .overflow, ⟨⟨[1#8, 2#8, 4#8, 8#8], 6⟩, 4⟩) := by decide +kernel

/-- **C06 is false** for elements as wide as a block in a release build: the elements are OR-ed together. -/
theorem C06_fullwidth_release :
    Is c200r w3 [1, 2, 4] ∧
      ∃ s', EV.insert c200r 1 8 w3 = (.ok (), s') ∧ Is c200r s' [1, 10, 6, 12] ∧ ¬ Is c200r s' [1, 8, 2, 4] := by
  refine ⟨w3_is false, ⟨⟨[1#8, 10#8, 6#8, 12#8], 6⟩, 4⟩, by decide +kernel, is_of_check c200r_ok (by decide), ?_⟩
  intro h
  have := h.shows.2 1
  revert this; decide

/-- If every number has only bits of the one before it, all have those of the last and only those of the first. -/
theorem or_chain {f : α → Nat} (e : α) : ∀ (d : List α) (x : α),
    (∀ (k : Nat) (y z : α), (d ++ [e])[k]? = some y → (x :: d)[k]? = some z → f y ||| f z = f z) →
    f e ||| f x = f x ∧ ∀ y ∈ d, f e ||| f y = f y ∧ f y ||| f x = f x
  | [], x, h => ⟨h 0 e x rfl rfl, nofun⟩
  | y :: d, x, h => by
    have h0 : f y ||| f x = f x := h 0 y x rfl rfl
    obtain ⟨h1, h2⟩ := or_chain e d y fun k a b ha hb => h (k + 1) a b (by simpa using ha) (by simpa using hb)
    have htr : ∀ {a b c : Nat}, a ||| b = b → b ||| c = c → a ||| c = c := fun {a b c} hab hbc => by
      rw [← hbc, ← Nat.or_assoc, hab]
    refine ⟨htr h1 h0, fun z hz => ?_⟩
    rcases List.mem_cons.mp hz with rfl | hz
    · exact ⟨h1, h0⟩
    · exact ⟨(h2 z hz).1, htr (h2 z hz).2 h0⟩

/-- Shifting the elements from `i` on by one position, with `x` entering, loses no bit only if they are all `x`. -/
theorem or_shift_iff (hc : c.Ok) (i : Nat) (l : List α) (x : α) :
    (∀ (k : Nat) (y z : α), (l ++ [x])[k]? = some y → (l.take i ++ x :: l.drop i)[k]? = some z →
      c.E.toDiscr y ||| c.E.toDiscr z = c.E.toDiscr z) ↔ ∀ y ∈ l.drop i, y = x := by
  have hl : l ++ [x] = l.take i ++ (l.drop i ++ [x]) := by rw [← List.append_assoc, List.take_append_drop]
  rw [hl]
  generalize l.take i = t, l.drop i = d
  refine ⟨fun h y hy => ?_, fun h k y z hy hz => ?_⟩
  · have := or_chain (f := c.E.toDiscr) x d x fun k a b ha hb => by
      refine h (t.length + k) a b ?_ ?_
      · rw [List.getElem?_append_right (by omega), Nat.add_sub_cancel_left]; exact ha
      · rw [List.getElem?_append_right (by omega), Nat.add_sub_cancel_left]; exact hb
    have h1 := this.2 y hy
    refine hc.toDiscr_inj ?_
    rw [← h1.1, Nat.or_comm, h1.2]
  · have hd : d ++ [x] = x :: d := by
      have hr : d = List.replicate d.length x := List.eq_replicate_iff.mpr ⟨rfl, h⟩
      rw [hr, ← List.replicate_succ', ← List.replicate_succ]
    rw [hd] at hy
    rw [hy] at hz
    cases hz
    exact Nat.or_self _

/-- **C06**, elements as wide as a block in a release build, exactly: `insert` never panics, the number stored at every
position is the OR of the one that `push(x)` alone would leave there and the right one, and so the call is
`Vec::insert` if and only if all elements from `index` on are `x` itself. -/
theorem C06_fullwidth_release_iff (hc : c.Ok) (hb : c.bits = c.W) (hck : c.build.checked = false) {s : EV c.W}
    {l : List α} (h : Is c s l) {index : Nat} (hi : index ≤ l.length) (x : α) :
    Runs (EV.insert c index x s)
      (fun _ s' => Safe c s' ∧ EV.len c s' = l.length + 1 ∧
        (∀ (k : Nat) (y z : α), (l ++ [x])[k]? = some y → (l.take index ++ x :: l.drop index)[k]? = some z →
          EV.rawUnchecked c s' k = .ok (c.E.toDiscr y ||| c.E.toDiscr z)) ∧
        (Is c s' (l.take index ++ x :: l.drop index) ↔ ∀ y ∈ l.drop index, y = x))
      (fun e s' => e = .capacity ∧ s' = s ∧ Refused c (c.blocks (l.length + 1))) := by
  refine (insert_full_release hc hb hck (h.holds hc) hi x).mono (fun _ s' h' => ?_) (fun _ _ h => h)
  rw [insertIdx_take_drop hi] at h'
  obtain ⟨h1, h2, h3⟩ := h'
  have hl1 : (l ++ [x]).length = l.length + 1 := by simp
  have hl2 : (l.take index ++ x :: l.drop index).length = l.length + 1 := by simp; omega
  have hcov := h1.cover
  have hraw : ∀ (k : Nat) (y z : α), (l ++ [x])[k]? = some y → (l.take index ++ x :: l.drop index)[k]? = some z →
      k < l.length + 1 ∧ raw c s' k = c.E.toDiscr y ||| c.E.toDiscr z := by
    intro k y z hy hz
    obtain ⟨hk1, rfl⟩ := List.getElem?_eq_some_iff.mp hy
    obtain ⟨hk2, rfl⟩ := List.getElem?_eq_some_iff.mp hz
    exact ⟨by omega, h3 k hk1 hk2⟩
  rw [← or_shift_iff hc index l x]
  refine ⟨h1, h2, fun k y z hy hz => ?_, fun his k y z hy hz => ?_, fun hall => ?_⟩
  · obtain ⟨g1, g2⟩ := hraw k y z hy hz
    rw [rawUnchecked_eq hc s' (by omega), g2]
  · obtain ⟨g1, g2⟩ := hraw k y z hy hz
    obtain ⟨hk2, rfl⟩ := List.getElem?_eq_some_iff.mp hz
    rw [← g2]; exact (his.holds hc).elems k hk2
  · refine Holds.is hc ⟨h1, by rw [h2, hl2], fun k hk => ?_⟩
    have hy := List.getElem?_eq_getElem (l := l ++ [x]) (i := k) (by omega)
    have hz := List.getElem?_eq_getElem hk
    rw [(hraw k _ _ hy hz).2, hall k _ _ hy hz]

/-- The hypotheses are met; here the condition fails. -/
example : (c200r.bits = c200r.W ∧ Is c200r w3 [1, 2, 4]) ∧ (EV.insert c200r 1 8 w3).1 = .ok () :=
  ⟨⟨by decide, w3_is false⟩, by decide +kernel⟩

/-- In the first three cases the result is wrong, in the last two it is right. -/
example : (EV.insert c200r 0 7 ⟨⟨[7#8, 7#8, 5#8], 3⟩, 3⟩) = (.ok (), ⟨⟨[7#8, 7#8, 7#8, 7#8], 6⟩, 4⟩) ∧
    (EV.insert c200r 0 7 ⟨⟨[5#8, 4#8], 3⟩, 2⟩) = (.ok (), ⟨⟨[7#8, 5#8, 7#8], 3⟩, 3⟩) ∧
    (EV.insert c200r 0 4 ⟨⟨[0#8, 0#8], 3⟩, 2⟩) = (.ok (), ⟨⟨[4#8, 0#8, 4#8], 3⟩, 3⟩) ∧
    (EV.insert c200r 0 4 ⟨⟨[4#8, 4#8], 3⟩, 2⟩) = (.ok (), ⟨⟨[4#8, 4#8, 4#8], 3⟩, 3⟩) ∧
    (EV.insert c200r 1 4 ⟨⟨[9#8, 4#8], 3⟩, 2⟩) = (.ok (), ⟨⟨[9#8, 4#8, 4#8], 3⟩, 3⟩) := by decide +kernel

/-- **C07** `insert(index, x)` with `index > len` does not panic: it is `push(x)`. The hypothesis excludes only indexes
for which `index` rounded up to a block boundary exceeds `usize` in a debug build. -/
theorem C07_insert_past (hc : c.Ok) {s : EV c.W} {l : List α} (h : Is c s l) {index : Nat} (hi : l.length < index)
    (hov : index + c.W < c.build.usizeLim ∨ c.build.checked = false) (x : α) :
    EV.insert c index x s = push c x s ∧
    Runs (EV.insert c index x s) (fun _ s' => Is c s' (l ++ [x]))
      (fun e s' => e = .capacity ∧ s' = s ∧ Refused c (c.blocks (l.length + 1))) := by
  have hn : s.num = l.length := h.shows.1
  have e : EV.insert c index x s = push c x s := by
    refine insert_past hc h.safe (by omega) x ?_
    rcases hov with hov | hov
    · have := hc.epb_le
      have := Nat.mod_le index c.epb
      left; omega
    · right; left; exact hov
  refine ⟨e, ?_⟩
  rw [e]
  exact (push_holds hc (h.holds hc) x).mono (fun _ _ h => h.1.is hc) (fun _ _ h => h)

example : EV.insert c8 100 6 v12 = push c8 6 v12 := (C07_insert_past c8_ok v12_is (by decide) (by decide) 6).1

/-- **C07**, the excluded indexes: in a debug build `insert(usize::MAX, x)` pushes `x` and then panics. -/
theorem C07_insert_max :
    EV.insert c8 (c8.build.usizeLim - 1) 5 v3 = (.error .overflow, ⟨⟨[0x00000ad1#32], 1⟩, 4⟩) ∧
    Is c8 ⟨⟨[0x00000ad1#32], 1⟩, 4⟩ [1, 2, 3, 5] :=
  ⟨by decide +kernel, is_of_check c8_ok (by decide)⟩

/-- **C08** `remove` out of bounds panics and changes nothing. -/
theorem C08_remove_oob (hc : c.Ok) {s : EV c.W} {l : List α} (h : Is c s l) {index : Nat} (hi : l.length ≤ index) :
    EV.remove c index s = (.error .unwrapNone, s) := remove_oob hc (h.holds hc) hi

/-- **C08 (partial)** `remove(index)` inside the bounds is `Vec::remove` if elements are narrower than a block and the
unused bits of all blocks are zero (in particular if the element width divides the block width). Full claim: for all
widths and all reachable vectors; false, see `C08_remove_wrong`, `C08_remove_fullwidth_debug`. -/
theorem C08_remove_partial (hc : c.Ok) (hb : c.bits < c.W) {s : EV c.W} {l : List α} (h : Is c s l) {index : Nat}
    (hi : index < l.length) (hz : UnusedZero c s ∨ c.W % c.bits = 0) :
    ∃ s', EV.remove c index s = (.ok l[index], s') ∧ Is c s' (l.take index ++ l.drop (index + 1)) ∧
      (UnusedZero c s → UnusedZero c s') := by
  have hcl : Clean c s := hz.elim (unusedZero_iff hc s).mp (Clean.of_dvd s)
  obtain ⟨s', h1, h2, _, h4⟩ := remove_holds hc hb (h.holds hc) hi (RemoveOk.of_clean hc hcl index)
  rw [List.eraseIdx_eq_take_drop_succ] at h2
  exact ⟨s', h1, h2.is hc, fun _ => (unusedZero_iff hc s').mpr (hcl.tidy (h4 hcl))⟩

example : ∃ s', EV.remove c8 1 v12 = (.ok 2, s') ∧ Is c8 s' [1, 3, 4, 5, 6, 7, 0, 1, 2, 3, 4] ∧
    (UnusedZero c8 v12 → UnusedZero c8 s') :=
  C08_remove_partial c8_ok (by decide) v12_is (index := 1) (by decide) (Or.inl fun j => by
    match j with
    | 0 => decide
    | 1 => decide
    | j + 2 =>
      show BitVec.toNat (Option.getD none 0) / _ = 0
      simp)

/-- **C08** without any condition on widths and unused bits: `remove(index)` is `Vec::remove` if no more than the last
element lies beyond the block of `index`. -/
theorem C08_remove_near (hc : c.Ok) {s : EV c.W} {l : List α} (h : Is c s l) {index : Nat} (hi : index < l.length)
    (hn : l.length - 1 ≤ (1 + index / c.epb) * c.epb) :
    ∃ s', EV.remove c index s = (.ok l[index], s') ∧ Is c s' (l.take index ++ l.drop (index + 1)) := by
  obtain ⟨s', h1, h2, _⟩ := remove_near hc (h.holds hc) hi hn
  rw [List.eraseIdx_eq_take_drop_succ] at h2
  exact ⟨s', h1, h2.is hc⟩

example : ∃ s', EV.remove c200 1 w3 = (.ok 2, s') ∧ Is c200 s' [1, 4] :=
  C08_remove_near c200_ok (w3_is true) (index := 1) (by decide) (by decide)

/-- **C08, exact condition** for elements narrower than a block. `remove(index)` always returns element `index` and
shortens the vector; the remaining elements are right **if and only if** the unused bits of each shifted block are
already set in the discriminant of the element that moves into its last position. -/
theorem C08_remove_iff (hc : c.Ok) (hb : c.bits < c.W) {s : EV c.W} {l : List α} (h : Is c s l) {index : Nat}
    (hi : index < l.length) :
    ∃ s', EV.remove c index s = (.ok l[index], s') ∧ Safe c s' ∧ EV.len c s' = l.length - 1 ∧
      (Is c s' (l.take index ++ l.drop (index + 1)) ↔
        ∀ j (hj : (j + 1) * c.epb < l.length), index / c.epb < j →
          unusedBits c s j ||| c.E.toDiscr (l[(j + 1) * c.epb]'hj) = c.E.toDiscr (l[(j + 1) * c.epb]'hj)) := by
  have hh := h.holds hc
  have hep := hc.epb_pos
  obtain ⟨s', h1, h2, h3, h4, h8, h5, h6, h7⟩ := remove_raw hc hb hh hi
  have hlen := hh.len_eq
  refine ⟨s', h1, h2, by rw [← hlen]; exact h3, ?_⟩
  rw [← List.eraseIdx_eq_take_drop_succ]
  have hj0 : ∀ j m, m < c.epb → (j * c.epb + m) / c.epb = j ∧ (j * c.epb + m) % c.epb = m := by
    intro j m hm
    rw [Nat.mul_comm, Nat.mul_add_div hep, Nat.mul_add_mod, Nat.div_eq_of_lt hm, Nat.mod_eq_of_lt hm]
    exact ⟨rfl, rfl⟩
  constructor
  · intro hI j hj hlt
    have hH := hI.holds hc
    have hk : j * c.epb + (c.epb - 1) + 1 = (j + 1) * c.epb := by rw [Nat.add_mul]; omega
    obtain ⟨d1, d2⟩ := hj0 j (c.epb - 1) (by omega)
    have hge : index < j * c.epb := by
      rw [← Nat.div_lt_iff_lt_mul hep]; exact hlt
    have e1 := hH.elems (j * c.epb + (c.epb - 1)) (by rw [List.length_eraseIdx_of_lt hi]; omega)
    rw [h5 _ (by omega), if_neg (by omega), List.getElem_eraseIdx, dif_neg (by omega)] at e1
    unfold dirt at e1
    rw [if_pos ⟨d2, by rw [d1]; exact hlt⟩, d1] at e1
    have e2 := hh.elems ((j + 1) * c.epb) hj
    simp only [hk] at e1
    rw [e2] at e1
    rw [unusedBits_eq hc]; exact e1
  · intro hA
    obtain ⟨s2, g1, g2, _⟩ := remove_holds hc hb hh hi (fun k hk1 hk2 => by
      unfold dirt
      split
      · next hcond =>
        obtain ⟨hm, hlt⟩ := hcond
        have hk : (k / c.epb + 1) * c.epb = k + 1 := by
          have := Nat.div_add_mod k c.epb
          rw [hm, Nat.mul_comm] at this
          rw [Nat.add_mul]; omega
        have := hA (k / c.epb) (by omega) hlt
        simp only [hk] at this
        rw [unusedBits_eq hc] at this
        rw [hh.elems (k + 1) (by omega)]
        exact this
      · exact Nat.zero_or _)
    rw [h1] at g1
    have : s' = s2 := by injection g1
    rw [this]; exact g2.is hc

/-- **C08 is false**: a history of safe calls after which `remove(0)` changes another element. 8 variants, `vec_u32`:
the bulk fill of `resize` sets the unused bits, and element 29 (a 0 before and after, for `Vec`) becomes 3. -/
theorem C08_remove_wrong :
    ((do
      resize c8 50 7
      EV.set c8 30 0
      let _ ← EV.remove c8 0
      EV.get c8 29 : M (EV 32) (Option (Fin 8))) (EV.new c8)).1 = .ok (some 3) ∧
    (((List.replicate 50 (7 : Fin 8)).set 30 0).eraseIdx 0)[29]? = some 0 := by
  constructor
  · decide +kernel
  · decide

/-- **C08 is false**, with `insert` instead of `resize`. -/
theorem C08_remove_wrong_after_insert :
    ((do
      extend c8 ⟨21, List.replicate 21 7, false⟩
      EV.insert c8 0 7
      EV.set c8 20 0
      let _ ← EV.remove c8 0
      EV.get c8 19 : M (EV 32) (Option (Fin 8))) (EV.new c8)).1 = .ok (some 3) ∧
    (((List.replicate 22 (7 : Fin 8)).set 20 0).eraseIdx 0)[19]? = some 0 := by
  constructor
  · decide +kernel
  · decide

/-- **C08 is false** in a worse way if not all bit patterns are values: the element becomes invalid and reading it
panics (5 variants, `vec_u32`). -/
theorem C08_remove_invalid :
    ((do
      resize (exInst 32 5 debug64 false) 50 3
      EV.set (exInst 32 5 debug64 false) 30 4
      let _ ← EV.remove (exInst 32 5 debug64 false) 0
      EV.get (exInst 32 5 debug64 false) 29 : M (EV 32) (Option (Fin 5))) (EV.new (exInst 32 5 debug64 false))).1
      = .error .badDiscr := by
  decide +kernel

/-- **C08 is false** for elements as wide as a block in a debug build: with at least two elements behind `index`,
`remove` panics (shift overflow) and has lost an element. -/
theorem C08_remove_fullwidth_debug (hc : c.Ok) (hb : c.bits = c.W) (hck : c.build.checked = true) {s : EV c.W} {l : List α}
    (h : Is c s l) {index : Nat} (hi : index + 2 < l.length) :
    ∃ s', EV.remove c index s = (.error .overflow, s') ∧ Is c s' ((l.set index l[index + 1]).dropLast) := by
  obtain ⟨s', h1, h2⟩ := remove_full_debug hc hb hck (h.holds hc) hi
  exact ⟨s', h1, h2.is hc⟩

example : ∃ s', EV.remove c200 0 w3 = (.error .overflow, s') ∧ Is c200 s' [2, 2] :=
  C08_remove_fullwidth_debug c200_ok (by decide) rfl (w3_is true) (index := 0) (by decide)

/-- **C08**, elements as wide as a block in a release build, exactly: `remove` returns the right element and never panics;
at `index` it leaves the right number and behind it the OR of the old and the right one, and so it is `Vec::remove` if
and only if no position behind `index` had a bit that its successor lacks. -/
theorem C08_remove_fullwidth_release_iff (hc : c.Ok) (hb : c.bits = c.W) (hck : c.build.checked = false) {s : EV c.W}
    {l : List α} (h : Is c s l) {index : Nat} (hi : index < l.length) :
    ∃ s', EV.remove c index s = (.ok l[index], s') ∧ Safe c s' ∧ EV.len c s' = l.length - 1 ∧
      (∀ (k : Nat) (y : α), k < index → l[k]? = some y → EV.rawUnchecked c s' k = .ok (c.E.toDiscr y)) ∧
      (∀ z, l[index + 1]? = some z → EV.rawUnchecked c s' index = .ok (c.E.toDiscr z)) ∧
      (∀ (k : Nat) (y z : α), index < k → l[k]? = some y → l[k + 1]? = some z →
        EV.rawUnchecked c s' k = .ok (c.E.toDiscr y ||| c.E.toDiscr z)) ∧
      (Is c s' (l.eraseIdx index) ↔
        ∀ (k : Nat) (y z : α), index < k → l[k]? = some y → l[k + 1]? = some z → c.E.toDiscr y ||| c.E.toDiscr z = c.E.toDiscr z) := by
  obtain ⟨s', g1, g2, g3, g4⟩ := remove_full_release hc hb hck (h.holds hc) hi
  have hlen : (l.eraseIdx index).length = l.length - 1 := by rw [List.length_eraseIdx, if_pos hi]
  have hcov := g2.cover
  have hr : ∀ k, k < l.length - 1 → EV.rawUnchecked c s' k = .ok (raw c s' k) := fun k hk =>
    rawUnchecked_eq hc s' (by omega)
  have hb : ∀ (k : Nat) (y z : α), index < k → l[k]? = some y → l[k + 1]? = some z →
      k < l.length - 1 ∧ raw c s' k = c.E.toDiscr y ||| c.E.toDiscr z := by
    intro k y z hk hy hz
    obtain ⟨hk1, rfl⟩ := List.getElem?_eq_some_iff.mp hy
    obtain ⟨hk2, rfl⟩ := List.getElem?_eq_some_iff.mp hz
    refine ⟨by omega, ?_⟩
    rw [g4 k hk1 (by omega), if_neg (by omega), List.getElem_eraseIdx_of_ge _ (by omega)]
  have hlow : ∀ (k : Nat) (y : α), k < index → l[k]? = some y → k < l.length - 1 ∧ raw c s' k = c.E.toDiscr y := by
    intro k y hk hy
    obtain ⟨hk1, rfl⟩ := List.getElem?_eq_some_iff.mp hy
    refine ⟨by omega, ?_⟩
    rw [g4 k hk1 (by omega), if_neg (by omega), List.getElem_eraseIdx_of_lt _ hk, Nat.or_self]
  have hat : ∀ z, l[index + 1]? = some z → index < l.length - 1 ∧ raw c s' index = c.E.toDiscr z := by
    intro z hz
    obtain ⟨hk2, rfl⟩ := List.getElem?_eq_some_iff.mp hz
    refine ⟨by omega, ?_⟩
    rw [g4 index hi (by omega), if_pos rfl, List.getElem_eraseIdx_of_ge _ (by omega)]
  refine ⟨s', g1, g2, g3, fun k y hk hy => ?_, fun z hz => ?_, fun k y z hk hy hz => ?_, fun his k y z hk hy hz => ?_,
    fun hall => ?_⟩
  · rw [hr k (hlow k y hk hy).1, (hlow k y hk hy).2]
  · rw [hr index (hat z hz).1, (hat z hz).2]
  · rw [hr k (hb k y z hk hy hz).1, (hb k y z hk hy hz).2]
  · obtain ⟨q1, q2⟩ := hb k y z hk hy hz
    obtain ⟨hk2, rfl⟩ := List.getElem?_eq_some_iff.mp hz
    have := (his.holds hc).elems k (by omega)
    rw [List.getElem_eraseIdx_of_ge _ (by omega)] at this
    rw [← q2, this]
  · refine Holds.is hc ⟨g2, by rw [hlen]; exact g3, fun k hk => ?_⟩
    rw [hlen] at hk
    have hy := List.getElem?_eq_getElem (l := l) (i := k) (by omega)
    have hz := List.getElem?_eq_getElem (l := l) (i := k + 1) (by omega)
    rcases Nat.lt_trichotomy k index with hlt | heq | hgt
    · rw [List.getElem_eraseIdx_of_lt _ hlt, (hlow k _ hlt hy).2]
    · subst heq
      rw [List.getElem_eraseIdx_of_ge _ (by omega), (hat _ hz).2]
    · rw [List.getElem_eraseIdx_of_ge _ (by omega), (hb k _ _ hgt hy hz).2, hall k _ _ hgt hy hz]

/-- The hypotheses are met, the condition fails in the first call and holds in the second. -/
example : EV.remove c200r 0 w3 = (.ok 1, ⟨⟨[2#8, 6#8, 4#8], 3⟩, 2⟩) ∧
    EV.remove c200r 0 ⟨⟨[9#8, 2#8, 6#8], 3⟩, 3⟩ = (.ok 9, ⟨⟨[2#8, 6#8, 6#8], 3⟩, 2⟩) := by decide +kernel

example : ∃ s', EV.remove c200r 0 w3 = (.ok 1, s') ∧ ¬ Is c200r s' [2, 4] := by
  obtain ⟨s', h1, -, -, -, -, -, h2⟩ := C08_remove_fullwidth_release_iff c200r_ok (by decide) rfl (w3_is false) (index := 0) (by decide)
  exact ⟨s', h1, fun h => absurd (h2.mp h 1 2 4 (by decide) rfl rfl) (by decide)⟩

/-- **C09 (partial)** `insert(index, x)` and then `remove(index)` returns `x` and gives all elements back, whatever the
unused bits are, for elements narrower than a block. Full claim: also for elements as wide as a block; false, see
`C09_fullwidth_debug` and `C09_fullwidth_release_iff`. -/
theorem C09_insert_remove_partial (hc : c.Ok) (hb : c.bits < c.W) {s : EV c.W} {l : List α} (h : Is c s l)
    {index : Nat} (hi : index ≤ l.length) (x : α) :
    Runs ((do EV.insert c index x; EV.remove c index) s) (fun r s' => r = x ∧ Is c s' l)
      (fun e s' => e = .capacity ∧ s' = s ∧ Refused c (c.blocks (l.length + 1))) := by
  refine runs_seq (insert_holds hc hb (h.holds hc) hi x) (fun _ _ h => h) ?_
  rintro _ s1 ⟨h1, h2, -⟩
  have hi1 : index < (l.insertIdx index x).length := by
    rw [List.length_insertIdx_of_le_length hi]; omega
  obtain ⟨s2, g1, g2, _⟩ := remove_holds hc hb h1 hi1 h2
  rw [g1]
  refine ⟨List.getElem_insertIdx_self hi1, ?_⟩
  rw [List.eraseIdx_insertIdx_self] at g2
  exact g2.is hc

/-- The hypotheses are met by a vector with dirty unused bits, and the calls succeed. -/
example : (c8.bits < c8.W ∧ Is c8 ⟨⟨[0xd11f58d1#32, 0xc0000023#32], 2⟩, 12⟩ l12 ∧ 0 ≤ l12.length) ∧
    ((do EV.insert c8 0 6; EV.remove c8 0) (⟨⟨[0xd11f58d1#32, 0xc0000023#32], 2⟩, 12⟩ : EV 32)).1 = .ok 6 :=
  ⟨⟨by decide, is_of_check c8_ok (by decide), by decide⟩, by decide +kernel⟩

end EnumVecModel
