import Verif.Lemmas.Insert

set_option linter.unusedSectionVars false

/-! # `remove` -/

namespace EnumVecModel
open EV

variable {α : Type}

section
variable {c : Inst α} {strict : Prop} (hc : c.Fits strict)
include hc

/-- slow loop -/
theorem removeSlow (s : EV c.W) (index n : Nat)
    (hn : index + n < s.storage.data.length * c.epb) :
    Runs (loop (removeSlowStep c) n index () s)
      (fun _ s' => SameShape c s s' ∧ (∀ j, waste c s' j = waste c s j) ∧
        (∀ j, index + n ≤ j * c.epb → blk s' j = blk s j) ∧
        ∀ k, raw c s' k = if index ≤ k ∧ k < index + n then raw c s (k + 1) else raw c s k)
      (fun _ _ => False) := by
  have hep := hc.epb_pos
  have key := runs_loop (body := removeSlowStep c) (E := fun _ _ => False) (stop := index + n)
    (fun i _ s' => index ≤ i ∧ SameShape c s s' ∧ (∀ j, waste c s' j = waste c s j) ∧
        (∀ j, i ≤ j * c.epb → blk s' j = blk s j) ∧
        ∀ k, raw c s' k = if index ≤ k ∧ k < i then raw c s (k + 1) else raw c s k) ?_ n index () s rfl ?_
  · exact key.mono (fun _ _ h => h.2) (fun _ _ h => h)
  · rintro i _ s' hi ⟨h0, h1, h2, h3, h4⟩
    have hlt : i < s'.storage.data.length * c.epb := by rw [h1.len]; omega
    have hlt' : i + 1 < s'.storage.data.length * c.epb := by rw [h1.len]; omega
    unfold removeSlowStep
    rw [M.bind_ok (getRawUnchecked_ok hc s' hlt'), setRawUnchecked_ok hc s' _ hlt]
    have hp := raw_lt c s' (i + 1)
    refine ⟨by omega, h1.trans (putRaw_shape c s' i _), ?_, ?_, ?_⟩
    · intro j; rw [waste_putRaw hc s' j hlt hp, h2]
    · intro j hj
      rw [blk_putRaw c s' _ _ _ ((Nat.div_lt_iff_lt_mul hep).mpr hlt), if_neg, h3 j (by omega)]
      intro e
      have := Nat.div_mul_le_self i c.epb
      rw [← e] at this; omega
    · intro k
      rw [raw_putRaw hc s' k hlt hp]
      by_cases hk : k = i
      · rw [if_pos hk, if_pos (by omega), hk, h4, if_neg (by omega)]
      · rw [if_neg hk, h4]
        by_cases hk' : index ≤ k ∧ k < i
        · rw [if_pos hk', if_pos (by omega)]
        · rw [if_neg hk', if_neg (by omega)]
  · refine ⟨Nat.le_refl _, SameShape.refl s, fun _ => rfl, fun _ _ => rfl, ?_⟩
    intro k; rw [if_neg (by omega)]

theorem shiftDown_eq (hb : c.bits < c.W) (v z : BitVec c.W) :
    shiftDown c v z = .ok (v &&& c.mask, (v >>> c.bits) ||| (z <<< ((c.epb - 1) * c.bits))) := by
  unfold shiftDown blkShr
  rw [if_pos hb]

/-- fast loop: blocks `last, last-1, …, last+1-n`; `f` is the resulting contents. -/
theorem removeFast (hb : c.bits < c.W) (s : EV c.W) (last n : Nat) (f : Nat → Nat) (prev : BitVec c.W)
    (hf : ∀ j m, j ≤ last → m + 1 < c.epb → f (j * c.epb + m) = raw c s (j * c.epb + m + 1))
    (hf1 : ∀ j, j < last → f (j * c.epb + (c.epb - 1)) = waste c s j ||| raw c s ((j + 1) * c.epb))
    (hprev : f (last * c.epb + (c.epb - 1)) = waste c s last ||| prev.toNat) (hpl : prev.toNat < 2 ^ c.bits)
    (hn : n ≤ last + 1) (hl : last < s.storage.data.length) :
    Runs (loop (fun k prev => removeFastStep c (last - k) prev) n 0 prev s)
      (fun _ s' => SameShape c s s' ∧
        (∀ j, waste c s' j = if last + 1 - n ≤ j ∧ j ≤ last then 0 else waste c s j) ∧
        ∀ k, raw c s' k = if (last + 1 - n) * c.epb ≤ k ∧ k < (last + 1) * c.epb then f k else raw c s k)
      (fun _ _ => False) := by
  have hep := hc.epb_pos
  have key := runs_loop (body := fun k prev => removeFastStep c (last - k) prev)
    (E := fun _ _ => False) (stop := n)
    (fun i prev s' => i ≤ n ∧ SameShape c s s' ∧
        (∀ j, waste c s' j = if last + 1 - i ≤ j ∧ j ≤ last then 0 else waste c s j) ∧
        (i ≤ last → f ((last - i) * c.epb + (c.epb - 1)) = waste c s (last - i) ||| prev.toNat) ∧
        prev.toNat < 2 ^ c.bits ∧
        (∀ j, j < last + 1 - i → blk s' j = blk s j) ∧
        ∀ k, raw c s' k = if (last + 1 - i) * c.epb ≤ k ∧ k < (last + 1) * c.epb then f k else raw c s k)
      ?_ n 0 prev s (Nat.zero_add _) ?_
  · exact key.mono (fun _ _ h => ⟨h.2.1, h.2.2.1, h.2.2.2.2.2.2⟩) (fun _ _ h => h)
  · rintro i prev s' hi ⟨h0, h1, h2, h3, hp, h5, h4⟩
    have hil : i ≤ last := by omega
    have hlt : last - i < s'.storage.data.length := by rw [h1.len]; omega
    unfold removeFastStep
    rw [M.bind_ok (block_ok hc s' hlt), shiftDown_eq hc hb, M.lift_ok_bind, M.bind_ok (setBlock_eq hc s' _ _),
      M.pure_apply]
    generalize hj0 : last - i = j0 at *
    have hvb : s'.storage.data[j0].toNat = blk s j0 := by
      rw [← blk_lt s' hlt]; exact h5 _ (by omega)
    have hji : last + 1 - (i + 1) = j0 := by omega
    have hji' : last + 1 - i = j0 + 1 := by omega
    have hsucc : (j0 + 1) * c.epb = j0 * c.epb + c.epb := by rw [Nat.add_mul, Nat.one_mul]
    have hle : (j0 + 1) * c.epb ≤ (last + 1) * c.epb := Nat.mul_le_mul_right _ (by omega)
    rw [hji'] at h2 h4 h5
    rw [hji]
    have hread0 : (s'.storage.data[j0] &&& c.mask).toNat = fld c.bits (blk s j0) 0 := by
      rw [Inst.mask, toNat_read0 hc.bits_le, hvb]
    refine ⟨by omega, h1.trans (putBlk_shape s' _ _), ?_, ?_, ?_, ?_, ?_⟩
    · intro j
      unfold waste
      rw [blk_putBlk s' _ j _ hlt]
      by_cases hj : j = j0
      · subst hj
        rw [if_pos rfl, if_pos (by omega), fld_shiftDown_waste _ _ hp _ hep hc.epb_mul hc.epb_mul_lt]
      · rw [if_neg hj]
        have := h2 j
        unfold waste at this
        rw [this]
        by_cases hj' : j0 + 1 ≤ j ∧ j ≤ last
        · rw [if_pos hj', if_pos (by omega)]
        · rw [if_neg hj', if_neg (by omega)]
    · intro hi1
      show _ = _ ||| (s'.storage.data[j0] &&& c.mask).toNat
      have hj1 : j0 = (last - (i + 1)) + 1 := by omega
      rw [hread0, hf1 _ (by omega), ← hj1, ← raw_block hc s j0 0 hep]; rfl
    · show (s'.storage.data[j0] &&& c.mask).toNat < _
      rw [hread0]; exact fld_lt _ _ _
    · intro j hj
      rw [blk_putBlk s' _ j _ hlt, if_neg (by omega)]
      exact h5 j (by omega)
    · intro k
      by_cases hk : j0 * c.epb ≤ k ∧ k < (j0 + 1) * c.epb
      · rw [if_pos (by omega)]
        obtain ⟨m, rfl⟩ : ∃ m, k = j0 * c.epb + m := ⟨k - j0 * c.epb, by omega⟩
        have hm : m < c.epb := by omega
        rw [raw_block hc _ j0 m hm, blk_putBlk s' _ _ _ hlt, if_pos rfl,
          fld_shiftDown _ _ hp _ _ hep hc.epb_mul hm]
        by_cases hm0 : m = c.epb - 1
        · rw [if_pos hm0, hvb, hm0, h3 hil]; rfl
        · rw [if_neg hm0, hvb, ← raw_block hc s j0 (m + 1) (by omega), hf _ _ (by omega) (by omega)]
          congr 1
      · have hkb : k / c.epb ≠ j0 := by
          intro e
          apply hk
          have e1 := Nat.div_add_mod k c.epb
          have e2 := Nat.mod_lt k hep
          rw [e, Nat.mul_comm] at e1
          omega
        unfold raw
        rw [blk_putBlk s' _ _ _ hlt, if_neg hkb]
        have := h4 k
        unfold raw at this
        rw [this]
        by_cases hk' : (j0 + 1) * c.epb ≤ k ∧ k < (last + 1) * c.epb
        · rw [if_pos hk', if_pos (by omega)]
        · rw [if_neg hk', if_neg (by omega)]
  · refine ⟨by omega, SameShape.refl s, ?_, ?_, hpl, fun _ _ => rfl, ?_⟩
    · intro j; rw [if_neg (by omega)]
    · intro _; simpa using hprev
    · intro k; rw [if_neg (by rw [Nat.sub_zero]; omega)]

omit hc in
theorem remove_oob (hc : c.Ok) {s : EV c.W} {l : List α} (h : Holds c s l) {index : Nat} (hi : l.length ≤ index) :
    EV.remove c index s = (.error .unwrapNone, s) := by
  unfold EV.remove
  rw [M.bind_ok (get_holds hc h index), List.getElem?_eq_none hi, M.unwrap_none_bind]

/-- What `remove(index)` additionally ORs into the element that ends up at position `k`: the unused bits of its
block, if `k` is the last position of a block that is shifted as a whole. -/
def dirt (c : Inst α) (s : EV c.W) (index k : Nat) : Nat :=
  if k % c.epb = c.epb - 1 ∧ index / c.epb < k / c.epb then waste c s (k / c.epb) else 0

omit hc in
/-- Exact raw effect of `remove` inside the bounds. -/
theorem remove_raw (hc : c.Ok) (hb : c.bits < c.W) {s : EV c.W} {l : List α} (h : Holds c s l) {index : Nat}
    (hi : index < l.length) :
    ∃ s', EV.remove c index s = (.ok l[index], s') ∧ Safe c s' ∧ s'.num = s.num - 1 ∧
      s'.storage.cap = s.storage.cap ∧ s'.storage.data.length = s.storage.data.length ∧
      (∀ k, k < s.num - 1 → raw c s' k = if k < index then raw c s k else dirt c s index k ||| raw c s (k + 1)) ∧
      (∀ k, ∃ k', raw c s' k = raw c s k' ∨ ∃ j, raw c s' k = waste c s j ||| raw c s k') ∧
      (∀ j, waste c s' j = waste c s j ∨ waste c s' j = 0) := by
  have hep := hc.epb_pos
  have hlen := h.len_eq
  have hcov := h.cover
  have hnr := h.toSafe.numRoom hc
  suffices hR : Runs (EV.remove c index s)
      (fun a s' => a = l[index] ∧ Safe c s' ∧ s'.num = s.num - 1 ∧
      s'.storage.cap = s.storage.cap ∧ s'.storage.data.length = s.storage.data.length ∧
      (∀ k, k < s.num - 1 → raw c s' k = if k < index then raw c s k else dirt c s index k ||| raw c s (k + 1)) ∧
      (∀ k, ∃ k', raw c s' k = raw c s k' ∨ ∃ j, raw c s' k = waste c s j ||| raw c s k') ∧
      (∀ j, waste c s' j = waste c s j ∨ waste c s' j = 0)) (fun _ _ => False) by
    match hx : EV.remove c index s, hR with
    | (.ok a, s'), hR =>
      obtain ⟨rfl, hr⟩ := hR
      exact ⟨s', rfl, hr⟩
    | (.error e, s'), hR => exact hR.elim
  unfold EV.remove
  rw [M.bind_ok (get_holds hc h index), List.getElem?_eq_getElem hi, M.unwrap_some_bind, M.read_bind]
  have e1 := Nat.div_add_mod index c.epb
  have e2 := Nat.mod_lt index hep
  generalize hbl : (1 + index / c.epb) * c.epb = bl
  have hbl' : bl = c.epb * (index / c.epb) + c.epb := by
    rw [← hbl, Nat.add_comm, Nat.add_mul, Nat.one_mul, Nat.mul_comm]
  have hmul : uMul c.build (1 + (blockIndex c index).1) c.epb = .ok bl := by
    unfold uMul
    show (if (1 + index / c.epb) * c.epb < c.build.usizeLim then _ else _) = _
    rw [hbl, if_pos]
    · show Except.ok ((1 + index / c.epb) * c.epb) = _
      rw [hbl]
    · omega
  rw [hmul, M.lift_ok_bind]
  have hl0 : len c s = s.num := rfl
  generalize hsl : min (len c s - 1) bl = sl
  rw [hl0] at hsl
  have hsl1 : index ≤ sl := by omega
  have hsl2 : sl ≤ s.num - 1 := by omega
  refine runs_seq (removeSlow hc s index (sl - index) (by omega)) (fun _ _ h => h) ?_
  rintro _ s1 ⟨g1, g2, g3, g4⟩
  have e3 : index + (sl - index) = sl := by omega
  rw [e3] at g3 g4
  rw [M.read_bind]
  have hl1 : len c s1 = s.num := g1.num
  have hlt1 : s.num - 1 < s1.storage.data.length * c.epb := by rw [g1.len]; omega
  rw [hl1, M.bind_ok (getRawUnchecked_ok hc s1 hlt1), M.read_bind, M.write_bind, M.read_bind]
  have hprev : raw c s1 (s.num - 1) = raw c s (s.num - 1) := by
    rw [g4, if_neg (by omega)]
  rw [hprev, Nat.max_eq_right hsl1]
  have hl2 : len c (⟨s1.storage, s1.num - 1⟩ : EV c.W) = s.num - 1 := by
    show s1.num - 1 = _; rw [g1.num]
  have hs2 : Safe c (⟨s1.storage, s1.num - 1⟩ : EV c.W) := by
    have := g1.safe h.toSafe
    exact this.setNum hc (by omega)
  have hsame : ∀ k, raw c (⟨s1.storage, s1.num - 1⟩ : EV c.W) k = raw c s1 k := fun k => raw_congr rfl k
  have hsamew : ∀ j, waste c (⟨s1.storage, s1.num - 1⟩ : EV c.W) j = waste c s1 j := fun k => waste_congr rfl k
  -- positions below the block limit carry no dirt
  have hdirt0 : ∀ k, k < bl → dirt c s index k = 0 := by
    intro k hk
    unfold dirt
    rw [if_neg]
    rintro ⟨-, hlt⟩
    have h1 : (index / c.epb + 1) * c.epb ≤ k := (Nat.le_div_iff_mul_le hep).mp hlt
    rw [Nat.add_comm, hbl] at h1
    omega
  by_cases hfast : sl < s.num - 1
  · rw [if_pos (by rw [hl2]; exact hfast)]
    have hslb : sl = bl := by omega
    have hib : (blockIndex c sl).1 = index / c.epb + 1 := by
      show sl / c.epb = _
      rw [hslb, ← hbl, Nat.mul_div_cancel _ hep]; omega
    have hbl2 : bl = (index / c.epb + 1) * c.epb := by rw [← hbl, Nat.add_comm]
    rw [hl2]
    generalize hlast : (s.num - 1 - 1) / c.epb = last
    have hlast' : (blockIndex c (s.num - 1 - 1)).1 = last := hlast
    rw [hlast', hib]
    have d1 := Nat.div_add_mod (s.num - 1 - 1) c.epb
    have d2 := Nat.mod_lt (s.num - 1 - 1) hep
    rw [hlast, Nat.mul_comm] at d1
    have hlS : (last + 1) * c.epb = last * c.epb + c.epb := by rw [Nat.add_mul, Nat.one_mul]
    have hile : index / c.epb + 1 ≤ last := by
      rw [← hlast, Nat.le_div_iff_mul_le hep, ← hbl2]; omega
    have hlastlen : last < s1.storage.data.length := by
      rw [g1.len, ← hlast, Nat.div_lt_iff_lt_mul hep]; omega
    -- contents after the loop
    let f : Nat → Nat := fun k =>
      if k % c.epb = c.epb - 1 then
        waste c s (k / c.epb) ||| (if k + 1 < (last + 1) * c.epb then raw c s1 (k + 1) else raw c s (s.num - 1))
      else raw c s1 (k + 1)
    have hfdef : ∀ k, f k = if k % c.epb = c.epb - 1 then
        waste c s (k / c.epb) ||| (if k + 1 < (last + 1) * c.epb then raw c s1 (k + 1) else raw c s (s.num - 1))
      else raw c s1 (k + 1) := fun _ => rfl
    have hdm : ∀ j m, m < c.epb → (j * c.epb + m) / c.epb = j ∧ (j * c.epb + m) % c.epb = m := by
      intro j m hm
      have h1 : j * c.epb ≤ j * c.epb + m := by omega
      have h2 : j * c.epb + m < (j + 1) * c.epb := by rw [Nat.add_mul]; omega
      exact ⟨div_of_block hc h1 h2, by rw [mod_of_block hc h1 h2]; omega⟩
    have hpW : (BitVec.ofNat c.W (raw c s (s.num - 1))).toNat = raw c s (s.num - 1) := by
      rw [BitVec.toNat_ofNat]
      exact Nat.mod_eq_of_lt (Nat.lt_of_lt_of_le (raw_lt _ _ _) (Nat.pow_le_pow_right (by decide) hc.bits_le))
    have hn0 : last + 1 - (last + 1 - (index / c.epb + 1)) = index / c.epb + 1 := by omega
    have hrun := removeFast hc hb (⟨s1.storage, s1.num - 1⟩ : EV c.W) last (last + 1 - (index / c.epb + 1)) f
      (BitVec.ofNat c.W (raw c s (s.num - 1))) ?_ ?_ ?_ ?_ (by omega) hlastlen
    · refine runs_seq hrun (fun _ _ h => h.elim) ?_
      rintro _ s' ⟨b1, b2, b3⟩
      rw [hn0] at b2 b3
      rw [← hbl2] at b3
      refine ⟨rfl, b1.safe hs2, ?_, ?_, ?_, ?_, ?_, ?_⟩
      · rw [b1.num]; exact hl2
      · rw [b1.cap]; exact g1.cap
      · rw [b1.len]; exact g1.len
      · intro k hk
        rw [b3]
        by_cases hk1 : bl ≤ k
        · rw [if_pos (by omega), if_neg (by omega), hfdef]
          have hkb : index / c.epb < k / c.epb := by
            have := (Nat.le_div_iff_mul_le hep).mpr (hbl2 ▸ hk1)
            omega
          have hval : (if k + 1 < (last + 1) * c.epb then raw c s1 (k + 1) else raw c s (s.num - 1)) = raw c s (k + 1) := by
            by_cases hk2 : k + 1 < (last + 1) * c.epb
            · rw [if_pos hk2, g4, if_neg (by omega)]
            · rw [if_neg hk2]; congr 1; omega
          rw [hval]
          unfold dirt
          by_cases hkm : k % c.epb = c.epb - 1
          · rw [if_pos hkm, if_pos ⟨hkm, hkb⟩]
          · rw [if_neg hkm, if_neg (fun h => hkm h.1), Nat.zero_or, g4, if_neg (by omega)]
        · rw [if_neg (by omega), hsame, g4, hdirt0 k (by omega), Nat.zero_or]
          by_cases hk2 : k < index
          · rw [if_pos hk2, if_neg (by omega)]
          · rw [if_neg hk2, if_pos (by omega)]
      · intro k
        have hone : ∀ m, ∃ k', raw c s1 m = raw c s k' := fun m => by
          rw [g4]; split
          · exact ⟨_, rfl⟩
          · exact ⟨_, rfl⟩
        rw [b3]
        split
        · rw [hfdef]
          split
          · split
            · obtain ⟨k', e⟩ := hone (k + 1)
              exact ⟨k', Or.inr ⟨_, by rw [e]⟩⟩
            · exact ⟨_, Or.inr ⟨_, rfl⟩⟩
          · obtain ⟨k', e⟩ := hone (k + 1)
            exact ⟨k', Or.inl e⟩
        · rw [hsame]
          obtain ⟨k', e⟩ := hone k
          exact ⟨k', Or.inl e⟩
      · intro j
        rw [b2, hsamew, g2]
        split
        · exact Or.inr rfl
        · exact Or.inl rfl
    · intro j m hj hm
      have := hdm j m (by omega)
      rw [hfdef, this.2, if_neg (by omega), hsame]
    · intro j hj
      have := hdm j (c.epb - 1) (by omega)
      have hjS : (j + 1) * c.epb = j * c.epb + c.epb := by rw [Nat.add_mul, Nat.one_mul]
      have hjl : (j + 1) * c.epb ≤ last * c.epb := Nat.mul_le_mul_right _ (by omega)
      rw [hfdef, this.2, this.1, if_pos rfl, if_pos (by omega), hsame, hsamew, g2]
      congr 2; omega
    · have := hdm last (c.epb - 1) (by omega)
      rw [hfdef, this.2, this.1, if_pos rfl, if_neg (by omega), hsamew, g2, hpW]
    · rw [hpW]; exact raw_lt _ _ _
  · rw [if_neg (by rw [hl2]; exact hfast)]
    refine ⟨rfl, hs2, hl2, g1.cap, g1.len, ?_, ?_, ?_⟩
    · intro k hk
      rw [hsame, g4, hdirt0 k (by omega), Nat.zero_or]
      by_cases hk2 : k < index
      · rw [if_pos hk2, if_neg (by omega)]
      · rw [if_neg hk2, if_pos (by omega)]
    · intro k
      rw [hsame, g4]
      split
      · exact ⟨_, Or.inl rfl⟩
      · exact ⟨_, Or.inl rfl⟩
    · intro j
      rw [hsamew, g2]; exact Or.inl rfl

/-- The unused bits do not disturb `remove(index)`. -/
def RemoveOk (c : Inst α) (s : EV c.W) (index : Nat) : Prop :=
  ∀ k, index ≤ k → k + 1 < s.num → dirt c s index k ||| raw c s (k + 1) = raw c s (k + 1)

theorem dirt_clean {s : EV c.W} (h : Clean c s) (index k : Nat) : dirt c s index k = 0 := by
  unfold dirt; split
  · exact h _
  · rfl

theorem RemoveOk.of_clean {s : EV c.W} (h : Clean c s) (index : Nat) : RemoveOk c s index := by
  intro k _ _; rw [dirt_clean hc h, Nat.zero_or]

omit hc in
theorem remove_holds (hc : c.Ok) (hb : c.bits < c.W) {s : EV c.W} {l : List α} (h : Holds c s l) {index : Nat}
    (hi : index < l.length) (hw : RemoveOk c s index) :
    ∃ s', EV.remove c index s = (.ok l[index], s') ∧ Holds c s' (l.eraseIdx index) ∧
      s'.storage.cap = s.storage.cap ∧ (Clean c s → Tidy c s s') := by
  obtain ⟨s', h1, h2, h3, h4, h8, h5, h6, h7⟩ := remove_raw hc hb h hi
  have hlen := h.len_eq
  refine ⟨s', h1, ⟨h2, ?_, ?_⟩, h4, fun hcl => ⟨h7, fun hv i => ?_⟩⟩
  · rw [h3, List.length_eraseIdx_of_lt hi, hlen]
  · intro k hk
    rw [List.length_eraseIdx_of_lt hi] at hk
    rw [h5 k (by omega), List.getElem_eraseIdx]
    by_cases hk2 : k < index
    · rw [if_pos hk2, dif_pos hk2]; exact h.elems _ _
    · rw [if_neg hk2, dif_neg hk2, hw k (by omega) (by omega)]; exact h.elems _ _
  · obtain ⟨k, e | ⟨j, e⟩⟩ := h6 i
    · rw [e]; exact hv k
    · rw [e, hcl j, Nat.zero_or]; exact hv k

omit hc in
theorem insert_holds (hc : c.Ok) (hb : c.bits < c.W) {s : EV c.W} {l : List α} (h : Holds c s l) {index : Nat}
    (hi : index ≤ l.length) (x : α) :
    Runs (EV.insert c index x s)
      (fun _ s' => Holds c s' (l.insertIdx index x) ∧ RemoveOk c s' index ∧ s.storage.cap ≤ s'.storage.cap ∧
        (c.blocks (l.length + 1) ≤ s.storage.cap → s'.storage.cap = s.storage.cap) ∧ (Valid c s → Valid c s'))
      (fun e s' => e = .capacity ∧ s' = s ∧ Refused c (c.blocks (l.length + 1))) := by
  have hlen := h.len_eq
  refine (insert_raw hc hb h.toSafe (by omega) x).mono ?_ ?_
  · rintro _ s' ⟨h1, h2, h3, h4, h5, h6, h7⟩
    have hE : ∀ k (hk : k < (l.insertIdx index x).length), raw c s' k = c.E.toDiscr (l.insertIdx index x)[k] := by
      intro k hk
      rw [List.length_insertIdx_of_le_length hi] at hk
      rw [h5 k (by omega), List.getElem_insertIdx]
      unfold ins
      by_cases hk1 : k < index
      · rw [if_pos hk1, dif_pos hk1]; exact h.elems _ _
      · rw [if_neg hk1, dif_neg hk1]
        by_cases hk2 : k = index
        · rw [if_pos hk2, dif_pos hk2]
        · rw [if_neg hk2, dif_neg hk2]; exact h.elems _ _
    refine ⟨⟨h1, ?_, hE⟩, ?_, h3, by rw [← hlen]; exact h4, ?_⟩
    · rw [h2, List.length_insertIdx_of_le_length hi, hlen]
    · -- the dirt is the low part of the element that comes back
      have hmask : ∀ a m, (a % 2 ^ m) ||| a = a := by
        intro a m
        apply Nat.eq_of_testBit_eq
        intro k
        rw [Nat.testBit_or, Nat.testBit_mod_two_pow]
        cases decide (k < m) <;> simp
      intro k hk1 hk2
      rw [h2] at hk2
      unfold dirt
      split
      · next hcond =>
        obtain ⟨hm, hlt⟩ := hcond
        have hep := hc.epb_pos
        have d1 := Nat.div_add_mod k c.epb
        rw [hm, Nat.mul_comm] at d1
        have d2 : (index / c.epb + 1) * c.epb ≤ k / c.epb * c.epb := Nat.mul_le_mul_right _ hlt
        have d3 := Nat.div_add_mod index c.epb
        have d4 := Nat.mod_lt index hep
        rw [Nat.add_mul, Nat.one_mul, Nat.mul_comm (index / c.epb)] at d2
        have e : raw c s' (k + 1) = raw c s (k / c.epb * c.epb + (c.epb - 1)) := by
          rw [h5 _ (by omega)]
          unfold ins; rw [if_neg (by omega), if_neg (by omega), d1]; rfl
        rw [e]
        rcases h7 (k / c.epb) (by omega) (by omega) with e7 | ⟨e7, e8⟩
        · rw [e7]; exact hmask _ _
        · omega
      · rw [Nat.zero_or]
    · intro hv i
      rcases h6 i with e | ⟨k, e⟩
      · rw [e]; exact hc.contract.lt x
      · rw [e]; exact hv k
  · rintro e s' ⟨h1, h2, h3⟩
    exact ⟨h1, h2, by rw [← hlen]; exact h3⟩

end
end EnumVecModel
