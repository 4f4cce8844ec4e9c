import Verif.Lemmas.Ops

set_option linter.unusedSectionVars false

/-! # `insert` -/

namespace EnumVecModel
open EV

variable {α : Type}

/-- `r` with `d` inserted at `index`. -/
def ins (r : Nat → Nat) (index d k : Nat) : Nat :=
  if k < index then r k else if k = index then d else r (k - 1)

/-- Same length, number of elements and capacity. -/
structure SameShape (c : Inst α) (s s' : EV c.W) : Prop where
  num : s'.num = s.num
  cap : s'.storage.cap = s.storage.cap
  len : s'.storage.data.length = s.storage.data.length

theorem SameShape.refl {c : Inst α} (s : EV c.W) : SameShape c s s := ⟨rfl, rfl, rfl⟩

theorem SameShape.trans {c : Inst α} {s t u : EV c.W} (h : SameShape c s t) (h' : SameShape c t u) :
    SameShape c s u := ⟨h'.num.trans h.num, h'.cap.trans h.cap, h'.len.trans h.len⟩

theorem SameShape.safe {c : Inst α} {s t : EV c.W} (h : SameShape c s t) (hs : Safe c s) : Safe c t :=
  ⟨by rw [h.num, h.len]; exact hs.cover, by rw [h.len, h.cap]; exact hs.capLen, by rw [h.cap]; exact hs.capBound⟩

theorem putRaw_shape (c : Inst α) (s : EV c.W) (i d : Nat) : SameShape c s (putRaw c s i d) :=
  ⟨rfl, rfl, by simp⟩

/-- State after `storage[j] = v`. -/
def putBlk {W : Nat} (s : EV W) (j : Nat) (v : BitVec W) : EV W :=
  ⟨⟨s.storage.data.set j v, s.storage.cap⟩, s.num⟩

theorem blk_putBlk {W : Nat} (s : EV W) (j k : Nat) (v : BitVec W) (h : j < s.storage.data.length) :
    blk (putBlk s j v) k = if k = j then v.toNat else blk s k := by
  unfold blk putBlk
  simp only [List.getElem?_set]
  by_cases hj : j = k
  · subst hj; simp [h]
  · have : ¬ k = j := fun e => hj e.symm
    simp [hj, this]

theorem putBlk_shape {c : Inst α} (s : EV c.W) (j : Nat) (v : BitVec c.W) : SameShape c s (putBlk s j v) :=
  ⟨rfl, rfl, by simp [putBlk]⟩

section
variable {c : Inst α} {strict : Prop} (hc : c.Fits strict)
include hc

theorem div_of_block {i j : Nat} (h1 : j * c.epb ≤ i) (h2 : i < (j + 1) * c.epb) : i / c.epb = j :=
  Nat.div_eq_of_lt_le (by rw [Nat.mul_comm] at h1; rw [Nat.mul_comm]; exact h1) (by rw [Nat.mul_comm] at h2; rw [Nat.mul_comm]; exact h2)

theorem mod_of_block {i j : Nat} (h1 : j * c.epb ≤ i) (h2 : i < (j + 1) * c.epb) :
    i % c.epb = i - j * c.epb := by
  have h := div_of_block hc h1 h2
  have := Nat.div_add_mod i c.epb
  rw [h, Nat.mul_comm] at this
  omega

theorem raw_block (s : EV c.W) (j m : Nat) (hm : m < c.epb) : raw c s (j * c.epb + m) = fld c.bits (blk s j) m := by
  have h1 : j * c.epb ≤ j * c.epb + m := by omega
  have h2 : j * c.epb + m < (j + 1) * c.epb := by rw [Nat.add_mul]; omega
  unfold raw
  rw [div_of_block hc h1 h2, mod_of_block hc h1 h2]
  congr 1; omega

theorem block_ok (s : EV c.W) {j : Nat} (h : j < s.storage.data.length) :
    block c j s = (.ok s.storage.data[j], s) := by
  unfold block; rw [List.getElem?_eq_getElem h]

theorem setBlock_eq (s : EV c.W) (j : Nat) (v : BitVec c.W) : setBlock c j v s = (.ok (), putBlk s j v) := rfl

/-- slow loop -/
theorem insertSlow (s : EV c.W) (index d n : Nat) (hd : d < 2 ^ c.bits)
    (hn : index + n ≤ s.storage.data.length * c.epb) :
    Runs (loop (insertSlowStep c) n index d s)
      (fun prev s' => SameShape c s s' ∧ (∀ j, waste c s' j = waste c s j) ∧
        prev = ins (raw c s) index d (index + n) ∧
        ∀ k, raw c s' k = if k < index + n then ins (raw c s) index d k else raw c s k)
      (fun _ _ => False) := by
  have key := runs_loop (body := insertSlowStep c) (E := fun _ _ => False) (stop := index + n)
    (fun i prev s' => index ≤ i ∧ SameShape c s s' ∧ (∀ j, waste c s' j = waste c s j) ∧
        prev = ins (raw c s) index d i ∧
        ∀ k, raw c s' k = if k < i then ins (raw c s) index d k else raw c s k) ?_ n index d s rfl ?_
  · exact key.mono (fun _ _ h => h.2) (fun _ _ h => h)
  · rintro i prev s' hi ⟨h0, h1, h2, h3, h4⟩
    have hlt : i < s'.storage.data.length * c.epb := by rw [h1.len]; omega
    unfold insertSlowStep
    rw [M.bind_ok (getRawUnchecked_ok hc s' hlt), M.bind_ok (setRawUnchecked_ok hc s' _ hlt), M.pure_apply]
    have hp : prev < 2 ^ c.bits := by
      rw [h3]; unfold ins; split
      · exact raw_lt _ _ _
      · split
        · exact hd
        · exact raw_lt _ _ _
    refine ⟨by omega, h1.trans (putRaw_shape c s' i prev), ?_, ?_, ?_⟩
    · intro j; rw [waste_putRaw hc s' j hlt hp, h2]
    · rw [h4, if_neg (Nat.lt_irrefl _)]
      unfold ins
      rw [if_neg (by omega), if_neg (by omega)]; rfl
    · intro k
      rw [raw_putRaw hc s' k hlt hp]
      by_cases hk : k = i
      · rw [if_pos hk, if_pos (by omega), h3, hk]
      · rw [if_neg hk, h4]
        by_cases hk' : k < i
        · rw [if_pos hk', if_pos (by omega)]
        · rw [if_neg hk', if_neg (by omega)]
  · refine ⟨Nat.le_refl _, SameShape.refl s, fun _ => rfl, ?_, ?_⟩
    · unfold ins; rw [if_neg (Nat.lt_irrefl _), if_pos rfl]
    · intro k
      split
      · next h => unfold ins; rw [if_pos h]
      · rfl

theorem shiftUp_eq (hb : c.bits < c.W) (v z : BitVec c.W) :
    shiftUp c v z = .ok (v >>> ((c.epb - 1) * c.bits) &&& c.mask, (v <<< c.bits) ||| z) := by
  unfold shiftUp blkShl
  rw [if_pos hb]

/-- fast loop, starting at the block boundary `ib * epb ≥ index` -/
theorem insertFast (hb : c.bits < c.W) (s : EV c.W) (ib n : Nat) (f : Nat → Nat) (prev : BitVec c.W)
    (hf : ∀ k, ib * c.epb ≤ k → f (k + 1) = raw c s k) (hfl : ∀ k, f k < 2 ^ c.bits)
    (hprev : prev.toNat = f (ib * c.epb))
    (hn : ib + n ≤ s.storage.data.length) :
    Runs (loop (insertFastStep c) n ib prev s)
      (fun _ s' => SameShape c s s' ∧
        (∀ j, waste c s' j = if ib ≤ j ∧ j < ib + n then f ((j + 1) * c.epb) % 2 ^ (c.W - c.epb * c.bits)
          else waste c s j) ∧
        ∀ k, raw c s' k = if ib * c.epb ≤ k ∧ k < (ib + n) * c.epb then f k else raw c s k)
      (fun _ _ => False) := by
  have hep := hc.epb_pos
  have key := runs_loop (body := insertFastStep c) (E := fun _ _ => False) (stop := ib + n)
    (fun i prev s' => ib ≤ i ∧ SameShape c s s' ∧
        (∀ j, waste c s' j = if ib ≤ j ∧ j < i then f ((j + 1) * c.epb) % 2 ^ (c.W - c.epb * c.bits)
          else waste c s j) ∧
        prev.toNat = f (i * c.epb) ∧ (∀ j, ¬ (ib ≤ j ∧ j < i) → blk s' j = blk s j) ∧
        ∀ k, raw c s' k = if ib * c.epb ≤ k ∧ k < i * c.epb then f k else raw c s k) ?_ n ib prev s rfl ?_
  · exact key.mono (fun _ _ h => ⟨h.2.1, h.2.2.1, h.2.2.2.2.2⟩) (fun _ _ h => h)
  · rintro i prev s' hi ⟨h0, h1, h2, h3, h5, h4⟩
    have hlt : i < s'.storage.data.length := by rw [h1.len]; omega
    unfold insertFastStep
    rw [M.bind_ok (block_ok hc s' hlt), shiftUp_eq hc hb, M.lift_ok_bind, M.bind_ok (setBlock_eq hc s' _ _),
      M.pure_apply]
    have hp : prev.toNat < 2 ^ c.bits := by rw [h3]; exact hfl _
    have hvb : s'.storage.data[i].toNat = blk s i := by
      rw [← blk_lt s' hlt]; exact h5 i (by omega)
    have hibi : ib * c.epb ≤ i * c.epb := Nat.mul_le_mul_right _ h0
    have hsucc : (i + 1) * c.epb = i * c.epb + c.epb := by rw [Nat.add_mul, Nat.one_mul]
    have hlast : fld c.bits (blk s i) (c.epb - 1) = f ((i + 1) * c.epb) := by
      have := hf (i * c.epb + (c.epb - 1)) (by omega)
      rw [raw_block hc s i (c.epb - 1) (by omega)] at this
      rw [← this]; congr 1; omega
    refine ⟨by omega, h1.trans (putBlk_shape s' i _), ?_, ?_, ?_, ?_⟩
    · intro j
      unfold waste
      rw [blk_putBlk s' i j _ hlt]
      by_cases hj : j = i
      · subst hj
        rw [if_pos rfl, if_pos ⟨h0, by omega⟩, fld_shiftUp_waste _ _ hp _ hep, hvb, hlast]
      · rw [if_neg hj]
        have := h2 j
        unfold waste at this
        rw [this]
        by_cases hj' : ib ≤ j ∧ j < i
        · rw [if_pos hj', if_pos ⟨hj'.1, by omega⟩]
        · rw [if_neg hj', if_neg (by omega)]
    · show ((s'.storage.data[i] >>> ((c.epb - 1) * c.bits)) &&& c.mask).toNat = _
      rw [Inst.mask, toNat_read hc.bits_le, hvb, hlast]
    · intro j hj
      rw [blk_putBlk s' i j _ hlt, if_neg (by omega)]
      exact h5 j (by omega)
    · intro k
      by_cases hk : i * c.epb ≤ k ∧ k < (i + 1) * c.epb
      · rw [if_pos (by omega)]
        obtain ⟨m, rfl⟩ : ∃ m, k = i * c.epb + m := ⟨k - i * c.epb, by omega⟩
        have hm : m < c.epb := by omega
        rw [raw_block hc _ i m hm, blk_putBlk s' i i _ hlt, if_pos rfl, fld_shiftUp _ _ hp _ (hc.fld_fits hm)]
        by_cases hm0 : m = 0
        · rw [if_pos hm0, h3, hm0]; rfl
        · rw [if_neg hm0, hvb, ← raw_block hc s i (m - 1) (by omega), ← hf _ (by omega)]
          congr 1; omega
      · have hkb : k / c.epb ≠ i := by
          intro e
          apply hk
          have e1 := Nat.div_add_mod k c.epb
          have e2 := Nat.mod_lt k hep
          rw [e, Nat.mul_comm] at e1
          omega
        unfold raw
        rw [blk_putBlk s' i _ _ hlt, if_neg hkb]
        have := h4 k
        unfold raw at this
        rw [this]
        by_cases hk' : ib * c.epb ≤ k ∧ k < i * c.epb
        · rw [if_pos hk', if_pos (by omega)]
        · rw [if_neg hk', if_neg (by omega)]
  · refine ⟨Nat.le_refl _, SameShape.refl s, ?_, hprev, fun _ _ => rfl, ?_⟩
    · intro j; rw [if_neg (by omega)]
    · intro k; rw [if_neg (by omega)]

theorem mod_zero_mul {i : Nat} (h : i % c.epb = 0) : i / c.epb * c.epb = i := by
  have := Nat.div_add_mod i c.epb
  rw [Nat.mul_comm]; omega

omit hc in
/-- Raw effect of `insert` inside the bounds. -/
theorem insert_raw (hc : c.Ok) (hb : c.bits < c.W) {s : EV c.W} (h : Safe c s) {index : Nat} (hi : index ≤ s.num) (x : α) :
    Runs (EV.insert c index x s)
      (fun _ s' => Safe c s' ∧ s'.num = s.num + 1 ∧ s.storage.cap ≤ s'.storage.cap ∧
        (c.blocks (s.num + 1) ≤ s.storage.cap → s'.storage.cap = s.storage.cap) ∧
        (∀ k, k < s.num + 1 → raw c s' k = ins (raw c s) index (c.E.toDiscr x) k) ∧
        (∀ k, raw c s' k = c.E.toDiscr x ∨ ∃ k', raw c s' k = raw c s k') ∧
        (∀ j, index ≤ j * c.epb → j * c.epb < s.num + 1 →
          waste c s' j = raw c s (j * c.epb + (c.epb - 1)) % 2 ^ (c.W - c.epb * c.bits) ∨
            waste c s' j = c.E.toDiscr x % 2 ^ (c.W - c.epb * c.bits)  ∧ s.num = j * c.epb + (c.epb - 1)))
      (fun e s' => e = .capacity ∧ s' = s ∧ Refused c (c.blocks (s.num + 1))) := by
  have hep := hc.epb_pos
  unfold EV.insert
  refine runs_seq (push_raw hc h x) (fun _ _ h => h) ?_
  rintro _ s1 ⟨h1, hnum, hlim, hcap, hcap', hraw, hwaste⟩
  rw [M.read_bind]
  have hd := hc.toDiscr_lt x
  generalize hdd : c.E.toDiscr x = d at *
  have hcov := h1.cover
  -- f: target contents
  let f := ins (raw c s1) index d
  have hfl : ∀ k, f k < 2 ^ c.bits := by
    intro k; show ins _ _ _ _ < _; unfold ins
    split
    · exact raw_lt _ _ _
    · split
      · exact hd
      · exact raw_lt _ _ _
  -- after the slow phase
  refine runs_seq (P := fun ip s2 => SameShape c s1 s2 ∧ (∀ j, waste c s2 j = waste c s1 j) ∧
      index ≤ ip.1 ∧ ip.2 = f ip.1 ∧ (ip.1 % c.epb = 0 ∨ s1.num ≤ ip.1) ∧ 
      ip.1 ≤ s1.num ∧ (∀ j, j * c.epb < ip.1 → j * c.epb < index ∨ index = ip.1) ∧
      ∀ k, raw c s2 k = if k < ip.1 then f k else raw c s1 k) (E' := fun _ _ => False) ?_
    (fun _ _ h => h.elim) ?_
  · by_cases hslow : index % c.epb > 0
    · rw [if_pos hslow]
      have hadd : uAdd c.build (index - index % c.epb) c.epb = .ok (index - index % c.epb + c.epb) := by
        unfold uAdd
        rw [if_pos]
        have := h1.numRoom hc
        have := Nat.mod_le index c.epb
        omega
      rw [hadd, M.lift_ok_bind]
      have hml := Nat.mod_lt index hep
      have hmle := Nat.mod_le index c.epb
      generalize hsl : min (index - index % c.epb + c.epb) (len c s1) = sl
      have hlen : len c s1 = s1.num := rfl
      have hsl1 : index ≤ sl := by omega
      have hsl2 : sl ≤ s1.num := by omega
      refine runs_seq (insertSlow hc s1 index d (sl - index) hd (by omega)) (fun _ _ h => h) ?_
      rintro prev s2 ⟨g1, g2, g3, g4⟩
      have e : index + (sl - index) = sl := by omega
      rw [e] at g3 g4
      rw [M.pure_apply, Nat.max_eq_right hsl1]
      refine ⟨g1, g2, hsl1, g3, ?_, hsl2, ?_, g4⟩
      · by_cases hle : index - index % c.epb + c.epb ≤ s1.num
        · left
          show sl % c.epb = 0
          have : sl = index - index % c.epb + c.epb := by omega
          rw [this, Nat.add_mod_right]
          have e2 := Nat.div_add_mod index c.epb
          have : index - index % c.epb = c.epb * (index / c.epb) := by omega
          rw [this, Nat.mul_mod_right]
        · right; show s1.num ≤ sl; omega
      · intro j hj
        have hj' : j * c.epb < sl := hj
        left
        have e2 := Nat.div_add_mod index c.epb
        have h3 : j * c.epb < (index / c.epb + 1) * c.epb := by
          rw [Nat.add_mul, Nat.one_mul, Nat.mul_comm (index / c.epb)]; omega
        have h4 : j < index / c.epb + 1 := Nat.lt_of_mul_lt_mul_right h3
        have h5 : j * c.epb ≤ index / c.epb * c.epb := Nat.mul_le_mul_right _ (by omega)
        rw [Nat.mul_comm (index / c.epb)] at h5
        omega
    · rw [if_neg hslow, M.pure_apply]
      refine ⟨SameShape.refl _, fun _ => rfl, Nat.le_refl _, ?_, Or.inl (by show index % c.epb = 0; omega), by show index ≤ s1.num; omega, fun _ _ => Or.inr rfl, ?_⟩
      · show d = ins _ _ _ _
        unfold ins; rw [if_neg (Nat.lt_irrefl _), if_pos rfl]
      · intro k
        split
        · next hk => show _ = ins _ _ _ _; unfold ins; rw [if_pos hk]
        · rfl
  -- fast phase
  rintro ⟨i, prev⟩ s2 ⟨g1, g2, g3, g4, g5, g6, g8, g7⟩
  simp only at g3 g4 g5 g6 g7 g8
  have hfin : ∀ (s' : EV c.W), SameShape c s1 s' → (∀ k, k < s1.num → raw c s' k = f k) →
      (∀ k, raw c s' k = f k ∨ raw c s' k = raw c s1 k) →
      (∀ j, index ≤ j * c.epb → j * c.epb < s1.num → waste c s' j = f ((j + 1) * c.epb) % 2 ^ (c.W - c.epb * c.bits)) →
      (Safe c s' ∧ s'.num = s.num + 1 ∧ s.storage.cap ≤ s'.storage.cap ∧
        (c.blocks (s.num + 1) ≤ s.storage.cap → s'.storage.cap = s.storage.cap) ∧
        (∀ k, k < s.num + 1 → raw c s' k = ins (raw c s) index d k) ∧
        (∀ k, raw c s' k = d ∨ ∃ k', raw c s' k = raw c s k') ∧
        (∀ j, index ≤ j * c.epb → j * c.epb < s.num + 1 →
          waste c s' j = raw c s (j * c.epb + (c.epb - 1)) % 2 ^ (c.W - c.epb * c.bits) ∨
            waste c s' j = d % 2 ^ (c.W - c.epb * c.bits) ∧ s.num = j * c.epb + (c.epb - 1))) := by
    intro s' a1 a2 a3 a4
    refine ⟨a1.safe h1, by rw [a1.num, hnum], by rw [a1.cap]; exact hcap, by rw [a1.cap]; exact hcap', ?_, ?_, ?_⟩
    · intro k hk
      rw [a2 k (by omega)]
      show ins _ _ _ _ = _
      unfold ins
      by_cases hk1 : k < index
      · rw [if_pos hk1, if_pos hk1, hraw, if_neg (by omega)]
      · rw [if_neg hk1, if_neg hk1]
        by_cases hk2 : k = index
        · rw [if_pos hk2, if_pos hk2]
        · rw [if_neg hk2, if_neg hk2, hraw, if_neg (by omega)]
    · intro k
      have hone : ∀ m, raw c s1 m = d ∨ ∃ k', raw c s1 m = raw c s k' := by
        intro m; rw [hraw]; split
        · exact Or.inl rfl
        · exact Or.inr ⟨m, rfl⟩
      rcases a3 k with e | e
      · rw [e]
        show ins (raw c s1) index d k = d ∨ ∃ k', ins (raw c s1) index d k = raw c s k'
        unfold ins
        split
        · exact hone _
        · split
          · exact Or.inl rfl
          · exact hone _
      · rw [e]; exact hone _
    · intro j hj1 hj2
      rw [a4 j hj1 (by omega)]
      have e : f ((j + 1) * c.epb) = raw c s1 (j * c.epb + (c.epb - 1)) := by
        show ins _ _ _ _ = _
        have e3 : (j + 1) * c.epb = j * c.epb + c.epb := by rw [Nat.add_mul, Nat.one_mul]
        unfold ins
        rw [if_neg (by omega), if_neg (by omega)]
        congr 1; omega
      rw [e, hraw]
      by_cases hcase : j * c.epb + (c.epb - 1) = s.num
      · rw [if_pos hcase]; exact Or.inr ⟨rfl, hcase.symm⟩
      · rw [if_neg hcase]; exact Or.inl rfl
  show Runs ((M.read >>= _) s2) _ _
  rw [M.read_bind]
  have hlen2 : len c s2 = s1.num := g1.num
  by_cases hfast : i < s1.num
  · rw [if_pos (by rw [hlen2]; exact hfast)]
    have him : i % c.epb = 0 := by omega
    have hi0 := mod_zero_mul hc him
    have hp : prev < 2 ^ c.bits := by rw [g4]; exact hfl _
    have hpW : (BitVec.ofNat c.W prev).toNat = prev := by
      rw [BitVec.toNat_ofNat]
      exact Nat.mod_eq_of_lt (Nat.lt_of_lt_of_le hp (Nat.pow_le_pow_right (by decide) hc.bits_le))
    simp only [blockIndex, hlen2]
    have hile : i / c.epb ≤ (s1.num - 1) / c.epb := Nat.div_le_div_right (by omega)
    have hlast : (s1.num - 1) / c.epb < s2.storage.data.length := by
      rw [Nat.div_lt_iff_lt_mul hep, g1.len]; omega
    have hend : i / c.epb + ((s1.num - 1) / c.epb + 1 - i / c.epb) = (s1.num - 1) / c.epb + 1 := by omega
    refine runs_seq (insertFast hc hb s2 (i / c.epb) _ f (BitVec.ofNat c.W prev) ?_ hfl ?_ (by omega))
      (fun _ _ h => h.elim) ?_
    · intro k hk
      rw [hi0] at hk
      rw [g7, if_neg (by omega)]
      show ins _ _ _ _ = _
      unfold ins
      rw [if_neg (by omega), if_neg (by omega)]; rfl
    · rw [hpW, g4, hi0]
    · rintro _ s' ⟨b1, b2, b3⟩
      rw [hend] at b2 b3
      rw [hi0] at b3
      have hnb : s1.num ≤ ((s1.num - 1) / c.epb + 1) * c.epb := by
        have e1 := Nat.div_add_mod (s1.num - 1) c.epb
        have e2 := Nat.mod_lt (s1.num - 1) hep
        rw [Nat.add_mul, Nat.one_mul, Nat.mul_comm]; omega
      refine hfin s' (g1.trans b1) ?_ ?_ ?_
      · intro k hk
        rw [b3]
        by_cases hki : i ≤ k
        · rw [if_pos ⟨hki, by omega⟩]
        · rw [if_neg (by omega), g7, if_pos (by omega)]
      · intro k
        rw [b3]
        split
        · exact Or.inl rfl
        · rw [g7]; split
          · exact Or.inl rfl
          · exact Or.inr rfl
      · intro j hj1 hj2
        rw [b2, if_pos]
        constructor
        · rw [← Nat.not_lt]
          intro hlt
          have : j * c.epb < i := by rw [← hi0]; exact Nat.mul_lt_mul_of_pos_right hlt hep
          have := g8 j this
          omega
        · have : j * c.epb ≤ s1.num - 1 := by omega
          have := (Nat.le_div_iff_mul_le hep).mpr this
          omega
  · rw [if_neg (by rw [hlen2]; exact hfast), M.pure_apply]
    refine hfin s2 g1 ?_ ?_ ?_
    · intro k hk; rw [g7, if_pos (by omega)]
    · intro k; rw [g7]; split
      · exact Or.inl rfl
      · exact Or.inr rfl
    · intro j hj1 hj2
      exfalso
      have := g8 j (by omega)
      omega

omit hc in
/-- `insert` past the end is `push`, except that the index computation may overflow in a checked build. -/
theorem insert_past (hc : c.Ok) {s : EV c.W} (h : Safe c s) {index : Nat} (hi : s.num < index) (x : α) :
    (index - index % c.epb + c.epb < c.build.usizeLim ∨ c.build.checked = false ∨ index % c.epb = 0) →
    EV.insert c index x s = push c x s := by
  intro hov
  unfold EV.insert
  rw [M.bind_apply]
  have hp := push_raw hc h x
  match hx : push c x s, hp with
  | (.error e, s1), hp => rfl
  | (.ok _, s1), hp =>
    obtain ⟨h1, hnum, -⟩ := hp
    show (M.read >>= _) s1 = _
    rw [M.read_bind]
    have hlen : len c s1 = s1.num := rfl
    by_cases hslow : index % c.epb > 0
    · rw [if_pos hslow]
      have hadd : ∃ n, uAdd c.build (index - index % c.epb) c.epb = .ok n := by
        unfold uAdd
        by_cases hlt : index - index % c.epb + c.epb < c.build.usizeLim
        · exact ⟨_, if_pos hlt⟩
        · rw [if_neg hlt]
          have hch : c.build.checked = false := by
            rcases hov with e | e | e
            · exact absurd e hlt
            · exact e
            · omega
          rw [hch]; exact ⟨_, rfl⟩
      obtain ⟨n, hn⟩ := hadd
      rw [hn]
      have e0 : min n (len c s1) - index = 0 := by omega
      have e1 : max index (min n (len c s1)) = index := by omega
      simp only [M.bind_apply, M.lift_apply, M.pure_apply, e0, e1, loop, M.read_apply]
      rw [if_neg (by omega)]; rfl
    · rw [if_neg hslow]
      simp only [M.bind_apply, M.pure_apply, M.read_apply]
      rw [if_neg (by omega)]; rfl

end
end EnumVecModel
