import Verif.Spec
import Verif.Lemmas.Bits
import Verif.Lemmas.Run

set_option linter.unusedSectionVars false

/-! # The storage as a function from indices to fields; basic operations -/

namespace EnumVecModel
open EV

variable {α : Type}

theorem bitsSum (N : Nat) : ∀ n : Nat,
    let S := ((List.range n).map fun k => if N > 2 ^ k then 1 else 0).sum
    S ≤ n ∧ (N ≤ 2 ^ S ∨ S = n) ∧ ∀ k, k < S → 2 ^ k < N := by
  intro n
  induction n with
  | zero => simp
  | succ n ih =>
    simp only [List.range_succ, List.map_append, List.sum_append, List.map_cons, List.map_nil,
      List.sum_cons, List.sum_nil, Nat.add_zero] at ih ⊢
    generalize ((List.range n).map fun k => if N > 2 ^ k then 1 else 0).sum = S at ih ⊢
    obtain ⟨h1, h2, h3⟩ := ih
    split
    · next h =>
      have hS : S = n := by
        rcases h2 with h2 | h2
        · have : 2 ^ S ≤ 2 ^ n := Nat.pow_le_pow_right (by decide) h1
          omega
        · exact h2
      subst hS
      refine ⟨by omega, Or.inr rfl, fun k hk => ?_⟩
      rcases Nat.lt_or_eq_of_le (Nat.lt_succ_iff.mp hk) with h' | rfl
      · exact h3 k h'
      · exact h
    · next h =>
      refine ⟨by omega, Or.inl ?_, by simpa using h3⟩
      rcases h2 with h2 | h2
      · simpa using h2
      · simp only [Nat.add_zero]; rw [h2]; omega

theorem bitsPerElem_rough (N : Nat) (h2 : 1 < N) :
    0 < bitsPerElem N ∧ bitsPerElem N ≤ 32 ∧ ∀ k, k < bitsPerElem N → 2 ^ k < N := by
  have := bitsSum N 32
  simp only [] at this
  obtain ⟨a, b, d⟩ := this
  refine ⟨?_, a, d⟩
  rcases Nat.eq_zero_or_pos (bitsPerElem N) with h0 | h0
  · unfold bitsPerElem at h0
    rw [h0] at b
    rcases b with b | b
    · omega
    · omega
  · exact h0

theorem bitsPerElem_spec (N : Nat) (h2 : 1 < N) (h : N ≤ 2 ^ 32) :
    0 < bitsPerElem N ∧ bitsPerElem N ≤ 32 ∧ N ≤ 2 ^ bitsPerElem N ∧
      ∀ k, k < bitsPerElem N → 2 ^ k < N := by
  have := bitsSum N 32
  simp only [] at this
  obtain ⟨a, b, d⟩ := this
  have hN : N ≤ 2 ^ bitsPerElem N := by
    rcases b with b | b
    · exact b
    · unfold bitsPerElem; rw [b]; exact h
  refine ⟨?_, a, hN, d⟩
  rcases Nat.eq_zero_or_pos (bitsPerElem N) with h0 | h0
  · rw [h0] at hN; omega
  · exact h0

namespace Inst.Fits
variable {c : Inst α} {strict : Prop} (hc : c.Fits strict)
include hc

theorem num_gt : 1 < c.E.num := hc.compiles.2.1

theorem bits_pos : 0 < c.bits := (bitsPerElem_rough _ hc.num_gt).1

theorem bits_le : c.bits ≤ c.W := by
  have h := bitsPerElem_rough _ hc.num_gt
  by_cases hW : c.W ≤ 32
  · rcases Nat.lt_or_ge c.W c.bits with h' | h'
    · have := h.2.2 c.W h'
      have := hc.compiles.2.2 hW
      omega
    · exact h'
  · have : c.bits ≤ 32 := h.2.1
    omega

theorem epb_pos : 0 < c.epb := Nat.div_pos hc.bits_le hc.bits_pos

theorem epb_mul : c.epb * c.bits ≤ c.W := Nat.div_mul_le_self _ _

theorem epb_mul_lt : c.W < c.epb * c.bits + c.bits := by
  have := Nat.lt_div_mul_add hc.bits_pos (a := c.W)
  exact this

theorem epb_le : c.epb ≤ c.W := Nat.div_le_self _ _

theorem fld_fits {j : Nat} (h : j < c.epb) : j * c.bits + c.bits ≤ c.W := by
  have h1 : (j + 1) * c.bits ≤ c.epb * c.bits := Nat.mul_le_mul_right _ h
  have := hc.epb_mul
  rw [Nat.add_mul, Nat.one_mul] at h1; omega

end Inst.Fits

namespace Inst.Ok
variable {c : Inst α} (hc : c.Ok)
include hc

theorem num_le : c.E.num ≤ 2 ^ c.bits := (bitsPerElem_spec _ hc.num_gt hc.few).2.2.1

theorem toDiscr_lt (a : α) : c.E.toDiscr a < 2 ^ c.bits :=
  Nat.lt_of_lt_of_le (hc.contract.lt a) hc.num_le

end Inst.Ok

/-- Block `j` of the storage as a number; 0 outside. -/
def blk {W : Nat} (s : EV W) (j : Nat) : Nat := (s.storage.data[j]?.getD 0).toNat

/-- Discriminant stored at index `i` (of the storage; also past the length). -/
def raw (c : Inst α) (s : EV c.W) (i : Nat) : Nat := fld c.bits (blk s (i / c.epb)) (i % c.epb)

/-- The unused high bits of block `j`. -/
def waste (c : Inst α) (s : EV c.W) (j : Nat) : Nat := fld c.bits (blk s j) c.epb

theorem raw_lt (c : Inst α) (s : EV c.W) (i : Nat) : raw c s i < 2 ^ c.bits := fld_lt _ _ _

theorem blk_ge {W : Nat} (s : EV W) {j : Nat} (h : s.storage.data.length ≤ j) : blk s j = 0 := by
  unfold blk
  rw [List.getElem?_eq_none h]; rfl

theorem blk_lt {W : Nat} (s : EV W) {j : Nat} (h : j < s.storage.data.length) :
    blk s j = (s.storage.data[j]).toNat := by
  unfold blk
  rw [List.getElem?_eq_getElem h]; rfl

theorem raw_ge (c : Inst α) (s : EV c.W) {i : Nat} (hq : 0 < c.epb)
    (h : s.storage.data.length * c.epb ≤ i) : raw c s i = 0 := by
  unfold raw
  rw [blk_ge s ((Nat.le_div_iff_mul_le hq).mpr h), fld_zero]

theorem rawUnchecked_ok {c : Inst α} {strict : Prop} (hc : c.Fits strict) (s : EV c.W) {i : Nat}
    (h : i < s.storage.data.length * c.epb) : rawUnchecked c s i = .ok (raw c s i) := by
  have hlt : i / c.epb < s.storage.data.length := (Nat.div_lt_iff_lt_mul hc.epb_pos).mpr h
  unfold rawUnchecked raw blockIndex
  simp only [List.getElem?_eq_getElem hlt]
  rw [Inst.mask, toNat_read hc.bits_le, blk_lt s hlt]

theorem rawUnchecked_ub {c : Inst α} {strict : Prop} (hc : c.Fits strict) (s : EV c.W) {i : Nat}
    (h : s.storage.data.length * c.epb ≤ i) : rawUnchecked c s i = .error .ub := by
  have hlt : s.storage.data.length ≤ i / c.epb := (Nat.le_div_iff_mul_le hc.epb_pos).mpr h
  unfold rawUnchecked blockIndex
  simp only [List.getElem?_eq_none hlt]

theorem getRawUnchecked_ok {c : Inst α} {strict : Prop} (hc : c.Fits strict) (s : EV c.W) {i : Nat}
    (h : i < s.storage.data.length * c.epb) : getRawUnchecked c i s = (.ok (raw c s i), s) := by
  rw [getRawUnchecked, rawUnchecked_ok hc s h]

/-- The state after a successful `set_raw_unchecked`. -/
def putRaw (c : Inst α) (s : EV c.W) (i d : Nat) : EV c.W :=
  let v := writeFld c.bits (s.storage.data[i / c.epb]?.getD 0) (i % c.epb) d
  ⟨⟨s.storage.data.set (i / c.epb) v, s.storage.cap⟩, s.num⟩

theorem setRawUnchecked_ok {c : Inst α} {strict : Prop} (hc : c.Fits strict) (s : EV c.W) {i : Nat} (d : Nat)
    (h : i < s.storage.data.length * c.epb) : setRawUnchecked c i d s = (.ok (), putRaw c s i d) := by
  have hlt : i / c.epb < s.storage.data.length := (Nat.div_lt_iff_lt_mul hc.epb_pos).mpr h
  unfold setRawUnchecked putRaw blockIndex writeFld Inst.mask
  simp only [List.getElem?_eq_getElem hlt, Option.getD_some]

@[simp] theorem putRaw_num (c : Inst α) (s : EV c.W) (i d : Nat) : (putRaw c s i d).num = s.num := rfl
@[simp] theorem putRaw_cap (c : Inst α) (s : EV c.W) (i d : Nat) :
    (putRaw c s i d).storage.cap = s.storage.cap := rfl
@[simp] theorem putRaw_len (c : Inst α) (s : EV c.W) (i d : Nat) :
    (putRaw c s i d).storage.data.length = s.storage.data.length := by simp [putRaw]

theorem blk_putRaw (c : Inst α) (s : EV c.W) (i d j : Nat) (h : i / c.epb < s.storage.data.length) :
    blk (putRaw c s i d) j =
      if j = i / c.epb then (writeFld c.bits (s.storage.data[i / c.epb]) (i % c.epb) d).toNat
      else blk s j := by
  unfold blk putRaw
  simp only [List.getElem?_set, List.getElem?_eq_getElem h, Option.getD_some]
  by_cases hj : j = i / c.epb
  · subst hj; simp [h]
  · have : ¬ i / c.epb = j := fun e => hj e.symm
    simp [hj, this]

theorem raw_putRaw {c : Inst α} {strict : Prop} (hc : c.Fits strict) (s : EV c.W) {i d : Nat} (i' : Nat)
    (h : i < s.storage.data.length * c.epb) (hd : d < 2 ^ c.bits) :
    raw c (putRaw c s i d) i' = if i' = i then d else raw c s i' := by
  have hlt : i / c.epb < s.storage.data.length := (Nat.div_lt_iff_lt_mul hc.epb_pos).mpr h
  unfold raw
  rw [blk_putRaw c s i d _ hlt]
  by_cases hb : i' / c.epb = i / c.epb
  · rw [if_pos hb]
    by_cases hm : i' % c.epb = i % c.epb
    · have : i' = i := by
        rw [← Nat.div_add_mod i' c.epb, hb, hm, Nat.div_add_mod]
      rw [if_pos this, hm, fld_writeFld_same hc.bits_le _ _ _ (hc.fld_fits (Nat.mod_lt _ hc.epb_pos)),
        Nat.mod_eq_of_lt hd]
    · have : i' ≠ i := fun e => hm (by rw [e])
      rw [if_neg this, fld_writeFld_ne hc.bits_le _ _ _ _ hm hd, hb, blk_lt s hlt]
  · have : i' ≠ i := fun e => hb (by rw [e])
    rw [if_neg hb, if_neg this]

theorem waste_putRaw {c : Inst α} {strict : Prop} (hc : c.Fits strict) (s : EV c.W) {i d : Nat} (j : Nat)
    (h : i < s.storage.data.length * c.epb) (hd : d < 2 ^ c.bits) :
    waste c (putRaw c s i d) j = waste c s j := by
  have hlt : i / c.epb < s.storage.data.length := (Nat.div_lt_iff_lt_mul hc.epb_pos).mpr h
  unfold waste
  rw [blk_putRaw c s i d _ hlt]
  split
  · next hj =>
    have hm := Nat.mod_lt i hc.epb_pos
    rw [fld_writeFld_ne hc.bits_le _ _ _ _ (by omega) hd, hj, blk_lt s hlt]
  · rfl

/-- `blocks_for_elements` does not saturate for lengths that fit in memory. -/
theorem blocksForElements_eq {c : Inst α} {strict : Prop} (hc : c.Fits strict) {n : Nat} (h : n + c.epb ≤ c.build.usizeLim) :
    blocksForElements c n = c.blocks n := by
  unfold blocksForElements satAdd Inst.blocks
  have := hc.epb_pos
  rw [Nat.min_eq_left (by omega)]
  congr 1; omega

theorem blocks_le_iff {c : Inst α} {strict : Prop} (hc : c.Fits strict) (n k : Nat) : c.blocks n ≤ k ↔ n ≤ k * c.epb := by
  have := hc.epb_pos
  unfold Inst.blocks
  rw [← Nat.lt_succ_iff, Nat.div_lt_iff_lt_mul this, Nat.succ_mul]
  omega

theorem blocks_mul {c : Inst α} {strict : Prop} (hc : c.Fits strict) (n : Nat) : n ≤ c.blocks n * c.epb :=
  (blocks_le_iff hc n _).mp (Nat.le_refl _)

theorem blocks_le_div {c : Inst α} {strict : Prop} (hc : c.Fits strict) (n : Nat) : c.blocks n ≤ n / c.epb + 1 := by
  rw [blocks_le_iff hc, Nat.add_mul, Nat.one_mul]
  have := Nat.div_add_mod n c.epb
  have := Nat.mod_lt n hc.epb_pos
  rw [Nat.mul_comm]; omega

theorem blocks_of_dvd {c : Inst α} {strict : Prop} (hc : c.Fits strict) {n : Nat} (h : n % c.epb = 0) : c.blocks n = n / c.epb := by
  have hn := Nat.div_add_mod n c.epb
  apply Nat.le_antisymm
  · rw [blocks_le_iff hc, Nat.mul_comm]; omega
  · rw [← Nat.not_lt]
    intro hlt
    have h1 : c.blocks n ≤ n / c.epb - 1 := by omega
    rw [blocks_le_iff hc] at h1
    have : (n / c.epb - 1) * c.epb = c.epb * (n / c.epb) - c.epb := by
      rw [Nat.sub_mul, Nat.one_mul, Nat.mul_comm]
    have hpos : 0 < n / c.epb := by omega
    have : c.epb ≤ c.epb * (n / c.epb) := Nat.le_mul_of_pos_right _ hpos
    have := hc.epb_pos
    omega

/-! ### Storage operations as block functions -/

theorem blk_append {W : Nat} (d e : List (BitVec W)) (cap n j : Nat) :
    blk (⟨⟨d ++ e, cap⟩, n⟩ : EV W) j =
      if j < d.length then blk (⟨⟨d, cap⟩, n⟩ : EV W) j
      else blk (⟨⟨e, cap⟩, n⟩ : EV W) (j - d.length) := by
  unfold blk
  simp only [List.getElem?_append]
  split <;> rfl

theorem blk_take {W : Nat} (d : List (BitVec W)) (cap n k j : Nat) :
    blk (⟨⟨d.take k, cap⟩, n⟩ : EV W) j = if j < k then blk (⟨⟨d, cap⟩, n⟩ : EV W) j else 0 := by
  unfold blk
  simp only [List.getElem?_take]
  split
  · rfl
  · rfl

theorem blk_replicate {W : Nat} (v : BitVec W) (cap n k j : Nat) :
    blk (⟨⟨List.replicate k v, cap⟩, n⟩ : EV W) j = if j < k then v.toNat else 0 := by
  unfold blk
  simp only [List.getElem?_replicate]
  split <;> rfl

theorem blk_congr {W : Nat} {s t : EV W} (h : s.storage.data = t.storage.data) (j : Nat) :
    blk s j = blk t j := by unfold blk; rw [h]

theorem raw_congr {c : Inst α} {s t : EV c.W} (h : s.storage.data = t.storage.data) (i : Nat) :
    raw c s i = raw c t i := by unfold raw; rw [blk_congr h]

theorem waste_congr {c : Inst α} {s t : EV c.W} (h : s.storage.data = t.storage.data) (i : Nat) :
    waste c s i = waste c t i := by unfold waste; rw [blk_congr h]

end EnumVecModel
