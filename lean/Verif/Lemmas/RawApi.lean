import Verif.Lemmas.Api

set_option linter.unusedSectionVars false

/-! # Arbitrary raw writes -/

namespace EnumVecModel
open EV

variable {α : Type}

theorem fld_writeFld_gt {W b : Nat} (hb : b ≤ W) (v : BitVec W) (j d j' : Nat) (hj : j < j') (hW : j' * b + b ≤ W) :
    fld b (writeFld b v j d).toNat j' = fld b v.toNat j' ||| (d / 2 ^ (b * (j' - j))) % 2 ^ b := by
  apply Nat.eq_of_testBit_eq
  intro k
  rw [Nat.testBit_or, testBit_fld, testBit_fld, testBit_writeFld hb, Nat.testBit_mod_two_pow, Nat.testBit_div_two_pow]
  by_cases hk : k < b
  · have h1 : j' * b + k < W := by omega
    have h2 : (j + 1) * b ≤ j' * b := Nat.mul_le_mul_right _ hj
    rw [Nat.add_mul, Nat.one_mul] at h2
    have h3 : j * b ≤ j' * b + k := by omega
    have h4 : ¬ j' * b + k < j * b + b := by omega
    have h5 : j' * b + k - j * b = k + b * (j' - j) := by
      rw [Nat.mul_comm b, Nat.sub_mul]; omega
    simp [hk, h1, h3, h4, h5]
  · simp [hk]

section
variable {c : Inst α} {strict : Prop} (hc : c.Fits strict)
include hc

theorem raw_putRaw_any (s : EV c.W) {i : Nat} (d i' : Nat) (h : i < s.storage.data.length * c.epb) :
    raw c (putRaw c s i d) i' =
      if i' = i then d % 2 ^ c.bits
      else if i < i' ∧ i' / c.epb = i / c.epb then raw c s i' ||| (d / 2 ^ (c.bits * (i' - i))) % 2 ^ c.bits
      else raw c s i' := by
  have hlt : i / c.epb < s.storage.data.length := (Nat.div_lt_iff_lt_mul hc.epb_pos).mpr h
  unfold raw
  rw [blk_putRaw c s i d _ hlt]
  have e1 := Nat.div_add_mod i' c.epb
  have e2 := Nat.div_add_mod i c.epb
  have hm' := Nat.mod_lt i' hc.epb_pos
  by_cases hb : i' / c.epb = i / c.epb
  · rw [if_pos hb]
    rw [hb] at e1
    rcases Nat.lt_trichotomy (i' % c.epb) (i % c.epb) with hm | hm | hm
    · rw [if_neg (by omega), if_neg (by omega), fld_writeFld_lt hc.bits_le _ _ _ _ hm, hb, blk_lt s hlt]
    · rw [if_pos (by omega), hm, fld_writeFld_same hc.bits_le _ _ _ (hc.fld_fits (Nat.mod_lt _ hc.epb_pos))]
    · rw [if_neg (by omega), if_pos (by omega), fld_writeFld_gt hc.bits_le _ _ _ _ hm (hc.fld_fits hm'), hb, blk_lt s hlt]
      have : i' % c.epb - i % c.epb = i' - i := by omega
      rw [this]
  · have : i' ≠ i := fun e => hb (by rw [e])
    rw [if_neg hb, if_neg this, if_neg (by omega)]

end
end EnumVecModel
