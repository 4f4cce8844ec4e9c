import Verif.Lemmas.Insert

set_option linter.unusedSectionVars false

/-! # Lemmas on `any`, `all`, `eq`, `hash` -/

namespace EnumVecModel
open EV

variable {α : Type}

/-! ### The repeated-ones number -/

/-- `1 + 2^b + 2^(2b) + … ` (`q` terms). -/
def ones (b : Nat) : Nat → Nat
  | 0 => 0
  | q + 1 => 1 + 2 ^ b * ones b q

theorem ones_mul (b : Nat) : ∀ q, ones b q * (2 ^ b - 1) + 1 = 2 ^ (q * b)
  | 0 => by simp [ones]
  | q + 1 => by
    have ih := ones_mul b q
    have hp := Nat.two_pow_pos b
    obtain ⟨m, hm⟩ : ∃ m, 2 ^ b = m + 1 := ⟨2 ^ b - 1, by omega⟩
    rw [Nat.add_mul, Nat.one_mul, Nat.pow_add, ← ih, ones, hm]
    simp only [Nat.add_sub_cancel]
    simp only [Nat.add_mul, Nat.mul_add, Nat.one_mul, Nat.mul_one]
    have : m * ones b q * m = ones b q * m * m := by rw [Nat.mul_comm m]
    omega

theorem mul_ones_lt {b d : Nat} (hd : d < 2 ^ b) (q : Nat) : d * ones b q < 2 ^ (q * b) := by
  have h := ones_mul b q
  have : d * ones b q ≤ (2 ^ b - 1) * ones b q := Nat.mul_le_mul_right _ (by omega)
  rw [Nat.mul_comm (2 ^ b - 1)] at this
  omega

theorem ones_lt {b : Nat} (hb : 0 < b) (q : Nat) : ones b q < 2 ^ (q * b) := by
  have h := mul_ones_lt (b := b) (d := 1) (by have := Nat.pow_lt_pow_right (a := 2) (by decide) hb; simpa using this) q
  omega

theorem fld_cons_zero {b x y : Nat} (hx : x < 2 ^ b) : fld b (x + 2 ^ b * y) 0 = x := by
  simp only [fld, Nat.zero_mul, Nat.pow_zero, Nat.div_one, Nat.add_mul_mod_self_left]
  exact Nat.mod_eq_of_lt hx

theorem fld_succ (b x j : Nat) : fld b x (j + 1) = fld b (x / 2 ^ b) j := by
  unfold fld
  rw [Nat.div_div_eq_div_mul, ← Nat.pow_add, Nat.add_mul, Nat.one_mul, Nat.add_comm]

theorem fld_cons_succ {b x y : Nat} (hx : x < 2 ^ b) (j : Nat) : fld b (x + 2 ^ b * y) (j + 1) = fld b y j := by
  rw [fld_succ, Nat.add_mul_div_left _ _ (Nat.two_pow_pos b), Nat.div_eq_of_lt hx, Nat.zero_add]

theorem fld_mul_ones {b d : Nat} (hd : d < 2 ^ b) : ∀ {q j : Nat}, j < q → fld b (d * ones b q) j = d
  | q + 1, 0, _ => by
    rw [ones, Nat.mul_add, Nat.mul_one, Nat.mul_left_comm]
    exact fld_cons_zero hd
  | q + 1, j + 1, h => by
    rw [ones, Nat.mul_add, Nat.mul_one, Nat.mul_left_comm, fld_cons_succ hd]
    exact fld_mul_ones hd (by omega)

/-- Subtraction of the repeated ones in field `z`, when no field below `z` is zero. -/
theorem fld_sub_ones {b : Nat} (hb : 0 < b) : ∀ (z q v W : Nat), z < q → q * b ≤ W →
    (∀ j, j < z → 0 < fld b v j) →
    fld b (v + 2 ^ W - ones b q) z = (fld b v z + 2 ^ b - 1) % 2 ^ b := by
  intro z
  induction z with
  | zero =>
    intro q v W hz hW _
    obtain ⟨q, rfl⟩ : ∃ q', q = q' + 1 := ⟨q - 1, by omega⟩
    have hp := Nat.two_pow_pos b
    have hK : 2 ^ W = 2 ^ b * 2 ^ (W - b) := by
      rw [← Nat.pow_add]; congr 1; rw [Nat.add_mul] at hW; omega
    have hS : ones b q < 2 ^ (W - b) := Nat.lt_of_lt_of_le (ones_lt hb q)
      (Nat.pow_le_pow_right (by decide) (by rw [Nat.add_mul] at hW; omega))
    have hv := Nat.div_add_mod v (2 ^ b)
    have hf := Nat.mod_lt v hp
    rw [ones, hK]
    unfold fld
    simp only [Nat.zero_mul, Nat.pow_zero, Nat.div_one]
    generalize 2 ^ (W - b) = K at *
    generalize ones b q = S at *
    generalize v / 2 ^ b = v' at *
    generalize v % 2 ^ b = f at *
    generalize 2 ^ b = B at *
    obtain ⟨D, rfl⟩ : ∃ D, K = S + 1 + D := ⟨K - S - 1, by omega⟩
    have e : v + B * (S + 1 + D) - (1 + B * S) = (f + B - 1) + B * (v' + D) := by
      simp only [Nat.mul_add, Nat.mul_one]; omega
    rw [e, Nat.add_mul_mod_self_left]
  | succ z ih =>
    intro q v W hz hW hnz
    obtain ⟨q, rfl⟩ : ∃ q', q = q' + 1 := ⟨q - 1, by omega⟩
    have hp := Nat.two_pow_pos b
    have hK : 2 ^ W = 2 ^ b * 2 ^ (W - b) := by
      rw [← Nat.pow_add]; congr 1; rw [Nat.add_mul] at hW; omega
    have hS : ones b q < 2 ^ (W - b) := Nat.lt_of_lt_of_le (ones_lt hb q)
      (Nat.pow_le_pow_right (by decide) (by rw [Nat.add_mul] at hW; omega))
    rw [fld_succ, fld_succ b v]
    rw [← ih q (v / 2 ^ b) (W - b) (by omega) (by rw [Nat.add_mul] at hW; omega)
      (fun j hj => by rw [← fld_succ]; exact hnz _ (by omega))]
    congr 1
    have h0 : 0 < v % 2 ^ b := by simpa [fld] using hnz 0 (by omega)
    have hv := Nat.div_add_mod v (2 ^ b)
    have hf := Nat.mod_lt v hp
    rw [ones, hK]
    generalize 2 ^ (W - b) = K at *
    generalize ones b q = S at *
    generalize v / 2 ^ b = v' at *
    generalize v % 2 ^ b = f at *
    generalize 2 ^ b = B at *
    obtain ⟨D, rfl⟩ : ∃ D, K = S + 1 + D := ⟨K - S - 1, by omega⟩
    have e : v + B * (S + 1 + D) - (1 + B * S) = (f - 1) + B * (v' + D + 1) := by
      simp only [Nat.mul_add, Nat.mul_one]; omega
    rw [e, Nat.add_mul_div_left _ _ hp, Nat.div_eq_of_lt (by omega)]
    omega

theorem testBit_ones {b : Nat} (hb : 0 < b) (q k : Nat) :
    (ones b q).testBit k = (decide (k % b = 0) && decide (k < q * b)) := by
  have h2 : 1 < 2 ^ b := by have := Nat.pow_lt_pow_right (a := 2) (by decide) hb; simpa using this
  by_cases hk : k < q * b
  · have hj : k / b < q := (Nat.div_lt_iff_lt_mul hb).mpr hk
    have := congrArg (fun n => n.testBit (k % b)) (fld_mul_ones h2 hj)
    simp only [testBit_fld, Nat.mod_lt _ hb, decide_true, Bool.true_and, Nat.one_mul] at this
    rw [Nat.mul_comm, Nat.div_add_mod] at this
    rw [this]
    by_cases hm : k % b = 0
    · simp [hm, hk]
    · have : Nat.testBit 1 (k % b) = false := Nat.testBit_lt_two_pow (i := k % b)
        (by have := Nat.pow_le_pow_right (n := 2) (by decide) (show 1 ≤ k % b by omega); omega)
      simp [hm, this]
  · rw [Nat.testBit_lt_two_pow (Nat.lt_of_lt_of_le (ones_lt hb q) (Nat.pow_le_pow_right (by decide) (by omega)))]
    simp [hk]

theorem testBit_top {b x : Nat} (hb : 0 < b) (hx : x < 2 ^ b) : x.testBit (b - 1) = decide (2 ^ (b - 1) ≤ x) := by
  rw [Nat.testBit_eq_decide_div_mod_eq]
  have hp := Nat.two_pow_pos (b - 1)
  have e : 2 ^ b = 2 * 2 ^ (b - 1) := by rw [← Nat.pow_succ']; congr 1; omega
  by_cases h : 2 ^ (b - 1) ≤ x
  · have : x / 2 ^ (b - 1) = 1 := Nat.div_eq_of_lt_le (by omega) (by omega)
    simp [h, this]
  · rw [Nat.div_eq_of_lt (by omega)]; simp [h]

theorem fld_xor (b x y j : Nat) : fld b (x ^^^ y) j = fld b x j ^^^ fld b y j := by
  apply Nat.eq_of_testBit_eq
  intro k
  simp only [testBit_fld, Nat.testBit_xor]
  cases decide (k < b) <;> simp

theorem xor_eq_zero {x y : Nat} : x ^^^ y = 0 ↔ x = y := by
  constructor
  · intro h
    apply Nat.eq_of_testBit_eq
    intro k
    have := congrArg (fun n => n.testBit k) h
    simp only [Nat.testBit_xor, Nat.zero_testBit] at this
    revert this; cases x.testBit k <;> cases y.testBit k <;> simp
  · rintro rfl; simp

theorem fld_mod {b m j : Nat} (x : Nat) (h : j < m) : fld b (x % 2 ^ (m * b)) j = fld b x j := by
  apply fld_congr
  intro k hk
  rw [Nat.testBit_mod_two_pow]
  simp [pos_lt hk h]

/-- The trick of `haszero`, for any widths. -/
theorem hasZero_gen {W b q : Nat} (v O : BitVec W) (hb : 0 < b) (hq : q * b ≤ W) (hO1 : O.toNat = ones b q) :
    (((v - O) &&& ~~~v &&& (O <<< (b - 1))) != 0) = true ↔ ∃ j, j < q ∧ fld b v.toNat j = 0 := by
  have fits : ∀ {j}, j < q → j * b + b ≤ W := fun {j} hj => by
    have : (j + 1) * b ≤ q * b := Nat.mul_le_mul_right _ hj
    rw [Nat.add_mul] at this; omega
  have hbit : ∀ p, ((v - O) &&& ~~~v &&& (O <<< (b - 1))).getLsbD p = true ↔
      ∃ j, j < q ∧ p = j * b + (b - 1) ∧
        (fld b (v.toNat + 2 ^ W - ones b q) j).testBit (b - 1) = true ∧
        (fld b v.toNat j).testBit (b - 1) = false := by
    intro p
    simp only [BitVec.getLsbD_and, BitVec.getLsbD_not, BitVec.getLsbD_shiftLeft]
    simp only [← BitVec.testBit_toNat,
      hO1, BitVec.toNat_sub, testBit_ones hb, Bool.and_eq_true, decide_eq_true_eq,
      Bool.not_eq_true', decide_eq_false_iff_not, Nat.testBit_mod_two_pow, testBit_fld]
    have hO : ones b q ≤ 2 ^ W := Nat.le_trans (Nat.le_of_lt (ones_lt hb _)) (Nat.pow_le_pow_right (by decide) hq)
    have e : 2 ^ W - ones b q + v.toNat = v.toNat + 2 ^ W - ones b q := by omega
    rw [e]
    constructor
    · rintro ⟨⟨⟨hp, h1⟩, _, h2⟩, ⟨_, h3⟩, h4, h5⟩
      have hd := Nat.div_add_mod (p - (b - 1)) b
      rw [h4, Nat.mul_comm] at hd
      have hpe : p = (p - (b - 1)) / b * b + (b - 1) := by omega
      refine ⟨(p - (b - 1)) / b, (Nat.div_lt_iff_lt_mul hb).mpr h5, hpe, ?_, ?_⟩
      · rw [← hpe]; exact ⟨by omega, h1⟩
      · rw [← hpe]; simp [h2]
    · rintro ⟨j, hj, rfl, ⟨_, h1⟩, h2⟩
      have hf := fits hj
      have hx : j * b < q * b := (Nat.mul_lt_mul_right hb).mpr hj
      refine ⟨⟨⟨by omega, h1⟩, by omega, ?_⟩, ⟨by omega, by omega⟩, ?_, ?_⟩
      · simpa [show b - 1 < b by omega] using h2
      · rw [Nat.add_sub_cancel, Nat.mul_mod_left]
      · rw [Nat.add_sub_cancel]; exact hx
  have key : (((v - O) &&& ~~~v &&& (O <<< (b - 1))) != 0) = true ↔ ∃ j, j < q ∧
      (fld b (v.toNat + 2 ^ W - ones b q) j).testBit (b - 1) = true ∧
        (fld b v.toNat j).testBit (b - 1) = false := by
    rw [bne_iff_ne]
    constructor
    · intro h
      by_cases hex : ∃ p, ((v - O) &&& ~~~v &&& (O <<< (b - 1))).getLsbD p = true
      · obtain ⟨p, hp⟩ := hex
        obtain ⟨j, h1, _, h2, h3⟩ := (hbit p).mp hp
        exact ⟨j, h1, h2, h3⟩
      · exfalso; apply h
        apply BitVec.eq_of_getLsbD_eq
        intro i _
        have : ¬ ((v - O) &&& ~~~v &&& (O <<< (b - 1))).getLsbD i = true := fun h' => hex ⟨i, h'⟩
        have e0 : (0 : BitVec W).getLsbD i = false := BitVec.getLsbD_zero
        rw [e0]; simpa using this
    · rintro ⟨j, h1, h2, h3⟩ h0
      have := (hbit _).mpr ⟨j, h1, rfl, h2, h3⟩
      have e0 : (0 : BitVec W).getLsbD (j * b + (b - 1)) = false := BitVec.getLsbD_zero
      rw [h0, e0] at this
      exact absurd this (by simp)
  rw [key]
  have hp := Nat.two_pow_pos (b - 1)
  have e2 : 2 ^ b = 2 * 2 ^ (b - 1) := by
    rw [← Nat.pow_succ']; congr 1; omega
  constructor
  · intro hex
    apply Classical.byContradiction
    intro hno
    obtain ⟨j, h1, h2, h3⟩ := hex
    have hnz : ∀ j, j < q → 0 < fld b v.toNat j := fun j hj =>
      Nat.pos_of_ne_zero (fun h => hno ⟨j, hj, h⟩)
    rw [fld_sub_ones hb j q _ _ h1 hq (fun j' hj' => hnz _ (by omega))] at h2
    rw [testBit_top hb (fld_lt _ _ _)] at h3
    rw [testBit_top hb (Nat.mod_lt _ (by omega))] at h2
    have h4 := hnz j h1
    have h5 := fld_lt b v.toNat j
    simp only [decide_eq_true_eq, decide_eq_false_iff_not] at h2 h3
    have e3 : fld b v.toNat j + 2 ^ b - 1 = (fld b v.toNat j - 1) + 2 ^ b := by omega
    rw [e3, Nat.add_mod_right, Nat.mod_eq_of_lt (by omega)] at h2
    omega
  · rintro ⟨j, h1, h2⟩
    -- the least zero field
    obtain ⟨z, hz1, hz2, hz3⟩ : ∃ z, z < q ∧ fld b v.toNat z = 0 ∧ ∀ j', j' < z → 0 < fld b v.toNat j' := by
      induction j using Nat.strongRecOn with
      | ind j ih =>
        by_cases hex : ∃ j', j' < j ∧ fld b v.toNat j' = 0
        · obtain ⟨j', h3, h4⟩ := hex
          exact ih j' h3 (by omega) h4
        · exact ⟨j, h1, h2, fun j' hj' => Nat.pos_of_ne_zero (fun h => hex ⟨j', hj', h⟩)⟩
    refine ⟨z, hz1, ?_, ?_⟩
    · rw [fld_sub_ones hb z q _ _ hz1 hq hz3, hz2, testBit_top hb (Nat.mod_lt _ (by omega)),
        Nat.mod_eq_of_lt (by omega)]
      simp; omega
    · rw [hz2]; simp

/-- Comparing the first `m` fields with the repeated discriminant. -/
theorem fields_eq_iff {b m d v q : Nat} (hb : 0 < b) (hd : d < 2 ^ b) (hm : m ≤ q) :
    v % 2 ^ (m * b) = (d * ones b q) % 2 ^ (m * b) ↔ ∀ j, j < m → fld b v j = d := by
  constructor
  · intro h j hj
    rw [← fld_mod v hj, h, fld_mod _ hj, fld_mul_ones hd (by omega)]
  · intro h
    apply eq_of_fld hb (Nat.mod_lt _ (Nat.two_pow_pos _)) (Nat.mod_lt _ (Nat.two_pow_pos _))
    intro j hj
    rw [fld_mod _ hj, fld_mod _ hj, h j hj, fld_mul_ones hd (by omega)]

section
variable {c : Inst α} {strict : Prop} (hc : c.Fits strict)
include hc

omit hc in
theorem Inst.Ok.toDiscr_inj (hc : c.Ok) {a b : α} (h : c.E.toDiscr a = c.E.toDiscr b) : a = b := by
  have e := congrArg c.E.fromDiscr h
  rw [hc.contract.roundtrip, hc.contract.roundtrip] at e
  exact Option.some.inj e

theorem W_eq : c.W = c.epb * c.bits + c.W % c.bits := by
  have := Nat.div_add_mod c.W c.bits
  rw [Nat.mul_comm] at this
  exact this.symm

theorem oneMask_toNat : (oneMask c).toNat = ones c.bits c.epb := by
  unfold oneMask
  rw [BitVec.toNat_ushiftRight, BitVec.toNat_udiv, BitVec.toNat_allOnes]
  unfold Inst.mask
  rw [toNat_mask hc.bits_le, Nat.shiftRight_eq_div_pow]
  have hb := hc.bits_pos
  have h1 := ones_mul c.bits c.epb
  have hr := Nat.mod_lt c.W hb
  have hW := W_eq hc
  have hpr := Nat.two_pow_pos (c.W % c.bits)
  have hlt : 2 ^ (c.W % c.bits) < 2 ^ c.bits := Nat.pow_lt_pow_right (by decide) hr
  have hw : 2 ^ c.W = 2 ^ (c.epb * c.bits) * 2 ^ (c.W % c.bits) := by rw [← Nat.pow_add, ← hW]
  rw [hw, ← h1]
  generalize 2 ^ (c.W % c.bits) = R at *
  generalize ones c.bits c.epb = S at *
  obtain ⟨m, hm⟩ : ∃ m, 2 ^ c.bits = m + 1 := ⟨2 ^ c.bits - 1, by omega⟩
  rw [hm, Nat.add_sub_cancel]
  have e : (S * m + 1) * R - 1 = (R - 1) + m * (S * R) := by
    rw [Nat.add_mul, Nat.one_mul, Nat.mul_left_comm, ← Nat.mul_assoc]; 
    have : S * m * R = S * (m * R) := Nat.mul_assoc _ _ _
    omega
  rw [e, Nat.add_mul_div_left _ _ (by omega), Nat.div_eq_of_lt (show R - 1 < m by omega), Nat.zero_add, Nat.mul_div_cancel _ hpr]

/-- `haszero` (lines 793-795) is exact, also with arbitrary unused bits. -/
theorem hasZero_iff (v : BitVec c.W) : hasZero c v = true ↔ ∃ j, j < c.epb ∧ fld c.bits v.toNat j = 0 :=
  hasZero_gen v (oneMask c) hc.bits_pos hc.epb_mul (oneMask_toNat hc)

omit hc in
/-- `x as StorageBlock * one_mask` (lines 788, 865) never overflows. -/
theorem xMask_ok (hc : c.Ok) (x : α) :
    ∃ m, blkMul c.build.checked (BitVec.ofNat c.W (c.E.toDiscr x)) (oneMask c) = .ok m ∧
      m.toNat = c.E.toDiscr x * ones c.bits c.epb := by
  have hd := hc.toDiscr_lt x
  have hlt := mul_ones_lt hd c.epb
  have hle : 2 ^ (c.epb * c.bits) ≤ 2 ^ c.W := Nat.pow_le_pow_right (by decide) hc.epb_mul
  have h1 : 2 ^ c.bits ≤ 2 ^ c.W := Nat.pow_le_pow_right (by decide) hc.bits_le
  refine ⟨BitVec.ofNat c.W (c.E.toDiscr x) * oneMask c, ?_, ?_⟩
  · unfold blkMul
    rw [if_pos]
    rw [oneMask_toNat hc, BitVec.toNat_ofNat, Nat.mod_eq_of_lt (by omega)]
    omega
  · rw [BitVec.toNat_mul, oneMask_toNat hc, BitVec.toNat_ofNat, Nat.mod_eq_of_lt (a := c.E.toDiscr x) (by omega),
      Nat.mod_eq_of_lt (by omega)]

omit hc in
theorem anyBlocks_eq (hc : c.Ok) (x : α) {xm : BitVec c.W} (hx : xm.toNat = c.E.toDiscr x * ones c.bits c.epb) (s : EV c.W) :
    ∀ n i, i + n ≤ s.storage.data.length →
    ∃ r, anyBlocks c xm n i s = (.ok r, s) ∧
      (r = true ↔ ∃ k, i * c.epb ≤ k ∧ k < (i + n) * c.epb ∧ raw c s k = c.E.toDiscr x) := by
  intro n
  induction n with
  | zero => intro i _; exact ⟨false, rfl, by simp; omega⟩
  | succ n ih =>
    intro i hi
    have hlt : i < s.storage.data.length := by omega
    unfold anyBlocks
    rw [M.bind_ok (block_ok hc s hlt)]
    have hz : hasZero c (s.storage.data[i] ^^^ xm) = true ↔
        ∃ k, i * c.epb ≤ k ∧ k < (i + 1) * c.epb ∧ raw c s k = c.E.toDiscr x := by
      rw [hasZero_iff hc]
      constructor
      · rintro ⟨j, hj, h0⟩
        rw [BitVec.toNat_xor, fld_xor, hx, fld_mul_ones (hc.toDiscr_lt x) hj, xor_eq_zero] at h0
        refine ⟨i * c.epb + j, by omega, by rw [Nat.add_mul]; omega, ?_⟩
        rw [raw_block hc s i j hj, blk_lt s hlt, h0]
      · rintro ⟨k, h1, h2, h3⟩
        rw [Nat.add_mul] at h2
        refine ⟨k - i * c.epb, by omega, ?_⟩
        rw [BitVec.toNat_xor, fld_xor, hx, fld_mul_ones (hc.toDiscr_lt x) (by omega), xor_eq_zero, ← h3,
          ← blk_lt s hlt, ← raw_block hc s i _ (by omega)]
        congr 1; omega
    by_cases h : hasZero c (s.storage.data[i] ^^^ xm) = true
    · rw [if_pos h]
      refine ⟨true, rfl, fun _ => ?_, fun _ => rfl⟩
      obtain ⟨k, h1, h2, h3⟩ := hz.mp h
      have : (i + 1) * c.epb ≤ (i + (n + 1)) * c.epb := Nat.mul_le_mul_right _ (by omega)
      exact ⟨k, h1, by omega, h3⟩
    · rw [if_neg h]
      obtain ⟨r, hr, hr'⟩ := ih (i + 1) (by omega)
      refine ⟨r, hr, hr'.trans ?_⟩
      have hadd : i + 1 + n = i + (n + 1) := by omega
      have hm : (i + 1) * c.epb = i * c.epb + c.epb := by rw [Nat.add_mul, Nat.one_mul]
      rw [hadd]
      constructor
      · rintro ⟨k, h1, h2, h3⟩; exact ⟨k, by omega, h2, h3⟩
      · rintro ⟨k, h1, h2, h3⟩
        refine ⟨k, ?_, h2, h3⟩
        apply Nat.le_of_not_lt
        intro h4
        exact h (hz.mpr ⟨k, h1, h4, h3⟩)

theorem num_split (s : EV c.W) : s.num / c.epb * c.epb + s.num % c.epb = s.num := by
  rw [Nat.mul_comm]; exact Nat.div_add_mod _ _

theorem lastBlock_lt {s : EV c.W} (h : Safe c s) (hm : s.num % c.epb ≠ 0) : s.num / c.epb < s.storage.data.length := by
  have := num_split hc s
  have hcov := h.cover
  apply Nat.lt_of_mul_lt_mul_right (a := c.epb)
  omega

theorem lastBlock_le {s : EV c.W} (h : Safe c s) : s.num / c.epb ≤ s.storage.data.length := by
  have hcov := h.cover
  apply Nat.le_of_mul_le_mul_right _ hc.epb_pos
  have := num_split hc s
  omega

omit hc in
/-- `any` in every safe state. -/
theorem any_safe (hc : c.Ok) {s : EV c.W} (h : Safe c s) (x : α) :
    ∃ r, EV.any c x s = (.ok r, s) ∧ (r = true ↔ ∃ k, k < s.num ∧ raw c s k = c.E.toDiscr x) := by
  have hb := hc.bits_pos
  unfold EV.any
  rw [M.read_bind]
  by_cases he : s.num = 0
  · rw [if_pos (show isEmpty c s = true by simp [isEmpty, len, he])]
    exact ⟨false, rfl, by simp [he]⟩
  rw [if_neg (show ¬ isEmpty c s = true by simp [isEmpty, len, he])]
  obtain ⟨xm, hxm, hx⟩ := xMask_ok hc x
  have hd := hc.toDiscr_lt x
  rw [hxm, M.lift_ok_bind]
  have hbi : blockIndex c (len c s) = (s.num / c.epb, s.num % c.epb * c.bits) := rfl
  rw [hbi]
  obtain ⟨r, hr, hr'⟩ := anyBlocks_eq hc x hx s (s.num / c.epb) 0 (by have := lastBlock_le hc h; omega)
  rw [M.bind_ok hr]
  have hsplit := num_split hc s
  simp only [Nat.zero_mul, Nat.zero_le, true_and, Nat.zero_add] at hr'
  by_cases hrt : r = true
  · rw [if_pos hrt]
    refine ⟨true, rfl, fun _ => ?_, fun _ => rfl⟩
    obtain ⟨k, h1, h2⟩ := hr'.mp hrt
    exact ⟨k, by omega, h2⟩
  rw [if_neg hrt]
  have hno : ∀ k, k < s.num / c.epb * c.epb → raw c s k ≠ c.E.toDiscr x := fun k hk he => hrt (hr'.mpr ⟨k, hk, he⟩)
  by_cases hm : s.num % c.epb = 0
  · rw [if_neg (show ¬ s.num % c.epb * c.bits ≠ 0 by simp [hm])]
    refine ⟨false, rfl, by simp; intro k hk; exact hno k (by omega)⟩
  have hml := Nat.mod_lt s.num hc.epb_pos
  rw [if_pos (show s.num % c.epb * c.bits ≠ 0 from Nat.mul_ne_zero hm (by omega))]
  have hlt := lastBlock_lt hc h hm
  rw [M.bind_ok (block_ok hc s hlt)]
  have hz : hasZero c ((s.storage.data[s.num / c.epb] ^^^ xm) |||
      (BitVec.allOnes c.W <<< (s.num % c.epb * c.bits))) = true ↔
        ∃ k, k < s.num ∧ raw c s k = c.E.toDiscr x := by
    have hlow : ∀ j, j < s.num % c.epb → fld c.bits ((s.storage.data[s.num / c.epb] ^^^ xm) |||
      (BitVec.allOnes c.W <<< (s.num % c.epb * c.bits))).toNat j =
        fld c.bits (s.storage.data[s.num / c.epb] ^^^ xm).toNat j := by
      intro j hj
      apply fld_congr
      intro k hk
      have := pos_lt hk hj
      simp only [BitVec.testBit_toNat, BitVec.getLsbD_or, BitVec.getLsbD_shiftLeft]
      simp [show j * c.bits + k < s.num % c.epb * c.bits from this]
    have hhigh : ∀ j, j < c.epb → s.num % c.epb ≤ j → fld c.bits ((s.storage.data[s.num / c.epb] ^^^ xm) |||
      (BitVec.allOnes c.W <<< (s.num % c.epb * c.bits))).toNat j ≠ 0 := by
      intro j hj hj' h0
      have := congrArg (fun n => n.testBit 0) h0
      have hf := hc.fld_fits hj
      have hle : s.num % c.epb * c.bits ≤ j * c.bits := Nat.mul_le_mul_right _ hj'
      simp only [testBit_fld, BitVec.testBit_toNat, BitVec.getLsbD_or, BitVec.getLsbD_shiftLeft, Nat.zero_testBit,
        BitVec.getLsbD_allOnes] at this
      simp [hb, show ¬ j * c.bits < s.num % c.epb * c.bits by omega, show j * c.bits < c.W by omega,
        show j * c.bits - s.num % c.epb * c.bits < c.W by omega] at this
    rw [hasZero_iff hc]
    constructor
    · rintro ⟨j, hj, h0⟩
      rcases Nat.lt_or_ge j (s.num % c.epb) with hjm | hjm
      · rw [hlow j hjm, BitVec.toNat_xor, fld_xor, hx, fld_mul_ones hd hj, xor_eq_zero] at h0
        refine ⟨s.num / c.epb * c.epb + j, by omega, ?_⟩
        rw [raw_block hc s _ j hj, blk_lt s hlt, h0]
      · exact absurd h0 (hhigh j hj hjm)
    · rintro ⟨k, h1, h2⟩
      have h3 : s.num / c.epb * c.epb ≤ k := by
        apply Nat.le_of_not_lt
        intro h4; exact hno k h4 h2
      refine ⟨k - s.num / c.epb * c.epb, by omega, ?_⟩
      rw [hlow _ (by omega), BitVec.toNat_xor, fld_xor, hx, fld_mul_ones hd (by omega), xor_eq_zero, ← h2,
        ← blk_lt s hlt, ← raw_block hc s _ _ (by omega)]
      congr 1; omega
  split
  · next h1 => exact ⟨true, rfl, fun _ => hz.mp h1, fun _ => rfl⟩
  · next h1 =>
    refine ⟨false, rfl, by simp, fun h2 => ?_⟩
    exact absurd (hz.mpr h2) h1

/-! ### all -/

theorem validMask_toNat (v : BitVec c.W) :
    (v &&& (BitVec.allOnes c.W >>> (c.W % c.bits))).toNat = v.toNat % 2 ^ (c.epb * c.bits) := by
  rw [BitVec.toNat_and, BitVec.toNat_ushiftRight, BitVec.toNat_allOnes]
  have hW := W_eq hc
  have hw : 2 ^ c.W = 2 ^ (c.epb * c.bits) * 2 ^ (c.W % c.bits) := by rw [← Nat.pow_add, ← hW]
  have hp := Nat.two_pow_pos (c.W % c.bits)
  have hq := Nat.two_pow_pos (c.epb * c.bits)
  have : (2 ^ c.W - 1) >>> (c.W % c.bits) = 2 ^ (c.epb * c.bits) - 1 := by
    rw [Nat.shiftRight_eq_div_pow, hw]
    generalize 2 ^ (c.W % c.bits) = R at *
    generalize 2 ^ (c.epb * c.bits) = K at *
    apply Nat.div_eq_of_lt_le
    · rw [Nat.sub_mul]; omega
    · have : (K - 1 + 1) * R = K * R := by congr 1; omega
      rw [this]
      have := Nat.mul_pos hq hp
      omega
  rw [this, Nat.and_two_pow_sub_one_eq_mod]

theorem lowMask_toNat (v : BitVec c.W) {m : Nat} (hm : m ≤ c.W) :
    (v &&& ~~~(BitVec.allOnes c.W <<< m)).toNat = v.toNat % 2 ^ m := by
  apply Nat.eq_of_testBit_eq
  intro p
  rw [Nat.testBit_mod_two_pow]
  simp only [BitVec.testBit_toNat, BitVec.getLsbD_and, BitVec.getLsbD_not, BitVec.getLsbD_shiftLeft,
    BitVec.getLsbD_allOnes]
  by_cases hp : p < m
  · simp [hp, show p < c.W by omega]
  · by_cases hpW : p < c.W
    · simp [hp, hpW, show p - m < c.W by omega]
    · rw [BitVec.getLsbD_of_ge _ _ (by omega)]; simp

omit hc in
theorem allBlocks_eq (hc : c.Ok) (x : α) {xm : BitVec c.W} (hx : xm.toNat = c.E.toDiscr x * ones c.bits c.epb) (s : EV c.W) :
    ∀ n i, i + n ≤ s.storage.data.length →
    ∃ r, allBlocks c (BitVec.allOnes c.W >>> (c.W % c.bits)) xm n i s = (.ok r, s) ∧
      (r = true ↔ ∀ k, i * c.epb ≤ k → k < (i + n) * c.epb → raw c s k = c.E.toDiscr x) := by
  intro n
  induction n with
  | zero => intro i _; exact ⟨true, rfl, fun _ k h1 h2 => by simp at h2; omega, fun _ => rfl⟩
  | succ n ih =>
    intro i hi
    have hlt : i < s.storage.data.length := by omega
    unfold allBlocks
    rw [M.bind_ok (block_ok hc s hlt)]
    have hxlt := mul_ones_lt (hc.toDiscr_lt x) c.epb
    have hz : (s.storage.data[i] &&& (BitVec.allOnes c.W >>> (c.W % c.bits)) = xm) ↔
        ∀ k, i * c.epb ≤ k → k < (i + 1) * c.epb → raw c s k = c.E.toDiscr x := by
      rw [← BitVec.toNat_inj, validMask_toNat hc, hx]
      have := fields_eq_iff (v := s.storage.data[i].toNat) hc.bits_pos (hc.toDiscr_lt x) (Nat.le_refl c.epb)
      rw [Nat.mod_eq_of_lt hxlt] at this
      rw [this]
      constructor
      · intro h k h1 h2
        rw [Nat.add_mul] at h2
        rw [← h (k - i * c.epb) (by omega), ← blk_lt s hlt, ← raw_block hc s i _ (by omega)]
        congr 1; omega
      · intro h j hj
        rw [← blk_lt s hlt, ← raw_block hc s i _ hj]
        exact h _ (by omega) (by rw [Nat.add_mul]; omega)
    have hadd : i + 1 + n = i + (n + 1) := by omega
    have hle : (i + 1) * c.epb ≤ (i + (n + 1)) * c.epb := Nat.mul_le_mul_right _ (by omega)
    by_cases h : s.storage.data[i] &&& (BitVec.allOnes c.W >>> (c.W % c.bits)) = xm
    · rw [if_neg (by simpa using h)]
      obtain ⟨r, hr, hr'⟩ := ih (i + 1) (by omega)
      refine ⟨r, hr, hr'.trans ?_⟩
      rw [hadd]
      constructor
      · intro h1 k h2 h3
        rcases Nat.lt_or_ge k ((i + 1) * c.epb) with h4 | h4
        · exact hz.mp h k h2 h4
        · exact h1 k h4 h3
      · intro h1 k h2 h3
        exact h1 k (by rw [Nat.add_mul] at h2; omega) h3
    · rw [if_pos (by simpa using h)]
      refine ⟨false, rfl, fun h' => absurd h' (by simp), fun h1 => ?_⟩
      exact absurd (hz.mpr (fun k h2 h3 => h1 k h2 (by omega))) h

omit hc in
/-- `all` in every safe state. -/
theorem all_safe (hc : c.Ok) {s : EV c.W} (h : Safe c s) (x : α) :
    ∃ r, EV.all c x s = (.ok r, s) ∧ (r = true ↔ ∀ k, k < s.num → raw c s k = c.E.toDiscr x) := by
  have hb := hc.bits_pos
  unfold EV.all
  rw [M.read_bind]
  by_cases he : s.num = 0
  · rw [if_pos (show isEmpty c s = true by simp [isEmpty, len, he])]
    exact ⟨true, rfl, by simp [he]⟩
  rw [if_neg (show ¬ isEmpty c s = true by simp [isEmpty, len, he])]
  obtain ⟨xm, hxm, hx⟩ := xMask_ok hc x
  have hd := hc.toDiscr_lt x
  rw [hxm, M.lift_ok_bind]
  have hbi : blockIndex c (len c s) = (s.num / c.epb, s.num % c.epb * c.bits) := rfl
  rw [hbi]
  obtain ⟨r, hr, hr'⟩ := allBlocks_eq hc x hx s (s.num / c.epb) 0 (by have := lastBlock_le hc h; omega)
  rw [M.bind_ok hr]
  have hsplit := num_split hc s
  simp only [Nat.zero_mul, Nat.zero_le, true_implies, Nat.zero_add] at hr'
  by_cases hrt : r = true
  · rw [if_neg (by simp [hrt])]
    have hyes := hr'.mp hrt
    by_cases hm : s.num % c.epb = 0
    · rw [if_neg (show ¬ s.num % c.epb * c.bits ≠ 0 by simp [hm])]
      exact ⟨true, rfl, fun _ k hk => hyes k (by omega), fun _ => rfl⟩
    have hml := Nat.mod_lt s.num hc.epb_pos
    rw [if_pos (show s.num % c.epb * c.bits ≠ 0 from Nat.mul_ne_zero hm (by omega))]
    have hlt := lastBlock_lt hc h hm
    rw [M.bind_ok (block_ok hc s hlt)]
    have hmw : s.num % c.epb * c.bits ≤ c.W := by have := hc.fld_fits hml; omega
    have hz : ((s.storage.data[s.num / c.epb]'hlt) &&& ~~~(BitVec.allOnes c.W <<< (s.num % c.epb * c.bits)) =
        xm &&& ~~~(BitVec.allOnes c.W <<< (s.num % c.epb * c.bits))) ↔
        ∀ k, k < s.num → raw c s k = c.E.toDiscr x := by
      rw [← BitVec.toNat_inj, lowMask_toNat hc _ hmw, lowMask_toNat hc _ hmw, hx,
        fields_eq_iff hb hd (Nat.le_of_lt hml)]
      constructor
      · intro h1 k h2
        rcases Nat.lt_or_ge k (s.num / c.epb * c.epb) with h3 | h3
        · exact hyes k h3
        · rw [← h1 (k - s.num / c.epb * c.epb) (by omega), ← blk_lt s hlt, ← raw_block hc s _ _ (by omega)]
          congr 1; omega
      · intro h1 j hj
        rw [← blk_lt s hlt, ← raw_block hc s _ _ (by omega)]
        exact h1 _ (by omega)
    split
    · next h1 => exact ⟨false, rfl, by simp, fun h2 => absurd (hz.mpr h2) h1⟩
    · next h1 => exact ⟨true, rfl, fun _ => hz.mp (Classical.byContradiction h1), fun _ => rfl⟩
  · rw [if_pos (by simpa using hrt)]
    exact ⟨false, rfl, by simp, fun h1 => absurd (hr'.mpr (fun k hk => h1 k (by omega))) hrt⟩

/-! ### eq, hash -/

theorem eqLoop_safe {a b : EV c.W} (ha : Safe c a) (hb : Safe c b) (hl : a.num = b.num) :
    ∀ n i, i + n = a.num → ∃ r, eqLoop c a b n i = .ok r ∧
      (r = true ↔ ∀ k, i ≤ k → k < a.num → raw c a k = raw c b k) := by
  intro n
  induction n with
  | zero => intro i hi; exact ⟨true, rfl, fun _ k h1 h2 => by omega, fun _ => rfl⟩
  | succ n ih =>
    intro i hi
    unfold eqLoop
    rw [rawUnchecked_ok hc a (by have := ha.cover; omega), rawUnchecked_ok hc b (by have := hb.cover; omega)]
    by_cases h : raw c a i = raw c b i
    · obtain ⟨r, hr, hr'⟩ := ih (i + 1) (by omega)
      refine ⟨r, by simp only [h, ne_eq, not_true, if_false]; exact hr, hr'.trans ?_⟩
      constructor
      · intro h1 k h2 h3
        rcases Nat.lt_or_ge i k with h4 | h4
        · exact h1 k h4 h3
        · have : k = i := by omega
          rw [this]; exact h
      · intro h1 k h2 h3; exact h1 k (by omega) h3
    · refine ⟨false, by simp [h], by simp, fun h1 => absurd (h1 i (by omega) (by omega)) h⟩

theorem eq_safe {a b : EV c.W} (ha : Safe c a) (hb : Safe c b) :
    ∃ r, EV.eq c a b = .ok r ∧ (r = true ↔ a.num = b.num ∧ ∀ k, k < a.num → raw c a k = raw c b k) := by
  unfold EV.eq
  by_cases hl : a.num = b.num
  · rw [if_pos (show len c a = len c b from hl)]
    obtain ⟨r, hr, hr'⟩ := eqLoop_safe hc ha hb hl a.num 0 (by omega)
    refine ⟨r, hr, hr'.trans ?_⟩
    simp [hl]
  · rw [if_neg (show ¬ len c a = len c b from hl)]
    exact ⟨false, rfl, by simp [hl]⟩

omit hc in
theorem eq_holds (hc : c.Ok) {a b : EV c.W} {l m : List α} (ha : Holds c a l) (hb : Holds c b m) :
    ∃ r, EV.eq c a b = .ok r ∧ (r = true ↔ l = m) := by
  obtain ⟨r, hr, hr'⟩ := eq_safe hc ha.toSafe hb.toSafe
  refine ⟨r, hr, hr'.trans ?_⟩
  constructor
  · rintro ⟨h1, h2⟩
    apply Holds.unique hc (s := a) ha
    refine ⟨ha.toSafe, by rw [h1, hb.len_eq], fun i hi => ?_⟩
    rw [h2 i (by rw [h1, hb.len_eq]; exact hi), hb.elems i hi]
  · rintro rfl
    refine ⟨by rw [ha.len_eq, hb.len_eq], fun k hk => ?_⟩
    rw [ha.elems k (by rw [← ha.len_eq]; exact hk), hb.elems k (by rw [← ha.len_eq]; exact hk)]

theorem hashLoop_safe {s : EV c.W} (h : Safe c s) :
    ∀ n i, i + n = s.num → hashLoop c s n i = .ok ((List.range' i n).map (raw c s)) := by
  intro n
  induction n with
  | zero => intro i _; rfl
  | succ n ih =>
    intro i hi
    unfold hashLoop
    rw [rawUnchecked_ok hc s (by have := h.cover; omega), ih (i + 1) (by omega)]
    rfl

theorem hash_safe {s : EV c.W} (h : Safe c s) : EV.hash c s = .ok ((List.range s.num).map (raw c s)) := by
  unfold EV.hash
  rw [show len c s = s.num from rfl, hashLoop_safe hc h _ _ (by omega), List.range_eq_range']

theorem hash_holds {s : EV c.W} {l : List α} (h : Holds c s l) : EV.hash c s = .ok (l.map c.E.toDiscr) := by
  rw [hash_safe hc h.toSafe]
  congr 1
  apply List.ext_getElem
  · simp [h.len_eq]
  · intro i h1 h2
    simp only [List.getElem_map, List.getElem_range]
    exact h.elems i (by simpa using h2)

omit hc in
theorem any_holds (hc : c.Ok) {s : EV c.W} {l : List α} (h : Holds c s l) (x : α) :
    ∃ r, EV.any c x s = (.ok r, s) ∧ (r = true ↔ x ∈ l) := by
  obtain ⟨r, hr, hr'⟩ := any_safe hc h.toSafe x
  refine ⟨r, hr, hr'.trans ?_⟩
  constructor
  · rintro ⟨k, h1, h2⟩
    have hk : k < l.length := by rw [← h.len_eq]; exact h1
    rw [h.elems k hk] at h2
    have := hc.toDiscr_inj h2
    rw [← this]; exact List.getElem_mem hk
  · intro hm
    obtain ⟨k, hk, rfl⟩ := List.getElem_of_mem hm
    exact ⟨k, by rw [h.len_eq]; exact hk, h.elems k hk⟩

omit hc in
theorem all_holds (hc : c.Ok) {s : EV c.W} {l : List α} (h : Holds c s l) (x : α) :
    ∃ r, EV.all c x s = (.ok r, s) ∧ (r = true ↔ ∀ y ∈ l, y = x) := by
  obtain ⟨r, hr, hr'⟩ := all_safe hc h.toSafe x
  refine ⟨r, hr, hr'.trans ?_⟩
  constructor
  · intro h1 y hy
    obtain ⟨k, hk, rfl⟩ := List.getElem_of_mem hy
    have := h1 k (by rw [h.len_eq]; exact hk)
    rw [h.elems k hk] at this
    exact hc.toDiscr_inj this
  · intro h1 k hk
    have hk' : k < l.length := by rw [← h.len_eq]; exact hk
    rw [h.elems k hk', h1 _ (List.getElem_mem hk')]

end
end EnumVecModel
