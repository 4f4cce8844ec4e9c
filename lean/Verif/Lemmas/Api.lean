import Verif.Lemmas.Query
import Verif.Lemmas.Build
import Verif.Examples

set_option linter.unusedSectionVars false

/-! # The specification predicates and the invariants used in the proofs -/

namespace EnumVecModel
open EV

variable {α : Type}

theorem insertIdx_take_drop {l : List α} : ∀ {i : Nat}, i ≤ l.length → ∀ x, l.insertIdx i x = l.take i ++ x :: l.drop i := by
  induction l with
  | nil => intro i hi x; simp at hi; subst hi; rfl
  | cons a l ih =>
    intro i hi x
    cases i with
    | zero => rfl
    | succ i =>
      rw [List.insertIdx_succ_cons, ih (by simpa using hi)]; rfl

section
variable {c : Inst α} {strict : Prop} (hc : c.Fits strict)
include hc

theorem rawUnchecked_eq (s : EV c.W) {i : Nat} (h : i < s.storage.data.length * c.epb) :
    rawUnchecked c s i = .ok (raw c s i) := by
  have := getRawUnchecked_ok hc s h
  unfold getRawUnchecked at this
  exact congrArg Prod.fst this

omit hc in
theorem Holds.is (hc : c.Ok) {s : EV c.W} {l : List α} (h : Holds c s l) : Is c s l where
  safe := h.toSafe
  shows := h.shows hc
  discr i hi := by
    have := h.cover; have := h.len_eq
    rw [rawUnchecked_eq hc s (by omega), h.elems i hi]

theorem Is.holds {s : EV c.W} {l : List α} (h : Is c s l) : Holds c s l where
  toSafe := h.safe
  len_eq := h.shows.1
  elems i hi := by
    have h1 := h.discr i hi
    have := h.safe.cover
    have h2 : s.num = l.length := h.shows.1
    rw [rawUnchecked_eq hc s (by omega)] at h1
    exact Except.ok.inj h1

omit hc in
theorem is_iff (hc : c.Ok) {s : EV c.W} {l : List α} : Is c s l ↔ Holds c s l := ⟨fun h => h.holds hc, fun h => h.is hc⟩

theorem unusedBits_eq (s : EV c.W) (j : Nat) : unusedBits c s j = waste c s j := by
  unfold unusedBits waste fld blk
  refine (Nat.mod_eq_of_lt ?_).symm
  refine Nat.div_lt_of_lt_mul ?_
  rw [← Nat.pow_add]
  refine Nat.lt_of_lt_of_le (BitVec.isLt _) (Nat.pow_le_pow_right (by decide) ?_)
  exact Nat.le_of_lt hc.epb_mul_lt

theorem unusedZero_iff (s : EV c.W) : UnusedZero c s ↔ Clean c s := by
  unfold UnusedZero Clean
  simp only [unusedBits_eq hc]

theorem allValid_iff (s : EV c.W) : AllValid c s ↔ Valid c s := by
  constructor
  · intro h i
    rcases Nat.lt_or_ge i (s.storage.data.length * c.epb) with hi | hi
    · exact h i _ (rawUnchecked_eq hc s hi)
    · have : s.storage.data.length ≤ i / c.epb := (Nat.le_div_iff_mul_le hc.epb_pos).mpr hi
      unfold raw; rw [blk_ge s this, fld_zero]; exact E_pos hc
  · intro h i d hd
    rcases Nat.lt_or_ge i (s.storage.data.length * c.epb) with hi | hi
    · rw [rawUnchecked_eq hc s hi] at hd
      rw [← Except.ok.inj hd]; exact h i
    · have : s.storage.data.length ≤ i / c.epb := (Nat.le_div_iff_mul_le hc.epb_pos).mpr hi
      unfold rawUnchecked blockIndex at hd
      simp only [List.getElem?_eq_none this] at hd
      cases hd

omit hc in
theorem HoldsPre.get (hc : c.Ok) {s : EV c.W} {l : List α} (h : HoldsPre c s l) {i : Nat} (hi : i < l.length) :
    EV.get c i s = (.ok (some l[i]), s) := by
  have := h.len_le
  rw [get_safe hc h.toSafe, if_pos (by omega), h.elems i hi, hc.contract.roundtrip]

theorem Valid.get (hE : c.E.Consecutive) {s : EV c.W} (h : Safe c s) (hv : Valid c s) {i : Nat} (hi : i < s.num) :
    ∃ a, EV.get c i s = (.ok (some a), s) := by
  obtain ⟨a, ha, _⟩ := hE _ (hv i)
  exact ⟨a, by rw [get_safe hc h, if_pos hi, ha]⟩

omit hc in
theorem fromVec_is (hc : c.Ok) {l : List α} {s : EV c.W} (hw : ¬ c.AtLimit l.length) (h : fromVec c l = .ok s) : Is c s l := by
  have := fromVec_holds hc l hw
  rw [h] at this
  exact this.1.is hc

omit hc in
/-- A decidable check for concrete states. -/
theorem is_of_check (hc : c.Ok) {s : EV c.W} {l : List α}
    (h : (s.num ≤ s.storage.data.length * c.epb ∧ s.storage.data.length ≤ s.storage.cap ∧
      (s.storage.cap + 1) * c.epb + 4 < c.build.usizeLim) ∧ s.num = l.length ∧
      ∀ i : Fin l.length, rawUnchecked c s i.val = .ok (c.E.toDiscr l[i.val])) : Is c s l := by
  obtain ⟨⟨h1, h2, h3⟩, h4, h5⟩ := h
  refine Holds.is hc ⟨⟨h1, h2, h3⟩, h4, fun i hi => ?_⟩
  have := h5 ⟨i, hi⟩
  rw [rawUnchecked_eq hc s (by omega)] at this
  exact Except.ok.inj this

end

/-! ### concrete vectors for the non-vacuity examples -/

/-- 12 elements of 3 bits: two blocks. -/
abbrev l12 : List (Fin 8) := [1, 2, 3, 4, 5, 6, 7, 0, 1, 2, 3, 4]

/-- A two-block vector. -/
def v12 : EV 32 := ⟨⟨[0x111f58d1#32, 0x00000023#32], 2⟩, 12⟩

theorem v12_is : Is c8 v12 l12 := fromVec_is c8_ok (by decide) (by decide +kernel)

/-- A one-block vector. -/
def v3 : EV 32 := ⟨⟨[0x000000d1#32], 1⟩, 3⟩

theorem v3_is : Is c8 v3 [1, 2, 3] := fromVec_is c8_ok (by decide) (by decide +kernel)

end EnumVecModel
