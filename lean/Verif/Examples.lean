import Verif.Spec

/-!
# Concrete instantiations

Used beside the property theorems to show that their hypotheses can be met, and as witnesses of the negative results.
Nothing else depends on them.
-/

namespace EnumVecModel

deriving instance DecidableEq for Except

/-- A debug build for a 64-bit target. -/
abbrev debug64 : Build := ⟨true, true⟩

/-- A release build for a 64-bit target. -/
abbrev release64 : Build := ⟨false, true⟩

/-- A debug build for a 32-bit target. -/
abbrev debug32 : Build := ⟨true, false⟩

/-- A release build for a 32-bit target. -/
abbrev release32 : Build := ⟨false, false⟩

/-- The growth strategy of `std::vec::Vec` (doubling), refusing 2^64 bits or more (32-bit targets: 2^32). Not code of `/repo`. -/
def stdAlloc (fresh W : Nat) (wide : Bool := true) : Alloc where
  fresh := fresh
  exact n := if (n + 1) * W + 4 < (Build.mk true wide).usizeLim then some n else none
  grow cap n := if (max (2 * cap) n + 1) * W + 4 < (Build.mk true wide).usizeLim then some (max (2 * cap) n) else none
  shrinkTo _ len := len

theorem stdAlloc_lawful (fresh W : Nat) (wide : Bool) : (stdAlloc fresh W wide).Lawful where
  exact_ge n k h := by
    simp only [stdAlloc] at h; split at h <;> simp at h; omega
  grow_ge cap n k h := by
    simp only [stdAlloc] at h; split at h <;> simp at h; omega
  shrink_ge _ _ _ := Nat.le_refl _

theorem stdAlloc_bounded {fresh W n : Nat} {b : Build} (h : (fresh + 1) * W + 4 < b.usizeLim) (hn : n ≤ W) :
    (stdAlloc fresh W b.wide).Bounded b n where
  fresh := Nat.lt_of_le_of_lt (Nat.add_le_add_right (Nat.mul_le_mul_left _ hn) 4) h
  exact n k h := by
    simp only [stdAlloc] at h; split at h <;> simp at h; subst h
    exact Nat.lt_of_le_of_lt (Nat.add_le_add_right (Nat.mul_le_mul_left _ hn) 4) (by assumption)
  grow cap n k h := by
    simp only [stdAlloc] at h; split at h <;> simp at h; subst h
    exact Nat.lt_of_le_of_lt (Nat.add_le_add_right (Nat.mul_le_mul_left _ hn) 4) (by assumption)
  shrink _ _ h := h

/-- An enum with `n` variants, as in the test types `ABC`, `Digit` (enum_vec/src/vec_u32/mod.rs:1150-1170, 1297-1307):
`from_discr` panics for other numbers. -/
def finLike (n : Nat) : EnumLike (Fin n) where
  num := n
  toDiscr i := i.val
  fromDiscr x := if h : x < n then some ⟨x, h⟩ else none

theorem finLike_contract (n : Nat) : (finLike n).Contract where
  lt a := a.isLt
  roundtrip a := by simp [finLike]

theorem finLike_consecutive (n : Nat) : (finLike n).Consecutive := fun x (h : x < n) =>
  ⟨⟨x, h⟩, by simp [finLike, h], rfl⟩

/-- `EnumVec` of an `n`-variant enum with `W`-bit blocks. -/
def exInst (W n : Nat) (build : Build) (small : Bool) : Inst (Fin n) where
  W := W
  E := finLike n
  build := build
  small := small
  alloc := stdAlloc (if small then 4 else 0) W build.wide

theorem exInst_ok {W n : Nat} (build : Build) (small : Bool)
    (hW : W = 8 ∨ W = 16 ∨ W = 32 ∨ W = 64 ∨ W = 128) (h1 : 1 < n) (h2 : n < 2 ^ 32) (h3 : W ≤ 32 → n ≤ 2 ^ W) :
    (exInst W n build small).Ok where
  compiles := ⟨hW, h1, h3⟩
  few _ := Nat.le_of_lt h2
  contract _ := finLike_contract n
  lawful := stdAlloc_lawful _ _ _
  bounded := stdAlloc_bounded (b := build) (by
    rcases build.usizeLim_cases with h | h <;> split <;> omega) (Nat.div_le_self _ _)

/-- `vec_u32::EnumVec` of an 8-variant enum (3 bits per element, 10 elements and 2 unused bits per block), debug build. -/
abbrev c8 : Inst (Fin 8) := exInst 32 8 debug64 false

theorem c8_ok : c8.Ok := exInst_ok _ _ (by omega) (by omega) (by omega) (by omega)

/-- `vec_u32::EnumVec<bool>`-like: one bit per element, no unused bits. -/
abbrev c2 : Inst (Fin 2) := exInst 32 2 debug64 false

theorem c2_ok : c2.Ok := exInst_ok _ _ (by omega) (by omega) (by omega) (by omega)

/-- The same with `SmallVec` storage. -/
abbrev c2s : Inst (Fin 2) := exInst 32 2 debug64 true

theorem c2s_ok : c2s.Ok := exInst_ok _ _ (by omega) (by omega) (by omega) (by omega)

/-- `vec_u8::EnumVec` of a 200-variant enum: one element per block, debug build. -/
abbrev c200 : Inst (Fin 200) := exInst 8 200 debug64 false

theorem c200_ok : c200.Ok := exInst_ok _ _ (by omega) (by omega) (by omega) (by omega)

/-- The same in a release build. -/
abbrev c200r : Inst (Fin 200) := exInst 8 200 release64 false

theorem c200r_ok : c200r.Ok := exInst_ok _ _ (by omega) (by omega) (by omega) (by omega)

end EnumVecModel
