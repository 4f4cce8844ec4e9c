import Verif.Lemmas.SourceConst
import Verif.Lemmas.Num
import Verif.Source.Semantics
import Verif.Props.Capacity

/-!
# The text of the constants (C79)

`Source/ConstText.lean` has the text of the constants of the six modules, letter by letter; `Source/ConstEval.lean` evaluates them as the compiler does.
-/

namespace EnumVecModel
open EV Source

set_option linter.constructorNameAsVariable false

variable {α : Type} {c : Inst α}

/-- All texts. -/
def constTexts : List String :=
  [k_block_u8.text, k_size_u8.text, k_bits_u8.text, k_many_u8.text, k_zero_u8.text, k_elems_u8.text, k_mask_u8.text, k_block_u16.text, k_size_u16.text, k_block_u32.text,
   k_size_u32.text, k_block_u64.text, k_size_u64.text, k_bits_u64.text, k_block_u128.text, k_size_u128.text]

/-- **C79** Every declaration of a module is what the parser makes of one of the texts. -/
theorem C79_text {W : Nat} {cs : List Const} (h : (W, cs) ∈ modules) {k : Const} (hk : k ∈ cs) : ∃ t ∈ constTexts, constText t.toList = some k := by
  simp only [modules, List.mem_cons, Prod.mk.injEq, List.not_mem_nil, or_false] at h
  rcases h with h | h | h | h | h | h <;> obtain ⟨rfl, rfl⟩ := h <;>
    simp only [consts_vec_u8, consts_vec_u16, consts_vec_u32, consts_smallvec_u32, consts_vec_u64, consts_vec_u128, List.mem_cons, List.not_mem_nil, or_false] at hk
  all_goals
    (try rcases hk with rfl | rfl | rfl | rfl | rfl | rfl | rfl)
    <;> (try rcases hk with rfl | rfl | rfl | rfl | rfl | rfl)
    <;> first
      | exact ⟨_, by simp [constTexts], k_block_u8.parses⟩ | exact ⟨_, by simp [constTexts], k_size_u8.parses⟩ | exact ⟨_, by simp [constTexts], k_bits_u8.parses⟩
      | exact ⟨_, by simp [constTexts], k_many_u8.parses⟩ | exact ⟨_, by simp [constTexts], k_zero_u8.parses⟩ | exact ⟨_, by simp [constTexts], k_elems_u8.parses⟩
      | exact ⟨_, by simp [constTexts], k_mask_u8.parses⟩ | exact ⟨_, by simp [constTexts], k_block_u16.parses⟩ | exact ⟨_, by simp [constTexts], k_size_u16.parses⟩
      | exact ⟨_, by simp [constTexts], k_block_u32.parses⟩ | exact ⟨_, by simp [constTexts], k_size_u32.parses⟩ | exact ⟨_, by simp [constTexts], k_block_u64.parses⟩
      | exact ⟨_, by simp [constTexts], k_size_u64.parses⟩ | exact ⟨_, by simp [constTexts], k_bits_u64.parses⟩ | exact ⟨_, by simp [constTexts], k_block_u128.parses⟩
      | exact ⟨_, by simp [constTexts], k_size_u128.parses⟩

/-- **C79** Which types are accepted: in the module with blocks of `W` bits, for a type with `N` variants, every constant can be evaluated exactly if there are at least two variants and, with blocks
of up to 32 bits, at most `2^W`. Otherwise an overflow is found when the compiler evaluates them; no constant is without meaning. -/
theorem C79_compiles {W : Nat} {cs : List Const} (h : (W, cs) ∈ modules) (B : Build) {N : Nat} (hN : N < B.usizeLim) :
    ((∀ k ∈ cs, k.type ≠ .wild → ∃ v, constOf cs B N 4 k.name = some (.ok v)) ↔ 1 < N ∧ (W ≤ 32 → N ≤ 2 ^ W)) ∧
    ∀ k ∈ cs, k.type ≠ .wild → constOf cs B N 4 k.name ≠ none := by
  have hd := modules_declare h
  have hsize := const_size hd B (N := N) 3
  have hzero := const_zero hd B (N := N) 2
  have hbits := const_bits hd B hN 1
  have helems := const_elems hd B hN 0
  have hmask := const_mask hd B hN 0
  have hmany := fun hW => const_many hd B hW hN 2
  have ez : errorZeroSized B N = if N ≤ 1 then .error .overflow else .ok 0 := by
    unfold errorZeroSized uSub Build.const; by_cases hN : N ≤ 1 <;> simp [hN]
  have em : errorTooManyVariants B W N = if N > 2 ^ W then .error .overflow else .ok 0 := by
    unfold errorTooManyVariants uSub Build.const; by_cases hN : N > 2 ^ W <;> simp [hN]
  have names : ∀ k ∈ cs, k.type = .wild ∨ k.name = .STORAGE_BLOCK_SIZE ∨ k.name = .ERROR_ZERO_SIZED ∨ k.name = .BITS_PER_ELEM ∨ k.name = .ELEMS_PER_BLOCK ∨ k.name = .ELEMENT_MASK ∨
      (W ≤ 32 ∧ k.name = .ERROR_TOO_MANY_VARIANTS) := by
    simp only [modules, List.mem_cons, Prod.mk.injEq, List.not_mem_nil, or_false] at h
    rcases h with h | h | h | h | h | h <;> obtain ⟨rfl, rfl⟩ := h <;> decide
  have mem : ∃ k ∈ cs, k.type ≠ .wild ∧ k.name = .BITS_PER_ELEM := by
    simp only [modules, List.mem_cons, Prod.mk.injEq, List.not_mem_nil, or_false] at h
    rcases h with h | h | h | h | h | h <;> obtain ⟨rfl, rfl⟩ := h <;> decide
  refine ⟨⟨fun ha => ?_, fun hb k hk ht => ?_⟩, fun k hk ht => ?_⟩
  · obtain ⟨k, hk, ht, hn⟩ := mem
    obtain ⟨v, hv⟩ := ha k hk ht
    rw [hn, hbits] at hv
    rcases hx : bitsConst B W N with e | b <;> rw [hx] at hv
    · cases hv
    · exact ⟨((C30_compiles B).mp hx).1, ((C30_compiles B).mp hx).2.1⟩
  · have hok : bitsConst B W N = .ok (bitsPerElem N) := (C30_compiles B).mpr ⟨hb.1, hb.2, rfl⟩
    have hpos := (bitsPerElem_rough N hb.1).1
    rcases names k hk with h | h | h | h | h | h | ⟨hW, h⟩
    · exact absurd h ht
    · exact ⟨_, h ▸ hsize⟩
    · rw [h, hzero, ez, if_neg (by omega)]; exact ⟨_, rfl⟩
    · rw [h, hbits, hok]; exact ⟨_, rfl⟩
    · rw [h, helems, hok]; simp only [Except.bind, if_neg (Nat.ne_of_gt hpos)]; exact ⟨_, rfl⟩
    · rw [h, hmask, hok]; exact ⟨_, rfl⟩
    · rw [h, hmany hW, em, if_neg (Nat.not_lt.mpr (hb.2 hW))]; exact ⟨_, rfl⟩
  · rcases names k hk with h | h | h | h | h | h | ⟨hW, h⟩
    · exact absurd h ht
    · rw [h, hsize]; nofun
    · rw [h, hzero]; nofun
    · rw [h, hbits]; nofun
    · rw [h, helems]; nofun
    · rw [h, hmask]; nofun
    · rw [h, hmany hW]; nofun

/-- **C79** The values, for an accepted type with at most `2^32` variants: `BITS_PER_ELEM` is the least `b` with `N ≤ 2^b`, between 1 and `W`; `ELEMS_PER_BLOCK` is `W / b`, at least one;
`ELEMENT_MASK` has the lowest `b` bits; a block has `W` bits. -/
theorem C79_values {W : Nat} {cs : List Const} (h : (W, cs) ∈ modules) (B : Build) {N : Nat} (hN : N < B.usizeLim) (h1 : 1 < N) (h2 : W ≤ 32 → N ≤ 2 ^ W) (h3 : N ≤ 2 ^ 32) :
    ∃ b, N ≤ 2 ^ b ∧ (∀ b', N ≤ 2 ^ b' → b ≤ b') ∧ 1 ≤ b ∧ b ≤ W ∧ 1 ≤ W / b ∧
      typeBits cs B .StorageBlock = some W ∧
      constOf cs B N 4 .STORAGE_BLOCK_SIZE = some (.ok (.num .usize W)) ∧
      constOf cs B N 4 .BITS_PER_ELEM = some (.ok (.num .usize b)) ∧
      constOf cs B N 4 .ELEMS_PER_BLOCK = some (.ok (.num .usize (W / b))) ∧
      constOf cs B N 4 .ELEMENT_MASK = some (.ok (.num .StorageBlock (2 ^ b - 1))) := by
  have hd := modules_declare h
  have hs := bitsPerElem_spec N h1 h3
  have hok : bitsConst B W N = .ok (bitsPerElem N) := (C30_compiles B).mpr ⟨h1, h2, rfl⟩
  have hmin : ∀ b, N ≤ 2 ^ b → bitsPerElem N ≤ b := fun b hb => by
    rcases Nat.lt_or_ge b (bitsPerElem N) with h | h
    · exact absurd hb (Nat.not_le_of_lt (hs.2.2.2 b h))
    · exact h
  have hle : bitsPerElem N ≤ W := by
    by_cases hW : W ≤ 32
    · exact hmin W (h2 hW)
    · have := hs.2.1; omega
  refine ⟨bitsPerElem N, hs.2.2.1, hmin, hs.1, hle, Nat.div_pos hle hs.1, hd.width B, const_size hd B 3, ?_, ?_, ?_⟩
  · rw [const_bits hd B hN 1, hok]; rfl
  · rw [const_elems hd B hN 0, hok]
    simp only [Except.bind, if_neg (Nat.ne_of_gt hs.1)]
  · rw [const_mask hd B hN 0, hok]
    have h4 : 2 ^ bitsPerElem N ≤ 2 ^ W := Nat.pow_le_pow_right (by decide) hle
    have h5 := Nat.one_le_two_pow (n := bitsPerElem N)
    simp only [Except.map, Nat.mod_eq_of_lt (show 2 ^ bitsPerElem N - 1 < 2 ^ W by omega)]

/-- **C79** The constants of the model, which are those of the interpreter of C78, are the values of the texts; for any number of variants. -/
theorem C79_model {cs : List Const} (h : (c.W, cs) ∈ modules) (hN : c.E.num < c.build.usizeLim) (hc : c.Compiles) :
    constOf cs c.build c.E.num 4 .STORAGE_BLOCK_SIZE = some (.ok (.num .usize c.W)) ∧
    constOf cs c.build c.E.num 4 .BITS_PER_ELEM = some (.ok (.num .usize c.bits)) ∧
    constOf cs c.build c.E.num 4 .ELEMS_PER_BLOCK = some (.ok (.num .usize c.epb)) ∧
    constOf cs c.build c.E.num 4 .ELEMENT_MASK = some (.ok (.num .StorageBlock c.mask.toNat)) ∧
    constVal c .STORAGE_BLOCK_SIZE = some (.usz c.W) ∧ constVal c .BITS_PER_ELEM = some (.usz c.bits) ∧
    constVal c .ELEMS_PER_BLOCK = some (.usz c.epb) ∧ constVal c .ELEMENT_MASK = some (.blk c.mask) := by
  have hd := modules_declare h
  have hok : bitsConst c.build c.W c.E.num = .ok c.bits := (C30_compiles_iff hc.1).mp hc
  have hpos : 0 < c.bits := (bitsPerElem_rough _ hc.2.1).1
  refine ⟨const_size hd _ 3, ?_, ?_, ?_, rfl, rfl, rfl, rfl⟩
  · rw [const_bits hd _ hN 1, hok]; rfl
  · rw [const_elems hd _ hN 0, hok]
    simp only [Except.bind, if_neg (Nat.ne_of_gt hpos)]; rfl
  · rw [const_mask hd _ hN 0, hok]
    simp only [Except.map, Inst.mask, BitVec.toNat_ofNat]

/-- Every accepted width has a module. -/
theorem C79_modules (hc : c.Compiles) : ∃ cs, (c.W, cs) ∈ modules := by
  rcases hc.1 with h | h | h | h | h <;> rw [h] <;> simp [modules]

/-- The kernel evaluates the texts: 3-bit elements in blocks of 32 bits; a type with one variant; 257 variants in blocks of 8 bits. -/
example : constOf consts_vec_u32 release64 8 4 .ELEMENT_MASK = some (.ok (.num .StorageBlock 7)) ∧
    constOf consts_vec_u32 release64 8 4 .ELEMS_PER_BLOCK = some (.ok (.num .usize 10)) ∧
    constOf consts_vec_u64 release64 1 4 .BITS_PER_ELEM = some (.error .overflow) ∧
    constOf consts_vec_u8 debug64 257 4 .BITS_PER_ELEM = some (.error .overflow) ∧
    constOf consts_vec_u8 debug64 256 4 .ELEMENT_MASK = some (.ok (.num .StorageBlock 255)) := by decide +kernel

end EnumVecModel
