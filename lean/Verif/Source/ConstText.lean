import Verif.Source.Syntax

/-!
# The text of the constants

The constants of the six modules, copied from `enum_vec/src/*/mod.rs` by `tools/mksource.py`. Those of `smallvec_u32` are those of `vec_u32`.
-/

namespace EnumVecModel
namespace Source

set_option maxRecDepth 100000

-- vec_u8/mod.rs, lines 9-9
rust_const k_block_u8 "type StorageBlock = u8;"

-- vec_u8/mod.rs, lines 11-11
rust_const k_size_u8 "const STORAGE_BLOCK_SIZE: usize = 8;"

-- vec_u8/mod.rs, lines 36-69
rust_const k_bits_u8 "    const BITS_PER_ELEM: usize = (T::NUM_VARIANTS > (1 << 0)) as usize
        + (T::NUM_VARIANTS > (1 << 1)) as usize
        + (T::NUM_VARIANTS > (1 << 2)) as usize
        + (T::NUM_VARIANTS > (1 << 3)) as usize
        + (T::NUM_VARIANTS > (1 << 4)) as usize
        + (T::NUM_VARIANTS > (1 << 5)) as usize
        + (T::NUM_VARIANTS > (1 << 6)) as usize
        + (T::NUM_VARIANTS > (1 << 7)) as usize
        + (T::NUM_VARIANTS > (1 << 8)) as usize
        + (T::NUM_VARIANTS > (1 << 9)) as usize
        + (T::NUM_VARIANTS > (1 << 10)) as usize
        + (T::NUM_VARIANTS > (1 << 11)) as usize
        + (T::NUM_VARIANTS > (1 << 12)) as usize
        + (T::NUM_VARIANTS > (1 << 13)) as usize
        + (T::NUM_VARIANTS > (1 << 14)) as usize
        + (T::NUM_VARIANTS > (1 << 15)) as usize
        + (T::NUM_VARIANTS > (1 << 16)) as usize
        + (T::NUM_VARIANTS > (1 << 17)) as usize
        + (T::NUM_VARIANTS > (1 << 18)) as usize
        + (T::NUM_VARIANTS > (1 << 19)) as usize
        + (T::NUM_VARIANTS > (1 << 20)) as usize
        + (T::NUM_VARIANTS > (1 << 21)) as usize
        + (T::NUM_VARIANTS > (1 << 22)) as usize
        + (T::NUM_VARIANTS > (1 << 23)) as usize
        + (T::NUM_VARIANTS > (1 << 24)) as usize
        + (T::NUM_VARIANTS > (1 << 25)) as usize
        + (T::NUM_VARIANTS > (1 << 26)) as usize
        + (T::NUM_VARIANTS > (1 << 27)) as usize
        + (T::NUM_VARIANTS > (1 << 28)) as usize
        + (T::NUM_VARIANTS > (1 << 29)) as usize
        + (T::NUM_VARIANTS > (1 << 30)) as usize
        + (T::NUM_VARIANTS > (1 << 31)) as usize
        + Self::ERROR_TOO_MANY_VARIANTS
        + Self::ERROR_ZERO_SIZED;"

-- vec_u8/mod.rs, lines 71-71
rust_const k_many_u8 "    const ERROR_TOO_MANY_VARIANTS: usize = 0 /*Error: this type has too many variants for this storage, try using enum_vec::vec_u64::EnumVec*/ - ((T::NUM_VARIANTS as u64 > (1 << STORAGE_BLOCK_SIZE) ) as usize);"

-- vec_u8/mod.rs, lines 74-76
rust_const k_zero_u8 "    const ERROR_ZERO_SIZED: usize = 0
        // Error: cannot use EnumVec for zero-sized types
        - ((T::NUM_VARIANTS <= 1) as usize);"

-- vec_u8/mod.rs, lines 81-81
rust_const k_elems_u8 "    const ELEMS_PER_BLOCK: usize = STORAGE_BLOCK_SIZE / Self::BITS_PER_ELEM;"

-- vec_u8/mod.rs, lines 83-83
rust_const k_mask_u8 "    const ELEMENT_MASK: StorageBlock = ((1u64 << Self::BITS_PER_ELEM) - 1) as StorageBlock;"

-- vec_u16/mod.rs, lines 9-9
rust_const k_block_u16 "type StorageBlock = u16;"

-- vec_u16/mod.rs, lines 11-11
rust_const k_size_u16 "const STORAGE_BLOCK_SIZE: usize = 16;"

-- vec_u32/mod.rs, lines 9-9
rust_const k_block_u32 "type StorageBlock = u32;"

-- vec_u32/mod.rs, lines 11-11
rust_const k_size_u32 "const STORAGE_BLOCK_SIZE: usize = 32;"

-- vec_u64/mod.rs, lines 9-9
rust_const k_block_u64 "type StorageBlock = u64;"

-- vec_u64/mod.rs, lines 11-11
rust_const k_size_u64 "const STORAGE_BLOCK_SIZE: usize = 64;"

-- vec_u64/mod.rs, lines 36-69
rust_const k_bits_u64 "    const BITS_PER_ELEM: usize = (T::NUM_VARIANTS > (1 << 0)) as usize
        + (T::NUM_VARIANTS > (1 << 1)) as usize
        + (T::NUM_VARIANTS > (1 << 2)) as usize
        + (T::NUM_VARIANTS > (1 << 3)) as usize
        + (T::NUM_VARIANTS > (1 << 4)) as usize
        + (T::NUM_VARIANTS > (1 << 5)) as usize
        + (T::NUM_VARIANTS > (1 << 6)) as usize
        + (T::NUM_VARIANTS > (1 << 7)) as usize
        + (T::NUM_VARIANTS > (1 << 8)) as usize
        + (T::NUM_VARIANTS > (1 << 9)) as usize
        + (T::NUM_VARIANTS > (1 << 10)) as usize
        + (T::NUM_VARIANTS > (1 << 11)) as usize
        + (T::NUM_VARIANTS > (1 << 12)) as usize
        + (T::NUM_VARIANTS > (1 << 13)) as usize
        + (T::NUM_VARIANTS > (1 << 14)) as usize
        + (T::NUM_VARIANTS > (1 << 15)) as usize
        + (T::NUM_VARIANTS > (1 << 16)) as usize
        + (T::NUM_VARIANTS > (1 << 17)) as usize
        + (T::NUM_VARIANTS > (1 << 18)) as usize
        + (T::NUM_VARIANTS > (1 << 19)) as usize
        + (T::NUM_VARIANTS > (1 << 20)) as usize
        + (T::NUM_VARIANTS > (1 << 21)) as usize
        + (T::NUM_VARIANTS > (1 << 22)) as usize
        + (T::NUM_VARIANTS > (1 << 23)) as usize
        + (T::NUM_VARIANTS > (1 << 24)) as usize
        + (T::NUM_VARIANTS > (1 << 25)) as usize
        + (T::NUM_VARIANTS > (1 << 26)) as usize
        + (T::NUM_VARIANTS > (1 << 27)) as usize
        + (T::NUM_VARIANTS > (1 << 28)) as usize
        + (T::NUM_VARIANTS > (1 << 29)) as usize
        + (T::NUM_VARIANTS > (1 << 30)) as usize
        + (T::NUM_VARIANTS > (1 << 31)) as usize
        //+ Self::ERROR_TOO_MANY_VARIANTS
        + Self::ERROR_ZERO_SIZED;"

-- vec_u128/mod.rs, lines 9-9
rust_const k_block_u128 "type StorageBlock = u128;"

-- vec_u128/mod.rs, lines 11-11
rust_const k_size_u128 "const STORAGE_BLOCK_SIZE: usize = 128;"

/-- The constants of `vec_u8`. -/
def consts_vec_u8 : List Const := [k_block_u8, k_size_u8, k_bits_u8, k_many_u8, k_zero_u8, k_elems_u8, k_mask_u8]

/-- The constants of `vec_u16`. -/
def consts_vec_u16 : List Const := [k_block_u16, k_size_u16, k_bits_u8, k_many_u8, k_zero_u8, k_elems_u8, k_mask_u8]

/-- The constants of `vec_u32`. -/
def consts_vec_u32 : List Const := [k_block_u32, k_size_u32, k_bits_u8, k_many_u8, k_zero_u8, k_elems_u8, k_mask_u8]

/-- The constants of `smallvec_u32`. -/
def consts_smallvec_u32 : List Const := [k_block_u32, k_size_u32, k_bits_u8, k_many_u8, k_zero_u8, k_elems_u8, k_mask_u8]

/-- The constants of `vec_u64`. -/
def consts_vec_u64 : List Const := [k_block_u64, k_size_u64, k_bits_u64, k_zero_u8, k_elems_u8, k_mask_u8]

/-- The constants of `vec_u128`. -/
def consts_vec_u128 : List Const := [k_block_u128, k_size_u128, k_bits_u64, k_zero_u8, k_elems_u8, k_mask_u8]

end Source
end EnumVecModel
