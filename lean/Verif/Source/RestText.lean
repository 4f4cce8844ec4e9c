import Verif.Source.Syntax

/-!
# The text of the rest

`Debug`, `Into<Vec>`, `storage()` and `storage_mut()` of `EnumVec`, copied from `enum_vec/src/vec_u32/mod.rs` by `tools/mksource.py`; the same in all six modules. With `Text.lean` these are
all functions of the file (`iter_mut`, its iterator and `Rem` are in comments).
-/

namespace EnumVecModel
namespace Source

set_option maxRecDepth 100000

-- vec_u32/mod.rs, lines 891-893
rust_fn f_fmt "    fn fmt(&self, f: &mut fmt::Formatter) -> fmt::Result {
        f.debug_list().entries(self.iter()).finish()
    }"

-- vec_u32/mod.rs, lines 945-947
rust_fn f_into "    fn into(self) -> Vec<T> {
        self.to_vec()
    }"

-- vec_u32/mod.rs, lines 700-702
rust_fn f_storage "    pub fn storage(&self) -> &Storage {
        &self.storage
    }"

-- vec_u32/mod.rs, lines 730-732
rust_fn f_storage_mut "    pub unsafe fn storage_mut(&mut self) -> &mut Storage {
        &mut self.storage
    }"

end Source
end EnumVecModel
