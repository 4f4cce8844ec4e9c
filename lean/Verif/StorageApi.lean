import Verif.EnumVec

/-!
# Access to the storage (`enum_vec/src/vec_u32/mod.rs`, lines 700-732)
-/

namespace EnumVecModel
namespace EV
variable {α : Type} (c : Inst α)

/-- `storage` (lines 700-702). -/
def storageRef (s : EV c.W) : RVec c.W := s.storage

/-- `storage_mut` (lines 730-732) together with what the caller does through the reference it gets: `f` is any function of the
storage, which may fail. -/
def storageMut {β : Type} (f : M (RVec c.W) β) : M (EV c.W) β := fun s => ((f s.storage).1, { s with storage := (f s.storage).2 })

end EV

namespace RVec
variable {W : Nat}

/-- `v[j] = w` for a `Vec` (std): panics when out of bounds. -/
def setIndex (j : Nat) (w : BitVec W) : M (RVec W) Unit := fun v =>
  if j < v.len then (.ok (), { v with data := v.data.set j w }) else (.error .index, v)

/-- `v.resize(n, w)` called by a user (std), see `RVec.resize`. When memory is refused `v` is unchanged. -/
def resizeTo (a : Alloc) (n : Nat) (w : BitVec W) : M (RVec W) Unit := fun v =>
  match v.resize a n w with
  | .ok v' => (.ok (), v')
  | .error e => (.error e, v)

end RVec
end EnumVecModel
