import Verif.History
import Verif.StorageApi

/-!
# Histories with unsafe calls

Programs that mix safe calls (`Op`) with the `unsafe` public methods `get_raw_unchecked`, `set_raw_unchecked`, `set_len` and `storage_mut`
(`enum_vec/src/vec_u32/mod.rs`, lines 437-439, 538-569, 700-732).
-/

namespace EnumVecModel
open EV

variable {α τ : Type}

/-- What a program can do with the `&mut Vec<StorageBlock>` it gets from `storage_mut()` (std). -/
inductive StorageOp (W : Nat)
  | push (w : BitVec W)
  | truncate (n : Nat)
  /-- `v[j] = w` -/
  | set (j : Nat) (w : BitVec W)
  | resize (n : Nat) (w : BitVec W)
  | extendFromSlice (ws : List (BitVec W))
  | reserve (n : Nat)
  | shrinkToFit

/-- A call that leaves the storage alone when it fails. -/
def orKeep {W : Nat} (v : RVec W) : Except Fault (RVec W) → Except Fault Unit × RVec W
  | .ok v' => (.ok (), v')
  | .error e => (.error e, v)

/-- One such call. -/
def StorageOp.run {W : Nat} (a : Alloc) : StorageOp W → M (RVec W) Unit
  | .push w, v => orKeep v (v.push a w)
  | .truncate n, v => (.ok (), v.truncate n)
  | .set j w, v => RVec.setIndex j w v
  | .resize n w, v => orKeep v (v.resize a n w)
  | .extendFromSlice ws, v => orKeep v (v.extendFromSlice a ws)
  | .reserve n, v => orKeep v (v.reserve a n)
  | .shrinkToFit, v => (.ok (), v.shrinkToFit a)

/-- A block of such calls, ended by the first panic. -/
def StorageOp.runAll {W : Nat} (a : Alloc) : List (StorageOp W) → M (RVec W) Unit
  | [] => pure ()
  | o :: os => do
    o.run a
    StorageOp.runAll a os

/-- A call, safe or not. -/
inductive UOp (W : Nat) (τ α : Type)
  | safe (op : Op τ α)
  /-- `r.get_raw_unchecked(i)` -/
  | getRaw (r i : Nat)
  /-- `r.set_raw_unchecked(i, d)` -/
  | setRaw (r i d : Nat)
  /-- `r.set_len(n)` -/
  | setLen (r n : Nat)
  /-- a block of calls on `r.storage_mut()` -/
  | storageMut (r : Nat) (ops : List (StorageOp W))

/-- One call. -/
def ustep (c : Inst α) (m : Mem c τ) : UOp c.W τ α → Out α × Mem c τ
  | .safe op => step c m op
  | .getRaw r i => m.call r (getRawUnchecked c i) .num
  | .setRaw r i d => m.call r (setRawUnchecked c i d) fun _ => .unit
  | .setLen r n => m.call r (EV.setLen c n) fun _ => .unit
  | .storageMut r ops => m.call r (EV.storageMut c (StorageOp.runAll c.alloc ops)) fun _ => .unit

/-- A history, continued after every panic. -/
def urun (c : Inst α) : List (UOp c.W τ α) → Mem c τ → List (Out α) × Mem c τ
  | [], m => ([], m)
  | o :: os, m => ((ustep c m o).1 :: (urun c os (ustep c m o).2).1, (urun c os (ustep c m o).2).2)

/-- The number of elements for which the vector has initialised storage: `storage().len()` blocks. -/
def slots (c : Inst α) (s : EV c.W) : Nat := (EV.storageRef c s).len * c.epb

/-- What the caller of an unsafe method must guarantee: raw accesses are inside the initialised storage (not necessarily below `len()`; any number may be written), `set_len` does not go
beyond it, and who edits the storage leaves enough blocks for `len()` elements ("shrinking the storage may lead to reading and writing uninitialized
memory", line 706). -/
def UOp.Contract (c : Inst α) (m : Mem c τ) : UOp c.W τ α → Prop
  | .safe _ => True
  | .getRaw r i => i < slots c (m.reg r)
  | .setRaw r i _ => i < slots c (m.reg r)
  | .setLen r n => n ≤ slots c (m.reg r)
  | .storageMut r ops => EV.len c (m.reg r) ≤ (StorageOp.runAll c.alloc ops (EV.storageRef c (m.reg r))).2.len * c.epb

/-- The variable of an unsafe call. -/
def UOp.var {W : Nat} : UOp W τ α → Option Nat
  | .safe _ => none
  | .getRaw r _ | .setRaw r _ _ | .setLen r _ | .storageMut r _ => some r

/-- Marks after a call: unsafe calls do not change them. -/
def umarks (c : Inst α) (k : Nat → Mark) (m : Mem c τ) : UOp c.W τ α → Nat → Mark
  | .safe op => runMarks c k m op
  | _ => k

/-- The call keeps the contract, its variable was not taken by an `append` (C15), and safe calls are as in C28. -/
def UOp.Use (c : Inst α) (k : Nat → Mark) (m : Mem c τ) (o : UOp c.W τ α) : Prop :=
  o.Contract c m ∧ (∀ r, o.var = some r → k r ≠ .dead) ∧
  match o with
  | .safe op => SafeUse c k m op
  | _ => True

/-- All calls of a history are used that way. -/
def UAlong (c : Inst α) : List (UOp c.W τ α) → (Nat → Mark) → Mem c τ → Prop
  | [], _, _ => True
  | o :: os, k, m => o.Use c k m ∧ UAlong c os (umarks c k m o) (ustep c m o).2

/-- The marks at the end. -/
def umarksAll (c : Inst α) : List (UOp c.W τ α) → (Nat → Mark) → Mem c τ → Nat → Mark
  | [], k, _ => k
  | o :: os, k, m => umarksAll c os (umarks c k m o) (ustep c m o).2

instance (c : Inst α) (m : Mem c τ) (o : UOp c.W τ α) : Decidable (o.Contract c m) := by
  cases o <;> simp only [UOp.Contract] <;> infer_instance

instance (c : Inst α) (k : Nat → Mark) (m : Mem c τ) (o : UOp c.W τ α) : Decidable (o.Use c k m) := by
  unfold UOp.Use
  refine @instDecidableAnd _ _ inferInstance (@instDecidableAnd _ _ ?_ ?_)
  · rcases h : o.var with _ | r
    · exact .isTrue (fun _ h => by cases h)
    · exact decidable_of_iff (k r ≠ .dead) ⟨fun g _ e => by cases e; exact g, fun g => g r rfl⟩
  · cases o <;> infer_instance

instance UAlong.dec (c : Inst α) : ∀ (os : List (UOp c.W τ α)) (k : Nat → Mark) (m : Mem c τ), Decidable (UAlong c os k m)
  | [], _, _ => .isTrue trivial
  | o :: os, k, m =>
    have := UAlong.dec c os (umarks c k m o) (ustep c m o).2
    inferInstanceAs (Decidable (_ ∧ _))

end EnumVecModel
