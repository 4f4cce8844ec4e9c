import Verif.History

/-!
# Histories with a changing allocator that continue after failed allocations

A real allocator has state: the same request may be granted once and refused later. Here every call of a history is made
with its own allocator, so a history is a list of pairs. (Within one call a function of the request is general enough: `C67_call`.) And a program may catch the panic of a failed allocation and go on.
-/

namespace EnumVecModel
open EV

variable {α τ : Type}

/-- One call on `EnumVec`s, made with the given allocator. -/
def stepWith (c : Inst α) (m : Mem c τ) (a : Alloc) (op : Op τ α) : Out α × Mem c τ :=
  let p := step (c.withAlloc a) (⟨m.reg, m.world⟩ : Mem (c.withAlloc a) τ) op
  (p.1, ⟨p.2.reg, p.2.world⟩)

/-- A history on `EnumVec`s, continued after every panic and failed allocation. -/
def runWith (c : Inst α) : List (Alloc × Op τ α) → Mem c τ → List (Out α) × Mem c τ
  | [], m => ([], m)
  | (a, o) :: os, m =>
    ((stepWith c m a o).1 :: (runWith c os (stepWith c m a o).2).1, (runWith c os (stepWith c m a o).2).2)

/-- What a call that fails for lack of memory may have done, on `Vec`s: `extend` and `resize` may have appended the first
of the new elements, all other calls have no effect. -/
def OomEffect (v : Vecs α τ) (op : Op τ α) (v' : Vecs α τ) : Prop :=
  match op with
  | .extend r it => ∃ n, v' = { v with reg := upd v.reg r (v.reg r ++ it.items.take n) }
  | .resize r n x => ∃ k, k ≤ n - (v.reg r).length ∧ v' = { v with reg := upd v.reg r (v.reg r ++ List.replicate k x) }
  | _ => v' = v

/-- The marks (see `Mark`) after a call that failed for lack of memory. -/
def oomMarks (c : Inst α) (k : Nat → Mark) (v : Vecs α τ) (op : Op τ α) : Nat → Mark :=
  match op with
  | .resize _ _ _ => marks c k v op
  | _ => k

/-- The history of `EnumVec`s from `m` is explained by a history of `Vec`s from `v`: now and after every call the
contents of all variables that are not dead agree, and as long as calls are `Allowed`, every call returns what `Vec`
returns and does what `Vec` does, or it fails because the allocator of this call refused a request, and then it had no
effect (but see `OomEffect`). Nothing is claimed from the first call on that is not `Allowed`. -/
def Explained (c : Inst α) [DecidableEq α] : List (Alloc × Op τ α) → (Nat → Mark) → Mem c τ → Vecs α τ → Prop
  | [], k, m, v => m.world = v.world ∧ ∀ r, k r ≠ .dead → Is c (m.reg r) (v.reg r)
  | (a, op) :: os, k, m, v =>
    (m.world = v.world ∧ ∀ r, k r ≠ .dead → Is c (m.reg r) (v.reg r)) ∧
    (Allowed c k v op →
      ((stepWith c m a op).1 = (vecStep c.E v op).1 ∧ (stepWith c m a op).1 ≠ .oom ∧
        Explained c os (marks c k v op) (stepWith c m a op).2 (vecStep c.E v op).2) ∨
      ((stepWith c m a op).1 = .oom ∧ OomReason (c.withAlloc a) ⟨m.reg, m.world⟩ op ∧
        ∃ v', OomEffect v op v' ∧ Explained c os (oomMarks c k v op) (stepWith c m a op).2 v'))

/-- All calls of a history satisfy `P`, which may depend on the marks and the state (compare `Along`). -/
def AlongWith (c : Inst α) (P : (d : Inst α) → (Nat → Mark) → Mem d τ → Op τ α → Prop) :
    List (Alloc × Op τ α) → (Nat → Mark) → Mem c τ → Prop
  | [], _, _ => True
  | (a, o) :: os, k, m =>
    P (c.withAlloc a) k ⟨m.reg, m.world⟩ o ∧
      AlongWith c P os (runMarks (c.withAlloc a) k ⟨m.reg, m.world⟩ o) (stepWith c m a o).2

/-- The marks after a history (compare `runMarksAll`). -/
def runMarksWith (c : Inst α) : List (Alloc × Op τ α) → (Nat → Mark) → Mem c τ → Nat → Mark
  | [], k, _ => k
  | (a, o) :: os, k, m => runMarksWith c os (runMarks (c.withAlloc a) k ⟨m.reg, m.world⟩ o) (stepWith c m a o).2

instance AlongWith.dec (c : Inst α) (P : (d : Inst α) → (Nat → Mark) → Mem d τ → Op τ α → Prop)
    [∀ d k m o, Decidable (P d k m o)] :
    ∀ (os : List (Alloc × Op τ α)) (k : Nat → Mark) (m : Mem c τ), Decidable (AlongWith c P os k m)
  | [], _, _ => .isTrue trivial
  | (a, o) :: os, k, m =>
    have := AlongWith.dec c P os (runMarks (c.withAlloc a) k ⟨m.reg, m.world⟩ o) (stepWith c m a o).2
    inferInstanceAs (Decidable (_ ∧ _))

end EnumVecModel
