import Verif.Access

/-!
# What it means to access only some blocks

About the methods themselves, without any log. A call accesses only the blocks `K` if it leaves all others as they are (or drops them with the end of the storage), and
neither its result nor what it does to the blocks `K`, to the length, the number of blocks and the capacity depends on the others.
-/

namespace EnumVecModel
open EV
variable {α τ β : Type} {W : Nat}

/-- Two vectors that differ at most in blocks outside `K`. -/
structure SameOn (K : Nat → Prop) (s u : EV W) : Prop where
  len : s.num = u.num
  cap : s.storage.cap = u.storage.cap
  blocks : s.storage.data.length = u.storage.data.length
  block : ∀ k, K k → s.storage.data[k]? = u.storage.data[k]?

/-- The blocks outside `K` are as before, up to the end of the storage. -/
def Keeping (K : Nat → Prop) (s s' : EV W) : Prop := ∀ k, ¬ K k → s'.storage.data[k]? = s.storage.data[k]? ∨ s'.storage.data[k]? = none

/-- The call `m` on `s` accesses only the blocks `K`. -/
structure Touches (K : Nat → Prop) (m : M (EV W) β) (s : EV W) : Prop where
  writes : Keeping K s (m s).2
  reads : ∀ u, SameOn K s u → (m u).1 = (m s).1 ∧ SameOn K (m s).2 (m u).2

/-- The same for a call that also runs the user's code; `t` is the state of the user's program. -/
structure TouchesWith (K : Nat → Prop) (m : M (EV W × τ) β) (s : EV W) (t : τ) : Prop where
  writes : Keeping K s (m (s, t)).2.1
  reads : ∀ u, SameOn K s u → (m (u, t)).1 = (m (s, t)).1 ∧ (m (u, t)).2.2 = (m (s, t)).2.2 ∧ SameOn K (m (s, t)).2.1 (m (u, t)).2.1

/-- The same for a call on two vectors: blocks `K` of the first, blocks `L` of the second. -/
structure Touches2 (K L : Nat → Prop) (m : M (EV W × EV W) β) (s t : EV W) : Prop where
  writes : Keeping K s (m (s, t)).2.1 ∧ Keeping L t (m (s, t)).2.2
  reads : ∀ u v, SameOn K s u → SameOn L t v → (m (u, v)).1 = (m (s, t)).1 ∧ SameOn K (m (s, t)).2.1 (m (u, v)).2.1 ∧ SameOn L (m (s, t)).2.2 (m (u, v)).2.2

/-- The block of the element at `i`. -/
def Inst.blockOf (c : Inst α) (i : Nat) : Nat := i / c.epb

/-- The blocks that hold the first `n` elements. -/
def Inst.blocksOf (c : Inst α) (n : Nat) (k : Nat) : Prop := ∃ i, i < n ∧ c.blockOf i = k

/-- The accesses of a call, one after the other: the index of the block for each. -/
def accesses (m : M (LV W) β) (s : EV W) : List Nat := (m (s, [])).2.2

/-- The same for a call that also runs the user's code. -/
def accessesWith (m : M (LV W × τ) β) (s : EV W) (t : τ) : List Nat := (m ((s, []), t)).2.1.2

/-- The same for a call on two vectors. -/
def accesses2 (m : M (LV W × LV W) β) (s t : EV W) : List Nat × List Nat := ((m ((s, []), (t, []))).2.1.2, (m ((s, []), (t, []))).2.2.2)

/-- The logged call `m` is the call `m0`, and the log misses nothing. -/
structure Logs (m : M (LV W) β) (m0 : M (EV W) β) (s : EV W) : Prop where
  same : m0 s = ((m (s, [])).1, (m (s, [])).2.1)
  complete : Touches (fun k => k ∈ accesses m s) m0 s

structure LogsWith (m : M (LV W × τ) β) (m0 : M (EV W × τ) β) (s : EV W) (t : τ) : Prop where
  same : m0 (s, t) = ((m ((s, []), t)).1, ((m ((s, []), t)).2.1.1, (m ((s, []), t)).2.2))
  complete : TouchesWith (fun k => k ∈ accessesWith m s t) m0 s t

structure Logs2 (m : M (LV W × LV W) β) (m0 : M (EV W × EV W) β) (s t : EV W) : Prop where
  same : m0 (s, t) = ((m ((s, []), (t, []))).1, ((m ((s, []), (t, []))).2.1.1, (m ((s, []), (t, []))).2.2.1))
  complete : Touches2 (fun k => k ∈ (accesses2 m s t).1) (fun k => k ∈ (accesses2 m s t).2) m0 s t

/-- A pure function of a vector as a call. -/
def M.ofPure (f : EV W → Except Fault β) : M (EV W) β := fun s => (f s, s)

def M.ofPure2 (f : EV W → EV W → Except Fault β) : M (EV W × EV W) β := fun s => (f s.1 s.2, s)

/-- A call on an iterator as a call on the vector and the range of indices it still has to deliver. -/
def M.ofIt (m : M (It W) β) : M (EV W × (Nat × Nat)) β := fun p =>
  ((m ⟨p.1, p.2.1, p.2.2⟩).1, ((m ⟨p.1, p.2.1, p.2.2⟩).2.v, ((m ⟨p.1, p.2.1, p.2.2⟩).2.lo, (m ⟨p.1, p.2.1, p.2.2⟩).2.hi)))

end EnumVecModel
