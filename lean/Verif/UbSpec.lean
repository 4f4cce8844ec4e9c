import Verif.Unsafe

/-!
# Exactly which calls are undefined behaviour

For all vectors, also those whose storage is too short for their length (after `append`, `set_len`, editing the storage).
-/

namespace EnumVecModel
open EV

variable {α τ : Type}

/-- Any `EnumVec` a program can have, well-formed or not: the length is a `usize`, the storage is a `Vec` that fits in memory
(`Alloc.Bounded`). Nothing relates the two. -/
structure Real (c : Inst α) (s : EV c.W) : Prop where
  lenLt : EV.len c s < c.build.usizeLim
  capLen : s.storage.data.length ≤ s.storage.cap
  capBound : (s.storage.cap + 1) * c.epb + 4 < c.build.usizeLim

/-- The storage is too short for the length. -/
def Short (c : Inst α) (s : EV c.W) : Prop := slots c s < EV.len c s

/-- The number stored at `i`. -/
def number (c : Inst α) (s : EV c.W) (i : Nat) : Nat :=
  match EV.rawUnchecked c s i with
  | .ok d => d
  | .error _ => 0

/-- The numbers in the storage, all of them. -/
def numbers (c : Inst α) (s : EV c.W) : List Nat := (List.range (slots c s)).map (number c s)

/-- The number at `i` is the number of a value. -/
def ReadsAt (c : Inst α) (s : EV c.W) (i : Nat) : Prop := (c.E.fromDiscr (number c s i)).isSome

/-- The numbers are those of values, and a closure called on these in order does not panic. -/
def Completes (c : Inst α) {β : Type} (f : Closure τ α β) : List Nat → τ → Prop
  | [], _ => True
  | d :: ds, t => ∃ x y t', c.E.fromDiscr d = some x ∧ f x t = (some y, t') ∧ Completes c f ds t'

/-- The positions an iterator visits. -/
def visited (n : Nat) (calls : List IterOp) : List Nat :=
  (iterSpecRun calls (List.range n)).1.filterMap fun
    | .item i => i
    | .hint _ _ => none

/-- The exact condition under which a safe call is undefined behaviour. Calls not listed never are. -/
def Op.Ub (c : Inst α) (m : Mem c τ) : Op τ α → Prop
  | .get r i | .set r i _ => i < EV.len c (m.reg r) ∧ slots c (m.reg r) ≤ i
  | .push r _ | .pop r | .insert r _ _ | .hash r => Short c (m.reg r)
  | .remove r i => i < EV.len c (m.reg r) ∧ Short c (m.reg r) ∧ (i < slots c (m.reg r) → ReadsAt c (m.reg r) i)
  | .swapRemove r i => i < EV.len c (m.reg r) ∧ Short c (m.reg r)
  | .swap r i j => i < EV.len c (m.reg r) ∧ (slots c (m.reg r) ≤ i ∨ j < EV.len c (m.reg r) ∧ slots c (m.reg r) ≤ j)
  -- the argument is read, unless its blocks are taken over as a whole
  | .append r o => EV.len c (m.reg r) % c.epb ≠ 0 ∧ Short c (m.reg o)
  | .splitOff r at_ _ => at_ < EV.len c (m.reg r)
  -- `reserve` has dropped all blocks (see C66), and there is something to write
  | .extend r it => c.Drops (EV.len c (m.reg r) + it.hint) ∧ it.items ≠ []
  | .fromIter _ it => c.Drops it.hint ∧ it.items ≠ []
  | .fromVec _ xs | .fromSlice _ xs => c.Drops xs.length ∧ xs ≠ []
  -- on a vector of almost `usize::MAX` elements, which has to be broken
  | .resize r n _ => EV.len c (m.reg r) < n ∧ n ≤ EV.len c (m.reg r) + 4 ∧ c.Drops n
  | .retain r f => Short c (m.reg r) ∧ Completes c f (numbers c (m.reg r)) m.world
  | .forEach r f => Short c (m.reg r) ∧ Completes c f (numbers c (m.reg r)) m.world
  | .toVec r => Short c (m.reg r) ∧ ∀ d ∈ numbers c (m.reg r), (c.E.fromDiscr d).isSome
  -- the first difference ends the comparison
  | .eq r o => EV.len c (m.reg r) = EV.len c (m.reg o) ∧ (Short c (m.reg r) ∨ Short c (m.reg o)) ∧
      ∀ i, i < slots c (m.reg r) → i < slots c (m.reg o) → number c (m.reg r) i = number c (m.reg o) i
  | .iterate r calls => ∃ pre i post, visited (EV.len c (m.reg r)) calls = pre ++ i :: post ∧ slots c (m.reg r) ≤ i ∧
      ∀ j ∈ pre, j < slots c (m.reg r) ∧ ReadsAt c (m.reg r) j
  | _ => False

/-- The same for all calls. -/
def UOp.Ub (c : Inst α) (m : Mem c τ) : UOp c.W τ α → Prop
  | .safe op => op.Ub c m
  | .getRaw r i | .setRaw r i _ => slots c (m.reg r) ≤ i
  | .setLen _ _ | .storageMut _ _ => False

/-- The program compiles: borrows are right and lengths are `usize`s. -/
def UOp.WellTyped (c : Inst α) : UOp c.W τ α → Prop
  | .safe (.resize _ n _) | .setLen _ n => n < c.build.usizeLim
  | .safe op => op.Borrows
  | _ => True

/-- The call reads elements after it has written others. (For these calls the theorem needs that what `to_discr` returns has
room in an element: otherwise writing an element changes the next one.) -/
def UOp.Edits {W : Nat} : UOp W τ α → Prop
  | .safe (.retain _ _) | .safe (.forEach _ _) => True
  | _ => False

instance Completes.dec (c : Inst α) {β : Type} (f : Closure τ α β) : ∀ (ds : List Nat) (t : τ), Decidable (Completes c f ds t)
  | [], _ => .isTrue trivial
  | d :: ds, t =>
    match hd : c.E.fromDiscr d with
    | none => .isFalse (by rintro ⟨x, _, _, h, _⟩; rw [hd] at h; cases h)
    | some x =>
      match hf : f x t with
      | (none, _) => .isFalse (by rintro ⟨x', _, _, h, h', _⟩; rw [hd] at h; cases h; rw [hf] at h'; cases h')
      | (some y, t') =>
        match Completes.dec c f ds t' with
        | .isTrue h => .isTrue ⟨x, y, t', hd, hf, h⟩
        | .isFalse h => .isFalse (by rintro ⟨x', _, _, h1, h2, h3⟩; rw [hd] at h1; cases h1; rw [hf] at h2; cases h2; exact h h3)

end EnumVecModel
