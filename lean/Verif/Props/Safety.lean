import Verif.Lemmas.SafeHistory
import Verif.Examples

/-! # Memory safety of histories (C28) -/

namespace EnumVecModel
open EV

variable {α τ : Type} {c : Inst α}

theorem runAll_safe {strict : Prop} (hc : c.Fits strict) : ∀ (ops : List (Op τ α)) {k : Nat → Mark} {m : Mem c τ}, SafeMem c k m →
    Along c (SafeUse c) ops k m →
    .ub ∉ (runAll c ops m).1 ∧ SafeMem c (runMarksAll c ops k m) (runAll c ops m).2
  | [], _, _, h, _ => ⟨by simp [runAll], h⟩
  | o :: os, k, m, h, ha => by
    obtain ⟨h1, h2⟩ := step_safe hc h o ha.1
    obtain ⟨h3, h4⟩ := runAll_safe hc os h2 ha.2
    refine ⟨?_, h4⟩
    simp only [runAll, List.mem_cons, not_or]
    exact ⟨fun h => h1 h.symm, h3⟩

theorem start_safe {strict : Prop} (hc : c.Fits strict) (w : τ) : SafeMem c (fun _ => .clean) (Mem.start c w) := fun _ => new_safe hc

/-- **C28 (partial)** In a history of safe calls none has undefined behaviour (i.e. accesses storage outside its
initialised part), although the program continues after every panic, also of closures, iterators and allocation, and
although elements may be garbage (C06, C08); provided that no variable is used whose storage was taken by an `append`
(C15), `split_off` is not called below the length (C16), and, in release builds with one element per block, no call reserves
`usize::MAX` elements altogether (C66). All other variables stay well-formed.

Nothing is assumed of the implementation of `EnumLike` (`Inst.Sound`), although the trait is `unsafe`: `to_discr` may return
numbers beyond `NUM_VARIANTS`, `from_discr` may fail, and there may be more than 2^32 variants (C30).

Full claim: without the proviso. It is false: `C28_append_ub`, `C28_split_off_ub`, `C28_reserve_ub`. `Sound` also excludes vectors of 2^32 elements or more on 32-bit targets;
without that it is false, too: `C28_limit_ub`. -/
theorem C28_memory_safety_partial (hc : c.Sound) (w : τ) (ops : List (Op τ α))
    (ha : Along c (SafeUse c) ops (fun _ => .clean) (Mem.start c w)) :
    .ub ∉ (runAll c ops (Mem.start c w)).1 ∧
    ∀ r, runMarksAll c ops (fun _ => .clean) (Mem.start c w) r ≠ .dead →
      Safe c ((runAll c ops (Mem.start c w)).2.reg r) := by
  obtain ⟨h1, h2⟩ := runAll_safe hc ops (start_safe hc w) ha
  exact ⟨h1, fun r hr => (h2 r).safe hr⟩

/-- **C28 (partial)** The same from any well-formed state, whatever bits the storage holds. -/
theorem C28_from_partial (hc : c.Sound) {m : Mem c τ} (hm : ∀ r, Safe c (m.reg r)) (ops : List (Op τ α))
    (ha : Along c (SafeUse c) ops (fun _ => .clean) m) :
    .ub ∉ (runAll c ops m).1 ∧
    ∀ r, runMarksAll c ops (fun _ => .clean) m r ≠ .dead → Safe c ((runAll c ops m).2.reg r) := by
  obtain ⟨h1, h2⟩ := runAll_safe hc ops (k := fun _ => .clean) hm ha
  exact ⟨h1, fun r hr => (h2 r).safe hr⟩

/-- The call is no `split_off`, with `Vec` storage no `append` (and passes the borrow checker), and not, in release builds with one element per
block, one of those that may reserve `usize::MAX` elements. -/
def Op.Tame (c : Inst α) : Op τ α → Prop
  | .reserve _ _ | .extend _ _ => c.build.checked = true ∨ 1 < c.epb
  | .fromIter _ it => ¬ c.Drops it.hint
  | .fromVec _ xs | .fromSlice _ xs => ¬ c.Drops xs.length
  | .splitOff _ _ _ => False
  | .append r o => c.small = true ∧ r ≠ o
  | _ => True

theorem along_tame : ∀ (ops : List (Op τ α)) (k : Nat → Mark) (m : Mem c τ), (∀ op ∈ ops, op.Tame c) →
    (∀ r, k r ≠ .dead) → Along c (SafeUse c) ops k m ∧ ∀ r, runMarksAll c ops k m r ≠ .dead
  | [], _, _, _, hk => ⟨trivial, hk⟩
  | o :: os, k, m, ht, hk => by
    have h0 : SafeUse c k m o ∧ ∀ r, runMarks c k m o r ≠ .dead := by
      have h0 := ht o (by simp)
      have hu : ∀ (r : Nat) (q : Mark), q ≠ .dead → ∀ i, upd k r q i ≠ .dead := fun r q hq i => by
        unfold upd; split
        · exact hq
        · exact hk i
      have hi : ∀ (p : Prop) [Decidable p] (r : Nat) (q : Mark), q ≠ .dead → ∀ i, (if p then upd k r q else k) i ≠ .dead :=
        fun p _ r q hq i => by
          split
          · exact hu r q hq i
          · exact hk i
      have hs : c.soil .clean ≠ .dead := soil_ne nofun
      have hd : c.build.checked = true ∨ 1 < c.epb → ∀ n, ¬ c.Drops n := by
        rintro (h1 | h1) n ⟨h2, h3, -⟩
        · rw [h1] at h2; cases h2
        · omega
      cases o with
      | splitOff r a d => exact h0.elim
      | append r o =>
        obtain ⟨h1, h2⟩ := h0
        refine ⟨⟨h2, fun _ i _ => hk i, trivial⟩, fun i => ?_⟩
        simp only [runMarks, h1, true_or, if_true]
        split
        · unfold upd; split
          · exact hk _
          · split
            · split
              · exact hk _
              · nofun
            · exact hk _
        · exact hk i
      | new r => exact ⟨⟨trivial, fun _ i _ => hk i, trivial⟩, hu r .clean nofun⟩
      | withCapacity r => exact ⟨⟨trivial, fun _ i _ => hk i, trivial⟩, hi _ r .clean nofun⟩
      | fromVec r => exact ⟨⟨trivial, fun _ i _ => hk i, h0⟩, hi _ r .clean nofun⟩
      | fromSlice r => exact ⟨⟨trivial, fun _ i _ => hk i, h0⟩, hi _ r .clean nofun⟩
      | reserve r n => exact ⟨⟨trivial, fun _ i _ => hk i, hd h0 _⟩, hk⟩
      | extend r it => exact ⟨⟨trivial, fun _ i _ => hk i, hd h0 _⟩, hk⟩
      | fromIter r => exact ⟨⟨trivial, fun _ i _ => hk i, h0⟩, hi _ r .clean nofun⟩
      | fromElem r x n =>
        refine ⟨⟨trivial, fun _ i _ => hk i, trivial⟩, hi _ r _ ?_⟩
        split
        · nofun
        · exact hs
      | clone r s => exact ⟨⟨trivial, fun _ i _ => hk i, trivial⟩, hi _ r _ (hk s)⟩
      | insert r i x =>
        refine ⟨⟨trivial, fun _ i _ => hk i, trivial⟩, fun j => ?_⟩
        simp only [runMarks]
        split
        · exact hk j
        · exact hu r _ (soil_ne (hk r)) j
      | resize r n x =>
        refine ⟨⟨trivial, fun _ i _ => hk i, trivial⟩, fun j => ?_⟩
        simp only [runMarks]
        split
        · exact hk j
        · exact hu r _ (soil_ne (hk r)) j
      | clear r => exact ⟨⟨trivial, fun _ i _ => hk i, trivial⟩, hi _ r .clean nofun⟩
      | truncate r n =>
        cases n with
        | zero => exact ⟨⟨trivial, fun _ i _ => hk i, trivial⟩, hi _ r .clean nofun⟩
        | succ n => exact ⟨⟨trivial, fun _ i _ => hk i, trivial⟩, hk⟩
      | _ => exact ⟨⟨trivial, fun _ i _ => hk i, trivial⟩, hk⟩
    obtain ⟨h1, h2⟩ := along_tame os (runMarks c k m o) (step c m o).2 (fun op h => ht op (by simp [h])) h0.2
    exact ⟨⟨h0.1, h1⟩, h2⟩

/-- **C28 (partial)** The proviso is met by every program that does not call `split_off`, and calls `append` only
on `SmallVec` storage (and, in release builds with one element per block, avoids what `Op.Tame` says): whatever else it calls, with whatever arguments, no call has undefined behaviour and all
variables stay well-formed. -/
theorem C28_without_split_off_partial (hc : c.Sound) (w : τ) (ops : List (Op τ α)) (ht : ∀ op ∈ ops, op.Tame c) :
    .ub ∉ (runAll c ops (Mem.start c w)).1 ∧ ∀ r, Safe c ((runAll c ops (Mem.start c w)).2.reg r) := by
  obtain ⟨h1, h2⟩ := along_tame ops (fun _ => .clean) (Mem.start c w) ht (fun _ => nofun)
  obtain ⟨h3, h4⟩ := C28_memory_safety_partial hc w ops h1
  exact ⟨h3, fun r => h4 r (h2 r)⟩

/-- A wild history: garbage elements, dishonest and panicking iterators, panicking closures, `insert` far beyond the
end, aligned `append` and revival. -/
def wildHistory : List (Op Nat (Fin 8)) :=
  [.fromVec 0 (List.replicate 22 7), .insert 0 0 7, .set 0 10 0, .set 0 20 0, .remove 0 0, .get 0 19,
   .insert 0 1000 3, .len 0, .extend 0 ⟨100, [1, 2], false⟩, .len 0, .extend 0 ⟨1, [1, 2, 3], true⟩,
   .fromSlice 1 [1, 2, 3], .append 2 1, .clear 1, .push 1 4, .toVec 1, .toVec 2,
   .retain 2 (fun x n => (if x = 2 then none else some false, n + 1)), .toVec 2, .splitOff 2 3 3, .toVec 3,
   .splitOff 2 4 3, .fromElem 1 5 100, .swap 1 3 200, .remove 1 0, .hash 1, .forEach 0 (fun _ n => (none, n))]

example : Along c8 (SafeUse c8) wildHistory (fun _ => .clean) (Mem.start c8 0) := by decide +kernel

/-- Many of its calls fail; the others go on. -/
example : ((runAll c8 wildHistory (Mem.start c8 0)).1.filter fun o => o = .panic).length = 6 := by decide +kernel

/-- An implementation that violates the contract of `EnumLike`, with 2^40 variants, in 64-bit blocks: numbers larger than
`NUM_VARIANTS`, and only 7 is accepted. -/
def cEvil : Inst (Fin 8) := { exInst 64 8 debug64 false with E := ⟨2 ^ 40, fun x => 2 ^ 50 * x + 7, fun n => if n = 7 then some 3 else none⟩ }

example : cEvil.Sound ∧ ¬ cEvil.Ok ∧ Along cEvil (SafeUse cEvil) wildHistory (fun _ => .clean) (Mem.start cEvil 0) ∧
    .invalid ∈ (runAll cEvil wildHistory (Mem.start cEvil 0)).1 := by
  refine ⟨⟨⟨by decide, by decide, fun h => absurd h (by decide)⟩, stdAlloc_lawful _ _ _, stdAlloc_bounded (b := ⟨true, true⟩) (W := 64) (by decide) (by decide),
    False.elim, False.elim⟩, fun h => ?_, by decide +kernel, by decide +kernel⟩
  have := h.contract.lt 1
  revert this; decide

/-- **C28 is false in full**: three safe calls after which reading an element is undefined behaviour. -/
theorem C28_append_ub :
    (runAll c8 ([.fromVec 1 [1, 2, 3], .append 0 1, .len 1, .get 1 0] : List (Op Nat (Fin 8))) (Mem.start c8 0)).1 =
      [.unit, .unit, .num 3, .ub] := by decide +kernel

/-- **C28 is false in full**: `split_off`. -/
theorem C28_split_off_ub :
    (runAll c8 ([.fromVec 0 [1, 2, 3], .splitOff 0 1 1] : List (Op Nat (Fin 8))) (Mem.start c8 0)).1 =
      [.unit, .ub] := by decide +kernel

/-- **C28 is false in full**: `reserve` of `usize::MAX` elements altogether drops all blocks; a full-width vector in a release build. `collect` of
`repeat(x)`, whose `size_hint` is `usize::MAX`, is undefined behaviour at once. -/
theorem C28_reserve_ub :
    (runAll c200r ([.fromVec 0 [1, 2, 3], .reserve 0 (2 ^ 64 - 4), .len 0, .get 0 0, .fromIter 1 ⟨2 ^ 64 - 1, [7], false⟩] :
      List (Op Nat (Fin 200))) (Mem.start c200r 0)).1 = [.unit, .unit, .num 3, .ub, .ub] := by decide +kernel

end EnumVecModel
