import Verif.Lemmas.Hostile
import Verif.Lemmas.HostilePure
import Verif.Lemmas.SafeHistory
import Verif.Examples

/-! # Arbitrary user code in `EnumLike`, `Clone`, closures and iterators (C56) -/

namespace EnumVecModel
namespace Hostile
open EV

variable {α ω : Type} {c : Inst α}

/-! ## Memory safety (C56) -/

/-- **C56** Whatever the implementation `h` of `EnumLike` and `Clone`, the closures and the iterators do (each call may return anything, also
numbers that are no discriminants and different ones each time, have side effects and panic), no safe call has undefined behaviour; the program goes
on after every panic. As in C28, no variable is used whose storage was taken by an `append`, `split_off` is not called below the length, and, in
release builds with one element per block, no call reserves `usize::MAX` elements altogether (also because a `size_hint` says so, `C56_hint_ub`).
All other variables stay well-formed. -/
theorem C56_memory_safety (hc : c.Sound) (h : Impl ω α) (w : ω) (calls : List (Call ω α))
    (ha : AdmittedRun c h calls (fun _ => true) (Mem.start c w)) :
    .ub ∉ (runAll c h calls (Mem.start c w)).1 ∧
    ∀ r, aliveAfter c h calls (fun _ => true) (Mem.start c w) r = true → Safe c ((runAll c h calls (Mem.start c w)).2.reg r) := by
  obtain ⟨h1, h2⟩ := runAll_good h hc calls (k := fun _ => true) (m := Mem.start c w) (fun _ => ⟨safe_room (new_safe hc), fun _ => new_safe hc⟩) ha
  exact ⟨h1, fun r hr => (h2 r).2 hr⟩

/-- The call is no `split_off`, with `Vec` storage no `append` (and passes the borrow checker), and not, in release builds with one element per
block, one of those that may reserve `usize::MAX` elements. -/
def Call.Tame (c : Inst α) : Call ω α → Prop
  | .op (.reserve _ _) | .op (.extend _ _) | .extend _ _ _ | .collect _ _ _ => c.build.checked = true ∨ 1 < c.epb
  | .op (.fromIter _ it) => ¬ c.Drops it.hint
  | .op (.fromVec _ xs) | .op (.fromSlice _ xs) => ¬ c.Drops xs.length
  | .op (.splitOff _ _ _) => False
  | .op (.append r o) => c.small = true ∧ r ≠ o
  | _ => True

theorem admitted_tame (h : Impl ω α) : ∀ (calls : List (Call ω α)) (k : Nat → Bool) (m : Mem c ω), (∀ o ∈ calls, o.Tame c) → (∀ r, k r = true) →
    AdmittedRun c h calls k m ∧ ∀ r, aliveAfter c h calls k m r = true
  | [], _, _, _, hk => ⟨trivial, hk⟩
  | o :: os, k, m, ht, hk => by
    have hu : ∀ r, ∀ j, upd k r true j = true := by
      intro r j; unfold upd; split
      · rfl
      · exact hk j
    have h1 : ∀ r, alive c k m (step c h m o).1 o r = true := by
      have ho := ht o (by simp)
      intro q
      cases o with
      | extend r I n => exact hk q
      | collect r I n =>
        simp only [alive]; split
        · exact hu _ q
        · exact hk q
      | op o =>
        cases o with
        | append r o =>
          have e : c.small = true := ho.1
          simp only [alive, e, Bool.true_or, Bool.not_true, Bool.and_false]
          exact hk q
        | truncate r n => cases n with
          | zero => exact hu r q
          | succ n => exact hk q
        | clear r => exact hu r q
        | _ =>
          simp only [alive]
          first
            | exact hk q
            | split
              · exact hu _ q
              · exact hk q
    have h0 : Admitted c k m o := by
      have ho := ht o (by simp)
      have hd : c.build.checked = true ∨ 1 < c.epb → ∀ n, ¬ c.Drops n := by
        rintro (h1 | h1) n ⟨h2, h3, -⟩
        · rw [h1] at h2; cases h2
        · omega
      refine ⟨fun _ r _ => hk r, ?_⟩
      cases o with
      | op o => cases o with
        | append r o => exact ho.2
        | splitOff r a d => exact ho.elim
        | reserve r n => exact hd ho _
        | extend r it => exact hd ho _
        | fromIter r it => exact ho
        | fromVec r xs => exact ho
        | fromSlice r xs => exact ho
        | _ => trivial
      | extend r I n => exact fun _ _ => hd ho _
      | collect r I n => exact fun _ _ => hd ho _
    obtain ⟨h2, h3⟩ := admitted_tame h os _ (step c h m o).2 (fun o hm => ht o (by simp [hm])) h1
    exact ⟨⟨h0, h2⟩, h3⟩

/-- **C56** The proviso is met by every program that does not call `split_off`, and calls `append` only on `SmallVec` storage, if it is a debug build or
there are several elements per block (otherwise it must avoid what `Call.Tame` says). -/
theorem C56_without_append (hc : c.Sound) (h : Impl ω α) (w : ω) (calls : List (Call ω α)) (ht : ∀ o ∈ calls, o.Tame c) :
    .ub ∉ (runAll c h calls (Mem.start c w)).1 ∧ ∀ r, Safe c ((runAll c h calls (Mem.start c w)).2.reg r) := by
  obtain ⟨h1, h2⟩ := admitted_tame h calls (fun _ => true) (Mem.start c w) ht (fun _ => rfl)
  obtain ⟨h3, h4⟩ := C56_memory_safety hc h w calls h1
  exact ⟨h3, fun r => h4 r (h2 r)⟩

/-- **C56** The model of this property is the one of all others: if the implementation computes the functions `c.E` without panics and side effects,
a history has the same results and ends in the same state as in `EnumVecModel.runAll`. -/
theorem C56_faithful : ∀ (ops : List (Op ω α)) (m : Mem c ω),
    runAll c (Impl.of c.E) (ops.map .op) m = EnumVecModel.runAll c ops m
  | [], _ => rfl
  | o :: os, m => by
    simp only [List.map_cons, runAll, EnumVecModel.runAll, step_of, C56_faithful os]

/-! ### Not vacuous -/

instance (k : Nat → Bool) (m : Mem c ω) : (call : Call ω α) → Decidable (Admitted c k m call)
  | .extend _ I _ => by
    refine @instDecidableAnd _ _ inferInstance ?_
    show Decidable (∀ n ∈ (I.hint () m.world).1, _)
    cases (I.hint () m.world).1 with
    | none => exact .isTrue nofun
    | some n => exact decidable_of_iff (¬ c.Drops (len c (m.reg _) + n)) ⟨fun h k hk => by cases hk; exact h, fun h => h n rfl⟩
  | .collect _ I _ => by
    refine @instDecidableAnd _ _ inferInstance ?_
    show Decidable (∀ n ∈ (I.hint () m.world).1, _)
    cases (I.hint () m.world).1 with
    | none => exact .isTrue nofun
    | some n => exact decidable_of_iff (¬ c.Drops n) ⟨fun h k hk => by cases hk; exact h, fun h => h n rfl⟩
  | .op o => by
    refine @instDecidableAnd _ _ inferInstance ?_
    cases o <;> infer_instance

instance AdmittedRun.dec (h : Impl ω α) : ∀ (os : List (Call ω α)) (k : Nat → Bool) (m : Mem c ω), Decidable (AdmittedRun c h os k m)
  | [], _, _ => .isTrue trivial
  | o :: os, k, m =>
    have := AdmittedRun.dec h os (alive c k m (step c h m o).1 o) (step c h m o).2
    inferInstanceAs (Decidable (_ ∧ _))

/-- An implementation that counts the calls in the world: every 5th call panics, discriminants are wrong and depend on the counter, clones are different values. -/
def hWild : Impl Nat (Fin 8) where
  toDiscr x n := (if n % 5 = 4 then none else some (x.val + 1000 * n), n + 1)
  fromDiscr d n := (if n % 5 = 4 then none else some (Fin.ofNat 8 (d + n)), n + 1)
  clone x n := (if n % 5 = 4 then none else some (x + Fin.ofNat 8 n), n + 1)

/-- An iterator that promises 3 items, yields items while the counter is no multiple of 7, and panics at multiples of 11. -/
def iWild : Iter Nat Unit (Fin 8) where
  hint _ n := (some 3, n + 1)
  next _ n := (if n % 11 = 0 then none else if n % 7 = 0 then some (none, ()) else some (some (Fin.ofNat 8 n), ()), n + 1)

/-- Panics in all of them, an aligned `append`, the revival of its argument. -/
def hostileHistory : List (Call Nat (Fin 8)) :=
  [.op (.fromElem 0 3 30), .op (.fromElem 0 3 30), .op (.fromVec 0 [1, 2, 3]), .op (.push 0 4), .op (.push 0 4), .op (.insert 0 1 7), .op (.len 0), .op (.remove 0 0),
   .extend 0 iWild 20, .extend 0 iWild 20, .collect 1 iWild 20, .op (.len 1), .op (.fromVec 1 [5, 6]), .op (.fromVec 1 [5, 6]), .op (.append 2 1), .op (.clear 1), .op (.push 1 4),
   .op (.toVec 1), .op (.resize 0 100 5), .op (.fromSlice 3 [1, 2]), .op (.toVec 0), .op (.retain 0 (fun x n => (some (x.val % 2 = 0), n))), .op (.forEach 0 (fun x n => (some x, n + 1))),
   .op (.swapRemove 2 0), .op (.pop 2), .op (.any 2 3), .op (.all 2 3), .op (.iterate 0 [.next, .nextBack, .nth 1, .sizeHint])]

example : AdmittedRun c8 hWild hostileHistory (fun _ => true) (Mem.start c8 0) := by decide +kernel

/-- The `append` took the storage of variable 1. -/
example : aliveAfter c8 hWild (hostileHistory.take 15) (fun _ => true) (Mem.start c8 0) 1 = false := by decide +kernel

/-- Many calls panic, others go on; after the panic of the second `push` the length is 5. -/
example : ((runAll c8 hWild hostileHistory (Mem.start c8 0)).1.filter fun o => o = .panic ∨ o = .invalid).length = 12 ∧
    (runAll c8 hWild (hostileHistory.take 5 ++ [.op (.len 0)]) (Mem.start c8 0)).1 = [.panic, .panic, .unit, .unit, .panic, .num 5] := by decide +kernel

/-- An endless iterator with the right `size_hint` lower bound, `usize::MAX`, like `std::iter::repeat(7)`. -/
def iRepeat : Iter Nat Unit (Fin 200) where
  hint _ n := (some (2 ^ 64 - 1), n)
  next _ n := (some (some 7, ()), n)

/-- **C56** The proviso on `usize::MAX` is needed: in a release build with one element per block, `repeat(7).collect()` is undefined behaviour. (In a
debug build, and with several elements per block, it panics: C66.) -/
theorem C56_hint_ub : (runAll c200r (Impl.of c200r.E) [.collect 0 iRepeat 0] (Mem.start c200r 0)).1 = [.ub] := by decide +kernel

end Hostile
end EnumVecModel
