import Verif.Lemmas.Inline
import Verif.Props.Capacity
import Verif.Props.History
import Verif.Examples

/-! # Capacity along histories and inline storage (C48) -/

set_option linter.unusedSectionVars false

namespace EnumVecModel
open EV

variable {α τ : Type} [DecidableEq α] {c : Inst α}

/-- **C48** (monotony) No call lowers the `capacity()` of a variable, in any state and whether it returns or panics, except
`shrink_to_fit` of that variable and assigning a new vector to it. -/
theorem C48_monotone (hc : c.Sound) (m : Mem c τ) (op : Op τ α) (q : Nat) (h1 : q ∉ op.assigns) (h2 : op ≠ .shrinkToFit q) :
    capacity c (m.reg q) ≤ capacity c ((step c m op).2.reg q) := by
  have := step_cap capRel_le m op (fun _ cap n k hk hg => Nat.le_trans (Nat.le_of_lt hk) (hc.lawful.grow_ge _ _ _ hg)) q h1 h2
  unfold capacity satMul
  have h := Nat.mul_le_mul_right c.epb this
  omega

example : capacity c8 ((run c8 exHistory (Mem.start c8 0)).2.reg 0) = 20 ∧
    capacity c8 ((run c8 (exHistory ++ [.clear 0, .pop 0, .reserve 0 5]) (Mem.start c8 0)).2.reg 0) = 20 ∧
    capacity c8 ((run c8 (exHistory ++ [.shrinkToFit 0]) (Mem.start c8 0)).2.reg 0) = 10 := by decide +kernel

/-- From related states, all with capacity `F`. -/
theorem inline_run (hc : c.Ok) {F : Nat} (hin : c.alloc.Inline F) : ∀ (ops : List (Op τ α)) {k : Nat → Mark} {m : Mem c τ}
    {v : Vecs α τ}, Sim c k m v → (∀ r, (m.reg r).storage.cap = F) → AllowedRun c ops k v → FitsRun c (F * c.epb) ops v →
    (run c ops m).1 = (vecRun c.E ops v).1 ∧ Sim c (marksRun c ops k v) (run c ops m).2 (vecRun c.E ops v).2 ∧
      ∀ r, ((run c ops m).2.reg r).storage.cap = F
  | [], _, _, _, h, hcap, _, _ => ⟨rfl, h, hcap⟩
  | o :: os, k, m, v, h, hcap, ha, hf => by
    have hn := fits_not_oom hc h hin hcap o ha.1 hf.1
    have hcap' := fits_cap hc h hin hcap o ha.1 hf.1
    rcases step_ok hc h o ha.1 with ⟨h1, -⟩ | ⟨h1, h2, -, h3⟩
    · exact absurd h1 hn
    · have hr : run c (o :: os) m = ((step c m o).1 :: (run c os (step c m o).2).1, (run c os (step c m o).2).2) := by
        conv => lhs; unfold run
        split
        · next m' he => rw [he] at h2; exact absurd rfl h2
        · next m' h' he => rw [he]
      obtain ⟨g1, g2, g3⟩ := inline_run hc hin os h3 hcap' ha.2 hf.2
      rw [hr, g1, h1]
      exact ⟨rfl, g2, g3⟩

/-- **C48 (partial)** Programs whose vectors stay within the inline capacity (`F` blocks, i.e. `F * epb` elements) need no heap: with
**any** heap allocator, also one that refuses every request, they never fail for lack of memory, return what the program on
`Vec`s returns, and at the end all vectors still have exactly the inline capacity.

Full claim: without `AllowedRun` (as for C01), and with `≤` instead of `<` in `FitsIn` for the calls that reserve; the latter is false,
see `C48_collect_spills`. -/
theorem C48_inline_partial (hc : c.Ok) {F : Nat} (hin : c.alloc.Inline F) (w : τ) (ops : List (Op τ α))
    (ha : AllowedRun c ops (fun _ => .clean) (Vecs.start w)) (hf : FitsRun c (F * c.epb) ops (Vecs.start w)) :
    (run c ops (Mem.start c w)).1 = (vecRun c.E ops (Vecs.start w)).1 ∧ .oom ∉ (run c ops (Mem.start c w)).1 ∧
    (run c ops (Mem.start c w)).2.world = (vecRun c.E ops (Vecs.start w)).2.world ∧
    (∀ r, marksRun c ops (fun _ => .clean) (Vecs.start w) r ≠ .dead →
      Is c ((run c ops (Mem.start c w)).2.reg r) ((vecRun c.E ops (Vecs.start w)).2.reg r)) ∧
    ∀ r, capacity c ((run c ops (Mem.start c w)).2.reg r) = F * c.epb := by
  have hcap : ∀ r : Nat, ((Mem.start c w).reg r).storage.cap = F := fun _ => hin.fresh
  obtain ⟨h1, h2, h3⟩ := inline_run hc hin ops (start_sim hc w) hcap ha hf
  refine ⟨h1, ?_, h2.world, fun r hr => ((h2.reg r).holds hr).is hc, fun r => ?_⟩
  · rw [h1]
    have : ∀ (ops : List (Op τ α)) (v : Vecs α τ), .oom ∉ (vecRun c.E ops v).1 := by
      intro ops
      induction ops with
      | nil => intro v; simp [vecRun]
      | cons o os ih =>
        intro v hm
        simp only [vecRun, List.mem_cons] at hm
        rcases hm with hm | hm
        · exact not_oom_vecStep o hm.symm
        · exact ih _ hm
    exact this ops _
  · have hb := hc.bounded.fresh
    rw [hin.fresh] at hb
    have h4 : F * c.epb ≤ (F + 1) * c.epb := Nat.mul_le_mul_right _ (by omega)
    unfold capacity satMul
    rw [h3 r]
    omega

/-- **C48** (README: "4x32 bits of inline storage. This will allow to store 128 1-bit items, 64 2-bit, 32 4-bit, etc."): the inline
capacity of `smallvec_u32` by number of variants. -/
theorem C48_readme (hc : c.Ok) (hW : c.W = 32) :
    (c.E.num = 2 → 4 * c.epb = 128) ∧ (2 < c.E.num → c.E.num ≤ 4 → 4 * c.epb = 64) ∧
    (8 < c.E.num → c.E.num ≤ 16 → 4 * c.epb = 32) ∧ 4 ≤ 4 * c.epb := by
  obtain ⟨h1, h2, h3, h4, -⟩ := C30_width_partial hc
  have hgt : ∀ b, 2 ^ b < c.E.num → b < c.bits := fun b hb => by
    rcases Nat.lt_or_ge b c.bits with h | h
    · exact h
    · exact absurd (Nat.le_trans h1 (Nat.pow_le_pow_right (by decide) h)) (by omega)
  have he : c.epb = 32 / c.bits := by unfold Inst.epb; rw [hW]
  refine ⟨fun h => ?_, fun g1 g2 => ?_, fun g1 g2 => ?_, ?_⟩
  · have : c.bits = 1 := by have := h2 1 (by omega); omega
    rw [he, this]
  · have : c.bits = 2 := by have := h2 2 (by omega); have := hgt 1 (by omega); omega
    rw [he, this]
  · have : c.bits = 4 := by have := h2 4 (by omega); have := hgt 3 (by omega); omega
    rw [he, this]
  · have := hc.epb_pos; omega

/-- **C48** is false for calls that reserve: collecting exactly as many elements as fit inline asks the heap for one more block, and
fails if it refuses. (Pushing them one by one does not, by `C48_inline_partial`.) -/
theorem C48_collect_spills (hc : c.Ok) {F : Nat} (hin : c.alloc.Inline F) {xs : List α} (hxs : xs.length = F * c.epb)
    (hg : c.alloc.grow F (F + 1) = none) : fromVec c xs = .error .capacity := by
  have hn := new_holds hc
  have e : capacity c (EV.new c) = F * c.epb := by
    rw [capacity_eq hc hn.toSafe]; show c.alloc.fresh * _ = _; rw [hin.fresh]
  obtain ⟨a, -, h2⟩ := C26_reserve_full hc (hn.is hc) (k := xs.length) (by rw [e]; simpa using hxs)
  have h3 := h2 (by show c.alloc.grow c.alloc.fresh (c.alloc.fresh + 1) = none; rw [hin.fresh]; exact hg)
  have h4 : (extend c ⟨xs.length, xs, false⟩ (EV.new c)).1 = .error .capacity := by
    unfold extend
    rw [M.read_bind, M.bind_apply]
    rcases hr : reserve c xs.length (EV.new c) with ⟨e' | _, s⟩
    · rw [hr] at h3; exact h3
    · rw [hr] at h3; cases h3
  unfold fromVec fromIter build
  rcases hr : extend c ⟨xs.length, xs, false⟩ (EV.new c) with ⟨e' | _, s⟩
  · rw [hr] at h4; cases h4; rfl
  · rw [hr] at h4; cases h4

/-- Inline storage for `F` blocks and a heap that refuses everything. -/
def noHeap (F : Nat) : Alloc where
  fresh := F
  exact n := if n ≤ F then some F else none
  grow _ _ := none
  shrinkTo cap n := max n (min cap F)

theorem noHeap_inline (F : Nat) : (noHeap F).Inline F :=
  ⟨rfl, fun n h => by simp [noHeap, h], fun n h => by simp [noHeap]; omega⟩

/-- `smallvec_u32::EnumVec<bool>` without a heap. -/
abbrev c2n : Inst (Fin 2) := (exInst 32 2 debug64 true).withAlloc (noHeap 4)

theorem c2n_ok : c2n.Ok :=
  (exInst_ok _ _ (by omega) (by omega) (by omega) (by omega)).withAlloc
    ⟨fun n k h => by simp only [noHeap] at h; split at h <;> cases h; assumption, nofun, fun cap n h => by simp only [noHeap]; omega⟩
    ⟨by decide, fun n k h => by simp only [noHeap] at h; split at h <;> cases h; decide, nofun, fun cap n h => by simp only [noHeap]; omega⟩

/-- 128 booleans are pushed, one removed and one inserted, half cloned, appended to an empty vector, … -/
def inlineHistory : List (Op Nat (Fin 2)) :=
  List.replicate 128 (.push 0 1) ++ [.remove 0 5, .insert 0 100 0, .len 0, .clone 1 0, .truncate 1 60, .append 2 1, .extend 2 ⟨0, [1, 0, 1], false⟩,
    .shrinkToFit 0, .fromElem 3 1 127, .all 3 1]

example : c2n.alloc.Inline 4 ∧ AllowedRun c2n inlineHistory (fun _ => .clean) (Vecs.start 0) ∧
    FitsRun c2n (4 * c2n.epb) inlineHistory (Vecs.start 0) := ⟨noHeap_inline 4, by decide +kernel, by decide +kernel⟩

example : fromVec c2n (List.replicate 128 1) = .error .capacity :=
  C48_collect_spills c2n_ok (noHeap_inline 4) (by decide +kernel) rfl

end EnumVecModel
