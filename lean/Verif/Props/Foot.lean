import Verif.Lemmas.FootStep
import Verif.Props.Panic

set_option linter.unusedSectionVars false

/-! # Exactly how much memory, and exactly which calls are refused it (C65) -/

namespace EnumVecModel
open EV

variable {α τ : Type} {c : Inst α}

theorem NumSame.lens {m : Mem c τ} {v : Vecs Nat τ} (h : NumSame c m v) : m.lens = fun r => (v.reg r).length := funext fun r => (h.reg r).len

/-- **C65** The storage of all vectors after every call. -/
theorem C65_storage (hc : c.Sound) {m : Mem c τ} (hs : ∀ r, Safe c (m.reg r)) (op : Op τ α) :
    (step c m op).2.foots = (Foot.step c m.lens m.foots op).2 := (step_foot hc hs op).1

/-- **C65** Memory is refused **if and only if** the specification says so. -/
theorem C65_refused (hc : c.Sound) {m : Mem c τ} (hs : ∀ r, Safe c (m.reg r)) (op : Op τ α) :
    (step c m op).1 = .oom ↔ (Foot.step c m.lens m.foots op).1 = false := (step_foot hc hs op).2

/-- **C65** What `capacity()` returns after every call. -/
theorem C65_capacity (hc : c.Sound) (hr : ∀ x, c.E.toDiscr x < 2 ^ c.bits) {m : Mem c τ} (hs : ∀ r, Safe c (m.reg r)) (op : Op τ α) (hb : op.Borrows)
    (r : Nat) : EV.capacity c ((step c m op).2.reg r) = ((Foot.step c m.lens m.foots op).2 r).cap * c.epb := by
  have hm : RealMem c m := fun r => (hs r).real hc
  have hreal : Real c ((step c m op).2.reg r) := by
    by_cases ho : ∃ r n x, op = .resize r n x
    · obtain ⟨r', n, x, rfl⟩ := ho
      have hk := resize_keeps hc n x (m.reg r') (hs r')
      show Real c ((m.call r' (EV.resize c n x) fun _ => Out.unit).2.reg r)
      unfold Mem.call
      rcases hx : EV.resize c n x (m.reg r') with ⟨e | b, s⟩ <;> rw [hx] at hk
      · exact hm.upd (hk.2.real hc) m.world r
      · exact hm.upd (Safe.real hc hk) m.world r
    · exact (step_ub hc m hm op (by
        cases op with
        | resize r' n x => exact absurd ⟨r', n, x, rfl⟩ ho
        | _ => exact hb) fun _ => hr).1 r
  have h1 := hreal.capBound
  rw [Nat.add_mul] at h1
  rw [← C65_storage hc hs op]
  exact Nat.min_eq_left (show ((step c m op).2.reg r).storage.cap * c.epb ≤ c.build.usizeLim - 1 by omega)

/-- **C65** Calls that neither get nor free memory. -/
theorem C65_quiet (hc : c.Sound) {m : Mem c τ} (hs : ∀ r, Safe c (m.reg r)) {op : Op τ α}
    (hq : match op with
      | .len _ | .isEmpty _ | .get _ _ | .set _ _ _ | .pop _ | .remove _ _ | .swap _ _ _ | .swapRemove _ _ | .truncate _ _ | .clear _ | .retain _ _
      | .forEach _ _ | .eq _ _ | .any _ _ | .all _ _ | .toVec _ | .iterate _ _ | .hash _ => True
      | .resize r n _ => n ≤ EV.len c (m.reg r)
      | _ => False) :
    (step c m op).1 ≠ .oom ∧ ∀ r, ((step c m op).2.reg r).storage.data.length = (m.reg r).storage.data.length ∧
      ((step c m op).2.reg r).storage.cap = (m.reg r).storage.cap := by
  have key : Foot.step c m.lens m.foots op = (true, m.foots) := by
    cases op with
    | resize r n x => exact if_neg (Nat.not_lt.mpr hq)
    | _ => first | rfl | exact hq.elim
  have h := step_foot hc hs op
  rw [key] at h
  refine ⟨fun he => absurd (h.2.mp he) nofun, fun r => ?_⟩
  have := Foot.mk.inj (congrFun h.1 r)
  exact this

/-- **C65** How every call ends, whether or not memory is granted. -/
theorem C65_panics (hc : c.Sound) (hr : ∀ x, c.E.toDiscr x < 2 ^ c.bits) {m : Mem c τ} {v : Vecs Nat τ} (h : NumSame c m v) (op : Op τ α)
    (hb : op.Borrows) : (step c m op).1 = .panic ↔ (Foot.step c m.lens m.foots op).1 = true ∧ op.Panics c v := by
  have hf := C65_refused hc (fun r => (h.reg r).safe) op
  by_cases ho : (step c m op).1 = .oom
  · rw [ho, hf.mp ho]; exact iff_of_false nofun nofun
  · rw [C64_panics hc hr h op hb ho]
    exact ⟨fun hp => ⟨(by cases hx : (Foot.step c m.lens m.foots op).1; exact absurd (hf.mpr hx) ho; rfl), hp⟩, fun hp => hp.2⟩

theorem C65_returns (hc : c.Sound) (hr : ∀ x, c.E.toDiscr x < 2 ^ c.bits) {m : Mem c τ} {v : Vecs Nat τ} (h : NumSame c m v) (op : Op τ α)
    (hb : op.Borrows) : (step c m op).1.Returned ↔
      (Foot.step c m.lens m.foots op).1 = true ∧ ¬ op.Panics c v ∧ ¬ op.Refused c v ∧ ¬ op.Undefined c v := by
  have hf := C65_refused hc (fun r => (h.reg r).safe) op
  by_cases ho : (step c m op).1 = .oom
  · rw [ho, hf.mp ho]; exact iff_of_false id nofun
  · rw [C64_returns hc hr h op hb ho]
    exact ⟨fun hp => ⟨(by cases hx : (Foot.step c m.lens m.foots op).1; exact absurd (hf.mpr hx) ho; rfl), hp⟩, fun hp => hp.2⟩

/-- **C65** The storage after a whole history, and whether it is refused memory, from the same history on vectors of numbers. -/
theorem C65_history (hc : c.Sound) (hr : ∀ x, c.E.toDiscr x < 2 ^ c.bits) : ∀ (ops : List (Op τ α)) {m : Mem c τ} {v : Vecs Nat τ}, NumSame c m v →
    (∀ op ∈ ops, op.Borrows) → NumAgreesRun c ops m v →
    (run c ops m).2.foots = (Foot.run c ops v m.foots).2 ∧ (.oom ∈ (run c ops m).1 ↔ (Foot.run c ops v m.foots).1 = false)
  | [], _, _, _, _, _ => ⟨rfl, iff_of_false nofun nofun⟩
  | o :: os, m, v, h, hb, ha => by
    have hf := step_foot hc (fun r => (h.reg r).safe) o
    rw [h.lens] at hf
    unfold run Foot.run
    by_cases ho : (step c m o).1 = .oom
    · have h2 := hf.2.mp ho
      rcases hx : step c m o with ⟨out, m'⟩
      rw [hx] at ho hf
      obtain rfl : out = .oom := ho
      rcases hy : Foot.step c (fun r => (v.reg r).length) m.foots o with ⟨b, F'⟩
      rw [hy] at h2 hf
      obtain rfl : b = false := h2
      exact ⟨hf.1, iff_of_true List.mem_cons_self rfl⟩
    · have key := (C63_exact hc hr h o (hb o List.mem_cons_self) ho).mpr ha.1
      have ih := C65_history hc hr os key.2 (fun op hop => hb op (List.mem_cons_of_mem _ hop)) ha.2
      rcases hy : Foot.step c (fun r => (v.reg r).length) m.foots o with ⟨b, F'⟩
      rw [hy] at hf
      cases b with
      | false => exact absurd (hf.2.mpr rfl) ho
      | true =>
        rw [hf.1] at ih
        rcases hx : step c m o with ⟨out, m'⟩
        rw [hx] at ih ho
        have e : (match (out, m') with
          | (Out.oom, m') => ([Out.oom], m')
          | (out, m') => (out :: (run c os m').1, (run c os m').2)) = (out :: (run c os m').1, (run c os m').2) := by
          cases out <;> first | rfl | exact absurd rfl ho
        show (Prod.snd (match (out, m') with
          | (Out.oom, m') => ([Out.oom], m')
          | (out, m') => (out :: (run c os m').1, (run c os m').2))).foots = _ ∧ (_ ∈ Prod.fst (match (out, m') with
          | (Out.oom, m') => ([Out.oom], m')
          | (out, m') => (out :: (run c os m').1, (run c os m').2)) ↔ _)
        rw [e]
        refine ⟨ih.1, ?_⟩
        rw [← ih.2]
        exact ⟨fun hm => (List.mem_cons.mp hm).resolve_left fun he => ho he.symm, List.mem_cons_of_mem _⟩

/-! ## Non-trivial cases -/

section
local instance (ops : List (Op τ (Fin 8))) (m : Mem c8 τ) (v : Vecs Nat τ) : Decidable (NumAgreesRun c8 ops m v) :=
  numAgreesRunDec (by decide) ops m v

/-- Elements of 3 bits, ten to a block. -/
def footHistory : List (Op Nat (Fin 8)) :=
  [.withCapacity 0 25, .fromElem 1 5 100, .extend 0 ⟨3, [1, 2, 3, 4], false⟩, .reserve 0 30, .append 0 1, .push 0 7, .clone 2 0, .shrinkToFit 0]

theorem foot_fits : ∀ x, c8.E.toDiscr x < 2 ^ c8.bits := fun x => x.isLt

/-- The second `from_elem` keeps memory for 160 blocks, though it needs 11; `reserve` uses blocks that are not needed yet. -/
example : (run c8 footHistory (Mem.start c8 0)).2.foots 0 = ⟨11, 11⟩ ∧ (run c8 footHistory (Mem.start c8 0)).2.foots 1 = ⟨11, 160⟩ ∧
    .oom ∉ (run c8 footHistory (Mem.start c8 0)).1 := by
  have h := C65_history c8_ok.sound foot_fits footHistory (.start c8_ok.sound 0) (by decide +kernel) (by decide +kernel)
  rw [h.1, h.2]
  decide +kernel

/-- The capacity after a call. -/
example : EV.capacity c8 ((step c8 (Mem.start c8 0) (.fromElem 1 5 100)).2.reg 1) = 1600 :=
  (C65_capacity c8_ok.sound foot_fits (fun _ => new_safe c8_ok.sound) (.fromElem 1 5 100) trivial 1).trans (by decide +kernel)

/-- Memory for at most 50 blocks. -/
def fiftyAlloc : Alloc := ⟨0, fun n => if n ≤ 50 then some n else none, fun cap n => if n ≤ 50 then some (min 50 (max n (2 * cap))) else none, fun _ n => n⟩

abbrev c8fifty : Inst (Fin 8) := c8.withAlloc fiftyAlloc

theorem c8fifty_sound : c8fifty.Sound where
  compiles := c8_ok.compiles
  few := nofun
  contract := nofun
  lawful := ⟨fun n k h => by simp only [fiftyAlloc] at h; split at h <;> simp at h; omega,
    fun cap n k h => by simp only [fiftyAlloc] at h; split at h <;> simp at h; omega, fun _ _ h => by simp [fiftyAlloc]⟩
  bounded := by
    have e : c8fifty.epb = 10 := rfl
    have l : c8fifty.build.usizeLim = 2 ^ 64 := rfl
    refine ⟨?_, fun n k h => ?_, fun cap n k h => ?_, fun _ _ h => h⟩
    · decide
    · rw [e, l]; simp only [fiftyAlloc] at h; split at h <;> simp at h; omega
    · rw [e, l]; simp only [fiftyAlloc] at h; split at h <;> simp at h; omega

/-- `from_elem` of 100 elements is refused, … -/
example : (step c8fifty (Mem.start c8fifty 0) (.fromElem 0 5 100)).1 = .oom :=
  (C65_refused c8fifty_sound (fun _ => new_safe c8fifty_sound) (.fromElem 0 5 100)).mpr (by decide +kernel)

/-- … `extend` with the same elements is not, … -/
def fiftyOp : Op Nat (Fin 8) := .extend 0 ⟨100, List.replicate 100 5, false⟩

attribute [local irreducible] Out.Returned in
example : (step c8fifty (Mem.start c8fifty 0) fiftyOp).1.Returned :=
  (C65_returns c8fifty_sound foot_fits (.start c8fifty_sound 0) fiftyOp trivial).mpr
    ⟨by decide +kernel, fun h => h.elim (fun h => absurd h (by decide)) fun h => absurd h (by decide +kernel), id, fun h => absurd h.1.2.1 (by decide)⟩

/-- … and a bad iterator panics only if it gets memory. -/
example : (step c8fifty (Mem.start c8fifty 0) (.extend 0 ⟨499, [5], false⟩)).1 = .panic :=
  (C65_panics c8fifty_sound foot_fits (.start c8fifty_sound 0) (.extend 0 ⟨499, [5], false⟩) trivial).mpr ⟨by decide +kernel, Or.inr (by decide)⟩

example : (step c8fifty (Mem.start c8fifty 0) (.extend 0 ⟨500, [5], false⟩)).1 = .oom :=
  (C65_refused c8fifty_sound (fun _ => new_safe c8fifty_sound) (.extend 0 ⟨500, [5], false⟩)).mpr (by decide +kernel)

end

end EnumVecModel
