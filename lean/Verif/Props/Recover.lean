import Verif.Lemmas.Recover
import Verif.Props.Safety
import Verif.Props.Valid

/-! # Changing allocators and recovery from failed allocations (C45) -/

namespace EnumVecModel
open EV

variable {α τ : Type} {c : Inst α}

section
variable [DecidableEq α]

/-- **C45 (partial)** A program may go on after a failed allocation, and the allocator may refuse and grant as it likes:
every call returns and does what it returns and does on `Vec`s, or fails with no effect (`extend` and `resize`: with the
first of the new elements appended); all along, every variable has the contents of the `Vec`.

Full claim: without the proviso `Allowed` inside `Explained`; it fails already without failed allocations
(`C01_history_wrong`). -/
theorem C45_recover_partial (hc : c.Ok) (w : τ) (ps : List (Alloc × Op τ α))
    (hp : ∀ p ∈ ps, p.1.Lawful ∧ p.1.Bounded c.build c.epb) :
    Explained c ps (fun _ => .clean) (Mem.start c w) (Vecs.start w) :=
  explained hc ps hp (start_sim hc w)

end

/-- What one call may do to memory safety and validity is stated in `C28` and `C29`; here for changing allocators. -/
theorem runWith_safe (hc : c.Sound) : ∀ (ps : List (Alloc × Op τ α)) {k : Nat → Mark} {m : Mem c τ},
    (∀ p ∈ ps, p.1.Lawful ∧ p.1.Bounded c.build c.epb) → SafeMem c k m →
    AlongWith c (fun d => SafeUse d) ps k m →
    .ub ∉ (runWith c ps m).1 ∧ SafeMem c (runMarksWith c ps k m) (runWith c ps m).2
  | [], _, _, _, h, _ => ⟨by simp [runWith], h⟩
  | (a, o) :: os, k, m, hp, h, ha => by
    obtain ⟨p1, p2⟩ := hp (a, o) (by simp)
    have hs : SafeMem (c.withAlloc a) k (⟨m.reg, m.world⟩ : Mem (c.withAlloc a) τ) := fun r => by
      have := h r
      show SafeReg (c.withAlloc a) (m.reg r) (k r)
      cases hk : k r <;> rw [hk] at this
      · exact ⟨this.cover, this.capLen, this.capBound⟩
      · exact ⟨this.cover, this.capLen, this.capBound⟩
      · exact this
    obtain ⟨h1, h2⟩ := step_safe (hc.withAlloc p1 p2) hs o ha.1
    have h2' : SafeMem c (runMarks (c.withAlloc a) k ⟨m.reg, m.world⟩ o) (stepWith c m a o).2 := fun r => by
      have := h2 r
      show SafeReg c ((step (c.withAlloc a) ⟨m.reg, m.world⟩ o).2.reg r) _
      cases hk : runMarks (c.withAlloc a) k (⟨m.reg, m.world⟩ : Mem (c.withAlloc a) τ) o r <;> rw [hk] at this
      · exact ⟨this.cover, this.capLen, this.capBound⟩
      · exact ⟨this.cover, this.capLen, this.capBound⟩
      · exact this
    obtain ⟨h3, h4⟩ := runWith_safe hc os (fun p hp' => hp p (by simp [hp'])) h2' ha.2
    refine ⟨?_, h4⟩
    simp only [runWith, List.mem_cons, not_or]
    exact ⟨fun h => h1 h.symm, h3⟩

/-- **C45, C28 (partial)** Memory safety (see `C28_memory_safety_partial`) for allocators that may refuse and grant as
they like, and for any implementation of `EnumLike`. -/
theorem C45_memory_safety_partial (hc : c.Sound) (w : τ) (ps : List (Alloc × Op τ α))
    (hp : ∀ p ∈ ps, p.1.Lawful ∧ p.1.Bounded c.build c.epb)
    (ha : AlongWith c (fun d => SafeUse d) ps (fun _ => .clean) (Mem.start c w)) :
    .ub ∉ (runWith c ps (Mem.start c w)).1 ∧
    ∀ r, runMarksWith c ps (fun _ => .clean) (Mem.start c w) r ≠ .dead →
      Safe c ((runWith c ps (Mem.start c w)).2.reg r) := by
  obtain ⟨h1, h2⟩ := runWith_safe hc ps hp (start_safe hc w) ha
  exact ⟨h1, fun r hr => (h2 r).safe hr⟩

theorem runWith_valid (hc : c.Ok) (hE : c.E.Consecutive) : ∀ (ps : List (Alloc × Op τ α)) {k : Nat → Mark} {m : Mem c τ},
    (∀ p ∈ ps, p.1.Lawful ∧ p.1.Bounded c.build c.epb) → ValidMem c k m →
    AlongWith c (fun d => ValidUse d) ps k m →
    .invalid ∉ (runWith c ps m).1 ∧ ValidMem c (runMarksWith c ps k m) (runWith c ps m).2
  | [], _, _, _, h, _ => ⟨by simp [runWith], h⟩
  | (a, o) :: os, k, m, hp, h, ha => by
    obtain ⟨p1, p2⟩ := hp (a, o) (by simp)
    have hs : ValidMem (c.withAlloc a) k (⟨m.reg, m.world⟩ : Mem (c.withAlloc a) τ) := fun r => by
      have := h r
      show ValidReg (c.withAlloc a) (m.reg r) (k r)
      cases hk : k r <;> rw [hk] at this
      · exact ⟨⟨this.1.cover, this.1.capLen, this.1.capBound⟩, this.2⟩
      · exact ⟨⟨this.1.cover, this.1.capLen, this.1.capBound⟩, this.2⟩
      · exact this
    obtain ⟨h1, h2⟩ := step_valid (hc.withAlloc p1 p2) hE hs o ha.1
    have h2' : ValidMem c (runMarks (c.withAlloc a) k ⟨m.reg, m.world⟩ o) (stepWith c m a o).2 := fun r => by
      have := h2 r
      show ValidReg c ((step (c.withAlloc a) ⟨m.reg, m.world⟩ o).2.reg r) _
      cases hk : runMarks (c.withAlloc a) k (⟨m.reg, m.world⟩ : Mem (c.withAlloc a) τ) o r <;> rw [hk] at this
      · exact ⟨⟨this.1.cover, this.1.capLen, this.1.capBound⟩, this.2⟩
      · exact ⟨⟨this.1.cover, this.1.capLen, this.1.capBound⟩, this.2⟩
      · exact this
    obtain ⟨h3, h4⟩ := runWith_valid hc hE os (fun p hp' => hp p (by simp [hp'])) h2' ha.2
    refine ⟨?_, h4⟩
    simp only [runWith, List.mem_cons, not_or]
    exact ⟨fun h => h1 h.symm, h3⟩

/-- **C45, C29 (partial)** Validity (see `C29_valid_partial`) for allocators that may refuse and grant as they like, and for any implementation of `EnumLike`. -/
theorem C45_valid_partial (hc : c.Ok) (hE : c.E.Consecutive) (w : τ) (ps : List (Alloc × Op τ α))
    (hp : ∀ p ∈ ps, p.1.Lawful ∧ p.1.Bounded c.build c.epb)
    (ha : AlongWith c (fun d => ValidUse d) ps (fun _ => .clean) (Mem.start c w)) :
    .invalid ∉ (runWith c ps (Mem.start c w)).1 ∧
    ∀ r, runMarksWith c ps (fun _ => .clean) (Mem.start c w) r ≠ .dead →
      AllValid c ((runWith c ps (Mem.start c w)).2.reg r) := by
  obtain ⟨h1, h2⟩ := runWith_valid hc hE ps hp (start_valid hc w) ha
  exact ⟨h1, fun r hr => (allValid_iff hc _).mpr ((h2 r).live hr).2⟩

/-! ## Examples -/

/-- Refuses everything. -/
def noAlloc : Alloc := ⟨0, fun _ => none, fun _ _ => none, fun cap _ => cap⟩

theorem noAlloc_ok {B : Build} {n : Nat} (h : n + 4 < B.usizeLim) : noAlloc.Lawful ∧ noAlloc.Bounded B n :=
  ⟨⟨nofun, nofun, fun _ _ h => h⟩, ⟨by simpa [noAlloc] using h, nofun, nofun, fun _ _ _ => Nat.le_refl _⟩⟩

/-- Grants up to four blocks. -/
def fourAlloc : Alloc := ⟨0, fun n => if n ≤ 4 then some 4 else none, fun _ n => if n ≤ 4 then some 4 else none, fun cap _ => cap⟩

theorem fourAlloc_ok {B : Build} {n : Nat} (h : n ≤ 128) : fourAlloc.Lawful ∧ fourAlloc.Bounded B n := by
  have hl := B.lt_usizeLim (n := 1000) (by omega)
  refine ⟨⟨fun n k h => ?_, fun cap n k h => ?_, fun _ _ h => h⟩, ⟨by simp [fourAlloc]; omega, fun n k h => ?_,
    fun cap n k h => ?_, fun _ _ _ => Nat.le_refl _⟩⟩ <;>
  · simp only [fourAlloc] at h
    split at h
    · cases h; omega
    · cases h

/-- Refused and granted in turn; `extend` and `resize` fail half way. -/
def oomHistory : List (Alloc × Op Nat (Fin 8)) :=
  [(noAlloc, .fromVec 0 [1, 2, 3]), (fourAlloc, .fromVec 0 [1, 2, 3]), (noAlloc, .push 0 4), (noAlloc, .clone 1 0),
   (fourAlloc, .extend 0 ⟨30, List.replicate 50 5, false⟩), (noAlloc, .len 0), (noAlloc, .extend 0 ⟨10, List.replicate 11 2, false⟩),
   (fourAlloc, .resize 0 100 7), (fourAlloc, .push 1 1), (fourAlloc, .resize 1 90 7), (noAlloc, .toVec 1), (noAlloc, .append 0 1)]

example : ∀ p ∈ oomHistory, p.1.Lawful ∧ p.1.Bounded c8.build c8.epb := by
  have h1 := noAlloc_ok (B := c8.build) (n := c8.epb) (by decide)
  have h2 := fourAlloc_ok (B := c8.build) (n := c8.epb) (by decide)
  intro p hp
  simp only [oomHistory, List.mem_cons, List.not_mem_nil, or_false] at hp
  rcases hp with rfl | rfl | rfl | rfl | rfl | rfl | rfl | rfl | rfl | rfl | rfl | rfl <;> assumption

/-- All calls are allowed, and the outcomes are mixed. -/
example : AlongWith c8 (fun d => SafeUse d) oomHistory (fun _ => .clean) (Mem.start c8 0) ∧
    AlongWith c8 (fun d => ValidUse d) oomHistory (fun _ => .clean) (Mem.start c8 0) ∧
    (runWith c8 oomHistory (Mem.start c8 0)).1 =
      [.oom, .unit, .unit, .oom, .oom, .num 40, .oom, .oom, .unit, .oom, .list (1 :: List.replicate 9 7), .oom] := by
  decide +kernel

end EnumVecModel
