import Verif.Lemmas.HostileRef
import Verif.Lemmas.RawApi
import Verif.Lemmas.NoBad

set_option linter.unusedSectionVars false

/-! # What a panic in user code leaves behind -/

namespace EnumVecModel
namespace Hostile
open EV

variable {α β γ δ σ ω ι : Type} {c : Inst α}

/-! ### code that calls no user code -/

/-- No user panic. -/
def Quiet (f : M σ β) : Prop := ∀ s, ¬ UserPanic (f s).1

theorem notUser {e : Fault} (h : e ≠ .user) (h' : e ≠ .badDiscr) : ¬ UserPanic (.error e : Except Fault β) := by
  rintro (hx | hx) <;> simp at hx <;> contradiction

theorem Quiet.ok {b : β} : ¬ UserPanic (.ok b : Except Fault β) := by rintro (h | h) <;> simp at h

theorem Quiet.pure (b : β) : Quiet (Pure.pure b : M σ β) := fun _ => Quiet.ok
theorem Quiet.read : Quiet (M.read : M σ σ) := fun _ => Quiet.ok
theorem Quiet.write (s : σ) : Quiet (M.write s) := fun _ => Quiet.ok
theorem Quiet.lift {r : Except Fault β} (h : ¬ UserPanic r) : Quiet (M.lift r : M σ β) := fun _ => h
theorem Quiet.bind {f : M σ β} {g : β → M σ γ} (hf : Quiet f) (hg : ∀ b, Quiet (g b)) : Quiet (f >>= g) := by
  intro s
  have := hf s
  rcases hx : f s with ⟨e | b, s'⟩
  · rw [M.bind_error hx]; rw [hx] at this
    exact fun h => this (by rcases h with h | h <;> simp at h <;> subst h; exact Or.inl rfl; exact Or.inr rfl)
  · rw [M.bind_ok hx]; exact hg b s'
theorem Quiet.loop {body : Nat → β → M σ β} (h : ∀ i b, Quiet (body i b)) : ∀ n i b, Quiet (loop body n i b)
  | 0, _, b => Quiet.pure b
  | n + 1, i, b => (h i b).bind fun b => Quiet.loop h n (i + 1) b

theorem uAdd_quiet (k : Build) (a b : Nat) : ¬ UserPanic (uAdd k a b) := by
  unfold uAdd; split
  · exact Quiet.ok
  · split
    · exact notUser (by decide) (by decide)
    · exact Quiet.ok

theorem uMul_quiet (k : Build) (a b : Nat) : ¬ UserPanic (uMul k a b) := by
  unfold uMul; split
  · exact Quiet.ok
  · split
    · exact notUser (by decide) (by decide)
    · exact Quiet.ok

theorem getRawUnchecked_quiet (i : Nat) : Quiet (getRawUnchecked c i) := fun s => by
  unfold getRawUnchecked rawUnchecked; split
  · exact Quiet.ok
  · exact notUser (by decide) (by decide)

theorem setRawUnchecked_quiet (i d : Nat) : Quiet (setRawUnchecked c i d) := fun s => by
  unfold setRawUnchecked; split
  · exact Quiet.ok
  · exact notUser (by decide) (by decide)

theorem setRaw_quiet (i d : Nat) : Quiet (setRaw c i d) := by
  refine Quiet.read.bind fun s => ?_
  split
  · intro s; exact notUser (by decide) (by decide)
  · exact setRawUnchecked_quiet i d

theorem block_quiet (i : Nat) : Quiet (block c i) := fun s => by
  unfold block; split
  · exact Quiet.ok
  · exact notUser (by decide) (by decide)

theorem setBlock_quiet (i : Nat) (b : BitVec c.W) : Quiet (setBlock c i b) := fun _ => Quiet.ok

theorem insertFastStep_quiet (j : Nat) (p : BitVec c.W) : Quiet (insertFastStep c j p) := by
  unfold insertFastStep
  refine (block_quiet j).bind fun b => (Quiet.lift ?_).bind fun _ => (setBlock_quiet _ _).bind fun _ => Quiet.pure _
  unfold shiftUp blkShl
  dsimp only
  split
  · exact Quiet.ok
  · next h => cases h2 : c.build.checked <;> simp only [h2] at h <;> split at h <;> cases h <;> exact notUser (by decide) (by decide)

theorem removeFastStep_quiet (j : Nat) (p : BitVec c.W) : Quiet (removeFastStep c j p) := by
  unfold removeFastStep
  refine (block_quiet j).bind fun b => (Quiet.lift ?_).bind fun _ => (setBlock_quiet _ _).bind fun _ => Quiet.pure _
  unfold shiftDown blkShr
  dsimp only
  split
  · exact Quiet.ok
  · next h => cases h2 : c.build.checked <;> simp only [h2] at h <;> split at h <;> cases h <;> exact notUser (by decide) (by decide)

theorem insertShift_quiet (i n d : Nat) : Quiet (insertShift c i n d) := by
  unfold insertShift
  refine Quiet.bind ?_ fun p => Quiet.read.bind fun s => ?_
  · split
    · refine (Quiet.lift (uAdd_quiet _ _ _)).bind fun _ => Quiet.bind (Quiet.loop (fun j p => ?_) _ _ _) fun _ => Quiet.pure _
      exact (getRawUnchecked_quiet _).bind fun _ => (setRawUnchecked_quiet _ _).bind fun _ => Quiet.pure _
    · exact Quiet.pure _
  · split
    · exact (Quiet.loop (fun j p => insertFastStep_quiet j p) _ _ _).bind fun _ => Quiet.pure _
    · exact Quiet.pure _

theorem removeShift_quiet (i : Nat) : Quiet (removeShift c i) := by
  refine Quiet.read.bind fun s => (Quiet.lift (uMul_quiet _ _ _)).bind fun _ =>
      Quiet.bind (Quiet.loop (fun j p => ?_) _ _ _) fun _ => Quiet.read.bind fun s => (getRawUnchecked_quiet _).bind fun _ =>
      Quiet.read.bind fun s => (Quiet.write _).bind fun _ => Quiet.read.bind fun s => ?_
  · exact (getRawUnchecked_quiet _).bind fun _ => setRawUnchecked_quiet _ _
  · split
    · exact (Quiet.loop (fun j p => removeFastStep_quiet _ p) _ _ _).bind fun _ => Quiet.pure _
    · exact Quiet.pure _

theorem UserPanic.error {e : Fault} (h : UserPanic (.error e : Except Fault β)) : UserPanic (.error e : Except Fault γ) := by
  rcases h with h | h <;> simp at h <;> subst h
  · exact Or.inl rfl
  · exact Or.inr rfl

/-! ### calls that leave the vector as it was -/

section
variable (h : Impl ω α) {strict : Prop} (hc : c.Fits strict)

/-- A panic of user code in `set` leaves the vector alone. -/
theorem set_panic (i : Nat) (x : α) (p : EV c.W × ω) (hu : UserPanic (set c h i x p).1) : (set c h i x p).2.1 = p.1 := by
  obtain ⟨s, w⟩ := p
  unfold set toDiscr at hu ⊢
  rw [M.bind_apply] at hu ⊢
  unfold call at hu ⊢
  rcases hx : h.toDiscr x w with ⟨_ | d, w'⟩
  · rfl
  · rw [hx] at hu
    exact absurd hu (setRaw_quiet i d s)

include hc

theorem pop_panic (p : EV c.W × ω) (hu : UserPanic (pop c h p).1) : (pop c h p).2.1 = p.1 := by
  obtain ⟨s, w⟩ := p
  unfold pop at hu ⊢
  rw [M.read_bind] at hu ⊢
  simp only at hu ⊢
  split
  · rfl
  · next hne =>
    rw [if_neg hne] at hu
    have := get_fst h hc (c := c) (s.num - 1) (s, w)
    rcases hx : get c h (s.num - 1) (s, w) with ⟨e | _ | a, q⟩
    · rw [M.bind_error hx]; rw [hx] at this; exact this
    · rw [M.bind_ok hx] at hu; exact absurd hu (notUser (by decide) (by decide))
    · rw [M.bind_ok hx] at hu; exact absurd hu Quiet.ok

theorem remove_panic (i : Nat) (p : EV c.W × ω) (hu : UserPanic (remove c h i p).1) : (remove c h i p).2.1 = p.1 := by
  unfold remove at hu ⊢
  have := get_fst h hc (c := c) i p
  rcases hx : get c h i p with ⟨e | _ | a, q⟩
  · rw [M.bind_error hx]; rw [hx] at this; exact this
  · rw [M.bind_ok hx] at hu; exact absurd hu (notUser (by decide) (by decide))
  · rw [M.bind_ok hx, M.unwrap_some_bind] at hu
    rw [M.bind_apply] at hu
    have hq := removeShift_quiet (c := c) i q.1
    have ho : onFst (removeShift c i) q = ((removeShift c i q.1).1, ((removeShift c i q.1).2, q.2)) := rfl
    rw [ho] at hu
    rcases hy : removeShift c i q.1 with ⟨e | b, s'⟩
    · rw [hy] at hu hq; exact absurd hu.error hq
    · rw [hy] at hu; exact absurd hu Quiet.ok

end

/-! ### calls that never change the vector -/

/-- The call leaves the first component alone. -/
def ReadOnly (f : M (σ × ω) β) : Prop := ∀ p, (f p).2.1 = p.1

theorem ReadOnly.bind {f : M (σ × ω) β} {g : β → M (σ × ω) γ} (hf : ReadOnly f) (hg : ∀ b, ReadOnly (g b)) : ReadOnly (f >>= g) := by
  intro p
  have := hf p
  rcases hx : f p with ⟨e | b, q⟩
  · rw [M.bind_error hx]; rw [hx] at this; exact this
  · rw [M.bind_ok hx, hg b q]; rw [hx] at this; exact this

theorem ReadOnly.pure (b : β) : ReadOnly (Pure.pure b : M (σ × ω) β) := fun _ => rfl
theorem ReadOnly.read : ReadOnly (M.read : M (σ × ω) (σ × ω)) := fun _ => rfl
theorem ReadOnly.lift (r : Except Fault β) : ReadOnly (M.lift r : M (σ × ω) β) := fun _ => rfl
theorem ReadOnly.onFst {m : M σ β} (h : ∀ s, (m s).2 = s) : ReadOnly (onFst m : M (σ × ω) β) := fun p => h p.1
theorem ReadOnly.call (f : Closure ω δ β) (x : δ) : ReadOnly (σ := σ) (EV.call f x) := fun p => by unfold EV.call; split <;> rfl

theorem anyWith_state (d : Nat) (s : EV c.W) : (anyWith c d s).2 = s := by
  unfold anyWith
  rw [M.read_bind]
  dsimp only
  cases hm : blkMul c.build.checked (BitVec.ofNat c.W d) (oneMask c) with
  | error e => rfl
  | ok xm =>
    rw [M.lift_ok_bind, M.bind_apply]
    have h := anyBlocks_state xm (blockIndex c (len c s)).1 0 s
    match hx : anyBlocks c xm (blockIndex c (len c s)).1 0 s with
    | (.error e, s') => rw [hx] at h; exact h
    | (.ok f, s') =>
      rw [hx] at h
      simp only at h ⊢
      subst h
      split
      · rfl
      · split
        · rw [M.bind_apply]
          have h := block_state (c := c) (blockIndex c (len c s')).1 s'
          match hx : block c (blockIndex c (len c s')).1 s' with
          | (.error e, s'') => rw [hx] at h; exact h
          | (.ok b, s'') =>
            rw [hx] at h
            simp only at h ⊢
            subst h
            split <;> rfl
        · rfl

theorem allWith_state (d : Nat) (s : EV c.W) : (allWith c d s).2 = s := by
  unfold allWith
  rw [M.read_bind]
  dsimp only
  cases hm : blkMul c.build.checked (BitVec.ofNat c.W d) (oneMask c) with
  | error e => rfl
  | ok xm =>
    rw [M.lift_ok_bind, M.bind_apply]
    have h := allBlocks_state (BitVec.allOnes c.W >>> (c.W % c.bits)) xm (blockIndex c (len c s)).1 0 s
    match hx : allBlocks c (BitVec.allOnes c.W >>> (c.W % c.bits)) xm (blockIndex c (len c s)).1 0 s with
    | (.error e, s') => rw [hx] at h; exact h
    | (.ok f, s') =>
      rw [hx] at h
      simp only at h ⊢
      subst h
      split
      · rfl
      · split
        · rw [M.bind_apply]
          have h := block_state (c := c) (blockIndex c (len c s')).1 s'
          match hx : block c (blockIndex c (len c s')).1 s' with
          | (.error e, s'') => rw [hx] at h; exact h
          | (.ok b, s'') =>
            rw [hx] at h
            simp only at h ⊢
            subst h
            split <;> rfl
        · rfl

theorem any_ro (h : Impl ω α) (x : α) : ReadOnly (any c h x) := by
  refine ReadOnly.read.bind fun p => ?_
  split
  · exact ReadOnly.pure _
  · exact (ReadOnly.call _ _).bind fun d => ReadOnly.onFst (anyWith_state d)

theorem all_ro (h : Impl ω α) (x : α) : ReadOnly (all c h x) := by
  refine ReadOnly.read.bind fun p => ?_
  split
  · exact ReadOnly.pure _
  · exact (ReadOnly.call _ _).bind fun d => ReadOnly.onFst (allWith_state d)

/-! ### calls that only append -/

/-- The first `n` elements of the storage are `R`. -/
structure Front (c : Inst α) (n : Nat) (R : Nat → Nat) (s : EV c.W) : Prop where
  safe : Safe c s
  le : n ≤ s.num
  eq : ∀ i, i < n → raw c s i = R i

/-- The call keeps them, however it ends. -/
def KeepsFront (c : Inst α) (n : Nat) (R : Nat → Nat) (f : M (EV c.W × ω) β) : Prop := ∀ p, Front c n R p.1 → Front c n R (f p).2.1

variable {n : Nat} {R : Nat → Nat}

theorem KeepsFront.bind {f : M (EV c.W × ω) β} {g : β → M (EV c.W × ω) γ} (hf : KeepsFront c n R f) (hg : ∀ b, KeepsFront c n R (g b)) :
    KeepsFront c n R (f >>= g) := by
  intro p hp
  have := hf p hp
  rcases hx : f p with ⟨e | b, q⟩
  · rw [M.bind_error hx]; rw [hx] at this; exact this
  · rw [M.bind_ok hx]; rw [hx] at this; exact hg b q this

theorem ReadOnly.front {f : M (EV c.W × ω) β} (hf : ReadOnly f) : KeepsFront c n R f := fun p hp => by rw [hf p]; exact hp

theorem KeepsFront.read {f : EV c.W × ω → M (EV c.W × ω) β} (hf : ∀ p, Front c n R p.1 → Front c n R (f p p).2.1) : KeepsFront c n R (M.read >>= f) :=
  fun p hp => by rw [M.read_bind]; exact hf p hp

section
variable (h : Impl ω α) {strict : Prop} (hc : c.Fits strict)
include hc

theorem Front.of_blk {s s' : EV c.W} (hs : Front c n R s) (hs' : Safe c s') (hn : n ≤ s'.num) (hb : ∀ j, j * c.epb < n → blk s' j = blk s j) :
    Front c n R s' := by
  refine ⟨hs', hn, fun i hi => ?_⟩
  rw [← hs.eq i hi]
  unfold raw
  rw [hb]
  exact Nat.lt_of_le_of_lt (Nat.div_mul_le_self i c.epb) hi

theorem set_front {pos : Nat} (hp : n ≤ pos) (x : α) : KeepsFront c n R (set c h pos x) := by
  refine (ReadOnly.call _ _).front.bind fun d => ?_
  rintro ⟨s, w⟩ hs
  rw [onFst_apply]
  rcases Nat.lt_or_ge pos s.num with hi | hi
  · rw [setRaw_lt hc hs.safe d hi]
    refine ⟨putRaw_safe hc hs.safe _ _, hs.le, fun i hin => ?_⟩
    have : s.num ≤ s.storage.data.length * c.epb := hs.safe.cover
    rw [← hs.eq i hin]
    show raw c (putRaw c s pos d) i = raw c s i
    rw [raw_putRaw_any hc s d i (by omega), if_neg (by omega), if_neg (by omega)]
  · rw [setRaw_ge hc d hi]; exact hs

theorem push_front (x : α) : KeepsFront c n R (push c h x) := by
  rintro ⟨s, w⟩ hs
  rcases push_split h hc hs.safe x w with ⟨e, -⟩ | ⟨s1, h1, h2, h3, e⟩
  · rw [e]; exact hs
  · rw [e]
    have hle := hs.le
    exact set_front h hc hs.le x (s1, w) (hs.of_blk hc h1 (by simp only; omega) fun j _ => h3 j)

theorem extendHinted_front (I : Iter ω ι α) : ∀ (k pos : Nat) (t : ι), n ≤ pos → KeepsFront c n R (extendHinted c h I k pos t)
  | 0, _, t, _ => (ReadOnly.pure t).front
  | k + 1, pos, t, hp => (ReadOnly.call I.next t).front.bind fun r => by
    cases r.1 with
    | none => intro p hp; exact hp
    | some x => exact (ReadOnly.pure x).front.bind fun x => (set_front h hc hp x).bind fun _ => extendHinted_front I k (pos + 1) r.2 (by omega)

theorem extendRest_front (I : Iter ω ι α) : ∀ (k : Nat) (t : ι), KeepsFront c n R (extendRest c h I k t)
  | 0, _ => (ReadOnly.pure false).front
  | k + 1, t => (ReadOnly.call I.next t).front.bind fun r => by
      cases r.1 with
      | none => exact (ReadOnly.pure true).front
      | some x => exact (push_front h hc x).bind fun _ => extendRest_front I k r.2

theorem extend_front (I : Iter ω ι α) (k : Nat) (t : ι) {p : EV c.W × ω} (hs : Front c n R p.1)
    (hw : ∀ k ∈ (I.hint t p.2).1, ¬ c.Drops (p.1.num + k)) : Front c n R (extend c h I k t p).2.1 := by
  unfold extend
  obtain ⟨s, w⟩ := p
  have hcall : call (σ := EV c.W) I.hint t (s, w) = match I.hint t w with
      | (some k, w') => (.ok k, (s, w'))
      | (none, w') => (.error .user, (s, w')) := by
    unfold call; split <;> rename_i hx <;> rw [hx]
  rcases hx : I.hint t w with ⟨_ | k0, w⟩
  · rw [hx] at hcall
    rw [M.bind_error hcall]; exact hs
  rw [hx] at hcall hw
  have hw : ¬ c.Drops (s.num + k0) := hw k0 rfl
  have hs : Front c n R s := hs
  rw [M.bind_ok hcall, M.read_bind]
  clear hx
  by_cases hl : c.AtLimit (s.num + k0)
  · rw [M.bind_error (onFst_eq (reserve_limit_debug hw hl) w)]; exact hs
  have key := reserve_safe hc hs.safe hl
  rcases hx : reserve c k0 s with ⟨e | u, s1⟩
  · rw [M.bind_error (onFst_eq hx w)]
    rw [hx] at key
    show Front c n R s1
    rw [key.2.1]; exact hs
  · rw [M.bind_ok (onFst_eq hx w), M.read_bind]
    rw [hx] at key
    obtain ⟨h1, h2, h3, h4, -, -, h7⟩ := key
    have hn := hs.le
    replace h2 : s1.num = s.num := h2
    replace h3 : s1.storage.data.length = (s.num + k0) / c.epb + 1 := h3
    replace h4 : s.num + k0 < c.build.usizeLim := h4
    have : uAdd c.build s1.num k0 = .ok (s1.num + k0) := by
      unfold uAdd; rw [if_pos (by omega)]
    show Front c n R ((M.lift (uAdd c.build s1.num k0) >>= _ : M (EV c.W × ω) Bool) _).2.1
    rw [this, M.lift_ok_bind]
    have hsl : onFst (setLen c (s1.num + k0)) (s1, w) = (.ok (), (⟨s1.storage, s1.num + k0⟩, w)) := rfl
    rw [M.bind_ok hsl]
    refine ((extendHinted_front h hc I k0 (len c s) t hn).bind fun rest => extendRest_front h hc I k rest) _ ?_
    refine hs.of_blk hc ⟨?_, h1.capLen, h1.capBound⟩ ?_ ?_
    · show s1.num + k0 ≤ s1.storage.data.length * c.epb
      rw [h3, h2, Nat.add_mul, Nat.one_mul]
      have h4 := Nat.div_add_mod (s.num + k0) c.epb
      have h5 := Nat.mod_lt (s.num + k0) hc.epb_pos
      rw [Nat.mul_comm]; omega
    · show n ≤ s1.num + k0
      replace hn : n ≤ s.num := hn
      omega
    · intro j hj
      have hn : n ≤ s.num := hn
      have : j ≤ (s.num + k0) / c.epb := (Nat.le_div_iff_mul_le hc.epb_pos).mpr (by omega)
      show blk s1 j = blk s j
      rw [h7, if_pos (by show j < (s.num + k0) / c.epb + 1; omega)]

theorem fillBlocks_front (d cb last : Nat) {s1 : EV c.W} (hs1 : Front c n R s1) : Front c n R (fillBlocks c d cb last s1).2 := by
  have hle := hs1.le
  unfold fillBlocks
  rw [M.read_bind]
  obtain ⟨s2, h2, hs2, h2n, _, h2l, h2b⟩ := fixStorage_safe hc hs1.safe
  rw [M.bind_ok h2, M.read_bind]
  have f2 : Front c n R s2 := hs1.of_blk hc hs2 (by omega) fun j hj => by
    rw [h2b, if_pos (lt_blocks_of hc (by omega))]
  have hr := RVec.reserve_res hc.lawful hc.bounded s2.storage (cb + if last > 0 then 1 else 0) hs2.capLen
  cases hx : RVec.reserve c.alloc s2.storage (cb + if last > 0 then 1 else 0) with
  | error e => rw [M.lift_error_bind]; exact f2
  | ok st =>
    rw [hx] at hr
    obtain ⟨g1, g2, g3, g4⟩ := hr
    rw [M.lift_ok_bind, M.write_bind]
    have hs3 : Safe c (⟨st, s2.num⟩ : EV c.W) := by
      refine ⟨?_, ?_, ?_⟩
      · show s2.num ≤ st.data.length * c.epb
        rw [g1]; exact hs2.cover
      · exact g3.fits
      · exact g3.capBound hs2.capBound
    have app : ∀ {s4 : EV c.W} {e : List (BitVec c.W)}, Safe c s4 → n ≤ s4.num → s4.storage.data = st.data ++ e → Front c n R s4 := by
      intro s4 e a1 a2 a3
      refine f2.of_blk hc a1 a2 fun j hj => ?_
      have hcov := hs2.cover
      have : j < s2.storage.data.length := Nat.lt_of_mul_lt_mul_right (a := c.epb) (by omega)
      unfold blk
      rw [a3, g1, List.getElem?_append_left this]
    have key := fillLoop hc cb (spread (BitVec.ofNat c.W d) c.bits) hs3 cb
    rw [M.bind_apply]
    rcases hy : loop (fillStep c cb (spread (BitVec.ofNat c.W d) c.bits)) cb 0 () (⟨st, s2.num⟩ : EV c.W) with ⟨e | u, s4⟩
    · rw [hy] at key
      obtain ⟨-, k1, k2, ⟨k, k3⟩, -⟩ := key
      exact app k1 (by rw [k2]; simp only; omega) k3
    · rw [hy] at key
      obtain ⟨hs4, h4n, _, h4d⟩ := key
      replace h4n : s4.num = s2.num := h4n
      have f4 : Front c n R s4 := app hs4 (by omega) h4d
      simp only
      cases hu : uAdd c.build (len c s1) (cb * c.epb) with
      | error e => rw [M.lift_error_bind]; exact f4
      | ok v =>
        rw [M.lift_ok_bind]
        have hlen1 : len c s1 = s1.num := rfl
        have hcov : s1.num + cb * c.epb ≤ s4.storage.data.length * c.epb := by
          rw [h4d, List.length_append, List.length_replicate, Nat.add_mul]
          have e1 : s1.num ≤ st.data.length * c.epb := by rw [g1, h2l]; exact blocks_mul hc _
          have e2 : cb * c.epb ≤ cb * cb * c.epb := by
            apply Nat.mul_le_mul_right
            rcases Nat.eq_zero_or_pos cb with h | h
            · simp [h]
            · exact Nat.le_mul_of_pos_left _ h
          show _ ≤ st.data.length * c.epb + _
          omega
        have hroom := hs4.dataRoom hc
        have hep := hc.epb_pos
        have hadd : uAdd c.build (len c s1) (cb * c.epb) = .ok (s1.num + cb * c.epb) := by
          unfold uAdd; rw [hlen1, if_pos (by omega)]
        rw [hadd] at hu
        simp only [Except.ok.injEq] at hu
        subst hu
        exact f4.of_blk hc (s' := ⟨s4.storage, s1.num + cb * c.epb⟩) ⟨hcov, hs4.capLen, hs4.capBound⟩ (by simp only; omega) fun j _ => rfl

theorem extendWithValue_front (x : α) (count : Nat) : KeepsFront c n R (extendWithValue c h x count) := by
  unfold extendWithValue
  have hep := hc.epb_pos
  have hsmall : ∀ {j : Nat} (m : Nat), j ≤ 4 * c.epb → KeepsFront c n R (extend c h (repeatTake h x) m j) := fun {j} m hj p hp =>
    extend_front h hc _ _ _ hp fun i hi => by cases hi; exact Inst.not_drops (hp.safe.not_atLimit hc hj)
  split
  · next hle => exact (hsmall _ hle).bind fun _ => (ReadOnly.pure ()).front
  · refine KeepsFront.read fun p hp => ?_
    dsimp only
    refine ((hsmall _ (by omega)).bind fun _ => (ReadOnly.call _ x).front.bind fun d =>
      KeepsFront.bind (fun q hq => fillBlocks_front hc d _ _ hq) fun _ =>
      (hsmall _ ?_).bind fun _ => (ReadOnly.pure ()).front) p hp
    have h1 := Nat.div_add_mod (count - (c.epb - len c p.1 % c.epb)) c.epb
    have h2 := Nat.mod_lt (count - (c.epb - len c p.1 % c.epb)) hep
    rw [Nat.mul_comm] at h1
    omega

theorem resize_front {k : Nat} (hk : n ≤ k) (x : α) : KeepsFront c n R (resize c h k x) := by
  refine KeepsFront.read fun p hp => ?_
  split
  · exact extendWithValue_front h hc x _ p hp
  · obtain ⟨s, w⟩ := p
    rw [onFst_apply, truncate_eq hc s k]
    have := hp.le
    replace this : n ≤ s.num := this
    exact hp.of_blk hc (s' := { s with num := min k s.num }) (hp.safe.setNum hc (Nat.min_le_right _ _)) (by simp only; omega) fun j _ => rfl

/-- A panic of user code in `insert` comes before anything is moved. -/
theorem insert_panic_front (i : Nat) (x : α) (p : EV c.W × ω) (hu : UserPanic (insert c h i x p).1) (hp : Front c n R p.1) :
    Front c n R (insert c h i x p).2.1 := by
  unfold insert at hu ⊢
  have hf := push_front h hc (n := n) (R := R) x p hp
  rcases hx : push c h x p with ⟨e | u, q⟩
  · rw [M.bind_error hx]; rw [hx] at hf; exact hf
  · rw [M.bind_ok hx, M.read_bind] at hu ⊢
    rw [hx] at hf
    have ht := toDiscr_fst h hc (σ := EV c.W) x q
    rcases hy : toDiscr h x q with ⟨e | d, r⟩
    · rw [M.bind_error hy]; rw [hy] at ht; show Front c n R r.1; rw [show r.1 = q.1 from ht]; exact hf
    · rw [M.bind_ok hy] at hu
      exact absurd hu (insertShift_quiet _ _ _ r.1)

end

/-! ### honest implementations: `for_each`, `retain`, `swap_remove` -/

section
variable {τ ρ : Type} {h : Impl (τ × ρ) α} (hh : h.Honest c.E) (hc : c.Ok)
include hc

omit hc in
theorem userPanic_user : UserPanic (.error .user : Except Fault β) := Or.inl rfl
omit hc in
theorem userPanic_bad : UserPanic (.error .badDiscr : Except Fault β) := Or.inr rfl

include hh

theorem get_honest {s : EV c.W} {l : List α} (hs : Holds c s l) {i : Nat} (hi : i < l.length) (w : τ × ρ) :
    ∃ w', get c h i (s, w) = (.error .badDiscr, (s, w')) ∨ get c h i (s, w) = (.ok (some l[i]), (s, w')) := by
  rw [get_in h hc hs.toSafe (by rw [hs.len_eq]; exact hi), hs.elems i hi]
  rcases hx : h.fromDiscr (c.E.toDiscr l[i]) w with ⟨_ | a, w'⟩
  · exact ⟨w', Or.inl rfl⟩
  · have := (hh.fromDiscr _ _ _ _ hx).1
    rw [hc.contract.roundtrip] at this
    simp only [Option.some.injEq] at this
    exact ⟨w', Or.inr (by rw [this])⟩

theorem set_honest {s : EV c.W} {l : List α} (hs : Holds c s l) {i : Nat} (hi : i < l.length) (x : α) (w : τ × ρ) :
    ∃ w', set c h i x (s, w) = (.error .user, (s, w')) ∨
      ∃ s', set c h i x (s, w) = (.ok (), (s', w')) ∧ Holds c s' (l.set i x) := by
  unfold set toDiscr
  rw [M.bind_apply]
  unfold call
  rcases hx : h.toDiscr x w with ⟨_ | d, w'⟩
  · exact ⟨w', Or.inl rfl⟩
  · obtain ⟨rfl, -⟩ := hh.toDiscr _ _ _ _ hx
    have := set_lt hc hs x hi
    exact ⟨w', Or.inr ⟨_, onFst_eq this.1 w', this.2⟩⟩

theorem forEachLoop_honest (f : Closure (τ × ρ) α α) : ∀ (todo done : List α) (s : EV c.W) (w : τ × ρ), Holds c s (done ++ todo) →
    ∃ r s' w' ys, loop (forEachStep c h f) todo.length done.length () (s, w) = (r, (s', w')) ∧ ys.length ≤ todo.length ∧
      Holds c s' (done ++ ys ++ todo.drop ys.length) ∧ (∀ (i : Nat) x y, todo[i]? = some x → ys[i]? = some y → Answers f x y) ∧
      (r = .ok () ∧ ys.length = todo.length ∨ UserPanic r)
  | [], done, s, w, hs => ⟨.ok (), s, w, [], rfl, Nat.le_refl _, by simpa using hs, by simp, Or.inl ⟨rfl, rfl⟩⟩
  | x :: xs, done, s, w, hs => by
    show ∃ r s' w' ys, (forEachStep c h f done.length () >>= fun _ => loop (forEachStep c h f) xs.length (done.length + 1) ()) (s, w) = _ ∧ _
    have hlt : done.length < (done ++ x :: xs).length := by simp
    have hel : (done ++ x :: xs)[done.length] = x := by simp
    have stop : ∀ (e : Fault) (w' : τ × ρ), UserPanic (.error e : Except Fault Unit) → forEachStep c h f done.length () (s, w) = (.error e, (s, w')) →
        ∃ r s' w' ys, (forEachStep c h f done.length () >>= fun _ => loop (forEachStep c h f) xs.length (done.length + 1) ()) (s, w) = (r, (s', w')) ∧
          ys.length ≤ (x :: xs).length ∧ Holds c s' (done ++ ys ++ (x :: xs).drop ys.length) ∧
          (∀ (i : Nat) a y, (x :: xs)[i]? = some a → ys[i]? = some y → Answers f a y) ∧ (r = .ok () ∧ ys.length = (x :: xs).length ∨ UserPanic r) :=
      fun e w' hu he => ⟨.error e, s, w', [], by rw [M.bind_error he], Nat.zero_le _, by simpa using hs, by simp, Or.inr hu⟩
    obtain ⟨w1, h1 | h1⟩ := get_honest hh hc hs hlt w
    · exact stop _ w1 userPanic_bad (by unfold forEachStep; rw [M.bind_error h1])
    · rw [hel] at h1
      have e1 : forEachStep c h f done.length () (s, w) = (call f x >>= fun x => set c h done.length x) (s, w1) := by
        unfold forEachStep; rw [M.bind_ok h1, M.unwrap_some_bind]
      rcases hf : f x w1 with ⟨_ | y, w2⟩
      · have hcall : call f x (s, w1) = (.error .user, (s, w2)) := by unfold call; rw [hf]
        exact stop _ w2 userPanic_user (by rw [e1, M.bind_error hcall])
      · have hcall : call f x (s, w1) = (.ok y, (s, w2)) := by unfold call; rw [hf]
        rw [M.bind_ok hcall] at e1
        obtain ⟨w3, h3 | ⟨s3, h3, h4⟩⟩ := set_honest hh hc hs hlt y w2
        · exact stop _ w3 userPanic_user (by rw [e1, h3])
        · have e : (done ++ x :: xs).set done.length y = (done ++ [y]) ++ xs := by
            rw [List.set_append_right _ _ (Nat.le_refl _)]; simp
          rw [e] at h4
          obtain ⟨r, s', w', ys, g1, g2, g3, g4, g5⟩ := forEachLoop_honest f xs (done ++ [y]) s3 w3 h4
          have el : (done ++ [y]).length = done.length + 1 := by simp
          rw [el] at g1
          refine ⟨r, s', w', y :: ys, ?_, by simpa using g2, by simpa using g3, ?_, ?_⟩
          · rw [h3] at e1; rw [M.bind_ok e1]; exact g1
          · intro i a b ha hb
            cases i with
            | zero => simp at ha hb; subst ha hb; exact ⟨w1, w2, hf⟩
            | succ i => exact g4 i a b (by simpa using ha) (by simpa using hb)
          · simpa using g5

theorem forEach_honest (f : Closure (τ × ρ) α α) {s : EV c.W} {l : List α} (hs : Holds c s l) (w : τ × ρ) :
    ∃ r s' w' ys, forEach c h f (s, w) = (r, (s', w')) ∧ ys.length ≤ l.length ∧ Holds c s' (ys ++ l.drop ys.length) ∧
      (∀ (i : Nat) x y, l[i]? = some x → ys[i]? = some y → Answers f x y) ∧ (r = .ok () ∧ ys.length = l.length ∨ UserPanic r) := by
  unfold forEach
  rw [M.read_bind]
  have := forEachLoop_honest hh hc f l [] s w (by simpa using hs)
  simp only [List.nil_append, List.length_nil] at this
  simp only [len, hs.len_eq]
  exact this

omit hc hh in
theorem accepted_length : ∀ (xs : List α) (bs : List Bool), (accepted xs bs).length ≤ bs.length
  | [], _ => by simp [accepted]
  | _ :: _, [] => by simp [accepted]
  | x :: xs, b :: bs => by
    have := accepted_length xs bs
    simp only [accepted]; split <;> simp <;> omega

theorem retainLoop_honest (f : Closure (τ × ρ) α Bool) (l : List α) : ∀ (todo pre kept : List α) (s : EV c.W) (w : τ × ρ),
    l = pre ++ todo → kept.length ≤ pre.length → Holds c s (kept ++ l.drop kept.length) →
    ∃ r s' w' bs, loop (retainStep c h f) todo.length pre.length kept.length (s, w) = (r, (s', w')) ∧ bs.length ≤ todo.length ∧
      Holds c s' ((kept ++ accepted todo bs) ++ l.drop (kept ++ accepted todo bs).length) ∧
      (∀ (i : Nat) x y, todo[i]? = some x → bs[i]? = some y → Answers f x y) ∧
      (r = .ok (kept ++ accepted todo bs).length ∧ bs.length = todo.length ∨ UserPanic r)
  | [], pre, kept, s, w, _, _, hs => ⟨.ok kept.length, s, w, [], rfl, Nat.le_refl _, by simpa [accepted] using hs, by simp, Or.inl ⟨by simp [accepted], rfl⟩⟩
  | x :: xs, pre, kept, s, w, hl, hk, hs => by
    show ∃ r s' w' bs, (retainStep c h f pre.length kept.length >>= fun a => loop (retainStep c h f) xs.length (pre.length + 1) a) (s, w) = _ ∧ _
    have hxg : (kept ++ l.drop kept.length)[pre.length]? = some x := by
      rw [List.getElem?_append_right hk, List.getElem?_drop]
      have : kept.length + (pre.length - kept.length) = pre.length := by omega
      rw [this, hl]; simp
    have hlt : pre.length < (kept ++ l.drop kept.length).length := by rw [hl]; simp; omega
    have hel : (kept ++ l.drop kept.length)[pre.length] = x := by
      rw [List.getElem?_eq_getElem hlt] at hxg; simpa using hxg
    have hplt : kept.length < (kept ++ l.drop kept.length).length := by rw [hl]; simp; omega
    have stop : ∀ (e : Fault) (w' : τ × ρ), UserPanic (.error e : Except Fault Nat) → retainStep c h f pre.length kept.length (s, w) = (.error e, (s, w')) →
        ∃ r s' w' bs, (retainStep c h f pre.length kept.length >>= fun a => loop (retainStep c h f) xs.length (pre.length + 1) a) (s, w) = (r, (s', w')) ∧
          bs.length ≤ (x :: xs).length ∧ Holds c s' ((kept ++ accepted (x :: xs) bs) ++ l.drop (kept ++ accepted (x :: xs) bs).length) ∧
          (∀ (i : Nat) a y, (x :: xs)[i]? = some a → bs[i]? = some y → Answers f a y) ∧
          (r = .ok (kept ++ accepted (x :: xs) bs).length ∧ bs.length = (x :: xs).length ∨ UserPanic r) :=
      fun e w' hu he => ⟨.error e, s, w', [], by rw [M.bind_error he], Nat.zero_le _, by simpa [accepted] using hs, by simp, Or.inr hu⟩
    obtain ⟨w1, h1 | h1⟩ := get_honest hh hc hs hlt w
    · exact stop _ w1 userPanic_bad (by unfold retainStep; rw [M.bind_error h1])
    · rw [hel] at h1
      rcases hf : f x w1 with ⟨_ | b, w2⟩
      · have hcall : call f x (s, w1) = (.error .user, (s, w2)) := by unfold call; rw [hf]
        exact stop _ w2 userPanic_user (by unfold retainStep; rw [M.bind_ok h1, M.unwrap_some_bind, M.bind_error hcall])
      · have hcall : call f x (s, w1) = (.ok b, (s, w2)) := by unfold call; rw [hf]
        have el : (pre ++ [x]).length = pre.length + 1 := by simp
        cases b with
        | false =>
          have e1 : retainStep c h f pre.length kept.length (s, w) = (.ok kept.length, (s, w2)) := by
            unfold retainStep; rw [M.bind_ok h1, M.unwrap_some_bind, M.bind_ok hcall, if_neg (by simp)]; rfl
          obtain ⟨r, s', w', bs, g1, g2, g3, g4, g5⟩ := retainLoop_honest f l xs (pre ++ [x]) kept s w2 (by simp [hl]) (by simp; omega) hs
          rw [el] at g1
          refine ⟨r, s', w', false :: bs, by rw [M.bind_ok e1]; exact g1, by simpa using g2, by simpa [accepted] using g3, ?_, by simpa [accepted] using g5⟩
          intro i a b ha hb
          cases i with
          | zero => simp at ha hb; subst ha hb; exact ⟨w1, w2, hf⟩
          | succ i => exact g4 i a b (by simpa using ha) (by simpa using hb)
        | true =>
          have e1 : retainStep c h f pre.length kept.length (s, w) = (set c h kept.length x >>= fun _ => Pure.pure (kept.length + 1)) (s, w2) := by
            unfold retainStep; rw [M.bind_ok h1, M.unwrap_some_bind, M.bind_ok hcall, if_pos rfl]
          obtain ⟨w3, h3 | ⟨s3, h3, h4⟩⟩ := set_honest hh hc hs hplt x w2
          · exact stop _ w3 userPanic_user (by rw [e1, M.bind_error h3])
          · rw [M.bind_ok h3] at e1
            have hd : l.drop kept.length = (l[kept.length]'(by rw [hl]; simp; omega)) :: l.drop (kept.length + 1) := List.drop_eq_getElem_cons _
            have e : (kept ++ l.drop kept.length).set kept.length x = (kept ++ [x]) ++ l.drop (kept ++ [x]).length := by
              rw [List.set_append_right _ _ (Nat.le_refl _), Nat.sub_self, hd, List.set_cons_zero]; simp
            rw [e] at h4
            obtain ⟨r, s', w', bs, g1, g2, g3, g4, g5⟩ := retainLoop_honest f l xs (pre ++ [x]) (kept ++ [x]) s3 w3 (by simp [hl]) (by simp; omega) h4
            have ek : (kept ++ [x]).length = kept.length + 1 := by simp
            rw [el, ek] at g1
            refine ⟨r, s', w', true :: bs, by rw [M.bind_ok e1]; exact g1, by simpa using g2, by simpa [accepted] using g3, ?_, by simpa [accepted] using g5⟩
            intro i a b ha hb
            cases i with
            | zero => simp at ha hb; subst ha hb; exact ⟨w1, w2, hf⟩
            | succ i => exact g4 i a b (by simpa using ha) (by simpa using hb)

theorem retain_honest (f : Closure (τ × ρ) α Bool) {s : EV c.W} {l : List α} (hs : Holds c s l) (w : τ × ρ) :
    ∃ r s' w' bs, retain c h f (s, w) = (r, (s', w')) ∧ bs.length ≤ l.length ∧ (∀ (i : Nat) x b, l[i]? = some x → bs[i]? = some b → Answers f x b) ∧
      (r = .ok () ∧ bs.length = l.length ∧ Holds c s' (accepted l bs) ∨
       UserPanic r ∧ Holds c s' (accepted l bs ++ l.drop (accepted l bs).length)) := by
  unfold retain
  rw [M.read_bind]
  obtain ⟨r, s', w', bs, g1, g2, g3, g4, g5⟩ := retainLoop_honest hh hc f l l [] [] s w rfl (Nat.le_refl _) (by simpa using hs)
  simp only [List.nil_append, List.length_nil] at g1 g3 g5
  simp only [len, hs.len_eq]
  rcases g5 with ⟨rfl, g5⟩ | g5
  · rw [M.bind_ok g1]
    refine ⟨.ok (), { s' with num := (accepted l bs).length }, w', bs, rfl, g2, g4, Or.inl ⟨rfl, g5, ?_⟩⟩
    have := g3.take hc (accepted l bs).length
    rw [g3.len_eq, Nat.min_eq_left (by simp)] at this
    simpa using this
  · rcases r with e | n
    · rw [M.bind_error g1]
      exact ⟨.error e, s', w', bs, rfl, g2, g4, Or.inr ⟨g5.error, g3⟩⟩
    · exact absurd g5 Quiet.ok

omit hh in
/-- A panic in `swap_remove` comes after the swap. -/
theorem swapRemove_panic (h : Impl ω α) {s : EV c.W} {l : List α} (hs : Holds c s l) {i : Nat} (hi : i < l.length) (w : ω)
    (hu : UserPanic (swapRemove c h i (s, w)).1) :
    Holds c (swapRemove c h i (s, w)).2.1 ((l.set i (l[l.length - 1]'(by omega))).set (l.length - 1) l[i]) := by
  have hlen := hs.len_eq
  unfold swapRemove at hu ⊢
  rw [M.read_bind] at hu ⊢
  have hsub : uSub c.build (len c s) 1 = .ok (l.length - 1) := by
    unfold uSub; rw [if_pos (by simp [len]; omega)]; simp [len, hlen]
  simp only at hu ⊢
  rw [hsub, M.lift_ok_bind] at hu ⊢
  obtain ⟨s1, h1, h2, -, -, -⟩ := swap_holds hc hs hi (j := l.length - 1) (by omega)
  rw [M.bind_ok (onFst_eq h1 w)] at hu ⊢
  rcases hx : pop c h (s1, w) with ⟨e | _ | a, q⟩
  · rw [M.bind_error hx] at hu ⊢
    have := pop_panic h hc (s1, w) (by rw [hx]; exact hu.error)
    rw [hx] at this
    show Holds c q.1 _
    rw [show q.1 = s1 from this]; exact h2
  · rw [M.bind_ok hx] at hu; exact absurd hu (notUser (by decide) (by decide))
  · rw [M.bind_ok hx] at hu; exact absurd hu Quiet.ok

end
end Hostile
end EnumVecModel
