import Verif.Lemmas.ValidHistory

set_option linter.unusedSectionVars false

/-! # Which code calls `from_discr` -/

namespace EnumVecModel
open EV

variable {α τ β γ σ : Type} {c : Inst α}

/-- The call does not fail in `from_discr`. -/
def NoBad (f : M σ β) : Prop := ∀ s, (f s).1 ≠ .error .badDiscr

theorem NoBad.bind {f : M σ β} {g : β → M σ γ} (hf : NoBad f) (hg : ∀ b, NoBad (g b)) : NoBad (f >>= g) := by
  intro s
  rw [M.bind_apply]
  rcases hx : f s with ⟨e | b, s'⟩
  · have := hf s; rw [hx] at this; exact fun h => this (by simpa using h)
  · exact hg b s'

theorem NoBad.pure (b : β) : NoBad (Pure.pure b : M σ β) := fun _ => nofun
theorem NoBad.read : NoBad (M.read : M σ σ) := fun _ => nofun
theorem NoBad.write (s : σ) : NoBad (M.write s) := fun _ => nofun
theorem NoBad.fail {e : Fault} (h : e ≠ .badDiscr) : NoBad (M.fail e : M σ β) := fun _ hx => h (by cases hx; rfl)
theorem NoBad.lift {r : Except Fault β} (h : r ≠ .error .badDiscr) : NoBad (M.lift r : M σ β) := fun _ => h
theorem NoBad.unwrap (o : Option β) : NoBad (M.unwrap o : M σ β) := fun s => by cases o <;> nofun
theorem NoBad.ite {p : Prop} [Decidable p] {f g : M σ β} (hf : NoBad f) (hg : NoBad g) : NoBad (if p then f else g) := by
  split
  · exact hf
  · exact hg

theorem NoBad.loop {body : Nat → β → M σ β} (h : ∀ i b, NoBad (body i b)) : ∀ n i b, NoBad (loop body n i b)
  | 0, _, b => NoBad.pure b
  | n + 1, i, b => (h i b).bind fun b => NoBad.loop h n (i + 1) b

theorem uAdd_nobad (k : Build) (a b : Nat) : uAdd k a b ≠ .error .badDiscr := by
  unfold uAdd; split
  · nofun
  · split <;> nofun

theorem uMul_nobad (k : Build) (a b : Nat) : uMul k a b ≠ .error .badDiscr := by
  unfold uMul; split
  · nofun
  · split <;> nofun

theorem getRawUnchecked_nobad (i : Nat) : NoBad (getRawUnchecked c i) := fun s => by
  unfold getRawUnchecked rawUnchecked; split
  · nofun
  · nofun

theorem setRawUnchecked_nobad (i d : Nat) : NoBad (setRawUnchecked c i d) := fun s => by
  unfold setRawUnchecked; split <;> nofun

theorem setRaw_nobad (i d : Nat) : NoBad (setRaw c i d) := by
  unfold setRaw
  refine NoBad.read.bind fun s => ?_
  split
  · exact (NoBad.fail (e := .index) nofun).bind fun _ => setRawUnchecked_nobad i d
  · exact NoBad.bind (f := (Pure.pure PUnit.unit : M (EV c.W) PUnit)) (NoBad.pure _) fun _ => setRawUnchecked_nobad i d

theorem push_nobad (x : α) : NoBad (push c x) := by
  unfold push
  refine NoBad.bind ?_ fun _ => NoBad.read.bind fun s => ?_
  · intro s
    unfold growIfNeeded; split
    · cases hx : RVec.push c.alloc s.storage 0 with
      | ok st => nofun
      | error e =>
        simp only [RVec.push, RVec.reserve] at hx
        have he : e = .capacity := by
          split at hx
          · cases hx
          · next h1 =>
            cases hx
            split at h1
            · cases h1
            · split at h1 <;> cases h1
              rfl
        rw [he]; nofun
    · nofun
  · split
    · exact (NoBad.write _).bind fun _ => setRaw_nobad _ _
    · exact (NoBad.fail (e := .capacity) nofun).bind fun _ => setRaw_nobad _ _

theorem block_nobad (i : Nat) : NoBad (block c i) := fun s => by unfold block; split <;> nofun

theorem setBlock_nobad (i : Nat) (b : BitVec c.W) : NoBad (setBlock c i b) := fun s => nofun

theorem insertFastStep_nobad (j : Nat) (p : BitVec c.W) : NoBad (insertFastStep c j p) := by
  unfold insertFastStep
  refine (block_nobad j).bind fun b => (NoBad.lift ?_).bind fun r => (setBlock_nobad _ _).bind fun _ => NoBad.pure _
  unfold shiftUp blkShl
  dsimp only
  split
  · nofun
  · next h => cases h2 : c.build.checked <;> simp only [h2] at h <;> split at h <;> cases h <;> nofun

theorem removeFastStep_nobad (j : Nat) (p : BitVec c.W) : NoBad (removeFastStep c j p) := by
  unfold removeFastStep
  refine (block_nobad j).bind fun b => (NoBad.lift ?_).bind fun r => (setBlock_nobad _ _).bind fun _ => NoBad.pure _
  unfold shiftDown blkShr
  dsimp only
  split
  · nofun
  · next h => cases h2 : c.build.checked <;> simp only [h2] at h <;> split at h <;> cases h <;> nofun

/-- `insert` does not call `from_discr`. -/
theorem insert_nobad (i : Nat) (x : α) : NoBad (EV.insert c i x) := by
  unfold EV.insert
  refine (push_nobad x).bind fun _ => NoBad.read.bind fun s => NoBad.bind ?_ fun p => NoBad.read.bind fun s => ?_
  · split
    · refine (NoBad.lift (uAdd_nobad _ _ _)).bind fun _ => NoBad.bind (NoBad.loop (fun j p => ?_) _ _ _) fun _ => NoBad.pure _
      exact (getRawUnchecked_nobad _).bind fun _ => (setRawUnchecked_nobad _ _).bind fun _ => NoBad.pure _
    · exact NoBad.pure _
  · split
    · exact (NoBad.loop (fun j p => insertFastStep_nobad j p) _ _ _).bind fun _ => NoBad.pure _
    · exact NoBad.pure _

/-- `remove` calls `from_discr` only to read the removed element. -/
theorem remove_nobad {s : EV c.W} {i : Nat} (h : (EV.get c i s).1 ≠ .error .badDiscr) :
    (EV.remove c i s).1 ≠ .error .badDiscr := by
  unfold EV.remove
  rw [M.bind_apply]
  rcases hx : EV.get c i s with ⟨e | b, s'⟩
  · rw [hx] at h; exact fun h' => h (by simpa using h')
  · refine NoBad.bind (NoBad.unwrap b) (fun x => NoBad.read.bind fun s => (NoBad.lift (uMul_nobad _ _ _)).bind fun _ =>
      NoBad.bind (NoBad.loop (fun j p => ?_) _ _ _) fun _ => NoBad.read.bind fun s => (getRawUnchecked_nobad _).bind fun _ =>
      NoBad.read.bind fun s => (NoBad.write _).bind fun _ => NoBad.read.bind fun s => ?_) s'
    · exact (getRawUnchecked_nobad _).bind fun _ => setRawUnchecked_nobad _ _
    · split
      · exact (NoBad.loop (fun j p => removeFastStep_nobad _ p) _ _ _).bind fun _ => NoBad.pure _
      · exact NoBad.pure _

/-- If every bit pattern is a discriminant, memory-safe calls never see an invalid one. -/
theorem step_full (hc : c.Ok) (hE : c.E.Consecutive) (hf : c.E.num = 2 ^ c.bits) {k : Nat → Mark} {m : Mem c τ}
    (h : SafeMem c k m) (op : Op τ α) (ha : SafeUse c k m op) : (step c m op).1 ≠ .invalid := by
  have hv : ∀ s : EV c.W, Valid c s := fun s i => by rw [hf]; exact raw_lt _ _ _
  let k' : Nat → Mark := fun r => if k r = .dead then .dead else .dirty
  have hk : ∀ r, k r ≠ .dead → k' r ≠ .dead := fun r hr => by show (if _ then _ else _) ≠ _; rw [if_neg hr]; nofun
  have h' : ValidMem c k' m := fun r => by
    show ValidReg c (m.reg r) (if k r = .dead then .dead else .dirty)
    have hr := h r
    split
    · next hd => rw [hd] at hr; exact hr
    · next hd => exact ⟨hr.safe hd, hv _⟩
  have ha' : SafeUse c k' m op := ⟨ha.1, fun h1 r h2 => hk r (ha.2.1 h1 r h2), ha.2.2⟩
  have hcall : ∀ {β : Type} (r : Nat) (f : M (EV c.W) β) (out : β → Out α), (∀ b, out b ≠ .invalid) →
      (f (m.reg r)).1 ≠ .error .badDiscr → (m.call r f out).1 ≠ .invalid := by
    intro β r f out ho hn
    unfold Mem.call
    rcases hx : f (m.reg r) with ⟨e | b, s⟩
    · rw [hx] at hn; exact Fault.out_invalid (fun h => hn (by rw [h]))
    · exact ho b
  cases op with
  | insert r i x => exact hcall r _ (fun _ => .unit) (by simp) (insert_nobad i x _)
  | remove r i =>
    refine hcall r _ .val (by simp) (remove_nobad ?_)
    have hr := (h r).safe (ha.2.1 rfl r (by simp [Op.uses]))
    obtain ⟨l, hl⟩ := Valid.holds hc hE hr (hv _)
    rw [get_holds hc hl]; nofun
  | _ => exact (step_valid hc hE h' _ ⟨ha', trivial⟩).1

end EnumVecModel
