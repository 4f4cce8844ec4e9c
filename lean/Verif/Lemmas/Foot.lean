import Verif.FootSpec
import Verif.Lemmas.SafeRun

set_option linter.unusedSectionVars false

/-! # Exactly how much memory: lemmas -/

namespace EnumVecModel
open EV

variable {α β γ τ σ κ : Type}

/-- The call leaves `g` of the state as it is, and is not refused memory. -/
def Still (g : σ → κ) (m : M σ β) : Prop := ∀ s, g (m s).2 = g s ∧ (m s).1 ≠ .error .capacity

section
variable {g : σ → κ}

theorem Still.bind {m : M σ β} {f : β → M σ γ} (h : Still g m) (hf : ∀ a, Still g (f a)) : Still g (m >>= f) := fun s => by
  have h1 := h s
  rw [M.bind_apply]
  rcases hm : m s with ⟨e | a, s'⟩ <;> rw [hm] at h1
  · exact ⟨h1.1, fun he => h1.2 (by cases he; rfl)⟩
  · have := hf a s'
    exact ⟨this.1.trans h1.1, this.2⟩

theorem Still.pure (a : β) : Still g (Pure.pure a : M σ β) := fun _ => ⟨rfl, nofun⟩
theorem Still.fail {e : Fault} (he : e ≠ .capacity) : Still g (M.fail e : M σ β) := fun _ => ⟨rfl, fun h => he (Except.error.inj h)⟩
theorem Still.lift {r : Except Fault β} (hr : r ≠ .error .capacity) : Still g (M.lift r : M σ β) := fun _ => ⟨rfl, hr⟩
theorem Still.read : Still g (M.read : M σ σ) := fun _ => ⟨rfl, nofun⟩

theorem Still.unwrap (o : Option β) : Still g (M.unwrap o : M σ β) := fun s => by
  cases o <;> exact ⟨rfl, nofun⟩

theorem Still.readWrite {f : σ → σ} {k : M σ β} (h : ∀ s, g (f s) = g s) (hk : Still g k) :
    Still g (M.read >>= fun s => M.write (f s) >>= fun _ => k) := fun s => by
  rw [M.read_bind, M.write_bind]
  have := hk (f s)
  exact ⟨this.1.trans (h s), this.2⟩

theorem Still.ite {p : Prop} [Decidable p] {a b : M σ β} (ha : Still g a) (hb : Still g b) : Still g (if p then a else b) := by
  split <;> assumption

theorem Still.loop {body : Nat → β → M σ β} (h : ∀ i a, Still g (body i a)) : ∀ n i a, Still g (loop body n i a)
  | 0, _, a => Still.pure a
  | n + 1, i, a => Still.bind (h i a) fun a => Still.loop h n (i + 1) a

end

theorem Still.onFst {g : σ → κ} {m : M σ β} (h : Still g m) : Still (fun p : σ × τ => g p.1) (onFst m) := fun p => h p.1
theorem Still.onSnd {g : σ → κ} {m : M σ β} (h : Still g m) : Still (fun p : τ × σ => g p.2) (onSnd m) := fun p => h p.2

theorem uAdd_nc (b : Build) (x y : Nat) : uAdd b x y ≠ .error .capacity := by unfold uAdd; split <;> (try split) <;> nofun
theorem uSub_nc (b : Build) (x y : Nat) : uSub b x y ≠ .error .capacity := by unfold uSub; split <;> (try split) <;> nofun
theorem uMul_nc (b : Build) (x y : Nat) : uMul b x y ≠ .error .capacity := by unfold uMul; split <;> (try split) <;> nofun
theorem blkMul_nc {W : Nat} (b : Bool) (x y : BitVec W) : blkMul b x y ≠ .error .capacity := by unfold blkMul; split <;> (try split) <;> nofun
theorem blkShl_nc {W : Nat} (b : Bool) (x : BitVec W) (y : Nat) : blkShl b x y ≠ .error .capacity := by unfold blkShl; split <;> (try split) <;> nofun
theorem blkShr_nc {W : Nat} (b : Bool) (x : BitVec W) (y : Nat) : blkShr b x y ≠ .error .capacity := by unfold blkShr; split <;> (try split) <;> nofun

section
variable (c : Inst α)

theorem shiftUp_nc (x y : BitVec c.W) : shiftUp c x y ≠ .error .capacity := by
  have := blkShl_nc c.build.checked x c.bits
  unfold shiftUp; dsimp only; split
  · nofun
  · next h => rw [h] at this; exact fun he => this (by cases he; rfl)

theorem shiftDown_nc (x y : BitVec c.W) : shiftDown c x y ≠ .error .capacity := by
  have := blkShr_nc c.build.checked x c.bits
  unfold shiftDown; dsimp only; split
  · nofun
  · next h => rw [h] at this; exact fun he => this (by cases he; rfl)

theorem rawUnchecked_nc (s : EV c.W) (i : Nat) : rawUnchecked c s i ≠ .error .capacity := by unfold rawUnchecked; split <;> nofun

theorem getRawUnchecked_still (i : Nat) : Still EV.foot (getRawUnchecked c i) := fun s => ⟨rfl, rawUnchecked_nc c s i⟩

theorem setRawUnchecked_still (i d : Nat) : Still EV.foot (setRawUnchecked c i d) := fun s => by
  unfold setRawUnchecked EV.foot
  split
  · exact ⟨by simp, nofun⟩
  · exact ⟨rfl, nofun⟩

theorem getRaw_still (i : Nat) : Still EV.foot (getRaw c i) :=
  Still.bind Still.read fun _ => Still.ite (Still.pure _) (Still.bind (getRawUnchecked_still c i) fun _ => Still.pure _)

theorem setRaw_still (i d : Nat) : Still EV.foot (setRaw c i d) := by
  unfold setRaw
  refine Still.bind Still.read fun s => ?_
  split
  · exact Still.bind (Still.fail nofun) fun _ => setRawUnchecked_still c i d
  · exact setRawUnchecked_still c i d

theorem fromDiscr_still {g : σ → κ} (x : Nat) : Still g (fromDiscr c (σ := σ) x) := by
  unfold fromDiscr
  split
  · exact Still.pure _
  · exact Still.fail nofun

theorem get_still (i : Nat) : Still EV.foot (EV.get c i) := by
  unfold EV.get
  refine Still.bind (getRaw_still c i) fun o => ?_
  split
  · exact Still.bind (fromDiscr_still c _) fun _ => Still.pure _
  · exact Still.pure _

theorem set_still (i : Nat) (x : α) : Still EV.foot (EV.set c i x) := setRaw_still c i _

theorem setLen_still (n : Nat) : Still EV.foot (setLen c n) := fun _ => ⟨rfl, nofun⟩

theorem truncate_still (n : Nat) : Still EV.foot (truncate c n) := by
  unfold truncate
  refine Still.bind Still.read fun s => ?_
  split
  · exact setLen_still c n
  · exact Still.pure _

theorem clear_still : Still EV.foot (EV.clear c) := truncate_still c 0

theorem pop_still : Still EV.foot (pop c) := by
  unfold pop
  refine Still.bind Still.read fun s => ?_
  split
  · exact Still.pure _
  · exact Still.bind (get_still c _) fun x => Still.bind (Still.unwrap x) fun x => Still.readWrite (fun _ => rfl) (Still.pure _)

theorem swap_still (i j : Nat) : Still EV.foot (swap c i j) :=
  Still.bind (getRaw_still c i) fun a => Still.bind (Still.unwrap a) fun _ =>
    Still.bind (getRaw_still c j) fun b => Still.bind (Still.unwrap b) fun _ =>
      Still.bind (setRaw_still c _ _) fun _ => setRaw_still c _ _

theorem swapRemove_still (i : Nat) : Still EV.foot (swapRemove c i) :=
  Still.bind Still.read fun _ => Still.bind (Still.lift (uSub_nc _ _ _)) fun _ => Still.bind (swap_still c _ _) fun _ =>
    Still.bind (pop_still c) fun x => Still.unwrap x

theorem block_still (i : Nat) : Still EV.foot (block c i) := fun s => by
  unfold block
  split <;> exact ⟨rfl, nofun⟩

theorem setBlock_still (i : Nat) (b : BitVec c.W) : Still EV.foot (setBlock c i b) := fun s => ⟨by simp [setBlock, EV.foot], nofun⟩

theorem insertSlowStep_still (i d : Nat) : Still EV.foot (insertSlowStep c i d) :=
  Still.bind (getRawUnchecked_still c i) fun _ => Still.bind (setRawUnchecked_still c i _) fun _ => Still.pure _

theorem insertFastStep_still (j : Nat) (b : BitVec c.W) : Still EV.foot (insertFastStep c j b) :=
  Still.bind (block_still c j) fun _ => Still.bind (Still.lift (shiftUp_nc c _ _)) fun _ => Still.bind (setBlock_still c j _) fun _ => Still.pure _

theorem removeSlowStep_still (i : Nat) (u : Unit) : Still EV.foot (removeSlowStep c i u) :=
  Still.bind (getRawUnchecked_still c _) fun _ => setRawUnchecked_still c i _

theorem removeFastStep_still (j : Nat) (b : BitVec c.W) : Still EV.foot (removeFastStep c j b) :=
  Still.bind (block_still c j) fun _ => Still.bind (Still.lift (shiftDown_nc c _ _)) fun _ => Still.bind (setBlock_still c j _) fun _ => Still.pure _

theorem remove_still (i : Nat) : Still EV.foot (EV.remove c i) := by
  unfold EV.remove
  refine Still.bind (get_still c _) fun x => Still.bind (Still.unwrap x) fun x => Still.bind Still.read fun s =>
    Still.bind (Still.lift (uMul_nc _ _ _)) fun _ => Still.bind (Still.loop (removeSlowStep_still c) _ _ _) fun _ =>
    Still.bind Still.read fun s => Still.bind (getRawUnchecked_still c _) fun _ => Still.readWrite (fun _ => rfl) ?_
  refine Still.bind Still.read fun s => ?_
  split
  · exact Still.bind (Still.loop (fun _ _ => removeFastStep_still c _ _) _ _ _) fun _ => Still.pure _
  · exact Still.pure _

theorem anyBlocks_still (x : BitVec c.W) : ∀ n i, Still EV.foot (anyBlocks c x n i)
  | 0, _ => Still.pure _
  | n + 1, i => by
    unfold anyBlocks
    refine Still.bind (block_still c i) fun b => ?_
    split
    · exact Still.pure _
    · exact anyBlocks_still x n (i + 1)

theorem allBlocks_still (v x : BitVec c.W) : ∀ n i, Still EV.foot (allBlocks c v x n i)
  | 0, _ => Still.pure _
  | n + 1, i => by
    unfold allBlocks
    refine Still.bind (block_still c i) fun b => ?_
    split
    · exact Still.pure _
    · exact allBlocks_still v x n (i + 1)

theorem any_still (x : α) : Still EV.foot (EV.any c x) := by
  unfold EV.any
  refine Still.bind Still.read fun s => ?_
  dsimp only
  split
  · exact Still.pure _
  refine Still.bind (Still.lift (blkMul_nc _ _ _)) fun _ => Still.bind (anyBlocks_still c _ _ _) fun f => ?_
  split
  · exact Still.pure _
  split
  · refine Still.bind (block_still c _) fun b => ?_
    split <;> exact Still.pure _
  · exact Still.pure _

theorem all_still (x : α) : Still EV.foot (EV.all c x) := by
  unfold EV.all
  refine Still.bind Still.read fun s => ?_
  dsimp only
  split
  · exact Still.pure _
  refine Still.bind (Still.lift (blkMul_nc _ _ _)) fun _ => Still.bind (allBlocks_still c _ _ _ _) fun f => ?_
  split
  · exact Still.pure _
  split
  · refine Still.bind (block_still c _) fun b => ?_
    split <;> exact Still.pure _
  · exact Still.pure _

theorem call_still {g : σ → κ} (f : Closure τ α β) (x : α) : Still (fun p : σ × τ => g p.1) (call f x) := fun p => by
  unfold call
  split <;> exact ⟨rfl, nofun⟩

theorem retain_still (f : Closure τ α Bool) : Still (fun p : EV c.W × τ => p.1.foot) (retain c f) := by
  unfold retain
  refine Still.bind Still.read fun s => Still.bind (Still.loop (fun i a => ?_) _ _ _) fun n => (setLen_still c n).onFst
  refine Still.bind (get_still c _).onFst fun x => Still.bind (Still.unwrap x) fun x => Still.bind (call_still f x) fun k => ?_
  split
  · exact Still.bind (set_still c _ _).onFst fun _ => Still.pure _
  · exact Still.pure _

theorem forEach_still (f : Closure τ α α) : Still (fun p : EV c.W × τ => p.1.foot) (forEach c f) := by
  unfold forEach
  refine Still.bind Still.read fun s => Still.loop (fun i a => ?_) _ _ _
  exact Still.bind (get_still c _).onFst fun x => Still.bind (Still.unwrap x) fun x => Still.bind (call_still f x) fun x => (set_still c _ _).onFst

theorem eqLoop_nc (a b : EV c.W) : ∀ n i, eqLoop c a b n i ≠ .error .capacity
  | 0, _ => nofun
  | n + 1, i => by
    have h1 := rawUnchecked_nc c a i
    have h2 := rawUnchecked_nc c b i
    unfold eqLoop
    rcases hx : rawUnchecked c a i with e | x <;> rw [hx] at h1
    · exact fun he => h1 (by cases he; rfl)
    · rcases hy : rawUnchecked c b i with e | y <;> rw [hy] at h2
      · exact fun he => h2 (by cases he; rfl)
      · dsimp only; split
        · nofun
        · exact eqLoop_nc a b n (i + 1)

theorem eq_nc (a b : EV c.W) : EV.eq c a b ≠ .error .capacity := by
  unfold EV.eq; split
  · exact eqLoop_nc c a b _ _
  · nofun

theorem hashLoop_nc (s : EV c.W) : ∀ n i, hashLoop c s n i ≠ .error .capacity
  | 0, _ => nofun
  | n + 1, i => by
    have h1 := rawUnchecked_nc c s i
    have h2 := hashLoop_nc s n (i + 1)
    unfold hashLoop
    rcases hx : rawUnchecked c s i with e | x <;> rw [hx] at h1
    · exact fun he => h1 (by cases he; rfl)
    · dsimp only
      rcases hy : hashLoop c s n (i + 1) with e | l <;> rw [hy] at h2
      · exact fun he => h2 (by cases he; rfl)
      · nofun

theorem hash_nc (s : EV c.W) : EV.hash c s ≠ .error .capacity := hashLoop_nc c s _ _

theorem item_still (x : Nat) : Still (fun _ => ()) (item c x) := fun t => by
  refine ⟨rfl, ?_⟩
  have := get_still c x t.v
  unfold item
  rcases hx : EV.get c x t.v with ⟨e | _ | a, v⟩ <;> rw [hx] at this
  · exact fun he => this.2 (by cases he; rfl)
  · nofun
  · nofun

theorem mapItem_still (o : Option Nat) : Still (fun _ => ()) (mapItem c o) := by
  unfold mapItem
  split
  · exact Still.bind (item_still c _) fun _ => Still.pure _
  · exact Still.pure _

theorem next_still : Still (fun _ => ()) (EV.next c) := fun t => mapItem_still c _ _
theorem nextBack_still : Still (fun _ => ()) (EV.nextBack c) := fun t => mapItem_still c _ _
theorem nth_still (n : Nat) : Still (fun _ => ()) (EV.nth c n) := fun t => mapItem_still c _ _

theorem collect_still : ∀ n, Still (fun _ => ()) (collect c n)
  | 0 => Still.pure _
  | n + 1 => by
    unfold collect
    refine Still.bind (next_still c) fun o => ?_
    cases o
    · exact Still.pure _
    · exact Still.bind (collect_still n) fun _ => Still.pure _

theorem toVec_nc (s : EV c.W) : EV.toVec c s ≠ .error .capacity := (collect_still c _ _).2

theorem iterRun_still : ∀ calls, Still (fun _ => ()) (iterRun c calls)
  | [] => Still.pure _
  | o :: os => by
    unfold iterRun
    refine Still.bind ?_ fun _ => Still.bind (iterRun_still os) fun _ => Still.pure _
    cases o
    · exact Still.bind (next_still c) fun _ => Still.pure _
    · exact Still.bind (nextBack_still c) fun _ => Still.pure _
    · exact Still.bind (nth_still c _) fun _ => Still.pure _
    · exact Still.bind Still.read fun _ => Still.pure _

end

/-! ## Calls that ask for memory -/

/-- The storage after the call, and whether memory was refused. -/
def FootRun {W : Nat} (r : Except Fault β × EV W) (p : Bool × Foot) : Prop := r.2.foot = p.2 ∧ (r.1 = .error .capacity ↔ p.1 = false)

theorem FootRun.ok {W : Nat} {a : β} {s : EV W} {p : Bool × Foot} (h : FootRun (.ok a, s) p) : p = (true, s.foot) := by
  obtain ⟨h1, h2⟩ := h
  rcases p with ⟨_ | _, f⟩
  · exact absurd (h2.mpr rfl) nofun
  · exact congrArg _ h1.symm

theorem FootRun.refused {W : Nat} {s : EV W} {p : Bool × Foot} (h : FootRun ((.error .capacity, s) : Except Fault β × EV W) p) : p = (false, s.foot) := by
  obtain ⟨h1, h2⟩ := h
  rcases p with ⟨b, f⟩
  have : b = false := h2.mp rfl
  subst this
  exact congrArg _ h1.symm

theorem FootRun.seq {W : Nat} {m : M (EV W) β} {f : β → M (EV W) γ} {s : EV W} {p : Bool × Foot} {g : Foot → Bool × Foot} {P : β → EV W → Prop}
    (h : FootRun (m s) p) (hr : Runs (m s) P fun e _ => e = .capacity) (hf : ∀ a s', P a s' → FootRun (f a s') (g s'.foot)) :
    FootRun ((m >>= f) s) (Foot.andThen p g) := by
  rw [M.bind_apply]
  rcases hm : m s with ⟨e | a, s'⟩ <;> rw [hm] at h hr
  · obtain rfl : e = .capacity := hr
    rw [h.refused]
    exact ⟨rfl, iff_of_true rfl rfl⟩
  · rw [h.ok]
    exact hf a s' hr

theorem FootRun.still {W : Nat} {m : M (EV W) β} (h : Still EV.foot m) (s : EV W) : FootRun (m s) (true, s.foot) :=
  ⟨(h s).1, iff_of_false (h s).2 nofun⟩

/-- Something that does not fail, then a call that leaves the storage. -/
theorem FootRun.thenStill {W : Nat} {m : M (EV W) β} {f : β → M (EV W) γ} {s : EV W} {p : Bool × Foot} 
    (h : FootRun (m s) p) (hf : ∀ a, Still EV.foot (f a)) : FootRun ((m >>= f) s) p := by
  rw [M.bind_apply]
  rcases hm : m s with ⟨e | a, s'⟩ <;> rw [hm] at h
  · exact ⟨h.1, ⟨fun he => h.2.mp (by cases he; rfl), fun hp => by have := h.2.mpr hp; cases this; rfl⟩⟩
  · have h1 := hf a s'
    rw [h.ok]
    exact ⟨h1.1, iff_of_false h1.2 nofun⟩

theorem RVec.reserve_foot {W : Nat} (a : Alloc) (v : RVec W) (k : Nat) :
    match RVec.reserve a v k with
    | .ok v' => Foot.room a (v.data.length + k) ⟨v.data.length, v.cap⟩ = (true, ⟨v.data.length, v'.cap⟩) ∧ v'.data = v.data
    | .error e => Foot.room a (v.data.length + k) ⟨v.data.length, v.cap⟩ = (false, ⟨v.data.length, v.cap⟩) ∧ e = .capacity := by
  unfold RVec.reserve Foot.room
  show match (if v.data.length + k ≤ v.cap then _ else _ : Except Fault (RVec W)) with | .ok v' => _ | .error e => _
  dsimp only
  by_cases h : v.data.length + k ≤ v.cap
  · rw [if_pos h, if_pos h]
    exact ⟨rfl, rfl⟩
  · rw [if_neg h, if_neg h]
    show match (match a.grow v.cap (v.data.length + k) with | some k => _ | none => _ : Except Fault (RVec W)) with | .ok v' => _ | .error e => _
    rcases a.grow v.cap (v.data.length + k) with _ | n
    · exact ⟨rfl, rfl⟩
    · exact ⟨rfl, rfl⟩

theorem RVec.resize_foot {W : Nat} (a : Alloc) (v : RVec W) (n : Nat) (x : BitVec W) :
    match RVec.resize a v n x with
    | .ok v' => Foot.use a n ⟨v.data.length, v.cap⟩ = (true, ⟨v'.data.length, v'.cap⟩)
    | .error e => Foot.use a n ⟨v.data.length, v.cap⟩ = (false, ⟨v.data.length, v.cap⟩) ∧ e = .capacity := by
  have e : RVec.resize a v n x = if n ≤ v.data.length then .ok (v.truncate n)
    else match RVec.reserve a v (n - v.data.length) with
      | .ok v' => .ok { v' with data := v'.data ++ List.replicate (n - v.data.length) x }
      | .error e => .error e := rfl
  rw [e]
  unfold Foot.use
  dsimp only
  by_cases h : n ≤ v.data.length
  · rw [if_pos h, if_pos h]
    show _ = (true, Foot.mk (v.data.take n).length v.cap)
    rw [List.length_take, Nat.min_eq_left h]
  · rw [if_neg h, if_neg h]
    have := RVec.reserve_foot a v (n - v.data.length)
    rw [show v.data.length + (n - v.data.length) = n by omega] at this
    rcases hx : RVec.reserve a v (n - v.data.length) with e | v' <;> rw [hx] at this
    · obtain ⟨h1, h2⟩ := this
      rw [h1]; exact ⟨rfl, h2⟩
    · obtain ⟨h1, h2⟩ := this
      rw [h1]
      show _ = (true, Foot.mk (v'.data ++ List.replicate (n - v.data.length) x).length v'.cap)
      rw [h2, List.length_append, List.length_replicate, show v.data.length + (n - v.data.length) = n by omega]

section
variable {c : Inst α} {strict : Prop} (hc : c.Fits strict)
include hc

theorem reserve_foot (s : EV c.W) (k : Nat) : FootRun (EV.reserve c k s) (Foot.reserve c s.num k s.foot) := by
  by_cases hw : c.AtLimit (s.num + k)
  · rw [reserve_limit hw]
    unfold Foot.reserve
    rw [if_pos hw]
    cases c.build.checked
    · simp only [Bool.false_eq_true, if_false]
      refine ⟨?_, iff_of_false nofun nofun⟩
      show Foot.mk (s.storage.data.take 0).length s.storage.cap = Foot.mk 0 s.storage.cap
      rw [List.take_zero]; rfl
    · exact ⟨rfl, iff_of_false nofun nofun⟩
  unfold EV.reserve Foot.reserve
  rw [if_neg hw]
  by_cases hk : s.num + k < c.build.usizeLim
  · rw [if_pos (show EV.len c s + k < c.build.usizeLim from hk), if_pos hk]
    dsimp only [EV.len]
    rw [reserve_sum hc hk hw]
    dsimp only
    have := RVec.resize_foot c.alloc s.storage ((s.num + k) / c.epb + 1) 0
    rcases hx : RVec.resize c.alloc s.storage ((s.num + k) / c.epb + 1) 0 with e | v' <;> rw [hx] at this
    · obtain ⟨h1, rfl⟩ := this
      rw [show s.foot = ⟨s.storage.data.length, s.storage.cap⟩ from rfl, h1]
      exact ⟨rfl, iff_of_true rfl rfl⟩
    · rw [show s.foot = ⟨s.storage.data.length, s.storage.cap⟩ from rfl, this]
      exact ⟨rfl, iff_of_false nofun nofun⟩
  · rw [if_neg (show ¬ EV.len c s + k < c.build.usizeLim from hk), if_neg hk]
    exact ⟨rfl, iff_of_true rfl rfl⟩

theorem full_iff {s : EV c.W} (h : Safe c s) :
    (EV.len c s % c.epb = 0 ∧ blocksForElements c (EV.len c s) = s.storage.len) ↔ s.num = s.foot.blocks * c.epb := by
  show (s.num % c.epb = 0 ∧ blocksForElements c s.num = s.storage.data.length) ↔ s.num = s.storage.data.length * c.epb
  rw [h.blocks_eq hc]
  constructor
  · rintro ⟨h1, h2⟩
    rw [blocks_of_dvd hc h1] at h2
    rw [← h2]
    have := Nat.div_add_mod s.num c.epb
    rw [Nat.mul_comm]; omega
  · intro h1
    have h2 : s.num % c.epb = 0 := by rw [h1]; exact Nat.mul_mod_left _ _
    refine ⟨h2, ?_⟩
    rw [blocks_of_dvd hc h2, h1, Nat.mul_div_cancel _ hc.epb_pos]

theorem growIfNeeded_foot {s : EV c.W} (h : Safe c s) : FootRun (growIfNeeded c s) (Foot.push c s.num s.foot) := by
  unfold growIfNeeded Foot.push
  by_cases hf : s.num = s.foot.blocks * c.epb
  · rw [if_pos ((full_iff hc h).mpr hf), if_pos hf]
    have := RVec.reserve_foot c.alloc s.storage 1
    show FootRun (match RVec.push c.alloc s.storage 0 with
      | .ok st => (.ok (), { s with storage := st })
      | .error e => (.error e, s)) (Foot.use c.alloc (s.storage.data.length + 1) ⟨s.storage.data.length, s.storage.cap⟩)
    unfold Foot.use RVec.push
    rw [if_neg (by show ¬ s.storage.data.length + 1 ≤ s.storage.data.length; omega)]
    rcases hx : RVec.reserve c.alloc s.storage 1 with e | v' <;> rw [hx] at this
    · obtain ⟨h1, rfl⟩ := this
      rw [h1]
      exact ⟨rfl, iff_of_true rfl rfl⟩
    · obtain ⟨h1, h2⟩ := this
      rw [h1]
      refine ⟨?_, iff_of_false nofun nofun⟩
      show Foot.mk (v'.data ++ [0]).length v'.cap = _
      rw [h2, List.length_append]; rfl
  · rw [if_neg (fun h1 => hf ((full_iff hc h).mp h1)), if_neg hf]
    exact ⟨rfl, iff_of_false nofun nofun⟩

theorem push_foot {s : EV c.W} (h : Safe c s) (x : α) : FootRun (EV.push c x s) (Foot.push c s.num s.foot) := by
  have key : FootRun (EV.push c x s) (Foot.andThen (Foot.push c s.num s.foot) fun f => (true, f)) := by
    unfold EV.push
    refine FootRun.seq (growIfNeeded_foot hc h) ((growIfNeeded_safe hc h).mono (fun _ _ h => h) fun _ _ h => h.1) ?_
    rintro _ s1 ⟨h1, h2, h3, -⟩
    rw [M.read_bind]
    have hroom := h1.dataRoom hc
    have hep := hc.epb_pos
    simp only [show s1.num + 1 < c.build.usizeLim by omega, if_true]
    rw [M.write_bind]
    have := set_still c s1.num x (⟨s1.storage, s1.num + 1⟩ : EV c.W)
    exact ⟨this.1, iff_of_false this.2 nofun⟩
  rcases hp : Foot.push c s.num s.foot with ⟨_ | _, f⟩ <;> rw [hp] at key <;> exact key

theorem insert_foot {s : EV c.W} (h : Safe c s) (i : Nat) (x : α) : FootRun (EV.insert c i x s) (Foot.push c s.num s.foot) := by
  unfold EV.insert
  refine (push_foot hc h x).thenStill fun _ => ?_
  dsimp only
  refine Still.bind Still.read fun s => Still.bind ?_ fun p => ?_
  · split
    · exact Still.bind (Still.lift (uAdd_nc _ _ _)) fun _ => Still.bind (Still.loop (insertSlowStep_still c) _ _ _) fun _ => Still.pure _
    · exact Still.pure _
  · refine Still.bind Still.read fun s => ?_
    split
    · exact Still.bind (Still.loop (insertFastStep_still c) _ _ _) fun _ => Still.pure _
    · exact Still.pure _

theorem extendRest_foot (panics : Bool) : ∀ (items : List α) {s : EV c.W}, Safe c s →
    FootRun (extendRest c panics items s) (Foot.pushes c items.length s.num s.foot)
  | [], s, _ => by
    unfold extendRest
    cases panics <;> exact ⟨rfl, iff_of_false nofun nofun⟩
  | x :: items, s, h => by
    unfold extendRest
    refine FootRun.seq (push_foot hc h x) ((push_any hc h x).mono (fun _ _ h => h) fun _ _ h => h.1) ?_
    rintro _ s1 ⟨h1, h2, -⟩
    rw [← h2]
    exact extendRest_foot panics items h1

theorem extendHinted_runs (panics : Bool) : ∀ (n pos : Nat) (items : List α) {s : EV c.W}, Safe c s → pos + n ≤ s.num →
    Runs (extendHinted c panics n pos items s) (fun rest s' => Safe c s' ∧ s'.num = s.num ∧ rest.length + n = items.length)
      (fun _ _ => items.length < n)
  | 0, _, items, s, h, _ => ⟨h, rfl, rfl⟩
  | n + 1, pos, x :: items, s, h, hn => by
    unfold extendHinted
    have : EV.set c pos x s = _ := setRaw_lt hc h (c.E.toDiscr x) (i := pos) (by omega)
    rw [M.bind_ok this]
    refine (extendHinted_runs panics n (pos + 1) items (putRaw_safe hc h _ _) (by show _ ≤ s.num; omega)).mono ?_ ?_
    · rintro rest s' ⟨h1, h2, h3⟩
      exact ⟨h1, h2, by rw [List.length_cons]; omega⟩
    · intro _ _ h; rw [List.length_cons]; omega
  | n + 1, _, [], s, h, hn => by
    unfold extendHinted
    cases panics <;> exact Nat.succ_pos n

omit hc in
theorem extendHinted_still (panics : Bool) : ∀ (n pos : Nat) (items : List α), Still EV.foot (extendHinted c panics n pos items)
  | 0, _, items => Still.pure items
  | n + 1, pos, x :: items => (set_still c pos x).bind fun _ => extendHinted_still panics n (pos + 1) items
  | _ + 1, _, [] => Still.fail (by cases panics <;> simp)

theorem extend_foot {s : EV c.W} (h : Safe c s) (it : Src α) :
    FootRun (EV.extend c it s) (Foot.extend c s.num it.hint it.items.length s.foot) := by
  by_cases hw : c.AtLimit (s.num + it.hint)
  · have hk := reserve_foot hc s it.hint
    unfold Foot.extend
    rw [if_pos hw]
    cases hck : c.build.checked
    · obtain ⟨e, e1, he⟩ : ∃ e, EV.extend c it s = (.error e, ⟨s.storage.truncate 0, s.num + it.hint⟩) ∧ e ≠ Fault.capacity := by
        by_cases hi : it.items = []
        · exact ⟨_, extend_limit_nil hw hck hi (h.hint_pos hc hw), by cases it.panics <;> nofun⟩
        · exact ⟨_, extend_limit_ub hw hck hi (h.hint_pos hc hw), nofun⟩
      rw [e1]
      rw [reserve_limit hw, hck] at hk
      refine ⟨hk.1, ?_⟩
      unfold Foot.reserve
      rw [if_pos hw]
      exact iff_of_false (fun h => he (Except.error.inj h)) nofun
    · rw [extend_limit_debug hw hck]
      rw [reserve_limit hw, hck] at hk
      exact hk
  unfold EV.extend Foot.extend
  rw [M.read_bind, if_neg hw]
  refine FootRun.seq (reserve_foot hc s it.hint) ((reserve_safe hc h hw).mono (fun _ _ h => h) fun _ _ h => h.1) ?_
  rintro _ s1 ⟨h1, h2, h3, h4, _⟩
  rw [M.read_bind]
  have : uAdd c.build s1.num it.hint = .ok (s1.num + it.hint) := by
    unfold uAdd; rw [if_pos (by omega)]
  rw [this, M.lift_ok_bind, M.write_bind, h2]
  have hs2 : Safe c (⟨s1.storage, s.num + it.hint⟩ : EV c.W) := by
    refine ⟨?_, h1.capLen, h1.capBound⟩
    show s.num + it.hint ≤ s1.storage.data.length * c.epb
    rw [h3, Nat.add_mul, Nat.one_mul]
    have h4 := Nat.div_add_mod (s.num + it.hint) c.epb
    have h5 := Nat.mod_lt (s.num + it.hint) hc.epb_pos
    rw [Nat.mul_comm]; omega
  have k1 := extendHinted_runs hc it.panics it.hint s.num it.items hs2 (Nat.le_refl _)
  have k2 := extendHinted_still (c := c) it.panics it.hint s.num it.items (⟨s1.storage, s.num + it.hint⟩ : EV c.W)
  show FootRun ((extendHinted c it.panics it.hint s.num it.items >>= extendRest c it.panics) (⟨s1.storage, s.num + it.hint⟩ : EV c.W)) _
  rw [M.bind_apply]
  rcases hx : extendHinted c it.panics it.hint s.num it.items (⟨s1.storage, s.num + it.hint⟩ : EV c.W) with ⟨e | rest, s2⟩ <;> rw [hx] at k1 k2
  · have k1 : it.items.length < it.hint := k1
    rw [show it.items.length - it.hint = 0 by omega]
    exact ⟨k2.1, iff_of_false (fun he => k2.2 (by cases he; rfl)) nofun⟩
  · obtain ⟨g1, g2, g3⟩ := k1
    have := extendRest_foot hc it.panics rest g1
    rw [g2, k2.1, show rest.length = it.items.length - it.hint by omega] at this
    exact this

theorem repeat_runs {s : EV c.W} (h : Safe c s) (x : α) {n : Nat} (hn : n ≤ 4 * c.epb) :
    Runs (EV.extend c (repeatTake x n) s) (fun _ s' => Safe c s' ∧ s'.num = s.num + n) (fun e _ => e = .capacity) := by
  unfold EV.extend
  rw [M.read_bind]
  refine runs_seq (reserve_safe (k := n) hc h (h.not_atLimit hc hn)) (fun _ _ h => h.1) ?_
  rintro _ s1 ⟨h1, h2, h3, h4, _⟩
  rw [M.read_bind]
  have : uAdd c.build s1.num (repeatTake x n).hint = .ok (s1.num + n) := by
    show uAdd c.build s1.num n = _
    unfold uAdd; rw [if_pos (by omega)]
  rw [this, M.lift_ok_bind, M.write_bind, h2]
  have hs2 : Safe c (⟨s1.storage, s.num + n⟩ : EV c.W) := by
    refine ⟨?_, h1.capLen, h1.capBound⟩
    show s.num + n ≤ s1.storage.data.length * c.epb
    rw [h3, Nat.add_mul, Nat.one_mul]
    have h4 := Nat.div_add_mod (s.num + n) c.epb
    have h5 := Nat.mod_lt (s.num + n) hc.epb_pos
    rw [Nat.mul_comm]; omega
  refine runs_seq (extendHinted_runs hc false n s.num (List.replicate n x) hs2 (Nat.le_refl _)) (fun _ _ h => absurd h (by simp)) ?_
  rintro rest s' ⟨g1, g2, g3⟩
  rw [List.length_replicate] at g3
  obtain rfl : rest = [] := List.eq_nil_of_length_eq_zero (by omega)
  exact ⟨g1, g2⟩

theorem fixStorage_foot {s : EV c.W} (h : Safe c s) : FootRun (fixStorage c s) (true, Foot.fix c s.num s.foot) := by
  refine ⟨?_, iff_of_false nofun nofun⟩
  show Foot.mk (s.storage.data.take (blocksForElements c s.num)).length s.storage.cap = _
  rw [List.length_take, h.blocks_eq hc]; rfl

theorem fill_foot (n : Nat) (v : BitVec c.W) : ∀ (k i : Nat) (u : Unit) (s : EV c.W),
    FootRun (loop (fillStep c n v) k i u s) (Foot.fill c.alloc n k s.foot)
  | 0, _, _, s => ⟨rfl, iff_of_false nofun nofun⟩
  | k + 1, i, u, s => by
    unfold loop Foot.fill
    have h1 := RVec.resize_foot c.alloc s.storage (s.storage.data.length + n) v
    have hF : FootRun (fillStep c n v i u s) (Foot.use c.alloc (s.foot.blocks + n) s.foot) := by
      unfold fillStep
      show FootRun (match RVec.resize c.alloc s.storage (s.storage.data.length + n) v with
        | .ok st => (.ok (), { s with storage := st })
        | .error e => (.error e, s)) (Foot.use c.alloc (s.storage.data.length + n) ⟨s.storage.data.length, s.storage.cap⟩)
      rcases hx : RVec.resize c.alloc s.storage (s.storage.data.length + n) v with e | st <;> rw [hx] at h1
      · obtain ⟨h1, rfl⟩ := h1
        rw [h1]; exact ⟨rfl, iff_of_true rfl rfl⟩
      · rw [h1]; exact ⟨rfl, iff_of_false nofun nofun⟩
    refine FootRun.seq hF (P := fun _ _ => True) ?_ fun a s' _ => fill_foot n v k (i + 1) a s'
    unfold fillStep
    show Runs (match RVec.resize c.alloc s.storage (s.storage.data.length + n) v with
        | .ok st => (.ok (), { s with storage := st })
        | .error e => (.error e, s)) _ _
    rcases hx : RVec.resize c.alloc s.storage (s.storage.data.length + n) v with e | st <;> rw [hx] at h1
    · exact h1.2
    · trivial

theorem extendWithValue_foot {s : EV c.W} (h : Safe c s) (x : α) (n : Nat) :
    FootRun (extendWithValue c x n s) (Foot.repeated c s.num n s.foot) := by
  have hlen : ∀ k, (repeatTake x k).items.length = k := fun k => List.length_replicate
  have hext : ∀ {t : EV c.W}, Safe c t → ∀ k, k ≤ 4 * c.epb → FootRun (EV.extend c (repeatTake x k) t) (Foot.extend c t.num k k t.foot) := by
    intro t ht k hk
    have := extend_foot hc ht (repeatTake x k)
    rwa [hlen] at this
  unfold extendWithValue Foot.repeated
  by_cases hn : n ≤ 4 * c.epb
  · rw [if_pos hn, if_pos hn]; exact hext h n hn
  rw [if_neg hn, if_neg hn, M.read_bind]
  dsimp only [EV.len]
  have hep := hc.epb_pos
  have hmod := Nat.mod_lt s.num hep
  generalize hfirst : c.epb - s.num % c.epb = first
  have hle : first ≤ n := by omega
  have hle4 : first ≤ 4 * c.epb := by omega
  refine FootRun.seq (hext h first hle4) (repeat_runs hc h x hle4) ?_
  rintro _ s1 ⟨hs1, h1n⟩
  rw [M.read_bind]
  obtain ⟨s2, h2, hs2, h2n, h2c, h2l, _⟩ := fixStorage_safe hc hs1
  have hfix := fixStorage_foot hc hs1
  rw [h2] at hfix
  have hfix := (Prod.mk.inj hfix.ok).2
  rw [M.bind_ok h2, M.read_bind]
  rw [← h1n, hfix]
  generalize hcb : (n - first) / c.epb = m
  have hlast : n - (first + m * c.epb) = (n - first) % c.epb := by
    have := Nat.div_add_mod (n - first) c.epb
    rw [hcb, Nat.mul_comm] at this
    omega
  rw [hlast]
  have hlast4 : (n - first) % c.epb ≤ 4 * c.epb := by have := Nat.mod_lt (n - first) hep; omega
  generalize (n - first) % c.epb = last at hlast4 ⊢
  have hif : (if last > 0 then 1 else 0) = if 0 < last then 1 else 0 := rfl
  rw [hif]
  generalize (m + if 0 < last then 1 else 0) = extra
  have hrf := RVec.reserve_foot c.alloc s2.storage extra
  have hr := RVec.reserve_res hc.lawful hc.bounded s2.storage extra hs2.capLen
  rw [show s2.foot = ⟨s2.storage.data.length, s2.storage.cap⟩ from rfl]
  show FootRun _ (Foot.andThen (Foot.room c.alloc (s2.storage.data.length + extra) _) _)
  cases hx : RVec.reserve c.alloc s2.storage extra with
  | error e =>
    rw [hx] at hr hrf
    rw [M.lift_error_bind, hrf.1, hrf.2]
    exact ⟨rfl, iff_of_true rfl rfl⟩
  | ok st =>
    rw [hx] at hr hrf
    obtain ⟨g1, g2, g3, g4⟩ := hr
    obtain ⟨k1, k2⟩ := hrf
    rw [M.lift_ok_bind, M.write_bind, k1]
    have hs3 : Safe c (⟨st, s2.num⟩ : EV c.W) := by
      refine ⟨?_, ?_, ?_⟩
      · show s2.num ≤ st.data.length * c.epb
        rw [g1]; exact hs2.cover
      · exact g3.fits
      · exact g3.capBound hs2.capBound
    have hft : Foot.mk s2.storage.data.length st.cap = (⟨st, s2.num⟩ : EV c.W).foot := by
      show _ = Foot.mk st.data.length st.cap
      rw [k2]
    show FootRun _ (Foot.andThen (Foot.fill c.alloc m m _) _)
    rw [hft]
    refine FootRun.seq (fill_foot hc m _ m 0 () _) ((fillLoop hc m (spread (BitVec.ofNat c.W (c.E.toDiscr x)) c.bits) hs3 m).mono (fun _ _ h => h) fun _ _ h => h.1) ?_
    rintro _ s4 ⟨hs4, h4n, _, h4d⟩
    have hcov : s1.num + m * c.epb ≤ s4.storage.data.length * c.epb := by
      rw [h4d, List.length_append, List.length_replicate, Nat.add_mul]
      have e1 : s1.num ≤ st.data.length * c.epb := by rw [g1, h2l]; exact blocks_mul hc _
      have e2 : m * c.epb ≤ m * m * c.epb := by
        apply Nat.mul_le_mul_right
        rcases Nat.eq_zero_or_pos m with h | h
        · simp [h]
        · exact Nat.le_mul_of_pos_left _ h
      show _ ≤ st.data.length * c.epb + _
      omega
    have hroom := hs4.dataRoom hc
    have hadd : uAdd c.build s1.num (m * c.epb) = .ok (s1.num + m * c.epb) := by
      unfold uAdd; rw [if_pos (by omega)]
    rw [hadd, M.lift_ok_bind]
    exact hext (t := ⟨s4.storage, s1.num + m * c.epb⟩) ⟨hcov, hs4.capLen, hs4.capBound⟩ last hlast4

theorem resize_foot {s : EV c.W} (h : Safe c s) (n : Nat) (x : α) :
    FootRun (EV.resize c n x s) (if s.num < n then Foot.repeated c s.num (n - s.num) s.foot else (true, s.foot)) := by
  unfold EV.resize
  rw [M.read_bind]
  by_cases hn : s.num < n
  · rw [if_pos (show n > EV.len c s from hn), if_pos hn]; exact extendWithValue_foot hc h x _
  · rw [if_neg (show ¬ n > EV.len c s from hn), if_neg hn]; exact FootRun.still (truncate_still c n) s

theorem shrinkToFit_foot {s : EV c.W} (h : Safe c s) : FootRun (EV.shrinkToFit c s)
    (true, ⟨(Foot.fix c s.num s.foot).blocks, c.alloc.shrinkTo s.foot.cap (Foot.fix c s.num s.foot).blocks⟩) := by
  unfold EV.shrinkToFit
  obtain ⟨s2, h2, hs2, h2n, h2c, h2l, _⟩ := fixStorage_safe hc h
  have hfix := fixStorage_foot hc h
  rw [h2] at hfix
  have hfix := (Prod.mk.inj hfix.ok).2
  rw [M.bind_ok h2, M.read_bind]
  refine ⟨?_, iff_of_false nofun nofun⟩
  rw [hfix]
  show Foot.mk s2.storage.data.length (c.alloc.shrinkTo s2.storage.cap s2.storage.data.length) = ⟨s2.storage.data.length, c.alloc.shrinkTo s.storage.cap s2.storage.data.length⟩
  rw [h2c]

end
end EnumVecModel
