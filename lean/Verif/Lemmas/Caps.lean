import Verif.Lemmas.Realloc
import Verif.Lemmas.Frame

set_option linter.unusedSectionVars false

/-! # What calls do to the capacity of the storage, in any state -/

namespace EnumVecModel
open EV

variable {α β γ τ : Type}

/-- The call changes the capacity according to `R`, also when it fails. -/
def Caps {W : Nat} (R : Nat → Nat → Prop) (m : M (EV W) β) : Prop := ∀ s, R s.storage.cap (m s).2.storage.cap

/-- A relation on capacities that composes. -/
structure CapRel (R : Nat → Nat → Prop) : Prop where
  refl : ∀ n, R n n
  trans : ∀ {a b c}, R a b → R b c → R a c

theorem capRel_eq : CapRel (· = ·) := ⟨fun _ => rfl, Eq.trans⟩
theorem capRel_le : CapRel (· ≤ ·) := ⟨Nat.le_refl, Nat.le_trans⟩

section
variable {W : Nat} {R : Nat → Nat → Prop} (hR : CapRel R)
include hR

theorem Caps.bind {m : M (EV W) β} {f : β → M (EV W) γ} (h : Caps R m) (hf : ∀ a, Caps R (f a)) : Caps R (m >>= f) := fun s => by
  have h1 := h s
  rw [M.bind_apply]
  rcases hm : m s with ⟨e | a, s'⟩ <;> rw [hm] at h1
  · exact h1
  · exact hR.trans h1 (hf a s')

theorem Caps.pure (a : β) : Caps R (Pure.pure a : M (EV W) β) := fun _ => hR.refl _
theorem Caps.fail (e : Fault) : Caps R (M.fail e : M (EV W) β) := fun _ => hR.refl _
theorem Caps.lift (r : Except Fault β) : Caps R (M.lift r : M (EV W) β) := fun _ => hR.refl _
theorem Caps.read : Caps R (M.read : M (EV W) (EV W)) := fun _ => hR.refl _

theorem Caps.unwrap (o : Option β) : Caps R (M.unwrap o : M (EV W) β) := fun s => by
  cases o <;> exact hR.refl _

/-- `read` then something about the state read. -/
theorem Caps.readBind {f : EV W → M (EV W) β} (h : ∀ s, R s.storage.cap (f s s).2.storage.cap) : Caps R (M.read >>= f) := fun s => by
  rw [M.read_bind]; exact h s

theorem Caps.ite {p : Prop} [Decidable p] {a b : M (EV W) β} (ha : Caps R a) (hb : Caps R b) : Caps R (if p then a else b) := by
  split <;> assumption

theorem Caps.loop {body : Nat → β → M (EV W) β} (h : ∀ i a, Caps R (body i a)) : ∀ n i a, Caps R (loop body n i a)
  | 0, _, a => Caps.pure hR a
  | n + 1, i, a => Caps.bind hR (h i a) fun a => Caps.loop h n (i + 1) a

end

theorem Caps.of_eq {W : Nat} {R : Nat → Nat → Prop} (hR : CapRel R) {m : M (EV W) β} (h : Caps (· = ·) m) : Caps R m := fun s => by
  rw [← h s]; exact hR.refl _

section
variable (c : Inst α) {R : Nat → Nat → Prop} (hR : CapRel R)
include hR

theorem getRawUnchecked_caps (i : Nat) : Caps R (getRawUnchecked c i) := fun _ => hR.refl _

theorem setRawUnchecked_caps (i d : Nat) : Caps R (setRawUnchecked c i d) := fun s => by
  unfold setRawUnchecked
  split <;> exact hR.refl _

theorem getRaw_caps (i : Nat) : Caps R (getRaw c i) :=
  Caps.bind hR (Caps.read hR) fun _ => Caps.ite hR (Caps.pure hR _)
    (Caps.bind hR (getRawUnchecked_caps c hR i) fun _ => Caps.pure hR _)

theorem setRaw_caps (i d : Nat) : Caps R (setRaw c i d) := by
  unfold setRaw
  refine Caps.bind hR (Caps.read hR) fun s => ?_
  split
  · exact Caps.bind hR (Caps.fail hR _) fun _ => setRawUnchecked_caps c hR i d
  · exact setRawUnchecked_caps c hR i d

theorem fromDiscr_caps (x : Nat) : Caps R (fromDiscr c (σ := EV c.W) x) := by
  unfold fromDiscr
  split
  · exact Caps.pure hR _
  · exact Caps.fail hR _

theorem get_caps (i : Nat) : Caps R (EV.get c i) := by
  unfold EV.get
  refine Caps.bind hR (getRaw_caps c hR i) fun o => ?_
  split
  · exact Caps.bind hR (fromDiscr_caps c hR _) fun _ => Caps.pure hR _
  · exact Caps.pure hR _

theorem set_caps (i : Nat) (x : α) : Caps R (EV.set c i x) := setRaw_caps c hR i _

theorem setLen_caps (n : Nat) : Caps R (setLen c n) := fun _ => hR.refl _

theorem fixStorage_caps : Caps R (fixStorage c) := fun _ => hR.refl _

theorem truncate_caps (n : Nat) : Caps R (truncate c n) := by
  unfold truncate
  refine Caps.bind hR (Caps.read hR) fun s => ?_
  split
  · exact setLen_caps c hR n
  · exact Caps.pure hR _

theorem clear_caps : Caps R (EV.clear c) := truncate_caps c hR 0

theorem pop_caps : Caps R (pop c) := by
  unfold pop
  refine Caps.bind hR (Caps.read hR) fun s => ?_
  split
  · exact Caps.pure hR _
  · exact Caps.bind hR (get_caps c hR _) fun x => Caps.bind hR (Caps.unwrap hR x) fun x => Caps.readBind hR fun s => hR.refl _

theorem swap_caps (i j : Nat) : Caps R (swap c i j) :=
  Caps.bind hR (getRaw_caps c hR i) fun a => Caps.bind hR (Caps.unwrap hR a) fun _ =>
    Caps.bind hR (getRaw_caps c hR j) fun b => Caps.bind hR (Caps.unwrap hR b) fun _ =>
      Caps.bind hR (setRaw_caps c hR _ _) fun _ => setRaw_caps c hR _ _

theorem swapRemove_caps (i : Nat) : Caps R (swapRemove c i) :=
  Caps.bind hR (Caps.read hR) fun _ => Caps.bind hR (Caps.lift hR _) fun _ => Caps.bind hR (swap_caps c hR _ _) fun _ =>
    Caps.bind hR (pop_caps c hR) fun x => Caps.unwrap hR x

theorem block_caps (i : Nat) : Caps R (block c i) := fun s => by
  unfold block
  split <;> exact hR.refl _

theorem setBlock_caps (i : Nat) (b : BitVec c.W) : Caps R (setBlock c i b) := fun _ => hR.refl _

theorem insertSlowStep_caps (i d : Nat) : Caps R (insertSlowStep c i d) :=
  Caps.bind hR (getRawUnchecked_caps c hR i) fun _ => Caps.bind hR (setRawUnchecked_caps c hR i _) fun _ => Caps.pure hR _

theorem insertFastStep_caps (j : Nat) (b : BitVec c.W) : Caps R (insertFastStep c j b) :=
  Caps.bind hR (block_caps c hR j) fun _ => Caps.bind hR (Caps.lift hR _) fun _ => Caps.bind hR (setBlock_caps c hR j _) fun _ => Caps.pure hR _

theorem removeSlowStep_caps (i : Nat) (u : Unit) : Caps R (removeSlowStep c i u) :=
  Caps.bind hR (getRawUnchecked_caps c hR _) fun _ => setRawUnchecked_caps c hR i _

theorem removeFastStep_caps (j : Nat) (b : BitVec c.W) : Caps R (removeFastStep c j b) :=
  Caps.bind hR (block_caps c hR j) fun _ => Caps.bind hR (Caps.lift hR _) fun _ => Caps.bind hR (setBlock_caps c hR j _) fun _ => Caps.pure hR _

theorem remove_caps (i : Nat) : Caps R (EV.remove c i) := by
  unfold EV.remove
  refine Caps.bind hR (get_caps c hR _) fun x => Caps.bind hR (Caps.unwrap hR x) fun x => Caps.bind hR (Caps.read hR) fun s =>
    Caps.bind hR (Caps.lift hR _) fun _ => Caps.bind hR (Caps.loop hR (removeSlowStep_caps c hR) _ _ _) fun _ =>
    Caps.bind hR (Caps.read hR) fun s => Caps.bind hR (getRawUnchecked_caps c hR _) fun _ => Caps.readBind hR fun s => ?_
  rw [M.write_bind]
  refine Caps.bind hR (Caps.read hR) (fun s => ?_) (⟨s.storage, s.num - 1⟩ : EV c.W)
  split
  · exact Caps.bind hR (Caps.loop hR (fun _ _ => removeFastStep_caps c hR _ _) _ _ _) fun _ => Caps.pure hR _
  · exact Caps.pure hR _

theorem anyBlocks_caps (x : BitVec c.W) : ∀ n i, Caps R (anyBlocks c x n i)
  | 0, _ => Caps.pure hR _
  | n + 1, i => by
    unfold anyBlocks
    refine Caps.bind hR (block_caps c hR i) fun b => ?_
    split
    · exact Caps.pure hR _
    · exact anyBlocks_caps x n (i + 1)

theorem allBlocks_caps (v x : BitVec c.W) : ∀ n i, Caps R (allBlocks c v x n i)
  | 0, _ => Caps.pure hR _
  | n + 1, i => by
    unfold allBlocks
    refine Caps.bind hR (block_caps c hR i) fun b => ?_
    split
    · exact Caps.pure hR _
    · exact allBlocks_caps v x n (i + 1)

theorem any_caps (x : α) : Caps R (EV.any c x) := by
  unfold EV.any
  refine Caps.bind hR (Caps.read hR) fun s => ?_
  dsimp only
  split
  · exact Caps.pure hR _
  refine Caps.bind hR (Caps.lift hR _) fun _ => Caps.bind hR (anyBlocks_caps c hR _ _ _) fun f => ?_
  split
  · exact Caps.pure hR _
  split
  · refine Caps.bind hR (block_caps c hR _) fun b => ?_
    split <;> exact Caps.pure hR _
  · exact Caps.pure hR _

theorem all_caps (x : α) : Caps R (EV.all c x) := by
  unfold EV.all
  refine Caps.bind hR (Caps.read hR) fun s => ?_
  dsimp only
  split
  · exact Caps.pure hR _
  refine Caps.bind hR (Caps.lift hR _) fun _ => Caps.bind hR (allBlocks_caps c hR _ _ _ _) fun f => ?_
  split
  · exact Caps.pure hR _
  split
  · refine Caps.bind hR (block_caps c hR _) fun b => ?_
    split <;> exact Caps.pure hR _
  · exact Caps.pure hR _

end

/-! ### with a second component -/

/-- As `Caps`, for the capacity `g` of a component of the state. -/
def CapsOf {σ : Type} (g : σ → Nat) (R : Nat → Nat → Prop) (m : M σ β) : Prop := ∀ s, R (g s) (g (m s).2)

section
variable {σ : Type} {g : σ → Nat} {R : Nat → Nat → Prop} (hR : CapRel R)
include hR

theorem CapsOf.bind {m : M σ β} {f : β → M σ γ} (h : CapsOf g R m) (hf : ∀ a, CapsOf g R (f a)) : CapsOf g R (m >>= f) := fun s => by
  have h1 := h s
  rw [M.bind_apply]
  rcases hm : m s with ⟨e | a, s'⟩ <;> rw [hm] at h1
  · exact h1
  · exact hR.trans h1 (hf a s')

theorem CapsOf.pure (a : β) : CapsOf g R (Pure.pure a : M σ β) := fun _ => hR.refl _
theorem CapsOf.lift (r : Except Fault β) : CapsOf g R (M.lift r : M σ β) := fun _ => hR.refl _
theorem CapsOf.read : CapsOf g R (M.read : M σ σ) := fun _ => hR.refl _

theorem CapsOf.unwrap (o : Option β) : CapsOf g R (M.unwrap o : M σ β) := fun s => by
  cases o <;> exact hR.refl _

theorem CapsOf.loop {body : Nat → β → M σ β} (h : ∀ i a, CapsOf g R (body i a)) : ∀ n i a, CapsOf g R (EnumVecModel.loop body n i a)
  | 0, _, a => CapsOf.pure hR a
  | n + 1, i, a => CapsOf.bind hR (h i a) fun a => CapsOf.loop h n (i + 1) a

end

/-- Capacity of the first and of the second vector. -/
def cap1 {W : Nat} (p : EV W × τ) : Nat := p.1.storage.cap
def cap2 {W : Nat} (p : τ × EV W) : Nat := p.2.storage.cap

section
variable (c : Inst α) {R : Nat → Nat → Prop} (hR : CapRel R)
include hR

theorem onFst_cap1 {W : Nat} {m : M (EV W) β} (h : Caps R m) : CapsOf (cap1 (τ := τ)) R (onFst m) := fun p => h p.1
theorem onSnd_cap2 {W : Nat} {m : M (EV W) β} (h : Caps R m) : CapsOf (cap2 (τ := τ)) R (onSnd m) := fun p => h p.2
theorem onFst_cap2 {W : Nat} {m : M τ β} : CapsOf (cap2 (W := W)) R (onFst m) := fun _ => hR.refl _
theorem onSnd_cap1 {W : Nat} {m : M τ β} : CapsOf (cap1 (W := W)) R (onSnd m) := fun _ => hR.refl _

theorem call_cap1 {W : Nat} (f : Closure τ α β) (x : α) : CapsOf (cap1 (W := W)) R (call f x) := fun p => by
  unfold call
  rcases f x p.2 with ⟨_ | _, t⟩ <;> exact hR.refl _

theorem retain_caps (f : Closure τ α Bool) : CapsOf cap1 R (retain c f) := by
  unfold retain
  refine CapsOf.bind hR (CapsOf.read hR) fun s => CapsOf.bind hR (CapsOf.loop hR (fun i a => ?_) _ _ _) fun _ =>
    onFst_cap1 hR (setLen_caps c hR _)
  unfold retainStep
  refine CapsOf.bind hR (onFst_cap1 hR (get_caps c hR _)) fun x => CapsOf.bind hR (CapsOf.unwrap hR x) fun x =>
    CapsOf.bind hR (call_cap1 hR f x) fun k => ?_
  split
  · exact CapsOf.bind hR (onFst_cap1 hR (set_caps c hR _ _)) fun _ => CapsOf.pure hR _
  · exact CapsOf.pure hR _

theorem forEach_caps (f : Closure τ α α) : CapsOf cap1 R (forEach c f) := by
  unfold forEach
  refine CapsOf.bind hR (CapsOf.read hR) fun s => CapsOf.loop hR (fun i a => ?_) _ _ _
  exact CapsOf.bind hR (onFst_cap1 hR (get_caps c hR _)) fun x => CapsOf.bind hR (CapsOf.unwrap hR x) fun x =>
    CapsOf.bind hR (call_cap1 hR f x) fun k => onFst_cap1 hR (set_caps c hR _ _)

end

/-! ### allocating calls change the capacity only by asking for more -/

/-- Growing relates capacities by `R`. -/
def Grows (a : Alloc) (R : Nat → Nat → Prop) : Prop := ∀ cap n k, cap < n → a.grow cap n = some k → R cap k

section
variable {c : Inst α} {R : Nat → Nat → Prop} (hR : CapRel R) (hg : Grows c.alloc R)
include hR hg

omit hg in
theorem RVec.reserve_mono {W : Nat} {a : Alloc} (ha : Grows a R) {v v' : RVec W} {n : Nat} (h : RVec.reserve a v n = .ok v') :
    R v.cap v'.cap := by
  unfold RVec.reserve at h
  split at h
  · cases h; exact hR.refl _
  · split at h
    · next k hk => cases h; exact ha _ _ _ (by omega) hk
    · cases h

omit hg in
theorem RVec.resize_mono {W : Nat} {a : Alloc} (ha : Grows a R) {v v' : RVec W} {n : Nat} {x : BitVec W} (h : RVec.resize a v n x = .ok v') :
    R v.cap v'.cap := by
  unfold RVec.resize at h
  split at h
  · cases h; exact hR.refl _
  · split at h
    · next v1 hv => cases h; show R v.cap v1.cap; exact RVec.reserve_mono hR ha hv
    · cases h

theorem reserve_caps (k : Nat) : Caps R (reserve c k) := fun s => by
  unfold reserve
  split
  · dsimp only
    split
    · exact hR.refl _
    · split
      · next st h => exact RVec.resize_mono hR hg h
      · exact hR.refl _
  · exact hR.refl _

theorem growIfNeeded_caps : Caps R (growIfNeeded c) := fun s => by
  unfold growIfNeeded
  split
  · split
    · next st h =>
      unfold RVec.push at h
      split at h
      · next v hv => cases h; show R s.storage.cap v.cap; exact RVec.reserve_mono hR hg hv
      · cases h
    · exact hR.refl _
  · exact hR.refl _

theorem push_caps (x : α) : Caps R (push c x) := by
  unfold push
  refine Caps.bind hR (growIfNeeded_caps hR hg) fun _ => Caps.readBind hR fun s => ?_
  split
  · rw [M.write_bind]
    exact set_caps c hR _ _ (⟨s.storage, s.num + 1⟩ : EV c.W)
  · exact hR.refl _

theorem insert_caps (i : Nat) (x : α) : Caps R (EV.insert c i x) := by
  unfold EV.insert
  refine Caps.bind hR (push_caps hR hg x) fun _ => Caps.bind hR (Caps.read hR) fun s =>
    Caps.bind hR ?_ fun p => Caps.bind hR (Caps.read hR) fun s => ?_
  · split
    · exact Caps.bind hR (Caps.lift hR _) fun _ => Caps.bind hR (Caps.loop hR (insertSlowStep_caps c hR) _ _ _)
        fun _ => Caps.pure hR _
    · exact Caps.pure hR _
  · dsimp only
    split
    · exact Caps.bind hR (Caps.loop hR (fun _ _ => insertFastStep_caps c hR _ _) _ _ _) fun _ => Caps.pure hR _
    · exact Caps.pure hR _

theorem extendHinted_caps (p : Bool) : ∀ (n pos : Nat) (items : List α), Caps R (extendHinted c p n pos items)
  | 0, _, _ => Caps.pure hR _
  | n + 1, pos, x :: items => Caps.bind hR (set_caps c hR _ _) fun _ => extendHinted_caps p n (pos + 1) items
  | _ + 1, _, [] => Caps.fail hR _

theorem extendRest_caps (p : Bool) : ∀ (items : List α), Caps R (extendRest c p items)
  | [] => by
    unfold extendRest
    split
    · exact Caps.fail hR _
    · exact Caps.pure hR _
  | x :: items => Caps.bind hR (push_caps hR hg x) fun _ => extendRest_caps p items

theorem extend_caps (it : Src α) : Caps R (extend c it) := by
  unfold extend
  refine Caps.bind hR (Caps.read hR) fun s => Caps.bind hR (reserve_caps hR hg _) fun _ =>
    Caps.readBind hR fun s => ?_
  rw [M.bind_apply]
  rcases hu : (M.lift (uAdd c.build s.num it.hint) : M (EV c.W) Nat) s with ⟨e | n, s'⟩
  · have : s' = s := by unfold M.lift at hu; exact (congrArg Prod.snd hu).symm
    subst this; exact hR.refl _
  · have : s' = s := by unfold M.lift at hu; exact (congrArg Prod.snd hu).symm
    subst this
    dsimp only
    rw [M.write_bind]
    exact Caps.bind hR (extendHinted_caps hR hg _ _ _ _) (fun rest => extendRest_caps hR hg _ rest) (⟨s'.storage, n⟩ : EV c.W)

theorem fillStep_caps (n : Nat) (v : BitVec c.W) (i : Nat) (u : Unit) : Caps R (fillStep c n v i u) := fun s => by
  unfold fillStep
  split
  · next st h => exact RVec.resize_mono hR hg h
  · exact hR.refl _

theorem extendWithValue_caps (x : α) (n : Nat) : Caps R (extendWithValue c x n) := by
  unfold extendWithValue
  split
  · exact extend_caps hR hg _
  · refine Caps.bind hR (Caps.read hR) fun s => Caps.bind hR (extend_caps hR hg _) fun _ =>
      Caps.bind hR (Caps.read hR) fun s => Caps.bind hR (fixStorage_caps c hR) fun _ =>
      Caps.readBind hR fun s => ?_
    rcases hu : RVec.reserve c.alloc s.storage _ with e | st
    · exact hR.refl _
    · refine hR.trans (RVec.reserve_mono hR hg hu) ?_
      rw [M.lift_ok_bind, M.write_bind]
      exact Caps.bind hR (Caps.loop hR (fun _ _ => fillStep_caps hR hg _ _ _ _) _ _ _)
        (fun _ => Caps.bind hR (Caps.lift hR _) fun _ => Caps.bind hR (setLen_caps c hR _) fun _ => extend_caps hR hg _)
        (⟨st, s.num⟩ : EV c.W)

theorem resize_caps (n : Nat) (x : α) : Caps R (EV.resize c n x) := by
  unfold EV.resize
  refine Caps.bind hR (Caps.read hR) fun s => ?_
  split
  · exact extendWithValue_caps hR hg _ _
  · exact truncate_caps c hR _

omit hg in
theorem RVec.extendFromSlice_mono {W : Nat} {a : Alloc} (ha : Grows a R) {v v' : RVec W} {xs : List (BitVec W)}
    (h : RVec.extendFromSlice a v xs = .ok v') : R v.cap v'.cap := by
  unfold RVec.extendFromSlice at h
  split at h
  · next v1 hv => cases h; show R v.cap v1.cap; exact RVec.reserve_mono hR ha hv
  · cases h

theorem appendStorage_cap1 : CapsOf cap1 R (appendStorage c) := fun p => by
  unfold appendStorage
  split
  · exact hR.refl _
  · next st h =>
    have := RVec.extendFromSlice_mono hR hg h
    split
    · exact this
    · exact this

omit hg in
theorem appendStorage_cap2 : CapsOf cap2 R (appendStorage c) := fun p => by
  unfold appendStorage
  split
  · exact hR.refl _
  · split
    · exact clear_caps c hR p.2
    · exact hR.refl _

theorem append_cap1 : CapsOf cap1 R (append c) := by
  unfold append
  refine CapsOf.bind hR (CapsOf.read hR) fun p => ?_
  dsimp only
  split
  · exact CapsOf.bind hR (onFst_cap1 hR (fixStorage_caps c hR)) fun _ => CapsOf.bind hR (onSnd_cap1 hR) fun _ =>
      CapsOf.bind hR (appendStorage_cap1 hR hg) fun _ => CapsOf.bind hR (CapsOf.read hR) fun _ =>
      CapsOf.bind hR (CapsOf.lift hR _) fun _ => onFst_cap1 hR (setLen_caps c hR _)
  · exact CapsOf.bind hR (onFst_cap1 hR (reserve_caps hR hg _)) fun _ => CapsOf.bind hR (CapsOf.lift hR _) fun _ =>
      CapsOf.bind hR (onFst_cap1 hR (setLen_caps c hR _)) fun _ =>
      CapsOf.bind hR (CapsOf.loop hR (fun _ _ => CapsOf.bind hR (onSnd_cap1 hR) fun _ =>
        onFst_cap1 hR (setRawUnchecked_caps c hR _ _)) _ _ _) fun _ => onSnd_cap1 hR

omit hg in
theorem append_cap2 : CapsOf cap2 R (append c) := by
  unfold append
  refine CapsOf.bind hR (CapsOf.read hR) fun p => ?_
  dsimp only
  split
  · exact CapsOf.bind hR (onFst_cap2 hR) fun _ => CapsOf.bind hR (onSnd_cap2 hR (fixStorage_caps c hR)) fun _ =>
      CapsOf.bind hR (appendStorage_cap2 hR) fun _ => CapsOf.bind hR (CapsOf.read hR) fun _ =>
      CapsOf.bind hR (CapsOf.lift hR _) fun _ => onFst_cap2 hR
  · exact CapsOf.bind hR (onFst_cap2 hR) fun _ => CapsOf.bind hR (CapsOf.lift hR _) fun _ =>
      CapsOf.bind hR (onFst_cap2 hR) fun _ =>
      CapsOf.bind hR (CapsOf.loop hR (fun _ _ => CapsOf.bind hR (onSnd_cap2 hR (getRawUnchecked_caps c hR _)) fun _ =>
        onFst_cap2 hR) _ _ _) fun _ => onSnd_cap2 hR (clear_caps c hR)

omit hg in
theorem splitOff_caps (i : Nat) : Caps R (splitOff c i) := fun s => by
  unfold splitOff
  split
  · dsimp only
    split
    · exact hR.refl _
    · next other _ =>
      have := CapsOf.loop hR (g := cap1) (body := splitOffStep c i) (fun j u =>
        CapsOf.bind hR (onFst_cap1 hR (getRawUnchecked_caps c hR _)) fun _ => onSnd_cap1 hR) (len c s - i) 0 ()
        (s, { other with num := len c s - i })
      split
      · next h => rw [h] at this; exact this
      · next h => rw [h] at this; exact this
  · exact hR.refl _

end
end EnumVecModel
