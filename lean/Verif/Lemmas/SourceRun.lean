import Verif.Source.Program
import Verif.Lemmas.SourceAccess
import Verif.Lemmas.SourceQuery

/-! # What the text relies on holds after every call -/

namespace EnumVecModel
namespace Source
open EV

set_option linter.constructorNameAsVariable false
set_option linter.unusedSimpArgs false
attribute [local irreducible] Inst.epb Inst.bits

variable {α τ σ β γ : Type} {c : Inst α}

/-- A call keeps a property of the state, also when it panics. -/
def Pres (P : σ → Prop) (f : M σ β) : Prop := ∀ s, P s → P (f s).2

theorem Pres.bind {P : σ → Prop} {f : M σ β} {g : β → M σ γ} (hf : Pres P f) (hg : ∀ b, Pres P (g b)) : Pres P (f >>= g) := fun s hs => by
  have h1 := hf s hs
  rw [M.bind_apply]
  rcases hx : f s with ⟨e | b, t⟩ <;> rw [hx] at h1
  · exact h1
  · exact hg b t h1

theorem Pres.read {P : σ → Prop} {g : σ → M σ γ} (hg : ∀ s, P s → Pres P (g s)) : Pres P (M.read >>= g) := fun s hs => by
  rw [M.read_bind]; exact hg s hs s hs

theorem Pres.lift {P : σ → Prop} {r : Except Fault β} {g : β → M σ γ} (hg : ∀ b, r = .ok b → Pres P (g b)) : Pres P (M.lift r >>= g) := fun s hs => by
  rcases r with e | b
  · exact hs
  · exact hg b rfl s hs

theorem Pres.write {P : σ → Prop} {s : σ} (h : P s) : Pres P (M.write s) := fun _ _ => h
theorem Pres.fail {P : σ → Prop} {e : Fault} : Pres P (M.fail e : M σ β) := fun _ h => h
theorem Pres.pure {P : σ → Prop} {b : β} : Pres P (pure b : M σ β) := fun _ h => h
theorem Pres.unwrap {P : σ → Prop} {o : Option β} : Pres P (M.unwrap o : M σ β) := fun _ h => by cases o <;> exact h
theorem Pres.ite {P : σ → Prop} {p : Prop} [Decidable p] {f g : M σ β} (hf : p → Pres P f) (hg : ¬ p → Pres P g) : Pres P (if p then f else g) := by
  split
  · exact hf ‹_›
  · exact hg ‹_›
theorem Pres.loop {P : σ → Prop} {step : Nat → β → M σ β} {n i : Nat} {acc : β} (h : ∀ j acc, Pres P (step j acc)) : Pres P (loop step n i acc) :=
  fun s hs => loop_inv (fun j acc => h j acc) n i acc s hs
theorem Pres.onFst {P : σ → Prop} {Q : τ → Prop} {f : M σ β} (h : Pres P f) : Pres (fun p : σ × τ => P p.1 ∧ Q p.2) (onFst f) := fun p hp => ⟨h _ hp.1, hp.2⟩
theorem Pres.onSnd {P : σ → Prop} {Q : τ → Prop} {f : M τ β} (h : Pres Q f) : Pres (fun p : σ × τ => P p.1 ∧ Q p.2) (onSnd f) := fun p hp => ⟨hp.1, h _ hp.2⟩
theorem Pres.onFst' {P : σ → Prop} {f : M σ β} (h : Pres P f) : Pres (fun p : σ × τ => P p.1) (EV.onFst f) := fun p hp => h _ hp

/-- What the text relies on: the length is a `usize`, the blocks fit in the allocation, which has at most `isize::MAX` bytes. -/
structure Fine (c : Inst α) (s : EV c.W) : Prop where
  num : s.num < c.build.usizeLim
  room : Room c s.storage

theorem uAdd_lt {B : Build} {a b n : Nat} (h : uAdd B a b = .ok n) : n < B.usizeLim := by
  unfold uAdd at h
  split at h
  · cases h; assumption
  · split at h
    · cases h
    · cases h; exact Nat.mod_lt _ (B.lt_usizeLim (by decide))

theorem AllocSmall.small (hm : AllocSmall c) : Small c := ⟨hm.fresh, hm.grow⟩

theorem lim_pos : 0 < c.build.usizeLim := c.build.lt_usizeLim (by decide)

section
variable {strict : Prop} (hc : c.Fits strict) (hm : AllocSmall c)

theorem getRawUnchecked_pres {P : EV c.W → Prop} (i : Nat) : Pres P (getRawUnchecked c i) := fun _ h => h
theorem getRaw_pres {P : EV c.W → Prop} (i : Nat) : Pres P (getRaw c i) := fun s h => by rw [getRaw_state]; exact h
theorem get_pres {P : EV c.W → Prop} (i : Nat) : Pres P (EV.get c i) := fun s h => by rw [get_state]; exact h
theorem setRawUnchecked_pres (i x : Nat) : Pres (Fine c) (setRawUnchecked c i x) := fun s h =>
  ⟨by rw [setRawUnchecked_num]; exact h.num, setRawUnchecked_room i x h.room⟩
theorem setRaw_pres (i x : Nat) : Pres (Fine c) (setRaw c i x) := by
  unfold setRaw
  refine .read fun s hs => .ite (fun _ => ?_) fun _ => ?_
  · exact .bind .fail fun _ => setRawUnchecked_pres _ _
  · exact setRawUnchecked_pres _ _
theorem set_pres (i : Nat) (x : α) : Pres (Fine c) (EV.set c i x) := setRaw_pres _ _
theorem setLen_pres {n : Nat} (h : n < c.build.usizeLim) : Pres (Fine c) (setLen c n) := fun _ hs => ⟨h, hs.room⟩
theorem fixStorage_pres : Pres (Fine c) (fixStorage c) := fun _ hs => ⟨hs.num, by
  refine ⟨?_, hs.room.2⟩
  have := hs.room.1
  simp only [fixStorage, RVec.truncate, List.length_take]; omega⟩
theorem truncate_pres (n : Nat) : Pres (Fine c) (EV.truncate c n) :=
  .read fun _ hs => .ite (fun h => setLen_pres (Nat.lt_trans h hs.num)) fun _ => .pure
theorem clear_pres : Pres (Fine c) (EV.clear c) := truncate_pres 0
theorem block_pres {P : EV c.W → Prop} (i : Nat) : Pres P (block c i) := fun s h => by unfold block; split <;> exact h
theorem setBlock_pres (i : Nat) (b : BitVec c.W) : Pres (Fine c) (setBlock c i b) := fun s h => ⟨h.num, by
  have := h.room.1
  exact ⟨by simpa [setBlock] using this, h.room.2⟩⟩
theorem pop_pres : Pres (Fine c) (EV.pop c) :=
  .read fun _ _ => .ite (fun _ => .pure) fun _ => .bind (get_pres _) fun _ => .bind .unwrap fun _ =>
    .read fun _ hs => .bind (.write ⟨by have := hs.num; simp only; omega, hs.room⟩) fun _ => .pure
theorem swap_pres (i j : Nat) : Pres (Fine c) (EV.swap c i j) :=
  .bind (getRaw_pres _) fun _ => .bind .unwrap fun _ => .bind (getRaw_pres _) fun _ => .bind .unwrap fun _ => .bind (setRaw_pres _ _) fun _ => setRaw_pres _ _
theorem swapRemove_pres (i : Nat) : Pres (Fine c) (EV.swapRemove c i) :=
  .read fun _ _ => .lift fun _ _ => .bind (swap_pres _ _) fun _ => .bind pop_pres fun _ => .unwrap
theorem remove_pres (i : Nat) : Pres (Fine c) (EV.remove c i) :=
  .bind (get_pres _) fun _ => .bind .unwrap fun _ => .read fun _ _ => .lift fun _ _ =>
    .bind (.loop fun _ _ => .bind (getRawUnchecked_pres _) fun _ => setRawUnchecked_pres _ _) fun _ =>
    .read fun _ _ => .bind (getRawUnchecked_pres _) fun _ => .read fun _ hs => .bind (.write ⟨by have := hs.num; simp only; omega, hs.room⟩) fun _ =>
    .read fun _ _ => .ite (fun _ => .bind (.loop fun _ _ => .bind (block_pres _) fun _ => .lift fun _ _ => .bind (setBlock_pres _ _) fun _ => .pure) fun _ => .pure) fun _ => .pure

theorem retain_pres (f : Closure τ α Bool) : Pres (fun p : EV c.W × τ => Fine c p.1) (EV.retain c f) := by
  refine .read fun s hs => fun p hp => ?_
  have key : ∀ n i j (p : EV c.W × τ), Fine c p.1 → Fine c (loop (retainStep c f) n i j p).2.1 ∧
      ∀ k, (loop (retainStep c f) n i j p).1 = .ok k → k ≤ j + n := by
    intro n
    induction n with
    | zero => intro i j p hp; exact ⟨hp, fun k hk => by cases hk; exact Nat.le_refl _⟩
    | succ n ih =>
      intro i j p hp
      unfold loop
      rw [M.bind_apply]
      have h1 : Pres (fun p : EV c.W × τ => Fine c p.1) (retainStep c f i j) := by
        refine .bind (.onFst' (get_pres _)) fun _ => .bind .unwrap fun _ => .bind (fun p hp => ?_) fun _ =>
          .ite (fun _ => .bind (.onFst' (set_pres _ _)) fun _ => .pure) fun _ => .pure
        unfold EV.call
        split <;> exact hp
      have h2 := h1 p hp
      rcases hx : retainStep c f i j p with ⟨e | j', p'⟩ <;> rw [hx] at h2
      · exact ⟨h2, nofun⟩
      · have h3 := retainStep_le hx
        obtain ⟨h4, h5⟩ := ih (i + 1) j' p' h2
        exact ⟨h4, fun k hk => by have := h5 k hk; omega⟩
  have h1 := key (len c s.1) 0 0 p hp
  rw [M.bind_apply]
  rcases hx : loop (retainStep c f) (len c s.1) 0 0 p with ⟨e | k, p'⟩ <;> rw [hx] at h1
  · exact h1.1
  · have h2 := h1.2 k rfl
    have h3 := hs.num
    exact ⟨by show k < _; unfold len at h2; omega, h1.1.room⟩

theorem forEach_pres (f : Closure τ α α) : Pres (fun p : EV c.W × τ => Fine c p.1) (EV.forEach c f) := by
  refine .read fun _ _ => .loop fun _ _ => .bind (.onFst' (get_pres _)) fun _ => .bind .unwrap fun _ => .bind (fun p hp => ?_) fun _ => .onFst' (set_pres _ _)
  unfold EV.call
  split <;> exact hp

include hm in
theorem shrink_pres (hc : c.Fits strict) : Pres (Fine c) (EV.shrinkToFit c) :=
  .bind fixStorage_pres fun _ => .read fun _ hs => .write ⟨hs.num, hc.lawful.shrink_ge _ _ hs.room.1, by
    have h1 := hc.bounded.shrink _ _ hs.room.1
    exact Nat.lt_of_le_of_lt (Nat.mul_le_mul_left 2 h1) hs.room.2⟩

include hc hm

theorem growIfNeeded_pres : Pres (Fine c) (growIfNeeded c) := fun s hs => by
  unfold growIfNeeded
  split
  · split
    · exact ⟨hs.num, rpush_room hc hm.small hs.room (by assumption)⟩
    · exact hs
  · exact hs
theorem push_pres (x : α) : Pres (Fine c) (EV.push c x) :=
  .bind (growIfNeeded_pres hc hm) fun _ => .read fun _ hs => .ite (fun h => .bind (.write ⟨h, hs.room⟩) fun _ => set_pres _ _) fun _ => .bind .fail fun _ => set_pres _ _
theorem reserve_pres (n : Nat) : Pres (Fine c) (EV.reserve c n) := fun s hs => by
  unfold EV.reserve
  split
  · dsimp only
    split
    · exact hs
    · split
      · exact ⟨hs.num, rresize_room hc hm.small hs.room (by assumption)⟩
      · exact hs
  · exact hs
omit hc hm in
theorem extendHinted_pres (p : Bool) : ∀ (n pos : Nat) (items : List α), Pres (Fine c) (extendHinted c p n pos items)
  | 0, _, _ => .pure
  | _ + 1, _, [] => .fail
  | n + 1, pos, x :: items => .bind (set_pres _ _) fun _ => extendHinted_pres p n (pos + 1) items
theorem extendRest_pres (p : Bool) : ∀ items : List α, Pres (Fine c) (extendRest c p items)
  | [] => .ite (fun _ => .fail) fun _ => .pure
  | x :: items => .bind (push_pres hc hm x) fun _ => extendRest_pres p items
theorem extend_pres (it : Src α) : Pres (Fine c) (EV.extend c it) :=
  .read fun _ _ => .bind (reserve_pres hc hm _) fun _ => .read fun _ hs => .lift fun _ hn => .bind (.write ⟨uAdd_lt hn, hs.room⟩) fun _ =>
    .bind (extendHinted_pres _ _ _ _) fun _ => extendRest_pres hc hm _ _
theorem extendWithValue_pres (x : α) (n : Nat) : Pres (Fine c) (EV.extendWithValue c x n) :=
  .ite (fun _ => extend_pres hc hm _) fun _ => .read fun _ _ => .bind (extend_pres hc hm _) fun _ => .read fun _ _ => .bind fixStorage_pres fun _ =>
    .read fun _ hs => .lift fun _ hv => .bind (.write ⟨hs.num, (reserve_room hc hm.small hs.room hv).1⟩) fun _ =>
    .bind (.loop fun _ _ => fun s hs => by
      unfold fillStep
      split
      · exact ⟨hs.num, rresize_room hc hm.small hs.room (by assumption)⟩
      · exact hs) fun _ => .lift fun _ hn => .bind (setLen_pres (uAdd_lt hn)) fun _ => extend_pres hc hm _
theorem resize_pres {n : Nat} (x : α) : Pres (Fine c) (EV.resize c n x) :=
  .read fun _ _ => .ite (fun _ => extendWithValue_pres hc hm _ _) fun _ => truncate_pres _
theorem insert_pres (i : Nat) (x : α) : Pres (Fine c) (EV.insert c i x) := by
  refine .bind (push_pres hc hm _) fun _ => .read fun _ _ => .bind (.ite (fun _ => .lift fun _ _ => .bind (.loop fun _ _ =>
    .bind (getRawUnchecked_pres _) fun _ => .bind (setRawUnchecked_pres _ _) fun _ => .pure) fun _ => .pure) fun _ => .pure) fun ⟨i, prev⟩ => ?_
  exact .read fun _ _ => .ite (fun _ => .bind (.loop fun _ _ => .bind (block_pres _) fun _ => .lift fun _ _ => .bind (setBlock_pres _ _) fun _ => .pure)
      fun _ => .pure) fun _ => .pure

theorem new_fine : Fine c (EV.new c) := ⟨lim_pos, Nat.zero_le _, hm.fresh⟩

theorem build_fine {f : M (EV c.W) Unit} (h : Pres (Fine c) f) {v : EV c.W} (hv : EV.build c (EV.new c) f = .ok v) : Fine c v := by
  have h1 := h _ (new_fine hc hm)
  unfold EV.build at hv
  rcases hx : f (EV.new c) with ⟨e | b, t⟩ <;> rw [hx] at h1 hv
  · cases hv
  · cases hv; exact h1

theorem withCapacity_fine {n : Nat} {v : EV c.W} (hv : EV.withCapacity c n = .ok v) : Fine c v := by
  unfold EV.withCapacity RVec.withCapacity at hv
  rcases hx : c.alloc.exact (blocksForElements c n) with _ | k <;> simp only [hx] at hv
  · cases hv
  · cases hv; exact ⟨lim_pos, Nat.zero_le _, hm.exact _ _ hx⟩

theorem clone_fine {s v : EV c.W} (h : Fine c s) (hv : EV.clone c s = .ok v) : Fine c v := by
  unfold EV.clone RVec.clone at hv
  rcases hx : c.alloc.exact s.storage.len with _ | k <;> simp only [hx] at hv
  · cases hv
  · cases hv; exact ⟨h.num, hc.lawful.exact_ge _ _ hx, hm.exact _ _ hx⟩

theorem append_pres : Pres (fun p : EV c.W × EV c.W => Fine c p.1 ∧ Fine c p.2) (EV.append c) := by
  refine .read fun _ _ => .ite (fun _ => .bind (.onFst fixStorage_pres) fun _ => .bind (.onSnd fixStorage_pres) fun _ => .bind (fun p hp => ?_) fun _ =>
      .read fun _ _ => .lift fun _ hn => .onFst (setLen_pres (uAdd_lt hn)))
    fun _ => .bind (.onFst (reserve_pres hc hm _)) fun _ => .lift fun _ hn => .bind (.onFst (setLen_pres (uAdd_lt hn))) fun _ =>
      .bind (.loop fun _ _ => .bind (.onSnd (getRawUnchecked_pres _)) fun _ => .onFst (setRawUnchecked_pres _ _)) fun _ => .onSnd clear_pres
  unfold appendStorage
  split
  · exact hp
  · rename_i st hst
    have h1 : Fine c { p.1 with storage := st } := ⟨hp.1.num, by
      unfold RVec.extendFromSlice at hst
      split at hst
      · rename_i v hv
        cases hst
        obtain ⟨h1, h2, h3⟩ := reserve_room hc hm.small hp.1.room hv
        exact ⟨by simp [h2]; omega, h1.2⟩
      · cases hst⟩
    split
    · exact ⟨h1, clear_pres _ hp.2⟩
    · exact ⟨h1, hp.2.num, Nat.zero_le _, hp.2.room.2⟩

theorem splitOff_fine (k : Nat) {s : EV c.W} (h : Fine c s) : Fine c (EV.splitOff c k s).2 ∧ ∀ v, (EV.splitOff c k s).1 = .ok v → Fine c v := by
  unfold EV.splitOff
  split
  · rename_i hk
    dsimp only
    split
    · exact ⟨h, nofun⟩
    · rename_i other ho
      have h1 := withCapacity_fine hc hm ho
      have h2 : Pres (fun p : EV c.W × EV c.W => Fine c p.1 ∧ Fine c p.2) (loop (splitOffStep c k) (len c s - k) 0 ()) :=
        .loop fun _ _ => .bind (.onFst (getRawUnchecked_pres _)) fun _ => .onSnd (setRawUnchecked_pres _ _)
      have h3 := h2 (s, { other with num := len c s - k }) ⟨h, ⟨by have := h.num; unfold len; simp only; omega, h1.room⟩⟩
      rcases hx : loop (splitOffStep c k) (len c s - k) 0 () (s, { other with num := len c s - k }) with ⟨e | _, p⟩ <;> rw [hx] at h3
      · exact ⟨h3.1, nofun⟩
      · refine ⟨⟨?_, h3.1.room⟩, fun v hv => by cases hv; exact h3.2⟩
        have := h.num
        unfold len at hk
        show k < _
        omega
  · exact ⟨h, nofun⟩

theorem step_fine {m : Mem c τ} (h : ∀ r, Fine c (m.reg r)) (op : EnumVecModel.Op τ α) : ∀ r, Fine c ((step c m op).2.reg r) := by
  have hu : ∀ {m : Mem c τ} (_ : ∀ r, Fine c (m.reg r)) (r : Nat) {s : EV c.W}, Fine c s → ∀ k, Fine c (upd m.reg r s k) := fun h r s hs k => by
    unfold upd; split
    · exact hs
    · exact h k
  have call : ∀ {β : Type} (r : Nat) {f : M (EV c.W) β} {out : β → EnumVecModel.Out α}, Pres (Fine c) f → ∀ k, Fine c ((m.call r f out).2.reg k) := by
    intro β r f out hf k
    have h1 := hf _ (h r)
    unfold Mem.call
    rcases hx : f (m.reg r) with ⟨e | b, s⟩ <;> rw [hx] at h1 <;> exact hu h r h1 k
  have callW : ∀ (r : Nat) {f : M (EV c.W × τ) Unit}, Pres (fun p : EV c.W × τ => Fine c p.1) f → ∀ k, Fine c ((m.callW (α := α) r f).2.reg k) := by
    intro r f hf k
    have h1 := hf (m.reg r, m.world) (h r)
    unfold Mem.callW
    rcases hx : f (m.reg r, m.world) with ⟨e | b, s⟩ <;> rw [hx] at h1 <;> exact hu h r h1 k
  have assign : ∀ (r : Nat) {v : Except Fault (EV c.W)}, (∀ s, v = .ok s → Fine c s) → ∀ k, Fine c ((m.assign (α := α) r v).2.reg k) := by
    intro r v hv k
    rcases v with e | s
    · exact h k
    · exact hu h r (hv s rfl) k
  have ask : ∀ {β : Type} {v : Except Fault β} {out : β → EnumVecModel.Out α} (k), Fine c ((m.ask v out).2.reg k) := by
    intro β v out k
    rcases v with e | s <;> exact h k
  cases op with
  | new r => exact assign r fun s hs => by cases hs; exact new_fine hc hm
  | withCapacity r n => exact assign r fun s hs => withCapacity_fine hc hm hs
  | fromElem r x n => exact assign r fun s hs => build_fine hc hm (extendWithValue_pres hc hm x n) hs
  | fromVec r xs => exact assign r fun s hs => build_fine hc hm (extend_pres hc hm _) hs
  | fromSlice r xs => exact assign r fun s hs => build_fine hc hm (extend_pres hc hm _) hs
  | fromIter r it => exact assign r fun s hs => build_fine hc hm (extend_pres hc hm it) hs
  | clone r src => exact assign r fun s hs => clone_fine hc hm (h src) hs
  | len r => exact h
  | isEmpty r => exact h
  | get r i => exact call r (get_pres i)
  | set r i x => exact call r (set_pres i x)
  | push r x => exact call r (push_pres hc hm x)
  | pop r => exact call r pop_pres
  | insert r i x => exact call r (insert_pres hc hm i x)
  | remove r i => exact call r (remove_pres i)
  | swap r i j => exact call r (swap_pres i j)
  | swapRemove r i => exact call r (swapRemove_pres i)
  | truncate r n => exact call r (truncate_pres n)
  | clear r => exact call r clear_pres
  | resize r n x => exact call r (resize_pres hc hm x)
  | reserve r n => exact call r (reserve_pres hc hm n)
  | shrinkToFit r => exact call r (shrink_pres hm hc)
  | extend r it => exact call r (extend_pres hc hm it)
  | append r o =>
    have h1 := append_pres hc hm (m.reg r, m.reg o) ⟨h r, h o⟩
    intro k
    show Fine c ((match EV.append c (m.reg r, m.reg o) with
      | (.ok _, p) => (EnumVecModel.Out.unit, { m with reg := upd (upd m.reg r p.1) o p.2 })
      | (.error e, p) => (e.out, { m with reg := upd (upd m.reg r p.1) o p.2 }) : EnumVecModel.Out α × Mem c τ).2.reg k)
    rcases hx : EV.append c (m.reg r, m.reg o) with ⟨e | b, p⟩ <;> rw [hx] at h1 <;>
    exact hu (m := ⟨upd m.reg r p.1, m.world⟩) (hu h r h1.1) o h1.2 k
  | splitOff r n d =>
    have h1 := splitOff_fine hc hm n (h r)
    intro k
    show Fine c ((match EV.splitOff c n (m.reg r) with
      | (.ok o, s) => (EnumVecModel.Out.unit, { m with reg := upd (upd m.reg r s) d o })
      | (.error e, s) => (e.out, { m with reg := upd m.reg r s }) : EnumVecModel.Out α × Mem c τ).2.reg k)
    rcases hx : EV.splitOff c n (m.reg r) with ⟨e | b, p⟩ <;> rw [hx] at h1
    · exact hu h r h1.1 k
    · exact hu (m := ⟨upd m.reg r p, m.world⟩) (hu h r h1.1) d (h1.2 b rfl) k
  | retain r f => exact callW r (retain_pres f)
  | forEach r f => exact callW r (forEach_pres f)
  | eq r o => exact ask
  | any r x => exact call r fun s hs => by rw [any_state]; exact hs
  | all r x => exact call r fun s hs => by rw [all_state]; exact hs
  | toVec r => exact ask
  | iterate r calls => exact ask
  | hash r => exact ask

end

end Source
end EnumVecModel
