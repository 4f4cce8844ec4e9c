import Verif.Lemmas.SourceIter
/-! # The source text of `extend_with_value` and `resize` is the model -/

namespace EnumVecModel
namespace Source
open EV
set_option linter.constructorNameAsVariable false
set_option linter.unusedSimpArgs false
variable {α τ : Type} {W : Nat}

attribute [local irreducible] Inst.epb Inst.bits

/-- No vector of blocks has more than `isize::MAX` bytes (documented by `Vec`). -/
def Small (c : Inst α) : Prop := 2 * c.alloc.fresh < c.build.usizeLim ∧ ∀ cap n k, c.alloc.grow cap n = some k → 2 * k < c.build.usizeLim

/-- The storage fits in its allocation, which has at most `isize::MAX` bytes. -/
def Room (c : Inst α) (v : RVec c.W) : Prop := v.data.length ≤ v.cap ∧ 2 * v.cap < c.build.usizeLim

section
variable {strict : Prop} {c : Inst α} (hc : c.Fits strict) (hm : Small c)
include hc hm

theorem reserve_room {v v' : RVec c.W} {n : Nat} (h : Room c v) (hv : v.reserve c.alloc n = .ok v') : Room c v' ∧ v'.data = v.data ∧ v.data.length + n ≤ v'.cap := by
  unfold RVec.reserve at hv
  split at hv
  · cases hv; exact ⟨h, rfl, by assumption⟩
  · split at hv
    · rename_i k hk
      cases hv
      have := hc.lawful.grow_ge _ _ _ hk
      exact ⟨⟨Nat.le_trans (Nat.le_add_right _ _) this, hm.2 _ _ _ hk⟩, rfl, this⟩
    · cases hv

theorem rpush_room {v v' : RVec c.W} {x : BitVec c.W} (h : Room c v) (hv : v.push c.alloc x = .ok v') : Room c v' := by
  unfold RVec.push at hv
  split at hv
  · rename_i w hw
    cases hv
    obtain ⟨h1, h2, h3⟩ := reserve_room hc hm h hw
    exact ⟨by simp [h2]; omega, h1.2⟩
  · cases hv

theorem rresize_room {v v' : RVec c.W} {n : Nat} {x : BitVec c.W} (h : Room c v) (hv : v.resize c.alloc n x = .ok v') : Room c v' := by
  unfold RVec.resize at hv
  split at hv
  · cases hv
    exact ⟨by have := h.1; simp [RVec.truncate]; omega, h.2⟩
  · split at hv
    · rename_i w hw
      cases hv
      obtain ⟨h1, h2, h3⟩ := reserve_room hc hm h hw
      exact ⟨by simp [h2, RVec.len] at *; omega, h1.2⟩
    · cases hv

omit hc hm in
theorem setRawUnchecked_room (i x : Nat) {s : EV c.W} (h : Room c s.storage) : Room c (setRawUnchecked c i x s).2.storage := by
  unfold setRawUnchecked
  split
  · exact ⟨by have := h.1; simpa using this, h.2⟩
  · exact h

omit hc hm in
theorem set_room (i : Nat) (x : α) {s : EV c.W} (h : Room c s.storage) : Room c (EV.set c i x s).2.storage := by
  unfold EV.set setRaw
  rw [M.read_bind, M.ite_apply]
  split
  · exact h
  · exact setRawUnchecked_room _ _ h

theorem push_room (x : α) {s : EV c.W} (h : Room c s.storage) : Room c (EV.push c x s).2.storage := by
  unfold EV.push
  rw [M.bind_apply]
  have h1 : Room c (growIfNeeded c s).2.storage := by
    unfold growIfNeeded
    split
    · split
      · exact rpush_room hc hm h (by assumption)
      · exact h
    · exact h
  rcases hx : growIfNeeded c s with ⟨e | _, t⟩ <;> rw [hx] at h1
  · exact h1
  · simp only
    rw [M.read_bind]
    split
    · exact set_room (s := { t with num := t.num + 1 }) _ x h1
    · exact h1

omit hc hm in
theorem extendHinted_room (p : Bool) : ∀ (n pos : Nat) (items : List α) (s : EV c.W), Room c s.storage → Room c (extendHinted c p n pos items s).2.storage
  | 0, _, _, _, h => h
  | n + 1, _, [], _, h => h
  | n + 1, pos, x :: items, s, h => by
    unfold extendHinted
    have h1 := set_room pos x h
    rw [M.bind_apply]
    rcases hx : EV.set c pos x s with ⟨e | _, t⟩ <;> rw [hx] at h1
    · exact h1
    · exact extendHinted_room p n (pos + 1) items t h1

theorem extendRest_room (p : Bool) : ∀ (items : List α) (s : EV c.W), Room c s.storage → Room c (extendRest c p items s).2.storage
  | [], _, h => by cases p <;> exact h
  | x :: items, s, h => by
    unfold extendRest
    have h1 := push_room hc hm x h
    rw [M.bind_apply]
    rcases hx : EV.push c x s with ⟨e | _, t⟩ <;> rw [hx] at h1
    · exact h1
    · exact extendRest_room p items t h1

theorem extend_room (it : Src α) {s : EV c.W} (h : Room c s.storage) : Room c (EV.extend c it s).2.storage := by
  unfold EV.extend
  rw [M.read_bind, M.bind_apply]
  have h1 : Room c (EV.reserve c it.hint s).2.storage := by
    unfold EV.reserve
    split
    · dsimp only
      split
      · exact h
      · split
        · exact rresize_room hc hm h (by assumption)
        · exact h
    · exact h
  rcases hx : EV.reserve c it.hint s with ⟨e | _, t⟩ <;> rw [hx] at h1
  · exact h1
  · simp only
    rw [M.read_bind]
    rcases h2 : uAdd c.build t.num it.hint with e | n
    · exact h1
    · rw [M.lift_ok_bind, M.write_bind, M.bind_apply]
      have h3 := extendHinted_room it.panics it.hint (len c s) it.items { t with num := n } h1
      rcases hy : extendHinted c it.panics it.hint (len c s) it.items { t with num := n } with ⟨e | _, t'⟩ <;> rw [hy] at h3
      · exact h3
      · exact extendRest_room hc hm it.panics _ t' h3

end

theorem whileLoop_spread (S : BitVec W → Nat → St α τ W) (cond body : St α τ W → Out α τ W)
    (h0 : ∀ v i, cond (S v i) = .val (.bool (decide (i < W))) (S v i))
    (h1 : ∀ v i, i < W → body (S v i) = .val .unit (S (v ||| v <<< i) (i * 2))) :
    ∀ (K : Nat) (v : BitVec W) (i : Nat), 0 < i → W - i < K → ∃ j, whileLoop cond body K (S v i) = .val .unit (S (spread v i) j)
  | 0, _, _, _, h => by omega
  | K + 1, v, i, hi, h => by
    unfold whileLoop
    rw [h0, bind_val]
    by_cases hw : i < W
    · obtain ⟨j, hj⟩ := whileLoop_spread S cond body h0 h1 K (v ||| v <<< i) (i * 2) (by omega) (by omega)
      refine ⟨j, ?_⟩
      simp only [hw, decide_true]
      unfold spread
      rw [dif_pos ⟨hi, hw⟩, ← hj, h1 v i hw, bind_val]
    · refine ⟨i, ?_⟩
      simp only [hw, decide_false]
      unfold spread
      rw [dif_neg (by omega)]

variable {strict : Prop} {c : Inst α} (hc : c.Fits strict) (hm : Small c) (u : User α τ c.W) (K : Nat)
include hc hm

theorem text_extend_with_value (d : Nat) (sl : Slot) (x : α) (count : Nat) (h : Heap τ c.W) (hK : c.build.usizeLim ≤ K) (hcount : count < c.build.usizeLim)
    (hr : Room c (h.get sl).storage) :
    call c u K (d + 7) .extend_with_value [.vec sl, .elem x, .usz count] h = .ofM h sl (fun _ => .unit) (EV.extendWithValue c x count (h.get sl)) := by
  rw [call_eq u K (d + 6) (fn := f_extend_with_value) rfl]
  have h0 : c.epb ≠ 0 := Nat.pos_iff_ne_zero.mp hc.epb_pos
  have hW : c.W ≤ 128 := by rcases hc.compiles.1 with h | h | h | h | h <;> omega
  have he : c.epb ≤ c.W := hc.epb_le
  have hlim : 1024 < c.build.usizeLim := c.build.lt_usizeLim (by decide)
  have h4 : 4 * c.epb < c.build.usizeLim := by omega
  by_cases h1 : count ≤ 4 * c.epb
  · have h2 := text_extend hc K u d sl (repeatTake x count) .unit h
    rcases hx : EV.extend c (repeatTake x count) (h.get sl) with ⟨e | _, s⟩ <;> rw [hx] at h2 <;>
    simp [f_extend_with_value, ↓bindStep, text, uMul_ok h4, h1, h2, EV.extendWithValue, hx]
  have h3 : (h.get sl).num % c.epb < c.epb := Nat.mod_lt _ hc.epb_pos
  have h3' : (h.get sl).num % c.epb ≤ c.epb := Nat.le_of_lt h3
  have h2 := text_extend hc K u d sl (repeatTake x (c.epb - (h.get sl).num % c.epb)) .unit h
  have hr1 := extend_room hc hm (repeatTake x (c.epb - (h.get sl).num % c.epb)) hr
  rcases hx : EV.extend c (repeatTake x (c.epb - (h.get sl).num % c.epb)) (h.get sl) with ⟨e | _, s⟩ <;> rw [hx] at h2 hr1
  · simp [f_extend_with_value, ↓bindStep, text, uMul_ok h4, h1, h2, EV.extendWithValue, hx, text_len, h0, uSub_ok h3', len]
  generalize hA : c.epb - (h.get sl).num % c.epb = a at *
  have h5 : a ≤ count := by omega
  generalize hB : (count - a) / c.epb = b at *
  have h6 : b * c.epb ≤ count - a := hB ▸ Nat.div_mul_le_self _ _
  have h6' : b ≤ b * c.epb := Nat.le_mul_of_pos_right b hc.epb_pos
  have h7 : b * c.epb < c.build.usizeLim := by omega
  have h8 : a + b * c.epb < c.build.usizeLim := by omega
  have h9 : a + b * c.epb ≤ count := by omega
  simp [f_extend_with_value, ↓bindStep, text, uMul_ok h4, h1, h2, EV.extendWithValue, hx, text_len, h0, uSub_ok h3', len, hA, uSub_ok h5, hB, uMul_ok h7, uAdd_ok h8, uSub_ok h9]
  obtain ⟨j, hj⟩ := whileLoop_spread (τ := τ) (fun v i => ⟨[(Sym.i, Val.usz i), (Sym.block_value, Val.blk v), (Sym.d, Val.usz (c.E.toDiscr x)), (Sym.to_insert_last, Val.usz (count - (a + b * c.epb))),
      (Sym.to_insert_mid, Val.usz (b * c.epb)), (Sym.count_blocks, Val.usz b), (Sym.count_end, Val.usz (count - a)), (Sym.to_insert_first, Val.usz a), (Sym.self, Val.vec sl),
      (Sym.value, Val.elem x), (Sym.count, Val.usz count)], h.set sl s⟩)
    (eval c K (call c u K (d + 6)) (Ex.bin Op.lt (Ex.var Sym.i) (Ex.const Sym.STORAGE_BLOCK_SIZE)) u.fns)
    (eval c K (call c u K (d + 6)) ((Ex.assign (some Op.or) (Ex.var Sym.block_value) (Ex.bin Op.shl (Ex.var Sym.block_value) (Ex.var Sym.i))).seq
      ((Ex.assign (some Op.mul) (Ex.var Sym.i) (Ex.num 2)).seq Ex.unit)) u.fns)
    (by intro v i; simp [↓bindStep, text])
    (by
      intro v i hi
      have h10 : i * 2 < c.build.usizeLim := by omega
      simp [↓bindStep, text, blkShl, hi, uMul_ok h10])
    K (BitVec.ofNat c.W (c.E.toDiscr x)) c.bits hc.bits_pos (by omega)
  rw [hj]
  clear hj
  generalize spread (BitVec.ofNat c.W (c.E.toDiscr x)) c.bits = v
  have hr2 : Room c (fixStorage c s).2.storage := ⟨by
    have h13 := hr1.1
    have h14 : ((fixStorage c s).2.storage.data).length ≤ s.storage.data.length := by simp [fixStorage, RVec.truncate]; omega
    exact Nat.le_trans h14 h13, hr1.2⟩
  have h11 : b + (if 0 < count - (a + b * c.epb) then 1 else 0) < c.build.usizeLim := by
    split <;> omega
  have h12 : uAdd c.build b (if 0 < count - (a + b * c.epb) then 1 else 0) = .ok (b + (if 0 < count - (a + b * c.epb) then 1 else 0)) := uAdd_ok h11
  rcases hy : fixStorage c s with ⟨e | _, s1⟩ <;> rw [hy] at hr2
  · cases hy
  rcases hz : RVec.reserve c.alloc s1.storage (b + (if 0 < count - (a + b * c.epb) then 1 else 0)) with e | st
  · simp [↓bindStep, text, text_len, text_fix_storage hc, hy, h12, hz]
  obtain ⟨hr3, -, hcap⟩ := reserve_room hc hm hr2 hz
  simp [↓bindStep, text, text_len, text_fix_storage hc, hy, h12, hz]
  change s1.storage.data.length + _ ≤ _ at hcap
  have hb : b ≤ st.cap := Nat.le_trans (Nat.le_trans (Nat.le_add_right _ _) (Nat.le_add_left _ _)) hcap
  have hb2 : 2 * b < c.build.usizeLim := by have := hr3.2; omega
  rw [forLoop_eq (σ := EV c.W) (fun (_ : Unit) s' => ⟨[(Sym.old_len, Val.usz s.num), (Sym.i, Val.usz j), (Sym.block_value, Val.blk v), (Sym.d, Val.usz (c.E.toDiscr x)),
      (Sym.to_insert_last, Val.usz (count - (a + b * c.epb))), (Sym.to_insert_mid, Val.usz (b * c.epb)), (Sym.count_blocks, Val.usz b), (Sym.count_end, Val.usz (count - a)),
      (Sym.to_insert_first, Val.usz a), (Sym.self, Val.vec sl), (Sym.value, Val.elem x), (Sym.count, Val.usz count)], h.set sl s'⟩) (fun s' => h.set sl s')
      (fun _ _ s' => Room c s'.storage) (fillStep c b v) (acc := ())]
  · rcases hw : loop (fillStep c b v) b 0 () { storage := st, num := s1.num } with ⟨e | _, s2⟩
    · simp [Out.ofLoop, ↓bindStep, text]
    rcases ha : uAdd c.build s.num (b * c.epb) with e | n
    · simp [Out.ofLoop, ↓bindStep, text, uMul_ok h7, ha]
    have h15 := text_extend hc K u d sl (repeatTake x (count - (a + b * c.epb))) .unit (h.set sl { s2 with num := n })
    rw [Heap.get_set] at h15
    rcases hq : EV.extend c (repeatTake x (count - (a + b * c.epb))) { s2 with num := n } with ⟨e | _, s3⟩ <;> rw [hq] at h15 <;>
    simp [Out.ofLoop, ↓bindStep, text, uMul_ok h7, ha, text_set_len, setLen, h15, hq]
  · intro i _ s' _ _ hs'
    have h16 : s'.storage.len + b < c.build.usizeLim := by
      have := hs'.1; have := hs'.2
      show s'.storage.data.length + b < _
      omega
    rcases hq : RVec.resize c.alloc s'.storage (s'.storage.len + b) v with e | v' <;>
    simp [Out.ofLoop, ↓bindStep, text, uAdd_ok h16, hq, fillStep]
  · intro i _ s' _ s'' _ _ hs' hq
    unfold fillStep at hq
    split at hq
    · cases hq
      exact rresize_room hc hm hs' (by assumption)
    · cases hq
  · exact hr3

theorem text_resize (d : Nat) (sl : Slot) (x : α) (n : Nat) (h : Heap τ c.W) (hK : c.build.usizeLim ≤ K) (hn : n < c.build.usizeLim)
    (hr : Room c (h.get sl).storage) :
    call c u K (d + 8) .resize [.vec sl, .usz n, .elem x] h = .ofM h sl (fun _ => .unit) (EV.resize c n x (h.get sl)) := by
  rw [call_eq u K (d + 7) (fn := f_resize) rfl]
  by_cases h1 : (h.get sl).num < n
  · have h2 := text_extend_with_value hc hm u K d sl x (n - (h.get sl).num) h hK (by omega) hr
    rcases hx : EV.extendWithValue c x (n - (h.get sl).num) (h.get sl) with ⟨e | _, s⟩ <;> rw [hx] at h2 <;>
    simp [f_resize, ↓bindStep, text, text_len, h1, uSub_ok (Nat.le_of_lt h1), h2, EV.resize, hx, len]
  · have h2 := text_truncate u K (d + 5) sl n .unit h
    rcases hx : EV.truncate c n (h.get sl) with ⟨e | _, s⟩ <;> rw [hx] at h2 <;>
    simp [f_resize, ↓bindStep, text, text_len, h1, h2, EV.resize, hx, len]

end Source
end EnumVecModel
