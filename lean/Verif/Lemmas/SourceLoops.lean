import Verif.Lemmas.SourceText
/-! # The source text of `insert` and `remove` is the model -/

namespace EnumVecModel
namespace Source
open EV
set_option linter.constructorNameAsVariable false
set_option linter.unusedSimpArgs false
variable {α τ : Type} {W : Nat}

/-- The outcome of a loop, given that of the loop of the model. -/
def Out.ofLoop {σ β : Type} (S : β → σ → St α τ W) (Hp : σ → Heap τ W) (r : Except Fault β × σ) : Out α τ W :=
  match r with
  | (.ok b, s) => .val .unit (S b s)
  | (.error e, s) => .fault e (Hp s)

theorem forLoop_eq {σ β : Type} (S : β → σ → St α τ W) (Hp : σ → Heap τ W) (Inv : Nat → β → σ → Prop) (step : Nat → β → M σ β)
    (body : Nat → St α τ W → Out α τ W) :
    ∀ (n i : Nat) (acc : β) (s : σ),
    (∀ j acc s, i ≤ j → j < i + n → Inv j acc s → body j (S acc s) = .ofLoop S Hp (step j acc s)) →
    (∀ j acc s acc' s', i ≤ j → j < i + n → Inv j acc s → step j acc s = (.ok acc', s') → Inv (j + 1) acc' s') →
    Inv i acc s → forLoop body n i (S acc s) = .ofLoop S Hp (loop step n i acc s)
  | 0, i, acc, s, _, _, _ => rfl
  | n + 1, i, acc, s, hb, hI, h => by
    unfold forLoop loop
    rw [hb i acc s (Nat.le_refl _) (by omega) h, M.bind_apply]
    rcases hx : step i acc s with ⟨e | acc', s'⟩
    · rfl
    · exact forLoop_eq S Hp Inv step body n (i + 1) acc' s' (fun j a t h1 h2 => hb j a t (by omega) (by omega))
        (fun j a t a' t' h1 h2 => hI j a t a' t' (by omega) (by omega)) (hI i acc s acc' s' (Nat.le_refl _) (by omega) h hx)

theorem forLoopRev_eq {σ β : Type} (S : β → σ → St α τ W) (Hp : σ → Heap τ W) (step : Nat → β → M σ β)
    (body : Nat → St α τ W → Out α τ W) (lo hi : Nat)
    (hb : ∀ j acc s, body j (S acc s) = .ofLoop S Hp (step j acc s)) :
    ∀ (n k : Nat) (acc : β) (s : σ), lo + n + k = hi + 1 →
    forLoopRev body lo n (S acc s) = .ofLoop S Hp (loop (fun k => step (hi - k)) n k acc s)
  | 0, i, acc, s, _ => rfl
  | n + 1, k, acc, s, h => by
    unfold forLoopRev loop
    rw [hb, M.bind_apply, show hi - k = lo + n by omega]
    rcases hx : step (lo + n) acc s with ⟨e | acc', s'⟩
    · rfl
    · exact forLoopRev_eq S Hp step body lo hi hb n (k + 1) acc' s' (by omega)

theorem whileLoop_eq {σ β : Type} (S : Nat → β → σ → St α τ W) (Hp : σ → Heap τ W) (Inv : Nat → β → σ → Prop) (step : Nat → β → M σ β)
    (cond body : St α τ W → Out α τ W) (lim : Nat)
    (hcond : ∀ i acc s, cond (S i acc s) = .val (.bool (decide (i < lim))) (S i acc s))
    (hb : ∀ i acc s, i < lim → Inv i acc s → body (S i acc s) = .ofLoop (S (i + 1)) Hp (step i acc s))
    (hI : ∀ i acc s acc' s', i < lim → Inv i acc s → step i acc s = (.ok acc', s') → Inv (i + 1) acc' s') :
    ∀ (K i : Nat) (acc : β) (s : σ), lim - i < K → Inv i acc s →
    whileLoop cond body K (S i acc s) = .ofLoop (S (max i lim)) Hp (loop step (lim - i) i acc s)
  | 0, _, _, _, h, _ => by omega
  | K + 1, i, acc, s, h, h0 => by
    unfold whileLoop
    rw [hcond]
    by_cases h1 : i < lim
    · rw [show lim - i = lim - (i + 1) + 1 by omega]
      unfold loop
      rw [M.bind_apply, bind_val]
      simp only [h1, decide_true]
      rw [hb i acc s h1 h0]
      rcases hx : step i acc s with ⟨e | acc', s'⟩
      · rfl
      · have := whileLoop_eq S Hp Inv step cond body lim hcond hb hI K (i + 1) acc' s' (by omega) (hI i acc s acc' s' h1 h0 hx)
        rw [show max (i + 1) lim = max i lim by omega] at this
        exact this
    · rw [show lim - i = 0 by omega, show max i lim = i by omega]
      simp [bind_val, h1, loop, Out.ofLoop, M.pure_apply]

theorem loop_inv {σ β : Type} {P : σ → Prop} {step : Nat → β → M σ β} (hP : ∀ j acc s, P s → P (step j acc s).2) :
    ∀ n i acc s, P s → P (loop step n i acc s).2
  | 0, _, _, _, h => h
  | n + 1, i, acc, s, h => by
    unfold loop
    rw [M.bind_apply]
    have h1 := hP i acc s h
    rcases hx : step i acc s with ⟨e | acc', s'⟩ <;> rw [hx] at h1
    · exact h1
    · exact loop_inv hP n (i + 1) acc' s' h1

theorem setRawUnchecked_num (c : Inst α) (i x : Nat) (s : EV c.W) : (setRawUnchecked c i x s).2.num = s.num := by
  unfold setRawUnchecked; split <;> rfl

theorem set_num (c : Inst α) (i : Nat) (x : α) (s : EV c.W) : (EV.set c i x s).2.num = s.num := by
  unfold EV.set setRaw
  rw [M.read_bind, M.ite_apply]
  split
  · rfl
  · exact setRawUnchecked_num c _ _ s

theorem push_num {c : Inst α} {x : α} {s s' : EV c.W} (h : EV.push c x s = (.ok (), s')) : s'.num < c.build.usizeLim := by
  unfold EV.push at h
  rw [M.bind_apply] at h
  split at h
  · rw [M.read_bind] at h
    split at h
    · rename_i t _ h1
      have := set_num c t.num x { t with num := t.num + 1 }
      change EV.set c t.num x { t with num := t.num + 1 } = _ at h
      rw [h] at this
      rw [this]; exact h1
    · cases h
  · cases h

theorem insertSlowStep_num (c : Inst α) (i p : Nat) (s : EV c.W) : (insertSlowStep c i p s).2.num = s.num := by
  unfold insertSlowStep
  have h0 : (getRawUnchecked c i s).2 = s := rfl
  rw [M.bind_apply]
  rcases hy : getRawUnchecked c i s with ⟨e | n, s'⟩ <;> rw [hy] at h0 <;> cases h0
  · rfl
  · have := setRawUnchecked_num c i p s'
    simp only
    rw [M.bind_apply]
    rcases hz : setRawUnchecked c i p s' with ⟨e | _, t'⟩ <;> rw [hz] at this <;> exact this

theorem removeSlowStep_num (c : Inst α) (i : Nat) (p : Unit) (s : EV c.W) : (removeSlowStep c i p s).2.num = s.num := by
  unfold removeSlowStep
  have h0 : (getRawUnchecked c (i + 1) s).2 = s := rfl
  rw [M.bind_apply]
  rcases hy : getRawUnchecked c (i + 1) s with ⟨e | n, s'⟩ <;> rw [hy] at h0 <;> cases h0
  · rfl
  · exact setRawUnchecked_num c i n s'

variable {strict : Prop} {c : Inst α} (hc : c.Fits strict) (u : User α τ c.W) (K : Nat)
include hc


attribute [local irreducible] Inst.epb Inst.bits

/-- The closure of `insert`. -/
theorem insert_closure (Γ : Sym → List (Val α c.W) → Heap τ c.W → Ret α τ c.W) (Δ : Fns α τ c.W) (env : Env α c.W) (sl : Slot) (j : Nat) (p : BitVec c.W) (h : Heap τ c.W) (s : EV c.W) (hj : j < s.storage.data.length) :
    eval c K Γ (Ex.letE (Pat.one Sym.last_bit_offset)
      (Ex.bin Op.mul (Ex.bin Op.sub (Ex.const Sym.ELEMS_PER_BLOCK) (Ex.num 1)) (Ex.const Sym.BITS_PER_ELEM))
      (Ex.letE (Pat.one Sym.last)
        (Ex.bin Op.and (Ex.bin Op.shr (Ex.var Sym.block).deref (Ex.var Sym.last_bit_offset)) (Ex.const Sym.ELEMENT_MASK))
        ((Ex.assign (some Op.shl) (Ex.var Sym.block).deref (Ex.const Sym.BITS_PER_ELEM)).seq
          ((Ex.assign (some Op.or) (Ex.var Sym.block).deref (Ex.var Sym.at_zero)).seq (Ex.var Sym.last)))))
      Δ ⟨(.block, .block sl j) :: (.at_zero, .blk p) :: env, h.set sl s⟩ =
    match shiftUp c s.storage.data[j] p with
    | .error e => .fault e (h.set sl s)
    | .ok r => .val (.blk r.1) ⟨(.block, .block sl j) :: (.at_zero, .blk p) :: env, h.set sl (setBlock c j r.2 s).2⟩ := by
  have h1 : 1 ≤ c.epb := hc.epb_pos
  have h2 : (c.epb - 1) * c.bits < c.W := by
    have := hc.fld_fits (show c.epb - 1 < c.epb by omega)
    have := hc.bits_pos
    omega
  have h3 : uMul c.build (c.epb - 1) c.bits = .ok ((c.epb - 1) * c.bits) := if_pos (Nat.lt_trans h2 (W_lt hc))
  rcases h4 : blkShl c.build.checked s.storage.data[j] c.bits with e | b <;>
  simp [↓bindStep, text, uSub_ok h1, h3, hj, blkShr, h2, shiftUp, h4, setBlock]

theorem text_insert (d : Nat) (sl : Slot) (index : Nat) (x : α) (h : Heap τ c.W) (hK : c.build.usizeLim ≤ K) :
    call c u K (d + 6) .insert [.vec sl, .usz index, .elem x] h = .ofM h sl (fun _ => .unit) (EV.insert c index x (h.get sl)) := by
  rw [call_eq u K (d + 5) (fn := f_insert) rfl]
  simp only [f_insert]
  rw [eval_letFn]
  generalize hΔ : (fun g => if g = Sym.shift_storage then _ else _ : Fns α τ c.W) = Δ
  have hg := congrFun hΔ .shift_storage
  rw [if_pos rfl] at hg
  replace hg := hg.symm
  clear hΔ
  have h1 := text_push hc u K d sl x .unit h
  have h2 : c.epb ≠ 0 := Nat.pos_iff_ne_zero.mp hc.epb_pos
  rcases hx : EV.push c x (h.get sl) with ⟨e | _, s⟩ <;> rw [hx] at h1
  · simp [↓bindStep, text, h1, EV.insert, hx]
  have hs : s.num < c.build.usizeLim := push_num hx
  have hfast : ∀ i p m s, s.num < c.build.usizeLim → eval c K (call c u K (d + 5))
                          ((Ex.bin Op.lt (Ex.var Sym.i) ((Ex.var Sym.self).meth Sym.len Ex.unit Ex.unit)).ite
                            (Ex.letE (Pat.two Sym.ib Sym.wild) (Ex.call Sym.Self Sym.block_index (Ex.var Sym.i) Ex.unit)
                              (Ex.letE (Pat.two Sym.last_ib Sym.wild)
                                (Ex.call Sym.Self Sym.block_index
                                  (Ex.bin Op.sub ((Ex.var Sym.self).meth Sym.len Ex.unit Ex.unit) (Ex.num 1)) Ex.unit)
                                (Ex.letE (Pat.one Sym.prev) ((Ex.var Sym.prev).cast Sym.StorageBlock)
                                  (Ex.forE Sym.i ((Ex.var Sym.ib).range (Ex.bin Op.add (Ex.var Sym.last_ib) (Ex.num 1)))
                                    ((Ex.assign none (Ex.var Sym.prev)
                                          (Ex.callv Sym.shift_storage
                                            (((Ex.var Sym.self).field Sym.storage).index (Ex.var Sym.i)).refMut
                                            (Ex.var Sym.prev))).seq
                                      Ex.unit)))))
                            Ex.unit) Δ ⟨[(Sym.i, Val.usz i), (Sym.prev, Val.usz p),
                                      (Sym.self_len, Val.usz m), (Sym.slow_insert, Val.usz (index % c.epb)),
                                      (Sym.self, Val.vec sl), (Sym.index, Val.usz index), (Sym.element, Val.elem x)], h.set sl s⟩ =
      match (if i < s.num then loop (insertFastStep c) ((blockIndex c (s.num - 1)).fst + 1 - (blockIndex c i).fst) (blockIndex c i).fst (BitVec.ofNat c.W p) s
          else (.ok 0#c.W, s)) with
      | (.error e, s') => .fault e (h.set sl s')
      | (.ok _, s') => .val .unit ⟨[(Sym.i, Val.usz i), (Sym.prev, Val.usz p),
                                      (Sym.self_len, Val.usz m), (Sym.slow_insert, Val.usz (index % c.epb)),
                                      (Sym.self, Val.vec sl), (Sym.index, Val.usz index), (Sym.element, Val.elem x)], h.set sl s'⟩ := by
    intro i p m s hs
    by_cases h0 : i < s.num
    · have h3 : (blockIndex c (s.num - 1)).1 + 1 < c.build.usizeLim := by
        have : (s.num - 1) / c.epb ≤ s.num - 1 := Nat.div_le_self _ _
        show (s.num - 1) / c.epb + 1 < _
        omega
      have h4 : 1 ≤ s.num := by omega
      simp [↓bindStep, text, text_len, text_block_index hc, uSub_ok h4, uAdd_ok h3, h0]
      rw [forLoop_eq (σ := EV c.W) (fun p' s' => ⟨[(Sym.prev, .blk p'), (Sym.last_ib, .usz (blockIndex c (s.num - 1)).1), (Sym.wild, .usz (blockIndex c (s.num - 1)).2), 
            (Sym.ib, .usz (blockIndex c i).1), (Sym.wild, .usz (blockIndex c i).2), (Sym.i, Val.usz i), (Sym.prev, Val.usz p),
                                      (Sym.self_len, Val.usz m), (Sym.slow_insert, Val.usz (index % c.epb)),
                                      (Sym.self, Val.vec sl), (Sym.index, Val.usz index), (Sym.element, Val.elem x)], h.set sl s'⟩) (fun s' => h.set sl s')
            (fun _ _ _ => True) (insertFastStep c)]
      · rcases loop (insertFastStep c) ((blockIndex c (s.num - 1)).fst + 1 - (blockIndex c i).fst) (blockIndex c i).fst (BitVec.ofNat c.W p) s with ⟨e | _, s'⟩ <;>
        simp [Out.ofLoop, text]
      · intro j p' s' _ _ _
        rcases Nat.lt_or_ge j s'.storage.data.length with hj | hj
        · have h5 : s'.storage.data[j]? = some s'.storage.data[j] := List.getElem?_eq_getElem hj
          rcases h6 : shiftUp c s'.storage.data[j] p' with e | ⟨b, b'⟩ <;>
          simp [↓bindStep, text, RVec.len, hj, eval_callv _ _ _ _ _ _ _ _ _ hg, insert_closure hc, h5, h6, insertFastStep, EV.block, setBlock, Out.ofLoop]
        · simp [↓bindStep, text, RVec.len, hj, Nat.not_lt.mpr hj, eval_callv _ _ _ _ _ _ _ _ _ hg, insertFastStep, EV.block, Out.ofLoop]
      · intros; trivial
      · trivial
    · simp [↓bindStep, text, text_len, h0]
  by_cases h0 : 0 < index % c.epb
  · rcases h3 : uAdd c.build (index - index % c.epb) c.epb with e | k
    · simp [↓bindStep, text, h1, EV.insert, hx, h2, text_len, h0, len, uSub_ok (Nat.mod_le index c.epb), h3]
    simp [↓bindStep, text, h1, EV.insert, hx, h2, text_len, h0, len, uSub_ok (Nat.mod_le index c.epb), h3]
    rw [whileLoop_eq (σ := EV c.W) (fun i p s' => ⟨[(.slow_limit, .usz (min k s.num)), (.slow_limit, .usz k), (Sym.i, .usz i), (Sym.prev, Val.usz p), (Sym.self_len, Val.usz s.num), (Sym.slow_insert, Val.usz (index % c.epb)),
                                      (Sym.self, Val.vec sl), (Sym.index, Val.usz index), (Sym.element, Val.elem x)], h.set sl s'⟩) (fun s' => h.set sl s') (fun _ _ _ => True) (insertSlowStep c) _ _
         (min k s.num)]
    · have h4 := loop_inv (P := fun t => t.num < c.build.usizeLim) (step := insertSlowStep c) (fun j acc t ht => by rw [insertSlowStep_num]; exact ht) (min k s.num - index) index (c.E.toDiscr x) s hs
      rcases hy : loop (insertSlowStep c) (min k s.num - index) index (c.E.toDiscr x) s with ⟨e | p, t⟩ <;> rw [hy] at h4
      · simp [Out.ofLoop, ↓bindStep, text]
      · by_cases h5 : max index (min k s.num) < t.num
        · rcases hz : loop (insertFastStep c) ((blockIndex c (t.num - 1)).fst + 1 - (blockIndex c (max index (min k s.num))).fst) (blockIndex c (max index (min k s.num))).fst (BitVec.ofNat c.W p) t with ⟨e | _, t'⟩ <;>
          simp [Out.ofLoop, ↓bindStep, text, hfast _ _ _ _ h4, h5, hz]
        · simp [Out.ofLoop, ↓bindStep, text, hfast _ _ _ _ h4, h5]
    · intro i p t
      simp [↓bindStep, text]
    · intro i p t hi' _
      have h6 := text_get_raw_unchecked hc u K (d + 3) sl i .unit (h.set sl t)
      rw [Heap.get_set] at h6
      have h8 : i + 1 < c.build.usizeLim := by omega
      rcases hy : getRawUnchecked c i t with ⟨e | n, t'⟩ <;> rw [hy] at h6
      · simp [↓bindStep, text, h6, insertSlowStep, hy, Out.ofLoop]
      have h7 := text_set_raw_unchecked hc u K (d + 3) sl i p (h.set sl t')
      rw [Heap.get_set] at h7
      rcases hz : setRawUnchecked c i p t' with ⟨e | n, t''⟩ <;> rw [hz] at h7 <;>
      simp [↓bindStep, text, h6, h7, insertSlowStep, hy, hz, Out.ofLoop, uAdd_ok h8]
    · intros; trivial
    · omega
    · trivial
  · by_cases h5 : index < s.num
    · rcases hz : loop (insertFastStep c) ((blockIndex c (s.num - 1)).fst + 1 - (blockIndex c index).fst) (blockIndex c index).fst (BitVec.ofNat c.W (c.E.toDiscr x)) s with ⟨e | _, t'⟩ <;>
      simp [↓bindStep, text, h1, EV.insert, hx, h2, text_len, h0, len, hfast _ _ _ _ hs, h5, hz]
    · simp [↓bindStep, text, h1, EV.insert, hx, h2, text_len, h0, len, hfast _ _ _ _ hs, h5]

/-- The closure of `remove`. -/
theorem remove_closure (Γ : Sym → List (Val α c.W) → Heap τ c.W → Ret α τ c.W) (Δ : Fns α τ c.W) (env : Env α c.W) (sl : Slot) (j : Nat) (p : BitVec c.W) (h : Heap τ c.W) (s : EV c.W) (hj : j < s.storage.data.length) :
    eval c K Γ (Ex.letE (Pat.one Sym.last) (Ex.bin Op.and (Ex.var Sym.block).deref (Ex.const Sym.ELEMENT_MASK))
      (Ex.letE (Pat.one Sym.end_bit_offset)
        (Ex.bin Op.mul (Ex.bin Op.sub (Ex.const Sym.ELEMS_PER_BLOCK) (Ex.num 1)) (Ex.const Sym.BITS_PER_ELEM))
        ((Ex.assign (some Op.shr) (Ex.var Sym.block).deref (Ex.const Sym.BITS_PER_ELEM)).seq
          ((Ex.assign (some Op.or) (Ex.var Sym.block).deref (Ex.bin .shl (Ex.var Sym.at_zero) (.var .end_bit_offset))).seq (Ex.var Sym.last)))))
      Δ ⟨(.block, .block sl j) :: (.at_zero, .blk p) :: env, h.set sl s⟩ =
    match shiftDown c s.storage.data[j] p with
    | .error e => .fault e (h.set sl s)
    | .ok r => .val (.blk r.1) ⟨(.block, .block sl j) :: (.at_zero, .blk p) :: env, h.set sl (setBlock c j r.2 s).2⟩ := by
  have h1 : 1 ≤ c.epb := hc.epb_pos
  have h2 : (c.epb - 1) * c.bits < c.W := by
    have := hc.fld_fits (show c.epb - 1 < c.epb by omega)
    have := hc.bits_pos
    omega
  have h3 : uMul c.build (c.epb - 1) c.bits = .ok ((c.epb - 1) * c.bits) := if_pos (Nat.lt_trans h2 (W_lt hc))
  rcases h4 : blkShr c.build.checked s.storage.data[j] c.bits with e | b <;>
  simp [↓bindStep, text, uSub_ok h1, h3, hj, blkShl, h2, shiftDown, h4, setBlock]

omit hc in
theorem get_some {i : Nat} {x : α} {s s' : EV c.W} (h : EV.get c i s = (.ok (some x), s')) : i < s.num ∧ s' = s := by
  have h1 := get_state (c := c) i s
  rw [h] at h1
  refine ⟨?_, h1⟩
  rcases Nat.lt_or_ge i s.num with h2 | h2
  · exact h2
  · have : EV.get c i s = (.ok none, s) := by simp [EV.get, getRaw, text, len, h2]
    rw [this] at h; cases h

theorem text_remove_aux (d : Nat) (sl : Slot) (index : Nat) (w : Val α c.W) (h : Heap τ c.W) (s : EV c.W) (hK : c.build.usizeLim ≤ K)
    (hn : s.num < c.build.usizeLim) :
    call c u K (d + 5) .remove [.vec sl, .usz index, w] (h.set sl s) = .ofM h sl .elem (EV.remove c index s) := by
  rw [call_eq u K (d + 4) (fn := f_remove) rfl]
  have h1 := text_get hc u K d sl index .unit (h.set sl s)
  rw [Heap.get_set] at h1
  rcases hx : EV.get c index s with ⟨e | _ | x, t⟩ <;> rw [hx] at h1
  · simp [f_remove, ↓bindStep, text, h1, EV.remove, hx]
  · simp [f_remove, ↓bindStep, text, h1, EV.remove, hx]
  obtain ⟨hlt, rfl⟩ := get_some hx
  change (eval c K _ _ _ ⟨[(.self, .vec sl), (.index, .usz index)], _⟩).finish = _
  simp only [f_remove]
  rw [eval_let1, show eval c K (call c u K (d + 4)) (.meth (.meth (.var .self) .get (.var .index) .unit) .unwrap .unit .unit) u.fns
      ⟨[(.self, .vec sl), (.index, .usz index)], h.set sl t⟩ = .val (.elem x) ⟨[(.self, .vec sl), (.index, .usz index)], h.set sl t⟩ by simp [↓bindStep, text, h1], bind_val, eval_letFn]
  simp only [Val.dflt]
  generalize hΔ : (fun g => if g = Sym.shift_storage then _ else _ : Fns α τ c.W) = Δ
  have hg := congrFun hΔ .shift_storage
  rw [if_pos rfl] at hg
  replace hg := hg.symm
  clear hΔ
  have h3 : 1 ≤ t.num := by omega
  have h4 : 1 + (blockIndex c index).1 < c.build.usizeLim := by
    have : index / c.epb ≤ index := Nat.div_le_self _ _
    show 1 + index / c.epb < _
    omega
  rcases h5 : uMul c.build (1 + (blockIndex c index).1) c.epb with e | k
  · simp [↓bindStep, text, text_len, text_block_index hc, uSub_ok h3, uAdd_ok h4, h5, EV.remove, hx]
  simp [↓bindStep, text, text_len, text_block_index hc, uSub_ok h3, uAdd_ok h4, h5, EV.remove, hx, len]
  rw [whileLoop_eq (σ := EV c.W) (fun i (_ : Unit) s' => ⟨[(.slow_limit, .usz (min (t.num - 1) k)), (.block_limit, .usz k), (.length, .usz (t.num - 1)), (.i, .usz i), (.x, .elem x),
        (.self, .vec sl), (.index, .usz index)], h.set sl s'⟩) (fun s' => h.set sl s') (fun _ _ _ => True) (removeSlowStep c) _ _ (min (t.num - 1) k)]
  · have h6 := loop_inv (P := fun t' => t'.num = t.num) (step := removeSlowStep c) (fun j acc t' ht => by rw [removeSlowStep_num]; exact ht) (min (t.num - 1) k - index) index () t rfl
    rcases hy : loop (removeSlowStep c) (min (t.num - 1) k - index) index () t with ⟨e | _, t'⟩ <;> rw [hy] at h6
    · simp [Out.ofLoop, ↓bindStep, text]
    change t'.num = t.num at h6
    have h3' : 1 ≤ t'.num := by omega
    have h7 := text_get_raw_unchecked hc u K (d + 2) sl (t'.num - 1) .unit (h.set sl t')
    rw [Heap.get_set] at h7
    have h8 : (getRawUnchecked c (t'.num - 1) t').2 = t' := rfl
    rcases hz : getRawUnchecked c (t'.num - 1) t' with ⟨e | p, t''⟩ <;> rw [hz] at h7 h8
    · simp [Out.ofLoop, ↓bindStep, text, text_len, uSub_ok h3', h7, hz]
    change t'' = t' at h8
    subst t''
    by_cases h9 : max index (min (t.num - 1) k) < t'.num - 1
    · have h10 : 1 ≤ t'.num - 1 := by omega
      have h11 : (blockIndex c (t'.num - 1 - 1)).1 + 1 < c.build.usizeLim := by
        have : (t'.num - 1 - 1) / c.epb ≤ t'.num - 1 - 1 := Nat.div_le_self _ _
        show (t'.num - 1 - 1) / c.epb + 1 < _
        omega
      have h12 : (blockIndex c (max index (min (t.num - 1) k))).1 ≤ (blockIndex c (t'.num - 1 - 1)).1 := Nat.div_le_div_right (by omega)
      simp [Out.ofLoop, ↓bindStep, text, text_len, uSub_ok h3', h7, h9, uSub_ok h10, text_block_index hc, uAdd_ok h11, hz]
      rw [forLoopRev_eq (σ := EV c.W) (fun p' s' => ⟨[(Sym.prev, .blk p'), (Sym.last_ib, .usz (blockIndex c (t'.num - 1 - 1)).1), (Sym.wild, .usz (blockIndex c (t'.num - 1 - 1)).2), 
            (Sym.ib, .usz (blockIndex c (max index (min (t.num - 1) k))).1), (Sym.wild, .usz (blockIndex c (max index (min (t.num - 1) k))).2), (.prev, .usz p),
            (.slow_limit, .usz (min (t.num - 1) k)), (.block_limit, .usz k), (.length, .usz (t.num - 1)), (.i, .usz (max index (min (t.num - 1) k))), (.x, .elem x),
        (.self, .vec sl), (.index, .usz index)], h.set sl s'⟩) (fun s' => h.set sl s') (removeFastStep c)
         _ _ (blockIndex c (t'.num - 1 - 1)).1]
      · rcases loop (fun k => removeFastStep c ((blockIndex c (t'.num - 1 - 1)).1 - k)) ((blockIndex c (t'.num - 1 - 1)).1 + 1 - (blockIndex c (max index (min (t.num - 1) k))).1) 0 (BitVec.ofNat c.W p)
            { storage := t'.storage, num := t'.num - 1 } with ⟨e | _, s'⟩ <;>
        simp [Out.ofLoop, ↓bindStep, text]
      · intro j p' s'
        rcases Nat.lt_or_ge j s'.storage.data.length with hj | hj
        · have h5 : s'.storage.data[j]? = some s'.storage.data[j] := List.getElem?_eq_getElem hj
          rcases h6 : shiftDown c s'.storage.data[j] p' with e | ⟨b, b'⟩ <;>
          simp [↓bindStep, text, RVec.len, hj, eval_callv _ _ _ _ _ _ _ _ _ hg, remove_closure hc, h5, h6, removeFastStep, EV.block, setBlock, Out.ofLoop]
        · simp [↓bindStep, text, RVec.len, hj, Nat.not_lt.mpr hj, eval_callv _ _ _ _ _ _ _ _ _ hg, removeFastStep, EV.block, Out.ofLoop]
      · omega
    · simp [Out.ofLoop, ↓bindStep, text, text_len, uSub_ok h3', h7, h9, hz]
  · intro i p t
    simp [↓bindStep, text]
  · intro i _ t' hi' _
    have h6 := text_get_raw_unchecked hc u K (d + 2) sl (i + 1) .unit (h.set sl t')
    rw [Heap.get_set] at h6
    have h8 : i + 1 < c.build.usizeLim := by omega
    rcases hy : getRawUnchecked c (i + 1) t' with ⟨e | n, t''⟩ <;> rw [hy] at h6
    · simp [↓bindStep, text, h6, removeSlowStep, hy, Out.ofLoop, uAdd_ok h8]
    have h7 := text_set_raw_unchecked hc u K (d + 2) sl i n (h.set sl t'')
    rw [Heap.get_set] at h7
    rcases hz : setRawUnchecked c i n t'' with ⟨e | n, t3⟩ <;> rw [hz] at h7 <;>
    simp [↓bindStep, text, h6, h7, removeSlowStep, hy, hz, Out.ofLoop, uAdd_ok h8]
  · intros; trivial
  · omega
  · trivial

theorem text_remove (d : Nat) (sl : Slot) (index : Nat) (w : Val α c.W) (h : Heap τ c.W) (hK : c.build.usizeLim ≤ K)
    (hn : (h.get sl).num < c.build.usizeLim) :
    call c u K (d + 5) .remove [.vec sl, .usz index, w] h = .ofM h sl .elem (EV.remove c index (h.get sl)) := by
  have := text_remove_aux hc u K d sl index w h (h.get sl) hK hn
  rwa [Heap.set_get] at this

end Source
end EnumVecModel
