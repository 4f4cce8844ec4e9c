import Verif.Lemmas.SourceBulk
/-! # The source text of the constructors and of the methods of two vectors is the model -/

namespace EnumVecModel
namespace Source
open EV
set_option linter.constructorNameAsVariable false
set_option linter.unusedSimpArgs false
variable {α τ : Type} {W : Nat}

attribute [local irreducible] Inst.epb Inst.bits

@[text] theorem Heap.get_a_set_b (h : Heap τ W) (v : EV W) : (h.set .b v).get .a = h.get .a := rfl
@[text] theorem Heap.get_b_set_a (h : Heap τ W) (v : EV W) : (h.set .a v).get .b = h.get .b := rfl
@[text] theorem Heap.set_set_comm (h : Heap τ W) (v w : EV W) : (h.set .b v).set .a w = (h.set .a w).set .b v := rfl

variable {strict : Prop} {c : Inst α} (hc : c.Fits strict) (hm : Small c) (u : User α τ c.W) (K : Nat)

theorem text_default (d : Nat) (v w : Val α c.W) (h : Heap τ c.W) :
    call c u K (d + 1) .default [v, w] h = .val (.vec .b) (h.set .b (EV.new c)) := by
  rw [call_eq u K d (fn := f_default) rfl]
  simp [f_default, ↓bindStep, text, EV.new]

theorem text_new (d : Nat) (v w : Val α c.W) (h : Heap τ c.W) :
    call c u K (d + 2) .new [v, w] h = .val (.vec .b) (h.set .b (EV.new c)) := by
  rw [call_eq u K (d + 1) (fn := f_new) rfl]
  simp [f_new, ↓bindStep, text, text_default]

/-- The result of a constructor. -/
def Ret.made (h : Heap τ W) (r : Except Fault (EV W)) (s : EV W) : Ret α τ W :=
  match r with
  | .ok v => .val (.vec .b) (h.set .b v)
  | .error e => .fault e (h.set .b s)

include hc

theorem text_with_capacity (d : Nat) (n : Nat) (w : Val α c.W) (h : Heap τ c.W) :
    call c u K (d + 2) .with_capacity [.usz n, w] h = .made h (EV.withCapacity c n) (h.get .b) := by
  rw [call_eq u K (d + 1) (fn := f_with_capacity) rfl]
  rcases hx : RVec.withCapacity (W := c.W) c.alloc (blocksForElements c n) with e | v <;>
  simp [f_with_capacity, ↓bindStep, text, text_blocks_for_elements hc, hx, EV.withCapacity, Ret.made]

theorem text_from_iter (d : Nat) (it : Src α) (w : Val α c.W) (h : Heap τ c.W) :
    ∃ s, call c u K (d + 7) .from_iter [.src it, w] h = .made h (EV.fromIter c it) s := by
  rw [call_eq u K (d + 6) (fn := f_from_iter) rfl]
  have h1 := text_extend hc K u d .b it .unit (h.set .b (EV.new c))
  rw [Heap.get_set] at h1
  rcases hx : EV.extend c it (EV.new c) with ⟨e | _, s⟩ <;> rw [hx] at h1 <;> refine ⟨s, ?_⟩ <;>
  simp [f_from_iter, ↓bindStep, text, text_new, h1, EV.fromIter, EV.build, hx, Ret.made]

/-- of a `Vec` -/
theorem text_from_iter_vec (d : Nat) (xs : List α) (w : Val α c.W) (h : Heap τ c.W) :
    ∃ s, call c u K (d + 7) .from_iter [.slice xs, w] h = .made h (EV.fromIter c ⟨xs.length, xs, false⟩) s := by
  rw [call_eq u K (d + 6) (fn := f_from_iter) rfl]
  have h1 := text_extend_vec hc K u d .b xs .unit (h.set .b (EV.new c))
  rw [Heap.get_set] at h1
  rcases hx : EV.extend c ⟨xs.length, xs, false⟩ (EV.new c) with ⟨e | _, s⟩ <;> rw [hx] at h1 <;> refine ⟨s, ?_⟩ <;>
  simp [f_from_iter, ↓bindStep, text, text_new, h1, EV.fromIter, EV.build, hx, Ret.made]

theorem text_from_slice (d : Nat) (xs : List α) (w : Val α c.W) (h : Heap τ c.W) :
    ∃ s, call c u K (d + 7) .from_slice [.slice xs, w] h = .made h (EV.fromSlice c xs) s := by
  rw [call_eq u K (d + 6) (fn := f_from_slice) rfl]
  have h1 := text_extend hc K u d .b ⟨xs.length, xs, false⟩ .unit (h.set .b (EV.new c))
  rw [Heap.get_set] at h1
  rcases hx : EV.extend c ⟨xs.length, xs, false⟩ (EV.new c) with ⟨e | _, s⟩ <;> rw [hx] at h1 <;> refine ⟨s, ?_⟩ <;>
  simp [f_from_slice, ↓bindStep, text, text_new, h1, EV.fromSlice, EV.build, hx, Ret.made]

include hm in
theorem text_from_elem (d : Nat) (x : α) (n : Nat) (h : Heap τ c.W) (hK : c.build.usizeLim ≤ K) (hn : n < c.build.usizeLim) :
    ∃ s, call c u K (d + 8) .from_elem [.elem x, .usz n] h = .made h (EV.fromElem c x n) s := by
  rw [call_eq u K (d + 7) (fn := f_from_elem) rfl]
  have h1 := text_extend_with_value hc hm u K d .b x n (h.set .b (EV.new c)) hK hn (by
    rw [Heap.get_set]; exact ⟨Nat.zero_le _, hm.1⟩)
  rw [Heap.get_set] at h1
  rcases hx : EV.extendWithValue c x n (EV.new c) with ⟨e | _, s⟩ <;> rw [hx] at h1 <;> refine ⟨s, ?_⟩ <;>
  simp [f_from_elem, ↓bindStep, text, text_new, h1, EV.fromElem, EV.build, hx, Ret.made]

/-- The result of a method of two vectors. -/
def Ret.ofM2 (h : Heap τ W) (r : Except Fault Unit × (EV W × EV W)) : Ret α τ W :=
  match r with
  | (.ok _, p) => .val .unit ((h.set .a p.1).set .b p.2)
  | (.error e, p) => .fault e ((h.set .a p.1).set .b p.2)

theorem text_append_aux (d : Nat) (w : Val α c.W) (h : Heap τ c.W) (s t : EV c.W) :
    call c u K (d + 4) .append [.vec .a, .vec .b, w] ((h.set .a s).set .b t) = .ofM2 h (EV.append c (s, t)) := by
  have h2 : c.epb ≠ 0 := Nat.pos_iff_ne_zero.mp hc.epb_pos
  have h3 := text_fix_storage (h := h.set .a s |>.set .b t) hc u K (d + 1) .a .unit .unit
  have h4 := fun s => text_fix_storage (h := h.set .a s |>.set .b t) hc u K (d + 1) .b .unit .unit
  simp only [text, fixStorage, len] at h3 h4
  by_cases h0 : s.num % c.epb = 0
  · rcases hs : c.small with _ | _
    · rw [call_eq u K (d + 3) (fn := f_append) (by rw [hs]; rfl)]
      rcases hx : RVec.extendFromSlice c.alloc (fixStorage c s).2.storage (fixStorage c t).2.storage.data with e | st
      · simp [fixStorage, len] at hx
        simp [f_append, ↓bindStep, text, text_len, h2, h0, h3, h4, hx, EV.append, onFst, onSnd, len, fixStorage, appendStorage, Ret.ofM2]
      rcases hy : uAdd c.build s.num t.num with e | n <;> simp [fixStorage, len] at hx <;>
      simp [f_append, ↓bindStep, text, text_len, h2, h0, h3, h4, hx, hy, EV.append, onFst, onSnd, len, fixStorage, appendStorage, Ret.ofM2, hs, setLen]
    · rw [call_eq u K (d + 3) (fn := f_append_small) (by rw [hs]; rfl)]
      rcases hx : RVec.extendFromSlice c.alloc (fixStorage c s).2.storage (fixStorage c t).2.storage.data with e | st
      · simp [fixStorage, len] at hx
        simp [f_append_small, ↓bindStep, text, text_len, h2, h0, h3, h4, hx, EV.append, onFst, onSnd, len, fixStorage, appendStorage, Ret.ofM2]
      have h5 := text_clear u K d .b .unit .unit (((h.set .a { s with storage := st }).set .b (fixStorage c t).2))
      rw [Heap.get_set] at h5
      rcases hz : EV.clear c (fixStorage c t).2 with ⟨e | _, t'⟩ <;> rw [hz] at h5 <;> simp [fixStorage, len, text] at hx h5 hz
      · simp [f_append_small, ↓bindStep, text, text_len, h2, h0, h3, h4, h5, hx, EV.append, onFst, onSnd, len, fixStorage, appendStorage, Ret.ofM2, hs, setLen, hz]
      rcases hy : uAdd c.build s.num t.num with e | n <;>
      simp [f_append_small, ↓bindStep, text, text_len, h2, h0, h3, h4, h5, hx, hy, EV.append, onFst, onSnd, len, fixStorage, appendStorage, Ret.ofM2, hs, setLen, hz]
  · have h5 := text_reserve (h := h.set .a s |>.set .b t) hc u K (d + 1) .a t.num .unit
    rw [Heap.get_a_set_b, Heap.get_set] at h5
    have hbody : ∀ n, s.num + t.num < c.build.usizeLim → ∀ r : EV c.W,
      forLoop (fun i st => (eval c K (call c u K (d + 3)) ((Ex.meth (.var .self) .set_raw_unchecked (.bin .add (.var .self_len) (.var .i)) (.meth (.var .other) .get_raw_unchecked (.var .i) .unit)).seq .unit)
          u.fns ⟨(.i, .usz i) :: st.env, st.heap⟩).pop 1) t.num 0
        ⟨[(.self_len, .usz s.num), (.other_len, .usz n), (.self, .vec .a), (.other, .vec .b)], (h.set .a r).set .b t⟩ =
      .ofLoop (fun _ p => ⟨[(.self_len, .usz s.num), (.other_len, .usz n), (.self, .vec .a), (.other, .vec .b)], (h.set .a p.1).set .b p.2⟩) (fun p => (h.set .a p.1).set .b p.2)
        (loop (appendStep c s.num) t.num 0 () (r, t)) := by
      intro n hn r
      refine forLoop_eq (σ := EV c.W × EV c.W) (fun _ p => ⟨[(.self_len, .usz s.num), (.other_len, .usz n), (.self, .vec .a), (.other, .vec .b)], (h.set .a p.1).set .b p.2⟩)
        (fun p => (h.set .a p.1).set .b p.2) (fun _ _ _ => True) (appendStep c s.num) _ t.num 0 () (r, t) ?_ (fun _ _ _ _ _ _ _ _ _ => trivial) trivial
      intro j _ p _ hj _
      have hj' : s.num + j < c.build.usizeLim := by omega
      have h7 := text_get_raw_unchecked hc u K (d + 1) .b j .unit ((h.set .a p.1).set .b p.2)
      rw [Heap.get_set] at h7
      rcases hy : getRawUnchecked c j p.2 with ⟨e | x, q⟩ <;> rw [hy] at h7
      · simp [↓bindStep, text, uAdd_ok hj', h7, appendStep, hy, onSnd, Out.ofLoop]
      have h8 := text_set_raw_unchecked hc u K (d + 1) .a (s.num + j) x ((h.set .a p.1).set .b q)
      rw [Heap.get_a_set_b, Heap.get_set] at h8
      rcases hz : setRawUnchecked c (s.num + j) x p.1 with ⟨e | _, q'⟩ <;> rw [hz] at h8 <;>
      simp [↓bindStep, text, uAdd_ok hj', h7, h8, appendStep, hy, hz, onSnd, onFst, Out.ofLoop]
    have hsum : ∀ s', EV.reserve c t.num s = (.ok (), s') → s.num + t.num < c.build.usizeLim := by
      intro s' h6
      apply Classical.byContradiction
      intro h7
      simp [EV.reserve, text, len, h7] at h6
    rcases hx : EV.reserve c t.num s with ⟨e | _, s'⟩ <;> rw [hx] at h5
    · rcases hs : c.small with _ | _
      · rw [call_eq u K (d + 3) (fn := f_append) (by rw [hs]; rfl)]
        simp [f_append, ↓bindStep, text, text_len, h2, h0, h5, hx, EV.append, onFst, onSnd, len, Ret.ofM2]
      · rw [call_eq u K (d + 3) (fn := f_append_small) (by rw [hs]; rfl)]
        simp [f_append_small, ↓bindStep, text, text_len, h2, h0, h5, hx, EV.append, onFst, onSnd, len, Ret.ofM2]
    have hn := hsum s' hx
    have hloop := hbody t.num hn ⟨s'.storage, s.num + t.num⟩
    rcases hl : loop (appendStep c s.num) t.num 0 () (⟨s'.storage, s.num + t.num⟩, t) with ⟨e | _, p⟩ <;> rw [hl] at hloop
    · rcases hs : c.small with _ | _
      · rw [call_eq u K (d + 3) (fn := f_append) (by rw [hs]; rfl)]
        simp [f_append, ↓bindStep, text, text_len, text_set_len, setLen, h2, h0, h5, hx, uAdd_ok hn, EV.append, onFst, onSnd, len, Ret.ofM2, Out.ofLoop] at hloop ⊢
        rw [hloop]
        simp [↓bindStep, text, hl]
      · rw [call_eq u K (d + 3) (fn := f_append_small) (by rw [hs]; rfl)]
        simp [f_append_small, ↓bindStep, text, text_len, text_set_len, setLen, h2, h0, h5, hx, uAdd_ok hn, EV.append, onFst, onSnd, len, Ret.ofM2, Out.ofLoop] at hloop ⊢
        rw [hloop]
        simp [↓bindStep, text, hl]
    have h9 := text_clear u K d .b .unit .unit ((h.set .a p.1).set .b p.2)
    rw [Heap.get_set] at h9
    rcases hz : EV.clear c p.2 with ⟨e | _, q⟩ <;> rw [hz] at h9 <;> rcases hs : c.small with _ | _
    · rw [call_eq u K (d + 3) (fn := f_append) (by rw [hs]; rfl)]
      simp [f_append, ↓bindStep, text, text_len, text_set_len, setLen, h2, h0, h5, hx, uAdd_ok hn, EV.append, onFst, onSnd, len, Ret.ofM2, Out.ofLoop] at hloop h9 ⊢
      rw [hloop]
      simp [↓bindStep, text, hl, h9, hz]
    · rw [call_eq u K (d + 3) (fn := f_append_small) (by rw [hs]; rfl)]
      simp [f_append_small, ↓bindStep, text, text_len, text_set_len, setLen, h2, h0, h5, hx, uAdd_ok hn, EV.append, onFst, onSnd, len, Ret.ofM2, Out.ofLoop] at hloop h9 ⊢
      rw [hloop]
      simp [↓bindStep, text, hl, h9, hz]
    · rw [call_eq u K (d + 3) (fn := f_append) (by rw [hs]; rfl)]
      simp [f_append, ↓bindStep, text, text_len, text_set_len, setLen, h2, h0, h5, hx, uAdd_ok hn, EV.append, onFst, onSnd, len, Ret.ofM2, Out.ofLoop] at hloop h9 ⊢
      rw [hloop]
      simp [↓bindStep, text, hl, h9, hz]
    · rw [call_eq u K (d + 3) (fn := f_append_small) (by rw [hs]; rfl)]
      simp [f_append_small, ↓bindStep, text, text_len, text_set_len, setLen, h2, h0, h5, hx, uAdd_ok hn, EV.append, onFst, onSnd, len, Ret.ofM2, Out.ofLoop] at hloop h9 ⊢
      rw [hloop]
      simp [↓bindStep, text, hl, h9, hz]

theorem text_append (d : Nat) (w : Val α c.W) (h : Heap τ c.W) :
    call c u K (d + 4) .append [.vec .a, .vec .b, w] h = .ofM2 h (EV.append c (h.get .a, h.get .b)) :=
  text_append_aux hc u K d w h (h.get .a) (h.get .b)

theorem text_split_off (d : Nat) (k : Nat) (w : Val α c.W) (h : Heap τ c.W) (hn : (h.get .a).num < c.build.usizeLim) :
    match EV.splitOff c k (h.get .a) with
    | (.ok v, s) => call c u K (d + 3) .split_off [.vec .a, .usz k, w] h = .val (.vec .b) ((h.set .a s).set .b v)
    | (.error e, s) => ∃ v, call c u K (d + 3) .split_off [.vec .a, .usz k, w] h = .fault e ((h.set .a s).set .b v) := by
  rw [call_eq u K (d + 2) (fn := f_split_off) rfl]
  by_cases h0 : k ≤ (h.get .a).num
  · have h1 := text_with_capacity hc u K d ((h.get .a).num - k) .unit h
    rcases hx : EV.withCapacity c ((h.get .a).num - k) with e | v <;> rw [hx] at h1
    · simp [EV.splitOff, h0, len, hx]
      refine ⟨h.get .b, ?_⟩
      simp [f_split_off, ↓bindStep, text, text_len, h0, uSub_ok h0, h1, Ret.made]
    have hloop : forLoop (fun i st => (eval c K (call c u K (d + 2)) ((Ex.meth (.var .other) .set_raw_unchecked (.var .i) (.meth (.var .self) .get_raw_unchecked (.bin .add (.var .at) (.var .i)) .unit)).seq .unit)
          u.fns ⟨(.i, .usz i) :: st.env, st.heap⟩).pop 1) ((h.get .a).num - k) 0
        ⟨[(.other, .vec .b), (.other_len, .usz ((h.get .a).num - k)), (.self, .vec .a), (.at, .usz k)], (h.set .a (h.get .a)).set .b { v with num := (h.get .a).num - k }⟩ =
      .ofLoop (fun _ p => ⟨[(.other, .vec .b), (.other_len, .usz ((h.get .a).num - k)), (.self, .vec .a), (.at, .usz k)], (h.set .a p.1).set .b p.2⟩) (fun p => (h.set .a p.1).set .b p.2)
        (loop (splitOffStep c k) ((h.get .a).num - k) 0 () (h.get .a, { v with num := (h.get .a).num - k })) := by
      refine forLoop_eq (σ := EV c.W × EV c.W) (fun _ p => ⟨[(.other, .vec .b), (.other_len, .usz ((h.get .a).num - k)), (.self, .vec .a), (.at, .usz k)], (h.set .a p.1).set .b p.2⟩)
        (fun p => (h.set .a p.1).set .b p.2) (fun _ _ _ => True) (splitOffStep c k) _ ((h.get .a).num - k) 0 () (h.get .a, { v with num := (h.get .a).num - k }) ?_ (fun _ _ _ _ _ _ _ _ _ => trivial) trivial
      intro j _ p _ hj _
      have hj' : k + j < c.build.usizeLim := by omega
      have h7 := text_get_raw_unchecked hc u K d .a (k + j) .unit ((h.set .a p.1).set .b p.2)
      rw [Heap.get_a_set_b, Heap.get_set] at h7
      rcases hy : getRawUnchecked c (k + j) p.1 with ⟨e | x, q⟩ <;> rw [hy] at h7
      · simp [↓bindStep, text, uAdd_ok hj', h7, splitOffStep, hy, onFst, Out.ofLoop]
      have h8 := text_set_raw_unchecked hc u K d .b j x ((h.set .a q).set .b p.2)
      rw [Heap.get_set] at h8
      rcases hz : setRawUnchecked c j x p.2 with ⟨e | _, q'⟩ <;> rw [hz] at h8 <;>
      simp [↓bindStep, text, uAdd_ok hj', h7, h8, splitOffStep, hy, hz, onSnd, onFst, Out.ofLoop]
    rcases hl : loop (splitOffStep c k) ((h.get .a).num - k) 0 () (h.get .a, { v with num := (h.get .a).num - k }) with ⟨e | _, p⟩ <;> rw [hl] at hloop
    · simp [EV.splitOff, h0, len, hx, hl]
      refine ⟨p.2, ?_⟩
      simp [f_split_off, ↓bindStep, text, text_len, text_set_len, setLen, h0, uSub_ok h0, h1, Ret.made, Out.ofLoop] at hloop ⊢
      rw [hloop]
      simp [↓bindStep, text]
    · simp [EV.splitOff, h0, len, hx, hl]
      simp [f_split_off, ↓bindStep, text, text_len, text_set_len, setLen, h0, uSub_ok h0, h1, Ret.made, Out.ofLoop] at hloop ⊢
      rw [hloop]
      simp [↓bindStep, text, text_set_len, setLen]
  · simp [EV.splitOff, h0, len]
    refine ⟨h.get .b, ?_⟩
    simp [f_split_off, ↓bindStep, text, text_len, h0]

end Source
end EnumVecModel
