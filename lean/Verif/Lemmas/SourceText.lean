import Verif.Lemmas.Source
import Verif.Lemmas.Frame
/-! # The source text of the methods without loops is the model -/

namespace EnumVecModel
namespace Source
open EV
set_option linter.constructorNameAsVariable false
set_option linter.unusedSimpArgs false

attribute [text] M.bind_apply M.read_apply M.write_apply M.fail_apply M.lift_apply M.unwrap_some M.unwrap_none M.pure_apply M.ite_apply Ret.ofM
variable {α τ : Type} {W : Nat}
variable {strict : Prop} {c : Inst α} (hc : c.Fits strict) (u : User α τ c.W) (K : Nat)
include hc

theorem text_get_raw_unchecked (d : Nat) (sl : Slot) (i : Nat) (w : Val α c.W) (h : Heap τ c.W) :
    call c u K (d + 2) .get_raw_unchecked [.vec sl, .usz i, w] h = .ofM h sl .usz (getRawUnchecked c i (h.get sl)) := by
  rw [call_eq u K (d + 1) (fn := f_get_raw_unchecked) rfl]
  have h1 : (blockIndex c i).2 < c.W := off_lt hc i
  rcases Nat.lt_or_ge (blockIndex c i).1 (h.get sl).storage.data.length with h2 | h2
  · simp [f_get_raw_unchecked, ↓bindStep, text, text_block_index hc, RVec.len, h2, blkShr, h1, getRawUnchecked, rawUnchecked]
  · simp [f_get_raw_unchecked, ↓bindStep, text, text_block_index hc, RVec.len, Nat.not_lt.mpr h2, getRawUnchecked, rawUnchecked]

theorem text_set_raw_unchecked (d : Nat) (sl : Slot) (i x : Nat) (h : Heap τ c.W) :
    call c u K (d + 2) .set_raw_unchecked [.vec sl, .usz i, .usz x] h = .ofM h sl (fun _ => .unit) (setRawUnchecked c i x (h.get sl)) := by
  rw [call_eq u K (d + 1) (fn := f_set_raw_unchecked) rfl]
  have h1 : (blockIndex c i).2 < c.W := off_lt hc i
  rcases Nat.lt_or_ge (blockIndex c i).1 (h.get sl).storage.data.length with h2 | h2
  · simp [f_set_raw_unchecked, ↓bindStep, text, text_block_index hc, RVec.len, h2, blkShl, h1, setRawUnchecked]
  · simp [f_set_raw_unchecked, ↓bindStep, text, text_block_index hc, RVec.len, Nat.not_lt.mpr h2, setRawUnchecked]

theorem text_get_raw (d : Nat) (sl : Slot) (i : Nat) (w : Val α c.W) (h : Heap τ c.W) :
    call c u K (d + 3) .get_raw [.vec sl, .usz i, w] h =
      .ofM h sl (fun o => o.elim .none fun n => .some (.usz n)) (getRaw c i (h.get sl)) := by
  rw [call_eq u K (d + 2) (fn := f_get_raw) rfl]
  rcases Nat.lt_or_ge i (h.get sl).num with h1 | h1
  · have h3 : ¬ (h.get sl).num ≤ i := Nat.not_le.mpr h1
    have h2 := text_get_raw_unchecked hc u K d sl i .unit h
    rcases hx : getRawUnchecked c i (h.get sl) with ⟨e | n, s⟩ <;> rw [hx] at h2 <;> 
    simp [f_get_raw, ↓bindStep, text, text_len, h2, h3, getRaw, len, hx]
  · simp [f_get_raw, ↓bindStep, text, text_len, h1, getRaw, len]

theorem text_set_raw (d : Nat) (sl : Slot) (i x : Nat) (h : Heap τ c.W) :
    call c u K (d + 3) .set_raw [.vec sl, .usz i, .usz x] h = .ofM h sl (fun _ => .unit) (setRaw c i x (h.get sl)) := by
  rw [call_eq u K (d + 2) (fn := f_set_raw) rfl]
  rcases Nat.lt_or_ge i (h.get sl).num with h1 | h1
  · have h3 : ¬ (h.get sl).num ≤ i := Nat.not_le.mpr h1
    have h2 := text_set_raw_unchecked hc u K d sl i x h
    rcases hx : setRawUnchecked c i x (h.get sl) with ⟨e | n, s⟩ <;> rw [hx] at h2 <;> 
    simp [f_set_raw, ↓bindStep, text, text_len, h2, h3, setRaw, len, hx]
  · simp [f_set_raw, ↓bindStep, text, text_len, h1, setRaw, len]

theorem text_get (d : Nat) (sl : Slot) (i : Nat) (w : Val α c.W) (h : Heap τ c.W) :
    call c u K (d + 4) .get [.vec sl, .usz i, w] h =
      .ofM h sl (fun o => o.elim .none fun x => .some (.elem x)) (EV.get c i (h.get sl)) := by
  rw [call_eq u K (d + 3) (fn := f_get) rfl]
  have h2 := text_get_raw hc u K d sl i .unit h
  rcases hx : getRaw c i (h.get sl) with ⟨e | _ | n, s⟩ <;> rw [hx] at h2
  · simp [f_get, ↓bindStep, text, h2, EV.get, hx]
  · simp [f_get, ↓bindStep, text, h2, EV.get, hx]
  · rcases hy : c.E.fromDiscr n with _ | y <;> 
    simp [f_get, ↓bindStep, text, h2, EV.get, hx, fromDiscr, hy]

theorem text_set (d : Nat) (sl : Slot) (i : Nat) (x : α) (h : Heap τ c.W) :
    call c u K (d + 4) .set [.vec sl, .usz i, .elem x] h = .ofM h sl (fun _ => .unit) (EV.set c i x (h.get sl)) := by
  rw [call_eq u K (d + 3) (fn := f_set) rfl]
  have h2 := text_set_raw hc u K d sl i (c.E.toDiscr x) h
  rcases hx : setRaw c i (c.E.toDiscr x) (h.get sl) with ⟨e | n, s⟩ <;> rw [hx] at h2 <;> 
  simp [f_set, ↓bindStep, text, h2, EV.set, hx]

theorem text_swap (d : Nat) (sl : Slot) (i j : Nat) (h : Heap τ c.W) :
    call c u K (d + 4) .swap [.vec sl, .usz i, .usz j] h = .ofM h sl (fun _ => .unit) (EV.swap c i j (h.get sl)) := by
  rw [call_eq u K (d + 3) (fn := f_swap) rfl]
  have h1 := text_get_raw hc u K d sl i .unit h
  rcases hx : getRaw c i (h.get sl) with ⟨e | _ | a, s⟩ <;> rw [hx] at h1
  · simp [f_swap, ↓bindStep, text, h1, swap, hx]
  · simp [f_swap, ↓bindStep, text, h1, swap, hx]
  have h2 := text_get_raw hc u K d sl j .unit (h.set sl s)
  rw [Heap.get_set] at h2
  rcases hy : getRaw c j s with ⟨e | _ | b, s'⟩ <;> rw [hy] at h2
  · simp [f_swap, ↓bindStep, text, h1, swap, hx, h2, hy]
  · simp [f_swap, ↓bindStep, text, h1, swap, hx, h2, hy]
  have h3 := text_set_raw hc u K d sl i b (h.set sl s')
  rw [Heap.get_set] at h3
  rcases hz : setRaw c i b s' with ⟨e | _, s''⟩ <;> rw [hz] at h3
  · simp [f_swap, ↓bindStep, text, h1, swap, hx, h2, hy, h3, hz]
  have h4 := text_set_raw hc u K d sl j a (h.set sl s'')
  rw [Heap.get_set] at h4
  rcases hw : setRaw c j a s'' with ⟨e | _, s3⟩ <;> rw [hw] at h4 <;> 
  simp [f_swap, ↓bindStep, text, h1, swap, hx, h2, hy, h3, hz, h4, hw]

theorem text_fix_storage (d : Nat) (sl : Slot) (v w : Val α c.W) (h : Heap τ c.W) :
    call c u K (d + 2) .fix_storage [.vec sl, v, w] h = .ofM h sl (fun _ => .unit) (fixStorage c (h.get sl)) := by
  rw [call_eq u K (d + 1) (fn := f_fix_storage) rfl]
  simp [f_fix_storage, ↓bindStep, text, text_len, text_blocks_for_elements hc, fixStorage, len]

theorem text_grow_if_needed (d : Nat) (sl : Slot) (v w : Val α c.W) (h : Heap τ c.W) :
    call c u K (d + 2) .grow_if_needed [.vec sl, v, w] h = .ofM h sl (fun _ => .unit) (growIfNeeded c (h.get sl)) := by
  rw [call_eq u K (d + 1) (fn := f_grow_if_needed) rfl]
  have h2 : c.epb ≠ 0 := Nat.pos_iff_ne_zero.mp hc.epb_pos
  by_cases h3 : (h.get sl).num % c.epb = 0
  · by_cases h4 : blocksForElements c (h.get sl).num = (h.get sl).storage.len
    · rcases hx : RVec.push c.alloc (h.get sl).storage 0#c.W with e | v <;>
      simp [f_grow_if_needed, ↓bindStep, text, text_len, text_blocks_for_elements hc, growIfNeeded, len, h2, h3, h4, hx]
    · simp [f_grow_if_needed, ↓bindStep, text, text_len, text_blocks_for_elements hc, growIfNeeded, len, h2, h3, h4]
  · simp [f_grow_if_needed, ↓bindStep, text, text_len, text_blocks_for_elements hc, growIfNeeded, len, h2, h3]

theorem text_push (d : Nat) (sl : Slot) (x : α) (w : Val α c.W) (h : Heap τ c.W) :
    call c u K (d + 5) .push [.vec sl, .elem x, w] h = .ofM h sl (fun _ => .unit) (EV.push c x (h.get sl)) := by
  rw [call_eq u K (d + 4) (fn := f_push) rfl]
  have h1 := text_grow_if_needed hc u K (d + 2) sl .unit .unit h
  rcases hx : growIfNeeded c (h.get sl) with ⟨e | _, s⟩ <;> rw [hx] at h1
  · simp [f_push, ↓bindStep, text, h1, push, hx]
  by_cases h2 : s.num + 1 < c.build.usizeLim
  · have h3 := text_set hc u K d sl s.num x (h.set sl { s with num := s.num + 1 })
    rw [Heap.get_set] at h3
    rcases hy : EV.set c s.num x { s with num := s.num + 1 } with ⟨e | _, s'⟩ <;> rw [hy] at h3 <;>
    simp [f_push, ↓bindStep, text, h1, push, hx, h2, h3, hy]
  · simp [f_push, ↓bindStep, text, h1, push, hx, h2]

theorem text_pop (d : Nat) (sl : Slot) (v w : Val α c.W) (h : Heap τ c.W) :
    call c u K (d + 5) .pop [.vec sl, v, w] h = .ofM h sl (fun o => o.elim .none fun x => .some (.elem x)) (EV.pop c (h.get sl)) := by
  rw [call_eq u K (d + 4) (fn := f_pop) rfl]
  by_cases h0 : (h.get sl).num = 0
  · simp [f_pop, ↓bindStep, text, text_is_empty, isEmpty, len, h0, pop]
  · have h1 := text_get hc u K d sl ((h.get sl).num - 1) .unit h
    have h3 : 1 ≤ (h.get sl).num := by omega
    have h5 : isEmpty c (h.get sl) = false := by simp [isEmpty, len, h0]
    rcases hx : EV.get c ((h.get sl).num - 1) (h.get sl) with ⟨e | _ | x, s⟩ <;> rw [hx] at h1
    · simp [f_pop, ↓bindStep, text, text_is_empty, h5, pop, uSub_ok h3, h1, hx]
    · simp [f_pop, ↓bindStep, text, text_is_empty, h5, pop, uSub_ok h3, h1, hx]
    · have h4 : s = h.get sl := by
        have := get_state (c := c) ((h.get sl).num - 1) (h.get sl)
        rw [hx] at this; exact this
      simp [f_pop, ↓bindStep, text, text_is_empty, h5, pop, uSub_ok h3, h1, hx, h4]

omit hc

theorem text_truncate (d : Nat) (sl : Slot) (n : Nat) (w : Val α c.W) (h : Heap τ c.W) :
    call c u K (d + 2) .truncate [.vec sl, .usz n, w] h = .ofM h sl (fun _ => .unit) (EV.truncate c n (h.get sl)) := by
  rw [call_eq u K (d + 1) (fn := f_truncate) rfl]
  by_cases h0 : n < (h.get sl).num <;>
  simp [f_truncate, ↓bindStep, text, text_set_len, h0, truncate, setLen]

theorem text_clear (d : Nat) (sl : Slot) (v w : Val α c.W) (h : Heap τ c.W) :
    call c u K (d + 3) .clear [.vec sl, v, w] h = .ofM h sl (fun _ => .unit) (EV.clear c (h.get sl)) := by
  rw [call_eq u K (d + 2) (fn := f_clear) rfl]
  rcases hx : EV.truncate c 0 (h.get sl) with ⟨e | _, s⟩ <;>
  simp [f_clear, ↓bindStep, text, text_truncate, EV.clear, hx]

theorem text_capacity (d : Nat) (sl : Slot) (v w : Val α c.W) (h : Heap τ c.W) :
    call c u K (d + 1) .capacity [.vec sl, v, w] h = .val (.usz (EV.capacity c (h.get sl))) h := by
  rw [call_eq u K d (fn := f_capacity) rfl]
  simp [f_capacity, ↓bindStep, text, EV.capacity]

include hc

theorem text_reserve (d : Nat) (sl : Slot) (n : Nat) (w : Val α c.W) (h : Heap τ c.W) :
    call c u K (d + 2) .reserve [.vec sl, .usz n, w] h = .ofM h sl (fun _ => .unit) (EV.reserve c n (h.get sl)) := by
  rw [call_eq u K (d + 1) (fn := f_reserve) rfl]
  have h2 : c.epb ≠ 0 := Nat.pos_iff_ne_zero.mp hc.epb_pos
  by_cases h0 : (h.get sl).num + n < c.build.usizeLim
  · rcases h1 : uAdd c.build (((h.get sl).num + n) / c.epb) 1 with e | k
    · simp [f_reserve, ↓bindStep, text, text_len, EV.reserve, h0, len, h1, h2]
    · rcases h3 : RVec.resize c.alloc (h.get sl).storage k 0#c.W with e | v <;>
      simp [f_reserve, ↓bindStep, text, text_len, EV.reserve, h0, len, h1, h2, h3]
  · simp [f_reserve, ↓bindStep, text, text_len, EV.reserve, h0, len]

theorem text_shrink_to_fit (d : Nat) (sl : Slot) (v w : Val α c.W) (h : Heap τ c.W) :
    call c u K (d + 3) .shrink_to_fit [.vec sl, v, w] h = .ofM h sl (fun _ => .unit) (EV.shrinkToFit c (h.get sl)) := by
  rw [call_eq u K (d + 2) (fn := f_shrink_to_fit) rfl]
  simp [f_shrink_to_fit, ↓bindStep, text, text_fix_storage hc, fixStorage, EV.shrinkToFit]

theorem text_swap_remove (d : Nat) (sl : Slot) (i : Nat) (w : Val α c.W) (h : Heap τ c.W) :
    call c u K (d + 6) .swap_remove [.vec sl, .usz i, w] h = .ofM h sl .elem (EV.swapRemove c i (h.get sl)) := by
  rw [call_eq u K (d + 5) (fn := f_swap_remove) rfl]
  rcases h1 : uSub c.build (h.get sl).num 1 with e | k
  · simp [f_swap_remove, ↓bindStep, text, text_len, EV.swapRemove, len, h1]
  have h2 := text_swap hc u K (d + 1) sl i k h
  rcases hx : EV.swap c i k (h.get sl) with ⟨e | _, s⟩ <;> rw [hx] at h2
  · simp [f_swap_remove, ↓bindStep, text, text_len, EV.swapRemove, len, h1, h2, hx]
  have h3 := text_pop hc u K d sl .unit .unit (h.set sl s)
  rw [Heap.get_set] at h3
  rcases hy : EV.pop c s with ⟨e | _ | x, s'⟩ <;> rw [hy] at h3 <;>
  simp [f_swap_remove, ↓bindStep, text, text_len, EV.swapRemove, len, h1, h2, hx, h3, hy]

end Source
end EnumVecModel
