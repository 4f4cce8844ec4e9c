import Verif.Lemmas.AccessIter
import Verif.Lemmas.Api
import Mathlib.Tactic.Ring
import Mathlib.Tactic.Linarith

/-!
# C70, C71: which blocks a call accesses, and how often

The hypotheses: the type fits the blocks (`Fits`; nothing is assumed of the implementation of `EnumLike`) and the vector is `Safe`, as all vectors are that the API makes (C21).
-/

namespace EnumVecModel
open EV Access
variable {α τ : Type} {c : Inst α} {strict : Prop}

section
variable {s : EV c.W}

/-! ## C70 -/

/-- No access: only the length, or the number of blocks, changes. -/
theorem C70_no_access (n : Nat) : Touches (fun _ => False) (EV.truncate c n) s ∧ Touches (fun _ => False) (EV.clear c) s ∧ Touches (fun _ => False) (EV.shrinkToFit c) s :=
  ⟨touches_of (truncate_local c n) (truncate_erases c · n) (truncate_tr n), touches_of (clear_local c) (clear_erases c ·) (truncate_tr 0),
    touches_of (shrinkToFit_local c) (shrinkToFit_erases c ·) shrinkToFit_tr⟩

/-- `get` and `set` access the block of the element, if there is such an element. -/
theorem C70_get (i : Nat) : Touches (fun k => i < s.num ∧ k = c.blockOf i) (EV.get c i) s :=
  touches_of (get_local c i) (get_erases c · i) (get_tr fun h => ⟨h, rfl⟩)

theorem C70_set (i : Nat) (x : α) : Touches (fun k => i < s.num ∧ k = c.blockOf i) (EV.set c i x) s :=
  touches_of (set_local' c i x) (set_erases c · i x) (set_tr fun h => ⟨h, rfl⟩)

/-- `pop` reads the block of the last element. -/
theorem C70_pop : Touches (fun k => 0 < s.num ∧ k = c.blockOf (s.num - 1)) (EV.pop c) s :=
  touches_of (pop_local c) (pop_erases c ·) (pop_tr fun h => ⟨h, rfl⟩)

theorem C70_swap (a b : Nat) : Touches (fun k => (a < s.num ∧ k = c.blockOf a) ∨ (b < s.num ∧ k = c.blockOf b)) (EV.swap c a b) s :=
  touches_of (swap_local c a b) (swap_erases c · a b) (swap_tr (fun h => .inl ⟨h, rfl⟩) fun h => .inr ⟨h, rfl⟩)

theorem C70_swap_remove (i : Nat) : Touches (fun k => (i < s.num ∧ k = c.blockOf i) ∨ (0 < s.num ∧ k = c.blockOf (s.num - 1))) (EV.swapRemove c i) s :=
  touches_of (swapRemove_local c i) (swapRemove_erases c · i) (swapRemove_tr (fun h => .inl ⟨h, rfl⟩) fun h => .inr ⟨h, rfl⟩)

/-- `push` accesses the block of the new element only. -/
theorem C70_push (hc : c.Fits strict) (hs : Safe c s) (x : α) : Touches (fun k => k = c.blockOf s.num) (EV.push c x) s :=
  touches_of (push_local c x) (push_erases c · x) (push_tr (by have := hs.numRoom hc; have := hc.epb_pos; show s.num < _; omega) hc.epb_pos rfl)

/-- `insert` accesses no block before the one of the index, or, if the index is behind the end, the block of the new element only. -/
theorem C70_insert (hc : c.Fits strict) (hs : Safe c s) (i : Nat) (x : α) :
    Touches (fun k => k = c.blockOf s.num ∨ (c.blockOf i ≤ k ∧ k ≤ c.blockOf s.num)) (EV.insert c i x) s :=
  touches_of (insert_local c i x) (insert_erases c · i x)
    (insert_tr (by have := hs.numRoom hc; have := hc.epb_pos; show s.num < _; omega) hc.epb_pos (.inl rfl) fun k h1 h2 => .inr ⟨h1, h2⟩)

/-- `remove` accesses the blocks from that of the element to that of the last element. -/
theorem C70_remove (hc : c.Fits strict) (i : Nat) : Touches (fun k => i < s.num ∧ c.blockOf i ≤ k ∧ k ≤ c.blockOf (s.num - 1)) (EV.remove c i) s :=
  touches_of (remove_local c i) (remove_erases c · i) (remove_tr hc.epb_pos fun _ h h1 h2 => ⟨h, h1, h2⟩)

/-- `any` and `all` read the blocks of the elements, not the spare ones. -/
theorem C70_any (hc : c.Fits strict) (x : α) : Touches (c.blocksOf s.num) (EV.any c x) s :=
  touches_of (any_local c x) (any_erases c · x) (any_tr hc.epb_pos fun k hk => ⟨k * c.epb, hk, Nat.mul_div_cancel _ hc.epb_pos⟩)

theorem C70_all (hc : c.Fits strict) (x : α) : Touches (c.blocksOf s.num) (EV.all c x) s :=
  touches_of (all_local c x) (all_erases c · x) (all_tr hc.epb_pos fun k hk => ⟨k * c.epb, hk, Nat.mul_div_cancel _ hc.epb_pos⟩)

/-- So do `retain` and `for_each`, whatever the closure does. -/
theorem C70_retain (f : Closure τ α Bool) (t : τ) : TouchesWith (c.blocksOf s.num) (EV.retain c f) s t :=
  touchesWith_of (retain_local c f) (retain_erases c f ·) (retain_tr f fun i hi => ⟨i, hi, rfl⟩)

theorem C70_for_each (f : Closure τ α α) (t : τ) : TouchesWith (c.blocksOf s.num) (EV.forEach c f) s t :=
  touchesWith_of (forEach_local c f) (forEach_erases c f ·) (forEach_tr f fun i hi => ⟨i, hi, rfl⟩)

theorem fit_of {n : Nat} (hep : 0 < c.epb) (h : ¬ c.AtLimit n) (hn : n < c.build.usizeLim) : n / c.epb + 1 < c.build.usizeLim := by
  by_cases h1 : c.epb = 1
  · rw [h1, Nat.div_one]
    have : ¬ n + 1 = c.build.usizeLim := fun e => h ⟨h1, e⟩
    omega
  · have h2 : n / c.epb ≤ n / 2 := Nat.div_le_div_left (by omega) (by omega)
    have h4 := c.build.lt_usizeLim (n := 4) (by decide)
    omega

/-- `reserve` writes new blocks only. -/
theorem C70_reserve (hc : c.Fits strict) (n : Nat) (hw : ¬ c.AtLimit (s.num + n)) : Touches (fun k => s.storage.data.length ≤ k) (EV.reserve c n) s :=
  touches_of (reserve_local c n) (reserve_erases c · n) (reserve_tr (fit_of hc.epb_pos hw) fun _ hk => hk)

theorem Safe.div_le (hs : Safe c s) : s.num / c.epb ≤ s.storage.data.length := Nat.div_le_of_le_mul (by rw [Nat.mul_comm]; exact hs.cover)

/-- `extend` accesses no block before that of the first new element, whatever the iterator does. -/
theorem C70_extend (hc : c.Fits strict) (hs : Safe c s) (it : Src α) (hw : ¬ c.AtLimit (s.num + it.hint)) : Touches (fun k => c.blockOf s.num ≤ k) (EV.extend c it) s :=
  touches_of (extend_local c it) (extend_erases c · it) (extend_tr hc.epb_pos (fit_of hc.epb_pos hw) hs.div_le fun _ hk => hk)

theorem C70_extend_with_value (hc : c.Fits strict) (hs : Safe c s) (x : α) (n : Nat) (hw : s.num + n + 1 < c.build.usizeLim) :
    Touches (fun k => c.blockOf s.num ≤ k) (EV.extendWithValue c x n) s := by
  by_cases h : n ≤ 4 * c.epb
  · exact touches_of (extendWithValue_local c x n) (extendWithValue_erases c · x n) (extendWithValue_small_tr hc.epb_pos h hw hs.cover fun _ hk => hk)
  · exact touches_of (extendWithValue_local c x n) (extendWithValue_erases c · x n) (extendWithValue_big_tr hc.epb_pos h hw hs.cover fun _ hk => hk)

theorem resize_tr {K : Nat → Prop} {p : LV c.W} (hc : c.Fits strict) (hs : Safe c p.1) (n : Nat) (x : α) (hw : n + 1 < c.build.usizeLim) (hK : ∀ k, c.blockOf p.1.num ≤ k → n > p.1.num → K k) :
    ∃ lo hi J, Tr (view c.W) K (Access.resize c n x) p lo hi J := by
  by_cases h : n > p.1.num
  · have e : p.1.num + (n - p.1.num) + 1 < c.build.usizeLim := by omega
    have h2 : ∀ lo hi J, Tr (view c.W) K (Access.extendWithValue c x (n - p.1.num)) p lo hi J → Tr (view c.W) K (Access.resize c n x) p lo hi J :=
      fun lo hi J h1 => .readLen (by rw [if_pos h]; exact h1)
    by_cases h4 : n - p.1.num ≤ 4 * c.epb
    · exact ⟨_, _, _, h2 _ _ _ (extendWithValue_small_tr hc.epb_pos h4 e hs.cover fun k hk => hK k hk h)⟩
    · exact ⟨_, _, _, h2 _ _ _ (extendWithValue_big_tr hc.epb_pos h4 e hs.cover fun k hk => hK k hk h)⟩
  · have h2 : ∀ lo hi J, Tr (view c.W) K (Access.truncate c n) p lo hi J → Tr (view c.W) K (Access.resize c n x) p lo hi J :=
      fun lo hi J h1 => .readLen (by rw [if_neg h]; exact h1)
    exact ⟨_, _, _, h2 _ _ _ (truncate_tr n)⟩

/-- `resize` accesses no block when it shrinks the vector, and none before that of the first new element when it grows it. -/
theorem C70_resize (hc : c.Fits strict) (hs : Safe c s) (x : α) (n : Nat) (hw : n + 1 < c.build.usizeLim) :
    Touches (fun k => c.blockOf s.num ≤ k ∧ n > s.num) (EV.resize c n x) s := by
  obtain ⟨lo, hi, J, h⟩ := resize_tr (K := fun k => c.blockOf s.num ≤ k ∧ n > s.num) (p := (s, [])) hc hs n x hw fun k h1 h2 => ⟨h1, h2⟩
  exact touches_of (resize_local c n x) (resize_erases c · n x) h

/-- `append` reads the blocks of the elements of the other vector, and accesses no block of the vector before that of the first new element. -/
theorem C70_append (hc : c.Fits strict) (hs : Safe c s) {t : EV c.W} (ht : Safe c t) (hw : ¬ c.AtLimit (s.num + t.num)) :
    Touches2 (fun k => c.blockOf s.num ≤ k) (c.blocksOf t.num) (EV.append c) s t := by
  have hlim : s.num < c.build.usizeLim := by have := hs.numRoom hc; have := hc.epb_pos; omega
  have hK2 : ∀ k, k * c.epb < t.num → c.blocksOf t.num k := fun k hk => ⟨k * c.epb, hk, Nat.mul_div_cancel _ hc.epb_pos⟩
  by_cases h0 : s.num % c.epb = 0
  · exact touches2_of (K := Sum.elim _ _) (append_local c) (append_erases c ·)
      (append_aligned_tr (p := ((s, []), (t, []))) h0 hc.epb_pos hlim hs.cover ht.cover (ht.numRoom hc) (fun _ hk => hk) hK2)
  · exact touches2_of (K := Sum.elim _ _) (append_local c) (append_erases c ·)
      (append_unaligned_tr (p := ((s, []), (t, []))) h0 (fit_of hc.epb_pos hw) hs.cover (fun _ hk => hk) hK2)

/-- `==` reads the blocks of the elements of both vectors if the lengths are equal, and none otherwise. -/
theorem C70_eq (s t : EV c.W) : Touches2 (fun k => s.num = t.num ∧ c.blocksOf s.num k) (fun k => s.num = t.num ∧ c.blocksOf s.num k) (M.ofPure2 (EV.eq c)) s t :=
  touches2_of (K := Sum.elim _ _) (eq_local c) (fun p => Prod.ext (eq_erases c p).1.symm (eq_erases c p).2.symm)
    (eq_tr (p := ((s, []), (t, []))) fun h j hj => ⟨⟨h, j, hj, rfl⟩, h, j, hj, rfl⟩)

/-- Hashing reads the blocks of the elements. -/
theorem C70_hash : Touches (c.blocksOf s.num) (M.ofPure (EV.hash c)) s :=
  touches_of (hash_local c) (fun p => Prod.ext (hash_erases c p).1.symm (hash_erases c p).2.symm) (hash_tr fun j hj => ⟨j, hj, rfl⟩)

/-- An iterator with the elements from `lo` to `hi` left: `next`, `next_back` and `nth` read the block of the element they give; in particular skipped elements are not read. -/
theorem C70_next (lo hi : Nat) : TouchesWith (fun k => lo < hi ∧ k = c.blockOf lo) (M.ofIt (EV.next c)) s (lo, hi) :=
  touchesWith_of (next_local c) (next_erases c ·) (next_tr fun h _ => ⟨h, rfl⟩)

theorem C70_next_back (lo hi : Nat) : TouchesWith (fun k => lo < hi ∧ k = c.blockOf (hi - 1)) (M.ofIt (EV.nextBack c)) s (lo, hi) :=
  touchesWith_of (nextBack_local c) (nextBack_erases c ·) (nextBack_tr fun h _ => ⟨h, rfl⟩)

theorem C70_nth (n lo hi : Nat) : TouchesWith (fun k => lo + n < hi ∧ k = c.blockOf (lo + n)) (M.ofIt (EV.nth c n)) s (lo, hi) :=
  touchesWith_of (nth_local c n) (nth_erases c n ·) (nth_tr fun h _ => ⟨h, rfl⟩)

/-- `to_vec` and `Into<Vec>` read the blocks of the elements. -/
theorem C70_to_vec : Touches (c.blocksOf s.num) (M.ofPure (EV.toVec c)) s := by
  have h : ∀ n, TouchesWith (c.blocksOf s.num) (M.ofIt (EV.collect c n)) s (0, s.num) := fun n =>
    touchesWith_of (collect_local c n) (collect_erases c n ·) (collect_tr n _ fun x _ hx _ => ⟨x, hx, rfl⟩)
  refine ⟨fun _ _ => .inl rfl, fun u hu => ⟨?_, hu⟩⟩
  have e := ((h (s.num + 1)).reads u hu).1
  show (EV.collect c (u.num + 1) ⟨u, 0, u.num⟩).1 = (EV.collect c (s.num + 1) ⟨s, 0, s.num⟩).1
  rw [← hu.len]
  exact e

/-! ## C71

`Access` has the methods once more, with a log of the accesses. First: they are the methods, and the logs miss nothing. -/

theorem C71_logs (s t : EV c.W) (w : τ) (i j n : Nat) (x : α) (f : Closure τ α Bool) (g : Closure τ α α) (it : Src α) :
    Logs (Access.get c i) (EV.get c i) s ∧ Logs (Access.set c i x) (EV.set c i x) s ∧ Logs (Access.push c x) (EV.push c x) s ∧ Logs (Access.pop c) (EV.pop c) s ∧
    Logs (Access.swap c i j) (EV.swap c i j) s ∧ Logs (Access.swapRemove c i) (EV.swapRemove c i) s ∧ Logs (Access.insert c i x) (EV.insert c i x) s ∧
    Logs (Access.remove c i) (EV.remove c i) s ∧ Logs (Access.truncate c i) (EV.truncate c i) s ∧ Logs (Access.clear c) (EV.clear c) s ∧
    Logs (Access.reserve c i) (EV.reserve c i) s ∧ Logs (Access.shrinkToFit c) (EV.shrinkToFit c) s ∧ Logs (Access.any c x) (EV.any c x) s ∧ Logs (Access.all c x) (EV.all c x) s ∧
    Logs (Access.extend c it) (EV.extend c it) s ∧ Logs (Access.extendWithValue c x i) (EV.extendWithValue c x i) s ∧ Logs (Access.resize c i x) (EV.resize c i x) s ∧
    Logs (Access.hash c) (M.ofPure (EV.hash c)) s ∧ Logs (Access.clone c) (M.ofPure (EV.clone c)) s ∧
    LogsWith (Access.retain c f) (EV.retain c f) s w ∧ LogsWith (Access.forEach c g) (EV.forEach c g) s w ∧
    Logs2 (Access.append c) (EV.append c) s t ∧ Logs2 (Access.eq c) (M.ofPure2 (EV.eq c)) s t ∧
    LogsWith (Access.next c) (M.ofIt (EV.next c)) s (i, j) ∧ LogsWith (Access.nextBack c) (M.ofIt (EV.nextBack c)) s (i, j) ∧
    LogsWith (Access.nth c n) (M.ofIt (EV.nth c n)) s (i, j) ∧ LogsWith (Access.collect c n) (M.ofIt (EV.collect c n)) s (i, j) :=
  ⟨logs_of (get_local c i) (get_erases c · i), logs_of (set_local' c i x) (set_erases c · i x), logs_of (push_local c x) (push_erases c · x), logs_of (pop_local c) (pop_erases c ·),
    logs_of (swap_local c i j) (swap_erases c · i j), logs_of (swapRemove_local c i) (swapRemove_erases c · i), logs_of (insert_local c i x) (insert_erases c · i x),
    logs_of (remove_local c i) (remove_erases c · i), logs_of (truncate_local c i) (truncate_erases c · i), logs_of (clear_local c) (clear_erases c ·),
    logs_of (reserve_local c i) (reserve_erases c · i), logs_of (shrinkToFit_local c) (shrinkToFit_erases c ·), logs_of (any_local c x) (any_erases c · x), logs_of (all_local c x) (all_erases c · x),
    logs_of (extend_local c it) (extend_erases c · it), logs_of (extendWithValue_local c x i) (extendWithValue_erases c · x i), logs_of (resize_local c i x) (resize_erases c · i x),
    logs_of (hash_local c) fun p => Prod.ext (hash_erases c p).1.symm (hash_erases c p).2.symm, logs_of (clone_local c) fun p => Prod.ext (clone_erases c p).1.symm (clone_erases c p).2.symm,
    logsWith_of (retain_local c f) (retain_erases c f ·), logsWith_of (forEach_local c g) (forEach_erases c g ·),
    logs2_of (append_local c) (append_erases c ·), logs2_of (eq_local c) fun p => Prod.ext (eq_erases c p).1.symm (eq_erases c p).2.symm,
    logsWith_of (next_local c) (next_erases c ·), logsWith_of (nextBack_local c) (nextBack_erases c ·), logsWith_of (nth_local c n) (nth_erases c n ·),
    logsWith_of (collect_local c n) (collect_erases c n ·)⟩

/-- No access at all. -/
theorem C71_no_access (n : Nat) : accesses (Access.truncate c n) s = [] ∧ accesses (Access.clear c) s = [] ∧ accesses (Access.shrinkToFit c) s = [] :=
  ⟨List.eq_nil_of_length_eq_zero (Nat.le_zero.1 (count_le (K := fun _ => True) (truncate_tr n))), List.eq_nil_of_length_eq_zero (Nat.le_zero.1 (count_le (K := fun _ => True) (truncate_tr 0))), rfl⟩

/-- `get` and `set`: one access. -/
theorem C71_get (i : Nat) : (accesses (Access.get c i) s).length ≤ 1 :=
  Nat.le_trans (count_le (K := fun _ => True) (get_tr fun _ => trivial)) (by split <;> omega)

theorem C71_set (i : Nat) (x : α) : (accesses (Access.set c i x) s).length ≤ 1 :=
  Nat.le_trans (count_le (K := fun _ => True) (set_tr fun _ => trivial)) (by split <;> omega)

/-- `push`: one access, and one more if a block has to be added. -/
theorem C71_push (hc : c.Fits strict) (hs : Safe c s) (x : α) : (accesses (Access.push c x) s).length ≤ if s.num = s.storage.data.length * c.epb then 2 else 1 :=
  count_le (K := fun _ => True) (push_tr (by have := hs.numRoom hc; have := hc.epb_pos; show s.num < _; omega) hc.epb_pos trivial)

/-- `pop`: one access. -/
theorem C71_pop : (accesses (Access.pop c) s).length ≤ 1 := Nat.le_trans (count_le (K := fun _ => True) (pop_tr fun _ => trivial)) (Nat.min_le_left _ _)

theorem C71_swap (a b : Nat) : (accesses (Access.swap c a b) s).length ≤ 4 := count_le (K := fun _ => True) (swap_tr (fun _ => trivial) fun _ => trivial)

theorem C71_swap_remove (i : Nat) : (accesses (Access.swapRemove c i) s).length ≤ 5 := count_le (K := fun _ => True) (swapRemove_tr (fun _ => trivial) fun _ => trivial)

/-- `insert`: besides the elements of one block, whole blocks are moved: two accesses for each block from that of the index on. -/
theorem C71_insert (hc : c.Fits strict) (hs : Safe c s) (i : Nat) (x : α) :
    (accesses (Access.insert c i x) s).length ≤ 2 + 2 * c.epb + 2 * (c.blockOf s.num + 1 - c.blockOf i) :=
  count_le (K := fun _ => True) (insert_tr (by have := hs.numRoom hc; have := hc.epb_pos; show s.num < _; omega) hc.epb_pos trivial fun _ _ _ => trivial)

/-- So does `remove`. -/
theorem C71_remove (hc : c.Fits strict) (i : Nat) : (accesses (Access.remove c i) s).length ≤ 2 + 2 * c.epb + 2 * (c.blockOf (s.num - 1) + 1 - c.blockOf i) :=
  count_le (K := fun _ => True) (remove_tr hc.epb_pos fun _ _ _ _ => trivial)

/-- `any` and `all`: at most one access for each block, however many elements are in a block. -/
theorem C71_any (hc : c.Fits strict) (x : α) : (accesses (Access.any c x) s).length ≤ c.blocks s.num := by
  have := count_le (K := fun _ => True) (any_tr (c := c) (x := x) (s := (s, [])) hc.epb_pos fun _ _ => trivial)
  have hep := hc.epb_pos
  unfold Inst.blocks
  rw [Nat.add_sub_assoc hep]
  exact this

theorem C71_all (hc : c.Fits strict) (x : α) : (accesses (Access.all c x) s).length ≤ c.blocks s.num := by
  have := count_le (K := fun _ => True) (all_tr (c := c) (x := x) (s := (s, [])) hc.epb_pos fun _ _ => trivial)
  have hep := hc.epb_pos
  unfold Inst.blocks
  rw [Nat.add_sub_assoc hep]
  exact this

/-- `retain` and `for_each`: one or two accesses for each element. -/
theorem C71_retain (f : Closure τ α Bool) (t : τ) : (accessesWith (Access.retain c f) s t).length ≤ 2 * s.num :=
  countWith_le (K := Sum.elim (fun _ => True) fun _ => False) (retain_tr f fun _ _ => trivial)

theorem C71_for_each (f : Closure τ α α) (t : τ) : (accessesWith (Access.forEach c f) s t).length ≤ 2 * s.num :=
  countWith_le (K := Sum.elim (fun _ => True) fun _ => False) (forEach_tr f fun _ _ => trivial)

/-- `==`: nothing is read if the lengths differ, and at most one access for each element of each vector otherwise. -/
theorem C71_eq (s t : EV c.W) : (accesses2 (Access.eq c) s t).1.length + (accesses2 (Access.eq c) s t).2.length ≤ if s.num = t.num then 2 * s.num else 0 :=
  count2_le (K := fun _ => True) (eq_tr (p := ((s, []), (t, []))) fun _ _ _ => ⟨trivial, trivial⟩)

/-- Hashing: one access for each element. -/
theorem C71_hash : (accesses (Access.hash c) s).length ≤ s.num := count_le (K := fun _ => True) (hash_tr fun _ _ => trivial)

theorem C71_clone : (accesses (Access.clone c) s).length ≤ s.storage.data.length := count_le (K := fun _ => True) (clone_tr fun _ _ => trivial)

/-- An iterator: one access for each call of `next`, `next_back`, `nth`, however many elements are skipped, and none at the end; `to_vec`: one for each element. -/
theorem C71_iter (n lo hi : Nat) : (accessesWith (Access.next c) s (lo, hi)).length ≤ (if lo < hi then 1 else 0) ∧ (accessesWith (Access.nextBack c) s (lo, hi)).length ≤ 1 ∧
    (accessesWith (Access.nth c n) s (lo, hi)).length ≤ 1 ∧ (accessesWith (Access.collect c n) s (lo, hi)).length ≤ hi - lo :=
  ⟨countWith_le (K := fun _ => True) (next_tr fun _ _ => trivial), countWith_le (K := fun _ => True) (nextBack_tr fun _ _ => trivial),
    countWith_le (K := fun _ => True) (nth_tr fun _ _ => trivial), countWith_le (K := fun _ => True) (collect_tr n _ fun _ _ _ _ => trivial)⟩

/-- `reserve`: one access for each new block. -/
theorem C71_reserve (hc : c.Fits strict) (n : Nat) (hw : ¬ c.AtLimit (s.num + n)) : (accesses (Access.reserve c n) s).length ≤ c.blockOf (s.num + n) + 1 - s.storage.data.length :=
  count_le (K := fun _ => True) (reserve_tr (fit_of hc.epb_pos hw) fun _ _ => trivial)

/-- `extend`: one access for each block added by `reserve`, one for each item announced by the size hint, at most two for each other item. -/
theorem C71_extend (hc : c.Fits strict) (hs : Safe c s) (it : Src α) (hw : ¬ c.AtLimit (s.num + it.hint)) :
    (accesses (Access.extend c it) s).length ≤ (c.blockOf (s.num + it.hint) + 1 - s.storage.data.length) + it.hint + 2 * (it.items.length - it.hint) :=
  count_le (K := fun _ => True) (extend_tr hc.epb_pos (fit_of hc.epb_pos hw) hs.div_le fun _ _ => trivial)

/-- `append` at a multiple of the number of elements per block: two accesses for each block of the other vector. -/
theorem C71_append_aligned (hc : c.Fits strict) (hs : Safe c s) {t : EV c.W} (ht : Safe c t) (h0 : s.num % c.epb = 0) :
    (accesses2 (Access.append c) s t).1.length + (accesses2 (Access.append c) s t).2.length ≤ 2 * c.blocks t.num := by
  have hep := hc.epb_pos
  have hlim : s.num < c.build.usizeLim := by have := hs.numRoom hc; omega
  have := count2_le (K := fun _ => True) (append_aligned_tr (p := ((s, []), (t, []))) h0 hep hlim hs.cover ht.cover (ht.numRoom hc) (fun _ _ => trivial) fun _ _ => trivial)
  unfold Inst.blocks
  rw [Nat.add_sub_assoc hep]
  exact this

/-- Otherwise: two for each element of the other vector, and one for each new block. -/
theorem C71_append (hc : c.Fits strict) (hs : Safe c s) (t : EV c.W) (h0 : s.num % c.epb ≠ 0) (hw : ¬ c.AtLimit (s.num + t.num)) :
    (accesses2 (Access.append c) s t).1.length + (accesses2 (Access.append c) s t).2.length ≤ (c.blockOf (s.num + t.num) + 1 - s.storage.data.length) + 2 * t.num :=
  count2_le (K := fun _ => True) (append_unaligned_tr (p := ((s, []), (t, []))) h0 (fit_of hc.epb_pos hw) hs.cover (fun _ _ => trivial) fun _ _ => trivial)

/-- `extend_with_value` of few elements: at most one access for each, and one for each new block. -/
theorem C71_fill_few (hc : c.Fits strict) (hs : Safe c s) (x : α) (n : Nat) (hn : n ≤ 4 * c.epb) (hw : s.num + n + 1 < c.build.usizeLim) :
    (accesses (Access.extendWithValue c x n) s).length ≤ (c.blockOf (s.num + n) + 1 - s.storage.data.length) + n :=
  count_le (K := fun _ => True) (extendWithValue_small_tr hc.epb_pos hn hw hs.cover fun _ _ => trivial)

/-- Of many: the accesses grow with the *square* of the number of blocks (lines 513-516). -/
theorem C71_fill_many (hc : c.Fits strict) (hs : Safe c s) (x : α) (n : Nat) (hn : 4 * c.epb < n) (hw : s.num + n + 1 < c.build.usizeLim) :
    (accesses (Access.extendWithValue c x n) s).length ≤ ((n - (c.epb - s.num % c.epb)) / c.epb) ^ 2 + 2 * c.epb + 1 ∧
    ((EV.extendWithValue c x n s).1 = .ok () → ((n - (c.epb - s.num % c.epb)) / c.epb) ^ 2 ≤ (accesses (Access.extendWithValue c x n) s).length) := by
  have h := extendWithValue_big_tr (K := fun _ => True) (s := (s, [])) (x := x) hc.epb_pos (by omega : ¬ n ≤ 4 * c.epb) hw hs.cover fun _ _ => trivial
  exact ⟨count_le h, count_ge (extendWithValue_erases c · x n) h⟩

/-- The arithmetic of `C71_fill_not_linear`. -/
private theorem square_beats (a e n : Nat) (he : 0 < e) (hn : 4 * (a + 1) * e * e ≤ n) : a * n < ((n - e) / e) ^ 2 := by
  have hge : e ≤ n := by
    refine Nat.le_trans ?_ hn
    exact Nat.le_mul_of_pos_left _ (Nat.mul_pos (by omega) he)
  have h1 : (n - e) / e + 1 = n / e := by
    rw [← Nat.add_div_right _ he, Nat.sub_add_cancel hge]
  have h2 : 4 * (a + 1) * e ≤ n / e := (Nat.le_div_iff_mul_le he).2 hn
  have h3 : n < (n / e + 1) * e := by
    have := Nat.lt_mul_div_succ n he
    rwa [Nat.mul_comm] at this
  generalize (n - e) / e = q at *
  rw [← h1] at h2 h3
  have h4 : 4 * (a * e) + 4 * e ≤ q + 1 := by
    have : 4 * (a + 1) * e = 4 * (a * e) + 4 * e := by ring
    omega
  have h5 : a * n ≤ (a * e) * (q + 2) := by
    have := Nat.mul_le_mul_left a (Nat.le_of_lt h3)
    calc a * n ≤ a * ((q + 1 + 1) * e) := this
      _ = (a * e) * (q + 2) := by ring
  refine Nat.lt_of_le_of_lt h5 ?_
  rw [Nat.pow_two]
  generalize a * e = d at *
  nlinarith

/-- So no multiple of the number of elements bounds the accesses: from the empty vector, `a` accesses for each element are exceeded. -/
theorem C71_fill_not_linear (hc : c.Fits strict) (x : α) (a n : Nat) (ha : 4 * (a + 1) * c.epb * c.epb < n) (hw : n + 1 < c.build.usizeLim)
    (hok : (EV.extendWithValue c x n (EV.new c)).1 = .ok ()) : a * n < (accesses (Access.extendWithValue c x n) (EV.new c)).length := by
  have he := hc.epb_pos
  have h4 : 4 * c.epb < n := by
    have : 4 * c.epb * 1 ≤ 4 * c.epb * ((a + 1) * c.epb) := Nat.mul_le_mul_left _ (Nat.mul_pos (by omega) he)
    have e : 4 * (a + 1) * c.epb * c.epb = 4 * c.epb * ((a + 1) * c.epb) := by ring
    omega
  have h := (C71_fill_many hc (new_safe hc) x n h4 (by simpa [EV.new] using hw)).2 hok
  refine Nat.lt_of_lt_of_le (square_beats a c.epb n he (Nat.le_of_lt ha)) ?_
  simpa [EV.new] using h

end

/-! ## Cases

`v12` is a vector of 12 elements of 3 bits in two blocks of 32 bits (10 elements each). -/

example : c8.epb = 10 ∧ c8.blockOf 9 = 0 ∧ c8.blockOf 10 = 1 ∧ c8.blockOf v12.num = 1 := by decide +kernel

/-- The element at 11 can be read and replaced without any access to the first block, whatever is in it … -/
example : Touches (fun k => k = 1) (EV.set c8 11 5) v12 ∧ Touches (fun k => k = 1) (EV.get c8 11) v12 := by
  have h : (fun k => (11 : Nat) < v12.num ∧ k = c8.blockOf 11) = fun k => k = 1 := by
    funext k; exact propext ⟨fun h => h.2, fun h => ⟨by decide, h⟩⟩
  exact ⟨h ▸ C70_set (c := c8) 11 5, h ▸ C70_get (c := c8) 11⟩

/-- … but the one at 2 cannot: a vector that differs in the first block only gives another result. -/
example : ¬ Touches (fun k => k = 1) (EV.get c8 2) v12 := fun h => by
  have := (h.reads ⟨⟨[0#32, 0x00000023#32], 2⟩, 12⟩ ⟨rfl, rfl, rfl, fun k hk => by subst hk; rfl⟩).1
  revert this
  decide +kernel

/-- Nor can it be replaced: that changes the first block. -/
example : ¬ Touches (fun k => k = 1) (EV.set c8 2 5) v12 := fun h => by
  have := h.writes 0 (by decide)
  revert this
  decide +kernel

/-- `insert` at 11 does not access the first block; at 3 it does. -/
example : Touches (fun k => k = 1) (EV.insert c8 11 5) v12 := by
  have h : (fun k => k = c8.blockOf v12.num ∨ (c8.blockOf 11 ≤ k ∧ k ≤ c8.blockOf v12.num)) = fun k => k = 1 := by
    funext k
    refine propext ⟨fun h => ?_, fun h => .inl h⟩
    rcases h with h | ⟨h1, h2⟩
    · exact h
    · exact Nat.le_antisymm h2 h1
  exact h ▸ C70_insert c8_ok (v12_is.holds c8_ok).toSafe 11 5

example : ¬ Touches (fun k => k = 1) (EV.insert c8 3 5) v12 := fun h => by
  have := h.writes 0 (by decide)
  revert this
  decide +kernel

/-- The accesses of some calls. -/
example : accesses (Access.get c8 11) v12 = [1] ∧ accesses (Access.get c8 12) v12 = [] ∧ accesses (Access.push c8 5) v12 = [1] ∧ accesses (Access.swapRemove c8 0) v12 = [0, 1, 0, 1, 1] ∧
    accesses (Access.insert c8 8 5) v12 = [1, 0, 0, 0, 0, 1, 1] ∧ accesses (Access.remove c8 8) v12 = [0, 0, 0, 1, 0, 1, 1, 1] ∧ accesses (Access.any c8 7) v12 = [0] ∧
    accesses (Access.all c8 1) v12 = [0] ∧ accesses (Access.reserve c8 30) v12 = [2, 3, 4] ∧ accesses (Access.clone c8) v12 = [0, 1] := by decide +kernel

example : accessesWith (Access.nth c8 10) v12 (1, 12) = [1] ∧ accessesWith (Access.nextBack c8) v12 (0, 12) = [1] ∧ accessesWith (Access.next c8) v12 (12, 12) = [] ∧
    accessesWith (Access.collect c8 13) v12 (0, 12) = [0, 0, 0, 0, 0, 0, 0, 0, 0, 0, 1, 1] := by decide +kernel

/-- `extend_with_value` of 100 elements: 9 blocks are added 9 times. -/
example : (accesses (Access.extendWithValue c8 5 100) (EV.new c8)).length = 93 ∧ (EV.extendWithValue c8 5 100 (EV.new c8)).1 = .ok () := by decide +kernel

/-- The hypotheses of `C71_fill_not_linear` for one access per element. -/
example : 4 * (1 + 1) * c8.epb * c8.epb < 801 ∧ 801 + 1 < c8.build.usizeLim ∧ (EV.extendWithValue c8 5 801 (EV.new c8)).1 = .ok () := by decide +kernel

example : ¬ c8.AtLimit (v12.num + 30) ∧ ¬ v12.num % c8.epb = 0 ∧ v12.num + 30 + 1 < c8.build.usizeLim := by decide +kernel

end EnumVecModel
