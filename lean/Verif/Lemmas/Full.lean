import Verif.Lemmas.Near

set_option linter.unusedSectionVars false

/-! # `insert` and `remove` in a release build with elements as wide as a block -/

namespace EnumVecModel
open EV

variable {α : Type}

section
variable {c : Inst α} (hc : c.Ok)
include hc

theorem raw_full (hb : c.bits = c.W) (s : EV c.W) (k : Nat) : raw c s k = blk s k := by
  have hep := epb_full hc hb
  unfold raw fld
  rw [hep, Nat.div_one, Nat.mod_one, Nat.zero_mul, Nat.pow_zero, Nat.div_one, hb]
  exact Nat.mod_eq_of_lt (BitVec.isLt _)

theorem and_mask_full (hb : c.bits = c.W) (v : BitVec c.W) : v &&& c.mask = v := by
  refine BitVec.eq_of_toNat_eq ?_
  rw [Inst.mask, toNat_read0 hc.bits_le, hb]
  unfold fld
  rw [Nat.zero_mul, Nat.pow_zero, Nat.div_one]
  exact Nat.mod_eq_of_lt v.isLt

theorem shiftUp_full (hb : c.bits = c.W) (hck : c.build.checked = false) (v z : BitVec c.W) : shiftUp c v z = .ok (v, v ||| z) := by
  unfold shiftUp blkShl
  rw [if_neg (by omega), hck, epb_full hc hb]
  simp [hb, and_mask_full hc hb]

theorem shiftDown_full (hb : c.bits = c.W) (hck : c.build.checked = false) (v z : BitVec c.W) : shiftDown c v z = .ok (v, v ||| z) := by
  unfold shiftDown blkShr
  rw [if_neg (by omega), hck, epb_full hc hb]
  simp [hb, and_mask_full hc hb]

theorem insertFull (hb : c.bits = c.W) (hck : c.build.checked = false) (s : EV c.W) (ib n : Nat) (f : Nat → Nat) (prev : BitVec c.W)
    (hf0 : f ib = prev.toNat) (hf : ∀ k, ib ≤ k → f (k + 1) = blk s k) (hn : ib + n ≤ s.storage.data.length) :
    Runs (loop (insertFastStep c) n ib prev s)
      (fun _ s' => SameShape c s s' ∧ (∀ k, ib ≤ k → k < ib + n → blk s' k = blk s k ||| f k) ∧ ∀ k, ¬ (ib ≤ k ∧ k < ib + n) → blk s' k = blk s k)
      (fun _ _ => False) := by
  have key := runs_loop (body := insertFastStep c) (E := fun _ _ => False) (stop := ib + n)
    (fun i p s' => ib ≤ i ∧ SameShape c s s' ∧ p.toNat = f i ∧
        (∀ k, ib ≤ k → k < i → blk s' k = blk s k ||| f k) ∧ ∀ k, ¬ (ib ≤ k ∧ k < i) → blk s' k = blk s k) ?_ n ib prev s rfl ?_
  · exact key.mono (fun _ _ h => ⟨h.2.1, h.2.2.2⟩) (fun _ _ h => h)
  · rintro i p s' hi ⟨h0, h1, h3, h4, h5⟩
    have hlt : i < s'.storage.data.length := by rw [h1.len]; omega
    unfold insertFastStep
    rw [M.bind_ok (block_ok hc s' hlt), shiftUp_full hc hb hck, M.lift_ok_bind, M.bind_ok (setBlock_eq hc s' _ _), M.pure_apply]
    have hvb : s'.storage.data[i].toNat = blk s i := by
      rw [← blk_lt s' hlt]; exact h5 i (by omega)
    refine ⟨by omega, h1.trans (putBlk_shape s' i _), ?_, fun k hk1 hk2 => ?_, fun k hk => ?_⟩
    · rw [hf i h0]; exact hvb
    · rw [blk_putBlk s' i k _ hlt]
      by_cases hk : k = i
      · subst hk
        rw [if_pos rfl]
        show (s'.storage.data[k] ||| p).toNat = _
        rw [BitVec.toNat_or, hvb, h3]
      · rw [if_neg hk]
        exact h4 k hk1 (by omega)
    · rw [blk_putBlk s' i k _ hlt, if_neg (by omega)]
      exact h5 k (by omega)
  · exact ⟨Nat.le_refl _, SameShape.refl s, hf0.symm, fun k h1 h2 => absurd h2 (by omega), fun k _ => rfl⟩

theorem removeFull (hb : c.bits = c.W) (hck : c.build.checked = false) (s : EV c.W) (last n : Nat) (f : Nat → Nat) (prev : BitVec c.W)
    (hf0 : f last = prev.toNat) (hf : ∀ k, k < last → f k = blk s (k + 1)) (hn : n ≤ last + 1) (hl : last < s.storage.data.length) :
    Runs (loop (fun k prev => removeFastStep c (last - k) prev) n 0 prev s)
      (fun _ s' => SameShape c s s' ∧ (∀ k, last + 1 - n ≤ k → k ≤ last → blk s' k = blk s k ||| f k) ∧ ∀ k, ¬ (last + 1 - n ≤ k ∧ k ≤ last) → blk s' k = blk s k)
      (fun _ _ => False) := by
  have key := runs_loop (body := fun k prev => removeFastStep c (last - k) prev) (E := fun _ _ => False) (stop := n)
    (fun i p s' => i ≤ n ∧ SameShape c s s' ∧ (i ≤ last → p.toNat = f (last - i)) ∧
        (∀ k, last + 1 - i ≤ k → k ≤ last → blk s' k = blk s k ||| f k) ∧ ∀ k, ¬ (last + 1 - i ≤ k ∧ k ≤ last) → blk s' k = blk s k)
      ?_ n 0 prev s (Nat.zero_add _) ?_
  · exact key.mono (fun _ _ h => ⟨h.2.1, h.2.2.2⟩) (fun _ _ h => h)
  · rintro i p s' hi ⟨h0, h1, h3, h4, h5⟩
    have hlt : last - i < s'.storage.data.length := by rw [h1.len]; omega
    unfold removeFastStep
    rw [M.bind_ok (block_ok hc s' hlt), shiftDown_full hc hb hck, M.lift_ok_bind, M.bind_ok (setBlock_eq hc s' _ _), M.pure_apply]
    have hvb : s'.storage.data[last - i].toNat = blk s (last - i) := by
      rw [← blk_lt s' hlt]; exact h5 _ (by omega)
    refine ⟨by omega, h1.trans (putBlk_shape s' _ _), fun hi1 => ?_, fun k hk1 hk2 => ?_, fun k hk => ?_⟩
    · have e : last - i = last - (i + 1) + 1 := by omega
      show s'.storage.data[last - i].toNat = _
      rw [hvb, hf _ (by omega), ← e]
    · rw [blk_putBlk s' _ k _ hlt]
      by_cases hk : k = last - i
      · rw [if_pos hk]
        show (s'.storage.data[last - i] ||| p).toNat = _
        rw [BitVec.toNat_or, hvb, h3 (by omega), hk]
      · rw [if_neg hk]
        exact h4 k (by omega) hk2
    · rw [blk_putBlk s' _ k _ hlt, if_neg (by omega)]
      exact h5 k (by omega)
  · exact ⟨by omega, SameShape.refl s, fun _ => hf0.symm, fun k h1 h2 => absurd h1 (by omega), fun k _ => rfl⟩

/-- Release build, elements as wide as a block: `insert` ORs what it should write with what was there. -/
theorem insert_full_release (hb : c.bits = c.W) (hck : c.build.checked = false) {s : EV c.W} {l : List α} (h : Holds c s l) {index : Nat} (hi : index ≤ l.length) (x : α) :
    Runs (EV.insert c index x s)
      (fun _ s' => Safe c s' ∧ s'.num = l.length + 1 ∧ ∀ k (h1 : k < (l ++ [x]).length) (h2 : k < (l.insertIdx index x).length),
        raw c s' k = c.E.toDiscr (l ++ [x])[k] ||| c.E.toDiscr (l.insertIdx index x)[k])
      (fun e s' => e = .capacity ∧ s' = s ∧ Refused c (c.blocks (l.length + 1))) := by
  have hep := epb_full hc hb
  have hlen := h.len_eq
  unfold EV.insert
  refine runs_seq (push_holds hc h x) (fun e s' h => h) ?_
  rintro _ s1 ⟨h1, -⟩
  have hlen1 := h1.len_eq
  simp only [List.length_append, List.length_cons, List.length_nil] at hlen1
  have hcov := h1.cover
  rw [hep] at hcov
  rw [M.read_bind, if_neg (by rw [hep, Nat.mod_one]; omega), M.pure_bind]
  show Runs ((M.read >>= _) s1) _ _
  rw [M.read_bind, if_pos (show index < len c s1 by show index < s1.num; omega)]
  have hbi : ∀ i, (blockIndex c i).1 = i := fun i => by show i / c.epb = i; rw [hep, Nat.div_one]
  rw [hbi, hbi]
  have hl : len c s1 - 1 + 1 - index = l.length + 1 - index := by
    show s1.num - 1 + 1 - index = _; omega
  rw [hl]
  have hx : (BitVec.ofNat c.W (c.E.toDiscr x)).toNat = c.E.toDiscr x := by
    rw [BitVec.toNat_ofNat]
    refine Nat.mod_eq_of_lt ?_
    have := hc.toDiscr_lt x
    rwa [hb] at this
  let f : Nat → Nat := fun k => if k = index then c.E.toDiscr x else blk s1 (k - 1)
  refine runs_seq (insertFull hc hb hck s1 index (l.length + 1 - index) f (BitVec.ofNat c.W (c.E.toDiscr x)) ?_ ?_ (by omega)) (fun _ _ h => h.elim) ?_
  · rw [hx]; exact if_pos rfl
  · intro k hk
    show (if k + 1 = index then _ else blk s1 (k + 1 - 1)) = _
    rw [if_neg (by omega)]; rfl
  rintro _ s2 ⟨g1, g2, g3⟩
  refine ⟨g1.safe h1.toSafe, by rw [g1.num]; exact hlen1, fun k hk hk' => ?_⟩
  have hk1 : k < l.length + 1 := by simpa using hk
  have hold : blk s1 k = c.E.toDiscr (l ++ [x])[k] := by rw [← raw_full hc hb]; exact h1.elems k hk
  rw [raw_full hc hb]
  by_cases hki : k < index
  · rw [g3 k (by omega), hold, List.getElem_insertIdx_of_lt hki, List.getElem_append_left (by omega)]
    rw [Nat.or_self]
  · rw [g2 k (by omega) (by omega), hold]
    refine congrArg (c.E.toDiscr _ ||| ·) ?_
    show (if k = index then _ else blk s1 (k - 1)) = _
    by_cases hke : k = index
    · subst hke
      rw [if_pos rfl, List.getElem_insertIdx_self]
    · rw [if_neg hke, List.getElem_insertIdx_of_gt (by omega), ← raw_full hc hb, h1.elems (k - 1) (by simp; omega), List.getElem_append_left (by omega)]

/-- Release build, elements as wide as a block: behind `index`, `remove` ORs what it should write with what was there. -/
theorem remove_full_release (hb : c.bits = c.W) (hck : c.build.checked = false) {s : EV c.W} {l : List α} (h : Holds c s l) {index : Nat} (hi : index < l.length) :
    ∃ s', EV.remove c index s = (.ok l[index], s') ∧ Safe c s' ∧ s'.num = l.length - 1 ∧ ∀ k (h1 : k < l.length) (h2 : k < (l.eraseIdx index).length),
      raw c s' k = if k = index then c.E.toDiscr (l.eraseIdx index)[k] else c.E.toDiscr l[k] ||| c.E.toDiscr (l.eraseIdx index)[k] := by
  have hep := epb_full hc hb
  obtain ⟨s1, g1, g2, g3, g4⟩ := remove_head hc h hi
  have hlen := h.len_eq
  have hcov := h.cover
  rw [hep] at hcov
  have hbi : ∀ i, (blockIndex c i).1 = i := fun i => by show i / c.epb = i; rw [hep, Nat.div_one]
  have hmin : min (l.length - 1) ((1 + index / c.epb) * c.epb) = min (l.length - 1) (index + 1) := by
    rw [hep, Nat.div_one]; omega
  rw [hlen, hmin] at g3
  rw [hmin, M.read_bind] at g4
  have hsafe : Safe c (⟨s1.storage, l.length - 1⟩ : EV c.W) := (g1.safe h.toSafe).setNum hc (by rw [g1.num]; omega)
  have her : (l.eraseIdx index).length = l.length - 1 := by rw [List.length_eraseIdx, if_pos hi]
  -- contents before the block loop
  have hold : ∀ k, k < l.length → k ≠ index → raw c s1 k = raw c s k := fun k hk hne => by rw [g3, if_neg (by omega)]
  by_cases hlt : index + 2 < l.length
  · rw [if_pos (show min (l.length - 1) (index + 1) < len c (⟨s1.storage, l.length - 1⟩ : EV c.W) by show _ < l.length - 1; omega)] at g4
    rw [hbi, hbi] at g4
    have e1 : len c (⟨s1.storage, l.length - 1⟩ : EV c.W) - 1 = l.length - 2 := rfl
    have e2 : l.length - 2 + 1 - min (l.length - 1) (index + 1) = l.length - 2 - index := by omega
    rw [e1, e2] at g4
    have hp : (BitVec.ofNat c.W (raw c s1 (l.length - 1))).toNat = raw c s1 (l.length - 1) := by
      rw [BitVec.toNat_ofNat]
      have := raw_lt c s1 (l.length - 1)
      rw [hb] at this
      exact Nat.mod_eq_of_lt this
    have hb1 : ∀ k, blk (⟨s1.storage, l.length - 1⟩ : EV c.W) k = raw c s1 k := fun k => (raw_full hc hb s1 k).symm
    have hlast : l.length - 2 + 1 = l.length - 1 := by omega
    have hlt2 : l.length - 2 < (⟨s1.storage, l.length - 1⟩ : EV c.W).storage.data.length := by
      show _ < s1.storage.data.length
      rw [g1.len]; omega
    have key := removeFull hc hb hck (⟨s1.storage, l.length - 1⟩ : EV c.W) (l.length - 2) (l.length - 2 - index) (fun k => raw c s1 (k + 1))
      (BitVec.ofNat c.W (raw c s1 (l.length - 1)))
      (by rw [hp, ← hlast]) (fun k _ => (hb1 (k + 1)).symm)
      (by omega) hlt2
    rcases hx : loop (fun k prev => removeFastStep c (l.length - 2 - k) prev) (l.length - 2 - index) 0 (BitVec.ofNat c.W (raw c s1 (l.length - 1))) (⟨s1.storage, l.length - 1⟩ : EV c.W) with ⟨e | b, s2⟩
    · rw [hx] at key; exact key.elim
    · rw [hx] at key
      obtain ⟨k1, k2, k3⟩ := key
      rw [M.bind_ok hx] at g4
      refine ⟨s2, g4, k1.safe hsafe, k1.num, fun k h1 h2 => ?_⟩
      have e3 : l.length - 2 + 1 - (l.length - 2 - index) = index + 1 := by omega
      rw [e3] at k2 k3
      rw [her] at h2
      rw [raw_full hc hb]
      by_cases hki : k = index
      · subst hki
        rw [k3 k (by omega), hb1, if_pos rfl, g3, if_pos (by omega), List.getElem_eraseIdx_of_ge (by omega) (Nat.le_refl _)]
        exact h.elems _ _
      · rw [if_neg hki]
        by_cases hkl : k < index
        · rw [k3 k (by omega), hb1, hold k (by omega) hki, h.elems k (by omega), List.getElem_eraseIdx_of_lt (by omega) hkl]
          rw [Nat.or_self]
        · rw [k2 k (by omega) (by omega), hb1, hold k (by omega) hki, h.elems k (by omega), hold (k + 1) (by omega) (by omega), h.elems (k + 1) (by omega),
            List.getElem_eraseIdx_of_ge (by omega) (by omega)]
  · rw [if_neg (show ¬ min (l.length - 1) (index + 1) < len c (⟨s1.storage, l.length - 1⟩ : EV c.W) by show ¬ _ < l.length - 1; omega)] at g4
    refine ⟨⟨s1.storage, l.length - 1⟩, g4, hsafe, rfl, fun k h1 h2 => ?_⟩
    have e : raw c (⟨s1.storage, l.length - 1⟩ : EV c.W) k = raw c s1 k := raw_congr rfl k
    rw [her] at h2
    rw [e]
    by_cases hki : k = index
    · subst hki
      rw [if_pos rfl, g3, if_pos (by omega), List.getElem_eraseIdx_of_ge (by omega) (Nat.le_refl _)]
      exact h.elems _ _
    · rw [if_neg hki, hold k (by omega) hki, h.elems k (by omega), List.getElem_eraseIdx_of_lt (by omega) (by omega)]
      rw [Nat.or_self]

end
end EnumVecModel
