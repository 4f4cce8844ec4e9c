import Verif.Lemmas.Two

set_option linter.unusedSectionVars false

/-! # `insert` and `remove` near the end (no block shift), and with elements as wide as a block -/

namespace EnumVecModel
open EV

variable {α : Type}

section
variable {c : Inst α} (hc : c.Ok)
include hc

/-- First part of `remove`, up to the decision whether whole blocks are shifted. -/
theorem remove_head {s : EV c.W} {l : List α} (h : Holds c s l) {index : Nat} (hi : index < l.length) :
    ∃ s1 : EV c.W, SameShape c s s1 ∧ (∀ j, waste c s1 j = waste c s j) ∧
      (∀ k, raw c s1 k = if index ≤ k ∧ k < min (s.num - 1) ((1 + index / c.epb) * c.epb) then raw c s (k + 1)
        else raw c s k) ∧
      EV.remove c index s = (do
        let s ← M.read
        if min (l.length - 1) ((1 + index / c.epb) * c.epb) < len c s then
          let ib := (blockIndex c (min (l.length - 1) ((1 + index / c.epb) * c.epb))).1
          let lastIb := (blockIndex c (len c s - 1)).1
          let _ ← loop (fun k prev => removeFastStep c (lastIb - k) prev) (lastIb + 1 - ib) 0
            (BitVec.ofNat c.W (raw c s1 (l.length - 1)))
        return l[index] : M (EV c.W) α) ⟨s1.storage, l.length - 1⟩ := by
  have hep := hc.epb_pos
  have hlen := h.len_eq
  have hcov := h.cover
  have hnr := h.toSafe.numRoom hc
  have e1 := Nat.div_add_mod index c.epb
  have e2 := Nat.mod_lt index hep
  generalize hbl : (1 + index / c.epb) * c.epb = bl
  have hbl' : bl = c.epb * (index / c.epb) + c.epb := by
    rw [← hbl, Nat.add_comm, Nat.add_mul, Nat.one_mul, Nat.mul_comm]
  have hmul : uMul c.build (1 + (blockIndex c index).1) c.epb = .ok bl := by
    unfold uMul
    show (if (1 + index / c.epb) * c.epb < c.build.usizeLim then _ else _) = _
    rw [hbl, if_pos]
    · show Except.ok ((1 + index / c.epb) * c.epb) = _
      rw [hbl]
    · omega
  have hl0 : len c s = s.num := rfl
  have hslow := removeSlow hc s index (min (s.num - 1) bl - index) (by omega)
  match hx : loop (removeSlowStep c) (min (s.num - 1) bl - index) index () s, hslow with
  | (.error e, s1), hslow => exact hslow.elim
  | (.ok _, s1), hslow =>
    obtain ⟨g1, g2, g3, g4⟩ := hslow
    refine ⟨s1, g1, g2, ?_, ?_⟩
    · intro k; rw [g4]
      have : index + (min (s.num - 1) bl - index) = min (s.num - 1) bl := by omega
      rw [this]
    · unfold EV.remove
      rw [M.bind_ok (get_holds hc h index), List.getElem?_eq_getElem hi, M.unwrap_some_bind, M.read_bind,
        hmul, M.lift_ok_bind, hl0, M.bind_ok hx, M.read_bind]
      have hl1 : len c s1 = s.num := g1.num
      have hlt1 : s.num - 1 < s1.storage.data.length * c.epb := by rw [g1.len]; omega
      rw [hl1, M.bind_ok (getRawUnchecked_ok hc s1 hlt1), M.read_bind, M.write_bind, Nat.max_eq_right (by omega),
        g1.num, hlen]

/-- `remove` that needs no block shift is right for all widths and all unused bits. -/
theorem remove_near {s : EV c.W} {l : List α} (h : Holds c s l) {index : Nat} (hi : index < l.length)
    (hn : l.length - 1 ≤ (1 + index / c.epb) * c.epb) :
    ∃ s', EV.remove c index s = (.ok l[index], s') ∧ Holds c s' (l.eraseIdx index) ∧
      s'.storage.cap = s.storage.cap ∧ Tidy c s s' := by
  obtain ⟨s1, g1, g2, g3, g4⟩ := remove_head hc h hi
  have hlen := h.len_eq
  rw [hlen, Nat.min_eq_left hn] at g3
  rw [Nat.min_eq_left hn, M.read_bind, if_neg (show ¬ (l.length - 1 < len c (⟨s1.storage, l.length - 1⟩ : EV c.W)) from Nat.lt_irrefl _)] at g4
  have hs : Safe c (⟨s1.storage, l.length - 1⟩ : EV c.W) :=
    (g1.safe h.toSafe).setNum hc (by rw [g1.num]; omega)
  refine ⟨_, g4, ⟨hs, by rw [List.length_eraseIdx_of_lt hi], ?_⟩, g1.cap, ⟨fun j => Or.inl ?_, fun hv i => ?_⟩⟩
  · intro k hk
    rw [List.length_eraseIdx_of_lt hi] at hk
    have e : raw c (⟨s1.storage, l.length - 1⟩ : EV c.W) k = raw c s1 k := raw_congr rfl k
    rw [e, g3, List.getElem_eraseIdx]
    by_cases hk2 : k < index
    · rw [if_neg (by omega), dif_pos hk2]; exact h.elems _ _
    · rw [if_pos (by omega), dif_neg hk2]; exact h.elems _ _
  · have e : waste c (⟨s1.storage, l.length - 1⟩ : EV c.W) j = waste c s1 j := waste_congr rfl j
    rw [e, g2]
  · have e : raw c (⟨s1.storage, l.length - 1⟩ : EV c.W) i = raw c s1 i := raw_congr rfl i
    rw [e, g3]; split
    · exact hv _
    · exact hv _

/-- `insert` that needs no block shift is right for all widths and leaves the unused bits as they are. -/
theorem insert_near {s : EV c.W} {l : List α} (h : Holds c s l) {index : Nat} (hi : index ≤ l.length)
    (hm : 0 < index % c.epb) (hn : l.length < index - index % c.epb + c.epb) (x : α) :
    Runs (EV.insert c index x s)
      (fun _ s' => Holds c s' (l.insertIdx index x) ∧ Tidy c s s' ∧ s.storage.cap ≤ s'.storage.cap)
      (fun e s' => e = .capacity ∧ s' = s ∧ Refused c (c.blocks (l.length + 1))) := by
  have hep := hc.epb_pos
  have hlen := h.len_eq
  unfold EV.insert
  refine runs_seq (push_raw hc h.toSafe x) (fun e s' h => by rw [← hlen]; exact h) ?_
  rintro _ s1 ⟨h1, hnum, hlim, hcap, hcap', hraw, hwaste⟩
  have hd := hc.toDiscr_lt x
  have hcov := h1.cover
  have hl1 : len c s1 = s1.num := rfl
  have hadd : uAdd c.build (index - index % c.epb) c.epb = .ok (index - index % c.epb + c.epb) := by
    unfold uAdd
    rw [if_pos]
    have := h1.numRoom hc
    have := Nat.mod_le index c.epb
    omega
  rw [M.read_bind]
  refine runs_seq (P := fun ip s2 => ip.1 = s1.num ∧ SameShape c s1 s2 ∧ (∀ j, waste c s2 j = waste c s1 j) ∧
      ∀ k, raw c s2 k = if k < s1.num then ins (raw c s1) index (c.E.toDiscr x) k else raw c s1 k)
      (E' := fun _ _ => False) ?_ (fun _ _ h => h.elim) ?_
  · rw [if_pos hm, hadd, M.lift_ok_bind]
    have hsl : min (index - index % c.epb + c.epb) (len c s1) = s1.num := by rw [hl1]; omega
    show Runs ((loop _ (min (index - index % c.epb + c.epb) (len c s1) - index) index (c.E.toDiscr x) >>= _) s1) _ _
    rw [hsl]
    refine runs_seq (insertSlow hc s1 index (c.E.toDiscr x) (s1.num - index) hd (by omega)) (fun _ _ h => h) ?_
    rintro prev s2 ⟨g1, g2, g3, g4⟩
    have e : index + (s1.num - index) = s1.num := by omega
    rw [e] at g4
    exact ⟨by show max index s1.num = _; omega, g1, g2, g4⟩
  · rintro ⟨i, prev⟩ s2 ⟨rfl, g1, g2, g3⟩
    show Runs ((M.read >>= _) s2) _ _
    rw [M.read_bind, if_neg (show ¬ (s1.num < len c s2) by show ¬ (s1.num < s2.num); rw [g1.num]; omega)]
    refine ⟨⟨g1.safe h1, ?_, ?_⟩, ⟨fun j => Or.inl (by rw [g2, hwaste]), fun hv i => ?_⟩, by rw [g1.cap]; exact hcap⟩
    · rw [g1.num, hnum, List.length_insertIdx_of_le_length hi, hlen]
    · intro k hk
      rw [List.length_insertIdx_of_le_length hi] at hk
      rw [g3, if_pos (by omega), List.getElem_insertIdx]
      unfold ins
      by_cases hk1 : k < index
      · rw [if_pos hk1, dif_pos hk1, hraw, if_neg (by omega)]; exact h.elems _ _
      · rw [if_neg hk1, dif_neg hk1]
        by_cases hk2 : k = index
        · rw [if_pos hk2, dif_pos hk2]
        · rw [if_neg hk2, dif_neg hk2, hraw, if_neg (by omega)]; exact h.elems _ _
    · have hv1 : ∀ k, raw c s1 k < c.E.num := by
        intro k; rw [hraw]; split
        · exact hc.contract.lt x
        · exact hv k
      rw [g3]; split
      · unfold ins; split
        · exact hv1 _
        · split
          · exact hc.contract.lt x
          · exact hv1 _
      · exact hv1 _

/-! ### Elements as wide as a block -/

theorem epb_full (hb : c.bits = c.W) : c.epb = 1 := by
  unfold Inst.epb; rw [hb]; exact Nat.div_self (W_pos hc)

/-- Debug build, elements as wide as a block: `insert` inside the bounds never succeeds: it pushes, then panics. -/
theorem insert_full_debug (hb : c.bits = c.W) (hck : c.build.checked = true) {s : EV c.W} {l : List α} (h : Holds c s l)
    {index : Nat} (hi : index ≤ l.length) (x : α) :
    Runs (EV.insert c index x s) (fun _ _ => False)
      (fun e s' => e = .overflow ∧ Holds c s' (l ++ [x]) ∨
        e = .capacity ∧ s' = s ∧ Refused c (c.blocks (l.length + 1))) := by
  have hep := epb_full hc hb
  have hlen := h.len_eq
  unfold EV.insert
  refine runs_seq (push_holds hc h x) (fun e s' h => Or.inr h) ?_
  rintro _ s1 ⟨h1, -⟩
  have hlen1 := h1.len_eq
  simp only [List.length_append, List.length_cons, List.length_nil] at hlen1
  have hcov := h1.cover
  rw [M.read_bind, if_neg (by rw [hep, Nat.mod_one]; omega), M.pure_bind]
  show Runs ((M.read >>= _) s1) _ _
  rw [M.read_bind, if_pos (show index < len c s1 by show index < s1.num; omega)]
  have hbi : ∀ i, (blockIndex c i).1 = i := fun i => by show i / c.epb = i; rw [hep, Nat.div_one]
  rw [hbi, hbi]
  have hl : len c s1 - 1 + 1 - index = (s1.num - 1 - index) + 1 := by
    show s1.num - 1 + 1 - index = _; omega
  rw [hl]
  have hlt : index < s1.storage.data.length := by rw [hep] at hcov; omega
  have hstep : insertFastStep c index (BitVec.ofNat c.W (c.E.toDiscr x)) s1 = (.error .overflow, s1) := by
    unfold insertFastStep
    rw [M.bind_ok (block_ok hc s1 hlt)]
    unfold shiftUp blkShl
    simp only [hb, Nat.lt_irrefl, if_false, hck, if_true]
    rfl
  have : loop (insertFastStep c) (s1.num - 1 - index + 1) index (BitVec.ofNat c.W (c.E.toDiscr x)) s1
      = (.error .overflow, s1) := by
    show (insertFastStep c index (BitVec.ofNat c.W (c.E.toDiscr x)) >>= _) s1 = _
    rw [M.bind_error hstep]
  rw [M.bind_error this]
  exact Or.inl ⟨rfl, h1⟩

/-- Debug build, elements as wide as a block: `remove(index)` with at least two elements behind `index` panics; one
element is lost. -/
theorem remove_full_debug (hb : c.bits = c.W) (hck : c.build.checked = true) {s : EV c.W} {l : List α} (h : Holds c s l)
    {index : Nat} (hi : index + 2 < l.length) :
    ∃ s', EV.remove c index s = (.error .overflow, s') ∧ Holds c s' ((l.set index l[index + 1]).dropLast) := by
  have hep := epb_full hc hb
  obtain ⟨s1, g1, g2, g3, g4⟩ := remove_head hc h (show index < l.length by omega)
  have hlen := h.len_eq
  have hcov := h.cover
  rw [hep] at hcov
  have hmin : min (l.length - 1) ((1 + index / c.epb) * c.epb) = index + 1 := by
    rw [hep, Nat.div_one]; omega
  rw [hlen, hmin] at g3
  rw [hmin, M.read_bind, if_pos (show index + 1 < len c (⟨s1.storage, l.length - 1⟩ : EV c.W) by show index + 1 < l.length - 1; omega)] at g4
  have hbi : ∀ i, (blockIndex c i).1 = i := fun i => by show i / c.epb = i; rw [hep, Nat.div_one]
  rw [hbi, hbi] at g4
  have hl : len c (⟨s1.storage, l.length - 1⟩ : EV c.W) - 1 = l.length - 2 := rfl
  have hcnt : l.length - 2 + 1 - (index + 1) = (l.length - 3 - index) + 1 := by omega
  rw [hl, hcnt] at g4
  have hlt : l.length - 2 < (⟨s1.storage, l.length - 1⟩ : EV c.W).storage.data.length := by
    show _ < s1.storage.data.length
    rw [g1.len]; omega
  have hstep : ∀ v, removeFastStep c (l.length - 2 - 0) v (⟨s1.storage, l.length - 1⟩ : EV c.W)
      = (.error .overflow, ⟨s1.storage, l.length - 1⟩) := by
    intro v
    unfold removeFastStep
    rw [Nat.sub_zero, M.bind_ok (block_ok hc _ hlt)]
    unfold shiftDown blkShr
    simp only [hb, Nat.lt_irrefl, if_false, hck, if_true]
    rfl
  have hloop : ∀ v, loop (fun k prev => removeFastStep c (l.length - 2 - k) prev) (l.length - 3 - index + 1) 0 v
      (⟨s1.storage, l.length - 1⟩ : EV c.W) = (.error .overflow, ⟨s1.storage, l.length - 1⟩) := by
    intro v
    show (removeFastStep c (l.length - 2 - 0) v >>= _) _ = _
    rw [M.bind_error (hstep v)]
  rw [M.bind_error (hloop _)] at g4
  refine ⟨_, g4, ⟨(g1.safe h.toSafe).setNum hc (by rw [g1.num]; omega), ?_, ?_⟩⟩
  · simp
  · intro k hk
    simp only [List.length_dropLast, List.length_set] at hk
    have e : raw c (⟨s1.storage, l.length - 1⟩ : EV c.W) k = raw c s1 k := raw_congr rfl k
    rw [e, g3, List.getElem_dropLast, List.getElem_set]
    by_cases hk2 : index = k
    · subst hk2
      rw [if_pos (by omega), if_pos rfl]; exact h.elems _ _
    · rw [if_neg (by omega), if_neg hk2]; exact h.elems _ _

end
end EnumVecModel
