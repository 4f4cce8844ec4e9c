import Verif.RealSpec
import Verif.Props.Panic

/-! # Lemmas for C73 -/

namespace EnumVecModel
open EV

variable {α τ : Type} {c : Inst α}

theorem isNums_of_raw (hc : c.Sound) {s : EV c.W} {ds : List Nat} (hs : Safe c s) (hl : s.num = ds.length) (hr : ∀ k d, ds[k]? = some d → raw c s k = d) : IsNums c s ds := by
  refine ⟨hs, hl, fun k d hd => ?_⟩
  have hk : k < ds.length := (List.getElem?_eq_some_iff.mp hd).1
  have := hs.cover
  rw [rawUnchecked_ok hc s (by omega), hr k d hd]

theorem nums_raw (s : EV c.W) (k : Nat) : raw c.nums s k = raw c s k := by
  unfold raw; rw [nums_epb, nums_bits]

theorem nums_safe {s : EV c.W} (h : Safe c.nums s) : Safe c s := by
  refine ⟨?_, h.capLen, ?_⟩
  · have := h.cover; rw [nums_epb] at this; exact this
  · have := h.capBound; rw [nums_epb] at this; exact this

/-- `slot` reads the storage. -/
theorem slot_eq (hc : c.Sound) (s : EV c.W) (k : Nat) : slot c s k = raw c s k := by
  unfold slot
  by_cases h : k < s.storage.data.length * c.epb
  · rw [rawUnchecked_ok hc s h]
  · rw [rawUnchecked_ub hc s (by omega)]
    have : s.storage.data.length ≤ k / c.epb := (Nat.le_div_iff_mul_le hc.epb_pos).mpr (by omega)
    unfold raw
    rw [blk_ge s this]
    simp [fld]

theorem extendHinted_raw (hc : c.Ok) (panics : Bool) : ∀ (n : Nat) (items l : List α) (s : EV c.W),
    HoldsPre c s l → l.length + n ≤ s.num →
    Runs (extendHinted c panics n l.length items s) (fun _ _ => True) (fun _ s' => ∀ k, l.length + items.length ≤ k → raw c s' k = raw c s k)
  | 0, _, _, _, _, _ => trivial
  | n + 1, [], _, _, _, _ => fun _ _ => rfl
  | n + 1, x :: xs, l, s, h, hn => by
    show Runs ((EV.set c l.length x >>= fun _ => extendHinted c panics n (l.length + 1) xs) s) _ _
    obtain ⟨h1, h2, -⟩ := h.set hc x (by omega)
    rw [M.bind_ok h1]
    have := extendHinted_raw hc panics n xs (l ++ [x]) _ h2 (by simp; omega)
    have el : (l ++ [x]).length = l.length + 1 := by simp
    rw [el] at this
    refine this.mono (fun _ _ h => h) fun _ s' h' k hk => ?_
    rw [List.length_cons] at hk
    have hcov := h.cover
    rw [h' k (by omega), raw_putRaw hc s k (by omega) (hc.toDiscr_lt x), if_neg (by omega)]

/-- `extend` with too few items. -/
theorem extend_stale (hc : c.Ok) (it : Src α) {s : EV c.W} {l : List α} (h : Holds c s l) (hw : ¬ c.AtLimit (l.length + it.hint)) (hfew : it.items.length < it.hint) :
    Runs (extend c it s) (fun _ _ => False) (fun e s' => e = .capacity ∨ (e = .user ∨ e = .unwrapNone) ∧ HoldsPre c s' (l ++ it.items) ∧ s'.num = l.length + it.hint ∧
      ∀ k, l.length + it.items.length ≤ k → k < l.length + it.hint → raw c s' k = raw c s k) := by
  have hlen := h.len_eq
  have hep := hc.epb_pos
  unfold extend
  rw [M.read_bind]
  refine runs_seq ((reserve_holds hc h hw).and (reserve_safe hc h.toSafe (by rw [hlen]; exact hw))) ?_ ?_
  · rintro e s' ⟨h1, -⟩
    exact Or.inl h1.1
  · rintro _ s1 ⟨⟨h1, h2, h3, h4, h5, h6⟩, -, -, -, -, -, -, h7⟩
    rw [M.read_bind]
    have hlen1 := h1.len_eq
    have hadd : uAdd c.build s1.num it.hint = .ok (l.length + it.hint) := by
      unfold uAdd
      rw [if_pos (by omega), hlen1]
    rw [hadd, M.lift_ok_bind, M.write_bind]
    have hd1 := Nat.div_add_mod (s.num + it.hint) c.epb
    have hd2 := Nat.mod_lt (s.num + it.hint) hep
    have hcov : l.length + it.hint ≤ s1.storage.data.length * c.epb := by
      rw [h3, Nat.add_mul, Nat.one_mul, Nat.mul_comm]; omega
    have hpre : HoldsPre c (⟨s1.storage, l.length + it.hint⟩ : EV c.W) l :=
      ⟨⟨hcov, h1.capLen, h1.capBound⟩, by simp, fun i hi => h1.elems i hi⟩
    have el : len c s = l.length := hlen
    rw [el]
    refine runs_seq ((extendHinted_holds hc it.panics it.hint it.items l _ hpre (by simp)).and (extendHinted_raw hc it.panics it.hint it.items l _ hpre (by simp))) ?_ ?_
    · rintro e s' ⟨⟨g1, g2, g3, g4, g5⟩, g6⟩
      refine Or.inr ⟨?_, g3, g4.num, fun k hk1 hk2 => ?_⟩
      · rw [g2]; cases it.panics
        · exact Or.inr rfl
        · exact Or.inl rfl
      · rw [g6 k hk1]
        unfold raw
        have : blk (⟨s1.storage, l.length + it.hint⟩ : EV c.W) (k / c.epb) = blk s1 (k / c.epb) := blk_congr rfl _
        rw [this, h7, if_pos]
        have := Nat.div_le_div_right (c := c.epb) (show k ≤ s.num + it.hint by omega)
        omega
    · rintro rest s2 ⟨⟨-, g2, -⟩, -⟩
      omega

/-- `insert` beyond the end. -/
theorem insert_beyond_holds (hc : c.Ok) {s : EV c.W} {l : List α} (h : Holds c s l) {index : Nat} (hi : l.length < index) (x : α) :
    Runs (EV.insert c index x s) (fun _ s' => Holds c s' (l ++ [x])) (fun e s' => e = .capacity ∨ Holds c s' (l ++ [x])) := by
  have hlen := h.len_eq
  by_cases hov : index - index % c.epb + c.epb < c.build.usizeLim ∨ c.build.checked = false ∨ index % c.epb = 0
  · rw [insert_past hc h.toSafe (by omega) x hov]
    exact (push_holds hc h x).mono (fun _ _ h => h.1) (fun _ _ h => Or.inl h.1)
  · have h1 : ¬ (index - index % c.epb + c.epb < c.build.usizeLim) := fun h => hov (Or.inl h)
    have h2 : c.build.checked = true := by
      cases hx : c.build.checked
      · exact absurd (Or.inr (Or.inl hx)) hov
      · rfl
    have h3 : ¬ index % c.epb = 0 := fun h => hov (Or.inr (Or.inr h))
    unfold EV.insert
    refine runs_seq (push_holds hc h x) (fun _ _ h => Or.inl h.1) ?_
    rintro _ s1 ⟨g1, -⟩
    rw [M.read_bind]
    have hadd : uAdd c.build (index - index % c.epb) c.epb = .error .overflow := by
      unfold uAdd; rw [if_neg h1, h2]; rfl
    rw [M.bind_apply, if_pos (by omega), M.bind_apply, M.lift_apply, hadd]
    exact Or.inr g1

end EnumVecModel
