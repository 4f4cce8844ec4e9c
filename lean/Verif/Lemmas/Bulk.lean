import Verif.Lemmas.Closures

set_option linter.unusedSectionVars false

/-! # `extend`, `extend_with_value`, `resize` -/

namespace EnumVecModel
open EV

variable {α : Type}

/-- `s` has at least the elements `l`; more elements may follow. -/
structure HoldsPre (c : Inst α) (s : EV c.W) (l : List α) : Prop extends Safe c s where
  len_le : l.length ≤ s.num
  elems : ∀ i (h : i < l.length), raw c s i = c.E.toDiscr l[i]

theorem HoldsPre.holds {c : Inst α} {s : EV c.W} {l : List α} (h : HoldsPre c s l) (hl : s.num = l.length) :
    Holds c s l := ⟨h.toSafe, hl, h.elems⟩

theorem Holds.pre {c : Inst α} {s : EV c.W} {l : List α} (h : Holds c s l) : HoldsPre c s l :=
  ⟨h.toSafe, by rw [h.len_eq]; exact Nat.le_refl _, h.elems⟩

section
variable {c : Inst α} {strict : Prop} (hc : c.Fits strict)
include hc

omit hc in
theorem HoldsPre.set (hc : c.Ok) {s : EV c.W} {l : List α} (h : HoldsPre c s l) (x : α) (hl : l.length < s.num) :
    EV.set c l.length x s = (.ok (), putRaw c s l.length (c.E.toDiscr x)) ∧
      HoldsPre c (putRaw c s l.length (c.E.toDiscr x)) (l ++ [x]) ∧
      Tidy c s (putRaw c s l.length (c.E.toDiscr x)) := by
  have hcov := h.cover
  have hlt : l.length < s.storage.data.length * c.epb := by omega
  refine ⟨setRaw_lt hc h.toSafe _ hl, ⟨putRaw_safe hc h.toSafe _ _, by simp; omega, ?_⟩,
    putRaw_tidy hc hlt (hc.contract.lt x)⟩
  intro i hi
  rw [raw_putRaw hc s i hlt (hc.toDiscr_lt x), List.getElem_append]
  by_cases e : i = l.length
  · simp [e]
  · have : i < l.length := by simp at hi; omega
    rw [if_neg e, dif_pos this]
    exact h.elems i this

omit hc in
theorem extendHinted_holds (hc : c.Ok) (panics : Bool) : ∀ (n : Nat) (items l : List α) (s : EV c.W),
    HoldsPre c s l → l.length + n ≤ s.num →
    Runs (extendHinted c panics n l.length items s)
      (fun rest s' => rest = items.drop n ∧ n ≤ items.length ∧ HoldsPre c s' (l ++ items.take n) ∧
        SameShape c s s' ∧ Tidy c s s')
      (fun e s' => items.length < n ∧ e = (if panics then .user else .unwrapNone) ∧ HoldsPre c s' (l ++ items) ∧
        SameShape c s s' ∧ Tidy c s s') := by
  intro n
  induction n with
  | zero =>
    intro items l s h _
    show Runs ((Pure.pure items : M (EV c.W) (List α)) s) _ _
    exact ⟨rfl, Nat.zero_le _, by simpa using h, SameShape.refl s, Tidy.refl s⟩
  | succ n ih =>
    intro items l s h hn
    cases items with
    | nil =>
      show Runs (M.fail (σ := EV c.W) (α := List α) (if panics then .user else .unwrapNone) s) _ _
      exact ⟨by simp, rfl, by simpa using h, SameShape.refl s, Tidy.refl s⟩
    | cons x xs =>
      show Runs ((EV.set c l.length x >>= fun _ => extendHinted c panics n (l.length + 1) xs) s) _ _
      obtain ⟨h1, h2, h3⟩ := h.set hc x (by omega)
      rw [M.bind_ok h1]
      have := ih xs (l ++ [x]) _ h2 (by simp; omega)
      have el : (l ++ [x]).length = l.length + 1 := by simp
      rw [el] at this
      have hsh := putRaw_shape c s l.length (c.E.toDiscr x)
      refine this.mono ?_ ?_
      · rintro rest s' ⟨g1, g2, g3, g4, g5⟩
        exact ⟨by simpa using g1, by simpa using g2, by simpa using g3, hsh.trans g4, h3.trans g5⟩
      · rintro e s' ⟨g1, g2, g3, g4, g5⟩
        exact ⟨by simpa using g1, g2, by simpa using g3, hsh.trans g4, h3.trans g5⟩

omit hc in
theorem extendRest_holds (hc : c.Ok) (panics : Bool) : ∀ (items l : List α) (s : EV c.W), Holds c s l →
    Runs (extendRest c panics items s)
      (fun _ s' => panics = false ∧ Holds c s' (l ++ items) ∧ Tidy c s s' ∧ s.storage.cap ≤ s'.storage.cap ∧
        (c.blocks (l.length + items.length) ≤ s.storage.cap → s'.storage.cap = s.storage.cap) ∧
        (items = [] → s' = s))
      (fun e s' => Tidy c s s' ∧ ((e = .user ∧ panics = true ∧ Holds c s' (l ++ items)) ∨
        (e = .capacity ∧ ∃ k, k < items.length ∧ Holds c s' (l ++ items.take k) ∧
          Refused c (c.blocks (l.length + k + 1))))) := by
  intro items
  induction items with
  | nil =>
    intro l s h
    show Runs ((if panics then M.fail .user else pure ()) s) _ _
    cases panics with
    | true => exact ⟨Tidy.refl s, Or.inl ⟨rfl, rfl, by simpa using h⟩⟩
    | false => exact ⟨rfl, by simpa using h, Tidy.refl s, Nat.le_refl _, fun _ => rfl, fun _ => rfl⟩
  | cons x xs ih =>
    intro l s h
    show Runs ((push c x >>= fun _ => extendRest c panics xs) s) _ _
    refine runs_seq (push_holds hc h x) ?_ ?_
    · rintro e s' ⟨h1, rfl, h3⟩
      exact ⟨Tidy.refl _, Or.inr ⟨h1, 0, by simp, by simpa using h, by simpa using h3⟩⟩
    · rintro _ s1 ⟨h1, h2, h3, h4⟩
      refine (ih (l ++ [x]) s1 h1).mono ?_ ?_
      · rintro _ s' ⟨g1, g2, g3, g4, g5, -⟩
        have hm : c.blocks (l.length + 1) ≤ c.blocks (l.length + (x :: xs).length) := by
          rw [blocks_le_iff hc]
          have := blocks_mul hc (l.length + (x :: xs).length)
          simp at this ⊢; omega
        refine ⟨g1, by simpa using g2, h2.trans g3, by omega, fun hle => ?_, by simp⟩
        have e1 := h4 (by omega)
        rw [g5, e1]
        rw [e1]
        have el : (l ++ [x]).length + xs.length = l.length + (x :: xs).length := by simp; omega
        rw [el]; exact hle
      · rintro e s' ⟨g0, g | ⟨g1, k, g2, g3, g4⟩⟩
        · exact ⟨h2.trans g0, Or.inl ⟨g.1, g.2.1, by simpa using g.2.2⟩⟩
        · refine ⟨h2.trans g0, Or.inr ⟨g1, k + 1, by simpa using g2, by simpa using g3, ?_⟩⟩
          have el : (l ++ [x]).length + k + 1 = l.length + (k + 1) + 1 := by simp; omega
          rw [← el]; exact g4

omit hc in
/-- How `extend` can end. -/
theorem extend_holds (hc : c.Ok) (it : Src α) {s : EV c.W} {l : List α} (h : Holds c s l) (hw : ¬ c.AtLimit (l.length + it.hint)) :
    Runs (extend c it s)
      (fun _ s' => it.panics = false ∧ it.hint ≤ it.items.length ∧ Holds c s' (l ++ it.items) ∧ Tidy c s s' ∧
        s.storage.cap ≤ s'.storage.cap ∧
        ((l.length + it.items.length) / c.epb + 1 ≤ s.storage.cap → s'.storage.cap = s.storage.cap) ∧
        (it.hint = it.items.length → s'.storage.data.length = (l.length + it.items.length) / c.epb + 1))
      (fun e s' => Tidy c s s' ∧
        ((e = .capacity ∧ Refused c ((l.length + max it.hint it.items.length) / c.epb + 1) ∧
            ((s' = s) ∨ (it.hint < it.items.length ∧
              ∃ k, k < it.items.length ∧ it.hint ≤ k ∧ Holds c s' (l ++ it.items.take k)))) ∨
         (e = .user ∧ it.panics = true ∧ it.hint ≤ it.items.length ∧ Holds c s' (l ++ it.items)) ∨
         (it.items.length < it.hint ∧ e = (if it.panics then .user else .unwrapNone) ∧
            HoldsPre c s' (l ++ it.items) ∧ s'.num = l.length + it.hint))) := by
  have hlen := h.len_eq
  have hep := hc.epb_pos
  unfold extend
  rw [M.read_bind]
  refine runs_seq (reserve_holds hc h hw) ?_ ?_
  · rintro e s' ⟨h1, rfl, h3⟩
    refine ⟨Tidy.refl _, Or.inl ⟨h1, h3.mono ?_, Or.inl rfl⟩⟩
    rw [hlen]
    exact Nat.add_le_add_right (Nat.div_le_div_right (by omega)) 1
  · rintro _ s1 ⟨h1, h2, h3, h4, h5, h6⟩
    rw [M.read_bind]
    have hlen1 := h1.len_eq
    have hadd : uAdd c.build s1.num it.hint = .ok (l.length + it.hint) := by
      unfold uAdd
      rw [if_pos (by omega), hlen1]
    rw [hadd, M.lift_ok_bind, M.write_bind]
    have hd1 := Nat.div_add_mod (s.num + it.hint) c.epb
    have hd2 := Nat.mod_lt (s.num + it.hint) hep
    have hcov : l.length + it.hint ≤ s1.storage.data.length * c.epb := by
      rw [h3, Nat.add_mul, Nat.one_mul, Nat.mul_comm]; omega
    have hpre : HoldsPre c (⟨s1.storage, l.length + it.hint⟩ : EV c.W) l :=
      ⟨⟨hcov, h1.capLen, h1.capBound⟩, by simp, fun i hi => h1.elems i hi⟩
    have ht2 : Tidy c s (⟨s1.storage, l.length + it.hint⟩ : EV c.W) := h2.trans (Tidy.of_data rfl)
    have el : len c s = l.length := hlen
    rw [el]
    refine runs_seq (extendHinted_holds hc it.panics it.hint it.items l _ hpre (by simp)) ?_ ?_
    · rintro e s' ⟨g1, g2, g3, g4, g5⟩
      exact ⟨ht2.trans g5, Or.inr (Or.inr ⟨g1, g2, g3, g4.num⟩)⟩
    · rintro rest s2 ⟨rfl, g2, g3, g4, g5⟩
      have hh2 : Holds c s2 (l ++ it.items.take it.hint) := g3.holds (by rw [g4.num]; simp; omega)
      have hl2 : (l ++ it.items.take it.hint).length = l.length + it.hint := by simp; omega
      refine (extendRest_holds hc it.panics (it.items.drop it.hint) _ s2 hh2).mono ?_ ?_
      · rintro _ s' ⟨b1, b2, b3, b4, b5, b6⟩
        have hcap2 : s2.storage.cap = s1.storage.cap := g4.cap
        refine ⟨b1, g2, by simpa using b2, (ht2.trans g5).trans b3, by omega, ?_, ?_⟩
        · intro hle
          have e1 : s1.storage.cap = s.storage.cap := by
            apply h6
            refine Nat.le_trans (Nat.add_le_add_right (Nat.div_le_div_right ?_) 1) hle
            omega
          rw [b5, hcap2, e1]
          rw [hl2, hcap2, e1]
          have e2 : l.length + it.hint + (it.items.drop it.hint).length = l.length + it.items.length := by
            simp; omega
          rw [e2]
          exact Nat.le_trans (blocks_le_div hc _) hle
        · intro he
          have hs' : s' = s2 := b6 (by rw [he]; simp)
          rw [hs', g4.len]
          show s1.storage.data.length = _
          rw [h3, hlen, he]
      · rintro e s' ⟨b0, b | ⟨b1, k, b2, b3, b4⟩⟩
        · exact ⟨(ht2.trans g5).trans b0, Or.inr (Or.inl ⟨b.1, b.2.1, g2, by simpa using b.2.2⟩)⟩
        · refine ⟨(ht2.trans g5).trans b0, Or.inl ⟨b1, b4.mono ?_, Or.inr ⟨?_, it.hint + k, ?_, by omega, ?_⟩⟩⟩
          · rw [hl2]
            refine Nat.le_trans (blocks_le_div hc _) (Nat.add_le_add_right (Nat.div_le_div_right ?_) 1)
            simp at b2; omega
          · simp at b2; omega
          · simp at b2; omega
          · rw [List.append_assoc] at b3
            have : it.items.take it.hint ++ (it.items.drop it.hint).take k = it.items.take (it.hint + k) := by
              rw [List.take_add]
            rw [this] at b3; exact b3

/-! ### extend_with_value -/

theorem spread_bits {W : Nat} (b d : Nat) (v : BitVec W) (i : Nat) (hbi : b ∣ i) (hi : 0 < i)
    (hv : ∀ p, p < W → v.getLsbD p = (decide (p < i) && d.testBit (p % b))) :
    ∀ p, p < W → (spread v i).getLsbD p = d.testBit (p % b) := by
  fun_induction spread v i with
  | case1 v i hif ih =>
    apply ih (Nat.dvd_trans hbi (Nat.dvd_mul_right i 2)) (by omega)
    intro p hp
    rw [BitVec.getLsbD_or, BitVec.getLsbD_shiftLeft, hv p hp]
    by_cases h1 : p < i
    · have h2 : p < i * 2 := by omega
      simp [h1, h2]
    · rw [hv (p - i) (by omega)]
      have hm : (p - i) % b = p % b := by
        obtain ⟨k, rfl⟩ := hbi
        conv => rhs; rw [show p = (p - b * k) + b * k by omega]
        rw [Nat.add_mul_mod_self_left]
      have h3 : (p - i < i) ↔ p < i * 2 := by omega
      simp [h1, hp, hm, h3]
  | case2 v i hif =>
    intro p hp
    rw [hv p hp]
    have : p < i := by omega
    simp [this]

theorem fld_spread (d j : Nat) (hd : d < 2 ^ c.bits) (hj : j < c.epb) :
    fld c.bits (spread (BitVec.ofNat c.W d) c.bits).toNat j = d := by
  have hbp := hc.bits_pos
  have hfit := hc.fld_fits hj
  apply Nat.eq_of_testBit_eq
  intro k
  rw [testBit_fld]
  by_cases hk : k < c.bits
  · rw [BitVec.testBit_toNat, spread_bits hc c.bits d _ _ (Nat.dvd_refl _) hbp ?_ _ (by omega)]
    · simp [hk, Nat.mod_eq_of_lt hk]
    · intro p hp
      rw [← BitVec.testBit_toNat, BitVec.toNat_ofNat, Nat.testBit_mod_two_pow]
      by_cases hpb : p < c.bits
      · simp [hp, hpb, Nat.mod_eq_of_lt hpb]
      · have : d.testBit p = false := Nat.testBit_lt_two_pow (Nat.lt_of_lt_of_le hd (Nat.pow_le_pow_right (by decide) (by omega)))
        simp [hpb, this]
  · have : d.testBit k = false := Nat.testBit_lt_two_pow (Nat.lt_of_lt_of_le hd (Nat.pow_le_pow_right (by decide) (by omega)))
    simp [hk, this]

theorem fillLoop (n : Nat) (v : BitVec c.W) {s : EV c.W} (h : Safe c s) (m : Nat) :
    Runs (loop (fillStep c n v) m 0 () s)
      (fun _ s' => Safe c s' ∧ s'.num = s.num ∧ s.storage.cap ≤ s'.storage.cap ∧
        s'.storage.data = s.storage.data ++ List.replicate (m * n) v)
      (fun e s' => e = .capacity ∧ Safe c s' ∧ s'.num = s.num ∧
        (∃ k, s'.storage.data = s.storage.data ++ List.replicate k v) ∧
        ∃ cap k, cap < k ∧ k ≤ s.storage.data.length + m * n ∧ c.alloc.grow cap k = none) := by
  have key := runs_loop (body := fillStep c n v) (stop := m)
    (E := fun e s' => e = .capacity ∧ Safe c s' ∧ s'.num = s.num ∧
        (∃ k, s'.storage.data = s.storage.data ++ List.replicate k v) ∧
        ∃ cap k, cap < k ∧ k ≤ s.storage.data.length + m * n ∧ c.alloc.grow cap k = none)
    (fun i _ s' => Safe c s' ∧ s'.num = s.num ∧ s.storage.cap ≤ s'.storage.cap ∧
        s'.storage.data = s.storage.data ++ List.replicate (i * n) v) ?_ m 0 () s (Nat.zero_add m)
    ⟨h, rfl, Nat.le_refl _, by simp⟩
  · exact key
  · rintro i _ s' hi ⟨h1, h2, h3, h4⟩
    unfold fillStep
    have hl : s'.storage.len = s'.storage.data.length := rfl
    rw [hl]
    have hlen : s'.storage.data.length = s.storage.data.length + i * n := by rw [h4]; simp
    have hin : (i + 1) * n ≤ m * n := Nat.mul_le_mul_right _ hi
    have hin' : (i + 1) * n = i * n + n := by rw [Nat.add_mul, Nat.one_mul]
    have hr := RVec.resize_res hc.lawful hc.bounded s'.storage (s'.storage.data.length + n) v h1.capLen
    cases hx : RVec.resize c.alloc s'.storage (s'.storage.data.length + n) v with
    | error e =>
      rw [hx] at hr
      exact ⟨hr.1, h1, h2, ⟨_, h4⟩, _, _, hr.2.1, by omega, hr.2.2⟩
    | ok st =>
      rw [hx] at hr
      obtain ⟨g1, g2, g3⟩ := hr
      have gd : st.data = s'.storage.data ++ List.replicate n v := by
        rw [g1, List.take_of_length_le (by omega)]; congr 2; omega
      refine ⟨⟨?_, g2.fits, g2.capBound h1.capBound⟩, h2, ?_, ?_⟩
      · show s'.num ≤ st.data.length * c.epb
        rw [gd, List.length_append, Nat.add_mul]
        have := h1.cover
        omega
      · have := g2.mono
        show s.storage.cap ≤ st.cap
        omega
      · show st.data = _
        rw [gd, h4, List.append_assoc, List.replicate_append_replicate, ← hin']

theorem Holds.of_append {s s' : EV c.W} {l : List α} (h : Holds c s l) (hs : Safe c s') (hn : s'.num = s.num)
    {e : List (BitVec c.W)} (hd : s'.storage.data = s.storage.data ++ e) : Holds c s' l := by
  refine h.of_blk hc hs hn fun j hj => ?_
  have hcov := h.cover
  have : j < s.storage.data.length := Nat.lt_of_mul_lt_mul_right (Nat.lt_of_lt_of_le hj hcov)
  unfold blk
  rw [hd, List.getElem?_append_left this]

omit hc in
theorem extend_repeat (hc : c.Ok) {s : EV c.W} {l : List α} (h : Holds c s l) (x : α) {n : Nat} (hn : n ≤ 4 * c.epb) :
    Runs (extend c (repeatTake x n) s)
      (fun _ s' => Holds c s' (l ++ List.replicate n x) ∧ Tidy c s s' ∧ s.storage.cap ≤ s'.storage.cap ∧
        ((l.length + n) / c.epb + 1 ≤ s.storage.cap → s'.storage.cap = s.storage.cap) ∧
        s'.storage.data.length = (l.length + n) / c.epb + 1)
      (fun e s' => e = .capacity ∧ s' = s ∧ Refused c ((l.length + n) / c.epb + 1)) := by
  refine (extend_holds hc (repeatTake x n) h (by rw [← h.len_eq]; exact h.toSafe.not_atLimit hc hn)).mono ?_ ?_
  · rintro _ s' ⟨-, -, h1, h2, h3, h4, h5⟩
    simp only [repeatTake, List.length_replicate] at h1 h4 h5
    exact ⟨h1, h2, h3, h4, h5 trivial⟩
  · rintro e s' ⟨h0, ⟨h1, h2, h3⟩ | ⟨-, h1, -⟩ | ⟨h1, -⟩⟩
    · simp only [repeatTake, List.length_replicate, Nat.max_self, Nat.lt_irrefl, false_and, or_false] at h2 h3
      exact ⟨h1, h3, h2⟩
    · simp [repeatTake] at h1
    · simp [repeatTake] at h1

omit hc in
/-- `extend_with_value` -/
theorem extendWithValue_holds (hc : c.Ok) {s : EV c.W} {l : List α} (h : Holds c s l) (x : α) (count : Nat) :
    Runs (extendWithValue c x count s)
      (fun _ s' => Holds c s' (l ++ List.replicate count x) ∧ (Valid c s → Valid c s') ∧
        (count ≤ 4 * c.epb → Tidy c s s') ∧ s.storage.cap ≤ s'.storage.cap ∧
        s'.storage.data.length = (l.length + count) / c.epb + 1 ∧
        (4 * c.epb < count → ((count - (c.epb - l.length % c.epb)) / c.epb) * ((count - (c.epb - l.length % c.epb)) / c.epb)
          ≤ s'.storage.cap))
      (fun e s' => e = .capacity ∧ (Valid c s → Valid c s') ∧ (count ≤ 4 * c.epb → Tidy c s s') ∧
        (∃ k, k ≤ count ∧ Holds c s' (l ++ List.replicate k x)) ∧
        (Refused c ((l.length + count) / c.epb + 1) ∨
          4 * c.epb < count ∧ ∃ cap k, cap < k ∧
            k ≤ (l.length + count) / c.epb + (count / c.epb) * (count / c.epb) ∧
            c.alloc.grow cap k = none)) := by
  have hep := hc.epb_pos
  have hlen := h.len_eq
  unfold extendWithValue
  by_cases hsmall : count ≤ 4 * c.epb
  · rw [if_pos hsmall]
    refine (extend_repeat hc h x hsmall).mono ?_ ?_
    · rintro _ s' ⟨h1, h2, h3, h4, h5⟩
      exact ⟨h1, h2.valid, fun _ => h2, h3, h5, fun hh => absurd hsmall (by omega)⟩
    · rintro e s' ⟨h1, rfl, h3⟩
      exact ⟨h1, id, fun _ => Tidy.refl _, ⟨0, Nat.zero_le _, by simpa using h⟩, Or.inl h3⟩
  · rw [if_neg hsmall, M.read_bind]
    have hl0 : len c s = l.length := hlen
    rw [hl0]
    have hm := Nat.mod_lt l.length hep
    generalize hf : c.epb - l.length % c.epb = first
    have hf1 : 0 < first := by omega
    have hf2 : first ≤ c.epb := by omega
    refine runs_seq (extend_repeat hc h x (n := first) (by omega)) ?_ ?_
    · rintro e s' ⟨h1, rfl, h3⟩
      refine ⟨h1, id, fun hh => absurd hh hsmall, ⟨0, Nat.zero_le _, by simpa using h⟩, Or.inl (h3.mono ?_)⟩
      exact Nat.add_le_add_right (Nat.div_le_div_right (by omega)) 1
    · rintro _ s1 ⟨h1, h2, h3, -, h5⟩
      rw [M.read_bind]
      obtain ⟨s2, g1, g2, g3, g4, g5, g6⟩ := fixStorage_holds hc h1
      rw [M.bind_ok g1, M.read_bind]
      generalize hcb : (count - first) / c.epb = cb
      generalize hlst : count - (first + cb * c.epb) = lst
      have hd1 := Nat.div_add_mod (count - first) c.epb
      have hd2 := Nat.mod_lt (count - first) hep
      rw [hcb, Nat.mul_comm] at hd1
      have hcb3 : 1 ≤ cb := by
        rw [← hcb]; exact (Nat.le_div_iff_mul_le hep).mpr (by omega)
      have hcbc : cb ≤ count / c.epb := by rw [← hcb]; exact Nat.div_le_div_right (by omega)
      have hcbsq : cb ≤ cb * cb := Nat.le_mul_of_pos_left _ hcb3
      have hsq : cb * cb ≤ (count / c.epb) * (count / c.epb) := Nat.mul_le_mul hcbc hcbc
      have hl1len : (l ++ List.replicate first x).length = l.length + first := by simp
      have hmod : (l.length + first) % c.epb = 0 := by
        have e : l.length + first = (l.length / c.epb + 1) * c.epb := by
          have := Nat.div_add_mod l.length c.epb
          rw [Nat.add_mul, Nat.one_mul, Nat.mul_comm]; omega
        rw [e]; exact Nat.mul_mod_left _ _
      have hlen2 : s2.storage.data.length = (l.length + first) / c.epb := by
        rw [g5, hl1len, blocks_of_dvd hc hmod]
      have hlen2' : s2.storage.data.length * c.epb = l.length + first := by
        rw [hlen2]; exact mod_zero_mul hc hmod
      have hcnt : (l.length + first) / c.epb + cb + (if lst > 0 then 1 else 0) ≤ (l.length + count) / c.epb + 1 := by
        rw [← hlen2]
        have : (s2.storage.data.length + cb) ≤ (l.length + count) / c.epb := by
          rw [Nat.le_div_iff_mul_le hep, Nat.add_mul, hlen2']; omega
        split <;> omega
      have hcnt' : s2.storage.data.length + cb ≤ (l.length + count) / c.epb := by
        rw [Nat.le_div_iff_mul_le hep, Nat.add_mul, hlen2']; omega
      have ht2 : Tidy c s s2 := h2.trans g3
      have hr := RVec.reserve_res hc.lawful hc.bounded s2.storage (cb + (if lst > 0 then 1 else 0)) g2.capLen
      cases hx : RVec.reserve c.alloc s2.storage (cb + (if lst > 0 then 1 else 0)) with
      | error e =>
        rw [hx] at hr
        rw [M.lift_error_bind]
        refine ⟨hr.1, ht2.valid, fun hh => absurd hh hsmall, ⟨first, by omega, g2⟩, Or.inl (refused_of hr.2.1 hr.2.2 ?_)⟩
        omega
      | ok st =>
        rw [hx] at hr
        obtain ⟨r1, r2, r3, -⟩ := hr
        rw [M.lift_ok_bind, M.write_bind]
        have hs3 : Safe c (⟨st, s2.num⟩ : EV c.W) :=
          ⟨by show s2.num ≤ st.data.length * c.epb; rw [r1]; exact g2.cover, r3.fits, r3.capBound g2.capBound⟩
        have hh3 : Holds c (⟨st, s2.num⟩ : EV c.W) (l ++ List.replicate first x) :=
          g2.of_blk hc hs3 rfl (fun j _ => blk_congr r1 j)
        have ht3 : Tidy c s (⟨st, s2.num⟩ : EV c.W) := ht2.trans (Tidy.of_data r1)
        generalize hv : spread (BitVec.ofNat c.W (c.E.toDiscr x)) c.bits = v
        have hvf : ∀ j, j < c.epb → fld c.bits v.toNat j = c.E.toDiscr x := fun j hj => by
          rw [← hv]; exact fld_spread hc _ j (hc.toDiscr_lt x) hj
        -- appended fill blocks keep validity
        have hvalid : ∀ (s' : EV c.W) k, Valid c s → s'.storage.data = st.data ++ List.replicate k v → Valid c s' := by
          intro s' k hval hd i
          unfold raw blk
          rw [hd, List.getElem?_append]
          split
          · have := ht3.valid hval i
            unfold raw blk at this
            exact this
          · rw [List.getElem?_replicate]
            split
            · simp only [Option.getD_some]
              rw [hvf _ (Nat.mod_lt _ hep)]; exact hc.contract.lt x
            · simp only [Option.getD_none]
              show fld c.bits (0 : BitVec c.W).toNat _ < _
              rw [show (0 : BitVec c.W).toNat = 0 from rfl, fld_zero]; exact E_pos hc
        have hstlen : st.data.length = s2.storage.data.length := by rw [r1]
        refine runs_seq (fillLoop hc cb v hs3 cb) ?_ ?_
        · rintro e s' ⟨b1, b2, b3, ⟨k, b4⟩, cap, k', b5, b6, b7⟩
          refine ⟨b1, fun hval => hvalid s' k hval b4, fun hh => absurd hh hsmall,
            ⟨first, by omega, hh3.of_append hc b2 b3 b4⟩, Or.inr ⟨by omega, cap, k', b5, ?_, b7⟩⟩
          have e : (⟨st, s2.num⟩ : EV c.W).storage.data.length = st.data.length := rfl
          rw [e] at b6
          omega
        · rintro _ s4 ⟨b1, b2, b3, b4⟩
          have b4' : s4.storage.data = st.data ++ List.replicate (cb * cb) v := b4
          have hlen4 : s4.storage.data.length = st.data.length + cb * cb := by rw [b4']; simp
          have hnum1 : len c s1 = l.length + first := by show s1.num = _; rw [h1.len_eq, hl1len]
          have hcov4 : l.length + first + cb * c.epb ≤ s4.storage.data.length * c.epb := by
            rw [hlen4, hstlen, Nat.add_mul, hlen2']
            have : cb * c.epb ≤ cb * cb * c.epb := Nat.mul_le_mul_right _ hcbsq
            omega
          have hroom := b1.dataRoom hc
          have hadd : uAdd c.build (len c s1) (cb * c.epb) = .ok (l.length + first + cb * c.epb) := by
            unfold uAdd
            rw [hnum1, if_pos (by omega)]
          rw [hadd, M.lift_ok_bind]
          have hset : setLen c (l.length + first + cb * c.epb) s4 =
            (.ok (), ⟨s4.storage, l.length + first + cb * c.epb⟩) := rfl
          rw [M.bind_ok hset]
          have hs5 : Safe c (⟨s4.storage, l.length + first + cb * c.epb⟩ : EV c.W) :=
            ⟨hcov4, b1.capLen, b1.capBound⟩
          have hh5 : Holds c (⟨s4.storage, l.length + first + cb * c.epb⟩ : EV c.W)
              (l ++ List.replicate (first + cb * c.epb) x) := by
            refine ⟨hs5, by simp; omega, ?_⟩
            intro i hi
            have hi' : i < l.length + first + cb * c.epb := by simp at hi; omega
            by_cases hcase : i < l.length + first
            · have := (hh3.of_append hc b1 b2 b4).elems i (by simpa using hcase)
              have e1 : raw c (⟨s4.storage, l.length + first + cb * c.epb⟩ : EV c.W) i = raw c s4 i := raw_congr rfl i
              rw [e1, this]
              congr 1
              by_cases hil : i < l.length
              · rw [List.getElem_append_left hil, List.getElem_append_left hil]
              · rw [List.getElem_append_right (by omega), List.getElem_append_right (by omega)]
                simp
            · have hblk : i / c.epb < st.data.length + cb * cb := by
                rw [← hlen4]; exact (Nat.div_lt_iff_lt_mul hep).mpr (by omega)
              have hblk' : ¬ i / c.epb < st.data.length := by
                rw [Nat.div_lt_iff_lt_mul hep, hstlen, hlen2']; exact hcase
              have e2 : raw c (⟨s4.storage, l.length + first + cb * c.epb⟩ : EV c.W) i = c.E.toDiscr x := by
                unfold raw blk
                show fld c.bits (s4.storage.data[i / c.epb]?.getD 0).toNat _ = _
                rw [b4', List.getElem?_append_right (by omega), List.getElem?_replicate, if_pos (by omega)]
                exact hvf _ (Nat.mod_lt _ hep)
              rw [e2]
              congr 1
              rw [List.getElem_append_right (by omega)]
              simp
          have hv5 : Valid c s → Valid c (⟨s4.storage, l.length + first + cb * c.epb⟩ : EV c.W) :=
            fun hval => hvalid _ _ hval b4'
          have hl5 : (l ++ List.replicate (first + cb * c.epb) x).length + lst = l.length + count := by
            simp; omega
          refine (extend_repeat hc hh5 x (n := lst) (by omega)).mono ?_ ?_
          · rintro _ s' ⟨d1, d2, d3, -, d5⟩
            rw [List.append_assoc, List.replicate_append_replicate] at d1
            have e : first + cb * c.epb + lst = count := by omega
            rw [e] at d1
            refine ⟨d1, fun hval => d2.valid (hv5 hval), fun hh => absurd hh hsmall, ?_, by rw [d5, hl5], fun _ => ?_⟩
            rotate_left
            · have e4 := b1.capLen
              have e3 : s4.storage.cap ≤ s'.storage.cap := d3
              omega
            have e1 : s2.storage.cap ≤ st.cap := r3.mono
            have e2 : st.cap ≤ s4.storage.cap := b3
            have e3 : s4.storage.cap ≤ s'.storage.cap := d3
            omega
          · rintro e s' ⟨d1, rfl, d3⟩
            rw [hl5] at d3
            exact ⟨d1, hv5, fun hh => absurd hh hsmall, ⟨first + cb * c.epb, by omega, hh5⟩, Or.inl d3⟩

end
end EnumVecModel
