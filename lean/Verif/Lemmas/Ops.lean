import Verif.Lemmas.Inv

set_option linter.unusedSectionVars false

/-! # Lemmas about the storage vector and the simple operations -/

namespace EnumVecModel
open EV

variable {α : Type}

/-! ### `RVec` -/

@[simp] theorem res_ok {β : Type} (a : β) (Q : β → Prop) (E : Fault → Prop) : Res (.ok a) Q E ↔ Q a := Iff.rfl
@[simp] theorem res_error {β : Type} (e : Fault) (Q : β → Prop) (E : Fault → Prop) :
    Res (.error e) Q E ↔ E e := Iff.rfl

theorem Res.mono {β : Type} {r : Except Fault β} {Q Q' : β → Prop} {E E' : Fault → Prop} (h : Res r Q E)
    (hQ : ∀ a, Q a → Q' a) (hE : ∀ e, E e → E' e) : Res r Q' E' := by
  cases r with
  | ok a => exact hQ a h
  | error e => exact hE e h

/-- The new capacity is sound. -/
structure CapStep {W : Nat} (B : Build) (n : Nat) (v v' : RVec W) : Prop where
  fits : v'.data.length ≤ v'.cap
  mono : v.cap ≤ v'.cap
  bound : v'.cap = v.cap ∨ (v'.cap + 1) * n + 4 < B.usizeLim

theorem RVec.reserve_res {a : Alloc} {W b : Nat} {B : Build} (hl : a.Lawful) (hb : a.Bounded B b) (v : RVec W) (k : Nat)
    (hv : v.data.length ≤ v.cap) :
    Res (RVec.reserve a v k)
      (fun v' => v'.data = v.data ∧ v.data.length + k ≤ v'.cap ∧ CapStep B b v v' ∧
        (v.data.length + k ≤ v.cap → v' = v))
      (fun e => e = .capacity ∧ v.cap < v.data.length + k ∧ a.grow v.cap (v.data.length + k) = none) := by
  unfold RVec.reserve RVec.len
  split
  · next h => exact ⟨rfl, h, ⟨hv, Nat.le_refl _, Or.inl rfl⟩, fun _ => rfl⟩
  · next h =>
    split
    · next k' hk =>
      have := hl.grow_ge _ _ _ hk
      exact ⟨rfl, this, ⟨by simp; omega, by simp; omega, Or.inr (hb.grow _ _ _ hk)⟩, fun h' => absurd h' h⟩
    · next hk => exact ⟨rfl, by omega, hk⟩

theorem RVec.push_res {a : Alloc} {W b : Nat} {B : Build} (hl : a.Lawful) (hb : a.Bounded B b) (v : RVec W) (x : BitVec W)
    (hv : v.data.length ≤ v.cap) :
    Res (RVec.push a v x)
      (fun v' => v'.data = v.data ++ [x] ∧ CapStep B b v v' ∧ (v.data.length + 1 ≤ v.cap → v'.cap = v.cap))
      (fun e => e = .capacity ∧ v.cap < v.data.length + 1 ∧ a.grow v.cap (v.data.length + 1) = none) := by
  unfold RVec.push
  have h := RVec.reserve_res hl hb v 1 hv
  cases hr : RVec.reserve a v 1 with
  | ok v' =>
    rw [hr] at h
    obtain ⟨h1, h2, h3, h4⟩ := h
    exact ⟨by simp [h1], ⟨by simp [h1]; exact h2, h3.mono, h3.bound⟩, fun hh => by simp [h4 hh]⟩
  | error e => rw [hr] at h; exact h

theorem RVec.extend_res {a : Alloc} {W b : Nat} {B : Build} (hl : a.Lawful) (hb : a.Bounded B b) (v : RVec W)
    (xs : List (BitVec W)) (hv : v.data.length ≤ v.cap) :
    Res (RVec.extendFromSlice a v xs)
      (fun v' => v'.data = v.data ++ xs ∧ CapStep B b v v' ∧ (v.data.length + xs.length ≤ v.cap → v'.cap = v.cap))
      (fun e => e = .capacity ∧ v.cap < v.data.length + xs.length ∧
        a.grow v.cap (v.data.length + xs.length) = none) := by
  unfold RVec.extendFromSlice
  have h := RVec.reserve_res hl hb v xs.length hv
  cases hr : RVec.reserve a v xs.length with
  | ok v' =>
    rw [hr] at h
    obtain ⟨h1, h2, h3, h4⟩ := h
    exact ⟨by simp [h1], ⟨by simp [h1]; exact h2, h3.mono, h3.bound⟩, fun hh => by simp [h4 hh]⟩
  | error e => rw [hr] at h; exact h

theorem RVec.resize_res {a : Alloc} {W b : Nat} {B : Build} (hl : a.Lawful) (hb : a.Bounded B b) (v : RVec W) (n : Nat)
    (x : BitVec W) (hv : v.data.length ≤ v.cap) :
    Res (RVec.resize a v n x)
      (fun v' => v'.data = v.data.take n ++ List.replicate (n - v.data.length) x ∧ CapStep B b v v' ∧
        (n ≤ v.cap → v'.cap = v.cap))
      (fun e => e = .capacity ∧ v.cap < n ∧ a.grow v.cap n = none) := by
  unfold RVec.resize RVec.len
  split
  · next h =>
    refine ⟨by simp [RVec.truncate, Nat.sub_eq_zero_of_le h], ⟨?_, Nat.le_refl _, Or.inl rfl⟩, fun _ => rfl⟩
    simp only [RVec.truncate, List.length_take]; omega
  · next h =>
    have h' := RVec.reserve_res hl hb v (n - v.data.length) hv
    cases hr : RVec.reserve a v (n - v.data.length) with
    | ok v' =>
      rw [hr] at h'
      obtain ⟨h1, h2, h3, h4⟩ := h'
      refine ⟨?_, ⟨?_, h3.mono, h3.bound⟩, fun hh => ?_⟩
      · simp [h1, List.take_of_length_le (by omega : v.data.length ≤ n)]
      · simp [h1]; omega
      · have := h4 (by omega); simp [this]
    | error e =>
      rw [hr] at h'
      obtain ⟨h1, h2, h3⟩ := h'
      have e1 : v.data.length + (n - v.data.length) = n := by omega
      rw [e1] at h2 h3
      exact ⟨h1, h2, h3⟩

theorem CapStep.capBound {W b : Nat} {B : Build} {v v' : RVec W} (h : CapStep B b v v') (hv : (v.cap + 1) * b + 4 < B.usizeLim) :
    (v'.cap + 1) * b + 4 < B.usizeLim := by
  rcases h.bound with e | e
  · rw [e]; exact hv
  · exact e

theorem refused_of {c : Inst α} {cap k n : Nat} (h1 : cap < k) (h : c.alloc.grow cap k = none) (hk : k ≤ n) :
    Refused c n := Or.inr ⟨cap, k, h1, hk, h⟩

theorem Refused.mono {c : Inst α} {m n : Nat} (h : Refused c m) (hmn : m ≤ n) : Refused c n := by
  rcases h with h | ⟨cap, k, h0, h1, h2⟩
  · exact Or.inl (Nat.le_trans h (Nat.mul_le_mul_right _ hmn))
  · exact Or.inr ⟨cap, k, h0, Nat.le_trans h1 hmn, h2⟩

/-- Block contents after `resize(n, 0)`. -/
theorem blk_resize {W : Nat} (d : List (BitVec W)) (cap cap' m m' n j : Nat) :
    blk (⟨⟨d.take n ++ List.replicate (n - d.length) 0, cap'⟩, m'⟩ : EV W) j =
      if j < n then blk (⟨⟨d, cap⟩, m⟩ : EV W) j else 0 := by
  unfold blk
  simp only [List.getElem?_append, List.length_take, List.getElem?_take, List.getElem?_replicate]
  by_cases h1 : j < n
  · by_cases h2 : j < d.length
    · have h3 : j < min n d.length := by omega
      simp [h1, h3]
    · have h3 : ¬ j < min n d.length := by omega
      rw [if_neg h3, if_pos h1, List.getElem?_eq_none (by omega : d.length ≤ j)]
      split <;> rfl
  · have h3 : ¬ j < min n d.length := by omega
    have h4 : ¬ j - min n d.length < n - d.length := by omega
    rw [if_neg h3, if_neg h4, if_neg h1]; rfl

section
variable {c : Inst α} {strict : Prop} (hc : c.Fits strict)
include hc

theorem mul_epb_lt {i n : Nat} (h : i < n) : i / c.epb * c.epb < n :=
  Nat.lt_of_le_of_lt (Nat.div_mul_le_self _ _) h

/-- Changing the storage without touching the used blocks keeps the contents. -/
theorem Holds.of_blk {s s' : EV c.W} {l : List α} (h : Holds c s l) (hs : Safe c s') (hn : s'.num = s.num)
    (he : ∀ j, j * c.epb < s.num → blk s' j = blk s j) :
    Holds c s' l where
  toSafe := hs
  len_eq := by rw [hn, h.len_eq]
  elems := fun i hi => by
    have hi' : i < s.num := by rw [h.len_eq]; exact hi
    have := h.elems i hi
    unfold raw at this ⊢
    rw [he _ (mul_epb_lt hc hi'), this]

theorem Tidy.of_blk {s s' : EV c.W} (hb : ∀ j, blk s' j = blk s j ∨ blk s' j = 0) : Tidy c s s' := by
  constructor
  · intro j
    unfold EnumVecModel.waste
    rcases hb j with e | e
    · rw [e]; exact Or.inl rfl
    · rw [e, fld_zero]; exact Or.inr rfl
  · intro hv i
    unfold raw
    rcases hb (i / c.epb) with e | e
    · rw [e]; exact hv i
    · rw [e, fld_zero]; exact E_pos hc

/-! ### reserve -/

/-- The sum in `reserve` does not overflow. -/
theorem reserve_sum {n : Nat} (h : n < c.build.usizeLim) (hw : ¬ c.AtLimit n) : uAdd c.build (n / c.epb) 1 = .ok (n / c.epb + 1) := by
  have hu := c.build.lt_usizeLim (n := 3) (by omega)
  unfold uAdd
  rw [if_pos]
  rcases Nat.lt_or_ge 1 c.epb with h1 | h1
  · have : n / c.epb ≤ n / 2 := Nat.div_le_div_left h1 (by omega)
    omega
  · have h1 : c.epb = 1 := Nat.le_antisymm h1 hc.epb_pos
    rw [h1, Nat.div_one]
    have : n + 1 ≠ c.build.usizeLim := fun e => hw ⟨h1, e⟩
    omega

omit hc in
/-- `reserve` at the limit: the sum overflows. A debug build panics, a release build drops all blocks. -/
theorem reserve_limit {s : EV c.W} {k : Nat} (hw : c.AtLimit (s.num + k)) :
    reserve c k s = if c.build.checked then (.error .overflow, s) else (.ok (), { s with storage := s.storage.truncate 0 }) := by
  obtain ⟨h1, h2⟩ := hw
  unfold reserve
  rw [if_pos (show len c s + k < c.build.usizeLim by show s.num + k < _; omega)]
  simp only [len, h1, Nat.div_one]
  unfold uAdd
  rw [if_neg (by omega), h2, Nat.mod_self]
  cases c.build.checked
  · simp only [Bool.false_eq_true, if_false]
    unfold RVec.resize
    rw [if_pos (Nat.zero_le _)]
  · simp only [if_true]

theorem reserve_safe {s : EV c.W} (h : Safe c s) {k : Nat} (hw : ¬ c.AtLimit (s.num + k)) :
    Runs (reserve c k s)
      (fun _ s' => Safe c s' ∧ s'.num = s.num ∧ s'.storage.data.length = (s.num + k) / c.epb + 1 ∧
        s.num + k < c.build.usizeLim ∧
        s.storage.cap ≤ s'.storage.cap ∧ ((s.num + k) / c.epb + 1 ≤ s.storage.cap → s'.storage.cap = s.storage.cap) ∧
        (∀ j, blk s' j = if j < (s.num + k) / c.epb + 1 then blk s j else 0))
      (fun e s' => e = .capacity ∧ s' = s ∧ Refused c ((s.num + k) / c.epb + 1)) := by
  unfold reserve
  by_cases hlt : s.num + k < c.build.usizeLim
  · rw [if_pos (show len c s + k < c.build.usizeLim from hlt)]
    simp only [len, reserve_sum hc hlt hw]
    have hr := RVec.resize_res hc.lawful hc.bounded s.storage ((s.num + k) / c.epb + 1) 0 h.capLen
    cases hx : RVec.resize c.alloc s.storage ((s.num + k) / c.epb + 1) 0 with
    | error e =>
      rw [hx] at hr
      exact ⟨hr.1, rfl, refused_of hr.2.1 hr.2.2 (Nat.le_refl _)⟩
    | ok st =>
      rw [hx] at hr
      obtain ⟨h1, h2, h3⟩ := hr
      have hlen : st.data.length = (s.num + k) / c.epb + 1 := by
        rw [h1]; simp only [List.length_append, List.length_take, List.length_replicate]; omega
      refine ⟨⟨?_, h2.fits, h2.capBound h.capBound⟩, rfl, hlen, hlt, h2.mono, h3, ?_⟩
      · show s.num ≤ st.data.length * c.epb
        rw [hlen, Nat.add_mul, Nat.one_mul]
        have h4 := Nat.div_add_mod (s.num + k) c.epb
        have h5 := Nat.mod_lt (s.num + k) hc.epb_pos
        rw [Nat.mul_comm]; omega
      · intro j
        have := blk_resize s.storage.data s.storage.cap st.cap s.num s.num ((s.num + k) / c.epb + 1) j
        rw [← h1] at this
        exact this
  · rw [if_neg (show ¬ len c s + k < c.build.usizeLim from hlt)]
    refine ⟨rfl, rfl, Or.inl ?_⟩
    have h4 := Nat.div_add_mod (s.num + k) c.epb
    have h5 := Nat.mod_lt (s.num + k) hc.epb_pos
    rw [Nat.add_mul, Nat.one_mul, Nat.mul_comm]; omega

theorem reserve_holds {s : EV c.W} {l : List α} (h : Holds c s l) {k : Nat} (hw : ¬ c.AtLimit (l.length + k)) :
    Runs (reserve c k s)
      (fun _ s' => Holds c s' l ∧ Tidy c s s' ∧ s'.storage.data.length = (s.num + k) / c.epb + 1 ∧
        s.num + k < c.build.usizeLim ∧ s.storage.cap ≤ s'.storage.cap ∧
        ((s.num + k) / c.epb + 1 ≤ s.storage.cap → s'.storage.cap = s.storage.cap))
      (fun e s' => e = .capacity ∧ s' = s ∧ Refused c ((s.num + k) / c.epb + 1)) := by
  refine (reserve_safe hc h.toSafe (by rw [h.len_eq]; exact hw)).mono ?_ (fun _ _ h => h)
  rintro _ s' ⟨h1, h2, h3, h4, h5, h6, h7⟩
  have hb : ∀ j, blk s' j = blk s j ∨ blk s' j = 0 := fun j => by
    rw [h7]; split
    · exact Or.inl rfl
    · exact Or.inr rfl
  refine ⟨h.of_blk hc h1 h2 ?_, Tidy.of_blk hc hb, h3, h4, h5, h6⟩
  intro j hj
  rw [h7, if_pos]
  have : j ≤ (s.num + k) / c.epb := (Nat.le_div_iff_mul_le hc.epb_pos).mpr (by omega)
  omega

/-! ### fix_storage, shrink_to_fit -/

/-- State after `fix_storage`. -/
theorem fixStorage_safe {s : EV c.W} (h : Safe c s) :
    ∃ s', fixStorage c s = (.ok (), s') ∧ Safe c s' ∧ s'.num = s.num ∧ s'.storage.cap = s.storage.cap ∧
      s'.storage.data.length = c.blocks s.num ∧
      (∀ j, blk s' j = if j < c.blocks s.num then blk s j else 0) := by
  have hle := h.blocks_le hc
  have hlen : (s.storage.data.take (c.blocks s.num)).length = c.blocks s.num := by
    rw [List.length_take]; omega
  refine ⟨_, rfl, ?_, rfl, rfl, ?_, ?_⟩
  · refine ⟨?_, ?_, h.capBound⟩
    · simp only [len, RVec.truncate, h.blocks_eq hc, hlen]
      exact blocks_mul hc _
    · simp only [len, RVec.truncate, h.blocks_eq hc, hlen]
      have := h.capLen; omega
  · simp only [len, RVec.truncate, h.blocks_eq hc, hlen]
  · intro j
    simp only [len, RVec.truncate, h.blocks_eq hc]
    exact blk_take s.storage.data s.storage.cap s.num _ j

theorem lt_blocks_of {n j : Nat} (h : j * c.epb < n) : j < c.blocks n := by
  rw [← Nat.not_le, blocks_le_iff hc]; omega

theorem fixStorage_holds {s : EV c.W} {l : List α} (h : Holds c s l) :
    ∃ s', fixStorage c s = (.ok (), s') ∧ Holds c s' l ∧ Tidy c s s' ∧ s'.storage.cap = s.storage.cap ∧
      s'.storage.data.length = c.blocks l.length ∧ s'.num = s.num := by
  obtain ⟨s', h1, h2, h3, h4, h5, h6⟩ := fixStorage_safe hc h.toSafe
  have hb : ∀ j, blk s' j = blk s j ∨ blk s' j = 0 := fun j => by
    rw [h6]; split
    · exact Or.inl rfl
    · exact Or.inr rfl
  refine ⟨s', h1, h.of_blk hc h2 h3 ?_, Tidy.of_blk hc hb, h4, by rw [h5, h.len_eq], h3⟩
  intro j hj
  rw [h6, if_pos (lt_blocks_of hc hj)]

theorem shrinkToFit_safe {s : EV c.W} (h : Safe c s) :
    ∃ s', shrinkToFit c s = (.ok (), s') ∧ Safe c s' ∧ s'.num = s.num ∧ s'.storage.cap ≤ s.storage.cap ∧
      s'.storage.data.length = c.blocks s.num ∧
      s'.storage.cap = c.alloc.shrinkTo s.storage.cap (c.blocks s.num) ∧
      (∀ j, blk s' j = if j < c.blocks s.num then blk s j else 0) := by
  obtain ⟨s1, h1, h2, h3, h4, h5, h6⟩ := fixStorage_safe hc h
  have hb := hc.bounded.shrink _ _ h2.capLen
  have hl := hc.lawful.shrink_ge _ _ h2.capLen
  refine ⟨{ s1 with storage := s1.storage.shrinkToFit c.alloc }, ?_, ⟨h2.cover, ?_, ?_⟩, h3, ?_, h5, ?_, ?_⟩
  · unfold shrinkToFit
    rw [M.bind_ok h1, M.read_bind]; rfl
  · simpa [RVec.shrinkToFit, RVec.len] using hl
  · refine Nat.lt_of_le_of_lt (Nat.add_le_add_right (Nat.mul_le_mul_right _ (Nat.add_le_add_right ?_ 1)) 4) h2.capBound
    simpa [RVec.shrinkToFit, RVec.len] using hb
  · simp only [RVec.shrinkToFit, RVec.len]
    rw [← h4]; exact hb
  · simp only [RVec.shrinkToFit, RVec.len, h4, h5]
  · intro j
    rw [← h6 j]; rfl

theorem shrinkToFit_holds {s : EV c.W} {l : List α} (h : Holds c s l) :
    ∃ s', shrinkToFit c s = (.ok (), s') ∧ Holds c s' l ∧ Tidy c s s' ∧ s'.storage.cap ≤ s.storage.cap ∧
      s'.storage.data.length = c.blocks l.length ∧
      s'.storage.cap = c.alloc.shrinkTo s.storage.cap (c.blocks l.length) := by
  obtain ⟨s', h1, h2, h3, h4, h5, h7, h6⟩ := shrinkToFit_safe hc h.toSafe
  have hb : ∀ j, blk s' j = blk s j ∨ blk s' j = 0 := fun j => by
    rw [h6]; split
    · exact Or.inl rfl
    · exact Or.inr rfl
  refine ⟨s', h1, h.of_blk hc h2 h3 ?_, Tidy.of_blk hc hb, h4, by rw [h5, h.len_eq], by rw [h7, h.len_eq]⟩
  intro j hj
  rw [h6, if_pos (lt_blocks_of hc hj)]

/-! ### set_len, truncate, clear -/

theorem truncate_eq (s : EV c.W) (n : Nat) :
    truncate c n s = (.ok (), { s with num := min n s.num }) := by
  unfold truncate
  rw [M.read_bind]
  split
  · next h => rw [Nat.min_eq_left (by omega)]; rfl
  · next h => rw [Nat.min_eq_right (by omega)]; rfl

theorem Safe.setNum {s : EV c.W} (h : Safe c s) {n : Nat} (hn : n ≤ s.num) : Safe c { s with num := n } :=
  ⟨Nat.le_trans hn h.cover, h.capLen, h.capBound⟩

theorem Holds.take {s : EV c.W} {l : List α} (h : Holds c s l) (n : Nat) :
    Holds c { s with num := min n s.num } (l.take n) where
  toSafe := h.toSafe.setNum hc (Nat.min_le_right _ _)
  len_eq := by simp [h.len_eq]
  elems := fun i hi => by
    simp only [List.getElem_take]
    exact h.elems i (by simp at hi; omega)

/-! ### push, pop -/

theorem growIfNeeded_safe {s : EV c.W} (h : Safe c s) :
    Runs (growIfNeeded c s)
      (fun _ s' => Safe c s' ∧ s'.num = s.num ∧ s.num + 1 ≤ s'.storage.data.length * c.epb ∧
        s.storage.cap ≤ s'.storage.cap ∧ (c.blocks (s.num + 1) ≤ s.storage.cap → s'.storage.cap = s.storage.cap) ∧
        ∀ j, blk s' j = blk s j)
      (fun e s' => e = .capacity ∧ s' = s ∧ Refused c (c.blocks (s.num + 1))) := by
  have hep := hc.epb_pos
  unfold growIfNeeded
  simp only [len, h.blocks_eq hc]
  split
  · next hif =>
    obtain ⟨hm, hl⟩ := hif
    have hd := blocks_of_dvd hc hm
    have hdm := Nat.div_add_mod s.num c.epb
    have hl' : s.num / c.epb = s.storage.data.length := by rw [← hd]; exact hl
    have hb1 : c.blocks (s.num + 1) = s.storage.data.length + 1 := by
      apply Nat.le_antisymm
      · rw [blocks_le_iff hc, Nat.add_mul, ← hl', Nat.mul_comm]; omega
      · have := lt_blocks_of hc (n := s.num + 1) (j := s.storage.data.length) (by
          rw [← hl', Nat.mul_comm]; omega)
        omega
    have hr := RVec.push_res hc.lawful hc.bounded s.storage 0 h.capLen
    cases hx : RVec.push c.alloc s.storage 0 with
    | error e =>
      rw [hx] at hr
      exact ⟨hr.1, rfl, refused_of hr.2.1 hr.2.2 (by omega)⟩
    | ok st =>
      rw [hx] at hr
      obtain ⟨h1, h2, h3⟩ := hr
      have hlen : st.data.length = s.storage.data.length + 1 := by rw [h1]; simp
      have hcov : s.num + 1 ≤ st.data.length * c.epb := by
        rw [hlen, Nat.add_mul, ← hl', Nat.mul_comm]; omega
      refine ⟨⟨Nat.le_trans (Nat.le_succ _) hcov, h2.fits, h2.capBound h.capBound⟩, rfl, hcov, h2.mono, ?_, ?_⟩
      · intro hle; exact h3 (by omega)
      · intro j
        unfold blk
        simp only [h1, List.getElem?_append]
        split
        · rfl
        · next hj =>
          rw [List.getElem?_eq_none (by omega : s.storage.data.length ≤ j)]
          by_cases hj' : j - s.storage.data.length = 0
          · simp [hj']
          · rw [List.getElem?_eq_none]; simp; omega
  · next hif =>
    refine ⟨h, rfl, ?_, Nat.le_refl _, fun _ => rfl, fun _ => rfl⟩
    have hcov := h.cover
    rcases Nat.lt_or_ge s.num (s.storage.data.length * c.epb) with hlt | hge
    · omega
    · exfalso
      have he : s.num = s.storage.data.length * c.epb := by omega
      apply hif
      have hm : s.num % c.epb = 0 := by rw [he]; exact Nat.mul_mod_left _ _
      refine ⟨hm, ?_⟩
      rw [blocks_of_dvd hc hm, he, Nat.mul_div_cancel _ hep]; rfl

theorem Holds.of_blk_eq {s s' : EV c.W} {l : List α} (h : Holds c s l) (hs : Safe c s') (hn : s'.num = s.num)
    (hb : ∀ j, blk s' j = blk s j) : Holds c s' l :=
  h.of_blk hc hs hn (fun j _ => hb j)

/-- The raw effect of `push`, for every good state and every implementation of `to_discr`. -/
theorem push_any {s : EV c.W} (h : Safe c s) (x : α) :
    Runs (push c x s)
      (fun _ s' => Safe c s' ∧ s'.num = s.num + 1 ∧ s.num + 1 < c.build.usizeLim ∧
        s.storage.cap ≤ s'.storage.cap ∧ (c.blocks (s.num + 1) ≤ s.storage.cap → s'.storage.cap = s.storage.cap) ∧
        (c.E.toDiscr x < 2 ^ c.bits →
          (∀ i, raw c s' i = if i = s.num then c.E.toDiscr x else raw c s i) ∧ ∀ j, waste c s' j = waste c s j))
      (fun e s' => e = .capacity ∧ s' = s ∧ Refused c (c.blocks (s.num + 1))) := by
  unfold push
  refine runs_seq (growIfNeeded_safe hc h) (fun _ _ h => h) ?_
  rintro _ s1 ⟨h1, h2, h3, h4, h5, h6⟩
  rw [M.read_bind]
  have hroom := h1.dataRoom hc
  have hep := hc.epb_pos
  have hlt : s1.num + 1 < c.build.usizeLim := by omega
  simp only [hlt, if_true]
  rw [M.write_bind]
  have hs : Safe c (⟨s1.storage, s1.num + 1⟩ : EV c.W) := ⟨by simpa [h2] using h3, h1.capLen, h1.capBound⟩
  have hset : EV.set c s1.num x (⟨s1.storage, s1.num + 1⟩ : EV c.W) = _ :=
    setRaw_lt hc hs (c.E.toDiscr x) (Nat.lt_succ_self _)
  rw [hset]
  have hi : s1.num < (⟨s1.storage, s1.num + 1⟩ : EV c.W).storage.data.length * c.epb := by
    show s1.num < s1.storage.data.length * c.epb; omega
  refine ⟨putRaw_safe hc hs _ _, by simp [h2], by omega, by simpa using h4, by simpa using h5, fun hx => ⟨?_, ?_⟩⟩
  · intro i
    rw [raw_putRaw hc _ i hi hx, h2]
    split
    · rfl
    · have e : blk (⟨s1.storage, s1.num + 1⟩ : EV c.W) (i / c.epb) = blk s (i / c.epb) := h6 _
      unfold raw; rw [← e, h2]
  · intro j
    rw [waste_putRaw hc _ j hi hx]
    have e : blk (⟨s1.storage, s1.num + 1⟩ : EV c.W) j = blk s j := h6 _
    unfold waste; rw [← e]

omit hc in
/-- The raw effect of `push`, for every good state. -/
theorem push_raw (hc : c.Ok) {s : EV c.W} (h : Safe c s) (x : α) :
    Runs (push c x s)
      (fun _ s' => Safe c s' ∧ s'.num = s.num + 1 ∧ s.num + 1 < c.build.usizeLim ∧
        s.storage.cap ≤ s'.storage.cap ∧ (c.blocks (s.num + 1) ≤ s.storage.cap → s'.storage.cap = s.storage.cap) ∧
        (∀ i, raw c s' i = if i = s.num then c.E.toDiscr x else raw c s i) ∧ ∀ j, waste c s' j = waste c s j)
      (fun e s' => e = .capacity ∧ s' = s ∧ Refused c (c.blocks (s.num + 1))) :=
  (push_any hc h x).mono (fun _ _ ⟨h1, h2, h3, h4, h5, h6⟩ => ⟨h1, h2, h3, h4, h5, h6 (hc.toDiscr_lt x)⟩)
    (fun _ _ h => h)

/-- Appending one value in the raw view. -/
theorem Holds.snoc {s s' : EV c.W} {l : List α} (h : Holds c s l) (x : α) (hs : Safe c s')
    (hn : s'.num = s.num + 1)
    (hr : ∀ i, raw c s' i = if i = s.num then c.E.toDiscr x else raw c s i) : Holds c s' (l ++ [x]) where
  toSafe := hs
  len_eq := by simp [hn, h.len_eq]
  elems := fun i hi => by
    rw [hr, h.len_eq, List.getElem_append]
    by_cases e : i = l.length
    · simp [e]
    · have : i < l.length := by simp at hi; omega
      simp only [e, this, if_false, dif_pos]
      exact h.elems i this

omit hc in
theorem push_holds (hc : c.Ok) {s : EV c.W} {l : List α} (h : Holds c s l) (x : α) :
    Runs (push c x s)
      (fun _ s' => Holds c s' (l ++ [x]) ∧ Tidy c s s' ∧ s.storage.cap ≤ s'.storage.cap ∧
        (c.blocks (l.length + 1) ≤ s.storage.cap → s'.storage.cap = s.storage.cap))
      (fun e s' => e = .capacity ∧ s' = s ∧ Refused c (c.blocks (l.length + 1))) := by
  have hl := h.len_eq
  refine (push_raw hc h.toSafe x).mono ?_ ?_
  · rintro _ s' ⟨h1, h2, h3, h4, h5, h6, h7⟩
    refine ⟨h.snoc hc x h1 h2 h6, ⟨fun j => Or.inl (h7 j), fun hv i => ?_⟩, h4, by rw [← hl]; exact h5⟩
    rw [h6]; split
    · exact hc.contract.lt x
    · exact hv i
  · rintro e s' ⟨h1, h2, h3⟩
    exact ⟨h1, h2, by rw [← hl]; exact h3⟩

omit hc in
theorem pop_holds (hc : c.Ok) {s : EV c.W} {l : List α} (h : Holds c s l) :
    ∃ s', pop c s = (.ok l.getLast?, s') ∧ Holds c s' l.dropLast ∧ s'.storage = s.storage := by
  unfold pop
  rw [M.read_bind]
  by_cases h0 : s.num = 0
  · have hl : l = [] := List.length_eq_zero_iff.mp (by rw [← h.len_eq, h0])
    subst hl
    rw [if_pos (show isEmpty c s = true by simp [isEmpty, len, h0])]
    exact ⟨s, rfl, by simpa using h, rfl⟩
  · have hlen := h.len_eq
    have hlt : s.num - 1 < l.length := by omega
    rw [if_neg (show ¬ isEmpty c s = true by simp [isEmpty, len, h0]), M.bind_ok (get_holds hc h _), List.getElem?_eq_getElem hlt, M.unwrap_some_bind, M.read_bind,
      M.write_bind]
    refine ⟨⟨s.storage, s.num - 1⟩, ?_, ?_, rfl⟩
    · rw [M.pure_apply, List.getLast?_eq_getElem?, ← hlen, List.getElem?_eq_getElem hlt]
    · have := h.take hc (s.num - 1)
      rw [Nat.min_eq_left (by omega)] at this
      rw [List.dropLast_eq_take, ← hlen]
      exact this

/-! ### swap, swap_remove -/

omit hc in
/-- Exchange of two positions of a list. -/
theorem swap_holds (hc : c.Ok) {s : EV c.W} {l : List α} (h : Holds c s l) {i j : Nat} (hi : i < l.length)
    (hj : j < l.length) :
    ∃ s', swap c i j s = (.ok (), s') ∧ Holds c s' ((l.set i l[j]).set j l[i]) ∧ Tidy c s s' ∧
      s'.num = s.num ∧ s'.storage.cap = s.storage.cap := by
  have hlen := h.len_eq
  have hi' : i < s.num := by omega
  have hj' : j < s.num := by omega
  unfold swap
  rw [M.bind_ok (getRaw_safe hc h.toSafe i), if_pos hi', M.unwrap_some_bind,
    M.bind_ok (getRaw_safe hc h.toSafe j), if_pos hj', M.unwrap_some_bind,
    h.elems i hi, h.elems j hj]
  have h1 := set_lt hc h l[j] hi
  rw [M.bind_ok (show setRaw c i (c.E.toDiscr l[j]) s = _ from h1.1)]
  have h2 := set_lt hc h1.2 l[i] (i := j) (by simpa using hj)
  have hcov := h.cover
  refine ⟨_, h2.1, h2.2, ?_, rfl, rfl⟩
  refine (putRaw_tidy hc (by omega) (hc.contract.lt _)).trans (putRaw_tidy hc ?_ (hc.contract.lt _))
  simpa using by omega

theorem swap_oob {s : EV c.W} {l : List α} (h : Holds c s l) {i j : Nat}
    (hij : l.length ≤ i ∨ l.length ≤ j) : swap c i j s = (.error .unwrapNone, s) := by
  have hlen := h.len_eq
  unfold swap
  rw [M.bind_ok (getRaw_safe hc h.toSafe i)]
  by_cases hi : i < s.num
  · rw [if_pos hi, M.unwrap_some_bind, M.bind_ok (getRaw_safe hc h.toSafe j), if_neg (by omega),
      M.unwrap_none_bind]
  · rw [if_neg hi, M.unwrap_none_bind]

omit hc in
theorem swapRemove_holds (hc : c.Ok) {s : EV c.W} {l : List α} (h : Holds c s l) {i : Nat} (hi : i < l.length) :
    ∃ s', swapRemove c i s = (.ok l[i], s') ∧
      Holds c s' ((l.set i (l[l.length - 1]'(by omega))).take (l.length - 1)) ∧
      Tidy c s s' ∧ s'.storage.cap = s.storage.cap := by
  have hlen := h.len_eq
  unfold swapRemove
  rw [M.read_bind]
  have hsub : uSub c.build (len c s) 1 = .ok (l.length - 1) := by
    unfold uSub; rw [if_pos (by simp [len]; omega)]; simp [len, hlen]
  rw [hsub, M.lift_ok_bind]
  obtain ⟨s1, h1, h2, h3, h4, h5⟩ := swap_holds hc h hi (j := l.length - 1) (by omega)
  rw [M.bind_ok h1]
  obtain ⟨s2, g1, g2, g3⟩ := pop_holds hc h2
  rw [M.bind_ok g1]
  have hlast : ((l.set i (l[l.length - 1]'(by omega))).set (l.length - 1) l[i]).getLast? = some l[i] := by
    rw [List.getLast?_eq_getElem?]
    simp only [List.length_set]
    rw [List.getElem?_eq_getElem (by simp; omega)]
    simp
  rw [hlast, M.unwrap_some]
  refine ⟨s2, rfl, ?_, h3.trans (Tidy.of_data (by rw [g3])), by rw [g3, h5]⟩
  rw [List.dropLast_eq_take] at g2
  simp only [List.length_set] at g2
  rw [List.take_set_of_le (Nat.le_refl _)] at g2
  exact g2

theorem swapRemove_oob {s : EV c.W} {l : List α} (h : Holds c s l) {i : Nat} (hi : l.length ≤ i) :
    ∃ e, swapRemove c i s = (.error e, s) ∧ (e = .unwrapNone ∨ e = .overflow) := by
  unfold swapRemove
  rw [M.read_bind]
  cases hu : uSub c.build (len c s) 1 with
  | error e =>
    refine ⟨e, M.lift_error_bind _ _ _, Or.inr ?_⟩
    unfold uSub at hu
    split at hu
    · cases hu
    · split at hu
      · cases hu; rfl
      · cases hu
  | ok k =>
    rw [M.lift_ok_bind, M.bind_error (swap_oob hc h (Or.inl hi))]
    exact ⟨_, rfl, Or.inl rfl⟩

end
end EnumVecModel
