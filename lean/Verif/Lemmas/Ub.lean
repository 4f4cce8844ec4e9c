import Verif.UbSpec
import Verif.Props.Unsafe

set_option linter.unusedSectionVars false

/-! # Calls on vectors whose storage is too short -/

namespace EnumVecModel
open EV

variable {α β τ : Type} {c : Inst α}

/-- What has to be shown of a call: it leaves a vector, and unless memory is refused it is undefined behaviour iff `P`. -/
def UbRun (c : Inst α) (r : Except Fault β × EV c.W) (P : Prop) : Prop :=
  Real c r.2 ∧ (r.1 ≠ .error .capacity → (r.1 = .error .ub ↔ P))

section
variable {strict : Prop} (hc : c.Fits strict)
include hc

theorem Safe.real {s : EV c.W} (h : Safe c s) : Real c s := ⟨by have := h.numRoom hc; have := hc.epb_pos; show s.num < _; omega, h.capLen, h.capBound⟩

omit hc in
theorem Real.safe {s : EV c.W} (h : Real c s) (hs : ¬ Short c s) : Safe c s := ⟨Nat.le_of_not_lt hs, h.capLen, h.capBound⟩

omit hc in
theorem Safe.notShort {s : EV c.W} (h : Safe c s) : ¬ Short c s := Nat.not_lt.mpr h.cover

theorem UbRun.of_keeps {m : M (EV c.W) β} (hk : Keeps c m) {s : EV c.W} (hs : Safe c s) {P : Prop} (hP : ¬ P) : UbRun c (m s) P := by
  have := hk s hs
  rcases hx : m s with ⟨e | b, s'⟩ <;> rw [hx] at this
  · exact ⟨Safe.real hc this.2, fun _ => iff_of_false (fun he => this.1 (by cases he; rfl)) hP⟩
  · exact ⟨Safe.real hc this, fun _ => iff_of_false nofun hP⟩

omit hc in
theorem UbRun.ub {s : EV c.W} (h : Real c s) {P : Prop} (hP : P) : UbRun (β := β) c (.error .ub, s) P := ⟨h, fun _ => iff_of_true rfl hP⟩

omit hc in
theorem UbRun.ok {s : EV c.W} (h : Real c s) {P : Prop} (hP : ¬ P) (b : β) : UbRun c (.ok b, s) P := ⟨h, fun _ => iff_of_false nofun hP⟩

omit hc in
theorem UbRun.err {s : EV c.W} (h : Real c s) {P : Prop} (hP : ¬ P) {e : Fault} (he : e ≠ .ub) : UbRun (β := β) c (.error e, s) P :=
  ⟨h, fun _ => iff_of_false (fun h => he (by cases h; rfl)) hP⟩

omit hc in
theorem UbRun.oom {s : EV c.W} (h : Real c s) {P : Prop} : UbRun (β := β) c (.error .capacity, s) P :=
  ⟨h, fun h => absurd rfl h⟩

omit hc in
theorem Real.setNum {s : EV c.W} (h : Real c s) {n : Nat} (hn : n < c.build.usizeLim) : Real c { s with num := n } := ⟨hn, h.capLen, h.capBound⟩

omit hc in
theorem SameShape.real {s s' : EV c.W} (h : SameShape c s s') (hs : Real c s) : Real c s' :=
  ⟨by show s'.num < _; rw [h.num]; exact hs.lenLt, by rw [h.len, h.cap]; exact hs.capLen, by rw [h.cap]; exact hs.capBound⟩

theorem getRawUnchecked_ub (s : EV c.W) {i : Nat} (h : slots c s ≤ i) : getRawUnchecked c i s = (.error .ub, s) := by
  unfold getRawUnchecked
  rw [rawUnchecked_ub hc s h]

theorem setRawUnchecked_ub (s : EV c.W) {i : Nat} (d : Nat) (h : slots c s ≤ i) : setRawUnchecked c i d s = (.error .ub, s) := by
  have hlt : s.storage.data.length ≤ i / c.epb := (Nat.le_div_iff_mul_le hc.epb_pos).mpr h
  unfold setRawUnchecked blockIndex
  simp only [List.getElem?_eq_none hlt]

theorem number_eq (s : EV c.W) {i : Nat} (h : i < slots c s) : number c s i = raw c s i := by
  unfold number
  rw [rawUnchecked_ok hc s h]

theorem getRaw_any (s : EV c.W) (i : Nat) :
    getRaw c i s = if i < s.num then (if i < slots c s then (.ok (some (raw c s i)), s) else (.error .ub, s)) else (.ok none, s) := by
  unfold getRaw
  rw [M.read_bind]
  by_cases hi : i < s.num
  · rw [if_neg (show ¬ i ≥ len c s from Nat.not_le.mpr hi), if_pos hi]
    by_cases hs : i < slots c s
    · rw [if_pos hs, M.bind_ok (getRawUnchecked_ok hc s hs)]; rfl
    · rw [if_neg hs, M.bind_error (getRawUnchecked_ub hc s (Nat.le_of_not_lt hs))]
  · rw [if_pos (show i ≥ len c s from Nat.le_of_not_lt hi), if_neg hi]; rfl

theorem get_any (s : EV c.W) (i : Nat) :
    EV.get c i s = if i < s.num then (if i < slots c s then
      (match c.E.fromDiscr (raw c s i) with
        | some a => (.ok (some a), s)
        | none => (.error .badDiscr, s)) else (.error .ub, s))
      else (.ok none, s) := by
  unfold EV.get
  rw [M.bind_apply, getRaw_any hc]
  by_cases hi : i < s.num
  · rw [if_pos hi, if_pos hi]
    by_cases hs : i < slots c s
    · rw [if_pos hs, if_pos hs]
      simp only [M.bind_apply, fromDiscr]
      cases c.E.fromDiscr (raw c s i) <;> rfl
    · rw [if_neg hs, if_neg hs]
  · rw [if_neg hi, if_neg hi]; rfl

theorem setRaw_any (s : EV c.W) (i d : Nat) :
    setRaw c i d s = if i < s.num then (if i < slots c s then (.ok (), putRaw c s i d) else (.error .ub, s)) else (.error .index, s) := by
  by_cases hi : i < s.num
  · unfold setRaw
    rw [M.read_bind, if_neg (show ¬ i ≥ len c s from Nat.not_le.mpr hi), if_pos hi]
    by_cases hs : i < slots c s
    · rw [if_pos hs]; exact setRawUnchecked_ok hc s d hs
    · rw [if_neg hs]; exact setRawUnchecked_ub hc s d (Nat.le_of_not_lt hs)
  · rw [if_neg hi]; exact setRaw_ge hc d (Nat.le_of_not_lt hi)

theorem get_ub {s : EV c.W} (h : Real c s) (i : Nat) : UbRun c (EV.get c i s) (i < s.num ∧ slots c s ≤ i) := by
  rw [get_any hc]
  split
  · next h1 =>
    split
    · next h2 => split <;> first | exact .ok h (by omega) _ | exact .err h (by omega) nofun
    · next h2 => exact .ub h ⟨h1, by omega⟩
  · exact .ok h (by omega) _

theorem setRaw_ub {s : EV c.W} (h : Real c s) (i d : Nat) : UbRun c (setRaw c i d s) (i < s.num ∧ slots c s ≤ i) := by
  rw [setRaw_any hc]
  split
  · next h1 =>
    split
    · next h2 => exact .ok ((putRaw_shape c s i d).real h) (by omega) _
    · next h2 => exact .ub h ⟨h1, by omega⟩
  · exact .err h (by omega) nofun

theorem blocksForElements_ge {n : Nat} (hn : n < c.build.usizeLim) : n / c.epb ≤ blocksForElements c n := by
  unfold blocksForElements satAdd
  exact Nat.div_le_div_right (by omega)

theorem push_short {s : EV c.W} (h : Real c s) (hs : Short c s) (x : α) :
    (∃ s', push c x s = (.error .ub, s') ∧ Real c s') ∨ push c x s = (.error .capacity, s) := by
  have hg : growIfNeeded c s = (.ok (), s) := by
    unfold growIfNeeded
    rw [if_neg]
    rintro ⟨h1, h2⟩
    have h3 := blocksForElements_ge hc h.lenLt
    have h4 : s.storage.len < EV.len c s / c.epb := by
      rw [Nat.lt_iff_add_one_le, Nat.le_div_iff_mul_le hc.epb_pos]
      have h5 : s.storage.len * c.epb < EV.len c s := hs
      obtain ⟨q, hq⟩ := Nat.dvd_of_mod_eq_zero h1
      rw [hq, Nat.mul_comm c.epb q] at h5 ⊢
      exact Nat.mul_le_mul_right _ (Nat.lt_of_mul_lt_mul_right h5)
    omega
  unfold push
  rw [M.bind_ok hg, M.read_bind]
  by_cases hl : s.num + 1 < c.build.usizeLim
  · rw [if_pos hl, M.write_bind]
    left
    refine ⟨{ s with num := s.num + 1 }, ?_, h.setNum hl⟩
    show setRaw c s.num (c.E.toDiscr x) { s with num := s.num + 1 } = _
    rw [setRaw_any hc, if_pos (show s.num < s.num + 1 by omega)]
    exact if_neg (Nat.not_lt.mpr (Nat.le_of_lt hs))
  · rw [if_neg hl]
    exact Or.inr rfl

theorem push_ub {s : EV c.W} (h : Real c s) (x : α) : UbRun c (push c x s) (Short c s) := by
  by_cases hs : Short c s
  · rcases push_short hc h hs x with ⟨s', e, h'⟩ | e
    · rw [e]; exact .ub h' hs
    · rw [e]; exact .oom h
  · exact .of_keeps hc (push_keeps hc x) (h.safe hs) hs

theorem insert_ub {s : EV c.W} (h : Real c s) (i : Nat) (x : α) : UbRun c (EV.insert c i x s) (Short c s) := by
  by_cases hs : Short c s
  · unfold EV.insert
    rcases push_short hc h hs x with ⟨s', e, h'⟩ | e
    · rw [M.bind_error e]; exact .ub h' hs
    · rw [M.bind_error e]; exact .oom h
  · exact .of_keeps hc (insert_keeps hc i x) (h.safe hs) hs

theorem pop_ub {s : EV c.W} (h : Real c s) : UbRun c (pop c s) (Short c s) := by
  by_cases hs : Short c s
  · have h1 : slots c s < s.num := hs
    unfold pop
    rw [M.read_bind, if_neg (by show ¬ ((s.num == 0) = true); simp; omega)]
    have e : EV.get c (s.num - 1) s = (.error .ub, s) := by rw [get_any hc, if_pos (by omega), if_neg (by omega)]
    rw [M.bind_error e]
    exact .ub h hs
  · exact .of_keeps hc (pop_keeps hc) (h.safe hs) hs

theorem swap_ub {s : EV c.W} (h : Real c s) (i j : Nat) :
    UbRun c (swap c i j s) (i < s.num ∧ (slots c s ≤ i ∨ j < s.num ∧ slots c s ≤ j)) := by
  unfold swap
  by_cases hi : i < s.num
  · by_cases hsi : i < slots c s
    · have e1 : getRaw c i s = (.ok (some (raw c s i)), s) := by rw [getRaw_any hc, if_pos hi, if_pos hsi]
      rw [M.bind_ok e1, M.unwrap_some_bind]
      by_cases hj : j < s.num
      · by_cases hsj : j < slots c s
        · have e2 : getRaw c j s = (.ok (some (raw c s j)), s) := by rw [getRaw_any hc, if_pos hj, if_pos hsj]
          rw [M.bind_ok e2, M.unwrap_some_bind]
          have e3 : setRaw c i (raw c s j) s = (.ok (), putRaw c s i (raw c s j)) := by rw [setRaw_any hc, if_pos hi, if_pos hsi]
          rw [M.bind_ok e3]
          have hsh := putRaw_shape c s i (raw c s j)
          rw [setRaw_any hc, if_pos (by rw [hsh.num]; exact hj),
            if_pos (by show j < _ * _; rw [show (EV.storageRef c _).len = _ from hsh.len]; exact hsj)]
          exact .ok ((putRaw_shape c _ j _).real (hsh.real h)) (by omega) _
        · have e2 : getRaw c j s = (.error .ub, s) := by rw [getRaw_any hc, if_pos hj, if_neg hsj]
          rw [M.bind_error e2]
          exact .ub h ⟨hi, Or.inr ⟨hj, by omega⟩⟩
      · have e2 : getRaw c j s = (.ok none, s) := by rw [getRaw_any hc, if_neg hj]
        rw [M.bind_ok e2]
        exact .err h (by omega) (e := .unwrapNone) nofun
    · have e1 : getRaw c i s = (.error .ub, s) := by rw [getRaw_any hc, if_pos hi, if_neg hsi]
      rw [M.bind_error e1]
      exact .ub h ⟨hi, Or.inl (by omega)⟩
  · have e1 : getRaw c i s = (.ok none, s) := by rw [getRaw_any hc, if_neg hi]
    rw [M.bind_ok e1]
    exact .err h (by omega) (e := .unwrapNone) nofun

theorem swapRemove_ub {s : EV c.W} (h : Real c s) (i : Nat) : UbRun c (swapRemove c i s) (i < s.num ∧ Short c s) := by
  by_cases hs : Short c s
  · have h1 : slots c s < s.num := hs
    have e : uSub c.build (len c s) 1 = .ok (s.num - 1) := by
      unfold uSub; rw [if_pos (show 1 ≤ len c s by show 1 ≤ s.num; omega)]; rfl
    unfold swapRemove
    rw [M.read_bind, e, M.lift_ok_bind]
    have key := swap_ub hc h i (s.num - 1)
    rcases hx : swap c i (s.num - 1) s with ⟨e | b, s'⟩
    · rw [hx] at key
      rw [M.bind_error hx]
      refine ⟨key.1, fun hne => ?_⟩
      have := key.2 (fun he => hne (by cases he; rfl))
      constructor
      · intro he
        exact ⟨(this.mp (by cases he; rfl)).1, hs⟩
      · rintro ⟨h2, -⟩
        have h3 := this.mpr ⟨h2, Or.inr ⟨by omega, by omega⟩⟩
        cases h3; rfl
    · rw [hx] at key
      exfalso
      have := key.2 nofun
      by_cases hi : i < s.num
      · exact absurd (this.mpr ⟨hi, Or.inr ⟨by omega, by omega⟩⟩) nofun
      · have e1 : getRaw c i s = (.ok none, s) := by rw [getRaw_any hc, if_neg hi]
        unfold swap at hx
        rw [M.bind_ok e1] at hx
        exact absurd (congrArg Prod.fst hx) nofun
  · exact .of_keeps hc (swapRemove_keeps hc i) (h.safe hs) (fun hp => hs hp.2)

theorem removeSlow_any {s : EV c.W} : ∀ (n i : Nat),
    Runs (loop (removeSlowStep c) n i () s) (fun _ s' => SameShape c s s') (fun e s' => e = .ub ∧ SameShape c s s') := by
  intro n i
  refine runs_loop (stop := i + n) (fun _ _ s' => SameShape c s s') ?_ n i () s rfl (SameShape.refl s)
  intro j acc s' hj hs'
  unfold removeSlowStep
  by_cases h1 : j + 1 < slots c s'
  · rw [M.bind_ok (getRawUnchecked_ok hc s' h1), setRawUnchecked_ok hc s' _ (show j < slots c s' by omega)]
    exact hs'.trans (putRaw_shape c s' j _)
  · rw [M.bind_error (getRawUnchecked_ub hc s' (by omega))]
    exact ⟨rfl, hs'⟩

theorem remove_ub {s : EV c.W} (h : Real c s) (i : Nat) :
    UbRun c (EV.remove c i s) (i < s.num ∧ Short c s ∧ (i < slots c s → ReadsAt c s i)) := by
  by_cases hs : Short c s
  · have h1 : slots c s < s.num := hs
    unfold EV.remove
    rw [M.bind_apply, get_any hc]
    by_cases hi : i < s.num
    · rw [if_pos hi]
      by_cases hsi : i < slots c s
      · rw [if_pos hsi]
        have hn : number c s i = raw c s i := number_eq hc s hsi
        cases hx : c.E.fromDiscr (raw c s i) with
        | none =>
          refine .err h (fun hp => ?_) (e := .badDiscr) nofun
          have := hp.2.2 hsi
          rw [ReadsAt, hn, hx] at this
          exact absurd this nofun
        | some x =>
          have hP : i < s.num ∧ Short c s ∧ (i < slots c s → ReadsAt c s i) := ⟨hi, hs, fun _ => by rw [ReadsAt, hn, hx]; rfl⟩
          show UbRun c ((M.unwrap (some x) >>= _) s) _
          rw [M.unwrap_some_bind, M.read_bind]
          have hmul : uMul c.build (1 + (blockIndex c i).1) c.epb = .ok ((1 + i / c.epb) * c.epb) := by
            unfold uMul
            rw [if_pos]; · rfl
            show (1 + i / c.epb) * c.epb < _
            have h2 : 1 + i / c.epb ≤ s.storage.data.length := by
              have := (Nat.div_lt_iff_lt_mul hc.epb_pos).mpr hsi
              rw [Nat.add_comm]; exact this
            have h3 : (1 + i / c.epb) * c.epb ≤ (s.storage.cap + 1) * c.epb := Nat.mul_le_mul_right _ (by have := h.capLen; omega)
            have := h.capBound
            omega
          rw [hmul, M.lift_ok_bind, M.bind_apply]
          have key := removeSlow_any hc (s := s) (min (len c s - 1) ((1 + i / c.epb) * c.epb) - i) i
          rcases hy : loop (removeSlowStep c) (min (len c s - 1) ((1 + i / c.epb) * c.epb) - i) i () s with ⟨e | b, s'⟩
          · rw [hy] at key
            obtain ⟨rfl, h2⟩ := key
            exact .ub (h2.real h) hP
          · rw [hy] at key
            have h2 : SameShape c s s' := key
            show UbRun c ((M.read >>= _) s') _
            rw [M.read_bind]
            have e2 : getRawUnchecked c (len c s' - 1) s' = (.error .ub, s') := by
              refine getRawUnchecked_ub hc s' ?_
              have h3 := h2.num
              have h4 : slots c s' = slots c s := congrArg (· * c.epb) h2.len
              show slots c s' ≤ s'.num - 1
              omega
            rw [M.bind_error e2]
            exact .ub (h2.real h) hP
      · rw [if_neg hsi]
        exact .ub h ⟨hi, hs, fun hx => absurd hx hsi⟩
    · rw [if_neg hi]
      exact .err h (fun hp => hi hp.1) (e := .unwrapNone) nofun
  · exact .of_keeps hc (remove_keeps hc i) (h.safe hs) (fun hp => hs hp.2.1)

theorem truncate_ub {s : EV c.W} (h : Real c s) (n : Nat) : UbRun c (truncate c n s) False := by
  rw [truncate_eq hc]
  exact .ok (h.setNum (by have := h.lenLt; have : len c s = s.num := rfl; omega)) id _

theorem reserve_any {s : EV c.W} (h : Real c s) {k : Nat} (hw : ¬ c.AtLimit (s.num + k)) :
    Runs (reserve c k s) (fun _ s' => Safe c s' ∧ s'.num = s.num ∧ reserve c k s' = (.ok (), s') ∧ s.num + k < c.build.usizeLim ∧ s.num + k < slots c s')
      (fun e s' => e = .capacity ∧ s' = s) := by
  unfold reserve
  by_cases hlt : s.num + k < c.build.usizeLim
  · rw [if_pos (show len c s + k < c.build.usizeLim from hlt)]
    simp only [len]
    simp only [reserve_sum hc hlt hw]
    have hr := RVec.resize_res hc.lawful hc.bounded s.storage ((s.num + k) / c.epb + 1) 0 h.capLen
    cases hx : RVec.resize c.alloc s.storage ((s.num + k) / c.epb + 1) 0 with
    | error e =>
      rw [hx] at hr
      exact ⟨hr.1, rfl⟩
    | ok st =>
      rw [hx] at hr
      obtain ⟨h1, h2, h3⟩ := hr
      have hlen : st.data.length = (s.num + k) / c.epb + 1 := by
        rw [h1]; simp only [List.length_append, List.length_take, List.length_replicate]; omega
      have hsl : s.num + k < st.data.length * c.epb := by
        rw [hlen, Nat.add_mul, Nat.one_mul]
        have h4 := Nat.div_add_mod (s.num + k) c.epb
        have h5 := Nat.mod_lt (s.num + k) hc.epb_pos
        rw [Nat.mul_comm]; omega
      refine ⟨⟨?_, h2.fits, h2.capBound h.capBound⟩, rfl, ?_, hlt, hsl⟩
      · show s.num ≤ st.data.length * c.epb
        omega
      · have e : RVec.resize c.alloc st ((s.num + k) / c.epb + 1) 0 = .ok st := by
          unfold RVec.resize
          rw [if_pos (show (s.num + k) / c.epb + 1 ≤ st.len from Nat.le_of_eq hlen.symm)]
          unfold RVec.truncate
          rw [List.take_of_length_le (by omega)]
        simp only [if_pos hlt, reserve_sum hc hlt hw, e]
  · rw [if_neg (show ¬ len c s + k < c.build.usizeLim from hlt)]
    exact ⟨rfl, rfl⟩

omit hc in
theorem Real.fix {s : EV c.W} (h : Real c s) (n : Nat) : Real c { s with storage := s.storage.truncate n } :=
  ⟨h.lenLt, by show (s.storage.data.take n).length ≤ s.storage.cap; rw [List.length_take]; have := h.capLen; omega, h.capBound⟩

theorem reserve_ub {s : EV c.W} (h : Real c s) (k : Nat) : UbRun c (reserve c k s) False := by
  by_cases hw : c.AtLimit (s.num + k)
  · rw [reserve_limit hw]
    split
    · exact .err h id (e := .overflow) nofun
    · exact .ok (h.fix 0) id _
  have := reserve_any hc h hw
  rcases hx : reserve c k s with ⟨e | b, s'⟩ <;> rw [hx] at this
  · obtain ⟨rfl, rfl⟩ := this; exact .oom h
  · exact .ok (Safe.real hc this.1) id _

/-- `extend` begins with `reserve`; what it does then it does in a safe state. -/
theorem extend_any {s : EV c.W} (h : Real c s) (it : Src α) (hw : ¬ c.AtLimit (s.num + it.hint)) :
    extend c it s = (.error .capacity, s) ∨ ∃ s', Safe c s' ∧ s'.num = s.num ∧ extend c it s = extend c it s' := by
  have := reserve_any hc h hw
  unfold extend
  rcases hx : reserve c it.hint s with ⟨e | b, s'⟩ <;> rw [hx] at this
  · obtain ⟨rfl, rfl⟩ := this
    left
    rw [M.read_bind, M.bind_error hx]
  · obtain ⟨h1, h2, h3, -⟩ := this
    right
    refine ⟨s', h1, h2, ?_⟩
    rw [M.read_bind, M.bind_ok hx, M.read_bind]
    conv => rhs; rw [M.read_bind, M.bind_ok h3, M.read_bind]
    rw [show len c s = len c s' from h2.symm]

theorem extend_ub {s : EV c.W} (h : Real c s) (it : Src α) : UbRun c (extend c it s) (c.Drops (s.num + it.hint) ∧ it.items ≠ []) := by
  by_cases hw : c.AtLimit (s.num + it.hint)
  · cases hck : c.build.checked with
    | true =>
      rw [extend_limit_debug hw hck]
      exact .err h (fun hp => by have := hp.1.1; rw [hck] at this; cases this) (e := .overflow) nofun
    | false =>
      have hr : Real c (⟨s.storage.truncate 0, s.num + it.hint⟩ : EV c.W) := (h.fix 0).setNum (by have := hw.2; omega)
      rcases Nat.eq_zero_or_pos it.hint with h0 | hpos
      · rw [extend_limit hw hck, h0]
        show UbRun c (extendRest c it.panics it.items _) _
        rcases hi : it.items with _ | ⟨x, xs⟩
        · unfold extendRest
          rw [h0] at hr
          split
          · exact .err hr (fun hp => hp.2 rfl) (e := .user) nofun
          · exact .ok hr (fun hp => hp.2 rfl) _
        · rw [h0] at hr hw
          have hsh : Short c (⟨s.storage.truncate 0, s.num + 0⟩ : EV c.W) := by
            show 0 * c.epb < s.num + 0
            have := c.build.lt_usizeLim (n := 1) (by omega)
            have := hw.2
            omega
          have hP : c.Drops (s.num + 0) ∧ x :: xs ≠ [] := ⟨⟨hck, hw⟩, nofun⟩
          unfold extendRest
          rcases push_short hc hr hsh x with ⟨s', e, h'⟩ | e
          · rw [M.bind_error e]; exact .ub h' hP
          · rw [M.bind_error e]; exact .oom hr
      · by_cases hi : it.items = []
        · rw [extend_limit_nil hw hck hi hpos]
          exact .err hr (fun hp => hp.2 hi) (by split <;> nofun)
        · rw [extend_limit_ub hw hck hi hpos]
          exact .ub hr ⟨⟨hck, hw⟩, hi⟩
  have hP : ¬ (c.Drops (s.num + it.hint) ∧ it.items ≠ []) := fun hp => hw hp.1.2
  rcases extend_any hc h it hw with e | ⟨s', h1, h2, e⟩ <;> rw [e]
  · exact .oom h
  · have key := extend_keeps hc it h1 (by rw [h2]; exact Inst.not_drops hw)
    rcases hx : extend c it s' with ⟨e | b, s2⟩ <;> rw [hx] at key
    · exact .err (Safe.real hc key.2) hP key.1
    · exact .ok (Safe.real hc key) hP b

theorem extendWithValue_ub {s : EV c.W} (h : Real c s) (x : α) (n : Nat) (hlt : s.num + n < c.build.usizeLim) :
    UbRun c (extendWithValue c x n s) (0 < n ∧ n ≤ 4 ∧ c.Drops (s.num + n)) := by
  by_cases hn : n ≤ 4 * c.epb
  · unfold extendWithValue
    rw [if_pos hn]
    have := extend_ub hc h (repeatTake x n)
    refine ⟨this.1, fun hne => (this.2 hne).trans ?_⟩
    show c.Drops (s.num + n) ∧ List.replicate n x ≠ [] ↔ _
    rw [Ne, List.replicate_eq_nil_iff]
    exact ⟨fun hp => ⟨Nat.pos_of_ne_zero hp.2, by have := hp.1.2.1; rw [this] at hn; exact hn, hp.1⟩, fun hp => ⟨hp.2.2, by omega⟩⟩
  · have hw1 : ¬ c.AtLimit (s.num + (c.epb - len c s % c.epb)) := fun hw => by
      obtain ⟨h1, h2⟩ := hw
      rw [h1, Nat.mod_one] at h2
      omega
    have hP : ¬ (0 < n ∧ n ≤ 4 ∧ c.Drops (s.num + n)) := fun hp => by
      have h1 := hp.2.2.2.1
      rw [h1] at hn
      omega
    rcases extend_any hc h (repeatTake x (c.epb - len c s % c.epb)) hw1 with e | ⟨s', h1, h2, e⟩
    · unfold extendWithValue
      rw [if_neg hn, M.read_bind, M.bind_error e]
      exact .oom h
    · have : extendWithValue c x n s = extendWithValue c x n s' := by
        unfold extendWithValue
        rw [if_neg hn, M.read_bind, M.read_bind, show len c s' = len c s from h2, M.bind_apply, e]
        rfl
      rw [this]
      exact .of_keeps hc (extendWithValue_keeps hc x n) h1 hP

theorem resize_ub {s : EV c.W} (h : Real c s) (n : Nat) (hn : n < c.build.usizeLim) (x : α) :
    UbRun c (resize c n x s) (s.num < n ∧ n ≤ s.num + 4 ∧ c.Drops n) := by
  unfold resize
  rw [M.read_bind]
  split
  · have h1 : s.num < n := by assumption
    have := extendWithValue_ub hc h x (n - s.num) (by omega)
    rw [show s.num + (n - s.num) = n by omega] at this
    refine ⟨this.1, fun hne => (this.2 hne).trans ?_⟩
    exact ⟨fun hp => ⟨h1, by omega, hp.2.2⟩, fun hp => ⟨by omega, by omega, hp.2.2⟩⟩
  · have := truncate_ub hc h n
    exact ⟨this.1, fun hne => (this.2 hne).trans (iff_of_false id fun hp => absurd hp.1 (by assumption))⟩

theorem shrinkToFit_ub {s : EV c.W} (h : Real c s) : UbRun c (shrinkToFit c s) False := by
  have hl : (s.storage.data.take (blocksForElements c (len c s))).length ≤ s.storage.cap := by
    rw [List.length_take]; have := h.capLen; omega
  have h1 : c.alloc.shrinkTo s.storage.cap (s.storage.data.take (blocksForElements c (len c s))).length ≤ s.storage.cap := hc.bounded.shrink _ _ hl
  have hr : Real c { s with storage := (s.storage.truncate (blocksForElements c (len c s))).shrinkToFit c.alloc } :=
    ⟨h.lenLt, hc.lawful.shrink_ge s.storage.cap _ hl,
      Nat.lt_of_le_of_lt (Nat.add_le_add_right (Nat.mul_le_mul_right _ (Nat.succ_le_succ h1)) 4) h.capBound⟩
  exact .ok hr id ()

omit hc in
theorem uAdd_lt {b : Build} {x y n : Nat} (h : uAdd b x y = .ok n) : n < b.usizeLim := by
  unfold uAdd at h
  split at h
  · cases h; assumption
  · split at h
    · cases h
    · cases h
      exact Nat.mod_lt _ (by unfold Build.usizeLim; split <;> decide)

theorem appendLoop_any {p : EV c.W × EV c.W} (a : Nat) : ∀ (n i : Nat) (q : EV c.W × EV c.W), SameShape c p.1 q.1 → SameShape c p.2 q.2 →
    a + i + n ≤ slots c p.1 → i ≤ slots c p.2 →
    Runs (loop (appendStep c a) n i () q) (fun _ q' => i + n ≤ slots c p.2 ∧ SameShape c p.1 q'.1 ∧ SameShape c p.2 q'.2)
      (fun e q' => e = .ub ∧ slots c p.2 < i + n ∧ SameShape c p.1 q'.1 ∧ SameShape c p.2 q'.2)
  | 0, i, q, h1, h2, _, hi => ⟨hi, h1, h2⟩
  | n + 1, i, (q1, q2), h1, h2, ha, hi => by
    have e1 : slots c q1 = slots c p.1 := congrArg (· * c.epb) h1.len
    have e2 : slots c q2 = slots c p.2 := congrArg (· * c.epb) h2.len
    unfold EnumVecModel.loop
    unfold appendStep
    by_cases hs : i < slots c p.2
    · have g1 : onSnd (getRawUnchecked c i) (q1, q2) = (.ok (raw c q2 i), (q1, q2)) := by
        unfold onSnd
        rw [getRawUnchecked_ok hc q2 (show i < slots c q2 by omega)]
      have g2 : onFst (setRawUnchecked c (a + i) (raw c q2 i)) (q1, q2) = (.ok (), (putRaw c q1 (a + i) (raw c q2 i), q2)) := by
        unfold onFst
        rw [setRawUnchecked_ok hc q1 _ (show a + i < slots c q1 by omega)]
      rw [M.bind_ok (show (onSnd (getRawUnchecked c i) >>= fun d => onFst (setRawUnchecked c (a + i) d)) (q1, q2) = _ by rw [M.bind_ok g1, g2])]
      have := appendLoop_any a n (i + 1) (putRaw c q1 (a + i) (raw c q2 i), q2) (h1.trans (putRaw_shape c q1 _ _)) h2 (by omega) (by omega)
      rw [show i + (n + 1) = i + 1 + n by omega]
      exact this
    · have g1 : onSnd (getRawUnchecked c i) (q1, q2) = (.error .ub, (q1, q2)) := by
        unfold onSnd
        rw [getRawUnchecked_ub hc q2 (show slots c q2 ≤ i by omega)]
      rw [M.bind_error (show (onSnd (getRawUnchecked c i) >>= fun d => onFst (setRawUnchecked c (a + i) d)) (q1, q2) = _ by rw [M.bind_error g1])]
      exact ⟨rfl, by omega, h1, h2⟩

/-- The same for two vectors. -/
def UbRun2 (c : Inst α) (r : Except Fault β × (EV c.W × EV c.W)) (P : Prop) : Prop :=
  (Real c r.2.1 ∧ Real c r.2.2) ∧ (r.1 ≠ .error .capacity → (r.1 = .error .ub ↔ P))

theorem append_ub {s o : EV c.W} (hs : Real c s) (ho : Real c o) : UbRun2 c (append c (s, o)) (len c s % c.epb ≠ 0 ∧ Short c o) := by
  unfold append
  rw [M.read_bind]
  by_cases hm : len c s % c.epb = 0
  · rw [if_pos hm]
    have hP : ¬ (len c s % c.epb ≠ 0 ∧ Short c o) := fun h => h.1 hm
    have e1 : onFst (fixStorage c) (s, o) = (.ok (), ({ s with storage := s.storage.truncate (blocksForElements c (len c s)) }, o)) := rfl
    have hs1 := hs.fix (blocksForElements c (len c s))
    rw [M.bind_ok e1]
    generalize ({ s with storage := s.storage.truncate (blocksForElements c (len c s)) } : EV c.W) = s1 at hs1
    have e2 : onSnd (fixStorage c) (s1, o) = (.ok (), (s1, { o with storage := o.storage.truncate (blocksForElements c (len c o)) })) := rfl
    have ho1 := ho.fix (blocksForElements c (len c o))
    rw [M.bind_ok e2]
    generalize ({ o with storage := o.storage.truncate (blocksForElements c (len c o)) } : EV c.W) = o1 at ho1
    have hr := reserve_fine hc (v := s1.storage) ⟨hs1.capLen, hs1.capBound⟩ o1.storage.data.length
    rw [M.bind_apply]
    unfold appendStorage RVec.extendFromSlice
    cases hx : s1.storage.reserve c.alloc o1.storage.data.length with
    | error e =>
      rw [hx] at hr
      exact ⟨⟨hs1, ho1⟩, fun _ => iff_of_false (fun he => hr (by cases he; rfl)) hP⟩
    | ok v =>
      rw [hx] at hr
      obtain ⟨g1, g2, g3⟩ := hr
      have hs2 : Real c { s1 with storage := { v with data := v.data ++ o1.storage.data } } :=
        ⟨hs1.lenLt, by show (v.data ++ o1.storage.data).length ≤ v.cap; rw [List.length_append, g1]; exact g2, g3⟩
      have key : ∀ o2, Real c o2 → UbRun2 c ((M.read >>= fun p : EV c.W × EV c.W => M.lift (uAdd c.build p.1.num (len c o)) >>= fun n => onFst (setLen c n))
          (({ s1 with storage := { v with data := v.data ++ o1.storage.data } } : EV c.W), o2)) (len c s % c.epb ≠ 0 ∧ Short c o) := by
        intro o2 ho2
        rw [M.read_bind]
        cases hu : uAdd c.build s1.num (len c o) with
        | error e =>
          exact ⟨⟨hs2, ho2⟩, fun _ => iff_of_false (fun he => uAdd_ne c.build s1.num (len c o) (by rw [hu]; cases he; rfl)) hP⟩
        | ok n =>
          rw [M.lift_ok_bind]
          exact ⟨⟨hs2.setNum (uAdd_lt hu), ho2⟩, fun _ => iff_of_false nofun hP⟩
      dsimp only
      cases hsm : c.small with
      | true =>
        rw [if_pos rfl]
        have e3 : onSnd (EV.clear c) (({ s1 with storage := { v with data := v.data ++ o1.storage.data } } : EV c.W), o1) =
            (.ok (), ({ s1 with storage := { v with data := v.data ++ o1.storage.data } }, { o1 with num := 0 })) := by
          unfold onSnd; rw [clear_eq hc]
        rw [e3]
        exact key _ (ho1.setNum (by have := ho1.lenLt; omega))
      | false =>
        rw [if_neg nofun]
        exact key _ ⟨ho1.lenLt, Nat.zero_le _, ho1.capBound⟩
  · rw [if_neg hm]
    have hw : ¬ c.AtLimit (s.num + len c o) := fun hw => hm (by
      show len c s % c.epb = 0
      rw [hw.1, Nat.mod_one])
    have key := reserve_any hc hs hw
    rcases hx : reserve c (len c o) s with ⟨e | b, s'⟩ <;> rw [hx] at key
    · obtain ⟨rfl, rfl⟩ := key
      rw [M.bind_error (show onFst (reserve c (len c o)) (s', o) = (.error .capacity, (s', o)) by unfold onFst; rw [hx])]
      exact ⟨⟨hs, ho⟩, fun h => absurd rfl h⟩
    · obtain ⟨g1, g2, -, g3, g4⟩ := key
      rw [M.bind_ok (show onFst (reserve c (len c o)) (s, o) = (.ok (), (s', o)) by unfold onFst; rw [hx]),
        show uAdd c.build (len c s) (len c o) = .ok (len c s + len c o) by unfold uAdd; exact if_pos g3, M.lift_ok_bind,
        M.bind_ok (show onFst (setLen c (len c s + len c o)) (s', o) = (.ok (), ({ s' with num := len c s + len c o }, o)) from rfl)]
      have hl := appendLoop_any hc (p := ({ s' with num := len c s + len c o }, o)) (len c s) (len c o) 0
        ({ s' with num := len c s + len c o }, o) (SameShape.refl _) (SameShape.refl _)
        (by show len c s + 0 + len c o ≤ slots c s'; have : len c s = s.num := rfl; omega) (Nat.zero_le _)
      have hr1 : Real c { s' with num := len c s + len c o } := (Safe.real hc g1).setNum g3
      rcases hy : loop (appendStep c (len c s)) (len c o) 0 () ({ s' with num := len c s + len c o }, o) with ⟨e | b, q⟩ <;> rw [hy] at hl
      · obtain ⟨rfl, h1, h2, h3⟩ := hl
        rw [M.bind_error hy]
        exact ⟨⟨h2.real hr1, h3.real ho⟩, fun _ => iff_of_true rfl ⟨hm, by show slots c o < len c o; simpa using h1⟩⟩
      · obtain ⟨h1, h2, h3⟩ := hl
        rw [M.bind_ok hy]
        have e3 : onSnd (EV.clear c) q = (.ok (), (q.1, { q.2 with num := 0 })) := by unfold onSnd; rw [clear_eq hc]
        rw [e3]
        refine ⟨⟨h2.real hr1, (h3.real ho).setNum (by have := ho.lenLt; omega)⟩, fun _ => iff_of_false nofun fun hp => ?_⟩
        have : slots c o < len c o := hp.2
        simp only [Nat.zero_add] at h1
        omega

/-- What an aligned `append` of `Vec` storage leaves in its argument. -/
theorem append_leaves {s o : EV c.W} (hsm : c.small = false) (hm : len c s % c.epb = 0) {p : EV c.W × EV c.W} (h : append c (s, o) = (.ok (), p)) :
    p.2.num = o.num ∧ p.2.storage.data = [] := by
  unfold append at h
  rw [M.read_bind, if_pos hm] at h
  have e1 : onFst (fixStorage c) (s, o) = (.ok (), ({ s with storage := s.storage.truncate (blocksForElements c (len c s)) }, o)) := rfl
  rw [M.bind_ok e1] at h
  generalize ({ s with storage := s.storage.truncate (blocksForElements c (len c s)) } : EV c.W) = s1 at h
  have e2 : onSnd (fixStorage c) (s1, o) = (.ok (), (s1, { o with storage := o.storage.truncate (blocksForElements c (len c o)) })) := rfl
  rw [M.bind_ok e2, M.bind_apply] at h
  unfold appendStorage at h
  cases hx : RVec.extendFromSlice c.alloc s1.storage (o.storage.truncate (blocksForElements c (len c o))).data with
  | error e => simp only [hx] at h; cases h
  | ok v =>
    simp only [hx, hsm, Bool.false_eq_true, if_false] at h
    rw [M.read_bind] at h
    cases hu : uAdd c.build s1.num (len c o) with
    | error e => simp only [hu] at h; cases h
    | ok n =>
      simp only [hu] at h
      rw [M.lift_ok_bind] at h
      cases h
      exact ⟨rfl, rfl⟩

theorem splitOff_any {s : EV c.W} (h : Real c s) (i : Nat) :
    UbRun c (splitOff c i s) (i < len c s) ∧ (i < len c s → (splitOff c i s).2 = s) ∧ ∀ o s', splitOff c i s = (.ok o, s') → Real c o := by
  unfold splitOff
  split
  · next hle =>
    have hw := withCapacity_holds hc (len c s - i)
    have hk := withCapacity_keeps hc (len c s - i)
    dsimp only
    cases hx : EV.withCapacity c (len c s - i) with
    | error e =>
      rw [hx] at hw
      dsimp only
      rw [hw.1]
      exact ⟨.oom h, fun _ => rfl, nofun⟩
    | ok o =>
      rw [hx] at hk
      have ho : Safe c o := hk
      have hz : o.storage.data = [] := by
        unfold EV.withCapacity RVec.withCapacity at hx
        split at hx
        · next st hst => split at hst <;> cases hst; cases hx; rfl
        · cases hx
      dsimp only
      by_cases hi : i < len c s
      · have hn : len c s - i = (len c s - i - 1) + 1 := by omega
        have e : loop (splitOffStep c i) (len c s - i) 0 () (s, { o with num := len c s - i }) = (.error .ub, (s, { o with num := len c s - i })) := by
          rw [hn]
          unfold EnumVecModel.loop
          refine M.bind_error ?_
          unfold splitOffStep
          by_cases hsl : i + 0 < slots c s
          · rw [M.bind_ok (show onFst (getRawUnchecked c (i + 0)) (s, _) = (.ok (raw c s (i + 0)), (s, _)) by
              unfold onFst; rw [getRawUnchecked_ok hc s hsl])]
            unfold onSnd
            rw [setRawUnchecked_ub hc _ _ (show slots c _ ≤ 0 by show o.storage.data.length * _ ≤ 0; rw [hz]; simp)]
          · rw [M.bind_error (show onFst (getRawUnchecked c (i + 0)) (s, _) = (.error .ub, (s, _)) by
              unfold onFst; rw [getRawUnchecked_ub hc s (Nat.le_of_not_lt hsl)])]
        rw [e]
        exact ⟨.ub h hi, fun _ => rfl, nofun⟩
      · have hn : len c s - i = 0 := by omega
        rw [hn]
        refine ⟨.ok (h.setNum (by have := h.lenLt; omega)) hi _, fun h => absurd h hi, fun o' s' he => ?_⟩
        cases he
        exact (Safe.real hc ho).setNum (by have := h.lenLt; omega)
  · exact ⟨.err h (by omega) nofun, fun _ => rfl, nofun⟩

theorem clone_ub {s : EV c.W} (h : Real c s) : Res (EV.clone c s) (fun s' => Real c s') (fun e => e = .capacity) := by
  unfold EV.clone RVec.clone
  cases hx : c.alloc.exact s.storage.len with
  | none => rfl
  | some k => exact ⟨h.lenLt, hc.lawful.exact_ge _ _ hx, hc.bounded.exact _ _ hx⟩


/-! ## Reading -/

omit hc in
theorem slots_shape {s s' : EV c.W} (h : SameShape c s s') : slots c s' = slots c s := congrArg (· * c.epb) h.len

theorem hash_ub (s : EV c.W) : ∀ n i, i ≤ slots c s → (EV.hashLoop c s n i = .error .ub ↔ slots c s < i + n) ∧ EV.hashLoop c s n i ≠ .error .capacity
  | 0, i, hi => ⟨iff_of_false nofun (by omega), nofun⟩
  | n + 1, i, hi => by
    unfold EV.hashLoop
    by_cases h : i < slots c s
    · rw [rawUnchecked_ok hc s h]
      have := hash_ub s n (i + 1) h
      dsimp only
      cases hx : EV.hashLoop c s n (i + 1) with
      | ok l =>
        rw [hx] at this
        exact ⟨iff_of_false nofun (fun hlt => absurd (this.1.mpr (by omega)) nofun), nofun⟩
      | error e =>
        rw [hx] at this
        show ((Except.error e : Except Fault (List Nat)) = _ ↔ _) ∧ (Except.error e : Except Fault (List Nat)) ≠ _
        rw [show i + (n + 1) = i + 1 + n by omega]
        exact this
    · rw [rawUnchecked_ub hc s (Nat.le_of_not_lt h)]
      exact ⟨iff_of_true rfl (by omega), nofun⟩

theorem eq_ub (s o : EV c.W) : ∀ n i, i ≤ slots c s → i ≤ slots c o →
    (EV.eqLoop c s o n i = .error .ub ↔ (slots c s < i + n ∨ slots c o < i + n) ∧
      ∀ j, i ≤ j → j < slots c s → j < slots c o → number c s j = number c o j) ∧ EV.eqLoop c s o n i ≠ .error .capacity
  | 0, i, hi, hj => ⟨iff_of_false nofun (by omega), nofun⟩
  | n + 1, i, hi, hj => by
    unfold EV.eqLoop
    by_cases h1 : i < slots c s
    · rw [rawUnchecked_ok hc s h1]
      by_cases h2 : i < slots c o
      · rw [rawUnchecked_ok hc o h2]
        dsimp only
        by_cases he : raw c s i = raw c o i
        · rw [if_neg (fun h => h he)]
          obtain ⟨h3, h4⟩ := eq_ub s o n (i + 1) h1 h2
          refine ⟨h3.trans ?_, h4⟩
          rw [show i + (n + 1) = i + 1 + n by omega]
          refine and_congr_right fun _ => ⟨fun h j k1 k2 k3 => ?_, fun h j k1 => h j (by omega)⟩
          by_cases hij : i = j
          · subst hij; rw [number_eq hc s k2, number_eq hc o k3, he]
          · exact h j (by omega) k2 k3
        · rw [if_pos he]
          refine ⟨iff_of_false nofun fun h => he ?_, nofun⟩
          have := h.2 i (Nat.le_refl i) h1 h2
          rwa [number_eq hc s h1, number_eq hc o h2] at this
      · rw [rawUnchecked_ub hc o (Nat.le_of_not_lt h2)]
        exact ⟨iff_of_true rfl ⟨by omega, fun j _ _ _ => by omega⟩, nofun⟩
    · rw [rawUnchecked_ub hc s (Nat.le_of_not_lt h1)]
      cases rawUnchecked c o i <;> exact ⟨iff_of_true rfl ⟨by omega, fun j _ _ _ => by omega⟩, nofun⟩

theorem numbers_drop (s : EV c.W) {i : Nat} (h : i < slots c s) : (numbers c s).drop i = raw c s i :: (numbers c s).drop (i + 1) := by
  unfold numbers
  rw [← List.map_drop, ← List.map_drop, List.drop_eq_getElem_cons (i := i) (by simpa using h), List.map_cons, List.getElem_range, number_eq hc s h]

omit hc in
theorem numbers_end (s : EV c.W) {i : Nat} (h : slots c s ≤ i) : (numbers c s).drop i = [] :=
  List.drop_eq_nil_of_le (by unfold numbers; simpa using h)

/-- No undefined behaviour, no change, whatever the state. -/
def Calm (c : Inst α) (m : M (EV c.W) β) : Prop := ∀ s, (m s).1 ≠ .error .ub ∧ (m s).2 = s

omit hc in
theorem Calm.bind {γ : Type} {m : M (EV c.W) β} {f : β → M (EV c.W) γ} (hm : Calm c m) (hf : ∀ b, Calm c (f b)) : Calm c (m >>= f) := fun s => by
  obtain ⟨h1, h2⟩ := hm s
  rcases hx : m s with ⟨e | b, s'⟩ <;> rw [hx] at h1 h2
  · rw [M.bind_error hx]; exact ⟨fun he => h1 (by cases he; rfl), h2⟩
  · rw [M.bind_ok hx]
    obtain rfl : s' = s := h2
    exact hf b s'

omit hc in
theorem Calm.pure (b : β) : Calm c (Pure.pure b : M (EV c.W) β) := fun _ => ⟨nofun, rfl⟩

omit hc in
theorem Calm.lift {r : Except Fault β} (h : r ≠ .error .ub) : Calm c (M.lift r) := fun _ => ⟨h, rfl⟩

omit hc in
theorem block_calm (i : Nat) : Calm c (block c i) := fun s => by
  unfold block; split <;> exact ⟨nofun, rfl⟩

omit hc in
theorem ite_calm {p : Prop} [Decidable p] {a b : M (EV c.W) β} (ha : Calm c a) (hb : Calm c b) : Calm c (if p then a else b) := by
  split <;> assumption

omit hc in
theorem anyBlocks_calm (v : BitVec c.W) : ∀ n i, Calm c (anyBlocks c v n i)
  | 0, _ => Calm.pure _
  | n + 1, i => (block_calm i).bind fun _ => ite_calm (Calm.pure _) (anyBlocks_calm v n (i + 1))

omit hc in
theorem allBlocks_calm (u v : BitVec c.W) : ∀ n i, Calm c (allBlocks c u v n i)
  | 0, _ => Calm.pure _
  | n + 1, i => (block_calm i).bind fun _ => ite_calm (Calm.pure _) (allBlocks_calm u v n (i + 1))

omit hc in
theorem any_calm (x : α) : Calm c (EV.any c x) := fun s => by
  unfold EV.any
  rw [M.read_bind]
  refine ite_calm (Calm.pure _) ((Calm.lift (blkMul_ne _ _ _)).bind fun _ => (anyBlocks_calm _ _ _).bind fun _ => ite_calm (Calm.pure _) (ite_calm ?_ (Calm.pure _))) s
  exact (block_calm _).bind fun _ => ite_calm (Calm.pure _) (Calm.pure _)

omit hc in
theorem all_calm (x : α) : Calm c (EV.all c x) := fun s => by
  unfold EV.all
  rw [M.read_bind]
  refine ite_calm (Calm.pure _) ((Calm.lift (blkMul_ne _ _ _)).bind fun _ => (allBlocks_calm _ _ _ _).bind fun _ => ite_calm (Calm.pure _) (ite_calm ?_ (Calm.pure _))) s
  exact (block_calm _).bind fun _ => ite_calm (Calm.pure _) (Calm.pure _)

omit hc in
theorem UbRun.of_calm {m : M (EV c.W) β} (hm : Calm c m) {s : EV c.W} (h : Real c s) : UbRun c (m s) False :=
  ⟨by rw [(hm s).2]; exact h, fun _ => iff_of_false (hm s).1 id⟩


/-! ## Closures -/

/-- What a loop that calls a closure on the elements does, from position `i`, when the storage is too short. -/
def Breaks (c : Inst α) (s : EV c.W) {γ : Type} (f : Closure τ α γ) (i : Nat) (t : τ) (r : Except Fault β × (EV c.W × τ)) : Prop :=
  SameShape c s r.2.1 ∧ ∃ e, r.1 = .error e ∧ e ≠ .capacity ∧ (e = .ub ↔ Completes c f ((numbers c s).drop i) t)

theorem retainLoop_short (hb : ∀ x, c.E.toDiscr x < 2 ^ c.bits) (f : Closure τ α Bool) {s : EV c.W} (hs : Short c s) :
    ∀ (n i iSet : Nat) (s' : EV c.W) (t : τ), i + n = s.num → i ≤ slots c s → iSet ≤ i → SameShape c s s' →
      (∀ k, i ≤ k → raw c s' k = raw c s k) → Breaks c s f i t (loop (retainStep c f) n i iSet (s', t))
  | 0, i, iSet, s', t, hn, hi, _, _, _ => by
    have : slots c s < s.num := hs
    omega
  | n + 1, i, iSet, s', t, hn, hi, hset, hsh, hraw => by
    have hlt : slots c s < s.num := hs
    have en : s'.num = s.num := hsh.num
    have esl := slots_shape hsh
    unfold EnumVecModel.loop
    by_cases h : i < slots c s
    · unfold Breaks
      rw [numbers_drop hc s h]
      cases hd : c.E.fromDiscr (raw c s i) with
      | none =>
        have g : EV.get c i s' = (.error .badDiscr, s') := by
          rw [get_any hc, if_pos (by omega), if_pos (by omega), hraw i (Nat.le_refl i), hd]
        have g1 : retainStep c f i iSet (s', t) = (.error .badDiscr, (s', t)) := by
          unfold retainStep
          rw [M.bind_error (onFst_eq g t)]
        rw [M.bind_error g1]
        refine ⟨hsh, _, rfl, nofun, iff_of_false nofun ?_⟩
        rintro ⟨x, y, t', h1, -⟩
        rw [hd] at h1; cases h1
      | some x =>
        have g : EV.get c i s' = (.ok (some x), s') := by
          rw [get_any hc, if_pos (by omega), if_pos (by omega), hraw i (Nat.le_refl i), hd]
        rcases hf : f x t with ⟨_ | b, t'⟩
        · have hcall : call f x (s', t) = (.error .user, (s', t')) := by unfold call; rw [hf]
          have g1 : retainStep c f i iSet (s', t) = (.error .user, (s', t')) := by
            unfold retainStep
            rw [M.bind_ok (onFst_eq g t), M.unwrap_some_bind, M.bind_error hcall]
          rw [M.bind_error g1]
          refine ⟨hsh, _, rfl, nofun, iff_of_false nofun ?_⟩
          rintro ⟨x', y, t', h1, h2, -⟩
          rw [hd] at h1; cases h1
          rw [hf] at h2; cases h2
        · have hcall : call f x (s', t) = (.ok b, (s', t')) := by unfold call; rw [hf]
          have fin : ∀ s'' iSet', iSet' ≤ i + 1 → SameShape c s s'' → (∀ k, i + 1 ≤ k → raw c s'' k = raw c s k) →
              retainStep c f i iSet (s', t) = (.ok iSet', (s'', t')) →
              SameShape c s ((retainStep c f i iSet >>= fun a => loop (retainStep c f) n (i + 1) a) (s', t)).2.1 ∧
              ∃ e, ((retainStep c f i iSet >>= fun a => loop (retainStep c f) n (i + 1) a) (s', t)).1 = .error e ∧ e ≠ .capacity ∧
                (e = .ub ↔ Completes c f (raw c s i :: (numbers c s).drop (i + 1)) t) := by
            intro s'' iSet' k1 k2 k3 k4
            rw [M.bind_ok k4]
            obtain ⟨p1, e, p2, p3, p4⟩ := retainLoop_short hb f hs n (i + 1) iSet' s'' t' (by omega) h k1 k2 k3
            refine ⟨p1, e, p2, p3, p4.trans ⟨fun hp => ⟨x, b, t', hd, hf, hp⟩, ?_⟩⟩
            rintro ⟨x', y, t'', h1, h2, h3⟩
            rw [hd] at h1; cases h1
            rw [hf] at h2; cases h2
            exact h3
          cases b with
          | false =>
            refine fin s' iSet (by omega) hsh (fun k hk => hraw k (by omega)) ?_
            unfold retainStep
            rw [M.bind_ok (onFst_eq g t), M.unwrap_some_bind, M.bind_ok hcall]; rfl
          | true =>
            have g2 : EV.set c iSet x s' = (.ok (), putRaw c s' iSet (c.E.toDiscr x)) := by
              unfold EV.set
              rw [setRaw_any hc, if_pos (by omega), if_pos (by omega)]
            refine fin (putRaw c s' iSet (c.E.toDiscr x)) (iSet + 1) (by omega) (hsh.trans (putRaw_shape c s' _ _)) (fun k hk => ?_) ?_
            · rw [raw_putRaw hc s' k (show iSet < slots c s' by omega) (hb x), if_neg (by omega)]
              exact hraw k (by omega)
            · unfold retainStep
              rw [M.bind_ok (onFst_eq g t), M.unwrap_some_bind, M.bind_ok hcall, if_pos rfl, M.bind_ok (onFst_eq g2 t')]; rfl
    · have g : EV.get c i s' = (.error .ub, s') := by
        rw [get_any hc, if_pos (by omega), if_neg (by omega)]
      have g1 : retainStep c f i iSet (s', t) = (.error .ub, (s', t)) := by
        unfold retainStep
        rw [M.bind_error (onFst_eq g t)]
      unfold Breaks
      rw [M.bind_error g1, numbers_end s (Nat.le_of_not_lt h)]
      exact ⟨hsh, _, rfl, nofun, iff_of_true rfl trivial⟩

theorem forEachLoop_short (hb : ∀ x, c.E.toDiscr x < 2 ^ c.bits) (f : Closure τ α α) {s : EV c.W} (hs : Short c s) :
    ∀ (n i : Nat) (s' : EV c.W) (t : τ), i + n = s.num → i ≤ slots c s → SameShape c s s' →
      (∀ k, i ≤ k → raw c s' k = raw c s k) → Breaks c s f i t (loop (forEachStep c f) n i () (s', t))
  | 0, i, s', t, hn, hi, _, _ => by
    have : slots c s < s.num := hs
    omega
  | n + 1, i, s', t, hn, hi, hsh, hraw => by
    have hlt : slots c s < s.num := hs
    have en : s'.num = s.num := hsh.num
    have esl := slots_shape hsh
    unfold EnumVecModel.loop
    by_cases h : i < slots c s
    · unfold Breaks
      rw [numbers_drop hc s h]
      cases hd : c.E.fromDiscr (raw c s i) with
      | none =>
        have g : EV.get c i s' = (.error .badDiscr, s') := by
          rw [get_any hc, if_pos (by omega), if_pos (by omega), hraw i (Nat.le_refl i), hd]
        have g1 : forEachStep c f i () (s', t) = (.error .badDiscr, (s', t)) := by
          unfold forEachStep
          rw [M.bind_error (onFst_eq g t)]
        rw [M.bind_error g1]
        refine ⟨hsh, _, rfl, nofun, iff_of_false nofun ?_⟩
        rintro ⟨x, y, t', h1, -⟩
        rw [hd] at h1; cases h1
      | some x =>
        have g : EV.get c i s' = (.ok (some x), s') := by
          rw [get_any hc, if_pos (by omega), if_pos (by omega), hraw i (Nat.le_refl i), hd]
        rcases hf : f x t with ⟨_ | y, t'⟩
        · have hcall : call f x (s', t) = (.error .user, (s', t')) := by unfold call; rw [hf]
          have g1 : forEachStep c f i () (s', t) = (.error .user, (s', t')) := by
            unfold forEachStep
            rw [M.bind_ok (onFst_eq g t), M.unwrap_some_bind, M.bind_error hcall]
          rw [M.bind_error g1]
          refine ⟨hsh, _, rfl, nofun, iff_of_false nofun ?_⟩
          rintro ⟨x', y, t', h1, h2, -⟩
          rw [hd] at h1; cases h1
          rw [hf] at h2; cases h2
        · have hcall : call f x (s', t) = (.ok y, (s', t')) := by unfold call; rw [hf]
          have g2 : EV.set c i y s' = (.ok (), putRaw c s' i (c.E.toDiscr y)) := by
            unfold EV.set
            rw [setRaw_any hc, if_pos (by omega), if_pos (by omega)]
          have g3 : forEachStep c f i () (s', t) = (.ok (), (putRaw c s' i (c.E.toDiscr y), t')) := by
            unfold forEachStep
            rw [M.bind_ok (onFst_eq g t), M.unwrap_some_bind, M.bind_ok hcall, onFst_eq g2 t']
          rw [M.bind_ok g3]
          obtain ⟨p1, e, p2, p3, p4⟩ := forEachLoop_short hb f hs n (i + 1) (putRaw c s' i (c.E.toDiscr y)) t' (by omega) h
            (hsh.trans (putRaw_shape c s' _ _)) (fun k hk => by
              rw [raw_putRaw hc s' k (show i < slots c s' by omega) (hb y), if_neg (by omega)]
              exact hraw k (by omega))
          refine ⟨p1, e, p2, p3, p4.trans ⟨fun hp => ⟨x, y, t', hd, hf, hp⟩, ?_⟩⟩
          rintro ⟨x', y, t'', h1, h2, h3⟩
          rw [hd] at h1; cases h1
          rw [hf] at h2; cases h2
          exact h3
    · have g : EV.get c i s' = (.error .ub, s') := by
        rw [get_any hc, if_pos (by omega), if_neg (by omega)]
      have g1 : forEachStep c f i () (s', t) = (.error .ub, (s', t)) := by
        unfold forEachStep
        rw [M.bind_error (onFst_eq g t)]
      unfold Breaks
      rw [M.bind_error g1, numbers_end s (Nat.le_of_not_lt h)]
      exact ⟨hsh, _, rfl, nofun, iff_of_true rfl trivial⟩

/-- As `UbRun`, for a call with a closure. -/
def UbRunW (c : Inst α) (r : Except Fault β × (EV c.W × τ)) (P : Prop) : Prop :=
  Real c r.2.1 ∧ (r.1 ≠ .error .capacity → (r.1 = .error .ub ↔ P))

omit hc in
theorem Breaks.run {s : EV c.W} {γ : Type} {f : Closure τ α γ} {t : τ} {r : Except Fault β × (EV c.W × τ)} (hr : Real c s) (hs : Short c s)
    (h : Breaks c s f 0 t r) : UbRunW c r (Short c s ∧ Completes c f (numbers c s) t) := by
  obtain ⟨h1, e, h2, h3, h4⟩ := h
  refine ⟨h1.real hr, fun _ => ?_⟩
  rw [h2]
  exact ⟨fun he => ⟨hs, h4.mp (by cases he; rfl)⟩, fun hp => by rw [h4.mpr hp.2]⟩

theorem UbRunW.of_keeps {m : M (EV c.W × τ) β} (hk : Keeps1 c m) {s : EV c.W} (hs : Safe c s) (t : τ) {P : Prop} (hP : ¬ P) : UbRunW c (m (s, t)) P := by
  have := hk (s, t) hs
  rcases hx : m (s, t) with ⟨e | b, s'⟩ <;> rw [hx] at this
  · exact ⟨Safe.real hc this.2, fun _ => iff_of_false (fun he => this.1 (by cases he; rfl)) hP⟩
  · exact ⟨Safe.real hc this, fun _ => iff_of_false nofun hP⟩

theorem retain_ub (hb : ∀ x, c.E.toDiscr x < 2 ^ c.bits) (f : Closure τ α Bool) {s : EV c.W} (h : Real c s) (t : τ) :
    UbRunW c (retain c f (s, t)) (Short c s ∧ Completes c f (numbers c s) t) := by
  by_cases hs : Short c s
  · refine Breaks.run h hs ?_
    obtain ⟨h1, e, h2, h3⟩ := retainLoop_short hc hb f hs s.num 0 0 s t (by omega) (Nat.zero_le _) (Nat.le_refl _) (SameShape.refl s) (fun _ _ => rfl)
    rcases hx : loop (retainStep c f) s.num 0 0 (s, t) with ⟨e' | b, p⟩ <;> rw [hx] at h1 h2
    · unfold retain
      rw [M.read_bind, M.bind_error (show loop (retainStep c f) (len c (s, t).1) 0 0 (s, t) = _ from hx)]
      cases h2
      exact ⟨h1, _, rfl, h3⟩
    · cases h2
  · exact .of_keeps hc (retain_keeps hc f) (h.safe hs) t fun hp => hs hp.1

theorem forEach_ub (hb : ∀ x, c.E.toDiscr x < 2 ^ c.bits) (f : Closure τ α α) {s : EV c.W} (h : Real c s) (t : τ) :
    UbRunW c (forEach c f (s, t)) (Short c s ∧ Completes c f (numbers c s) t) := by
  by_cases hs : Short c s
  · refine Breaks.run h hs ?_
    exact forEachLoop_short hc hb f hs s.num 0 s t (by omega) (Nat.zero_le _) (SameShape.refl s) (fun _ _ => rfl)
  · exact .of_keeps hc (forEach_keeps hc f) (h.safe hs) t fun hp => hs hp.1

/-! ## Iterators -/

theorem item_any {t : It c.W} {i : Nat} (hi : i < t.v.num) :
    item c i t = if i < slots c t.v then
      (match c.E.fromDiscr (raw c t.v i) with
        | some a => (.ok a, t)
        | none => (.error .badDiscr, t)) else (.error .ub, t) := by
  unfold item
  rw [get_any hc, if_pos hi]
  by_cases hs : i < slots c t.v
  · rw [if_pos hs, if_pos hs]
    cases c.E.fromDiscr (raw c t.v i) <;> rfl
  · rw [if_neg hs, if_neg hs]

theorem collect_ub : ∀ (n : Nat) (t : It c.W), t.hi = t.v.num → t.lo + n = t.hi + 1 → t.lo ≤ slots c t.v →
    ((collect c n t).1 = .error .ub ↔ slots c t.v < t.hi ∧ ∀ d ∈ (numbers c t.v).drop t.lo, (c.E.fromDiscr d).isSome) ∧
    (collect c n t).1 ≠ .error .capacity
  | 0, t, h1, h2, h3 => ⟨iff_of_false nofun (by omega), nofun⟩
  | n + 1, t, h1, h2, h3 => by
    unfold collect
    by_cases hlt : t.lo < t.hi
    · have e1 : rangeNext c t = (some t.lo, { t with lo := t.lo + 1 }) := by unfold rangeNext; rw [if_pos hlt]
      have e2 := item_any hc (t := { t with lo := t.lo + 1 }) (i := t.lo) (by show t.lo < t.v.num; omega)
      by_cases hsl : t.lo < slots c t.v
      · rw [if_pos (show t.lo < slots c (It.v { t with lo := t.lo + 1 }) from hsl)] at e2
        rw [numbers_drop hc _ hsl]
        simp only [List.forall_mem_cons]
        cases hd : c.E.fromDiscr (raw c t.v t.lo) with
        | none =>
          simp only [hd] at e2
          have e3 : EV.next c t = (.error .badDiscr, { t with lo := t.lo + 1 }) := by
            unfold EV.next mapItem; rw [e1]; exact M.bind_error e2
          rw [M.bind_error e3]
          exact ⟨iff_of_false nofun (by simp), nofun⟩
        | some a =>
          simp only [hd] at e2
          have e3 : EV.next c t = (.ok (some a), { t with lo := t.lo + 1 }) := by
            unfold EV.next mapItem; rw [e1]; exact M.bind_ok e2
          rw [M.bind_ok e3]
          obtain ⟨k1, k2⟩ := collect_ub n { t with lo := t.lo + 1 } h1 (by show t.lo + 1 + n = t.hi + 1; omega) hsl
          rcases hx : collect c n { t with lo := t.lo + 1 } with ⟨e | l, t'⟩ <;> rw [hx] at k1 k2
          · dsimp only
            rw [M.bind_error hx]
            exact ⟨k1.trans (by simp), k2⟩
          · dsimp only
            rw [M.bind_ok hx]
            exact ⟨iff_of_false nofun fun hp => absurd (k1.mpr ⟨hp.1, hp.2.2⟩) nofun, nofun⟩
      · rw [if_neg (show ¬ t.lo < slots c (It.v { t with lo := t.lo + 1 }) from hsl)] at e2
        have e3 : EV.next c t = (.error .ub, { t with lo := t.lo + 1 }) := by
          unfold EV.next mapItem; rw [e1]; exact M.bind_error e2
        rw [M.bind_error e3, numbers_end _ (Nat.le_of_not_lt hsl)]
        exact ⟨iff_of_true rfl ⟨by omega, nofun⟩, nofun⟩
    · have e1 : rangeNext c t = (none, t) := by unfold rangeNext; rw [if_neg hlt]
      have e3 : EV.next c t = (.ok none, t) := by
        unfold EV.next mapItem; rw [e1]; rfl
      rw [M.bind_ok e3]
      exact ⟨iff_of_false nofun (by omega), nofun⟩

/-- One call of an iterator: the position it visits, if any, and what it leaves. -/
theorem iterStep_any (o : IterOp) (t : It c.W) (ht : t.hi < c.build.usizeLim) :
    ∃ t', t'.v = t.v ∧ t'.hi ≤ t.hi ∧ List.range' t'.lo (t'.hi - t'.lo) = (iterSpec (List.range' t.lo (t.hi - t.lo)) o).2 ∧
      match (iterSpec (List.range' t.lo (t.hi - t.lo)) o).1 with
      | .item (some i) => i < t.hi ∧ iterStep c o t = (item c i >>= fun a => pure (.item (some a))) t'
      | .item none => iterStep c o t = (.ok (.item none), t')
      | .hint a b => iterStep c o t = (.ok (.hint a b), t') := by
  have hlen : (List.range' t.lo (t.hi - t.lo)).length = t.hi - t.lo := List.length_range'
  cases o with
  | next =>
    by_cases h : t.lo < t.hi
    · have e1 : rangeNext c t = (some t.lo, { t with lo := t.lo + 1 }) := by unfold rangeNext; rw [if_pos h]
      refine ⟨{ t with lo := t.lo + 1 }, rfl, Nat.le_refl _, ?_⟩
      rw [show t.hi - t.lo = (t.hi - (t.lo + 1)) + 1 by omega, List.range'_succ]
      refine ⟨rfl, h, ?_⟩
      show (EV.next c >>= _) t = _
      rw [M.bind_apply, show EV.next c t = (item c t.lo >>= fun a => pure (some a)) { t with lo := t.lo + 1 } by
        unfold EV.next mapItem; rw [e1]]
      simp only [M.bind_apply]
      rcases item c t.lo { t with lo := t.lo + 1 } with ⟨e | b, t'⟩ <;> rfl
    · have e1 : rangeNext c t = (none, t) := by unfold rangeNext; rw [if_neg h]
      refine ⟨t, rfl, Nat.le_refl _, ?_⟩
      rw [show t.hi - t.lo = 0 by omega]
      refine ⟨rfl, ?_⟩
      show (EV.next c >>= _) t = _
      rw [M.bind_ok (show EV.next c t = (.ok none, t) by unfold EV.next mapItem; rw [e1]; rfl)]
      rfl
  | nextBack =>
    by_cases h : t.lo < t.hi
    · have e1 : rangeNextBack c t = (some (t.hi - 1), { t with hi := t.hi - 1 }) := by unfold rangeNextBack; rw [if_pos h]
      refine ⟨{ t with hi := t.hi - 1 }, rfl, Nat.sub_le _ _, ?_⟩
      have e2 : List.range' t.lo (t.hi - t.lo) = List.range' t.lo (t.hi - 1 - t.lo) ++ [t.hi - 1] := by
        rw [show t.hi - t.lo = (t.hi - 1 - t.lo) + 1 by omega, List.range'_1_concat]
        rw [show t.lo + (t.hi - 1 - t.lo) = t.hi - 1 by omega]
      rw [e2]
      simp only [iterSpec, List.getLast?_append, List.getLast?_singleton, Option.some_or, List.dropLast_concat]
      refine ⟨trivial, by omega, ?_⟩
      show (EV.nextBack c >>= _) t = _
      rw [M.bind_apply, show EV.nextBack c t = (item c (t.hi - 1) >>= fun a => pure (some a)) { t with hi := t.hi - 1 } by
        unfold EV.nextBack mapItem; rw [e1]]
      simp only [M.bind_apply]
      rcases item c (t.hi - 1) { t with hi := t.hi - 1 } with ⟨e | b, t'⟩ <;> rfl
    · have e1 : rangeNextBack c t = (none, t) := by unfold rangeNextBack; rw [if_neg h]
      refine ⟨t, rfl, Nat.le_refl _, ?_⟩
      rw [show t.hi - t.lo = 0 by omega]
      refine ⟨rfl, ?_⟩
      show (EV.nextBack c >>= _) t = _
      rw [M.bind_ok (show EV.nextBack c t = (.ok none, t) by unfold EV.nextBack mapItem; rw [e1]; rfl)]
      rfl
  | nth k =>
    by_cases h : t.lo + k < t.hi
    · have e1 : rangeNth c k t = (some (t.lo + k), { t with lo := t.lo + k + 1 }) := by
        unfold rangeNth; rw [if_pos ⟨by omega, h⟩]
      refine ⟨{ t with lo := t.lo + k + 1 }, rfl, Nat.le_refl _, ?_⟩
      have e2 : (List.range' t.lo (t.hi - t.lo))[k]? = some (t.lo + k) := by
        rw [List.getElem?_range' (by omega)]; simp
      simp only [iterSpec, e2, List.drop_range']
      refine ⟨by rw [show t.hi - t.lo - (k + 1) = t.hi - (t.lo + k + 1) by omega, show t.lo + (k + 1) * 1 = t.lo + k + 1 by omega], h, ?_⟩
      show (EV.nth c k >>= _) t = _
      rw [M.bind_apply, show EV.nth c k t = (item c (t.lo + k) >>= fun a => pure (some a)) { t with lo := t.lo + k + 1 } by
        unfold EV.nth mapItem; rw [e1]]
      simp only [M.bind_apply]
      rcases item c (t.lo + k) { t with lo := t.lo + k + 1 } with ⟨e | b, t'⟩ <;> rfl
    · have e1 : rangeNth c k t = (none, { t with lo := t.hi }) := by
        unfold rangeNth; rw [if_neg (fun hp => h hp.2)]
      refine ⟨{ t with lo := t.hi }, rfl, Nat.le_refl _, ?_⟩
      have e2 : (List.range' t.lo (t.hi - t.lo))[k]? = none := List.getElem?_eq_none (by omega)
      simp only [iterSpec, e2]
      refine ⟨?_, ?_⟩
      · rw [List.drop_eq_nil_of_le (by omega), Nat.sub_self]; rfl
      · show (EV.nth c k >>= _) t = _
        rw [M.bind_ok (show EV.nth c k t = (.ok none, { t with lo := t.hi }) by unfold EV.nth mapItem; rw [e1]; rfl)]
        rfl
  | sizeHint =>
    refine ⟨t, rfl, Nat.le_refl _, rfl, ?_⟩
    simp only [iterSpec, hlen]
    rfl

/-- The positions visited by an iterator over these positions. -/
def visits (calls : List IterOp) (l : List Nat) : List Nat :=
  (iterSpecRun calls l).1.filterMap fun
    | .item i => i
    | .hint _ _ => none

/-- The first position outside the storage is reached. -/
def Hits (c : Inst α) (s : EV c.W) (l : List Nat) : Prop :=
  ∃ pre i post, l = pre ++ i :: post ∧ slots c s ≤ i ∧ ∀ j ∈ pre, j < slots c s ∧ ReadsAt c s j

omit hc in
theorem hits_nil (s : EV c.W) : ¬ Hits c s [] := by
  rintro ⟨pre, i, post, h, -⟩
  cases pre <;> cases h

omit hc in
theorem hits_cons (s : EV c.W) (i : Nat) (l : List Nat) : Hits c s (i :: l) ↔ slots c s ≤ i ∨ (i < slots c s ∧ ReadsAt c s i) ∧ Hits c s l := by
  constructor
  · rintro ⟨_ | ⟨j, pre⟩, k, post, h1, h2, h3⟩
    · cases h1; exact Or.inl h2
    · cases h1
      exact Or.inr ⟨h3 _ List.mem_cons_self, pre, k, post, rfl, h2, fun x hx => h3 x (List.mem_cons_of_mem _ hx)⟩
  · rintro (h | ⟨h, pre, k, post, rfl, h2, h3⟩)
    · exact ⟨[], i, l, rfl, h, nofun⟩
    · refine ⟨i :: pre, k, post, rfl, h2, fun x hx => ?_⟩
      rcases List.mem_cons.mp hx with rfl | hx
      · exact h
      · exact h3 x hx

theorem iterRun_ub : ∀ (calls : List IterOp) (t : It c.W), t.hi < c.build.usizeLim → t.hi ≤ t.v.num →
    ((iterRun c calls t).1 = .error .ub ↔ Hits c t.v (visits calls (List.range' t.lo (t.hi - t.lo)))) ∧
    (iterRun c calls t).1 ≠ .error .capacity
  | [], t, _, _ => ⟨iff_of_false nofun (hits_nil _), nofun⟩
  | o :: calls, t, ht, hn => by
    obtain ⟨t', h1, h2, h3, h4⟩ := iterStep_any hc o t ht
    obtain ⟨k1, k2⟩ := iterRun_ub calls t' (by omega) (by rw [h1]; omega)
    rw [h3, h1] at k1
    have fin : ∀ r, iterStep c o t = (.ok r, t') →
        ((iterRun c (o :: calls) t).1 = .error .ub ↔ Hits c t.v (visits calls (iterSpec (List.range' t.lo (t.hi - t.lo)) o).2)) ∧
        (iterRun c (o :: calls) t).1 ≠ .error .capacity := by
      intro r hr
      unfold iterRun
      rw [M.bind_ok hr]
      rcases hx : iterRun c calls t' with ⟨e | rs, t''⟩ <;> rw [hx] at k1 k2
      · rw [M.bind_error hx]
        exact ⟨⟨fun h => k1.mp (by cases h; rfl), fun h => by have := k1.mpr h; cases this; rfl⟩, fun h => k2 (by cases h; rfl)⟩
      · rw [M.bind_ok hx]
        exact ⟨iff_of_false nofun fun h => absurd (k1.mpr h) nofun, nofun⟩
    unfold visits
    rw [show iterSpecRun (o :: calls) (List.range' t.lo (t.hi - t.lo)) = ((iterSpec (List.range' t.lo (t.hi - t.lo)) o).1 ::
      (iterSpecRun calls (iterSpec (List.range' t.lo (t.hi - t.lo)) o).2).1, (iterSpecRun calls (iterSpec (List.range' t.lo (t.hi - t.lo)) o).2).2) from rfl]
    dsimp only
    cases hr : (iterSpec (List.range' t.lo (t.hi - t.lo)) o).1 with
    | hint a b =>
      rw [hr] at h4
      rw [List.filterMap_cons_none rfl]
      exact fin _ h4
    | item x =>
      rw [hr] at h4
      cases x with
      | none =>
        rw [List.filterMap_cons_none rfl]
        exact fin _ h4
      | some i =>
        obtain ⟨hi, h4⟩ := h4
        rw [List.filterMap_cons_some (a := IterOut.item (some i)) (b := i) rfl, hits_cons]
        have hit := item_any hc (t := t') (i := i) (by rw [h1]; omega)
        rw [h1] at hit
        by_cases hs : i < slots c t.v
        · rw [if_pos hs] at hit
          have hnum : ReadsAt c t.v i ↔ (c.E.fromDiscr (raw c t.v i)).isSome := by unfold ReadsAt; rw [number_eq hc _ hs]
          rw [hnum]
          cases hd : c.E.fromDiscr (raw c t.v i) with
          | none =>
            simp only [hd] at hit
            rw [M.bind_error hit] at h4
            unfold iterRun
            rw [M.bind_error h4]
            exact ⟨iff_of_false nofun (by simp; omega), nofun⟩
          | some a =>
            simp only [hd] at hit
            rw [M.bind_ok hit] at h4
            obtain ⟨f1, f2⟩ := fin _ h4
            refine ⟨f1.trans ⟨fun h => Or.inr ⟨⟨hs, rfl⟩, h⟩, ?_⟩, f2⟩
            rintro (h | h)
            · omega
            · exact h.2
        · rw [if_neg hs] at hit
          rw [M.bind_error hit] at h4
          unfold iterRun
          rw [M.bind_error h4]
          exact ⟨iff_of_true rfl (Or.inl (Nat.le_of_not_lt hs)), nofun⟩

/-! ## One call -/

omit hc in
theorem Fault.out_ub_iff (e : Fault) : (e.out : Out α) = .ub ↔ e = .ub := by
  cases e <;> simp [Fault.out]

omit hc in
theorem Fault.out_oom_iff (e : Fault) : (e.out : Out α) = .oom ↔ e = .capacity := by
  cases e <;> simp [Fault.out]

/-- All variables hold vectors. -/
def RealMem (c : Inst α) (m : Mem c τ) : Prop := ∀ r, Real c (m.reg r)

omit hc in
theorem RealMem.upd {m : Mem c τ} (h : RealMem c m) {r : Nat} {s : EV c.W} (hs : Real c s) (w : τ) : RealMem c ⟨EnumVecModel.upd m.reg r s, w⟩ := fun k => by
  show Real c (EnumVecModel.upd m.reg r s k)
  unfold EnumVecModel.upd
  split
  · exact hs
  · exact h k

/-- What has to be shown of a step. -/
def UbStep (c : Inst α) (r : Out α × Mem c τ) (P : Prop) : Prop := RealMem c r.2 ∧ (r.1 ≠ .oom → (r.1 = .ub ↔ P))

omit hc in
theorem UbStep.call {m : Mem c τ} (h : RealMem c m) (r : Nat) {f : M (EV c.W) β} {out : β → Out α} (ho : ∀ b, out b ≠ .ub) {P : Prop}
    (hf : UbRun c (f (m.reg r)) P) : UbStep c (m.call r f out) P := by
  unfold Mem.call
  rcases hx : f (m.reg r) with ⟨e | b, s⟩ <;> rw [hx] at hf
  · refine ⟨h.upd hf.1 _, fun hne => ?_⟩
    have := hf.2 (fun he => hne (by cases he; rfl))
    exact (Fault.out_ub_iff e).trans ⟨fun he => this.mp (by rw [he]), fun hp => by have := this.mpr hp; cases this; rfl⟩
  · exact ⟨h.upd hf.1 _, fun _ => iff_of_false (ho b) fun hp => absurd ((hf.2 nofun).mpr hp) nofun⟩

omit hc in
theorem UbStep.callW {m : Mem c τ} (h : RealMem c m) (r : Nat) {f : M (EV c.W × τ) Unit} {P : Prop}
    (hf : UbRunW c (f (m.reg r, m.world)) P) : UbStep c (m.callW r f) P := by
  unfold Mem.callW
  rcases hx : f (m.reg r, m.world) with ⟨e | b, s⟩ <;> rw [hx] at hf
  · refine ⟨h.upd hf.1 _, fun hne => ?_⟩
    have := hf.2 (fun he => hne (by cases he; rfl))
    exact (Fault.out_ub_iff e).trans ⟨fun he => this.mp (by rw [he]), fun hp => by have := this.mpr hp; cases this; rfl⟩
  · exact ⟨h.upd hf.1 _, fun _ => iff_of_false nofun fun hp => absurd ((hf.2 nofun).mpr hp) nofun⟩

omit hc in
theorem UbStep.assign {m : Mem c τ} (h : RealMem c m) (r : Nat) {v : Except Fault (EV c.W)}
    (hv : Res v (fun s => Real c s) (fun e => e ≠ .ub)) : UbStep c (m.assign r v) False := by
  unfold Mem.assign
  cases v with
  | error e => exact ⟨h, fun _ => iff_of_false (fun he => hv ((Fault.out_ub_iff e).mp he)) id⟩
  | ok s => exact ⟨h.upd hv _, fun _ => iff_of_false nofun id⟩

omit hc in
theorem UbStep.assignRun {m : Mem c τ} (h : RealMem c m) (r : Nat) {s : EV c.W} {f : M (EV c.W) Unit} {P : Prop}
    (hf : UbRun c (f s) P) : UbStep c (m.assign r (build c s f)) P := by
  unfold Mem.assign build
  rcases hx : f s with ⟨e | b, s'⟩ <;> rw [hx] at hf
  · refine ⟨h, fun hne => ?_⟩
    have := hf.2 (fun he => hne (by cases he; rfl))
    exact (Fault.out_ub_iff e).trans ⟨fun he => this.mp (by rw [he]), fun hp => by have := this.mpr hp; cases this; rfl⟩
  · exact ⟨h.upd hf.1 _, fun _ => iff_of_false nofun fun hp => absurd ((hf.2 nofun).mpr hp) nofun⟩

theorem collect_limit_ub {m : Mem c τ} (h : RealMem c m) (r : Nat) (it : Src α) :
    UbStep c (m.assign r (build c (new c) (extend c it))) (c.Drops it.hint ∧ it.items ≠ []) := by
  have := UbStep.assignRun (c := c) h r (extend_ub hc (Safe.real hc (new_safe hc)) it)
  rw [show (new c : EV c.W).num = 0 from rfl, Nat.zero_add] at this
  exact this

omit hc in
theorem UbStep.ask {m : Mem c τ} (h : RealMem c m) {v : Except Fault β} {out : β → Out α} (ho : ∀ b, out b ≠ .ub) {P : Prop}
    (hv : v = .error .ub ↔ P) : UbStep c (m.ask v out) P := by
  unfold Mem.ask
  cases v with
  | error e => exact ⟨h, fun _ => (Fault.out_ub_iff e).trans ⟨fun he => hv.mp (by rw [he]), fun hp => by have := hv.mpr hp; cases this; rfl⟩⟩
  | ok b => exact ⟨h, fun _ => iff_of_false (ho b) fun hp => absurd (hv.mpr hp) nofun⟩

theorem Res.real {v : Except Fault (EV c.W)} (h : Res v (fun s => Safe c s) (fun e => e ≠ .ub)) : Res v (fun s => Real c s) (fun e => e ≠ .ub) :=
  h.mono (fun _ h => Safe.real hc h) (fun _ h => h)

theorem step_ub (m : Mem c τ) (h : RealMem c m) (op : Op τ α) (hop : (UOp.safe op : UOp c.W τ α).WellTyped c) (hb : (UOp.safe op : UOp c.W τ α).Edits → ∀ x, c.E.toDiscr x < 2 ^ c.bits) :
    UbStep c (step c m op) (op.Ub c m) := by
  cases op with
  | new r => exact .assign h r (Safe.real hc (new_safe hc))
  | withCapacity r n => exact .assign h r (Res.real hc (withCapacity_keeps hc n))
  | fromElem r x n => exact .assign h r (Res.real hc (build_keeps hc (extendWithValue_keeps hc x n)))
  | fromVec r xs => exact collect_limit_ub hc h r _
  | fromSlice r xs => exact collect_limit_ub hc h r _
  | fromIter r it => exact collect_limit_ub hc h r it
  | clone r src => exact .assign h r ((clone_ub hc (h src)).mono (fun _ h => h) (fun e he => by rw [he]; nofun))
  | len r => exact ⟨h, fun _ => iff_of_false nofun id⟩
  | isEmpty r => exact ⟨h, fun _ => iff_of_false nofun id⟩
  | get r i => exact .call h r nofun (get_ub hc (h r) i)
  | set r i x => exact .call h r nofun (setRaw_ub hc (h r) i _)
  | push r x => exact .call h r nofun (push_ub hc (h r) x)
  | pop r => exact .call h r nofun (pop_ub hc (h r))
  | insert r i x => exact .call h r nofun (insert_ub hc (h r) i x)
  | remove r i => exact .call h r nofun (remove_ub hc (h r) i)
  | swap r i j => exact .call h r nofun (swap_ub hc (h r) i j)
  | swapRemove r i => exact .call h r nofun (swapRemove_ub hc (h r) i)
  | truncate r n => exact .call h r nofun (truncate_ub hc (h r) n)
  | clear r => exact .call h r nofun (truncate_ub hc (h r) 0)
  | resize r n x => exact .call h r nofun (resize_ub hc (h r) n hop x)
  | reserve r n => exact .call h r nofun (reserve_ub hc (h r) n)
  | shrinkToFit r => exact .call h r nofun (shrinkToFit_ub hc (h r))
  | extend r it => exact .call h r nofun (extend_ub hc (h r) it)
  | append r o =>
    have key := append_ub hc (h r) (h o)
    show UbStep c (match EV.append c (m.reg r, m.reg o) with
      | (.ok _, p) => (.unit, { m with reg := upd (upd m.reg r p.1) o p.2 })
      | (.error e, p) => (e.out, { m with reg := upd (upd m.reg r p.1) o p.2 })) _
    rcases hx : EV.append c (m.reg r, m.reg o) with ⟨e | b, p⟩ <;> rw [hx] at key
    · refine ⟨RealMem.upd (h.upd key.1.1 m.world) key.1.2 m.world, fun hne => ?_⟩
      have := key.2 (fun he => hne (by cases he; rfl))
      exact (Fault.out_ub_iff e).trans ⟨fun he => this.mp (by rw [he]), fun hp => by have := this.mpr hp; cases this; rfl⟩
    · exact ⟨RealMem.upd (h.upd key.1.1 m.world) key.1.2 m.world, fun _ => iff_of_false nofun fun hp => absurd ((key.2 nofun).mpr hp) nofun⟩
  | splitOff r at_ d =>
    obtain ⟨key, -, hd⟩ := splitOff_any hc (h r) at_
    show UbStep c (match EV.splitOff c at_ (m.reg r) with
      | (.ok o, s) => (.unit, { m with reg := upd (upd m.reg r s) d o })
      | (.error e, s) => (e.out, { m with reg := upd m.reg r s })) _
    rcases hx : EV.splitOff c at_ (m.reg r) with ⟨e | b, p⟩ <;> rw [hx] at key
    · refine ⟨h.upd key.1 m.world, fun hne => ?_⟩
      have := key.2 (fun he => hne (by cases he; rfl))
      exact (Fault.out_ub_iff e).trans ⟨fun he => this.mp (by rw [he]), fun hp => by have := this.mpr hp; cases this; rfl⟩
    · exact ⟨RealMem.upd (h.upd key.1 m.world) (hd _ _ hx) m.world, fun _ => iff_of_false nofun fun hp => absurd ((key.2 nofun).mpr hp) nofun⟩
  | retain r f => exact .callW h r (retain_ub hc (hb trivial) f (h r) m.world)
  | forEach r f => exact .callW h r (forEach_ub hc (hb trivial) f (h r) m.world)
  | eq r o =>
    refine .ask h nofun ?_
    show EV.eq c (m.reg r) (m.reg o) = _ ↔ _ ∧ (slots c _ < len c _ ∨ slots c _ < len c _) ∧ _
    unfold EV.eq
    by_cases he : len c (m.reg r) = len c (m.reg o)
    · rw [if_pos he]
      refine (eq_ub hc (m.reg r) (m.reg o) (len c (m.reg r)) 0 (Nat.zero_le _) (Nat.zero_le _)).1.trans ?_
      rw [Nat.zero_add, ← he]
      exact ⟨fun hp => ⟨rfl, hp.1, fun j => hp.2 j (Nat.zero_le _)⟩, fun hp => ⟨hp.2.1, fun j _ => hp.2.2 j⟩⟩
    · rw [if_neg he]
      exact iff_of_false nofun fun hp => he hp.1
  | any r x => exact .call h r nofun (.of_calm (any_calm x) (h r))
  | all r x => exact .call h r nofun (.of_calm (all_calm x) (h r))
  | toVec r =>
    refine .ask h nofun ?_
    exact (collect_ub hc (len c (m.reg r) + 1) (iter c (m.reg r)) rfl (by show 0 + (len c (m.reg r) + 1) = len c (m.reg r) + 1; omega) (Nat.zero_le _)).1
  | iterate r calls =>
    refine .ask h nofun ?_
    have := (iterRun_ub hc calls (iter c (m.reg r)) (h r).lenLt (Nat.le_refl _)).1
    rw [show List.range' (iter c (m.reg r)).lo ((iter c (m.reg r)).hi - (iter c (m.reg r)).lo) = List.range (len c (m.reg r)) from
      List.range_eq_range'.symm] at this
    exact this
  | hash r =>
    refine .ask h nofun ?_
    have := (hash_ub hc (m.reg r) (len c (m.reg r)) 0 (Nat.zero_le _)).1
    rw [Nat.zero_add] at this
    exact this

theorem ustep_ub (m : Mem c τ) (h : RealMem c m) (op : UOp c.W τ α) (hop : op.WellTyped c) (hb : op.Edits → ∀ x, c.E.toDiscr x < 2 ^ c.bits) :
    UbStep c (ustep c m op) (op.Ub c m) := by
  cases op with
  | safe op => exact step_ub hc m h op hop hb
  | getRaw r i =>
    refine .call h r nofun ?_
    by_cases hs : slots c (m.reg r) ≤ i
    · rw [getRawUnchecked_ub hc _ hs]; exact .ub (h r) hs
    · rw [getRawUnchecked_ok hc _ (Nat.lt_of_not_le hs)]; exact .ok (h r) hs _
  | setRaw r i d =>
    refine .call h r nofun ?_
    by_cases hs : slots c (m.reg r) ≤ i
    · rw [setRawUnchecked_ub hc _ _ hs]; exact .ub (h r) hs
    · rw [setRawUnchecked_ok hc _ _ (Nat.lt_of_not_le hs)]; exact .ok ((putRaw_shape c _ i d).real (h r)) hs _
  | setLen r n => exact .call h r nofun (.ok ((h r).setNum hop) id ())
  | storageMut r ops =>
    refine .call h r nofun ?_
    obtain ⟨h1, h2⟩ := storageOps_fine hc ops (v := (m.reg r).storage) ⟨(h r).capLen, (h r).capBound⟩
    exact ⟨⟨(h r).lenLt, h2.capLen, h2.capBound⟩, fun _ => iff_of_false h1 id⟩

end
end EnumVecModel
