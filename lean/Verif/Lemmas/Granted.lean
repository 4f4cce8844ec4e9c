import Verif.FullSpec
import Verif.Lemmas.Foot

/-! # How far `extend` and `resize` come before memory is refused -/

namespace EnumVecModel
open EV

variable {α τ : Type} {c : Inst α}

theorem extendRest_done (hc : c.Sound) (panics : Bool) : ∀ (items : List α) {s s' : EV c.W}, Safe c s → extendRest c panics items s = (.error .capacity, s') →
    s'.num = s.num + Foot.pushesDone c items.length s.num s.foot
  | [], s, s', _, hx => by
    unfold extendRest at hx
    cases panics <;> cases (congrArg Prod.fst hx)
  | x :: items, s, s', h, hx => by
    have k1 := push_foot hc h x
    have k2 := push_any hc h x
    unfold extendRest at hx
    rw [List.length_cons, Foot.pushesDone]
    rcases hp : push c x s with ⟨e | b, s1⟩
    · rw [M.bind_error hp] at hx
      rw [hp] at k1 k2
      obtain ⟨e1, e2⟩ := Prod.mk.inj hx
      rw [Except.error.inj e1] at k1
      subst e2
      rw [FootRun.refused k1, if_neg nofun]
      have := k2.2.1
      rw [this]; rfl
    · rw [M.bind_ok hp] at hx
      rw [hp] at k1 k2
      have := extendRest_done hc panics items k2.1 hx
      rw [FootRun.ok k1, if_pos rfl, this, k2.2.1]
      show _ = _ + (Foot.pushesDone c _ (s.num + 1) s1.foot + 1)
      omega

theorem extend_done (hc : c.Sound) {s s' : EV c.W} (h : Safe c s) (it : Src α) (hw : ¬ c.AtLimit (s.num + it.hint)) (hx : EV.extend c it s = (.error .capacity, s')) :
    s'.num = s.num + Foot.extendDone c s.num it.hint it.items.length s.foot := by
  have k1 := reserve_foot hc s it.hint
  have k2 := reserve_safe hc h hw
  unfold EV.extend at hx
  rw [M.read_bind] at hx
  unfold Foot.extendDone
  rcases hp : EV.reserve c it.hint s with ⟨e | b, s1⟩
  · rw [M.bind_error hp] at hx
    rw [hp] at k1 k2
    obtain ⟨e1, e2⟩ := Prod.mk.inj hx
    rw [Except.error.inj e1] at k1
    subst e2
    rw [FootRun.refused k1, if_neg nofun]
    have := k2.2.1
    rw [this]; rfl
  · rw [M.bind_ok hp, M.read_bind] at hx
    rw [hp] at k1 k2
    obtain ⟨h1, h2, h3, h4, -⟩ := k2
    have hadd : uAdd c.build s1.num it.hint = .ok (s1.num + it.hint) := by
      unfold uAdd; rw [if_pos (by omega)]
    rw [hadd, M.lift_ok_bind, M.write_bind, h2] at hx
    rw [FootRun.ok k1, if_pos rfl]
    have hs2 : Safe c (⟨s1.storage, s.num + it.hint⟩ : EV c.W) := by
      refine ⟨?_, h1.capLen, h1.capBound⟩
      show s.num + it.hint ≤ s1.storage.data.length * c.epb
      rw [h3, Nat.add_mul, Nat.one_mul]
      have h4 := Nat.div_add_mod (s.num + it.hint) c.epb
      have h5 := Nat.mod_lt (s.num + it.hint) hc.epb_pos
      rw [Nat.mul_comm]; omega
    have j1 := extendHinted_runs hc it.panics it.hint s.num it.items hs2 (Nat.le_refl _)
    have j2 := extendHinted_still (c := c) it.panics it.hint s.num it.items (⟨s1.storage, s.num + it.hint⟩ : EV c.W)
    change (extendHinted c it.panics it.hint s.num it.items >>= extendRest c it.panics) (⟨s1.storage, s.num + it.hint⟩ : EV c.W) = _ at hx
    rcases hy : extendHinted c it.panics it.hint s.num it.items (⟨s1.storage, s.num + it.hint⟩ : EV c.W) with ⟨e | rest, s2⟩ <;> rw [hy] at j1 j2
    · rw [M.bind_error hy] at hx
      exact absurd (by rw [Except.error.inj (Prod.mk.inj hx).1]) j2.2
    · rw [M.bind_ok hy] at hx
      obtain ⟨g1, g2, g3⟩ := j1
      have := extendRest_done hc it.panics rest g1 hx
      rw [g2, j2.1, show rest.length = it.items.length - it.hint by omega] at this
      rw [this]
      show _ = s.num + (it.hint + Foot.pushesDone c _ (s.num + it.hint) s1.foot)
      show s.num + it.hint + Foot.pushesDone c _ (s.num + it.hint) s1.foot = _
      omega

theorem repeat_done (hc : c.Sound) {s s' : EV c.W} (h : Safe c s) (x : α) {n : Nat} (hn : n ≤ 4 * c.epb) (hx : EV.extend c (repeatTake x n) s = (.error .capacity, s')) : s' = s := by
  have k2 := reserve_safe (k := n) hc h (h.not_atLimit hc hn)
  unfold EV.extend at hx
  rw [M.read_bind] at hx
  rcases hp : EV.reserve c n s with ⟨e | b, s1⟩
  · rw [M.bind_error (show EV.reserve c (repeatTake x n).hint s = _ from hp)] at hx
    rw [hp] at k2
    rw [← (Prod.mk.inj hx).2]
    exact k2.2.1
  · exfalso
    rw [hp] at k2
    have k := extend_foot hc h (repeatTake x n)
    have hl : (repeatTake x n).items.length = n := List.length_replicate
    rw [show EV.extend c (repeatTake x n) s = (.error .capacity, s') from by unfold EV.extend; rw [M.read_bind]; exact hx] at k
    have k := FootRun.refused k
    unfold Foot.extend at k
    rw [if_neg (show ¬ c.AtLimit (s.num + (repeatTake x n).hint) from h.not_atLimit hc hn), hl, show n - (repeatTake x n).hint = 0 from Nat.sub_self n] at k
    have k3 := reserve_foot hc s n
    rw [hp] at k3
    rw [show Foot.reserve c s.num (repeatTake x n).hint s.foot = _ from FootRun.ok k3] at k
    cases (Prod.mk.inj k).1

theorem extendWithValue_done (hc : c.Sound) {s s' : EV c.W} (h : Safe c s) (x : α) (n : Nat) (hx : extendWithValue c x n s = (.error .capacity, s')) :
    s'.num = s.num + Foot.repeatedDone c s.num n s.foot := by
  have hlen : ∀ k, (repeatTake x k).items.length = k := fun k => List.length_replicate
  have hext : ∀ {t : EV c.W}, Safe c t → ∀ k, FootRun (EV.extend c (repeatTake x k) t) (Foot.extend c t.num k k t.foot) := by
    intro t ht k
    have := extend_foot hc ht (repeatTake x k)
    rwa [hlen] at this
  unfold extendWithValue at hx
  unfold Foot.repeatedDone
  by_cases hn : n ≤ 4 * c.epb
  · rw [if_pos hn] at hx ⊢
    rw [repeat_done hc h x hn hx]; rfl
  rw [if_neg hn, M.read_bind] at hx
  rw [if_neg hn]
  dsimp only [EV.len] at hx ⊢
  have hep := hc.epb_pos
  have hmod := Nat.mod_lt s.num hep
  generalize hfirst : c.epb - s.num % c.epb = first at hx ⊢
  have hle : first ≤ n := by omega
  have hle4 : first ≤ 4 * c.epb := by omega
  have k1 := hext h first
  have k2 := repeat_runs hc h x hle4
  rcases hp : EV.extend c (repeatTake x first) s with ⟨e | b, s1⟩
  · have hp' := hp
    rw [M.bind_error hp] at hx
    rw [hp] at k1 k2
    have k2 : e = .capacity := k2
    subst k2
    rw [FootRun.refused k1, if_neg nofun, ← (Prod.mk.inj hx).2, repeat_done hc h x hle4 hp']; rfl
  rw [M.bind_ok hp, M.read_bind] at hx
  rw [hp] at k1 k2
  obtain ⟨hs1, h1n⟩ := k2
  rw [FootRun.ok k1, if_pos rfl]
  dsimp only
  obtain ⟨s2, h2, hs2, h2n, h2c, h2l, _⟩ := fixStorage_safe hc hs1
  have hfix := fixStorage_foot hc hs1
  rw [h2] at hfix
  have hfix := (Prod.mk.inj hfix.ok).2
  rw [M.bind_ok h2, M.read_bind] at hx
  rw [← h1n, hfix]
  generalize hcb : (n - first) / c.epb = m at hx ⊢
  have hlast : n - (first + m * c.epb) = (n - first) % c.epb := by
    have := Nat.div_add_mod (n - first) c.epb
    rw [hcb, Nat.mul_comm] at this
    omega
  rw [hlast] at hx
  have hlast4 : (n - first) % c.epb ≤ 4 * c.epb := by have := Nat.mod_lt (n - first) hep; omega
  generalize (n - first) % c.epb = last at hlast4 hx ⊢
  have hif : (if last > 0 then 1 else 0) = if 0 < last then 1 else 0 := rfl
  rw [hif] at hx
  generalize (m + if 0 < last then 1 else 0) = extra at hx ⊢
  have hrf := RVec.reserve_foot c.alloc s2.storage extra
  have hr := RVec.reserve_res hc.lawful hc.bounded s2.storage extra hs2.capLen
  rw [show s2.foot = ⟨s2.storage.data.length, s2.storage.cap⟩ from rfl]
  cases hy : RVec.reserve c.alloc s2.storage extra with
  | error e =>
    rw [hy] at hr hrf hx
    rw [M.lift_error_bind] at hx
    dsimp only
    rw [hrf.1]
    show _ = _ + if false = true then _ else _
    rw [if_neg nofun, ← (Prod.mk.inj hx).2, h2n, h1n]
  | ok st =>
    rw [hy] at hr hrf hx
    obtain ⟨g1, g2, g3, g4⟩ := hr
    obtain ⟨k1, k2⟩ := hrf
    rw [M.lift_ok_bind, M.write_bind] at hx
    dsimp only
    rw [k1]
    have hs3 : Safe c (⟨st, s2.num⟩ : EV c.W) := by
      refine ⟨?_, ?_, ?_⟩
      · show s2.num ≤ st.data.length * c.epb
        rw [g1]; exact hs2.cover
      · exact g3.fits
      · exact g3.capBound hs2.capBound
    have hft : Foot.mk s2.storage.data.length st.cap = (⟨st, s2.num⟩ : EV c.W).foot := by
      show _ = Foot.mk st.data.length st.cap
      rw [k2]
    show _ = _ + if (Foot.fill c.alloc m m _).1 = true then _ else _
    rw [hft]
    have kf := fill_foot hc m (spread (BitVec.ofNat c.W (c.E.toDiscr x)) c.bits) m 0 () (⟨st, s2.num⟩ : EV c.W)
    have kl := fillLoop hc m (spread (BitVec.ofNat c.W (c.E.toDiscr x)) c.bits) hs3 m
    rcases hz : loop (fillStep c m (spread (BitVec.ofNat c.W (c.E.toDiscr x)) c.bits)) m 0 () (⟨st, s2.num⟩ : EV c.W) with ⟨e | b, s4⟩
    · rw [M.bind_error hz] at hx
      rw [hz] at kf kl
      obtain ⟨e1, e2⟩ := Prod.mk.inj hx
      rw [Except.error.inj e1] at kf
      subst e2
      rw [FootRun.refused kf, if_neg nofun]
      have : s4.num = s2.num := kl.2.2.1
      rw [this, h2n, h1n]
    · rw [M.bind_ok hz] at hx
      rw [hz] at kf kl
      rw [FootRun.ok kf, if_pos rfl]
      obtain ⟨hs4, h4n, _, h4d⟩ := kl
      have hcov : s1.num + m * c.epb ≤ s4.storage.data.length * c.epb := by
        rw [h4d, List.length_append, List.length_replicate, Nat.add_mul]
        have e1 : s1.num ≤ st.data.length * c.epb := by rw [g1, h2l]; exact blocks_mul hc _
        have e2 : m * c.epb ≤ m * m * c.epb := by
          apply Nat.mul_le_mul_right
          rcases Nat.eq_zero_or_pos m with h | h
          · simp [h]
          · exact Nat.le_mul_of_pos_left _ h
        show _ ≤ st.data.length * c.epb + _
        omega
      have hroom := hs4.dataRoom hc
      have hadd : uAdd c.build s1.num (m * c.epb) = .ok (s1.num + m * c.epb) := by
        unfold uAdd; rw [if_pos (by omega)]
      rw [hadd, M.lift_ok_bind] at hx
      have ht : Safe c (⟨s4.storage, s1.num + m * c.epb⟩ : EV c.W) := ⟨hcov, hs4.capLen, hs4.capBound⟩
      have := repeat_done hc ht x hlast4 (show EV.extend c (repeatTake x last) (⟨s4.storage, s1.num + m * c.epb⟩ : EV c.W) = _ from hx)
      rw [this, h1n]
      show s.num + first + m * c.epb = _
      omega

end EnumVecModel
