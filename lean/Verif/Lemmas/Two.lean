import Verif.Lemmas.Bulk

set_option linter.unusedSectionVars false

/-! # `append`, `split_off`, `clone`, `with_capacity` -/

namespace EnumVecModel
open EV

variable {α : Type}

section
variable {c : Inst α} {strict : Prop} (hc : c.Fits strict)
include hc

theorem Holds.clear {s : EV c.W} {l : List α} (h : Holds c s l) : Holds c { s with num := 0 } [] := by
  have := h.take hc 0
  simpa using this

theorem clear_eq (s : EV c.W) : EV.clear c s = (.ok (), { s with num := 0 }) := by
  unfold EV.clear; rw [truncate_eq hc]; simp

omit hc in
/-- copy loop of `append` -/
theorem appendLoop (hc : c.Ok) (l m : List α) (o : EV c.W) (ho : Holds c o m) (s : EV c.W) (h : HoldsPre c s l)
    (hn : s.num = l.length + m.length) :
    Runs (loop (appendStep c l.length) m.length 0 () (s, o))
      (fun _ p => Holds c p.1 (l ++ m) ∧ SameShape c s p.1 ∧ Tidy c s p.1 ∧ p.2 = o) (fun _ _ => False) := by
  have key := runs_loop (body := appendStep c l.length) (E := fun _ _ => False) (stop := m.length)
    (fun i _ p => HoldsPre c p.1 (l ++ m.take i) ∧ SameShape c s p.1 ∧ Tidy c s p.1 ∧ p.2 = o)
    ?_ m.length 0 () (s, o) (Nat.zero_add _) ⟨by simpa using h, SameShape.refl s, Tidy.refl s, rfl⟩
  · refine key.mono ?_ (fun _ _ h => h)
    rintro _ p ⟨h1, h2, h3, h4⟩
    exact ⟨HoldsPre.holds (by simpa using h1) (by rw [h2.num, hn]; simp), h2, h3, h4⟩
  · rintro i _ ⟨s', o'⟩ hi ⟨h1, h2, h3, rfl⟩
    simp only at h1 h2 h3
    unfold appendStep
    have hcov := ho.cover
    have hol := ho.len_eq
    simp only at hcov hol
    have hr : getRawUnchecked c i o' = (.ok (raw c o' i), o') := getRawUnchecked_ok hc o' (by omega)
    have hlt : l.length + i < s'.num := by rw [h2.num]; omega
    have hcov' := h1.cover
    rw [M.bind_ok (onSnd_eq hr s'), onFst_eq (setRawUnchecked_ok hc s' (i := l.length + i) _ (by omega)) o',
      ho.elems i hi]
    have el : (l ++ m.take i).length = l.length + i := by simp; omega
    obtain ⟨-, g2, g3⟩ := h1.set hc m[i] (by rw [el]; exact hlt)
    rw [el] at g2 g3
    refine ⟨?_, h2.trans (putRaw_shape c s' _ _), h3.trans g3, rfl⟩
    have e : l ++ m.take (i + 1) = (l ++ m.take i) ++ [m[i]] := by
      rw [List.append_assoc, List.take_append_getElem hi]
    rw [e]; exact g2

omit hc in
theorem append_holds (hc : c.Ok) {s o : EV c.W} {l m : List α} (h : Holds c s l) (ho : Holds c o m) :
    Runs (append c (s, o))
      (fun _ p => Holds c p.1 (l ++ m) ∧ (Clean c s → l.length % c.epb ≠ 0 ∨ Clean c o → Clean c p.1) ∧
        (Valid c s → Valid c o → Valid c p.1) ∧
        s.storage.cap ≤ p.1.storage.cap ∧
        (if c.small = true ∨ l.length % c.epb ≠ 0 then Holds c p.2 [] ∧ Tidy c o p.2
          else p.2.storage.data = [] ∧ p.2.num = m.length ∧ p.2.storage.cap = o.storage.cap))
      (fun e p => e = .capacity ∧ Refused c ((l.length + m.length) / c.epb + 1) ∧
        Holds c p.1 l ∧ Holds c p.2 m ∧ Tidy c s p.1 ∧ Tidy c o p.2) := by
  have hep := hc.epb_pos
  have hlen := h.len_eq
  have hol := ho.len_eq
  unfold append
  rw [M.read_bind]
  have hl0 : len c (s, o).1 = l.length := hlen
  have hl1 : len c (s, o).2 = m.length := hol
  rw [hl0, hl1]
  by_cases hal : l.length % c.epb = 0
  · rw [if_pos hal]
    obtain ⟨s1, a1, a2, a3, a4, a5, a6⟩ := fixStorage_holds hc h
    obtain ⟨o1, b1, b2, b3, b4, b5, b6⟩ := fixStorage_holds hc ho
    rw [M.bind_ok (onFst_eq a1 o), M.bind_ok (onSnd_eq b1 s1)]
    have hs1len : s1.storage.data.length = l.length / c.epb := by rw [a5, blocks_of_dvd hc hal]
    have hs1len' : s1.storage.data.length * c.epb = l.length := by rw [hs1len]; exact mod_zero_mul hc hal
    have hdm := Nat.div_add_mod l.length c.epb
    have hoblk : m.length ≤ o1.storage.data.length * c.epb := by rw [b5]; exact blocks_mul hc _
    have hblk : s1.storage.data.length + o1.storage.data.length ≤ (l.length + m.length) / c.epb + 1 := by
      have e : (l.length + m.length) / c.epb = l.length / c.epb + m.length / c.epb := by
        conv => lhs; rw [show l.length = c.epb * (l.length / c.epb) by omega]
        rw [Nat.mul_add_div hep]
      rw [hs1len, b5, e]
      have := blocks_le_div hc m.length
      omega
    have hr := RVec.extend_res hc.lawful hc.bounded s1.storage o1.storage.data a2.capLen
    cases hx : RVec.extendFromSlice c.alloc s1.storage o1.storage.data with
    | error e =>
      rw [hx] at hr
      have hap : appendStorage c (s1, o1) = (.error e, (s1, o1)) := by
        unfold appendStorage; simp only [hx]
      rw [M.bind_error hap]
      exact ⟨hr.1, refused_of hr.2.1 hr.2.2 hblk, a2, b2, a3, b3⟩
    | ok st =>
      rw [hx] at hr
      obtain ⟨r1, r2, -⟩ := hr
      have hstlen : st.data.length = s1.storage.data.length + o1.storage.data.length := by rw [r1]; simp
      have hcov : l.length + m.length ≤ st.data.length * c.epb := by
        rw [hstlen, Nat.add_mul, hs1len']; omega
      have hsafe : Safe c (⟨st, l.length + m.length⟩ : EV c.W) := ⟨hcov, r2.fits, r2.capBound a2.capBound⟩
      have hblkst : ∀ (n j : Nat), blk (⟨st, n⟩ : EV c.W) j =
          if j < s1.storage.data.length then blk s1 j else blk o1 (j - s1.storage.data.length) := by
        intro n j
        unfold blk
        show (st.data[j]?.getD 0).toNat = _
        rw [r1, List.getElem?_append]
        split <;> rfl
      have hH : Holds c (⟨st, l.length + m.length⟩ : EV c.W) (l ++ m) := by
        refine ⟨hsafe, by simp, ?_⟩
        intro i hi
        by_cases hil : i < l.length
        · have hb : i / c.epb < s1.storage.data.length := by
            rw [Nat.div_lt_iff_lt_mul hep, hs1len']; exact hil
          have := a2.elems i hil
          unfold raw at this ⊢
          rw [hblkst, if_pos hb, this, List.getElem_append_left hil]
        · have hb : ¬ i / c.epb < s1.storage.data.length := by
            rw [Nat.div_lt_iff_lt_mul hep, hs1len']; exact hil
          have him : i - l.length < m.length := by simp at hi; omega
          have := b2.elems (i - l.length) him
          have hi2 : i = c.epb * s1.storage.data.length + (i - l.length) := by rw [Nat.mul_comm, hs1len']; omega
          have hq : i / c.epb - s1.storage.data.length = (i - l.length) / c.epb := by
            conv => lhs; rw [hi2]
            rw [Nat.mul_add_div hep, Nat.add_sub_cancel_left]
          have hrm : i % c.epb = (i - l.length) % c.epb := by
            conv => lhs; rw [hi2]
            rw [Nat.mul_add_mod]
          unfold raw at this ⊢
          rw [hblkst, if_neg hb, hq, hrm, this, List.getElem_append_right (by omega)]
      have hClean : Clean c s → Clean c o → Clean c (⟨st, l.length + m.length⟩ : EV c.W) := by
        intro hs ho' j
        unfold waste
        rw [hblkst]
        split
        · exact hs.tidy a3 j
        · exact ho'.tidy b3 _
      have hValid : Valid c s → Valid c o → Valid c (⟨st, l.length + m.length⟩ : EV c.W) := by
        intro hs ho' i
        unfold raw
        rw [hblkst]
        have hmod := Nat.mod_lt i hep
        split
        · exact a3.valid hs i
        · have := b3.valid ho' ((i / c.epb - s1.storage.data.length) * c.epb + i % c.epb)
          rw [raw_block hc _ _ _ hmod] at this
          exact this
      have hroom := hsafe.dataRoom hc
      have hroom' : st.data.length * c.epb + c.epb ≤ c.build.usizeLim := hroom
      have hcap : s.storage.cap ≤ st.cap := by have := r2.mono; omega
      have hadd : ∀ (n : Nat), n = l.length → uAdd c.build n m.length = .ok (l.length + m.length) := by
        rintro n rfl
        unfold uAdd
        rw [if_pos (by omega)]
      by_cases hsm : c.small = true
      · have hap : appendStorage c (s1, o1) = (.ok (), (⟨st, s1.num⟩, { o1 with num := 0 })) := by
          unfold appendStorage
          simp only [hx, hsm, if_true]
          exact onSnd_eq (clear_eq hc o1) _
        rw [M.bind_ok hap, M.read_bind]
        have : uAdd c.build (⟨st, s1.num⟩ : EV c.W).num m.length = .ok (l.length + m.length) :=
          hadd _ (by show s1.num = _; rw [a6, hlen])
        rw [this, M.lift_ok_bind]
        have hset : onFst (setLen c (l.length + m.length)) (((⟨st, s1.num⟩ : EV c.W)), { o1 with num := 0 }) =
          (.ok (), ((⟨st, l.length + m.length⟩ : EV c.W), { o1 with num := 0 })) := rfl
        rw [hset]
        refine ⟨hH, fun hs ho => hClean hs (ho.resolve_left (fun h => h hal)), hValid, hcap, ?_⟩
        rw [if_pos (Or.inl hsm)]
        exact ⟨b2.clear hc, b3.trans (Tidy.of_data rfl)⟩
      · have hap : appendStorage c (s1, o1) =
            (.ok (), (⟨st, s1.num⟩, { o1 with storage := { o1.storage with data := [] } })) := by
          unfold appendStorage
          simp only [hx, hsm]
          rfl
        rw [M.bind_ok hap, M.read_bind]
        have : uAdd c.build (⟨st, s1.num⟩ : EV c.W).num m.length = .ok (l.length + m.length) :=
          hadd _ (by show s1.num = _; rw [a6, hlen])
        rw [this, M.lift_ok_bind]
        have hset : onFst (setLen c (l.length + m.length))
            (((⟨st, s1.num⟩ : EV c.W)), ({ o1 with storage := { o1.storage with data := [] } } : EV c.W)) =
          (.ok (), ((⟨st, l.length + m.length⟩ : EV c.W), ({ o1 with storage := { o1.storage with data := [] } } : EV c.W))) := rfl
        rw [hset]
        refine ⟨hH, fun hs ho => hClean hs (ho.resolve_left (fun h => h hal)), hValid, hcap, ?_⟩
        rw [if_neg (by simp [hsm, hal])]
        exact ⟨rfl, by show o1.num = _; rw [b6, hol], b4⟩
  · rw [if_neg hal]
    have hres := reserve_holds hc h (k := m.length) (Inst.not_atLimit_of_mod hal)
    match hx : reserve c m.length s, hres with
    | (.error e, s'), ⟨h1, h2, h3⟩ =>
      rw [M.bind_error (onFst_eq hx o)]
      subst h2
      rw [hlen] at h3
      exact ⟨h1, h3, h, ho, Tidy.refl _, Tidy.refl _⟩
    | (.ok _, s1), ⟨h1, h2, h3, h4, h5, h6⟩ =>
      rw [M.bind_ok (onFst_eq hx o)]
      have hadd : uAdd c.build l.length m.length = .ok (l.length + m.length) := by
        unfold uAdd
        rw [if_pos (by omega)]
      rw [hadd, M.lift_ok_bind]
      have hset : onFst (setLen c (l.length + m.length)) (s1, o) =
        (.ok (), ((⟨s1.storage, l.length + m.length⟩ : EV c.W), o)) := rfl
      rw [M.bind_ok hset]
      have hd1 := Nat.div_add_mod (s.num + m.length) c.epb
      have hd2 := Nat.mod_lt (s.num + m.length) hep
      have hpre : HoldsPre c (⟨s1.storage, l.length + m.length⟩ : EV c.W) l := by
        refine ⟨⟨?_, h1.capLen, h1.capBound⟩, by simp, fun i hi => h1.elems i hi⟩
        show l.length + m.length ≤ s1.storage.data.length * c.epb
        rw [h3, Nat.add_mul, Nat.one_mul, Nat.mul_comm]; omega
      refine runs_seq (appendLoop hc l m o ho _ hpre rfl) (fun _ _ h => h.elim) ?_
      rintro _ ⟨s2, o2⟩ ⟨g1, g2, g3, g4⟩
      simp only at g1 g2 g3 g4
      subst g4
      rw [onSnd_eq (clear_eq hc o2) s2]
      have ht : Tidy c s s2 := (h2.trans (Tidy.of_data (t := ⟨s1.storage, l.length + m.length⟩) rfl)).trans g3
      refine ⟨g1, fun hcl _ => hcl.tidy ht, fun hv _ => ht.valid hv, ?_, ?_⟩
      · have : s2.storage.cap = s1.storage.cap := g2.cap
        show s.storage.cap ≤ s2.storage.cap
        omega
      · rw [if_pos (Or.inr hal)]
        exact ⟨ho.clear hc, Tidy.of_data rfl⟩

/-! ### clone, with_capacity, split_off -/

theorem clone_holds {s : EV c.W} {l : List α} (h : Holds c s l) :
    Res (clone c s)
      (fun s' => Holds c s' l ∧ s'.storage.data = s.storage.data)
      (fun e => e = .capacity ∧ c.alloc.exact s.storage.data.length = none) := by
  unfold clone RVec.clone RVec.len
  cases hx : c.alloc.exact s.storage.data.length with
  | none => exact ⟨rfl, rfl⟩
  | some k =>
    refine ⟨?_, rfl⟩
    exact h.of_blk_eq hc ⟨h.cover, hc.lawful.exact_ge _ _ hx, hc.bounded.exact _ _ hx⟩ rfl (fun j => rfl)

theorem withCapacity_holds (n : Nat) :
    Res (withCapacity c n)
      (fun s => Holds c s [] ∧ s.storage.data = [] ∧ n ≤ s.storage.cap * c.epb)
      (fun e => e = .capacity ∧ ∃ k, k ≤ c.blocks n ∧ c.alloc.exact k = none) := by
  unfold withCapacity RVec.withCapacity
  have hle : blocksForElements c n ≤ c.blocks n := by
    unfold blocksForElements satAdd Inst.blocks
    apply Nat.div_le_div_right
    have := hc.epb_pos
    omega
  cases hx : c.alloc.exact (blocksForElements c n) with
  | none => exact ⟨rfl, _, hle, hx⟩
  | some k =>
    have hb := hc.bounded.exact _ _ hx
    have hl := hc.lawful.exact_ge _ _ hx
    have hsafe : Safe c (⟨⟨[], k⟩, 0⟩ : EV c.W) := ⟨by simp, by simp, hb⟩
    have hroom := hsafe.room hc
    refine ⟨⟨hsafe, rfl, fun i hi => absurd hi (by simp)⟩, rfl, ?_⟩
    show n ≤ k * c.epb
    have hroom' : k * c.epb + c.epb < c.build.usizeLim := hroom
    -- the saturating computation did not saturate
    have hep := hc.epb_pos
    unfold blocksForElements satAdd at hl
    rw [← Nat.lt_succ_iff, Nat.div_lt_iff_lt_mul hep, Nat.succ_mul] at hl
    omega

theorem withCapacity_clean {n : Nat} {s : EV c.W} (h : withCapacity c n = .ok s) : Clean c s ∧ Valid c s := by
  have := withCapacity_holds hc n
  rw [h] at this
  have hb : ∀ j, blk s j = 0 := fun j => blk_ge s (by rw [this.2.1]; simp)
  exact ⟨fun j => by unfold waste; rw [hb, fld_zero], fun i => by unfold raw; rw [hb, fld_zero]; exact E_pos hc⟩

theorem splitOff_end {s : EV c.W} {l : List α} (h : Holds c s l) :
    Runs (splitOff c l.length s)
      (fun o s' => Holds c s' l ∧ s' = s ∧ Holds c o [] ∧ Clean c o ∧ Valid c o)
      (fun e s' => e = .capacity ∧ s' = s ∧ c.alloc.exact 0 = none) := by
  unfold splitOff
  have hlen : len c s = l.length := h.len_eq
  simp only [hlen, Nat.le_refl, if_true, Nat.sub_self]
  have hw := withCapacity_holds hc 0
  cases hx : withCapacity c 0 with
  | error e =>
    rw [hx] at hw
    obtain ⟨h1, k, h2, h3⟩ := hw
    have : c.blocks 0 = 0 := by
      have := hc.epb_pos
      unfold Inst.blocks; exact Nat.div_eq_of_lt (by omega)
    have hk : k = 0 := by omega
    subst hk
    exact ⟨h1, rfl, h3⟩
  | ok o =>
    rw [hx] at hw
    have hcl := withCapacity_clean hc hx
    have e1 : (⟨o.storage, 0⟩ : EV c.W) = o := by
      have := hw.1.len_eq
      cases o; simp at this; simp [this]
    have e2 : (⟨s.storage, l.length⟩ : EV c.W) = s := by rw [← h.len_eq]
    simp only [loop, M.pure_apply]
    refine ⟨by rw [e2]; exact h, e2, by rw [e1]; exact hw.1, by rw [e1]; exact hcl.1, by rw [e1]; exact hcl.2⟩

theorem splitOff_ub {s : EV c.W} {l : List α} (h : Holds c s l) {i : Nat} (hi : i < l.length) :
    splitOff c i s = (.error .ub, s) ∨ (splitOff c i s = (.error .capacity, s) ∧
      ∃ k, k ≤ c.blocks (l.length - i) ∧ c.alloc.exact k = none) := by
  unfold splitOff
  have hlen : len c s = l.length := h.len_eq
  rw [hlen, if_pos (by omega)]
  have hw := withCapacity_holds hc (l.length - i)
  cases hx : withCapacity c (l.length - i) with
  | error e =>
    rw [hx] at hw
    right
    exact ⟨by simp only [hx, hw.1], hw.2⟩
  | ok o =>
    rw [hx] at hw
    left
    obtain ⟨n, hn⟩ : ∃ n, l.length - i = n + 1 := ⟨l.length - i - 1, by omega⟩
    have hcov := h.cover
    have hnum := h.len_eq
    have hstep : splitOffStep c i 0 () (s, { o with num := l.length - i }) =
        (.error .ub, (s, { o with num := l.length - i })) := by
      unfold splitOffStep
      rw [M.bind_ok (onFst_eq (getRawUnchecked_ok hc s (i := i + 0) (by omega)) _)]
      refine onSnd_eq ?_ s
      unfold setRawUnchecked
      simp only [hw.2.1, List.getElem?_nil]
    rw [hn] at hstep
    rw [hn] at hx
    simp only [hn, hx]
    have : loop (splitOffStep c i) (n + 1) 0 () (s, { o with num := n + 1 }) =
        (.error .ub, (s, { o with num := n + 1 })) := by
      show (splitOffStep c i 0 () >>= fun acc => loop (splitOffStep c i) n 1 acc) _ = _
      rw [M.bind_error hstep]
    rw [this]

theorem splitOff_oob (s : EV c.W) {i : Nat} (hi : s.num < i) : splitOff c i s = (.error .index, s) := by
  unfold splitOff
  rw [if_neg (by show ¬ i ≤ s.num; omega)]

end
end EnumVecModel
