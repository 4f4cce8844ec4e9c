import Verif.Lemmas.Foot
import Verif.Lemmas.Ub

set_option linter.unusedSectionVars false

/-! # Exactly how much memory: calls -/

namespace EnumVecModel
open EV

variable {α β γ τ : Type} {c : Inst α}

/-- What a call does to the storage of all vectors. -/
def FootCall (r : Out α × Mem c τ) (p : Bool × (Nat → Foot)) : Prop := r.2.foots = p.2 ∧ (r.1 = .oom ↔ p.1 = false)

theorem foots_upd (m : Mem c τ) (r : Nat) (s : EV c.W) (w : τ) : (⟨upd m.reg r s, w⟩ : Mem c τ).foots = upd m.foots r s.foot := by
  funext q
  show (upd m.reg r s q).foot = upd _ r s.foot q
  unfold upd
  split <;> rfl

theorem out_oom (e : Fault) : (e.out : Out α) = .oom ↔ e = .capacity := by cases e <;> simp [Fault.out]

theorem call_foot (m : Mem c τ) (r : Nat) {f : M (EV c.W) β} {out : β → Out α} {g : Foot → Bool × Foot} (h : FootRun (f (m.reg r)) (g (m.reg r).foot))
    (ho : ∀ b, out b ≠ .oom) : FootCall (m.call r f out) (Foot.on m.foots r g) := by
  unfold Mem.call
  show FootCall _ ((g (m.reg r).foot).1, upd m.foots r (g (m.reg r).foot).2)
  rcases hx : f (m.reg r) with ⟨e | b, s⟩ <;> rw [hx] at h
  · refine ⟨?_, ?_⟩
    · show Mem.foots _ = upd m.foots r _
      rw [← h.1]; exact foots_upd m r s _
    · rw [← h.2]; show e.out = _ ↔ _
      rw [out_oom]; exact ⟨fun h => by rw [h], fun h => Except.error.inj h⟩
  · refine ⟨?_, ?_⟩
    · show Mem.foots _ = upd m.foots r _
      rw [← h.1]; exact foots_upd m r s _
    · rw [← h.2]; exact iff_of_false (ho b) nofun

theorem call_still' (m : Mem c τ) (r : Nat) {f : M (EV c.W) β} {out : β → Out α} (h : Still EV.foot f) (ho : ∀ b, out b ≠ .oom) :
    FootCall (m.call r f out) (true, m.foots) := by
  have := call_foot (g := fun f => (true, f)) (out := out) m r (FootRun.still h (m.reg r)) ho
  rw [show Foot.on m.foots r (fun f => (true, f)) = (true, m.foots) from congrArg _ (upd_self _ _)] at this
  exact this

theorem callW_foot (m : Mem c τ) (r : Nat) {f : M (EV c.W × τ) Unit} (h : Still (fun p : EV c.W × τ => p.1.foot) f) :
    FootCall (m.callW r f) (true, m.foots) := by
  unfold Mem.callW
  have h := h (m.reg r, m.world)
  rcases hx : f (m.reg r, m.world) with ⟨e | b, s, w⟩ <;> rw [hx] at h
  · refine ⟨?_, iff_of_false ?_ nofun⟩
    · show Mem.foots _ = _
      rw [foots_upd, show s.foot = (m.reg r).foot from h.1]; exact upd_self _ _
    · show e.out ≠ _
      rw [Ne, out_oom]; exact fun he => h.2 (by rw [he])
  · refine ⟨?_, iff_of_false nofun nofun⟩
    show Mem.foots _ = _
    rw [foots_upd, show s.foot = (m.reg r).foot from h.1]; exact upd_self _ _

theorem ask_foot (m : Mem c τ) {v : Except Fault β} {out : β → Out α} (h : v ≠ .error .capacity) (ho : ∀ b, out b ≠ .oom) :
    FootCall (m.ask v out) (true, m.foots) := by
  unfold Mem.ask
  rcases v with e | b
  · refine ⟨rfl, iff_of_false ?_ nofun⟩
    show e.out ≠ _
    rw [Ne, out_oom]; exact fun he => h (by rw [he])
  · exact ⟨rfl, iff_of_false (ho b) nofun⟩

theorem assign_foot (m : Mem c τ) (r : Nat) {v : Except Fault (EV c.W)} {p : Bool × Foot}
    (h : match v with | .ok s => p = (true, s.foot) | .error e => e = .capacity ∧ p.1 = false) :
    FootCall (m.assign r v : Out α × Mem c τ) (Foot.assign m.foots r p) := by
  unfold Mem.assign Foot.assign
  rcases v with e | s
  · obtain ⟨rfl, h2⟩ := h
    rw [h2]
    exact ⟨rfl, iff_of_true rfl rfl⟩
  · rw [show p = (true, s.foot) from h]
    exact ⟨foots_upd m r s _, iff_of_false nofun nofun⟩

theorem build_foot {s : EV c.W} {f : M (EV c.W) Unit} {p : Bool × Foot} (h : FootRun (f s) p) (he : ∀ e s', f s = (.error e, s') → e = .capacity) :
    match build c s f with | .ok s => p = (true, s.foot) | .error e => e = .capacity ∧ p.1 = false := by
  unfold build
  rcases hx : f s with ⟨e | u, s'⟩ <;> rw [hx] at h
  · obtain rfl := he e s' hx
    exact ⟨rfl, h.2.mp rfl⟩
  · exact h.ok

section
variable {strict : Prop} (hc : c.Fits strict)
include hc

theorem extendRest_runs (panics : Bool) : ∀ (rest : List α) {s : EV c.W}, Safe c s →
    Runs (extendRest c panics rest s) (fun _ _ => panics = false) (fun e _ => panics = true ∨ e = .capacity)
  | [], s, h => by
    cases panics
    · exact rfl
    · exact Or.inl rfl
  | x :: rest, s, h => by
    unfold extendRest
    exact runs_seq (push_any hc h x) (fun _ _ h => Or.inr h.1) fun _ s2 h => extendRest_runs panics rest h.1

theorem extend_honest {s : EV c.W} (h : Safe c s) {it : Src α} (h1 : it.panics = false) (h2 : it.hint ≤ it.items.length)
    (hw : ¬ c.AtLimit (s.num + it.hint)) :
    Runs (EV.extend c it s) (fun _ _ => True) (fun e _ => e = .capacity) := by
  unfold EV.extend
  rw [M.read_bind]
  refine runs_seq (reserve_safe hc h hw) (fun _ _ h => h.1) ?_
  rintro _ s1 ⟨k1, k2, k3, k4, _⟩
  rw [M.read_bind]
  have : uAdd c.build s1.num it.hint = .ok (s1.num + it.hint) := by
    unfold uAdd; rw [if_pos (by omega)]
  rw [this, M.lift_ok_bind, M.write_bind, k2]
  have hs2 : Safe c (⟨s1.storage, s.num + it.hint⟩ : EV c.W) := by
    refine ⟨?_, k1.capLen, k1.capBound⟩
    show s.num + it.hint ≤ s1.storage.data.length * c.epb
    rw [k3, Nat.add_mul, Nat.one_mul]
    have h4 := Nat.div_add_mod (s.num + it.hint) c.epb
    have h5 := Nat.mod_lt (s.num + it.hint) hc.epb_pos
    rw [Nat.mul_comm]; omega
  refine runs_seq (extendHinted_runs hc it.panics it.hint s.num it.items hs2 (Nat.le_refl _)) (fun _ _ h => absurd h (by omega)) ?_
  rintro rest s' ⟨g1, -⟩
  exact (extendRest_runs hc it.panics rest g1).mono (fun _ _ _ => trivial) fun _ _ h => h.resolve_left (by rw [h1]; nofun)

/-- At the limit `collect` fails. -/
theorem extend_limit_bad {s : EV c.W} (h : Safe c s) {it : Src α} (hw : c.AtLimit (s.num + it.hint)) :
    Runs (EV.extend c it s) (fun _ _ => False) (fun _ _ => True) := by
  cases hck : c.build.checked
  · by_cases hi : it.items = []
    · rw [extend_limit_nil hw hck hi (h.hint_pos hc hw)]; trivial
    · rw [extend_limit_ub hw hck hi (h.hint_pos hc hw)]; trivial
  · rw [extend_limit_debug hw hck]; trivial

/-- A bad iterator makes `collect` fail. -/
theorem extend_bad {s : EV c.W} (h : Safe c s) {it : Src α} (h1 : it.panics = true ∨ it.items.length < it.hint) :
    Runs (EV.extend c it s) (fun _ _ => False) (fun _ _ => True) := by
  by_cases hw : c.AtLimit (s.num + it.hint)
  · exact extend_limit_bad hc h hw
  unfold EV.extend
  rw [M.read_bind]
  refine runs_seq (reserve_safe hc h hw) (fun _ _ _ => trivial) ?_
  rintro _ s1 ⟨k1, k2, k3, k4, _⟩
  rw [M.read_bind]
  have : uAdd c.build s1.num it.hint = .ok (s1.num + it.hint) := by
    unfold uAdd; rw [if_pos (by omega)]
  rw [this, M.lift_ok_bind, M.write_bind, k2]
  have hs2 : Safe c (⟨s1.storage, s.num + it.hint⟩ : EV c.W) := by
    refine ⟨?_, k1.capLen, k1.capBound⟩
    show s.num + it.hint ≤ s1.storage.data.length * c.epb
    rw [k3, Nat.add_mul, Nat.one_mul]
    have h4 := Nat.div_add_mod (s.num + it.hint) c.epb
    have h5 := Nat.mod_lt (s.num + it.hint) hc.epb_pos
    rw [Nat.mul_comm]; omega
  refine runs_seq (extendHinted_runs hc it.panics it.hint s.num it.items hs2 (Nat.le_refl _)) (fun _ _ _ => trivial) ?_
  rintro rest s' ⟨g1, g2, g3⟩
  have h1 : it.panics = true := h1.resolve_right (by omega)
  exact (extendRest_runs hc it.panics rest g1).mono (fun _ _ h => absurd (h1.symm.trans h) nofun) fun _ _ _ => trivial

theorem withCapacity_foot (n : Nat) :
    match EV.withCapacity c n with
    | .ok s => Foot.exact c.alloc (Foot.wanted c n) 0 = (true, s.foot)
    | .error e => e = .capacity ∧ (Foot.exact c.alloc (Foot.wanted c n) 0).1 = false := by
  have hb : blocksForElements c n = Foot.wanted c n := by
    unfold blocksForElements Foot.wanted satAdd
    rfl
  unfold EV.withCapacity RVec.withCapacity Foot.exact
  rw [hb]
  rcases c.alloc.exact (Foot.wanted c n) with _ | k
  · exact ⟨rfl, rfl⟩
  · rfl

theorem clone_foot (s : EV c.W) :
    match EV.clone c s with
    | .ok s' => Foot.exact c.alloc s.foot.blocks s.foot.blocks = (true, s'.foot)
    | .error e => e = .capacity ∧ (Foot.exact c.alloc s.foot.blocks s.foot.blocks).1 = false := by
  have e : EV.clone c s = match c.alloc.exact s.storage.data.length with
    | some k => .ok ⟨⟨s.storage.data, k⟩, s.num⟩
    | none => .error .capacity := by
    show (match (match c.alloc.exact s.storage.data.length with | some k => .ok ⟨s.storage.data, k⟩ | none => .error .capacity : Except Fault (RVec c.W)) with
      | .ok st => .ok ⟨st, s.num⟩ | .error e => .error e : Except Fault (EV c.W)) = _
    rcases c.alloc.exact s.storage.data.length with _ | k <;> rfl
  have f : Foot.exact c.alloc s.foot.blocks s.foot.blocks = match c.alloc.exact s.storage.data.length with
    | some k => (true, ⟨s.storage.data.length, k⟩)
    | none => (false, ⟨0, 0⟩) := rfl
  rw [e, f]
  rcases c.alloc.exact s.storage.data.length with _ | k
  · exact ⟨rfl, rfl⟩
  · rfl

/-- `from_elem` and `resize` fail only if memory is refused. -/
theorem extendWithValue_runs {s : EV c.W} (h : Safe c s) (x : α) (n : Nat) :
    Runs (extendWithValue c x n s) (fun _ _ => True) (fun e _ => e = .capacity) := by
  unfold extendWithValue
  by_cases hn : n ≤ 4 * c.epb
  · rw [if_pos hn]; exact (repeat_runs hc h x hn).mono (fun _ _ _ => trivial) fun _ _ h => h
  rw [if_neg hn, M.read_bind]
  dsimp only [EV.len]
  generalize hfirst : c.epb - s.num % c.epb = first
  refine runs_seq (repeat_runs hc h x (n := first) (by omega)) (fun _ _ h => h) ?_
  rintro _ s1 ⟨hs1, h1n⟩
  rw [M.read_bind]
  obtain ⟨s2, h2, hs2, h2n, h2c, h2l, _⟩ := fixStorage_safe hc hs1
  rw [M.bind_ok h2, M.read_bind]
  generalize hcb : (n - first) / c.epb = m
  generalize (m + if n - (first + m * c.epb) > 0 then 1 else 0) = extra
  have hr := RVec.reserve_res hc.lawful hc.bounded s2.storage extra hs2.capLen
  cases hx : RVec.reserve c.alloc s2.storage extra with
  | error e =>
    rw [hx] at hr
    rw [M.lift_error_bind]
    exact hr.1
  | ok st =>
    rw [hx] at hr
    obtain ⟨g1, g2, g3, g4⟩ := hr
    rw [M.lift_ok_bind, M.write_bind]
    have hs3 : Safe c (⟨st, s2.num⟩ : EV c.W) := by
      refine ⟨?_, ?_, ?_⟩
      · show s2.num ≤ st.data.length * c.epb
        rw [g1]; exact hs2.cover
      · exact g3.fits
      · exact g3.capBound hs2.capBound
    refine runs_seq (fillLoop hc m (spread (BitVec.ofNat c.W (c.E.toDiscr x)) c.bits) hs3 m) (fun _ _ h => h.1) ?_
    rintro _ s4 ⟨hs4, h4n, _, h4d⟩
    have hcov : s1.num + m * c.epb ≤ s4.storage.data.length * c.epb := by
      rw [h4d, List.length_append, List.length_replicate, Nat.add_mul]
      have e1 : s1.num ≤ st.data.length * c.epb := by rw [g1, h2l]; exact blocks_mul hc _
      have e2 : m * c.epb ≤ m * m * c.epb := by
        apply Nat.mul_le_mul_right
        rcases Nat.eq_zero_or_pos m with h | h
        · simp [h]
        · exact Nat.le_mul_of_pos_left _ h
      show _ ≤ st.data.length * c.epb + _
      omega
    have hroom := hs4.dataRoom hc
    have hep := hc.epb_pos
    have hadd : uAdd c.build s1.num (m * c.epb) = .ok (s1.num + m * c.epb) := by
      unfold uAdd; rw [if_pos (by omega)]
    rw [hadd, M.lift_ok_bind]
    exact (repeat_runs hc (s := ⟨s4.storage, s1.num + m * c.epb⟩) ⟨hcov, hs4.capLen, hs4.capBound⟩ x (by
      have h1 := Nat.div_add_mod (n - first) c.epb
      have h2 := Nat.mod_lt (n - first) hep
      rw [hcb, Nat.mul_comm] at h1
      omega)).mono (fun _ _ _ => trivial) fun _ _ h => h

/-- Both vectors. -/
abbrev foot2 (p : EV c.W × EV c.W) : Foot × Foot := (p.1.foot, p.2.foot)

omit hc in
theorem still2_fst {m : M (EV c.W) β} (h : Still EV.foot m) : Still (foot2 (c := c)) (onFst m) := fun p => by
  have := h p.1
  rw [onFst_apply]
  exact ⟨Prod.ext this.1 rfl, this.2⟩

omit hc in
theorem still2_snd {m : M (EV c.W) β} (h : Still EV.foot m) : Still (foot2 (c := c)) (onSnd m) := fun p => by
  have := h p.2
  rw [onSnd_apply]
  exact ⟨Prod.ext rfl this.1, this.2⟩

theorem append_foot {s o : EV c.W} (hs : Safe c s) (ho : Safe c o) :
    foot2 (append c (s, o)).2 = (Foot.append c s.num o.num s.foot o.foot).2 ∧
      ((append c (s, o)).1 = .error .capacity ↔ (Foot.append c s.num o.num s.foot o.foot).1 = false) := by
  unfold append Foot.append
  rw [M.read_bind]
  by_cases hm : s.num % c.epb = 0
  · rw [if_pos (show len c s % c.epb = 0 from hm), if_pos hm]
    obtain ⟨s1, h1, hs1, h1n, _, h1l, _⟩ := fixStorage_safe hc hs
    obtain ⟨o1, g1, ho1, g1n, _, g1l, _⟩ := fixStorage_safe hc ho
    have fs := fixStorage_foot hc hs
    rw [h1] at fs
    have fs := (Prod.mk.inj fs.ok).2
    have fo := fixStorage_foot hc ho
    rw [g1] at fo
    have fo := (Prod.mk.inj fo.ok).2
    rw [M.bind_ok (onFst_eq h1 o), M.bind_ok (onSnd_eq g1 s1), fs, fo]
    have hr := RVec.reserve_foot c.alloc s1.storage o1.storage.data.length
    rw [show Foot.room c.alloc (s1.foot.blocks + o1.foot.blocks) s1.foot =
      Foot.room c.alloc (s1.storage.data.length + o1.storage.data.length) ⟨s1.storage.data.length, s1.storage.cap⟩ from rfl]
    have hA : ∀ st, RVec.reserve c.alloc s1.storage o1.storage.data.length = .ok st →
        appendStorage c (s1, o1) = if c.small then onSnd (EV.clear c) ({ s1 with storage := { st with data := st.data ++ o1.storage.data } }, o1)
          else (.ok (), ({ s1 with storage := { st with data := st.data ++ o1.storage.data } }, { o1 with storage := { o1.storage with data := [] } })) := by
      intro st hst
      unfold appendStorage RVec.extendFromSlice
      dsimp only
      rw [hst]
    have hB : ∀ e, RVec.reserve c.alloc s1.storage o1.storage.data.length = .error e → appendStorage c (s1, o1) = (.error e, (s1, o1)) := by
      intro st hst
      unfold appendStorage RVec.extendFromSlice
      dsimp only
      rw [hst]
    have tail : Still (foot2 (c := c)) (M.read >>= fun p => M.lift (uAdd c.build p.1.num (len c o)) >>= fun n => onFst (setLen c n)) :=
      Still.bind Still.read fun _ => Still.bind (Still.lift (uAdd_nc _ _ _)) fun _ => still2_fst (setLen_still c _)
    cases hx : RVec.reserve c.alloc s1.storage o1.storage.data.length with
    | error e =>
      rw [hx] at hr
      rw [M.bind_error (hB e hx), hr.1, hr.2]
      exact ⟨rfl, iff_of_true rfl rfl⟩
    | ok st =>
      rw [hx] at hr
      rw [hr.1]
      by_cases hsm : c.small = true
      · have := hA st hx
        rw [if_pos hsm, onSnd_eq (clear_eq hc o1)] at this
        rw [M.bind_ok this, if_pos hsm]
        refine ⟨(tail _).1.trans ?_, iff_of_false (tail _).2 nofun⟩
        refine Prod.ext ?_ rfl
        show Foot.mk (st.data ++ o1.storage.data).length _ = Foot.mk (s1.storage.data.length + o1.storage.data.length) _
        rw [List.length_append, hr.2]
      · have := hA st hx
        rw [if_neg hsm] at this
        rw [M.bind_ok this, if_neg hsm]
        refine ⟨(tail _).1.trans ?_, iff_of_false (tail _).2 nofun⟩
        refine Prod.ext ?_ rfl
        show Foot.mk (st.data ++ o1.storage.data).length _ = Foot.mk (s1.storage.data.length + o1.storage.data.length) _
        rw [List.length_append, hr.2]
  · rw [if_neg (show ¬ len c s % c.epb = 0 from hm), if_neg hm]
    have hr := reserve_foot hc s o.num
    have tail : Still (foot2 (c := c)) (M.lift (uAdd c.build (len c s) (len c o)) >>= fun n => onFst (setLen c n) >>= fun _ =>
        loop (appendStep c (len c s)) (len c o) 0 () >>= fun _ => onSnd (EV.clear c)) :=
      Still.bind (Still.lift (uAdd_nc _ _ _)) fun _ => Still.bind (still2_fst (setLen_still c _)) fun _ =>
      Still.bind (Still.loop (fun _ _ => Still.bind (still2_snd (getRawUnchecked_still c _)) fun _ => still2_fst (setRawUnchecked_still c _ _)) _ _ _) fun _ =>
      still2_snd (clear_still c)
    rcases hx : EV.reserve c o.num s with ⟨e | u, s'⟩ <;> rw [hx] at hr
    · rw [M.bind_error (onFst_eq (show EV.reserve c (len c o) s = _ from hx) o)]
      exact ⟨Prod.ext hr.1 rfl, ⟨fun he => hr.2.mp (by cases he; rfl), fun hp => by have := hr.2.mpr hp; cases this; rfl⟩⟩
    · rw [M.bind_ok (onFst_eq (show EV.reserve c (len c o) s = _ from hx) o), hr.ok]
      exact ⟨(tail _).1, iff_of_false (tail _).2 nofun⟩

theorem splitOff_foot {s : EV c.W} (i : Nat) (hi : i ≤ s.num) :
    (splitOff c i s).2.foot = s.foot ∧
      match (splitOff c i s).1 with
      | .ok o => i = s.num ∧ Foot.exact c.alloc (Foot.wanted c (s.num - i)) 0 = (true, o.foot)
      | .error e => (e = .capacity ∧ (Foot.exact c.alloc (Foot.wanted c (s.num - i)) 0).1 = false) ∨
        (e = .ub ∧ i < s.num ∧ (Foot.exact c.alloc (Foot.wanted c (s.num - i)) 0).1 = true) := by
  unfold splitOff
  rw [if_pos (show i ≤ len c s from hi)]
  dsimp only [EV.len]
  have hw := withCapacity_foot hc (s.num - i)
  cases hx : EV.withCapacity c (s.num - i) with
  | error e => rw [hx] at hw; exact ⟨rfl, Or.inl hw⟩
  | ok o =>
    rw [hx] at hw
    have hz : o.storage.data = [] := by
      unfold EV.withCapacity RVec.withCapacity at hx
      split at hx
      · next st hst => split at hst <;> cases hst; cases hx; rfl
      · cases hx
    dsimp only
    by_cases h : i < s.num
    · have hn : s.num - i = (s.num - i - 1) + 1 := by omega
      have e : ∃ t, t.foot = s.foot ∧ loop (splitOffStep c i) (s.num - i) 0 () (s, { o with num := s.num - i }) = (.error .ub, (t, { o with num := s.num - i })) := by
        rw [hn]
        refine ⟨s, rfl, ?_⟩
        unfold loop
        apply M.bind_error
        unfold splitOffStep
        rcases hg : rawUnchecked c s (i + 0) with e | d
        · rw [M.bind_error (onFst_eq (show getRawUnchecked c (i + 0) s = (.error e, s) by unfold getRawUnchecked; rw [hg]) _)]
          unfold rawUnchecked at hg
          split at hg
          · cases hg
          · cases hg; rfl
        · rw [M.bind_ok (onFst_eq (show getRawUnchecked c (i + 0) s = (.ok d, s) by unfold getRawUnchecked; rw [hg]) _)]
          have : setRawUnchecked c 0 d { o with num := s.num - i - 1 + 1 } = (.error .ub, { o with num := s.num - i - 1 + 1 }) := by
            unfold setRawUnchecked
            dsimp only
            rw [hz]
            rfl
          rw [onSnd_eq this]
      obtain ⟨t, ht, e⟩ := e
      rw [e]
      exact ⟨ht, Or.inr ⟨rfl, h, by rw [hw]⟩⟩
    · have h0 : s.num - i = 0 := by omega
      rw [h0] at hw ⊢
      refine ⟨rfl, by omega, ?_⟩
      exact hw

theorem fromVec_foot (m : Mem c τ) (r : Nat) (xs : List α) :
    FootCall (m.assign r (build c (new c) (extend c ⟨xs.length, xs, false⟩)))
      (if c.AtLimit xs.length then (true, m.foots) else Foot.assign m.foots r (Foot.extend c 0 xs.length xs.length (Foot.fresh c))) := by
  have hnew : Safe c (EV.new c) := new_safe hc
  have h1 := extend_foot hc hnew ⟨xs.length, xs, false⟩
  by_cases hw : c.AtLimit xs.length
  · rw [if_pos hw]
    have hw' : c.AtLimit ((new c : EV c.W).num + xs.length) := by rw [show (new c : EV c.W).num = 0 from rfl, Nat.zero_add]; exact hw
    have h2 := extend_limit_bad hc hnew (it := ⟨xs.length, xs, false⟩) hw'
    unfold build
    rcases hx : EV.extend c ⟨xs.length, xs, false⟩ (EV.new c) with ⟨e | u, s'⟩ <;> rw [hx] at h1 h2
    · refine ⟨rfl, ?_⟩
      show e.out = _ ↔ _
      rw [out_oom]
      refine iff_of_false (fun he => ?_) nofun
      have h3 := h1.2.mp (by rw [he])
      unfold Foot.extend Foot.reserve at h3
      rw [if_pos hw', if_pos hw'] at h3
      cases h3
    · exact h2.elim
  · rw [if_neg hw]
    refine assign_foot m r (build_foot h1 fun e s' h => ?_)
    have := extend_honest hc hnew (it := ⟨xs.length, xs, false⟩) rfl (Nat.le_refl _)
      (by rw [show (new c : EV c.W).num = 0 from rfl, Nat.zero_add]; exact hw)
    rw [h] at this; exact this

theorem step_foot {m : Mem c τ} (hs : ∀ r, Safe c (m.reg r)) (op : Op τ α) :
    FootCall (step c m op) (Foot.step c m.lens m.foots op) := by
  have hnew : Safe c (EV.new c) := new_safe hc
  have hfresh : (EV.new c).foot = Foot.fresh c := rfl
  cases op with
  | new r => exact assign_foot m r (p := (true, Foot.fresh c)) rfl
  | withCapacity r n => exact assign_foot m r (withCapacity_foot hc n)
  | fromElem r x n =>
    refine assign_foot m r (build_foot (extendWithValue_foot hc hnew x n) fun e s' h => ?_)
    have := extendWithValue_runs hc hnew x n
    rw [h] at this; exact this
  | fromVec r xs => exact fromVec_foot hc m r xs
  | fromSlice r xs => exact fromVec_foot hc m r xs
  | fromIter r it =>
    show FootCall _ (if _ then _ else _)
    split
    · next hbad =>
      have h1 := extend_foot hc hnew it
      have h2 : Runs (EV.extend c it (EV.new c)) (fun _ _ => False) (fun _ _ => True) := by
        rcases hbad with hw | hbad
        · exact extend_limit_bad hc hnew (by rw [show (new c : EV c.W).num = 0 from rfl, Nat.zero_add]; exact hw)
        · exact extend_bad hc hnew hbad
      show FootCall (m.assign r (build c (EV.new c) (EV.extend c it))) _
      unfold build
      rcases hx : EV.extend c it (EV.new c) with ⟨e | u, s'⟩ <;> rw [hx] at h1 h2
      · refine ⟨rfl, ?_⟩
        show e.out = _ ↔ _
        rw [out_oom]
        exact ⟨fun he => h1.2.mp (by rw [he]), fun hp => Except.error.inj (h1.2.mpr hp)⟩
      · exact h2.elim
    · next hgood =>
      refine assign_foot m r (build_foot (extend_foot hc hnew it) fun e s' h => ?_)
      have := extend_honest hc hnew (it := it) (by simpa using fun h => hgood (Or.inr (Or.inl h))) (Nat.le_of_not_lt fun h => hgood (Or.inr (Or.inr h)))
        (by rw [show (new c : EV c.W).num = 0 from rfl, Nat.zero_add]; exact fun h => hgood (Or.inl h))
      rw [h] at this; exact this
  | clone r src => exact assign_foot m r (clone_foot hc (m.reg src))
  | len r => exact ⟨rfl, iff_of_false nofun nofun⟩
  | isEmpty r => exact ⟨rfl, iff_of_false nofun nofun⟩
  | get r i => exact call_still' m r (get_still c i) nofun
  | set r i x => exact call_still' m r (set_still c i x) nofun
  | push r x => exact call_foot m r (push_foot hc (hs r) x) nofun
  | pop r => exact call_still' m r (pop_still c) nofun
  | insert r i x => exact call_foot m r (insert_foot hc (hs r) i x) nofun
  | remove r i => exact call_still' m r (remove_still c i) nofun
  | swap r i j => exact call_still' m r (swap_still c i j) nofun
  | swapRemove r i => exact call_still' m r (swapRemove_still c i) nofun
  | truncate r n => exact call_still' m r (truncate_still c n) nofun
  | clear r => exact call_still' m r (clear_still c) nofun
  | resize r n x =>
    have h := resize_foot hc (hs r) n x
    show FootCall _ (if m.lens r < n then _ else _)
    by_cases hn : m.lens r < n
    · rw [if_pos hn]
      rw [if_pos (show (m.reg r).num < n from hn)] at h
      exact call_foot m r (g := Foot.repeated c (m.lens r) (n - m.lens r)) h nofun
    · rw [if_neg hn]
      have e : EV.resize c n x (m.reg r) = truncate c n (m.reg r) := by
        unfold EV.resize
        rw [M.read_bind, if_neg (show ¬ n > EV.len c (m.reg r) from hn)]
      show FootCall (m.call r _ _) _
      unfold Mem.call
      rw [e]
      exact call_still' m r (truncate_still c n) (out := fun _ => .unit) nofun
  | reserve r n => exact call_foot m r (reserve_foot hc (m.reg r) n) nofun
  | shrinkToFit r => exact call_foot m r (g := fun f => (true, ⟨(Foot.fix c (m.lens r) f).blocks, c.alloc.shrinkTo f.cap (Foot.fix c (m.lens r) f).blocks⟩)) (shrinkToFit_foot hc (hs r)) nofun
  | extend r it => exact call_foot m r (extend_foot hc (hs r) it) nofun
  | append r o =>
    have h := append_foot hc (hs r) (hs o)
    show FootCall (match EV.append c (m.reg r, m.reg o) with
      | (.ok _, p) => (.unit, { m with reg := upd (upd m.reg r p.1) o p.2 })
      | (.error e, p) => (e.out, { m with reg := upd (upd m.reg r p.1) o p.2 })) _
    have key : ∀ p : EV c.W × EV c.W, foot2 p = (Foot.append c (m.reg r).num (m.reg o).num (m.reg r).foot (m.reg o).foot).2 →
        (⟨upd (upd m.reg r p.1) o p.2, m.world⟩ : Mem c τ).foots =
          upd (upd m.foots r (Foot.append c (m.lens r) (m.lens o) (m.foots r) (m.foots o)).2.1) o (Foot.append c (m.lens r) (m.lens o) (m.foots r) (m.foots o)).2.2 := by
      intro p hp
      have e : Foot.append c (m.lens r) (m.lens o) (m.foots r) (m.foots o) = Foot.append c (m.reg r).num (m.reg o).num (m.reg r).foot (m.reg o).foot := rfl
      rw [e, ← hp]
      have := foots_upd (⟨upd m.reg r p.1, m.world⟩ : Mem c τ) o p.2 m.world
      rw [foots_upd m r p.1 m.world] at this
      exact this
    rcases hx : EV.append c (m.reg r, m.reg o) with ⟨e | u, p⟩ <;> rw [hx] at h
    · refine ⟨key p h.1, ?_⟩
      show e.out = _ ↔ _
      rw [out_oom]
      exact ⟨fun he => h.2.mp (by rw [he]), fun hp => Except.error.inj (h.2.mpr hp)⟩
    · exact ⟨key p h.1, iff_of_false nofun fun hp => absurd (h.2.mpr hp) nofun⟩
  | splitOff r i d =>
    show FootCall (match EV.splitOff c i (m.reg r) with
      | (.ok o, s) => (.unit, { m with reg := upd (upd m.reg r s) d o })
      | (.error e, s) => (e.out, { m with reg := upd m.reg r s })) (if i ≤ m.lens r then _ else _)
    by_cases hi : i ≤ m.lens r
    · rw [if_pos hi]
      have h := splitOff_foot hc (s := m.reg r) i hi
      have hkeep : ∀ s : EV c.W, s.foot = (m.reg r).foot → (⟨upd m.reg r s, m.world⟩ : Mem c τ).foots = m.foots := by
        intro s hs
        rw [foots_upd, hs]; exact upd_self _ _
      rcases hx : EV.splitOff c i (m.reg r) with ⟨e | o, s⟩ <;> rw [hx] at h
      · obtain ⟨h1, ⟨rfl, h2⟩ | ⟨rfl, h2, h3⟩⟩ := h
        · refine ⟨?_, iff_of_true rfl ?_⟩
          · dsimp only
            rw [hkeep s h1]
            split
            · show _ = if (Foot.exact c.alloc (Foot.wanted c (m.lens r - i)) 0).1 = true then _ else _
              have h2 : (Foot.exact c.alloc (Foot.wanted c (m.lens r - i)) 0).1 = false := h2
              rw [h2]; rfl
            · rfl
          · split <;> exact h2
        · have hne : ¬ i = m.lens r := Nat.ne_of_lt h2
          dsimp only
          rw [if_neg hne]
          exact ⟨hkeep s h1, iff_of_false nofun fun h => absurd (h3.symm.trans h) nofun⟩
      · obtain ⟨h1, h2, h3⟩ := h
        dsimp only
        rw [if_pos (show i = m.lens r from h2), show Foot.exact c.alloc (Foot.wanted c (m.lens r - i)) 0 = _ from h3]
        refine ⟨?_, iff_of_false nofun nofun⟩
        have := foots_upd (⟨upd m.reg r s, m.world⟩ : Mem c τ) d o m.world
        rw [hkeep s h1] at this
        exact this
    · rw [if_neg hi]
      have : EV.splitOff c i (m.reg r) = (.error .index, m.reg r) := splitOff_oob hc (m.reg r) (Nat.lt_of_not_le hi)
      rw [this]
      refine ⟨?_, iff_of_false nofun nofun⟩
      show Mem.foots _ = _
      rw [foots_upd]; exact upd_self _ _
  | retain r f => exact callW_foot m r (retain_still c f)
  | forEach r f => exact callW_foot m r (forEach_still c f)
  | eq r o => exact ask_foot m (eq_nc c _ _) nofun
  | any r x => exact call_still' m r (any_still c x) nofun
  | all r x => exact call_still' m r (all_still c x) nofun
  | toVec r => exact ask_foot m (toVec_nc c _) nofun
  | iterate r calls => exact ask_foot m (iterRun_still c calls _).2 nofun
  | hash r => exact ask_foot m (hash_nc c _) nofun

end
end EnumVecModel
