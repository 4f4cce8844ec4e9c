import Verif.Hostile
import Verif.Lemmas.SafeHistory

set_option linter.unusedSectionVars false

/-! # Memory safety over an arbitrary implementation of `EnumLike` -/

namespace EnumVecModel
open EV

variable {α β γ ω ι : Type} {c : Inst α}

theorem Keeps1.read {m : EV c.W × ω → M (EV c.W × ω) β} (h : ∀ p, Safe c p.1 → Runs (m p p) (fun _ p' => Safe c p'.1) (fun e p' => e ≠ .ub ∧ Safe c p'.1)) :
    Keeps1 c (M.read >>= m) := fun p hp => by rw [M.read_bind]; exact h p hp

theorem Keeps1.lift {r : Except Fault β} (h : r ≠ .error .ub) : Keeps1 (τ := ω) c (M.lift r) := fun s hs => by
  cases r with
  | ok a => exact hs
  | error e => exact ⟨fun he => h (by rw [he]), hs⟩

namespace Hostile
variable (h : Impl ω α)

theorem toDiscr_keeps (x : α) : Keeps1 c (toDiscr (σ := EV c.W) h x) := call_keeps _ x

theorem call_keeps' {δ : Type} (f : Closure ω δ β) (x : δ) : Keeps1 c (call (σ := EV c.W) f x) := by
  rintro ⟨s, t⟩ hs
  unfold call
  split
  · exact hs
  · exact ⟨by simp, hs⟩

theorem fromDiscr_keeps (d : Nat) : Keeps1 c (fromDiscr (σ := EV c.W) h d) := by
  rintro ⟨s, t⟩ hs
  unfold fromDiscr
  split
  · exact hs
  · exact ⟨by simp, hs⟩

section
variable {strict : Prop} (hc : c.Fits strict)
include hc

theorem get_keeps (i : Nat) : Keeps1 c (get c h i) := by
  unfold get
  refine (getRaw_keeps hc i).onFst.bind fun r => ?_
  cases r with
  | none => exact Keeps1.pure none
  | some x => exact (fromDiscr_keeps h x).bind fun a => Keeps1.pure (some a)

/-- `get` does not change the vector. -/
theorem get_fst (i : Nat) (p : EV c.W × ω) : (get c h i p).2.1 = p.1 := by
  obtain ⟨s, w⟩ := p
  have e : (getRaw c i s).2 = s := getRaw_state i s
  unfold get
  rcases hx : getRaw c i s with ⟨e' | b, s'⟩
  · rw [M.bind_error (onFst_eq hx w)]; rw [hx] at e; exact e
  · rw [M.bind_ok (onFst_eq hx w)]
    rw [hx] at e
    cases b with
    | none => exact e
    | some d =>
      show ((fromDiscr h d >>= fun a => Pure.pure (some a)) (s', w)).2.1 = s
      rw [M.bind_apply]
      unfold fromDiscr
      rcases h.fromDiscr d w with ⟨_ | a, w'⟩ <;> exact e

theorem set_keeps (i : Nat) (x : α) : Keeps1 c (set c h i x) :=
  (toDiscr_keeps h x).bind fun d => (setRaw_keeps hc i d).onFst

/-- `set` does not change the length. -/
theorem set_num (i : Nat) (x : α) (p : EV c.W × ω) : (set c h i x p).2.1.num = p.1.num := by
  obtain ⟨s, w⟩ := p
  unfold set toDiscr
  rw [M.bind_apply]
  unfold call
  rcases h.toDiscr x w with ⟨_ | d, w'⟩
  · rfl
  · simp only [onFst_apply]
    unfold setRaw
    rw [M.read_bind]
    split
    · rfl
    · show (setRawUnchecked c i d s).2.num = s.num
      unfold setRawUnchecked; split <;> rfl

/-- `push` fails without effect, or makes room and calls `set`. -/
theorem push_split {s : EV c.W} (hs : Safe c s) (x : α) (w : ω) :
    (push c h x (s, w) = (.error .capacity, (s, w)) ∧ Refused c (c.blocks (s.num + 1))) ∨
    ∃ s1, Safe c s1 ∧ s1.num = s.num + 1 ∧ (∀ j, blk s1 j = blk s j) ∧ push c h x (s, w) = set c h s.num x (s1, w) := by
  have key := growIfNeeded_safe hc hs
  unfold push
  rcases hx : growIfNeeded c s with ⟨e | u, s1⟩
  · rw [hx] at key
    obtain ⟨rfl, rfl, hr⟩ := key
    exact Or.inl ⟨by rw [M.bind_error (onFst_eq hx w)], hr⟩
  · rw [hx] at key
    obtain ⟨h1, h2, h3, -, -, h6⟩ := key
    have hroom := h1.dataRoom hc
    have hep := hc.epb_pos
    have hlt : s1.num + 1 < c.build.usizeLim := by omega
    refine Or.inr ⟨⟨s1.storage, s1.num + 1⟩, ⟨by simpa [h2] using h3, h1.capLen, h1.capBound⟩, by simp [h2], fun j => h6 j, ?_⟩
    rw [M.bind_ok (onFst_eq hx w), M.read_bind]
    simp only [hlt, if_true]
    rw [M.write_bind, h2]

theorem push_keeps (x : α) : Keeps1 c (push c h x) := by
  rintro ⟨s, w⟩ hs
  rcases push_split h hc hs x w with ⟨e, -⟩ | ⟨s1, h1, -, -, e⟩
  · rw [e]; exact ⟨by simp, hs⟩
  · rw [e]; exact set_keeps h hc _ x (s1, w) h1

theorem pop_keeps : Keeps1 c (pop c h) := by
  unfold pop
  refine Keeps1.read fun s hs => ?_
  split
  · exact hs
  · refine (get_keeps h hc _).bind (fun x => (Keeps1.unwrap x).bind fun x => Keeps1.read fun p hp => ?_) s hs
    rw [M.write_bind]
    exact hp.setNum hc (Nat.sub_le _ _)

theorem swapRemove_keeps (i : Nat) : Keeps1 c (swapRemove c h i) := by
  unfold swapRemove
  refine Keeps1.read fun s hs => ?_
  exact ((Keeps1.lift (uSub_ne _ _ _)).bind fun _ => (swap_keeps hc _ _).onFst.bind fun _ => (pop_keeps h hc).bind fun x =>
    Keeps1.unwrap x) s hs

theorem insertShift_safe (index d : Nat) {s : EV c.W} (hs : Safe c s) : SafeRun c (insertShift c index (len c s) d s) := by
  unfold insertShift
  refine runs_seq (P := fun _ s' => Safe c s') (E' := fun e s' => e ≠ .ub ∧ Safe c s') ?_ (fun _ _ h => h) ?_
  · split
    · refine runs_seq (m := M.lift (uAdd c.build (index - index % c.epb) c.epb)) (P := fun _ s' => s' = s)
        (E' := fun e s' => e ≠ .ub ∧ s' = s) ?_ (fun e s' h => ⟨h.1, h.2 ▸ hs⟩) ?_
      · have := uAdd_ne c.build (index - index % c.epb) c.epb
        rw [M.lift_apply]
        cases he : uAdd c.build (index - index % c.epb) c.epb with
        | ok v => exact rfl
        | error e => rw [he] at this; exact ⟨by simpa using this, rfl⟩
      · rintro sl s' rfl
        refine runs_seq (insertSlow_keeps hc hs (min sl (len c s') - index) index d ?_)
          (fun _ _ h => h.elim) ?_
        · have : len c s' = s'.num := rfl
          omega
        · intro prev s2 h2
          exact h2.safe hs
    · exact hs
  · rintro ⟨i, prev⟩ s' hs'
    refine Keeps.read (fun s hs => ?_) s' hs'
    split
    · refine (Keeps.bind ?_ fun _ => Keeps.pure ()) s hs
      exact Keeps.loop (fun i a => insertFastStep_keeps hc i a) _ _ _
    · exact hs

theorem toDiscr_fst {σ : Type} (x : α) (p : σ × ω) : (toDiscr h x p).2.1 = p.1 := by
  unfold toDiscr call
  rcases h.toDiscr x p.2 with ⟨_ | d, w'⟩ <;> rfl

theorem insert_keeps (index : Nat) (x : α) : Keeps1 c (insert c h index x) := by
  unfold insert
  refine (push_keeps h hc x).bind fun _ => Keeps1.read fun p hp => ?_
  obtain ⟨s, w⟩ := p
  rw [M.bind_apply]
  unfold toDiscr call
  rcases h.toDiscr x w with ⟨_ | d, w'⟩
  · exact ⟨by simp, hp⟩
  · simp only [onFst_apply]
    have := insertShift_safe hc index d hp
    rcases hx : insertShift c index (len c s) d s with ⟨e | u, s'⟩
    · rw [hx] at this; exact this
    · rw [hx] at this; exact this

theorem removeShift_safe (index : Nat) {s : EV c.W} (hs : Safe c s) (hi : index < s.num) : SafeRun c (removeShift c index s) := by
  unfold removeShift
  rw [M.read_bind]
  refine runs_seq (m := M.lift (uMul c.build (1 + (blockIndex c index).1) c.epb)) (P := fun _ s' => s' = s)
    (E' := fun e s' => e ≠ .ub ∧ s' = s) ?_ (fun e s' h => ⟨h.1, h.2 ▸ hs⟩) ?_
  · have := uMul_ne c.build (1 + (blockIndex c index).1) c.epb
    rw [M.lift_apply]
    cases he : uMul c.build (1 + (blockIndex c index).1) c.epb with
    | ok v => exact rfl
    | error e => rw [he] at this; exact ⟨by simpa using this, rfl⟩
  · rintro bl s' rfl
    refine runs_seq (removeSlow_keeps hc hs (min (len c s' - 1) bl - index) index ?_) (fun _ _ h => h.elim) ?_
    · have : len c s' = s'.num := rfl
      omega
    · intro _ s2 h2
      have hs2 := h2.safe hs
      have hn2 := h2.num
      rw [M.read_bind, M.bind_ok (getRawUnchecked_run hc hs2 (show len c s2 - 1 < s2.num by
        show s2.num - 1 < s2.num; omega)), M.read_bind, M.write_bind]
      refine Keeps.read (fun s hs => ?_) _ (hs2.setNum hc (Nat.sub_le _ _))
      split
      · exact (Keeps.loop (fun i a => removeFastStep_keeps hc _ a) _ _ _).bind (fun _ => Keeps.pure _) s hs
      · exact hs

/-- `get` beyond the end. -/
theorem get_oob {s : EV c.W} (hs : Safe c s) {i : Nat} (hi : s.num ≤ i) (w : ω) : get c h i (s, w) = (.ok none, (s, w)) := by
  unfold get
  have e := getRaw_safe hc hs i
  rw [if_neg (by omega)] at e
  rw [M.bind_ok (onFst_eq e w)]
  rfl

theorem get_in {s : EV c.W} (hs : Safe c s) {i : Nat} (hi : i < s.num) (w : ω) :
    get c h i (s, w) = match h.fromDiscr (raw c s i) w with
      | (some a, w') => (.ok (some a), (s, w'))
      | (none, w') => (.error .badDiscr, (s, w')) := by
  unfold get
  have e := getRaw_safe hc hs i
  rw [if_pos hi] at e
  rw [M.bind_ok (onFst_eq e w)]
  show (fromDiscr h (raw c s i) >>= _) (s, w) = _
  rw [M.bind_apply]
  unfold fromDiscr
  rcases h.fromDiscr (raw c s i) w with ⟨_ | a, w'⟩ <;> rfl

theorem remove_keeps (index : Nat) : Keeps1 c (remove c h index) := by
  rintro ⟨s, w⟩ hs
  unfold remove
  rcases Nat.lt_or_ge index s.num with hi | hi
  · rw [M.bind_apply, get_in h hc hs hi]
    rcases h.fromDiscr (raw c s index) w with ⟨_ | a, w'⟩
    · exact ⟨by simp, hs⟩
    · show Runs ((M.unwrap (some a) >>= _) (s, w')) _ _
      rw [M.unwrap_some_bind, M.bind_apply, onFst_apply]
      have := removeShift_safe hc index hs hi
      rcases hx : removeShift c index s with ⟨e | u, s'⟩
      · rw [hx] at this; exact this
      · rw [hx] at this; exact this
  · rw [M.bind_ok (get_oob h hc hs hi w), M.unwrap_none_bind]
    exact ⟨by simp, hs⟩

theorem retain_keeps (f : Closure ω α Bool) : Keeps1 c (retain c h f) := by
  rintro ⟨s, t⟩ hs
  unfold retain
  rw [M.read_bind]
  refine runs_seq (P := fun iSet p => Safe c p.1 ∧ p.1.num = s.num ∧ iSet ≤ s.num)
    (E' := fun e p => e ≠ .ub ∧ Safe c p.1) ?_ (fun _ _ h => h) ?_
  · refine (runs_loop (stop := s.num) (fun i iSet p => Safe c p.1 ∧ p.1.num = s.num ∧ iSet ≤ i) ?_ (len c s) 0 0 (s, t)
      (by show 0 + s.num = s.num; omega) ⟨hs, rfl, Nat.le_refl _⟩)
    rintro i iSet ⟨s1, t1⟩ hi ⟨h1, h2, h3⟩
    replace h1 : Safe c s1 := h1
    replace h2 : s1.num = s.num := h2
    unfold retainStep
    rw [M.bind_apply, get_in h hc h1 (by omega)]
    rcases h.fromDiscr (raw c s1 i) t1 with ⟨_ | x, t2⟩
    · exact ⟨by simp, h1⟩
    · show Runs ((M.unwrap (some x) >>= _) (s1, t2)) _ _
      rw [M.unwrap_some_bind, M.bind_apply]
      unfold call
      rcases f x t2 with ⟨_ | keep, t3⟩
      · exact ⟨by simp, h1⟩
      · simp only
        cases keep
        · exact ⟨h1, h2, by omega⟩
        · rw [if_pos rfl]
          have hk := set_keeps h hc iSet x (s1, t3) h1
          have hn := set_num h hc iSet x (s1, t3)
          rcases hx : set c h iSet x (s1, t3) with ⟨e | u, p⟩
          · rw [hx] at hk; rw [M.bind_error hx]; exact hk
          · rw [hx] at hk hn; rw [M.bind_ok hx]; exact ⟨hk, hn.trans h2, by omega⟩
  · rintro iSet ⟨s1, t1⟩ ⟨h1, h2, h3⟩
    replace h2 : s1.num = s.num := h2
    exact h1.setNum hc (show iSet ≤ s1.num by omega)

theorem forEach_keeps (f : Closure ω α α) : Keeps1 c (forEach c h f) := by
  rintro ⟨s, t⟩ hs
  unfold forEach
  rw [M.read_bind]
  refine Keeps1.loop (fun i a => ?_) _ _ _ (s, t) hs
  exact (get_keeps h hc i).bind fun x => (Keeps1.unwrap x).bind fun x => (call_keeps f x).bind fun y =>
    set_keeps h hc i y

theorem extendHinted_keeps (I : Iter ω ι α) : ∀ (n pos : Nat) (t : ι), Keeps1 c (extendHinted c h I n pos t)
  | 0, _, t => Keeps1.pure t
  | n + 1, pos, t => (call_keeps' I.next t).bind fun r => (Keeps1.unwrap r.1).bind fun x => (set_keeps h hc pos x).bind fun _ =>
      extendHinted_keeps I n (pos + 1) r.2

theorem extendRest_keeps (I : Iter ω ι α) : ∀ (n : Nat) (t : ι), Keeps1 c (extendRest c h I n t)
  | 0, _ => Keeps1.pure false
  | n + 1, t => (call_keeps' I.next t).bind fun r => by
      cases r.1 with
      | none => exact Keeps1.pure true
      | some x => exact (push_keeps h hc x).bind fun _ => extendRest_keeps I n r.2

theorem extend_keeps (I : Iter ω ι α) (n : Nat) (t : ι) {p : EV c.W × ω} (hp : Safe c p.1)
    (hw : ∀ k ∈ (I.hint t p.2).1, ¬ c.Drops (p.1.num + k)) :
    Runs (extend c h I n t p) (fun _ p' => Safe c p'.1) (fun e p' => e ≠ .ub ∧ Safe c p'.1) := by
  unfold extend
  obtain ⟨s, w⟩ := p
  have hcall : call (σ := EV c.W) I.hint t (s, w) = match I.hint t w with
      | (some k, w') => (.ok k, (s, w'))
      | (none, w') => (.error .user, (s, w')) := by
    unfold call; split <;> rename_i hx <;> rw [hx]
  rcases hx : I.hint t w with ⟨_ | k, w⟩
  · rw [hx] at hcall
    rw [M.bind_error hcall]; exact ⟨nofun, hp⟩
  rw [hx] at hcall hw
  have hw : ¬ c.Drops (s.num + k) := hw k rfl
  have hp : Safe c s := hp
  rw [M.bind_ok hcall, M.read_bind]
  by_cases hl : c.AtLimit (s.num + k)
  · rw [M.bind_error (onFst_eq (reserve_limit_debug hw hl) w)]; exact ⟨nofun, hp⟩
  have key := reserve_safe hc hp hl
  clear hx
  rcases hx : reserve c k s with ⟨e | u, s1⟩
  · rw [M.bind_error (onFst_eq hx w)]
    rw [hx] at key
    exact ⟨by rw [key.1]; simp, by show Safe c s1; rw [key.2.1]; exact hp⟩
  · rw [M.bind_ok (onFst_eq hx w), M.read_bind]
    rw [hx] at key
    obtain ⟨h1, h2, h3, h4, -⟩ := key
    have : uAdd c.build s1.num k = .ok (s1.num + k) := by
      unfold uAdd; rw [if_pos (by have : s1.num = s.num := h2; have : s.num + k < c.build.usizeLim := h4; omega)]
    show Runs ((M.lift (uAdd c.build s1.num k) >>= _) _) _ _
    rw [this, M.lift_ok_bind]
    have hsl : onFst (setLen c (s1.num + k)) (s1, w) = (.ok (), (⟨s1.storage, s1.num + k⟩, w)) := rfl
    rw [M.bind_ok hsl]
    refine ((extendHinted_keeps h hc I k (len c s) t).bind fun rest => extendRest_keeps h hc I n rest) _ ?_
    refine ⟨?_, h1.capLen, h1.capBound⟩
    show s1.num + k ≤ s1.storage.data.length * c.epb
    have h2 : s1.num = s.num := h2
    have h3 : s1.storage.data.length = (s.num + k) / c.epb + 1 := h3
    rw [h3, h2, Nat.add_mul, Nat.one_mul]
    have h4 := Nat.div_add_mod (s.num + k) c.epb
    have h5 := Nat.mod_lt (s.num + k) hc.epb_pos
    rw [Nat.mul_comm]; omega

theorem extend_keeps_small (I : Iter ω ι α) (n : Nat) (t : ι) (hk : ∀ w, ∀ k ∈ (I.hint t w).1, k ≤ 4 * c.epb) : Keeps1 c (extend c h I n t) :=
  fun p hp => extend_keeps h hc I n t hp fun k hkm => Inst.not_drops (hp.not_atLimit hc (hk p.2 k hkm))

theorem fillBlocks_keeps (d cb last : Nat) : Keeps c (fillBlocks c d cb last) := by
  intro s1 hs1
  unfold fillBlocks
  rw [M.read_bind]
  obtain ⟨s2, h2, hs2, h2n, _, h2l, _⟩ := fixStorage_safe hc hs1
  rw [M.bind_ok h2, M.read_bind]
  have hr := RVec.reserve_res hc.lawful hc.bounded s2.storage (cb + if last > 0 then 1 else 0) hs2.capLen
  cases hx : RVec.reserve c.alloc s2.storage (cb + if last > 0 then 1 else 0) with
  | error e =>
    rw [hx] at hr
    rw [M.lift_error_bind]
    exact ⟨by rw [hr.1]; simp, hs2⟩
  | ok st =>
    rw [hx] at hr
    obtain ⟨g1, g2, g3, g4⟩ := hr
    rw [M.lift_ok_bind, M.write_bind]
    have hs3 : Safe c (⟨st, s2.num⟩ : EV c.W) := by
      refine ⟨?_, ?_, ?_⟩
      · show s2.num ≤ st.data.length * c.epb
        rw [g1]; exact hs2.cover
      · exact g3.fits
      · exact g3.capBound hs2.capBound
    refine runs_seq (fillLoop hc cb (spread (BitVec.ofNat c.W d) c.bits) hs3 cb)
      (fun e s' h => ⟨by rw [h.1]; simp, h.2.1⟩) ?_
    rintro _ s4 ⟨hs4, h4n, _, h4d⟩
    have hlen1 : len c s1 = s1.num := rfl
    have hcov : s1.num + cb * c.epb ≤ s4.storage.data.length * c.epb := by
      rw [h4d, List.length_append, List.length_replicate, Nat.add_mul]
      have e1 : s1.num ≤ st.data.length * c.epb := by rw [g1, h2l]; exact blocks_mul hc _
      have e2 : cb * c.epb ≤ cb * cb * c.epb := by
        apply Nat.mul_le_mul_right
        rcases Nat.eq_zero_or_pos cb with h | h
        · simp [h]
        · exact Nat.le_mul_of_pos_left _ h
      show _ ≤ st.data.length * c.epb + _
      omega
    have hroom := hs4.dataRoom hc
    have hep := hc.epb_pos
    have hadd : uAdd c.build (len c s1) (cb * c.epb) = .ok (s1.num + cb * c.epb) := by
      unfold uAdd; rw [hlen1, if_pos (by omega)]
    rw [hadd, M.lift_ok_bind]
    exact ⟨hcov, hs4.capLen, hs4.capBound⟩

theorem extendWithValue_keeps (x : α) (count : Nat) : Keeps1 c (extendWithValue c h x count) := by
  unfold extendWithValue
  have hep := hc.epb_pos
  have hsmall : ∀ {k : Nat} (n : Nat), k ≤ 4 * c.epb → Keeps1 c (extend c h (repeatTake h x) n k) := fun {k} n hk =>
    extend_keeps_small h hc _ _ _ fun w j hj => by cases hj; exact hk
  split
  · next hle => exact (hsmall _ hle).bind fun _ => Keeps1.pure ()
  · refine Keeps1.read fun p hp => ?_
    dsimp only
    refine ((hsmall _ (by omega)).bind fun _ => (toDiscr_keeps h x).bind fun d => (fillBlocks_keeps hc d _ _).onFst.bind fun _ =>
      (hsmall _ ?_).bind fun _ => Keeps1.pure ()) p hp
    have h1 := Nat.div_add_mod (count - (c.epb - len c p.1 % c.epb)) c.epb
    have h2 := Nat.mod_lt (count - (c.epb - len c p.1 % c.epb)) hep
    rw [Nat.mul_comm] at h1
    omega

theorem resize_keeps (n : Nat) (x : α) : Keeps1 c (resize c h n x) := by
  unfold resize
  refine Keeps1.read fun p hp => ?_
  split
  · exact extendWithValue_keeps h hc x _ p hp
  · exact (truncate_keeps hc n).onFst p hp

theorem build_keeps {m : M (EV c.W × ω) β} (hm : Keeps1 c m) (w : ω) :
    Res (build c m w).1 (fun s => Safe c s) (fun e => e ≠ .ub) := by
  have := hm (new c, w) (new_safe hc)
  unfold build
  rcases hx : m (new c, w) with ⟨e | b, p⟩
  · rw [hx] at this; exact this.1
  · rw [hx] at this; exact this

theorem build_extend_keeps (I : Iter ω ι α) (n : Nat) (t : ι) (w : ω) (hw : ∀ k ∈ (I.hint t w).1, ¬ c.Drops k) :
    Res (build c (extend c h I n t) w).1 (fun s => Safe c s) (fun e => e ≠ .ub) := by
  have := extend_keeps h hc I n t (p := (new c, w)) (new_safe hc) fun k hk => by
    rw [show (new c : EV c.W).num = 0 from rfl, Nat.zero_add]; exact hw k hk
  unfold build
  rcases hx : extend c h I n t (new c, w) with ⟨e | b, p⟩
  · rw [hx] at this; exact this.1
  · rw [hx] at this; exact this

theorem anyWith_keeps (d : Nat) : Keeps c (anyWith c d) := by
  unfold anyWith
  refine Keeps.read fun s hs => ?_
  refine ((Keeps.lift (blkMul_ne _ _ _)).bind fun v => (anyBlocks_keeps hc v _ _).bind fun f => ?_) s hs
  split
  · exact Keeps.pure true
  · dsimp only
    split
    · refine (block_keeps hc _).bind fun b => ?_
      split
      · exact Keeps.pure true
      · exact Keeps.pure false
    · exact Keeps.pure false

theorem allWith_keeps (d : Nat) : Keeps c (allWith c d) := by
  unfold allWith
  refine Keeps.read fun s hs => ?_
  refine ((Keeps.lift (blkMul_ne _ _ _)).bind fun v => (allBlocks_keeps hc _ v _ _).bind fun f => ?_) s hs
  split
  · exact Keeps.pure false
  · dsimp only
    split
    · refine (block_keeps hc _).bind fun b => ?_
      split
      · exact Keeps.pure false
      · exact Keeps.pure true
    · exact Keeps.pure true

theorem any_keeps (x : α) : Keeps1 c (any c h x) := by
  unfold any
  refine Keeps1.read fun p hp => ?_
  split
  · exact hp
  · exact ((toDiscr_keeps h x).bind fun d => (anyWith_keeps hc d).onFst) p hp

theorem all_keeps (x : α) : Keeps1 c (all c h x) := by
  unfold all
  refine Keeps1.read fun p hp => ?_
  split
  · exact hp
  · exact ((toDiscr_keeps h x).bind fun d => (allWith_keeps hc d).onFst) p hp

/-! ### iterators -/

theorem item_keeps {t : It c.W} (ht : Safe c t.v) (w : ω) (x : Nat) :
    Runs (item c h x (t, w)) (fun _ p => p.1.v = t.v) (fun e p => e ≠ .ub ∧ p.1.v = t.v) := by
  have h1 := get_keeps h hc x (t.v, w) ht
  have h2 := get_fst h hc x (t.v, w)
  unfold item
  rcases hx : get c h x (t.v, w) with ⟨e | _ | a, p⟩
  · rw [hx] at h1 h2; exact ⟨h1.1, h2⟩
  · rw [hx] at h2; exact ⟨by simp, h2⟩
  · rw [hx] at h2; exact h2

theorem mapItem_keeps {t : It c.W} (ht : Safe c t.v) (w : ω) (o : Option Nat) :
    Runs (mapItem c h o (t, w)) (fun _ p => p.1.v = t.v) (fun e p => e ≠ .ub ∧ p.1.v = t.v) := by
  unfold mapItem
  cases o with
  | none => exact rfl
  | some x => exact runs_seq (item_keeps h hc ht w x) (fun _ _ h => h) (fun _ _ h => h)

theorem iterStep_keeps {t : It c.W} (ht : Safe c t.v) (w : ω) (o : IterOp) :
    Runs (iterStep c h o (t, w)) (fun _ p => p.1.v = t.v) (fun e p => e ≠ .ub ∧ p.1.v = t.v) := by
  have key : ∀ (o : Option Nat) (t' : It c.W), t'.v = t.v →
      Runs ((do return .item (← mapItem c h o) : M (It c.W × ω) (IterOut α)) (t', w)) (fun _ p => p.1.v = t.v) (fun e p => e ≠ .ub ∧ p.1.v = t.v) := by
    intro o t' e
    have := mapItem_keeps h hc (t := t') (by rw [e]; exact ht) w o
    rw [e] at this
    exact runs_seq this (fun _ _ h => h) (fun _ _ h => h)
  cases o with
  | next => exact key _ _ (rangeNext_v hc t)
  | nextBack => exact key _ _ (rangeNextBack_v hc t)
  | nth n => exact key _ _ (rangeNth_v hc n t)
  | sizeHint => exact rfl

theorem iterRun_keeps : ∀ (os : List IterOp) {t : It c.W} (w : ω), Safe c t.v →
    Runs (iterRun c h os (t, w)) (fun _ p => p.1.v = t.v) (fun e p => e ≠ .ub ∧ p.1.v = t.v)
  | [], t, _, _ => rfl
  | o :: os, t, w, ht => by
    refine runs_seq (iterStep_keeps h hc ht w o) (fun _ _ h => h) (fun _ p h' => ?_)
    obtain ⟨t', w'⟩ := p
    replace h' : t'.v = t.v := h'
    refine runs_seq ((iterRun_keeps os (t := t') w' (by rw [h']; exact ht))) ?_ ?_
    · rintro e s ⟨h1, h2⟩; exact ⟨h1, h2.trans h'⟩
    · intro _ s h2; exact h2.trans h'

theorem collect_keeps : ∀ (n : Nat) {t : It c.W} (w : ω), Safe c t.v →
    Runs (collect c h n (t, w)) (fun _ p => p.1.v = t.v) (fun e p => e ≠ .ub ∧ p.1.v = t.v)
  | 0, t, _, _ => rfl
  | n + 1, t, w, ht => by
    unfold collect
    refine runs_seq (iterStep_keeps h hc ht w .next) (fun _ _ h => h) (fun x p h' => ?_)
    obtain ⟨t', w'⟩ := p
    replace h' : t'.v = t.v := h'
    split
    · refine runs_seq ((collect_keeps n (t := t') w' (by rw [h']; exact ht))) ?_ ?_
      · rintro e s ⟨h1, h2⟩; exact ⟨h1, h2.trans h'⟩
      · intro _ s h2; exact h2.trans h'
    · exact h'

theorem toVec_keeps {s : EV c.W} (hs : Safe c s) (w : ω) : (toVec c h s w).1 ≠ .error .ub := by
  have := collect_keeps h hc (len c s + 1) (t := iter c s) w hs
  unfold toVec
  rcases hx : collect c h (len c s + 1) (iter c s, w) with ⟨e | b, p⟩
  · rw [hx] at this; simpa using this.1
  · simp

/-! ### histories -/

/-- Storage that fits in its allocation, whatever the length says. -/
def Room (c : Inst α) (s : EV c.W) : Prop :=
  s.storage.data.length ≤ s.storage.cap ∧ (s.storage.cap + 1) * c.epb + 4 < c.build.usizeLim

omit hc in
theorem safe_room {s : EV c.W} (hs : Safe c s) : Room c s := ⟨hs.capLen, hs.capBound⟩

/-- All variables have room, the living ones are safe. -/
def Good (k : Nat → Bool) (m : Mem c ω) : Prop := ∀ r, Room c (m.reg r) ∧ (k r = true → Safe c (m.reg r))

variable {k : Nat → Bool} {m : Mem c ω}

omit hc in
theorem Good.upd (hg : Good k m) {m' : Mem c ω} {r : Nat} {s : EV c.W} (hm : m'.reg = EnumVecModel.upd m.reg r s) (hs : Safe c s) (b : Bool) :
    Good (EnumVecModel.upd k r b) m' := by
  intro q
  rw [hm]
  by_cases hq : q = r
  · subst hq; simp only [upd_same]; exact ⟨safe_room hs, fun _ => hs⟩
  · simp only [upd_ne _ _ hq]; exact hg q

omit hc in
theorem Good.upd1 (hg : Good k m) {m' : Mem c ω} {r : Nat} {s : EV c.W} (hm : m'.reg = EnumVecModel.upd m.reg r s) (hs : Safe c s) :
    Good k m' := by
  have := hg.upd hm hs (k r); rwa [upd_self] at this

omit hc in
theorem onReg_good (hg : Good k m) {r : Nat} (hr : k r = true) {f : M (EV c.W × ω) β} (hf : Keeps1 c f) {out : β → Out α} (ho : ∀ b, out b ≠ .ub) :
    (onReg m r f out).1 ≠ .ub ∧ Good k (onReg m r f out).2 := by
  have := hf (m.reg r, m.world) ((hg r).2 hr)
  unfold onReg
  rcases hx : f (m.reg r, m.world) with ⟨e | b, p⟩
  · rw [hx] at this; exact ⟨Fault.out_ub this.1, hg.upd1 rfl this.2⟩
  · rw [hx] at this; exact ⟨ho b, hg.upd1 rfl this⟩

omit hc in
theorem onReg_good_at (hg : Good k m) {r : Nat} {f : M (EV c.W × ω) β}
    (hf : Runs (f (m.reg r, m.world)) (fun _ p' => Safe c p'.1) (fun e p' => e ≠ .ub ∧ Safe c p'.1)) {out : β → Out α} (ho : ∀ b, out b ≠ .ub) :
    (onReg m r f out).1 ≠ .ub ∧ Good k (onReg m r f out).2 := by
  unfold onReg
  rcases hx : f (m.reg r, m.world) with ⟨e | b, p⟩
  · rw [hx] at hf; exact ⟨Fault.out_ub hf.1, hg.upd1 rfl hf.2⟩
  · rw [hx] at hf; exact ⟨ho b, hg.upd1 rfl hf⟩

omit hc in
theorem assign_good (hg : Good k m) (r : Nat) {v : Except Fault (EV c.W) × ω} (hv : Res v.1 (fun s => Safe c s) (fun e => e ≠ .ub)) :
    (assign m r v).1 ≠ .ub ∧ Good (if (assign m r v).1.isUnit then upd k r true else k) (assign m r v).2 := by
  obtain ⟨e | s, w⟩ := v
  · exact ⟨Fault.out_ub hv, by simp only [assign, Fault.out_isUnit]; exact hg⟩
  · exact ⟨nofun, hg.upd rfl hv true⟩

omit hc in
theorem assign0_good (hg : Good k m) (r : Nat) {v : Except Fault (EV c.W)} (hv : Res v (fun s => Safe c s) (fun e => e ≠ .ub)) :
    (m.assign r v).1 ≠ .ub ∧ Good (if (m.assign r v).1.isUnit then upd k r true else k) (m.assign r v).2 := by
  cases v with
  | error e => exact ⟨Fault.out_ub hv, by simp only [Mem.assign, Fault.out_isUnit]; exact hg⟩
  | ok s => exact ⟨nofun, hg.upd rfl hv true⟩

omit hc in
theorem call_good (hg : Good k m) {r : Nat} (hr : k r = true) {f : M (EV c.W) β} (hf : Keeps c f) {out : β → Out α} (ho : ∀ b, out b ≠ .ub) :
    (m.call r f out).1 ≠ .ub ∧ Good k (m.call r f out).2 := by
  have := hf (m.reg r) ((hg r).2 hr)
  unfold Mem.call
  rcases hx : f (m.reg r) with ⟨e | b, p⟩
  · rw [hx] at this; exact ⟨Fault.out_ub this.1, hg.upd1 rfl this.2⟩
  · rw [hx] at this; exact ⟨ho b, hg.upd1 rfl this⟩

omit hc in
theorem call_good_at (hg : Good k m) {r : Nat} {f : M (EV c.W) β} (hf : SafeRun c (f (m.reg r))) {out : β → Out α} (ho : ∀ b, out b ≠ .ub) :
    (m.call r f out).1 ≠ .ub ∧ Good k (m.call r f out).2 := by
  unfold Mem.call
  rcases hx : f (m.reg r) with ⟨e | b, p⟩
  · rw [hx] at hf; exact ⟨Fault.out_ub hf.1, hg.upd1 rfl hf.2⟩
  · rw [hx] at hf; exact ⟨ho b, hg.upd1 rfl hf⟩

omit hc in
theorem ask_good (hg : Good k m) {v : Except Fault β × ω} (hv : v.1 ≠ .error .ub) {out : β → Out α} (ho : ∀ b, out b ≠ .ub) :
    (ask m v out).1 ≠ .ub ∧ Good k (ask m v out).2 := by
  obtain ⟨e | b, w⟩ := v
  · exact ⟨Fault.out_ub (fun h => hv (by rw [h])), hg⟩
  · exact ⟨ho b, hg⟩

/-- Shortening to 0 makes any variable with room safe. -/
theorem truncate0_good (hg : Good k m) (r : Nat) : (EnumVecModel.step c m (.truncate r 0)).1 ≠ .ub ∧
    Good (upd k r true) (EnumVecModel.step c m (.truncate r 0)).2 := by
  have e1 : EnumVecModel.step c m (.truncate r 0) = (.unit, { m with reg := upd m.reg r { m.reg r with num := 0 } }) := by
    simp only [EnumVecModel.step, Mem.call, truncate_eq hc (m.reg r) 0, Nat.zero_min]
  rw [e1]
  exact ⟨nofun, hg.upd (s := { m.reg r with num := 0 }) rfl ⟨Nat.zero_le _, (hg r).1.1, (hg r).1.2⟩ true⟩

theorem step_good (hg : Good k m) (call : Call ω α) (ha : Admitted c k m call) :
    (step c h m call).1 ≠ .ub ∧ Good (alive c k m (step c h m call).1 call) (step c h m call).2 := by
  obtain ⟨hu, ha⟩ := ha
  cases call with
  | extend r I n => exact onReg_good_at hg (extend_keeps h hc I n () ((hg r).2 (hu rfl r (by simp [Call.uses]))) ha) (by simp)
  | collect r I n => exact assign_good hg r (build_extend_keeps h hc I n () _ ha)
  | op o =>
    cases o with
    | new r => exact assign0_good hg r (v := .ok (new c)) (new_safe hc)
    | withCapacity r n => exact assign0_good hg r (withCapacity_keeps hc n)
    | clone r s => exact assign0_good hg r (clone_keeps hc ((hg s).2 (hu rfl s (by simp [Call.uses, Op.uses]))))
    | fromElem r x n => exact assign_good hg r (build_keeps hc (extendWithValue_keeps h hc x n) _)
    | fromVec r xs => exact assign_good hg r (build_extend_keeps h hc _ _ _ _ fun k hk => by cases hk; exact ha)
    | fromSlice r xs => exact assign_good hg r (build_extend_keeps h hc _ _ _ _ fun k hk => by cases hk; exact ha)
    | fromIter r it => exact assign_good hg r (build_extend_keeps h hc _ _ _ _ fun k hk => by cases hk; exact ha)
    | len r => exact ⟨nofun, hg⟩
    | isEmpty r => exact ⟨nofun, hg⟩
    | get r i => exact onReg_good hg (hu rfl r (by simp [Call.uses, Op.uses])) (get_keeps h hc i) (by simp)
    | set r i x => exact onReg_good hg (hu rfl r (by simp [Call.uses, Op.uses])) (set_keeps h hc i x) (by simp)
    | push r x => exact onReg_good hg (hu rfl r (by simp [Call.uses, Op.uses])) (push_keeps h hc x) (by simp)
    | pop r => exact onReg_good hg (hu rfl r (by simp [Call.uses, Op.uses])) (pop_keeps h hc) (by simp)
    | insert r i x => exact onReg_good hg (hu rfl r (by simp [Call.uses, Op.uses])) (insert_keeps h hc i x) (by simp)
    | remove r i => exact onReg_good hg (hu rfl r (by simp [Call.uses, Op.uses])) (remove_keeps h hc i) (by simp)
    | swap r i j => exact call_good hg (hu rfl r (by simp [Call.uses, Op.uses])) (swap_keeps hc i j) (by simp)
    | swapRemove r i => exact onReg_good hg (hu rfl r (by simp [Call.uses, Op.uses])) (swapRemove_keeps h hc i) (by simp)
    | truncate r n =>
      cases n with
      | zero => exact truncate0_good hc hg r
      | succ n => exact call_good hg (hu rfl r (by simp [Call.uses, Op.uses])) (truncate_keeps hc _) (by simp)
    | clear r => exact truncate0_good hc hg r
    | resize r n x => exact onReg_good hg (hu rfl r (by simp [Call.uses, Op.uses])) (resize_keeps h hc n x) (by simp)
    | reserve r n => exact call_good_at hg (reserve_keeps hc ((hg r).2 (hu rfl r (by simp [Call.uses, Op.uses]))) ha) (by simp)
    | shrinkToFit r => exact call_good hg (hu rfl r (by simp [Call.uses, Op.uses])) (shrinkToFit_keeps hc) (by simp)
    | extend r it =>
      exact onReg_good_at hg (extend_keeps h hc _ _ _ ((hg r).2 (hu rfl r (by simp [Call.uses, Op.uses]))) fun k hk => by cases hk; exact ha) (by simp)
    | append r o =>
      have hl := hu rfl r (by simp [Call.uses, Op.uses])
      have hlo := hu rfl o (by simp [Call.uses, Op.uses])
      have hne : r ≠ o := ha
      have key := append_keeps hc ((hg r).2 hl) ((hg o).2 hlo)
      rcases hx : EV.append c (m.reg r, m.reg o) with ⟨e | u, p⟩
      · rw [hx] at key
        obtain ⟨g1, g2, g3⟩ := key
        have e1 : step c h m (.op (.append r o)) = (e.out, { m with reg := upd (upd m.reg r p.1) o p.2 }) := by
          simp only [step, EnumVecModel.step, hx]
        rw [e1]
        simp only [alive, Fault.out_isUnit, Bool.false_and]
        exact ⟨Fault.out_ub g1, (hg.upd1 (m' := ⟨upd m.reg r p.1, m.world⟩) rfl g2).upd1 rfl g3⟩
      · rw [hx] at key
        obtain ⟨g1, g2, g3⟩ := key
        have e1 : step c h m (.op (.append r o)) = (.unit, { m with reg := upd (upd m.reg r p.1) o p.2 }) := by
          simp only [step, EnumVecModel.step, hx]
        rw [e1]
        refine ⟨nofun, ?_⟩
        have h1 := hg.upd1 (m' := ⟨upd m.reg r p.1, m.world⟩) rfl g1
        have eo : len c (m.reg o) = (m.reg o).num := rfl
        have er : len c (m.reg r) = (m.reg r).num := rfl
        by_cases hd : c.small = true ∨ (m.reg r).num % c.epb ≠ 0 ∨ (m.reg o).num = 0
        · have : alive c k m .unit (.op (.append r o)) = k := by
            simp only [alive, Out.isUnit, Bool.true_and, eo, er]
            rw [if_neg]
            rcases hd with hd | hd | hd <;> simp [hd]
          rw [this]
          exact h1.upd1 rfl (g2 hd)
        · have : alive c k m .unit (.op (.append r o)) = upd k o false := by
            simp only [alive, Out.isUnit, Bool.true_and, eo, er]
            rw [if_pos]
            simp only [not_or] at hd
            obtain ⟨d1, d2, d3⟩ := hd
            have d2 := Decidable.not_not.mp d2
            simp [d1, d2, d3]
          rw [this]
          obtain ⟨k1, k2⟩ := g3 (fun h => hd (h.elim Or.inl fun h => Or.inr (Or.inl h)))
          intro q
          show Room c (upd (upd m.reg r p.1) o p.2 q) ∧ (upd k o false q = true → Safe c (upd (upd m.reg r p.1) o p.2 q))
          by_cases hq : q = o
          · subst hq
            simp only [upd_same]
            exact ⟨⟨by rw [k1]; exact Nat.zero_le _, k2⟩, nofun⟩
          · simp only [upd_ne _ _ hq]; exact h1 q
    | splitOff r at_ d =>
      have hl := hu rfl r (by simp [Call.uses, Op.uses])
      have ha : len c (m.reg r) ≤ at_ := ha
      have key := splitOff_keeps hc ((hg r).2 hl) ha
      rcases hx : EV.splitOff c at_ (m.reg r) with ⟨e | o, p⟩
      · rw [hx] at key
        obtain ⟨g1, _, g2⟩ := key
        have e1 : step c h m (.op (.splitOff r at_ d)) = (e.out, { m with reg := upd m.reg r p }) := by
          simp only [step, EnumVecModel.step, hx]
        rw [e1]
        simp only [alive, Fault.out_isUnit]
        exact ⟨Fault.out_ub g1, hg.upd1 rfl (g2 ▸ (hg r).2 hl)⟩
      · rw [hx] at key
        obtain ⟨g1, g2, _⟩ := key
        have e1 : step c h m (.op (.splitOff r at_ d)) = (.unit, { m with reg := upd (upd m.reg r p) d o }) := by
          simp only [step, EnumVecModel.step, hx]
        rw [e1]
        exact ⟨nofun, (hg.upd1 (m' := ⟨upd m.reg r p, m.world⟩) rfl g1).upd rfl g2 true⟩
    | retain r f => exact onReg_good hg (hu rfl r (by simp [Call.uses, Op.uses])) (retain_keeps h hc f) (by simp)
    | forEach r f => exact onReg_good hg (hu rfl r (by simp [Call.uses, Op.uses])) (forEach_keeps h hc f) (by simp)
    | eq r o =>
      obtain ⟨b, e1, -⟩ := eq_safe hc ((hg r).2 (hu rfl r (by simp [Call.uses, Op.uses]))) ((hg o).2 (hu rfl o (by simp [Call.uses, Op.uses])))
      obtain ⟨g1, g2⟩ := ask_safe hc (v := EV.eq c (m.reg r) (m.reg o)) (out := .bool) m (by rw [e1]; simp) (by simp)
      exact ⟨g1, by simp only [step, EnumVecModel.step, alive]; rw [g2]; exact hg⟩
    | any r x => exact onReg_good hg (hu rfl r (by simp [Call.uses, Op.uses])) (any_keeps h hc x) (by simp)
    | all r x => exact onReg_good hg (hu rfl r (by simp [Call.uses, Op.uses])) (all_keeps h hc x) (by simp)
    | toVec r => exact ask_good hg (toVec_keeps h hc ((hg r).2 (hu rfl r (by simp [Call.uses, Op.uses]))) _) (by simp)
    | iterate r calls =>
      refine ask_good hg ?_ (by simp)
      have := iterRun_keeps h hc calls (t := EV.iter c (m.reg r)) m.world ((hg r).2 (hu rfl r (by simp [Call.uses, Op.uses])))
      rcases hx : iterRun c h calls (EV.iter c (m.reg r), m.world) with ⟨e | b, p⟩
      · rw [hx] at this; simpa using this.1
      · simp
    | hash r =>
      obtain ⟨b, e1⟩ : ∃ b, EV.hash c (m.reg r) = .ok b := ⟨_, hash_safe hc ((hg r).2 (hu rfl r (by simp [Call.uses, Op.uses])))⟩
      obtain ⟨g1, g2⟩ := ask_safe hc (v := EV.hash c (m.reg r)) (out := .hash) m (by rw [e1]; simp) (by simp)
      exact ⟨g1, by simp only [step, EnumVecModel.step, alive]; rw [g2]; exact hg⟩

theorem runAll_good : ∀ (calls : List (Call ω α)) {k : Nat → Bool} {m : Mem c ω}, Good k m → AdmittedRun c h calls k m →
    .ub ∉ (runAll c h calls m).1 ∧ Good (aliveAfter c h calls k m) (runAll c h calls m).2
  | [], _, _, hg, _ => ⟨by simp [runAll], hg⟩
  | o :: os, k, m, hg, ha => by
    obtain ⟨h1, h2⟩ := step_good h hc hg o ha.1
    obtain ⟨h3, h4⟩ := runAll_good os h2 ha.2
    refine ⟨?_, h4⟩
    simp only [runAll, List.mem_cons, not_or]
    exact ⟨fun h => h1 h.symm, h3⟩

end
end Hostile
end EnumVecModel
