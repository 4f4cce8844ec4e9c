import Verif.Lemmas.Build

set_option linter.unusedSectionVars false

/-! # Memory safety of every operation in every safe state

No assumption on what the elements are: the unused bits may be dirty, discriminants may be invalid, `BITS_PER_ELEM`
may equal the block width, calls may panic. -/

namespace EnumVecModel
open EV

variable {α β γ : Type}

/-- The call did not cause undefined behaviour and left a safe state, also if it panicked. -/
def SafeRun (c : Inst α) (r : Except Fault β × EV c.W) : Prop :=
  Runs r (fun _ s' => Safe c s') (fun e s' => e ≠ .ub ∧ Safe c s')

/-- `m` is memory-safe in every safe state. -/
def Keeps (c : Inst α) (m : M (EV c.W) β) : Prop := ∀ s, Safe c s → SafeRun c (m s)

theorem Keeps.bind {c : Inst α} {m : M (EV c.W) β} {f : β → M (EV c.W) γ} (h : Keeps c m)
    (hf : ∀ a, Keeps c (f a)) : Keeps c (m >>= f) := fun s hs =>
  runs_seq (h s hs) (fun _ _ h => h) (fun a s' h' => hf a s' h')

theorem Keeps.pure {c : Inst α} (a : β) : Keeps c (Pure.pure a : M (EV c.W) β) := fun _ hs => hs

theorem Keeps.fail {c : Inst α} {e : Fault} (he : e ≠ .ub) : Keeps c (M.fail e : M (EV c.W) β) := fun _ hs => ⟨he, hs⟩

theorem Keeps.lift {c : Inst α} {r : Except Fault β} (h : r ≠ .error .ub) : Keeps c (M.lift r) := fun s hs => by
  cases r with
  | ok a => exact hs
  | error e => exact ⟨fun he => h (by rw [he]), hs⟩

theorem Keeps.unwrap {c : Inst α} (o : Option β) : Keeps c (M.unwrap o) := fun s hs => by
  cases o with
  | some a => exact hs
  | none => exact ⟨by simp, hs⟩

theorem Keeps.read {c : Inst α} {f : EV c.W → M (EV c.W) β} (h : ∀ s, Safe c s → SafeRun c (f s s)) :
    Keeps c (M.read >>= f) := fun s hs => by rw [M.read_bind]; exact h s hs

theorem Keeps.loop {c : Inst α} {body : Nat → β → M (EV c.W) β} (h : ∀ i a, Keeps c (body i a)) :
    ∀ n i a, Keeps c (loop body n i a)
  | 0, _, a => Keeps.pure a
  | n + 1, i, a => (h i a).bind (fun a => Keeps.loop h n (i + 1) a)

theorem uAdd_ne (b : Build) (x y : Nat) : uAdd b x y ≠ .error .ub := by
  unfold uAdd; split
  · simp
  · split <;> simp

theorem uSub_ne (b : Build) (x y : Nat) : uSub b x y ≠ .error .ub := by
  unfold uSub; split
  · simp
  · split <;> simp

theorem uMul_ne (b : Build) (x y : Nat) : uMul b x y ≠ .error .ub := by
  unfold uMul; split
  · simp
  · split <;> simp

theorem blkMul_ne {W : Nat} (b : Bool) (x y : BitVec W) : blkMul b x y ≠ .error .ub := by
  unfold blkMul; split
  · simp
  · split <;> simp

theorem ite_keeps {c : Inst α} {p : Prop} [Decidable p] {a b : M (EV c.W) β} (ha : p → Keeps c a) (hb : ¬ p → Keeps c b) :
    Keeps c (if p then a else b) := by
  split
  · next h => exact ha h
  · next h => exact hb h

section
variable {c : Inst α} {strict : Prop} (hc : c.Fits strict)
include hc

theorem get_keeps (i : Nat) : Keeps c (EV.get c i) := fun s hs => by
  rw [get_safe hc hs]
  split
  · split
    · exact hs
    · exact ⟨by simp, hs⟩
  · exact hs

theorem getRaw_keeps (i : Nat) : Keeps c (getRaw c i) := fun s hs => by
  rw [getRaw_safe hc hs]; exact hs

theorem setRaw_keeps (i d : Nat) : Keeps c (setRaw c i d) := fun s hs => by
  rcases Nat.lt_or_ge i s.num with h | h
  · rw [setRaw_lt hc hs d h]; exact putRaw_safe hc hs i d
  · rw [setRaw_ge hc d h]; exact ⟨by simp, hs⟩

theorem set_keeps (i : Nat) (x : α) : Keeps c (EV.set c i x) := setRaw_keeps hc i _

omit hc in
/-- `reserve` at the limit, in a debug build. -/
theorem reserve_limit_debug {s : EV c.W} {k : Nat} (hw : ¬ c.Drops (s.num + k)) (h : c.AtLimit (s.num + k)) :
    reserve c k s = (.error .overflow, s) := by
  rw [reserve_limit h]
  cases hck : c.build.checked
  · exact absurd ⟨hck, h⟩ hw
  · rfl

theorem reserve_keeps {s : EV c.W} (hs : Safe c s) {k : Nat} (hw : ¬ c.Drops (s.num + k)) : SafeRun c (reserve c k s) := by
  by_cases h : c.AtLimit (s.num + k)
  · rw [reserve_limit_debug hw h]; exact ⟨by simp, hs⟩
  · exact (reserve_safe hc hs h).mono (fun _ _ h => h.1) (fun e s' h => ⟨by rw [h.1]; simp, by rw [h.2.1]; exact hs⟩)

theorem fixStorage_keeps : Keeps c (fixStorage c) := fun s hs => by
  obtain ⟨s', h1, h2, _⟩ := fixStorage_safe hc hs
  rw [h1]; exact h2

theorem shrinkToFit_keeps : Keeps c (shrinkToFit c) := fun s hs => by
  obtain ⟨s', h1, h2, _⟩ := shrinkToFit_safe hc hs
  rw [h1]; exact h2

theorem truncate_keeps (n : Nat) : Keeps c (truncate c n) := fun s hs => by
  rw [truncate_eq hc]; exact hs.setNum hc (Nat.min_le_right _ _)

theorem clear_keeps : Keeps c (EV.clear c) := truncate_keeps hc 0

theorem push_keeps (x : α) : Keeps c (push c x) := fun s hs =>
  (push_any hc hs x).mono (fun _ _ h => h.1) (fun e s' h => ⟨by rw [h.1]; simp, by rw [h.2.1]; exact hs⟩)

theorem pop_keeps : Keeps c (pop c) := by
  unfold pop
  refine Keeps.read fun s hs => ?_
  split
  · exact hs
  · refine (get_keeps hc _).bind (fun x => (Keeps.unwrap x).bind fun x => Keeps.read fun s hs => ?_) s hs
    rw [M.write_bind]
    exact hs.setNum hc (Nat.sub_le _ _)

theorem swap_keeps (i j : Nat) : Keeps c (swap c i j) :=
  (getRaw_keeps hc i).bind fun a => (Keeps.unwrap a).bind fun _ => (getRaw_keeps hc j).bind fun b =>
    (Keeps.unwrap b).bind fun _ => (setRaw_keeps hc _ _).bind fun _ => setRaw_keeps hc _ _

theorem swapRemove_keeps (i : Nat) : Keeps c (swapRemove c i) := by
  unfold swapRemove
  refine Keeps.read fun s hs => ?_
  exact ((Keeps.lift (uSub_ne _ _ _)).bind fun _ => (swap_keeps hc _ _).bind fun _ => (pop_keeps hc).bind fun x =>
    Keeps.unwrap x) s hs

theorem getRawUnchecked_run {s : EV c.W} (h : Safe c s) {i : Nat} (hi : i < s.num) :
    getRawUnchecked c i s = (.ok (raw c s i), s) :=
  getRawUnchecked_ok hc s (by have := h.cover; omega)

/-- Runs that also keep the number of elements. -/
theorem insertSlow_keeps {s : EV c.W} (h : Safe c s) (n i d : Nat) (hn : i + n ≤ s.num ∨ n = 0) :
    Runs (loop (insertSlowStep c) n i d s) (fun _ s' => SameShape c s s') (fun _ _ => False) := by
  rcases hn with hn | hn
  · refine runs_loop (stop := i + n) (fun _ _ s' => SameShape c s s') ?_ n i d s rfl (SameShape.refl s)
    intro j acc s' hj hs'
    have hsafe := hs'.safe h
    unfold insertSlowStep
    have hnum := hs'.num
    rw [M.bind_ok (getRawUnchecked_run hc hsafe (by omega)),
      M.bind_ok (setRawUnchecked_ok hc s' acc (by have := hsafe.cover; omega))]
    exact hs'.trans (putRaw_shape c s' j acc)
  · subst hn; exact SameShape.refl s

theorem blkShl_ne {W : Nat} (b : Bool) (v : BitVec W) (n : Nat) : blkShl b v n ≠ .error .ub := by
  unfold blkShl; split
  · simp
  · split <;> simp

theorem blkShr_ne {W : Nat} (b : Bool) (v : BitVec W) (n : Nat) : blkShr b v n ≠ .error .ub := by
  unfold blkShr; split
  · simp
  · split <;> simp

theorem block_keeps (i : Nat) : Keeps c (block c i) := fun s hs => by
  unfold block; split
  · exact hs
  · exact ⟨by simp, hs⟩

theorem setBlock_keeps (i : Nat) (v : BitVec c.W) : Keeps c (setBlock c i v) := fun s hs => by
  rw [setBlock_eq hc]; exact (putBlk_shape s i v).safe hs

theorem insertFastStep_keeps (j : Nat) (prev : BitVec c.W) : Keeps c (insertFastStep c j prev) := by
  unfold insertFastStep
  refine (block_keeps hc j).bind fun b => (Keeps.lift ?_).bind fun r => (setBlock_keeps hc _ _).bind fun _ => Keeps.pure _
  unfold shiftUp
  have := blkShl_ne hc c.build.checked b c.bits
  cases he : blkShl c.build.checked b c.bits with
  | ok v => simp
  | error e => rw [he] at this; simpa using this

theorem insert_keeps (index : Nat) (x : α) : Keeps c (EV.insert c index x) := by
  unfold EV.insert
  refine (push_keeps hc x).bind fun _ => Keeps.read fun s hs => ?_
  refine runs_seq (P := fun _ s' => Safe c s') (E' := fun e s' => e ≠ .ub ∧ Safe c s') ?_ (fun _ _ h => h) ?_
  · split
    · refine runs_seq (m := M.lift (uAdd c.build (index - index % c.epb) c.epb)) (P := fun _ s' => s' = s)
        (E' := fun e s' => e ≠ .ub ∧ s' = s) ?_ (fun e s' h => ⟨h.1, h.2 ▸ hs⟩) ?_
      · have := uAdd_ne c.build (index - index % c.epb) c.epb
        rw [M.lift_apply]
        cases he : uAdd c.build (index - index % c.epb) c.epb with
        | ok v => exact rfl
        | error e => rw [he] at this; exact ⟨by simpa using this, rfl⟩
      · rintro sl s' rfl
        refine runs_seq (insertSlow_keeps hc hs (min sl (len c s') - index) index (c.E.toDiscr x) ?_)
          (fun _ _ h => h.elim) ?_
        · have : len c s' = s'.num := rfl
          omega
        · intro prev s2 h2
          exact h2.safe hs
    · exact hs
  · rintro ⟨i, prev⟩ s' hs'
    refine Keeps.read (fun s hs => ?_) s' hs'
    split
    · refine (Keeps.bind ?_ fun _ => Keeps.pure ()) s hs
      exact Keeps.loop (fun i a => insertFastStep_keeps hc i a) _ _ _
    · exact hs

theorem removeSlow_keeps {s : EV c.W} (h : Safe c s) (n i : Nat) (hn : i + n < s.num ∨ n = 0) :
    Runs (loop (removeSlowStep c) n i () s) (fun _ s' => SameShape c s s') (fun _ _ => False) := by
  rcases hn with hn | hn
  · refine runs_loop (stop := i + n) (fun _ _ s' => SameShape c s s') ?_ n i () s rfl (SameShape.refl s)
    intro j acc s' hj hs'
    have hsafe := hs'.safe h
    unfold removeSlowStep
    have hnum := hs'.num
    rw [M.bind_ok (getRawUnchecked_run hc hsafe (by omega)),
      setRawUnchecked_ok hc s' _ (by have := hsafe.cover; omega)]
    exact hs'.trans (putRaw_shape c s' j _)
  · subst hn; exact SameShape.refl s

theorem removeFastStep_keeps (j : Nat) (prev : BitVec c.W) : Keeps c (removeFastStep c j prev) := by
  unfold removeFastStep
  refine (block_keeps hc j).bind fun b => (Keeps.lift ?_).bind fun r => (setBlock_keeps hc _ _).bind fun _ => Keeps.pure _
  unfold shiftDown
  have := blkShr_ne hc c.build.checked b c.bits
  cases he : blkShr c.build.checked b c.bits with
  | ok v => simp
  | error e => rw [he] at this; simpa using this

theorem remove_keeps (index : Nat) : Keeps c (EV.remove c index) := by
  intro s hs
  unfold EV.remove
  rw [M.bind_apply, get_safe hc hs]
  by_cases hi : index < s.num
  · rw [if_pos hi]
    cases hx : c.E.fromDiscr (raw c s index) with
    | none => exact ⟨by simp, hs⟩
    | some x =>
      show SafeRun c ((M.unwrap (some x) >>= _) s)
      rw [M.unwrap_some_bind, M.read_bind]
      refine runs_seq (m := M.lift (uMul c.build (1 + (blockIndex c index).1) c.epb)) (P := fun _ s' => s' = s)
        (E' := fun e s' => e ≠ .ub ∧ s' = s) ?_ (fun e s' h => ⟨h.1, h.2 ▸ hs⟩) ?_
      · have := uMul_ne c.build (1 + (blockIndex c index).1) c.epb
        rw [M.lift_apply]
        cases he : uMul c.build (1 + (blockIndex c index).1) c.epb with
        | ok v => exact rfl
        | error e => rw [he] at this; exact ⟨by simpa using this, rfl⟩
      · rintro bl s' rfl
        refine runs_seq (removeSlow_keeps hc hs (min (len c s' - 1) bl - index) index ?_) (fun _ _ h => h.elim) ?_
        · have : len c s' = s'.num := rfl
          omega
        · intro _ s2 h2
          have hs2 := h2.safe hs
          have hn2 := h2.num
          rw [M.read_bind, M.bind_ok (getRawUnchecked_run hc hs2 (show len c s2 - 1 < s2.num by
            show s2.num - 1 < s2.num; omega)), M.read_bind, M.write_bind]
          refine Keeps.read (fun s hs => ?_) _ (hs2.setNum hc (Nat.sub_le _ _))
          split
          · exact (Keeps.loop (fun i a => removeFastStep_keeps hc _ a) _ _ _).bind (fun _ => Keeps.pure _) s hs
          · exact hs
  · rw [if_neg hi]
    exact ⟨by simp, hs⟩

/-! ### closures -/

/-- Safe runs over a pair of a vector and other state. -/
def Keeps1 {τ : Type} (c : Inst α) (m : M (EV c.W × τ) β) : Prop := ∀ p, Safe c p.1 →
  Runs (m p) (fun _ p' => Safe c p'.1) (fun e p' => e ≠ .ub ∧ Safe c p'.1)

omit hc in
theorem Keeps1.bind {τ : Type} {m : M (EV c.W × τ) β} {f : β → M (EV c.W × τ) γ} (h : Keeps1 c m)
    (hf : ∀ a, Keeps1 c (f a)) : Keeps1 c (m >>= f) := fun s hs =>
  runs_seq (h s hs) (fun _ _ h => h) (fun a s' h' => hf a s' h')

omit hc in
theorem Keeps1.pure {τ : Type} (a : β) : Keeps1 c (Pure.pure a : M (EV c.W × τ) β) := fun _ hs => hs

omit hc in
theorem Keeps1.unwrap {τ : Type} (o : Option β) : Keeps1 (τ := τ) c (M.unwrap o) := fun s hs => by
  cases o with
  | some a => exact hs
  | none => exact ⟨by simp, hs⟩

omit hc in
theorem Keeps1.loop {τ : Type} {body : Nat → β → M (EV c.W × τ) β} (h : ∀ i a, Keeps1 c (body i a)) :
    ∀ n i a, Keeps1 c (EnumVecModel.loop body n i a)
  | 0, _, a => Keeps1.pure a
  | n + 1, i, a => (h i a).bind (fun a => Keeps1.loop h n (i + 1) a)

omit hc in
theorem Keeps.onFst {τ : Type} {m : M (EV c.W) β} (h : Keeps c m) : Keeps1 (τ := τ) c (onFst m) := by
  rintro ⟨s, t⟩ hs
  have := h s hs
  match hm : m s, this with
  | (.ok a, s'), h' => rw [onFst_eq hm]; exact h'
  | (.error e, s'), h' => rw [onFst_eq hm]; exact h'

omit hc in
theorem call_keeps {τ : Type} (f : Closure τ α β) (x : α) : Keeps1 c (call (σ := EV c.W) f x) := by
  rintro ⟨s, t⟩ hs
  unfold call
  split
  · exact hs
  · exact ⟨by simp, hs⟩

theorem retain_keeps {τ : Type} (f : Closure τ α Bool) : Keeps1 c (retain c f) := by
  rintro ⟨s, t⟩ hs
  unfold retain
  rw [M.read_bind]
  -- the loop keeps `i_set ≤ i_get` and the number of elements
  refine runs_seq (P := fun iSet p => Safe c p.1 ∧ p.1.num = s.num ∧ iSet ≤ s.num)
    (E' := fun e p => e ≠ .ub ∧ Safe c p.1) ?_ (fun _ _ h => h) ?_
  · refine (runs_loop (stop := s.num) (fun i iSet p => Safe c p.1 ∧ p.1.num = s.num ∧ iSet ≤ i) ?_ (len c s) 0 0 (s, t)
      (by show 0 + s.num = s.num; omega) ⟨hs, rfl, Nat.le_refl _⟩)
    rintro i iSet ⟨s1, t1⟩ hi ⟨h1, h2, h3⟩
    unfold retainStep
    have hg := get_safe hc h1 i
    replace h1 : Safe c s1 := h1
    replace h2 : s1.num = s.num := h2
    change EV.get c i s1 = if i < s1.num then _ else _ at hg
    rw [if_pos (by omega)] at hg
    cases hx : c.E.fromDiscr (raw c s1 i) with
    | none =>
      rw [hx] at hg
      rw [M.bind_error (onFst_eq hg t1)]
      exact ⟨by simp, h1⟩
    | some x =>
      rw [hx] at hg
      rw [M.bind_ok (onFst_eq hg t1), M.unwrap_some_bind]
      rw [M.bind_apply]
      unfold call
      cases hf : f x t1 with
      | mk r t2 =>
        cases r with
        | none => exact ⟨by simp, h1⟩
        | some keep =>
          simp only
          cases keep
          · exact ⟨h1, h2, by omega⟩
          · have hset : EV.set c iSet x s1 = _ := setRaw_lt hc h1 (c.E.toDiscr x) (by omega)
            rw [if_pos rfl, M.bind_ok (onFst_eq hset t2)]
            exact ⟨putRaw_safe hc h1 _ _, by simpa using h2, by omega⟩
  · rintro iSet ⟨s1, t1⟩ ⟨h1, h2, h3⟩
    replace h2 : s1.num = s.num := h2
    exact h1.setNum hc (show iSet ≤ s1.num by omega)

theorem forEach_keeps {τ : Type} (f : Closure τ α α) : Keeps1 c (forEach c f) := by
  rintro ⟨s, t⟩ hs
  unfold forEach
  rw [M.read_bind]
  refine Keeps1.loop (fun i a => ?_) _ _ _ (s, t) hs
  exact (get_keeps hc i).onFst.bind fun x => (Keeps1.unwrap x).bind fun x => (call_keeps f x).bind fun y =>
    (set_keeps hc i y).onFst

/-! ### extend, bulk fill -/

theorem extendHinted_keeps (panics : Bool) : ∀ (n pos : Nat) (items : List α), Keeps c (extendHinted c panics n pos items)
  | 0, _, items => Keeps.pure items
  | n + 1, pos, x :: items => (set_keeps hc pos x).bind fun _ => extendHinted_keeps panics n (pos + 1) items
  | _ + 1, _, [] => Keeps.fail (by cases panics <;> simp)

theorem extendRest_keeps (panics : Bool) : ∀ (items : List α), Keeps c (extendRest c panics items)
  | [] => by
    unfold extendRest
    cases panics
    · exact Keeps.pure ()
    · exact Keeps.fail (by simp)
  | x :: items => (push_keeps hc x).bind fun _ => extendRest_keeps panics items

theorem extend_keeps (it : Src α) {s : EV c.W} (hs : Safe c s) (hw : ¬ c.Drops (s.num + it.hint)) : SafeRun c (extend c it s) := by
  unfold extend
  rw [M.read_bind]
  by_cases hl : c.AtLimit (s.num + it.hint)
  · rw [M.bind_error (reserve_limit_debug hw hl)]; exact ⟨by simp, hs⟩
  refine runs_seq (reserve_safe hc hs hl) (fun e s' h => ⟨by rw [h.1]; simp, by rw [h.2.1]; exact hs⟩) ?_
  rintro _ s1 ⟨h1, h2, h3, h4, _⟩
  rw [M.read_bind]
  have : uAdd c.build s1.num it.hint = .ok (s1.num + it.hint) := by
    unfold uAdd; rw [if_pos (by omega)]
  rw [this, M.lift_ok_bind, M.write_bind]
  refine ((extendHinted_keeps hc _ _ _ _).bind fun rest => extendRest_keeps hc _ rest) _ ?_
  refine ⟨?_, h1.capLen, h1.capBound⟩
  show s1.num + it.hint ≤ s1.storage.data.length * c.epb
  rw [h3, h2, Nat.add_mul, Nat.one_mul]
  have h4 := Nat.div_add_mod (s.num + it.hint) c.epb
  have h5 := Nat.mod_lt (s.num + it.hint) hc.epb_pos
  rw [Nat.mul_comm]; omega

omit hc in
/-- `extend` at the limit, in a debug build. -/
theorem extend_limit_debug {it : Src α} {s : EV c.W} (hw : c.AtLimit (s.num + it.hint)) (hck : c.build.checked = true) :
    extend c it s = (.error .overflow, s) := by
  unfold extend
  rw [M.read_bind, M.bind_error (reserve_limit_debug (fun h => by rw [h.1] at hck; cases hck) hw)]

omit hc in
theorem extend_limit {it : Src α} {s : EV c.W} (hw : c.AtLimit (s.num + it.hint)) (hck : c.build.checked = false) :
    extend c it s = (extendHinted c it.panics it.hint s.num it.items >>= extendRest c it.panics)
      (⟨s.storage.truncate 0, s.num + it.hint⟩ : EV c.W) := by
  unfold extend
  have h1 := reserve_limit hw
  rw [hck] at h1
  rw [M.read_bind, M.bind_ok h1, M.read_bind]
  have : uAdd c.build s.num it.hint = .ok (s.num + it.hint) := by
    unfold uAdd; rw [if_pos (by have := hw.2; omega)]
  rw [this, M.lift_ok_bind, M.write_bind]
  rfl

omit hc in
/-- `extend` at the limit, in a release build, if there is no item. -/
theorem extend_limit_nil {it : Src α} {s : EV c.W} (hw : c.AtLimit (s.num + it.hint)) (hck : c.build.checked = false) (hi : it.items = [])
    (hn : 0 < it.hint) :
    extend c it s = (.error (if it.panics then .user else .unwrapNone), ⟨s.storage.truncate 0, s.num + it.hint⟩) := by
  rw [extend_limit hw hck, hi]
  obtain ⟨n, hn⟩ : ∃ n, it.hint = n + 1 := ⟨it.hint - 1, by omega⟩
  rw [hn]; rfl

omit hc in
/-- `extend` at the limit, in a release build, if there is an item: it is written to a block that has been dropped. -/
theorem extend_limit_ub {it : Src α} {s : EV c.W} (hw : c.AtLimit (s.num + it.hint)) (hck : c.build.checked = false) (hi : it.items ≠ [])
    (hn : 0 < it.hint) :
    extend c it s = (.error .ub, ⟨s.storage.truncate 0, s.num + it.hint⟩) := by
  rw [extend_limit hw hck]
  obtain ⟨n, hn⟩ : ∃ n, it.hint = n + 1 := ⟨it.hint - 1, by omega⟩
  obtain ⟨x, xs, hi⟩ := List.exists_cons_of_ne_nil hi
  rw [hn, hi]
  have e : EV.set c s.num x (⟨s.storage.truncate 0, s.num + (n + 1)⟩ : EV c.W) = (.error .ub, ⟨s.storage.truncate 0, s.num + (n + 1)⟩) := by
    unfold EV.set setRaw
    rw [M.read_bind]
    have : ¬ len c (⟨s.storage.truncate 0, s.num + (n + 1)⟩ : EV c.W) ≤ s.num := by show ¬ s.num + (n + 1) ≤ s.num; omega
    simp only [ge_iff_le, this, if_false]
    unfold setRawUnchecked
    rfl
  show ((EV.set c s.num x >>= fun _ => extendHinted c it.panics n (s.num + 1) xs) >>= extendRest c it.panics) _ = _
  rw [M.bind_error]
  rw [M.bind_error e]

theorem Safe.hint_pos {s : EV c.W} (h : Safe c s) {n : Nat} (hw : c.AtLimit (s.num + n)) : 0 < n := by
  rcases Nat.eq_zero_or_pos n with rfl | hn
  · exact absurd hw (h.not_atLimit hc (Nat.zero_le _))
  · exact hn

theorem extendWithValue_keeps (x : α) (count : Nat) : Keeps c (extendWithValue c x count) := by
  unfold extendWithValue
  refine ite_keeps (fun hle s hs => extend_keeps hc _ hs (Inst.not_drops (hs.not_atLimit hc hle))) fun hbig => Keeps.read fun s hs => ?_
  have hep := hc.epb_pos
  refine runs_seq (extend_keeps hc _ hs (Inst.not_drops (hs.not_atLimit hc (show c.epb - len c s % c.epb ≤ _ by omega)))) (fun _ _ h => h) ?_
  intro _ s1 hs1
  rw [M.read_bind]
  obtain ⟨s2, h2, hs2, h2n, _, h2l, _⟩ := fixStorage_safe hc hs1
  rw [M.bind_ok h2, M.read_bind]
  generalize hcb : (count - (c.epb - len c s % c.epb)) / c.epb = cb
  generalize hlast : (cb + if count - ((c.epb - len c s % c.epb) + cb * c.epb) > 0 then 1 else 0) = extra
  have hr := RVec.reserve_res hc.lawful hc.bounded s2.storage extra hs2.capLen
  cases hx : RVec.reserve c.alloc s2.storage extra with
  | error e =>
    rw [hx] at hr
    rw [M.lift_error_bind]
    exact ⟨by rw [hr.1]; simp, hs2⟩
  | ok st =>
    rw [hx] at hr
    obtain ⟨g1, g2, g3, g4⟩ := hr
    rw [M.lift_ok_bind, M.write_bind]
    have hs3 : Safe c (⟨st, s2.num⟩ : EV c.W) := by
      refine ⟨?_, ?_, ?_⟩
      · show s2.num ≤ st.data.length * c.epb
        rw [g1]; exact hs2.cover
      · exact g3.fits
      · exact g3.capBound hs2.capBound
    refine runs_seq (fillLoop hc cb (spread (BitVec.ofNat c.W (c.E.toDiscr x)) c.bits) hs3 cb)
      (fun e s' h => ⟨by rw [h.1]; simp, h.2.1⟩) ?_
    rintro _ s4 ⟨hs4, h4n, _, h4d⟩
    have hlen1 : len c s1 = s1.num := rfl
    have hcov : s1.num + cb * c.epb ≤ s4.storage.data.length * c.epb := by
      rw [h4d, List.length_append, List.length_replicate, Nat.add_mul]
      have e1 : s1.num ≤ st.data.length * c.epb := by rw [g1, h2l]; exact blocks_mul hc _
      have e2 : cb * c.epb ≤ cb * cb * c.epb := by
        apply Nat.mul_le_mul_right
        rcases Nat.eq_zero_or_pos cb with h | h
        · simp [h]
        · exact Nat.le_mul_of_pos_left _ h
      show _ ≤ st.data.length * c.epb + _
      omega
    have hroom := hs4.dataRoom hc
    have hadd : uAdd c.build (len c s1) (cb * c.epb) = .ok (s1.num + cb * c.epb) := by
      unfold uAdd; rw [hlen1, if_pos (by omega)]
    rw [hadd, M.lift_ok_bind]
    have hs5 : Safe c (⟨s4.storage, s1.num + cb * c.epb⟩ : EV c.W) := ⟨hcov, hs4.capLen, hs4.capBound⟩
    refine extend_keeps hc _ hs5 (Inst.not_drops (hs5.not_atLimit hc ?_))
    have e1 := Nat.div_add_mod (count - (c.epb - len c s % c.epb)) c.epb
    have e2 := Nat.mod_lt (count - (c.epb - len c s % c.epb)) hep
    rw [hcb, Nat.mul_comm] at e1
    show count - ((c.epb - len c s % c.epb) + cb * c.epb) ≤ _
    omega

theorem resize_keeps (n : Nat) (x : α) : Keeps c (resize c n x) := by
  unfold resize
  refine Keeps.read fun s hs => ?_
  split
  · exact extendWithValue_keeps hc _ _ s hs
  · exact truncate_keeps hc _ s hs

theorem build_keeps {m : M (EV c.W) Unit} (h : Keeps c m) :
    Res (build c (new c) m) (fun s => Safe c s) (fun e => e ≠ .ub) :=
  (build_res hc (h _ (new_safe hc))).mono (fun _ h => h) (fun _ ⟨_, h⟩ => h.1)

omit hc in
theorem build_limit_debug {it : Src α} (hd : ¬ c.Drops it.hint) (hw : c.AtLimit it.hint) : build c (new c) (extend c it) = .error .overflow := by
  have hck : c.build.checked = true := by
    cases hck : c.build.checked
    · exact absurd ⟨hck, hw⟩ hd
    · rfl
  unfold build
  rw [extend_limit_debug (by rw [show (new c : EV c.W).num = 0 from rfl, Nat.zero_add]; exact hw) hck]

theorem build_extend_keeps (it : Src α) (hw : ¬ c.Drops it.hint) : Res (build c (new c) (extend c it)) (fun s => Safe c s) (fun e => e ≠ .ub) :=
  (build_res hc (extend_keeps hc it (new_safe hc) (by rw [show (new c : EV c.W).num = 0 from rfl, Nat.zero_add]; exact hw))).mono
    (fun _ h => h) (fun _ ⟨_, h⟩ => h.1)

theorem clone_keeps {s : EV c.W} (h : Safe c s) :
    Res (clone c s) (fun s' => Safe c s') (fun e => e ≠ .ub) := by
  unfold clone RVec.clone
  have hl := hc.lawful.exact_ge s.storage.len
  have hb := hc.bounded.exact s.storage.len
  cases hx : c.alloc.exact s.storage.len with
  | none => simp
  | some k => exact ⟨h.cover, hl k hx, hb k hx⟩

theorem withCapacity_keeps (n : Nat) : Res (withCapacity c n) (fun s => Safe c s) (fun e => e ≠ .ub) :=
  (withCapacity_holds hc n).mono (fun _ h => h.1.toSafe) (fun e h => by rw [h.1]; simp)

/-- `append` is safe for `self`, and for `other` too unless the storage is a `Vec`, `self.len()` is a multiple of
the elements per block and `other` is not empty. -/
theorem append_keeps {s o : EV c.W} (hs : Safe c s) (ho : Safe c o) :
    Runs (append c (s, o))
      (fun _ p => Safe c p.1 ∧ (c.small = true ∨ s.num % c.epb ≠ 0 ∨ o.num = 0 → Safe c p.2) ∧
        (¬ (c.small = true ∨ s.num % c.epb ≠ 0) → p.2.storage.data = [] ∧ (p.2.storage.cap + 1) * c.epb + 4 < c.build.usizeLim))
      (fun e p => e ≠ .ub ∧ Safe c p.1 ∧ Safe c p.2) := by
  unfold append
  rw [M.read_bind]
  have e1 : len c s = s.num := rfl
  have e2 : len c o = o.num := rfl
  by_cases hm : s.num % c.epb = 0
  · rw [if_pos (show len c s % c.epb = 0 from hm)]
    obtain ⟨s1, h1, hs1, h1n, _, h1l, _⟩ := fixStorage_safe hc hs
    obtain ⟨o1, g1, ho1, g1n, _, g1l, _⟩ := fixStorage_safe hc ho
    rw [M.bind_ok (onFst_eq h1 o), M.bind_ok (onSnd_eq g1 s1)]
    have hr := RVec.extend_res hc.lawful hc.bounded s1.storage o1.storage.data hs1.capLen
    rw [M.bind_apply]
    unfold appendStorage
    cases hx : RVec.extendFromSlice c.alloc s1.storage o1.storage.data with
    | error e =>
      rw [hx] at hr
      exact ⟨by rw [hr.1]; simp, hs1, ho1⟩
    | ok st =>
      rw [hx] at hr
      obtain ⟨k1, k2, k3⟩ := hr
      have hcov : s.num + o.num ≤ st.data.length * c.epb := by
        rw [k1, List.length_append, Nat.add_mul, g1l]
        have := blocks_mul hc o.num
        have := hs1.cover
        omega
      have hs2 : Safe c (⟨st, s.num + o.num⟩ : EV c.W) := ⟨hcov, k2.fits, k2.capBound hs1.capBound⟩
      have hroom := hs2.dataRoom hc
      have hep := hc.epb_pos
      have hadd : uAdd c.build s1.num (len c o) = .ok (s.num + o.num) := by
        unfold uAdd
        rw [e2, h1n, if_pos]
        have h9 : s.num + o.num ≤ st.data.length * c.epb := hcov
        have h10 : st.data.length * c.epb + c.epb ≤ c.build.usizeLim := hroom
        omega
      simp only
      by_cases hsm : c.small = true
      · rw [if_pos hsm, onSnd_eq (clear_eq hc o1)]
        show Runs ((M.read >>= _) _) _ _
        rw [M.read_bind]
        show Runs ((M.lift (uAdd c.build s1.num (len c o)) >>= _) _) _ _
        rw [hadd, M.lift_ok_bind]
        exact ⟨hs2, fun _ => ho1.setNum hc (Nat.zero_le _), fun h => absurd (Or.inl hsm) h⟩
      · rw [if_neg hsm]
        show Runs ((M.read >>= _) _) _ _
        rw [M.read_bind]
        show Runs ((M.lift (uAdd c.build s1.num (len c o)) >>= _) _) _ _
        rw [hadd, M.lift_ok_bind]
        refine ⟨hs2, fun h => ?_, fun _ => ⟨rfl, ho1.capBound⟩⟩
        have h0 : o1.num = 0 := by
          rcases h with h | h | h
          · exact absurd h hsm
          · exact absurd hm h
          · rw [g1n, h]
        exact ⟨by show o1.num ≤ _; rw [h0]; exact Nat.zero_le _, Nat.zero_le _, ho1.capBound⟩
  · rw [if_neg (show ¬ len c s % c.epb = 0 from hm)]
    refine runs_seq (P := fun _ p => Safe c p.1 ∧ p.1.num = s.num ∧
        p.1.storage.data.length = (s.num + o.num) / c.epb + 1 ∧ s.num + o.num < c.build.usizeLim ∧ p.2 = o)
      (E' := fun e p => e ≠ .ub ∧ Safe c p.1 ∧ p.2 = o) ?_ (fun e p h => ⟨h.1, h.2.1, h.2.2 ▸ ho⟩) ?_
    · have hr := reserve_safe hc hs (k := len c o) (Inst.not_atLimit_of_mod hm)
      match hx : reserve c (len c o) s, hr with
      | (.ok a, s'), h' => rw [onFst_eq hx]; exact ⟨h'.1, h'.2.1, h'.2.2.1, h'.2.2.2.1, rfl⟩
      | (.error e, s'), h' => rw [onFst_eq hx]; exact ⟨by rw [h'.1]; simp, by rw [h'.2.1]; exact hs, rfl⟩
    · rintro _ ⟨s1, o1⟩ ⟨hs1, h1n, h1l, hlt, ho1⟩
      simp only at hs1 h1n h1l ho1
      subst ho1
      have hadd : uAdd c.build (len c s) (len c o1) = .ok (s.num + o1.num) := by
        unfold uAdd; rw [e1, e2, if_pos hlt]
      rw [hadd, M.lift_ok_bind]
      have hs2 : Safe c (⟨s1.storage, s.num + o1.num⟩ : EV c.W) := by
        refine ⟨?_, hs1.capLen, hs1.capBound⟩
        show s.num + o1.num ≤ s1.storage.data.length * c.epb
        rw [h1l, Nat.add_mul, Nat.one_mul]
        have h4 := Nat.div_add_mod (s.num + o1.num) c.epb
        have h5 := Nat.mod_lt (s.num + o1.num) hc.epb_pos
        rw [Nat.mul_comm]; omega
      have hsl : onFst (setLen c (s.num + o1.num)) (s1, o1) = (.ok (), (⟨s1.storage, s.num + o1.num⟩, o1)) := rfl
      rw [M.bind_ok hsl]
      refine runs_seq (P := fun _ p => Safe c p.1 ∧ p.2 = o1) (E' := fun _ _ => False)
        (runs_loop (stop := o1.num)
          (fun _ _ p => SameShape c (⟨s1.storage, s.num + o1.num⟩ : EV c.W) p.1 ∧ p.2 = o1) ?_
          (len c o1) 0 () _ (by rw [e2]; omega) ⟨SameShape.refl _, rfl⟩ |>.mono (fun _ _ h => ⟨h.1.safe hs2, h.2⟩) (fun _ _ h => h))
        (fun _ _ h => h.elim) ?_
      · rintro i _ ⟨s3, o3⟩ hi ⟨h3, h3o⟩
        simp only at h3 h3o
        subst h3o
        unfold appendStep
        have hs3 := h3.safe hs2
        have h3n := h3.num
        simp only at h3n
        rw [M.bind_ok (onSnd_eq (getRawUnchecked_run hc ho (by omega)) s3),
          onFst_eq (setRawUnchecked_ok hc s3 _ (by have := hs3.cover; rw [e1]; omega)) o3]
        exact ⟨h3.trans (putRaw_shape c s3 _ _), rfl⟩
      · rintro _ ⟨s3, o3⟩ ⟨h3, h3o⟩
        simp only at h3 h3o
        subst h3o
        rw [onSnd_eq (clear_eq hc o3)]
        exact ⟨h3, fun _ => ho.setNum hc (Nat.zero_le _), fun h => absurd (Or.inr hm) h⟩

end
end EnumVecModel
