import Verif.Lemmas.Storage

set_option linter.unusedSectionVars false

/-! # Invariants of `EnumVec` -/

namespace EnumVecModel
open EV

variable {α : Type}

/-- Every discriminant in the storage is valid, also in the spare part. -/
def Valid (c : Inst α) (s : EV c.W) : Prop := ∀ i, raw c s i < c.E.num

/-- The vector `s` holds exactly the elements `l`. -/
structure Holds (c : Inst α) (s : EV c.W) (l : List α) : Prop extends Safe c s where
  len_eq : s.num = l.length
  elems : ∀ i (h : i < l.length), raw c s i = c.E.toDiscr l[i]

/-- No new dirt: every block's unused bits are as before or zero, and no new invalid discriminant. -/
structure Tidy (c : Inst α) (s s' : EV c.W) : Prop where
  waste : ∀ j, waste c s' j = waste c s j ∨ waste c s' j = 0
  valid : Valid c s → Valid c s'

/-- The unused bits of all blocks are zero. -/
def Clean (c : Inst α) (s : EV c.W) : Prop := ∀ j, waste c s j = 0

theorem Tidy.refl {c : Inst α} (s : EV c.W) : Tidy c s s := ⟨fun _ => Or.inl rfl, id⟩

theorem Tidy.trans {c : Inst α} {s t u : EV c.W} (h : Tidy c s t) (h' : Tidy c t u) : Tidy c s u := by
  refine ⟨fun j => ?_, fun hv => h'.valid (h.valid hv)⟩
  rcases h'.waste j with e | e
  · rw [e]; exact h.waste j
  · exact Or.inr e

theorem Clean.tidy {c : Inst α} {s t : EV c.W} (h : Clean c s) (h' : Tidy c s t) : Clean c t := by
  intro j
  rcases h'.waste j with e | e
  · rw [e]; exact h j
  · exact e

theorem Tidy.of_data {c : Inst α} {s t : EV c.W} (h : t.storage.data = s.storage.data) : Tidy c s t :=
  ⟨fun j => Or.inl (waste_congr h j), fun hv i => by rw [raw_congr h i]; exact hv i⟩

theorem Clean.of_dvd {c : Inst α} (s : EV c.W) (h : c.W % c.bits = 0) : Clean c s := by
  intro j
  unfold waste blk fld
  have hW : c.epb * c.bits = c.W := Nat.div_mul_cancel (Nat.dvd_of_mod_eq_zero h)
  rw [hW, Nat.div_eq_of_lt (BitVec.isLt _), Nat.zero_mod]

section
variable {c : Inst α} {strict : Prop} (hc : c.Fits strict)
include hc

theorem W_pos : 0 < c.W := Nat.lt_of_lt_of_le hc.bits_pos hc.bits_le

theorem Safe.room {s : EV c.W} (h : Safe c s) : s.storage.cap * c.epb + c.epb < c.build.usizeLim := by
  have := h.capBound
  rw [Nat.add_mul, Nat.one_mul] at this
  omega

/-- Four elements more are not at the limit. -/
theorem Safe.not_atLimit {s : EV c.W} (h : Safe c s) {k : Nat} (hk : k ≤ 4 * c.epb) : ¬ c.AtLimit (s.num + k) := by
  rintro ⟨h1, h2⟩
  have := h.capBound
  have h3 := h.cover
  have h4 := h.capLen
  rw [h1] at this h3 hk
  omega

theorem Safe.dataRoom {s : EV c.W} (h : Safe c s) :
    s.storage.data.length * c.epb + c.epb ≤ c.build.usizeLim := by
  have := h.room hc
  have h2 : s.storage.data.length * c.epb ≤ s.storage.cap * c.epb := Nat.mul_le_mul_right _ h.capLen
  omega

theorem Safe.numRoom {s : EV c.W} (h : Safe c s) : s.num + c.epb ≤ c.build.usizeLim := by
  have := h.dataRoom hc
  have := h.cover
  omega

theorem Safe.blocks_eq {s : EV c.W} (h : Safe c s) : blocksForElements c s.num = c.blocks s.num :=
  blocksForElements_eq hc (h.numRoom hc)

theorem Safe.blocks_le {s : EV c.W} (h : Safe c s) : c.blocks s.num ≤ s.storage.data.length :=
  (blocks_le_iff hc _ _).mpr h.cover

theorem E_pos : 0 < c.E.num := by have := hc.num_gt; omega

theorem new_safe : Safe c (new c) := by
  refine ⟨by simp [new], by simp [new, RVec.new], ?_⟩
  simpa [new, RVec.new] using hc.bounded.fresh

theorem blk_new (j : Nat) : blk (new c) j = 0 := blk_ge _ (by simp [new, RVec.new])

theorem new_holds : Holds c (new c) [] where
  toSafe := new_safe hc
  len_eq := rfl
  elems := fun i h => absurd h (by simp)

theorem new_valid : Valid c (new c) := fun i => by
  unfold raw; rw [blk_new hc, fld_zero]; exact E_pos hc

theorem new_clean : Clean c (new c) := fun j => by unfold waste; rw [blk_new hc, fld_zero]

theorem Holds.raw_eq {s : EV c.W} {l : List α} (h : Holds c s l) {i : Nat} (hi : i < s.num) :
    raw c s i = c.E.toDiscr (l[i]'(h.len_eq ▸ hi)) := h.elems i _

/-- If all discriminants are inhabited, a good state holds some list. -/
theorem Valid.holds (hE : c.E.Consecutive) {s : EV c.W} (h : Safe c s) (hv : Valid c s) :
    ∃ l, Holds c s l := by
  have hf : ∀ i, ∃ a, c.E.toDiscr a = raw c s i := fun i => by
    obtain ⟨a, _, ha⟩ := hE _ (hv i); exact ⟨a, ha⟩
  refine ⟨(List.range s.num).map fun i => Classical.choose (hf i), h, by simp, fun i hi => ?_⟩
  simp only [List.getElem_map, List.getElem_range]
  exact (Classical.choose_spec (hf i)).symm

omit hc in
theorem Holds.unique (hc : c.Ok) {s : EV c.W} {l l' : List α} (h : Holds c s l) (h' : Holds c s l') : l = l' := by
  apply List.ext_getElem
  · rw [← h.len_eq, h'.len_eq]
  · intro i h1 h2
    have := (h.elems i h1).symm.trans (h'.elems i h2)
    have e := congrArg c.E.fromDiscr this
    rw [hc.contract.roundtrip, hc.contract.roundtrip] at e
    exact Option.some.inj e

/-! ### get, set -/

theorem getRaw_safe {s : EV c.W} (h : Safe c s) (i : Nat) :
    getRaw c i s = (.ok (if i < s.num then some (raw c s i) else none), s) := by
  unfold getRaw
  rw [M.read_bind]
  by_cases hi : i < s.num
  · have : ¬ i ≥ len c s := by simpa [len] using hi
    rw [if_neg this, if_pos hi]
    have hr := getRawUnchecked_ok hc s (i := i) (by have := h.cover; omega)
    simp only [M.bind_apply, M.pure_apply, hr]
  · have : i ≥ len c s := by simpa [len] using hi
    rw [if_pos this, if_neg hi]
    rfl

theorem get_safe {s : EV c.W} (h : Safe c s) (i : Nat) :
    EV.get c i s = if i < s.num then
      (match c.E.fromDiscr (raw c s i) with
        | some a => (.ok (some a), s)
        | none => (.error .badDiscr, s))
      else (.ok none, s) := by
  unfold EV.get
  rw [M.bind_ok (getRaw_safe hc h i)]
  by_cases hi : i < s.num
  · rw [if_pos hi, if_pos hi]
    simp only [M.bind_apply, fromDiscr]
    cases c.E.fromDiscr (raw c s i) <;> rfl
  · rw [if_neg hi, if_neg hi]; rfl

omit hc in
theorem get_holds (hc : c.Ok) {s : EV c.W} {l : List α} (h : Holds c s l) (i : Nat) :
    EV.get c i s = (.ok l[i]?, s) := by
  rw [get_safe hc h.toSafe]
  by_cases hi : i < s.num
  · have hi' : i < l.length := h.len_eq ▸ hi
    rw [if_pos hi, h.elems i hi', hc.contract.roundtrip, List.getElem?_eq_getElem hi']
  · rw [if_neg hi, List.getElem?_eq_none (by have := h.len_eq; omega)]

omit hc in
theorem Holds.shows (hc : c.Ok) {s : EV c.W} {l : List α} (h : Holds c s l) : Shows c s l :=
  ⟨h.len_eq, get_holds hc h⟩

theorem setRaw_lt {s : EV c.W} (h : Safe c s) {i : Nat} (d : Nat) (hi : i < s.num) :
    setRaw c i d s = (.ok (), putRaw c s i d) := by
  unfold setRaw
  rw [M.read_bind]
  have : ¬ i ≥ len c s := by simpa [len] using hi
  rw [if_neg this]
  exact setRawUnchecked_ok hc s d (by have := h.cover; omega)

theorem setRaw_ge {s : EV c.W} {i : Nat} (d : Nat) (hi : s.num ≤ i) :
    setRaw c i d s = (.error .index, s) := by
  unfold setRaw
  rw [M.read_bind]
  have : i ≥ len c s := by simpa [len] using hi
  rw [if_pos this]
  rfl

theorem putRaw_safe {s : EV c.W} (h : Safe c s) (i d : Nat) : Safe c (putRaw c s i d) :=
  ⟨by simpa using h.cover, by simpa using h.capLen, h.capBound⟩

omit hc in
theorem putRaw_tidy (hc : c.Ok) {s : EV c.W} {i d : Nat} (hi : i < s.storage.data.length * c.epb)
    (hd : d < c.E.num) : Tidy c s (putRaw c s i d) where
  waste := fun j => Or.inl (waste_putRaw hc s j hi (Nat.lt_of_lt_of_le hd hc.num_le))
  valid := fun hv k => by
    rw [raw_putRaw hc s k hi (Nat.lt_of_lt_of_le hd hc.num_le)]
    split
    · exact hd
    · exact hv k

omit hc in
theorem putRaw_holds (hc : c.Ok) {s : EV c.W} {l : List α} (h : Holds c s l) {i : Nat} (x : α)
    (hi : i < s.storage.data.length * c.epb) :
    Holds c (putRaw c s i (c.E.toDiscr x)) (l.set i x) where
  toSafe := putRaw_safe hc h.toSafe _ _
  len_eq := by simpa using h.len_eq
  elems := fun k hk => by
    rw [raw_putRaw hc s k hi (hc.toDiscr_lt x), List.getElem_set]
    have hk' : k < l.length := by simpa using hk
    by_cases e : k = i
    · simp [e]
    · have : ¬ i = k := fun e' => e e'.symm
      simp only [e, this, if_false]
      exact h.elems k hk'

omit hc in
theorem set_lt (hc : c.Ok) {s : EV c.W} {l : List α} (h : Holds c s l) {i : Nat} (x : α) (hi : i < l.length) :
    EV.set c i x s = (.ok (), putRaw c s i (c.E.toDiscr x)) ∧
      Holds c (putRaw c s i (c.E.toDiscr x)) (l.set i x) := by
  have hi' : i < s.num := by rw [h.len_eq]; exact hi
  refine ⟨setRaw_lt hc h.toSafe _ hi', putRaw_holds hc h x ?_⟩
  have := h.cover; omega

theorem set_ge {s : EV c.W} {l : List α} (h : Holds c s l) {i : Nat} (x : α) (hi : l.length ≤ i) :
    EV.set c i x s = (.error .index, s) :=
  setRaw_ge hc _ (by rw [h.len_eq]; exact hi)

end
end EnumVecModel
