import Verif.StorageApi
import Verif.Lemmas.Frame
import Verif.Lemmas.SafeHistory
import Verif.Examples

/-! # C46: the storage, seen through `storage()` and `storage_mut()` -/

namespace EnumVecModel
open EV

variable {α : Type} {c : Inst α}

/-- Field `j` of a block: its bits `j * b`, …, `j * b + b - 1`. -/
def field {W : Nat} (b : Nat) (w : BitVec W) (j : Nat) : Nat := w.toNat / 2 ^ (j * b) % 2 ^ b

/-- **C46** (layout). With `b` the element width and `q = W / b` elements per block, a vector holds `l` exactly when it is
well-formed, has the length of `l`, and its storage has the discriminant of `l[i]` in field `i % q` of block `i / q`. -/
theorem C46_layout (hc : c.Ok) {s : EV c.W} {l : List α} :
    Is c s l ↔ Safe c s ∧ EV.len c s = l.length ∧
      ∀ i (h : i < l.length), ∃ w, (EV.storageRef c s).data[i / (c.W / c.bits)]? = some w ∧
        field c.bits w (i % (c.W / c.bits)) = c.E.toDiscr l[i] := by
  have hb : ∀ (i : Nat) (w : BitVec c.W), s.storage.data[i / c.epb]? = some w →
      field c.bits w (i % c.epb) = raw c s i := fun i w hw => by
    unfold field raw blk fld; rw [hw]; rfl
  rw [is_iff hc]
  constructor
  · intro h
    refine ⟨h.toSafe, h.len_eq, fun i hi => ?_⟩
    have h1 : i < s.storage.data.length * c.epb := by have := h.cover; have := h.len_eq; omega
    have h2 : i / c.epb < s.storage.data.length := (Nat.div_lt_iff_lt_mul hc.epb_pos).mpr h1
    refine ⟨s.storage.data[i / c.epb], List.getElem?_eq_getElem h2, ?_⟩
    rw [← h.elems i hi]
    exact hb i _ (List.getElem?_eq_getElem h2)
  · rintro ⟨h1, h2, h3⟩
    refine ⟨h1, h2, fun i hi => ?_⟩
    obtain ⟨w, h4, h5⟩ := h3 i hi
    rw [← h5]
    exact (hb i w h4).symm

/-- The vector after overwriting block `j`. -/
theorem storageMut_setIndex (s : EV c.W) {j : Nat} (hj : j < s.storage.data.length) (w : BitVec c.W) :
    storageMut c (RVec.setIndex j w) s = (.ok (), { s with storage := { s.storage with data := s.storage.data.set j w } }) := by
  unfold storageMut RVec.setIndex
  rw [if_pos (show j < s.storage.len from hj)]

/-- **C46** (`storage_mut()[j] = w`). Overwriting one block with **any** bits is memory-safe, keeps the length, makes element `i` of that
block read back as field `i % q` of `w` (a panic in `from_discr` if that is no discriminant), and does not change how any other
element reads. No assumption on `EnumLike`. -/
theorem C46_write_block (hc : c.Sound) {s : EV c.W} (h : Safe c s) {j : Nat} (hj : j < (EV.storageRef c s).len) (w : BitVec c.W) :
    ∃ s', storageMut c (RVec.setIndex j w) s = (.ok (), s') ∧ Safe c s' ∧ EV.len c s' = EV.len c s ∧
      (∀ i, i < EV.len c s → i / c.epb = j → (EV.get c i s').1 =
        match c.E.fromDiscr (field c.bits w (i % c.epb)) with
        | some x => .ok (some x)
        | none => .error .badDiscr) ∧
      ∀ i, i / c.epb ≠ j → (EV.get c i s').1 = (EV.get c i s).1 := by
  refine ⟨_, storageMut_setIndex s hj w, ⟨?_, ?_, h.capBound⟩, rfl, ?_, ?_⟩
  · show s.num ≤ (s.storage.data.set j w).length * c.epb
    rw [List.length_set]; exact h.cover
  · show (s.storage.data.set j w).length ≤ s.storage.cap
    rw [List.length_set]; exact h.capLen
  all_goals have hs : Safe c { s with storage := { s.storage with data := s.storage.data.set j w } } :=
    ⟨by show s.num ≤ (s.storage.data.set j w).length * c.epb; rw [List.length_set]; exact h.cover,
     by show (s.storage.data.set j w).length ≤ s.storage.cap; rw [List.length_set]; exact h.capLen, h.capBound⟩
  · intro i hi hij
    rw [get_safe hc hs, if_pos (show i < s.num from hi)]
    have : raw c { s with storage := { s.storage with data := s.storage.data.set j w } } i = field c.bits w (i % c.epb) := by
      unfold raw blk field fld
      dsimp only
      rw [hij, List.getElem?_set_self (show j < s.storage.data.length from hj)]; rfl
    rw [this]
    cases c.E.fromDiscr (field c.bits w (i % c.epb)) <;> rfl
  · intro i hij
    have : raw c { s with storage := { s.storage with data := s.storage.data.set j w } } i = raw c s i := by
      unfold raw blk
      dsimp only
      rw [List.getElem?_set_ne (fun e => hij e.symm)]
    rw [get_safe hc hs, get_safe hc h, this]
    dsimp only
    split
    · cases c.E.fromDiscr (raw c s i) <;> rfl
    · rfl

/-- **C46** Out of bounds the assignment panics without effect. -/
theorem C46_write_oob (s : EV c.W) {j : Nat} (hj : (EV.storageRef c s).len ≤ j) (w : BitVec c.W) :
    storageMut c (RVec.setIndex j w) s = (.error .index, s) := by
  unfold storageMut RVec.setIndex
  rw [if_neg (show ¬ j < s.storage.len from Nat.not_lt.mpr hj)]

/-- **C46** (values). If the fields of `w` are the discriminants of the elements of `l'` in block `j`, and `l'` agrees with `l` elsewhere,
the vector afterwards is `l'`. -/
theorem C46_write_values (hc : c.Ok) {s : EV c.W} {l l' : List α} (h : Is c s l) {j : Nat} (hj : j < (EV.storageRef c s).len)
    (w : BitVec c.W) (hl : l'.length = l.length)
    (hin : ∀ i (hi : i < l'.length), i / c.epb = j → field c.bits w (i % c.epb) = c.E.toDiscr l'[i])
    (hout : ∀ i, i / c.epb ≠ j → l'[i]? = l[i]?) :
    ∃ s', storageMut c (RVec.setIndex j w) s = (.ok (), s') ∧ Is c s' l' := by
  refine ⟨_, storageMut_setIndex s hj w, ?_⟩
  obtain ⟨h1, h2, h3⟩ := (C46_layout hc).mp h
  refine (C46_layout hc).mpr ⟨⟨?_, ?_, h1.capBound⟩, by rw [hl]; exact h2, fun i hi => ?_⟩
  · show s.num ≤ (s.storage.data.set j w).length * c.epb
    rw [List.length_set]; exact h1.cover
  · show (s.storage.data.set j w).length ≤ s.storage.cap
    rw [List.length_set]; exact h1.capLen
  · show ∃ w', (s.storage.data.set j w)[i / c.epb]? = some w' ∧ _
    by_cases hij : i / c.epb = j
    · exact ⟨w, by rw [hij]; exact List.getElem?_set_self hj, hin i hi hij⟩
    · obtain ⟨w', h4, h5⟩ := h3 i (by omega)
      refine ⟨w', by rw [List.getElem?_set_ne (fun e => hij e.symm)]; exact h4, ?_⟩
      have := hout i hij
      rw [List.getElem?_eq_getElem hi, List.getElem?_eq_getElem (by omega : i < l.length)] at this
      rw [Option.some.inj this]
      exact h5

/-- **C46** (the documented example: "We set the first block to 0, which will set it to false"). Writing 0 to block `j` sets exactly its
elements to the value with discriminant 0. -/
theorem C46_write_zero (hc : c.Ok) {s : EV c.W} {l : List α} (h : Is c s l) {j : Nat} (hj : j < (EV.storageRef c s).len)
    {z : α} (hz : c.E.toDiscr z = 0) :
    ∃ s', storageMut c (RVec.setIndex j 0) s = (.ok (), s') ∧ Is c s' (l.mapIdx fun i x => if i / c.epb = j then z else x) := by
  refine C46_write_values hc h hj 0 (by simp) (fun i hi hij => ?_) (fun i hij => ?_)
  · simp [field, hij, hz]
  · rw [List.getElem?_mapIdx]
    simp [hij]

/-- **C46** (resizing the storage). `storage_mut().resize(n, w)`, with any fill, to at least the blocks needed for the elements keeps the
vector as it is; the only other outcome is that memory for more blocks than the capacity is refused, without effect. -/
theorem C46_resize (hc : c.Ok) {s : EV c.W} {l : List α} (h : Is c s l) {n : Nat} (hn : l.length ≤ n * c.epb) (w : BitVec c.W) :
    Runs (storageMut c (RVec.resizeTo c.alloc n w) s) (fun _ s' => Is c s' l ∧ (EV.storageRef c s').len = n)
      (fun e s' => e = .capacity ∧ s' = s ∧ s.storage.cap < n ∧ c.alloc.grow s.storage.cap n = none) := by
  unfold storageMut RVec.resizeTo
  obtain ⟨h1, h2, h3⟩ := (C46_layout hc).mp h
  have h2' : s.num = l.length := h2
  have key : ∀ (d : List (BitVec c.W)) (cap : Nat), d.length = n → n ≤ cap → (cap + 1) * c.epb + 4 < c.build.usizeLim →
      (∀ j, j < s.storage.data.length → j < n → d[j]? = s.storage.data[j]?) → Is c ⟨⟨d, cap⟩, s.num⟩ l := by
    intro d cap hd hcap hb hg
    refine (C46_layout hc).mpr ⟨⟨?_, ?_, hb⟩, h2, fun i hi => ?_⟩
    · show s.num ≤ d.length * c.epb
      rw [hd, h2']; exact hn
    · show d.length ≤ cap
      rw [hd]; exact hcap
    · obtain ⟨w', h4, h5⟩ := h3 i hi
      refine ⟨w', ?_, h5⟩
      show d[i / c.epb]? = some w'
      rw [hg _ ?_ ?_]
      · exact h4
      · exact (List.getElem?_eq_some_iff.mp h4).1
      · exact (Nat.div_lt_iff_lt_mul hc.epb_pos).mpr (by omega)
  unfold RVec.resize RVec.reserve
  have hcl := h1.capLen
  by_cases hle : n ≤ s.storage.len
  · rw [if_pos hle]
    have hle' : n ≤ s.storage.data.length := hle
    refine ⟨key _ _ (by rw [List.length_take]; omega) (by omega) h1.capBound fun j _ hj => List.getElem?_take_of_lt hj, ?_⟩
    show (s.storage.data.take n).length = n
    rw [List.length_take]; omega
  · rw [if_neg hle]
    have hlen : s.storage.len + (n - s.storage.len) = n := by omega
    have hd : (s.storage.data ++ List.replicate (n - s.storage.len) w).length = n := by
      rw [List.length_append, List.length_replicate]; exact hlen
    rw [hlen]
    by_cases hcap : n ≤ s.storage.cap
    · rw [if_pos hcap]
      exact ⟨key _ _ hd hcap h1.capBound fun j hj _ => List.getElem?_append_left hj, hd⟩
    · rw [if_neg hcap]
      cases hg : c.alloc.grow s.storage.cap n with
      | none => exact ⟨rfl, rfl, by omega, rfl⟩
      | some k =>
        exact ⟨key _ _ hd (hc.lawful.grow_ge _ _ _ hg) (hc.bounded.grow _ _ _ hg) fun j hj _ => List.getElem?_append_left hj, hd⟩

/-- **C46** (why `storage_mut` is `unsafe`: "shrinking the storage may lead to reading … uninitialized memory"). Leaving fewer blocks than
the elements need makes reading any element behind them undefined behaviour. -/
theorem C46_shrink_ub (hc : c.Sound) {s : EV c.W} {n : Nat} (hn : n ≤ (EV.storageRef c s).len) (w : BitVec c.W) :
    ∃ s', storageMut c (RVec.resizeTo c.alloc n w) s = (.ok (), s') ∧
      ∀ i, i < EV.len c s → n * c.epb ≤ i → (EV.get c i s').1 = .error .ub := by
  have hn' : n ≤ s.storage.data.length := hn
  refine ⟨{ s with storage := s.storage.truncate n }, ?_, fun i hi hni => ?_⟩
  · unfold storageMut RVec.resizeTo RVec.resize
    rw [if_pos (show n ≤ s.storage.len from hn)]
  · have : rawUnchecked c { s with storage := s.storage.truncate n } i = .error .ub := by
      apply rawUnchecked_ub hc
      show (s.storage.data.take n).length * c.epb ≤ i
      rw [List.length_take, Nat.min_eq_left hn']
      exact hni
    have h1 : getRaw c i { s with storage := s.storage.truncate n } = (.error .ub, { s with storage := s.storage.truncate n }) := by
      unfold getRaw
      rw [M.read_bind, if_neg (show ¬ i ≥ len c { s with storage := s.storage.truncate n } from Nat.not_le.mpr hi)]
      have h2 : getRawUnchecked c i { s with storage := s.storage.truncate n } = (.error .ub, { s with storage := s.storage.truncate n }) :=
        Prod.ext this rfl
      simp only [M.bind_apply, h2]
    unfold EV.get
    simp only [M.bind_apply, h1]

/-! Concrete: the two-block vector of 12 elements of 3 bits (10 per block); block 1 set to 0, block 0 to bits that are all
valid, a third block added, one block removed. -/

example : c8.Ok ∧ Is c8 v12 l12 ∧ 1 < (storageRef c8 v12).len ∧ c8.E.toDiscr 0 = 0 := ⟨c8_ok, v12_is, by decide, by decide⟩
example : Is c8 (storageMut c8 (RVec.setIndex 1 0) v12).2 [1, 2, 3, 4, 5, 6, 7, 0, 1, 2, 0, 0] := by
  obtain ⟨s', h1, h2⟩ := C46_write_zero c8_ok v12_is (j := 1) (by decide) (z := 0) (by decide)
  rw [h1]; exact h2
example : field 3 (0x111f58d1#32) 2 = 3 ∧ field 3 (0x111f58d1#32) 9 = 2 := by decide
example : l12.length ≤ 3 * c8.epb ∧ (storageMut c8 (RVec.resizeTo c8.alloc 3 0xffffffff#32) v12).1 = .ok () := by decide +kernel
example : Safe c8 v12 ∧ 1 ≤ (storageRef c8 v12).len ∧ 11 < EV.len c8 v12 ∧ 1 * c8.epb ≤ 11 := ⟨v12_is.safe, by decide⟩

/-- Bits that are no valid elements (type with 200 variants, 8 bits each): memory-safe, but `get` panics; the other block is untouched. -/
example : ∃ s : EV c200.W, Safe c200 s ∧ (EV.get c200 0 (storageMut c200 (RVec.setIndex 0 0xff#8) s).2).1 = .error .badDiscr ∧
    (EV.get c200 1 (storageMut c200 (RVec.setIndex 0 0xff#8) s).2).1 = .ok (some 5) :=
  ⟨⟨⟨[0x01#8, 0x05#8], 2⟩, 2⟩, ⟨by decide, by decide, by decide⟩, by decide +kernel, by decide +kernel⟩

end EnumVecModel
