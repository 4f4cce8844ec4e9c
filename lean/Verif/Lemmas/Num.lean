import Verif.NumSpec
import Verif.Props.Exact
import Verif.Props.Elements
import Verif.Lemmas.Ub

set_option linter.unusedSectionVars false

/-! # The instance of all numbers that fit in an element (for C63)

`c.nums` differs from `c` in the implementation of `EnumLike` only: its values are the numbers below `2 ^ bits`. It obeys the contract of
`EnumLike` whether or not `c` does, and a vector of `c` with arbitrary contents is a vector of `c.nums`. -/

namespace EnumVecModel
open EV

variable {α τ : Type}

/-- All numbers of `b` bits. -/
def bitsLike (b : Nat) : EnumLike (Fin (2 ^ b)) where
  num := 2 ^ b
  toDiscr i := i.val
  fromDiscr d := if h : d < 2 ^ b then some ⟨d, h⟩ else none

@[reducible] def Inst.nums (c : Inst α) : Inst (Fin (2 ^ c.bits)) := ⟨c.W, bitsLike c.bits, c.build, c.small, c.alloc⟩

theorem bitsSum_pow (b : Nat) : ∀ k, ((List.range k).map fun i => if 2 ^ b > 2 ^ i then 1 else 0).sum = min b k
  | 0 => by simp
  | k + 1 => by
    rw [List.range_succ, List.map_append, List.sum_append, bitsSum_pow b k]
    have h : (2 ^ b > 2 ^ k) ↔ k < b := Nat.pow_lt_pow_iff_right (by decide)
    simp only [List.map_cons, List.map_nil, List.sum_cons, List.sum_nil]
    by_cases hk : k < b
    · rw [if_pos (h.mpr hk)]; omega
    · rw [if_neg (fun g => hk (h.mp g))]; omega

theorem bits_le_32 (N : Nat) : bitsPerElem N ≤ 32 := (bitsSum N 32).1

theorem nums_bits (c : Inst α) : c.nums.bits = c.bits := by
  show bitsPerElem (2 ^ c.bits) = c.bits
  unfold bitsPerElem
  rw [bitsSum_pow]
  exact Nat.min_eq_left (bits_le_32 _)

theorem nums_epb (c : Inst α) : c.nums.epb = c.epb := by unfold Inst.epb; rw [nums_bits]

theorem nums_mask (c : Inst α) : c.nums.mask = c.mask := by unfold Inst.mask; rw [nums_bits]

theorem nums_ok {c : Inst α} (hc : c.Sound) : c.nums.Ok where
  compiles := ⟨hc.compiles.1, Nat.one_lt_two_pow (Nat.pos_iff_ne_zero.mp hc.bits_pos), fun _ => Nat.pow_le_pow_right (by decide) hc.bits_le⟩
  lawful := hc.lawful
  bounded := by rw [nums_epb]; exact hc.bounded
  few _ := Nat.pow_le_pow_right (by decide) (bits_le_32 _)
  contract _ := ⟨fun a => a.isLt, fun a => by simp [bitsLike]⟩

/-- `rfl`, if something is left to prove. -/
local macro "rfl'" : tactic => `(tactic| first | done | rfl)

section
variable (c : Inst α)

theorem nums_blockIndex : blockIndex c.nums = blockIndex c := by
  funext i; simp only [blockIndex, nums_epb, nums_bits]

theorem nums_blocksForElements : blocksForElements c.nums = blocksForElements c := by
  funext i; simp only [blocksForElements, nums_epb]

theorem nums_rawUnchecked : rawUnchecked c.nums = rawUnchecked c := by
  funext s i; unfold rawUnchecked; rw [nums_blockIndex, nums_mask]
  cases s.storage.data[(blockIndex c i).1]? <;> rfl

theorem nums_getRawUnchecked : getRawUnchecked c.nums = getRawUnchecked c := by
  funext i; unfold getRawUnchecked; rw [nums_rawUnchecked]

theorem nums_setRawUnchecked : setRawUnchecked c.nums = setRawUnchecked c := by
  funext i d s; unfold setRawUnchecked; rw [nums_blockIndex, nums_mask]
  cases s.storage.data[(blockIndex c i).1]? <;> rfl

theorem nums_getRaw : getRaw c.nums = getRaw c := by
  funext i; unfold getRaw; rw [nums_getRawUnchecked]; rfl'

theorem nums_setRaw : setRaw c.nums = setRaw c := by
  funext i d; unfold setRaw; rw [nums_setRawUnchecked]; rfl'

theorem nums_atLimit : c.nums.AtLimit = c.AtLimit := by
  funext n; unfold Inst.AtLimit; rw [nums_epb]

theorem nums_reserve : reserve c.nums = reserve c := by
  funext k s; unfold reserve; rw [nums_epb]
  show (if s.num + k < c.build.usizeLim then _ else _) = if s.num + k < c.build.usizeLim then _ else _
  by_cases h : s.num + k < c.build.usizeLim
  · rw [if_pos h, if_pos h]
    dsimp only [len]
    show (match uAdd c.build ((s.num + k) / c.epb) 1 with | .error e => _ | .ok n => _) = match uAdd c.build ((s.num + k) / c.epb) 1 with | .error e => _ | .ok n => _
    cases uAdd c.build ((s.num + k) / c.epb) 1 with
    | error e => rfl
    | ok n =>
      dsimp only
      cases RVec.resize c.alloc s.storage n 0 <;> rfl
  · rw [if_neg h, if_neg h]

theorem nums_fixStorage : fixStorage c.nums = fixStorage c := by
  funext s; unfold fixStorage; rw [nums_blocksForElements]; rfl'

theorem nums_shrinkToFit : shrinkToFit c.nums = shrinkToFit c := by
  unfold shrinkToFit; rw [nums_fixStorage]; rfl'

theorem nums_growIfNeeded : growIfNeeded c.nums = growIfNeeded c := by
  funext s; unfold growIfNeeded; rw [nums_blocksForElements, nums_epb]
  show (if s.num % c.epb = 0 ∧ blocksForElements c s.num = s.storage.len then _ else _) =
    if s.num % c.epb = 0 ∧ blocksForElements c s.num = s.storage.len then _ else _
  by_cases h : s.num % c.epb = 0 ∧ blocksForElements c s.num = s.storage.len
  · rw [if_pos h, if_pos h]
    dsimp only
    cases RVec.push c.alloc s.storage 0 <;> rfl
  · rw [if_neg h, if_neg h]

theorem nums_withCapacity : withCapacity c.nums = withCapacity c := by
  funext n; unfold withCapacity; rw [nums_blocksForElements]
  dsimp only
  cases RVec.withCapacity c.alloc (blocksForElements c n) <;> rfl

theorem nums_capacity : capacity c.nums = capacity c := by
  funext n; unfold capacity; rw [nums_epb]; rfl'

theorem nums_swap : swap c.nums = swap c := by
  funext i j; unfold swap; rw [nums_getRaw, nums_setRaw]; rfl'

theorem nums_shiftUp : shiftUp c.nums = shiftUp c := by
  funext b z; unfold shiftUp; rw [nums_bits, nums_epb, nums_mask]
  dsimp only
  cases blkShl c.build.checked b c.bits <;> rfl

theorem nums_shiftDown : shiftDown c.nums = shiftDown c := by
  funext b z; unfold shiftDown; rw [nums_bits, nums_epb, nums_mask]
  dsimp only
  cases blkShr c.build.checked b c.bits <;> rfl

theorem nums_block : block c.nums = block c := by
  funext i s; unfold block; cases s.storage.data[i]? <;> rfl

theorem nums_setBlock : setBlock c.nums = setBlock c := rfl

theorem nums_insertSlowStep : insertSlowStep c.nums = insertSlowStep c := by
  funext i p; unfold insertSlowStep; rw [nums_getRawUnchecked, nums_setRawUnchecked]; rfl'

theorem nums_insertFastStep : insertFastStep c.nums = insertFastStep c := by
  funext i p; unfold insertFastStep; rw [nums_shiftUp, nums_block, nums_setBlock]; rfl'

theorem nums_removeSlowStep : removeSlowStep c.nums = removeSlowStep c := by
  funext i p; unfold removeSlowStep; rw [nums_getRawUnchecked, nums_setRawUnchecked]; rfl'

theorem nums_removeFastStep : removeFastStep c.nums = removeFastStep c := by
  funext i p; unfold removeFastStep; rw [nums_shiftDown, nums_block, nums_setBlock]; rfl'

theorem nums_append : append c.nums = append c := by
  have h : appendStep c.nums = appendStep c := by
    funext i j u; unfold appendStep; rw [nums_getRawUnchecked, nums_setRawUnchecked]; rfl'
  have h2 : appendStorage c.nums = appendStorage c := by
    funext p; unfold appendStorage
    dsimp only
    cases RVec.extendFromSlice c.alloc p.1.storage p.2.storage.data <;> rfl
  unfold append; rw [nums_fixStorage, nums_reserve, h, h2, nums_epb]; rfl'

theorem nums_splitOff : splitOff c.nums = splitOff c := by
  have h : splitOffStep c.nums = splitOffStep c := by
    funext i j u; unfold splitOffStep; rw [nums_getRawUnchecked, nums_setRawUnchecked]; rfl'
  funext i s; unfold splitOff; rw [nums_withCapacity, h]
  show (if i ≤ s.num then _ else _) = if i ≤ s.num then _ else _
  by_cases hi : i ≤ s.num
  · rw [if_pos hi, if_pos hi]
    dsimp only [len]
    rcases withCapacity c (s.num - i) with _ | o
    · rfl
    · dsimp only
      rcases EnumVecModel.loop (splitOffStep c i) (s.num - i) 0 () (s, { o with num := s.num - i }) with ⟨_ | _, _, _⟩ <;> rfl
  · rw [if_neg hi, if_neg hi]

theorem nums_eqLoop (a b : EV c.W) : ∀ n i, eqLoop c.nums a b n i = eqLoop c a b n i
  | 0, _ => rfl
  | n + 1, i => by unfold eqLoop; rw [nums_rawUnchecked, nums_eqLoop a b n]; rfl'

theorem nums_eq : EV.eq c.nums = EV.eq c := by
  funext a b; unfold EV.eq; rw [nums_eqLoop]; rfl'

theorem nums_hashLoop (a : EV c.W) : ∀ n i, hashLoop c.nums a n i = hashLoop c a n i
  | 0, _ => rfl
  | n + 1, i => by unfold hashLoop; rw [nums_rawUnchecked, nums_hashLoop a n]; rfl'

theorem nums_hash : EV.hash c.nums = EV.hash c := by
  funext a; unfold EV.hash; rw [nums_hashLoop]; rfl'

end

section
variable {c : Inst α} (x : α) (e : Fin (2 ^ c.bits)) (he : e.val = c.E.toDiscr x)
include he

theorem nums_set (i : Nat) : EV.set c.nums i e = EV.set c i x := by
  unfold EV.set; rw [nums_setRaw]; show setRaw c i e.val = _; rw [he]

theorem nums_push : push c.nums e = push c x := by
  unfold push
  rw [nums_growIfNeeded]
  simp only [nums_set x e he]
  rfl'

theorem nums_insert (i : Nat) : EV.insert c.nums i e = EV.insert c i x := by
  unfold EV.insert
  rw [nums_push x e he, nums_insertSlowStep, nums_insertFastStep, nums_epb, nums_blockIndex]
  rw [show c.nums.E.toDiscr e = c.E.toDiscr x from he]
  rfl'

theorem nums_any : EV.any c.nums e = EV.any c x := by
  have h1 : oneMask c.nums = oneMask c := by unfold oneMask; rw [nums_bits, nums_mask]
  have h2 : highMask c.nums = highMask c := by unfold highMask; rw [nums_bits, h1]
  have h3 : hasZero c.nums = hasZero c := by funext v; unfold hasZero; rw [h1, h2]
  have h4 : ∀ m n i, anyBlocks c.nums m n i = anyBlocks c m n i := by
    intro m n
    induction n with
    | zero => exact fun _ => rfl
    | succ n ih => intro i; unfold anyBlocks; rw [h3, nums_block]; simp only [ih]; rfl'
  unfold EV.any
  simp only [h4]
  rw [h1, h3, nums_blockIndex, nums_block]
  rw [show c.nums.E.toDiscr e = c.E.toDiscr x from he]
  rfl'

theorem nums_all : EV.all c.nums e = EV.all c x := by
  have h1 : oneMask c.nums = oneMask c := by unfold oneMask; rw [nums_bits, nums_mask]
  have h4 : ∀ v m n i, allBlocks c.nums v m n i = allBlocks c v m n i := by
    intro v m n
    induction n with
    | zero => exact fun _ => rfl
    | succ n ih => intro i; unfold allBlocks; rw [nums_block]; simp only [ih]; rfl'
  unfold EV.all
  simp only [h4]
  rw [h1, nums_blockIndex, nums_bits, nums_block]
  rw [show c.nums.E.toDiscr e = c.E.toDiscr x from he]
  rfl'

end

/-- `to_discr`, with room in an element. -/
def Inst.enc (c : Inst α) (hr : ∀ x, c.E.toDiscr x < 2 ^ c.bits) (x : α) : Fin (2 ^ c.bits) := ⟨c.E.toDiscr x, hr x⟩

section
variable {c : Inst α} (hr : ∀ x, c.E.toDiscr x < 2 ^ c.bits)

theorem nums_extendHinted (p : Bool) : ∀ (n pos : Nat) (items : List α) (s : EV c.W),
    extendHinted c.nums p n pos (items.map (c.enc hr)) s =
      ((extendHinted c p n pos items s).1.map (List.map (c.enc hr)), (extendHinted c p n pos items s).2)
  | 0, _, _, _ => rfl
  | n + 1, pos, [], s => by cases p <;> rfl
  | n + 1, pos, x :: items, s => by
    show (EV.set c.nums pos (c.enc hr x) >>= fun _ => extendHinted c.nums p n (pos + 1) (items.map (c.enc hr))) s =
      (((EV.set c pos x >>= fun _ => extendHinted c p n (pos + 1) items) s).1.map (List.map (c.enc hr)),
        ((EV.set c pos x >>= fun _ => extendHinted c p n (pos + 1) items) s).2)
    rw [nums_set x (c.enc hr x) rfl]
    rcases hx : EV.set c pos x s with ⟨e | b, s'⟩
    · rw [M.bind_error hx, M.bind_error hx]; rfl
    · rw [M.bind_ok hx, M.bind_ok hx]
      exact nums_extendHinted p n (pos + 1) items s'

theorem nums_extendRest (p : Bool) : ∀ (items : List α), extendRest c.nums p (items.map (c.enc hr)) = extendRest c p items
  | [] => rfl
  | x :: items => by
    show (push c.nums (c.enc hr x) >>= fun _ => extendRest c.nums p (items.map (c.enc hr))) = _
    rw [nums_push x (c.enc hr x) rfl, nums_extendRest p items]
    rfl

/-- The same iterator, of numbers. -/
def Inst.encSrc (it : Src α) : Src (Fin (2 ^ c.bits)) := ⟨it.hint, it.items.map (c.enc hr), it.panics⟩

theorem nums_extend (it : Src α) : extend c.nums (Inst.encSrc hr it) = extend c it := by
  funext s
  show (do
    let s ← M.read
    reserve c.nums it.hint
    let s' ← M.read
    let n ← M.lift (uAdd c.build s'.num it.hint)
    M.write { s' with num := n }
    let rest ← extendHinted c.nums it.panics it.hint s.num (it.items.map (c.enc hr))
    extendRest c.nums it.panics rest : M (EV c.W) Unit) s = (do
    let s ← M.read
    reserve c it.hint
    let s' ← M.read
    let n ← M.lift (uAdd c.build s'.num it.hint)
    M.write { s' with num := n }
    let rest ← extendHinted c it.panics it.hint s.num it.items
    extendRest c it.panics rest : M (EV c.W) Unit) s
  rw [nums_reserve, M.read_bind, M.read_bind, M.bind_apply, M.bind_apply]
  rcases reserve c it.hint s with ⟨e | b, s1⟩
  · rfl
  · show (M.lift (uAdd c.build s1.num it.hint) >>= _) s1 = (M.lift (uAdd c.build s1.num it.hint) >>= _) s1
    rw [M.bind_apply, M.bind_apply]
    rcases uAdd c.build s1.num it.hint with e | n
    · rfl
    · show (extendHinted c.nums it.panics it.hint s.num (it.items.map (c.enc hr)) >>= _) { s1 with num := n } =
        (extendHinted c it.panics it.hint s.num it.items >>= _) { s1 with num := n }
      rw [M.bind_apply, M.bind_apply, nums_extendHinted]
      rcases extendHinted c it.panics it.hint s.num it.items { s1 with num := n } with ⟨e | rest, s2⟩
      · rfl
      · show extendRest c.nums it.panics (rest.map (c.enc hr)) s2 = extendRest c it.panics rest s2
        rw [nums_extendRest]

theorem nums_extendRepeat (x : α) (n : Nat) : extend c.nums (repeatTake (c.enc hr x) n) = extend c (repeatTake x n) := by
  rw [← nums_extend hr]
  unfold repeatTake Inst.encSrc
  rw [List.map_replicate]

theorem nums_extendWithValue (x : α) (n : Nat) : extendWithValue c.nums (c.enc hr x) n = extendWithValue c x n := by
  have hf : ∀ k (v : BitVec c.W), fillStep c.nums k v = fillStep c k v := by
    intro k v; funext i u s; unfold fillStep
    dsimp only
    cases RVec.resize c.alloc s.storage (s.storage.len + k) v <;> rfl
  unfold extendWithValue
  simp only [nums_extendRepeat hr, hf]
  rw [nums_epb, nums_bits, nums_fixStorage]
  rfl'

theorem nums_resize (n : Nat) (x : α) : resize c.nums n (c.enc hr x) = resize c n x := by
  unfold resize
  simp only [nums_extendWithValue hr]
  rfl'

theorem nums_build (s : EV c.W) (m : M (EV c.W) Unit) : EV.build c.nums s m = EV.build c s m := by
  unfold EV.build; rcases m s with ⟨_ | _, _⟩ <;> rfl

theorem nums_fromElem (x : α) (n : Nat) : fromElem c.nums (c.enc hr x) n = fromElem c x n := by
  unfold fromElem; rw [nums_extendWithValue hr, nums_build]; rfl'

theorem nums_fromIter (it : Src α) : fromIter c.nums (Inst.encSrc hr it) = fromIter c it := by
  unfold fromIter; rw [nums_extend hr, nums_build]; rfl'

theorem nums_fromVec (xs : List α) : fromVec c.nums (xs.map (c.enc hr)) = fromVec c xs := by
  unfold fromVec
  rw [← nums_fromIter hr]
  unfold Inst.encSrc
  rw [List.length_map]

theorem nums_fromSlice (xs : List α) : fromSlice c.nums (xs.map (c.enc hr)) = fromSlice c xs := nums_fromVec hr xs

theorem nums_clone (s : EV c.W) : clone c.nums s = clone c s := by
  unfold clone; cases s.storage.clone c.alloc <;> rfl

/-! ## Reading -/

/-- A number in the storage is a value of `c.nums`. -/
theorem raw_ok_lt {s : EV c.W} {i d : Nat} (h : rawUnchecked c s i = .ok d) : d < 2 ^ c.bits := by
  unfold rawUnchecked at h
  split at h
  · injection h with h
    subst h
    rw [BitVec.toNat_and]
    refine Nat.lt_of_le_of_lt Nat.and_le_right ?_
    unfold Inst.mask
    rw [BitVec.toNat_ofNat]
    have := Nat.two_pow_pos c.bits
    exact Nat.lt_of_le_of_lt (Nat.mod_le _ _) (by omega)
  · cases h

end

/-! ## Vectors of numbers -/

section
variable {c : Inst α} (hc : c.Sound)
include hc

theorem IsNums.is {s : EV c.W} {l : List (Fin (2 ^ c.bits))} (h : IsNums c s (l.map Fin.val)) : Is c.nums s l := by
  refine Holds.is (nums_ok hc) ⟨⟨?_, h.safe.capLen, ?_⟩, ?_, fun i hi => ?_⟩
  · rw [nums_epb]; exact h.safe.cover
  · rw [nums_epb]; exact h.safe.capBound
  · have := h.len; rw [List.length_map] at this; exact this
  · have h1 := h.at_ i (l[i]).val (by rw [List.getElem?_map, List.getElem?_eq_getElem hi]; rfl)
    have h2 : i < s.num := by have := h.len; rw [List.length_map] at this; rw [show s.num = l.length from this]; exact hi
    rw [← nums_rawUnchecked, rawUnchecked_eq (nums_ok hc) s (by rw [nums_epb]; exact Nat.lt_of_lt_of_le h2 h.safe.cover)] at h1
    exact Except.ok.inj h1

theorem Is.isNums {s : EV c.W} {l : List (Fin (2 ^ c.bits))} (h : Is c.nums s l) : IsNums c s (l.map Fin.val) := by
  refine ⟨⟨?_, h.safe.capLen, ?_⟩, ?_, fun i d hd => ?_⟩
  · have := h.safe.cover; rw [nums_epb] at this; exact this
  · have := h.safe.capBound; rw [nums_epb] at this; exact this
  · rw [List.length_map]; exact h.shows.1
  · rw [List.getElem?_map] at hd
    rcases hx : l[i]? with _ | x <;> rw [hx] at hd
    · cases hd
    · obtain ⟨hi, rfl⟩ := List.getElem?_eq_some_iff.mp hx
      cases hd
      have := h.discr i hi
      rw [nums_rawUnchecked] at this
      exact this

theorem isNums_iff {s : EV c.W} {l : List (Fin (2 ^ c.bits))} : IsNums c s (l.map Fin.val) ↔ Is c.nums s l :=
  ⟨IsNums.is hc, Is.isNums hc⟩

omit hc in
theorem IsNums.lt {s : EV c.W} {ds : List Nat} (h : IsNums c s ds) : ∀ d ∈ ds, d < 2 ^ c.bits := by
  intro d hd
  obtain ⟨i, hi⟩ := List.mem_iff_getElem?.mp hd
  exact raw_ok_lt (h.at_ i d hi)

omit hc in
/-- The numbers are values of `c.nums`. -/
theorem IsNums.exists {s : EV c.W} {ds : List Nat} (h : IsNums c s ds) : ∃ l : List (Fin (2 ^ c.bits)), ds = l.map Fin.val :=
  ⟨ds.attach.map fun d => ⟨d.1, h.lt d.1 d.2⟩, by rw [List.map_map]; exact (List.attach_map_subtype_val ds).symm⟩

theorem IsNums.get {s : EV c.W} {ds : List Nat} (h : IsNums c s ds) (i : Nat) :
    EV.get c i s = match ds[i]? with
      | none => (.ok none, s)
      | some d =>
        match c.E.fromDiscr d with
        | some x => (.ok (some x), s)
        | none => (.error .badDiscr, s) := by
  unfold EV.get
  rw [M.bind_ok (getRaw_safe hc h.safe i)]
  rcases hx : ds[i]? with _ | d
  · have : ¬ i < s.num := by
      have h1 := List.getElem?_eq_none_iff.mp hx
      have h2 : s.num = ds.length := h.len
      omega
    rw [if_neg this]; rfl
  · have h1 := h.at_ i d hx
    have h3 : i < s.num := by
      obtain ⟨hi, -⟩ := List.getElem?_eq_some_iff.mp hx
      rw [show s.num = ds.length from h.len]; exact hi
    rw [rawUnchecked_eq hc s (Nat.lt_of_lt_of_le h3 h.safe.cover)] at h1
    rw [if_pos h3, Except.ok.inj h1]
    show (fromDiscr c d >>= fun a => pure (some a) : M (EV c.W) (Option α)) s = _
    dsimp only
    unfold fromDiscr
    rcases c.E.fromDiscr d with _ | x <;> rfl

theorem IsNums.set {s : EV c.W} {ds : List Nat} (h : IsNums c s ds) (hr : ∀ x, c.E.toDiscr x < 2 ^ c.bits) {i : Nat} (hi : i < ds.length) (x : α) :
    ∃ s', EV.set c i x s = (.ok (), s') ∧ IsNums c s' (ds.set i (c.E.toDiscr x)) := by
  obtain ⟨l, rfl⟩ := h.exists
  rw [List.length_map] at hi
  obtain ⟨s', h1, h2⟩ := C03_set (nums_ok hc) (h.is hc) hi (c.enc hr x)
  rw [nums_set x (c.enc hr x) rfl] at h1
  have := Is.isNums hc h2
  rw [List.map_set] at this
  exact ⟨s', h1, this⟩

/-- Reading a number that is there. -/
theorem IsNums.get_some {s : EV c.W} {ds : List Nat} (h : IsNums c s ds) {i d : Nat} (hd : ds[i]? = some d) :
    EV.get c i s = match c.E.fromDiscr d with
      | some x => (.ok (some x), s)
      | none => (.error .badDiscr, s) := by
  rw [h.get hc, hd]

theorem IsNums.pop {s : EV c.W} {ds : List Nat} (h : IsNums c s ds) :
    pop c s = match ds.getLast? with
      | none => (.ok none, s)
      | some d =>
        match c.E.fromDiscr d with
        | some x => (.ok (some x), { s with num := s.num - 1 })
        | none => (.error .badDiscr, s) := by
  have hl : s.num = ds.length := h.len
  unfold EV.pop
  rw [M.read_bind]
  cases hds : ds.getLast? with
  | none =>
    have : ds = [] := List.getLast?_eq_none_iff.mp hds
    subst this
    have : isEmpty c s = true := by unfold isEmpty; rw [h.len]; rfl
    rw [this]; rfl
  | some d =>
    have hne : s.num ≠ 0 := by rw [hl]; intro h0; rw [List.length_eq_zero_iff.mp h0] at hds; cases hds
    have : isEmpty c s = false := by
      unfold isEmpty
      exact beq_eq_false_iff_ne.mpr hne
    rw [this]
    have hd : ds[s.num - 1]? = some d := by rw [hl, ← List.getLast?_eq_getElem?]; exact hds
    have hg := h.get_some hc hd
    show (EV.get c (s.num - 1) >>= _) s = _
    dsimp only
    rcases hx : c.E.fromDiscr d with _ | x <;> rw [hx] at hg
    · rw [M.bind_error hg]
    · rw [M.bind_ok hg]; rfl

omit hc in
theorem IsNums.unique {s : EV c.W} {ds ds' : List Nat} (h : IsNums c s ds) (h' : IsNums c s ds') : ds = ds' := by
  refine List.ext_getElem (h.len.symm.trans h'.len) fun i h1 h2 => ?_
  have e1 := h.at_ i _ (List.getElem?_eq_getElem h1)
  have e2 := h'.at_ i _ (List.getElem?_eq_getElem h2)
  rw [e1] at e2
  exact Except.ok.inj e2

/-- `remove` of a number that can be read: as for numbers. -/
theorem nums_remove {s : EV c.W} {ds : List Nat} (h : IsNums c s ds) {i d : Nat} {x : α} (hd : ds[i]? = some d) (hx : c.E.fromDiscr d = some x) :
    EV.remove c i s = ((EV.remove c.nums i s).1.map fun _ => x, (EV.remove c.nums i s).2) := by
  have h1 : EV.get c i s = (.ok (some x), s) := by rw [h.get_some hc hd, hx]
  have h2 : EV.get c.nums i s = (.ok (some ⟨d, h.lt d (List.mem_of_getElem? hd)⟩), s) := by
    obtain ⟨l, rfl⟩ := h.exists
    rw [(h.is hc).shows.2 i]
    rw [List.getElem?_map] at hd
    rcases hy : l[i]? with _ | y <;> rw [hy] at hd
    · cases hd
    · cases hd; rfl
  unfold EV.remove
  rw [M.bind_ok h1, M.bind_ok h2, M.unwrap_some_bind, M.unwrap_some_bind, M.read_bind, M.read_bind, nums_epb, nums_blockIndex,
    nums_removeSlowStep, nums_getRawUnchecked, nums_removeFastStep]
  dsimp only [len]
  rw [M.bind_apply, M.bind_apply]
  rw [M.lift_apply]
  rcases uMul c.build (1 + (blockIndex c i).1) c.epb with e | b
  · rfl
  · dsimp only
    rw [M.bind_apply, M.bind_apply]
    rcases EnumVecModel.loop (removeSlowStep c) (min (s.num - 1) b - i) i () s with ⟨e | u, s1⟩
    · rfl
    · dsimp only
      rw [M.read_bind, M.read_bind, M.bind_apply, M.bind_apply]
      rcases getRawUnchecked c (s1.num - 1) s1 with ⟨e | p, s2⟩
      · rfl
      · dsimp only
        rw [M.read_bind, M.read_bind, M.write_bind, M.write_bind, M.read_bind, M.read_bind]
        show (if max i (min (s.num - 1) b) < s2.num - 1 then _ else _ : M (EV c.W) α) { s2 with num := s2.num - 1 } =
          (Except.map _ ((if max i (min (s.num - 1) b) < s2.num - 1 then _ else _ : M (EV c.W) (Fin (2 ^ c.bits))) { s2 with num := s2.num - 1 }).1,
          ((if max i (min (s.num - 1) b) < s2.num - 1 then _ else _ : M (EV c.W) (Fin (2 ^ c.bits))) { s2 with num := s2.num - 1 }).2)
        by_cases hlt : max i (min (s.num - 1) b) < s2.num - 1
        · rw [if_pos hlt, if_pos hlt]
          rw [M.bind_apply, M.bind_apply]
          rcases EnumVecModel.loop (fun k prev => removeFastStep c ((blockIndex c (s2.num - 1 - 1)).1 - k) prev)
            ((blockIndex c (s2.num - 1 - 1)).1 + 1 - (blockIndex c (max i (min (s.num - 1) b))).1) 0 (BitVec.ofNat c.W p)
            { s2 with num := s2.num - 1 } with ⟨e | q, s3⟩ <;> rfl
        · rw [if_neg hlt, if_neg hlt]; rfl

/-- What `remove` returns, if it returns. -/
theorem nums_remove_val {s : EV c.W} {ds : List Nat} (h : IsNums c s ds) {i d : Nat} (hd : ds[i]? = some d) {z : Fin (2 ^ c.bits)}
    (hz : (EV.remove c.nums i s).1 = .ok z) : z.val = d := by
  have h' : IsNums c.nums s ds := by
    refine ⟨⟨?_, h.safe.capLen, ?_⟩, h.len, ?_⟩
    · rw [nums_epb]; exact h.safe.cover
    · rw [nums_epb]; exact h.safe.capBound
    · rw [nums_rawUnchecked]; exact h.at_
  have hlt := h.lt d (List.mem_of_getElem? hd)
  rw [nums_remove (nums_ok hc).sound h' hd (x := ⟨d, hlt⟩) (by simp [bitsLike, hlt])] at hz
  revert hz
  cases (EV.remove c.nums.nums i s).1 with
  | error e => exact nofun
  | ok b => intro hz; cases hz; rfl

end

end EnumVecModel
