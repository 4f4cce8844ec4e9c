import Verif.Lemmas.RawApi
import Verif.Lemmas.Build

/-! # The unsafe raw API (C33, C34) -/

namespace EnumVecModel
open EV

variable {α : Type} {c : Inst α}

/-- A sequence of `set_raw_unchecked(i, d)` calls. -/
def rawWrites (c : Inst α) : List (Nat × Nat) → M (EV c.W) Unit
  | [] => pure ()
  | (i, d) :: ws => do
    setRawUnchecked c i d
    rawWrites c ws

/-- The specification of an array: the last write wins. -/
def lastWrite : List (Nat × Nat) → Nat → Nat → Nat
  | [], _, old => old
  | (i, d) :: ws, k, old => lastWrite ws k (if k = i then d else old)

/-- **C33** (array) Any sequence of `set_raw_unchecked` of numbers below `2^bits` at indices inside the storage is memory-safe and
acts on `get_raw_unchecked` like writes to an array: the last write to an index wins, other indices are untouched. Length
and capacity do not change. -/
theorem C33_raw_array (hc : c.Sound) : ∀ (ws : List (Nat × Nat)) {s : EV c.W}, Safe c s →
    (∀ w ∈ ws, w.1 < s.storage.data.length * c.epb ∧ w.2 < 2 ^ c.bits) →
    ∃ s', rawWrites c ws s = (.ok (), s') ∧ Safe c s' ∧ EV.len c s' = EV.len c s ∧ s'.storage.cap = s.storage.cap ∧
      s'.storage.data.length = s.storage.data.length ∧
      ∀ k old, EV.rawUnchecked c s k = .ok old → EV.rawUnchecked c s' k = .ok (lastWrite ws k old)
  | [], s, h, _ => ⟨s, rfl, h, rfl, rfl, rfl, fun k old hk => hk⟩
  | (i, d) :: ws, s, h, hw => by
    have hi := hw (i, d) (List.mem_cons_self ..)
    have h1 := setRawUnchecked_ok hc s d hi.1
    obtain ⟨s', g1, g2, g3, g4, g5, g6⟩ := C33_raw_array hc ws (putRaw_safe hc h i d)
      (fun w hm => by rw [putRaw_len]; exact hw w (List.mem_cons_of_mem _ hm))
    refine ⟨s', ?_, g2, g3, g4, by rw [g5, putRaw_len], fun k old hk => ?_⟩
    · unfold rawWrites; rw [M.bind_ok h1]; exact g1
    · refine g6 k _ ?_
      rcases Nat.lt_or_ge k (s.storage.data.length * c.epb) with hk' | hk'
      · rw [rawUnchecked_eq hc s hk'] at hk
        rw [rawUnchecked_eq hc _ (by rw [putRaw_len]; exact hk'), raw_putRaw hc s k hi.1 hi.2]
        injection hk with hk
        rw [hk]
      · rw [rawUnchecked_ub hc s hk'] at hk
        cases hk

/-- `reserve(k)`, then `set_raw_unchecked` of the discriminants of `xs` (`k` of them) at the next `k` positions, then
`set_len(len + k)`: how a user of the unsafe API appends values. -/
def rawAppend (c : Inst α) (xs : List α) : M (EV c.W) Unit := do
  let s ← M.read
  reserve c xs.length
  rawWrites c (xs.mapIdx fun i x => (EV.len c s + i, c.E.toDiscr x))
  setLen c (EV.len c s + xs.length)

theorem lastWrite_mapIdx (f : α → Nat) : ∀ (xs : List α) (n k old : Nat),
    lastWrite (xs.mapIdx fun i x => (n + i, f x)) k old =
      if h : n ≤ k ∧ k - n < xs.length then f (xs[k - n]'h.2) else old
  | [], n, k, old => by simp [lastWrite]
  | x :: xs, n, k, old => by
    rw [List.mapIdx_cons]
    unfold lastWrite
    have e : (fun i y => (n + (i + 1), f y)) = fun i y => ((n + 1) + i, f y) := by
      funext i y; congr 1; omega
    rw [e, lastWrite_mapIdx f xs (n + 1) k]
    by_cases h1 : k = n
    · subst h1
      rw [dif_neg (by omega), dif_pos ⟨by omega, by simp⟩]
      simp
    · by_cases h2 : n + 1 ≤ k ∧ k - (n + 1) < xs.length
      · rw [dif_pos h2, dif_pos ⟨by omega, by simp; omega⟩]
        have : k - n = (k - (n + 1)) + 1 := by omega
        simp [this]
      · rw [dif_neg h2, if_neg (by simpa using h1), dif_neg (by simp; omega)]

/-- **C33** The documented use of the raw API is memory-safe and equals pushing the values one by one; the only failure is a refused
allocation, which changes nothing. -/
theorem C33_raw_append (hc : c.Ok) {s : EV c.W} {l : List α} (h : Is c s l) (xs : List α)
    (hw : ¬ c.AtLimit (l.length + xs.length)) :
    Runs (rawAppend c xs s) (fun _ s' => Is c s' (l ++ xs))
      (fun e s' => e = .capacity ∧ s' = s ∧ Refused c ((l.length + xs.length) / c.epb + 1)) := by
  have hh := h.holds hc
  have hl := hh.len_eq
  unfold rawAppend
  rw [M.read_bind]
  refine runs_seq (reserve_holds hc hh hw) ?_ ?_
  · rintro e s' ⟨h1, h2, h3⟩; exact ⟨h1, h2, by rw [hl] at h3; exact h3⟩
  · rintro _ s1 ⟨h1, h2, h3, h4, h5, h6⟩
    have hroom : l.length + xs.length < s1.storage.data.length * c.epb := by
      rw [h3, hl, Nat.add_mul, Nat.one_mul, Nat.mul_comm]
      have := Nat.div_add_mod (l.length + xs.length) c.epb
      have := Nat.mod_lt (l.length + xs.length) hc.epb_pos
      omega
    obtain ⟨s2, g1, g2, g3, g4, g5, g6⟩ := C33_raw_array hc.sound
      (xs.mapIdx fun i x => (EV.len c s + i, c.E.toDiscr x)) h1.toSafe (by
        intro w hw
        rw [List.mem_mapIdx] at hw
        obtain ⟨i, hi, rfl⟩ := hw
        have : EV.len c s = l.length := hl
        exact ⟨by show EV.len c s + i < _; omega, hc.toDiscr_lt _⟩)
    rw [M.bind_ok g1]
    have e : EV.len c s = l.length := hl
    show Is c (⟨s2.storage, EV.len c s + xs.length⟩ : EV c.W) (l ++ xs)
    refine Holds.is hc ⟨⟨?_, g2.capLen, g2.capBound⟩, by simp [e], fun i hi => ?_⟩
    · show EV.len c s + xs.length ≤ s2.storage.data.length * c.epb
      rw [g5]; omega
    · have hi' : i < l.length + xs.length := by simpa using hi
      have k1 := g6 i _ (rawUnchecked_eq hc s1 (by omega))
      rw [lastWrite_mapIdx, rawUnchecked_eq hc s2 (by rw [g5]; omega)] at k1
      have k2 : raw c s2 i = _ := Except.ok.inj k1
      have k3 : raw c (⟨s2.storage, EV.len c s + xs.length⟩ : EV c.W) i = raw c s2 i := raw_congr rfl i
      rw [k3, k2, e]
      by_cases hil : i < l.length
      · rw [dif_neg (by omega), List.getElem_append_left hil, h1.elems i hil]
      · rw [dif_pos ⟨by omega, by omega⟩, List.getElem_append_right (by omega)]

/-- **C34** `set_raw_unchecked(i, d)` with *any* number `d`: element `i` becomes the low bits of `d`; an element behind `i` in the same
block is OR-ed with the bits of `d` that overlap it; every other element, the length and the capacity are unchanged. -/
theorem C34_raw_overflow (hc : c.Sound) {s : EV c.W} (h : Safe c s) {i : Nat} (hi : i < s.storage.data.length * c.epb) (d : Nat) :
    ∃ s', setRawUnchecked c i d s = (.ok (), s') ∧ Safe c s' ∧ EV.len c s' = EV.len c s ∧ s'.storage.cap = s.storage.cap ∧
      ∀ k old, EV.rawUnchecked c s k = .ok old → EV.rawUnchecked c s' k = .ok
        (if k = i then d % 2 ^ c.bits
        else if i < k ∧ k / c.epb = i / c.epb then old ||| (d / 2 ^ (c.bits * (k - i))) % 2 ^ c.bits
        else old) := by
  refine ⟨putRaw c s i d, setRawUnchecked_ok hc s d hi, putRaw_safe hc h i d, rfl, rfl, fun k old hk => ?_⟩
  rcases Nat.lt_or_ge k (s.storage.data.length * c.epb) with hk' | hk'
  · rw [rawUnchecked_eq hc s hk'] at hk
    rw [rawUnchecked_eq hc _ (by rw [putRaw_len]; exact hk'), raw_putRaw_any hc s d k hi, Except.ok.inj hk]
  · rw [rawUnchecked_ub hc s hk'] at hk
    cases hk

/-- **C34** elements before `i` and elements of other blocks are untouched, whatever `d` is. -/
theorem C34_before_untouched (hc : c.Sound) {s : EV c.W} (h : Safe c s) {i : Nat} (hi : i < s.storage.data.length * c.epb) (d : Nat) :
    ∃ s', setRawUnchecked c i d s = (.ok (), s') ∧
      ∀ k, k < i ∨ k / c.epb ≠ i / c.epb → EV.rawUnchecked c s' k = EV.rawUnchecked c s k := by
  obtain ⟨s', h1, h2, h3, h4, h5⟩ := C34_raw_overflow hc h hi d
  refine ⟨s', h1, fun k hk => ?_⟩
  have hlen : s'.storage.data.length = s.storage.data.length := by
    have := setRawUnchecked_ok hc s d hi
    rw [h1] at this
    have e : s' = putRaw c s i d := congrArg Prod.snd this
    rw [e, putRaw_len]
  rcases Nat.lt_or_ge k (s.storage.data.length * c.epb) with hk' | hk'
  · rw [h5 k _ (rawUnchecked_eq hc s hk'), rawUnchecked_eq hc s hk']
    have h6 : k ≠ i := by rintro rfl; rcases hk with hk | hk; exact absurd hk (Nat.lt_irrefl _); exact hk rfl
    rw [if_neg h6, if_neg (by omega)]
  · rw [rawUnchecked_ub hc s hk', rawUnchecked_ub hc s' (by rw [hlen]; exact hk')]

/-- **C34** for the safe method `set` of a type that **breaks the contract** of `EnumLike` (`Inst.Sound` says nothing about `to_discr`,
`from_discr` and the number of variants): inside the bounds the call is memory-safe, and it changes only element `i` and elements
behind it in the same block. -/
theorem C34_set (hc : c.Sound) {s : EV c.W} (h : Safe c s) {i : Nat} (hi : i < EV.len c s) (x : α) :
    ∃ s', EV.set c i x s = (.ok (), s') ∧ Safe c s' ∧ EV.len c s' = EV.len c s ∧
      EV.rawUnchecked c s' i = .ok (c.E.toDiscr x % 2 ^ c.bits) ∧
      ∀ k, k < i ∨ i < k ∧ k / c.epb ≠ i / c.epb → EV.rawUnchecked c s' k = EV.rawUnchecked c s k := by
  have hi' : i < s.storage.data.length * c.epb := Nat.lt_of_lt_of_le hi h.cover
  obtain ⟨s', g1, g2, g3, _, g5⟩ := C34_raw_overflow hc h hi' (c.E.toDiscr x)
  obtain ⟨s'', k1, k2⟩ := C34_before_untouched hc h hi' (c.E.toDiscr x)
  have e : s'' = s' := by rw [g1] at k1; exact (congrArg Prod.snd k1).symm
  subst e
  refine ⟨s'', ?_, g2, g3, ?_, fun k hk => ?_⟩
  · unfold EV.set setRaw
    rw [M.read_bind, if_neg (by omega)]
    exact g1
  · have := g5 i _ (rawUnchecked_eq hc s hi')
    rw [if_pos rfl] at this
    exact this
  · exact k2 k (by
      rcases hk with hk | hk
      · exact Or.inl hk
      · exact Or.inr hk.2)

/-! Concrete: raw append of 9 values over a block border; a too large discriminant at index 3 of `[1, 2, 3, …]`. -/

/-- An enum that breaks the contract: one of its 8 "values" has discriminant 77. -/
def badLike : EnumLike (Fin 9) := ⟨8, fun i => if i = 8 then 77 else i.val, fun x => if h : x < 9 then some ⟨x, h⟩ else none⟩

example : ¬ badLike.Contract ∧ (⟨32, badLike, debug64, false, stdAlloc 0 32⟩ : Inst (Fin 9)).Sound ∧
    Safe (⟨32, badLike, debug64, false, stdAlloc 0 32⟩ : Inst (Fin 9)) v12 :=
  ⟨fun h => absurd (h.lt 8) (by decide), ⟨⟨by simp, by decide, fun _ => by decide⟩, stdAlloc_lawful _ _ _,
    stdAlloc_bounded (b := debug64) (W := 32) (by decide) (by decide), False.elim, False.elim⟩, ⟨by decide, by decide, by decide⟩⟩

example : Is c8 v12 l12 ∧ (rawAppend c8 [1, 2, 3, 4, 5, 6, 7, 0, 1] v12).1 = .ok () := ⟨v12_is, by decide +kernel⟩
example : Safe c8 v12 ∧ 3 < v12.storage.data.length * c8.epb ∧ ¬ 77 < 2 ^ c8.bits ∧
    (setRawUnchecked c8 3 77 v12).2 = ⟨⟨[0x111fdad1#32, 0x00000023#32], 2⟩, 12⟩ :=
  ⟨v12_is.safe, by decide, by decide, rfl⟩

end EnumVecModel
