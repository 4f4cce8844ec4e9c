import Verif.Lemmas.Realloc
import Verif.Props.Bulk

/-! # Capacity, allocation and element width (C25, C26, C27, C30, C32) -/

namespace EnumVecModel
open EV

variable {α : Type} {c : Inst α}

/-! ## C25 -/

/-- **C25** `reserve(k)` does not change the elements and gives room for `k` more, or fails and changes nothing. (At the limit of `usize` see C66.) -/
theorem C25_reserve (hc : c.Ok) {s : EV c.W} {l : List α} (h : Is c s l) (k : Nat)
    (hw : ¬ c.AtLimit (l.length + k)) :
    Runs (reserve c k s)
      (fun _ s' => Is c s' l ∧ l.length + k ≤ capacity c s' ∧ capacity c s ≤ capacity c s')
      (fun e s' => e = .capacity ∧ s' = s ∧ Refused c ((l.length + k) / c.epb + 1)) := by
  have hh := h.holds hc
  have hl := hh.len_eq
  refine (reserve_holds hc hh hw).mono ?_ ?_
  · rintro _ s' ⟨h1, h2, h3, h4, h5, h6⟩
    have hlt : l.length + k < capacity c s' := by
      rw [lt_capacity_iff hc h1.toSafe]
      have := h1.capLen
      rw [h3, hl] at this
      exact this
    refine ⟨h1.is hc, Nat.le_of_lt hlt, ?_⟩
    rw [capacity_eq hc h.safe, capacity_eq hc h1.toSafe]
    exact Nat.mul_le_mul_right _ h5
  · rintro e s' ⟨h1, h2, h3⟩
    exact ⟨h1, h2, by rw [hl] at h3; exact h3⟩

/-- **C25** `with_capacity(n)` is empty and has capacity at least `n`, or fails for lack of memory. -/
theorem C25_with_capacity (hc : c.Ok) (n : Nat) :
    Res (withCapacity c n) (fun s => Is c s [] ∧ n ≤ capacity c s)
      (fun e => e = .capacity ∧ ∃ k, k ≤ c.blocks n ∧ c.alloc.exact k = none) := by
  refine (withCapacity_holds hc n).mono ?_ (fun _ h => h)
  rintro s ⟨h1, _, h3⟩
  exact ⟨h1.is hc, by rw [capacity_eq hc h1.toSafe]; exact h3⟩

/-- **C25** `shrink_to_fit()` never fails, does not change the elements, and leaves storage of exactly
⌈len / elements per block⌉ blocks, with a capacity that is not larger than before and still enough. -/
theorem C25_shrink_to_fit (hc : c.Ok) {s : EV c.W} {l : List α} (h : Is c s l) :
    ∃ s', shrinkToFit c s = (.ok (), s') ∧ Is c s' l ∧ s'.storage.data.length = (l.length + c.epb - 1) / c.epb ∧
      capacity c s' ≤ capacity c s ∧ l.length ≤ capacity c s' := by
  obtain ⟨s', h1, h2, _, h4, h5, _⟩ := shrinkToFit_holds hc (h.holds hc)
  refine ⟨s', h1, h2.is hc, h5, ?_, ?_⟩
  · rw [capacity_eq hc h.safe, capacity_eq hc h2.toSafe]
    exact Nat.mul_le_mul_right _ h4
  · rw [capacity_eq hc h2.toSafe, ← h2.len_eq]
    exact Nat.le_trans h2.cover (Nat.mul_le_mul_right _ h2.capLen)

/-- **C25** The length never exceeds the capacity. -/
theorem C25_len_le (hc : c.Ok) {s : EV c.W} {l : List α} (h : Is c s l) : l.length ≤ capacity c s := by
  have hh := h.holds hc
  rw [capacity_eq hc h.safe, ← hh.len_eq]
  exact Nat.le_trans hh.cover (Nat.mul_le_mul_right _ hh.capLen)

example : Is c8 v12 l12 ∧ (reserve c8 30 v12).1 = .ok () ∧ capacity c8 (reserve c8 30 v12).2 = 50 ∧
    capacity c8 (shrinkToFit c8 (reserve c8 30 v12).2).2 = 20 :=
  ⟨v12_is, by decide +kernel, by decide +kernel, by decide +kernel⟩

/-! ## C26 -/

/-- **C26** `push` on a vector that is not full: the call succeeds, keeps the capacity, and does the same with *every*
allocator, so it does not allocate. -/
theorem C26_push (hc : c.Ok) {s : EV c.W} {l : List α} (h : Is c s l) (hcap : l.length < capacity c s) (x : α) :
    ∃ s', push c x s = (.ok (), s') ∧ Is c s' (l ++ [x]) ∧ capacity c s' = capacity c s ∧
      ∀ a : Alloc, push (c.withAlloc a) x s = push c x s := by
  have hh := h.holds hc
  have hind := push_indep hc h.safe (by rw [hh.len_eq]; exact hcap) x
  have hraw := push_raw hc h.safe x
  have hblk : c.blocks (s.num + 1) ≤ s.storage.cap := by
    rw [blocks_succ hc, hh.len_eq]; exact (lt_capacity_iff hc h.safe _).mp hcap
  have hok := push_holds hc hh x
  -- with an allocator that never refuses the call cannot fail
  let b : Alloc := ⟨c.alloc.fresh, c.alloc.exact, fun cap n => if n ≤ s.storage.cap then some s.storage.cap else none,
    c.alloc.shrinkTo⟩
  match hp : push c x s, hok, hraw with
  | (.ok u, s'), hok, hraw =>
    refine ⟨s', rfl, hok.1.is hc, ?_, fun a => (hind a).trans hp⟩
    unfold capacity; rw [hraw.2.2.2.2.1 hblk]
  | (.error e, s'), hok, _ =>
    exfalso
    have hb : (c.withAlloc b).Ok := ⟨hc.compiles,
      ⟨hc.lawful.exact_ge, fun cap n k hk => by
        simp only [b] at hk; split at hk <;> simp at hk; omega, hc.lawful.shrink_ge⟩,
      ⟨hc.bounded.fresh, hc.bounded.exact, fun cap n k hk => by
        simp only [b] at hk; split at hk <;> simp at hk; subst hk; exact h.safe.capBound, hc.bounded.shrink⟩,
      fun _ => hc.few, fun _ => hc.contract⟩
    have hh' : Holds (c.withAlloc b) s l := ⟨⟨hh.cover, hh.capLen, hh.capBound⟩, hh.len_eq, hh.elems⟩
    have hf := push_holds hb hh' x
    rw [hind b, hp] at hf
    obtain ⟨_, _, h3⟩ := hf
    rw [hh.len_eq] at hblk
    rcases h3 with h3 | ⟨cap, k, _, h5, h6⟩
    · have h7 : c.blocks (l.length + 1) * c.epb ≤ s.storage.cap * c.epb := Nat.mul_le_mul_right _ hblk
      have h8 := h.safe.room hc
      have h9 : c.build.usizeLim ≤ c.blocks (l.length + 1) * c.epb := h3
      omega
    · have h5' : k ≤ c.blocks (l.length + 1) := h5
      simp only [b] at h6
      rw [if_pos (by omega)] at h6
      simp at h6

/-- **C26** `insert` on a vector that is not full does not consult the allocator. -/
theorem C26_insert (hc : c.Ok) {s : EV c.W} {l : List α} (h : Is c s l) (hcap : l.length < capacity c s) (index : Nat) (x : α)
    (a : Alloc) : EV.insert (c.withAlloc a) index x s = EV.insert c index x s :=
  insert_indep hc h.safe (by rw [(h.holds hc).len_eq]; exact hcap) index x a

/-- **C26** `reserve(k)`, as long as the length stays *strictly* below the capacity. Missing: `len + k = capacity`, where
the claim is false (`C26_reserve_full`). -/
theorem C26_reserve_partial (hc : c.Ok) {s : EV c.W} {l : List α} (h : Is c s l) {k : Nat}
    (hcap : l.length + k < capacity c s) (a : Alloc) : reserve (c.withAlloc a) k s = reserve c k s :=
  reserve_indep hc h.safe (by rw [(h.holds hc).len_eq]; exact hcap) a

/-- **C26** `extend` with an honest size hint, as long as the reserved length stays *strictly* below the capacity and the final
length does not exceed it. Missing: length plus size hint equal to the capacity. -/
theorem C26_extend_partial (hc : c.Ok) {s : EV c.W} {l : List α} (h : Is c s l) (it : Src α) (hh : it.hint ≤ it.items.length)
    (h1 : l.length + it.hint < capacity c s) (h2 : l.length + it.items.length ≤ capacity c s) (a : Alloc) :
    extend (c.withAlloc a) it s = extend c it s :=
  extend_indep hc it (h.holds hc) hh h1 h2 a

/-- **C26** is false for `reserve` (and so for `extend`) when the new length equals the capacity: it always asks the allocator
for one block more than the capacity; refused, it panics. -/
theorem C26_reserve_full (hc : c.Ok) {s : EV c.W} {l : List α} (h : Is c s l) {k : Nat} (hcap : l.length + k = capacity c s) :
    ∃ a : Alloc, (reserve (c.withAlloc a) k s).1 = .error .capacity ∧
      (c.alloc.grow s.storage.cap (s.storage.cap + 1) = none → (reserve c k s).1 = .error .capacity) := by
  have hh := h.holds hc
  have hl := hh.len_eq
  have hcl := hh.capLen
  have hroom := h.safe.room hc
  rw [capacity_eq hc h.safe] at hcap
  have hep := hc.epb_pos
  have hdiv : (s.num + k) / c.epb = s.storage.cap := by rw [hl, hcap, Nat.mul_div_cancel _ hep]
  have key : ∀ a : Alloc, a.grow s.storage.cap (s.storage.cap + 1) = none →
      RVec.resize a s.storage ((s.num + k) / c.epb + 1) 0 = .error .capacity := by
    intro a ha
    unfold RVec.resize RVec.reserve RVec.len
    rw [hdiv, if_neg (by omega), if_neg (by omega)]
    have e : s.storage.data.length + (s.storage.cap + 1 - s.storage.data.length) = s.storage.cap + 1 := by omega
    simp only [e, ha]
  have run : ∀ a : Alloc, a.grow s.storage.cap (s.storage.cap + 1) = none →
      (reserve (c.withAlloc a) k s).1 = .error .capacity := by
    intro a ha
    unfold reserve
    have hlt : len (c.withAlloc a) s + k < c.build.usizeLim := by show s.num + k < c.build.usizeLim; omega
    rw [if_pos hlt]
    have := key a ha
    have e1 : uAdd (c.withAlloc a).build ((len (c.withAlloc a) s + k) / (c.withAlloc a).epb) 1 = .ok ((s.num + k) / c.epb + 1) :=
      reserve_sum hc hlt fun hw => by
        obtain ⟨w1, w2⟩ := hw
        have hb := h.safe.capBound
        have hlt : s.num + k + 1 = c.build.usizeLim := w2
        rw [w1] at hb hcap
        omega
    have h2 : RVec.resize (c.withAlloc a).alloc s.storage ((s.num + k) / c.epb + 1) 0 = .error .capacity := this
    simp only [e1, h2]
  exact ⟨⟨0, fun _ => none, fun _ _ => none, fun _ _ => 0⟩, run _ rfl, fun hg => run c.alloc hg⟩

/-- Concrete: `with_capacity(32)` for 32 booleans, then `extend` by 32 booleans: the capacity has to grow. -/
example : ∃ s, withCapacity c2 32 = .ok s ∧ capacity c2 s = 32 ∧
    capacity c2 (extend c2 ⟨32, List.replicate 32 1, false⟩ s).2 = 64 :=
  ⟨⟨⟨[], 1⟩, 0⟩, by decide +kernel, by decide +kernel, by decide +kernel⟩

example : Is c8 v12 l12 ∧ l12.length < capacity c8 v12 := ⟨v12_is, by decide⟩
example : Is c8 v12 l12 ∧ l12.length + 8 = capacity c8 v12 := ⟨v12_is, by decide⟩

/-! ## C27 -/

/-- **C27** holds only in part: when the call returns, the *initialised* storage has `n / epb + 1` blocks. Missing: the memory
used meanwhile, and the capacity left behind (see `C27_quadratic`). -/
theorem C27_storage_partial (hc : c.Ok) (x : α) (n : Nat) :
    Res (fromElem c x n) (fun s => s.storage.data.length = n / c.epb + 1) (fun e => e = .capacity ∧ FillRefused c 0 n) :=
  (fromElem_holds hc x n).mono (fun _ h => h.2.2.2.1) (fun _ h => h)

/-- **C27** is false: for more than four blocks of elements, `from_elem(x, n)` needs and keeps an allocation of at least
`(n / epb - 1)²` blocks. -/
theorem C27_quadratic (hc : c.Ok) (x : α) {n : Nat} (hn : 4 * c.epb < n) :
    Res (fromElem c x n) (fun s => Is c s (List.replicate n x) ∧ (n / c.epb - 1) * (n / c.epb - 1) * c.epb ≤ capacity c s)
      (fun e => e = .capacity ∧ FillRefused c 0 n) := by
  refine (fromElem_holds hc x n).mono ?_ (fun _ h => h)
  rintro s ⟨h1, _, _, _, h5⟩
  refine ⟨h1.is hc, ?_⟩
  rw [capacity_eq hc h1.toSafe]
  have h6 := h5 hn
  have e : (n - c.epb) / c.epb = n / c.epb - 1 := by
    have := Nat.div_eq_sub_div (a := n) hc.epb_pos (by omega)
    rw [this, Nat.add_sub_cancel]
  rw [e] at h6
  exact Nat.mul_le_mul_right _ h6

/-- **C27** is false for `resize` in the same way. -/
theorem C27_resize_quadratic (hc : c.Ok) {s : EV c.W} {l : List α} (h : Is c s l) (x : α) {n : Nat}
    (hn : l.length + 4 * c.epb < n) :
    Runs (resize c n x s)
      (fun _ s' => ((n - l.length) / c.epb - 1) * ((n - l.length) / c.epb - 1) * c.epb ≤ capacity c s')
      (fun e _ => e = .capacity ∧ FillRefused c l.length (n - l.length)) := by
  refine (resize_holds hc (h.holds hc) n x).mono ?_ (fun _ _ h => ⟨h.1, h.2.2.2.2.2⟩)
  rintro _ s' ⟨h1, _, _, _, _, h6⟩
  rw [capacity_eq hc h1.toSafe]
  have h7 := h6 hn
  have hep := hc.epb_pos
  have e : (n - l.length) / c.epb - 1 ≤ (n - l.length - (c.epb - l.length % c.epb)) / c.epb := by
    have : (n - l.length - c.epb) / c.epb = (n - l.length) / c.epb - 1 := by
      have := Nat.div_eq_sub_div (a := n - l.length) hc.epb_pos (by omega)
      rw [this, Nat.add_sub_cancel]
    rw [← this]
    exact Nat.div_le_div_right (by omega)
  exact Nat.mul_le_mul_right _ (Nat.le_trans (Nat.mul_le_mul e e) h7)

/-- Concrete: `enum_vec![true; 3232]` needs 102 blocks and gets capacity for more than 320000 elements. -/
example : 4 * c2.epb < 3232 ∧ (3232 / c2.epb - 1) * (3232 / c2.epb - 1) * c2.epb = 320000 := by decide +kernel

/-! ## C30 -/

/-- **C30** which types are rejected: for a block width of one of the five modules and a `usize` number of variants, the constant
`BITS_PER_ELEM` has a value (the sum of the comparisons) exactly if there are at least two variants and, for blocks of up to 32 bits, at most `2^W`. -/
theorem C30_compiles (build : Build) {W N b : Nat} :
    bitsConst build W N = .ok b ↔ 1 < N ∧ (W ≤ 32 → N ≤ 2 ^ W) ∧ b = bitsPerElem N := by
  have hb : bitsPerElem N < build.usizeLim :=
    Nat.lt_of_le_of_lt (bitsSum N 32).1 (build.lt_usizeLim (by decide))
  have e0 : uAdd build.const (bitsPerElem N) 0 = .ok (bitsPerElem N) := by
    unfold uAdd; rw [if_pos (by rw [build.const_usizeLim]; omega), Nat.add_zero]
  have hz : errorZeroSized build N = if N ≤ 1 then .error .overflow else .ok 0 := by
    unfold errorZeroSized uSub; split <;> rfl
  have ht : errorTooManyVariants build W N = if N > 2 ^ W then .error .overflow else .ok 0 := by
    unfold errorTooManyVariants uSub; split <;> rfl
  unfold bitsConst
  rw [hz, ht]
  generalize bitsPerElem N = b' at hb e0 ⊢
  generalize 2 ^ W = P
  by_cases h1 : W ≤ 32 <;> by_cases h2 : N > P <;> by_cases h3 : N ≤ 1 <;>
    simp only [h1, h2, h3, if_true, if_false, bind, Except.bind, e0] <;> simp <;> omega

/-- `Compiles`, the hypothesis of the other theorems, is this condition. -/
theorem C30_compiles_iff (hW : c.W = 8 ∨ c.W = 16 ∨ c.W = 32 ∨ c.W = 64 ∨ c.W = 128) :
    c.Compiles ↔ bitsConst c.build c.W c.E.num = .ok c.bits := by
  rw [C30_compiles]
  exact ⟨fun h => ⟨h.2.1, h.2.2, rfl⟩, fun h => ⟨hW, h.1, h.2.1⟩⟩

/-- **C30** for at most `2^32` variants: the element width is the least `b` with `NUM_VARIANTS ≤ 2^b`; it is at least one and at
most the block width; every discriminant fits. Missing: more than `2^32` variants with 64- or 128-bit blocks, where the
claim is false (`C30_wide`). -/
theorem C30_width_partial (hc : c.Ok) :
    c.E.num ≤ 2 ^ c.bits ∧ (∀ b, c.E.num ≤ 2 ^ b → c.bits ≤ b) ∧ 1 ≤ c.bits ∧ c.bits ≤ c.W ∧
      ∀ a, c.E.toDiscr a < 2 ^ c.bits := by
  refine ⟨hc.num_le, fun b hb => ?_, hc.bits_pos, hc.bits_le, hc.toDiscr_lt⟩
  rcases Nat.lt_or_ge b c.bits with h | h
  · exact absurd hb (Nat.not_le_of_lt ((bitsPerElem_spec _ hc.num_gt hc.few).2.2.2 b h))
  · exact h

/-- **C30** in full on 32-bit targets, where no type has so many variants. -/
theorem C30_width_narrow (hc : c.Compiles) (hN : c.E.num < c.build.usizeLim) (hE : c.E.Contract) (hb : c.build.wide = false) :
    c.E.num ≤ 2 ^ c.bits ∧ (∀ b, c.E.num ≤ 2 ^ b → c.bits ≤ b) ∧ 1 ≤ c.bits ∧ c.bits ≤ c.W ∧
      ∀ a, c.E.toDiscr a < 2 ^ c.bits := by
  have hl : c.build.usizeLim = 2 ^ 32 := by unfold Build.usizeLim; rw [hb]; rfl
  have h32 : c.E.num ≤ 2 ^ 32 := by omega
  have hs := bitsPerElem_spec c.E.num hc.2.1 h32
  have hmin : ∀ b, c.E.num ≤ 2 ^ b → c.bits ≤ b := fun b hb => by
    rcases Nat.lt_or_ge b c.bits with h | h
    · exact absurd hb (Nat.not_le_of_lt (hs.2.2.2 b h))
    · exact h
  refine ⟨hs.2.2.1, hmin, hs.1, ?_, fun a => Nat.lt_of_lt_of_le (hE.lt a) hs.2.2.1⟩
  by_cases hw : c.W ≤ 32
  · exact hmin _ (hc.2.2 hw)
  · exact Nat.le_trans hs.2.1 (by omega)

/-- **C30** is false for more than `2^32` variants: such types compile with 64- and 128-bit blocks, but get 32 bits. -/
theorem C30_wide (hW : c.W = 64 ∨ c.W = 128) (hN : 2 ^ 32 < c.E.num) :
    c.Compiles ∧ c.bits = 32 ∧ ¬ c.E.num ≤ 2 ^ c.bits := by
  have hb : c.bits = 32 := by
    have h : ∀ (k : Nat), k ≤ 32 → ((List.range k).map fun k => if c.E.num > 2 ^ k then 1 else 0).sum = k := by
      intro k
      induction k with
      | zero => simp
      | succ k ih =>
        intro hk
        rw [List.range_succ]
        have h2 : (2 : Nat) ^ k ≤ 2 ^ 32 := Nat.pow_le_pow_right (by decide) (by omega)
        have h3 : c.E.num > 2 ^ k := by omega
        simp [h3, ih (by omega)]
    exact h 32 (Nat.le_refl _)
  refine ⟨⟨by omega, ?_, by omega⟩, hb, ?_⟩
  · have : (1 : Nat) < 2 ^ 32 := by decide
    omega
  · rw [hb]; omega

/-- … and the vector is wrong: with 64-bit blocks and `2^32 + 1` variants, storing the last variant at index 0 of `[v0, v0]`
reads back as `v0` and changes element 1. -/
theorem C30_wide_wrong : ∃ s s' : EV 64,
    fromVec (exInst 64 (2 ^ 32 + 1) debug64 false) [0, 0] = .ok s ∧
    EV.set (exInst 64 (2 ^ 32 + 1) debug64 false) 0 (Fin.last _) s = (.ok (), s') ∧
    EV.get (exInst 64 (2 ^ 32 + 1) debug64 false) 0 s' = (.ok (some 0), s') ∧
    EV.get (exInst 64 (2 ^ 32 + 1) debug64 false) 1 s' = (.ok (some 1), s') :=
  ⟨⟨⟨[0, 0], 2⟩, 2⟩, ⟨⟨[0x100000000, 0], 2⟩, 2⟩, by decide +kernel, rfl, rfl, rfl⟩

example : c200.Ok ∧ c200.bits = 8 ∧ c8.bits = 3 := ⟨c200_ok, by decide, by decide⟩
example : bitsConst debug64 8 257 = .error .overflow ∧ bitsConst debug64 16 257 = .ok 9 ∧ bitsConst debug64 32 1 = .error .overflow := by decide

/-! ## C32 -/

/-- **C32** memory after `shrink_to_fit`: `⌈n / ⌊W / b⌋⌉` blocks of `W` bits. -/
theorem C32_blocks (hc : c.Ok) {s : EV c.W} {l : List α} (h : Is c s l) :
    ∃ s', shrinkToFit c s = (.ok (), s') ∧ Is c s' l ∧
      s'.storage.data.length = (l.length + c.W / c.bits - 1) / (c.W / c.bits) := by
  obtain ⟨s', h1, h2, h3, _⟩ := C25_shrink_to_fit hc h
  exact ⟨s', h1, h2, h3⟩

/-- **C32** the used bits of a full block are `W - W mod b`: the fraction `1 - (W mod b)/W`. -/
theorem C32_efficiency (c : Inst α) : c.epb * c.bits = c.W - c.W % c.bits := by
  have := Nat.div_add_mod c.W c.bits
  unfold Inst.epb
  rw [Nat.mul_comm]
  omega

/-- **C32** never worse than a `Vec` of unsigned integers: if an element fits in `U` bits, where `U` is a width of an unsigned
integer type not above the block width, then a block of `W` bits holds at least `W / U` elements, so `n` elements that fill
their blocks take at most `n * U` bits. -/
theorem C32_no_worse (hc : c.Ok) {U : Nat} (hU : U = 8 ∨ U = 16 ∨ U = 32 ∨ U = 64 ∨ U = 128) (hUW : U ≤ c.W)
    (hb : c.bits ≤ U) (n : Nat) : c.W ≤ c.epb * U ∧ c.blocks (n * c.epb) * c.W ≤ n * c.epb * U := by
  have h1 : c.W ≤ c.epb * U := by
    have hdiv : c.W / U * U = c.W := by
      rcases hc.compiles.1 with h | h | h | h | h <;> rcases hU with h' | h' | h' | h' | h' <;> subst h' <;> rw [h] at hUW ⊢ <;>
        first | rfl | omega
    have hle : c.W / U ≤ c.epb := by
      unfold Inst.epb
      exact Nat.div_le_div_left hb hc.bits_pos
    calc c.W = c.W / U * U := hdiv.symm
      _ ≤ c.epb * U := Nat.mul_le_mul_right _ hle
  refine ⟨h1, ?_⟩
  have e : c.blocks (n * c.epb) = n := by
    rw [blocks_of_dvd hc (Nat.mul_mod_left _ _), Nat.mul_div_cancel _ hc.epb_pos]
  rw [e, Nat.mul_assoc]
  exact Nat.mul_le_mul_left _ h1

/-- **C32** README: with 32-bit blocks there is no gain over `u16`/`u32` from 11 bits on. -/
theorem C32_no_gain (hW : c.W = 32) (h1 : 11 ≤ c.bits) (h2 : c.bits ≤ 32) :
    c.W = c.epb * (if c.bits ≤ 16 then 16 else 32) := by
  unfold Inst.epb
  rw [hW]
  generalize c.bits = b at *
  have : ∀ b : Fin 33, 11 ≤ b.val → 32 = 32 / b.val * (if b.val ≤ 16 then 16 else 32) := by decide
  exact this ⟨b, by omega⟩ h1

/-- Width of the smallest unsigned integer type for `b` bits. -/
def uintWidth (b : Nat) : Nat := if b ≤ 8 then 8 else if b ≤ 16 then 16 else if b ≤ 32 then 32 else 64

/-- **C32** the README's "efficiency limits" table (largest `b` for which a full block of `W` bits holds elements in less space than a
`Vec` of the smallest unsigned integer). The true limits are 4, 5, 10, 21, 42; the README says 4, 4, 11, 22, 42. -/
theorem C32_limits : ∀ b, 1 ≤ b → b ≤ 64 →
    (∀ W L, (W, L) ∈ [(8, 4), (16, 5), (32, 10), (64, 21), (128, 42)] → b ≤ W →
      (W < W / b * uintWidth b → b ≤ L) ∧ (b = L → W < W / b * uintWidth b)) := by
  intro b h1 h2 W L hm hbW
  have key : ∀ b : Fin 65, ∀ p ∈ [(8, 4), (16, 5), (32, 10), (64, 21), (128, 42)], 1 ≤ b.val → b.val ≤ p.1 →
      (p.1 < p.1 / b.val * uintWidth b.val → b.val ≤ p.2) ∧ (b.val = p.2 → p.1 < p.1 / b.val * uintWidth b.val) := by
    decide +kernel
  exact key ⟨b, by omega⟩ (W, L) hm h1 hbW

example : Is c8 v12 l12 ∧ c8.bits ≤ 8 ∧ 8 ≤ c8.W := ⟨v12_is, by decide, by decide⟩

end EnumVecModel
