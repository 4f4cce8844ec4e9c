import Verif.Props.Safety
import Verif.Props.Recover

/-! # Vectors with as many elements as `usize` can count (C28)

On 32-bit targets 2^32 - 1 elements of less than 4 bits are possible. `Alloc.Bounded` excludes that; here is why it has to. -/

namespace EnumVecModel
open EV

variable {α τ : Type} {c : Inst α}

theorem noAlloc_fits (h : c.Compiles) : (c.withAlloc noAlloc).Fits False where
  compiles := h
  lawful := (noAlloc_ok (B := c.build) (n := 0) (c.build.lt_usizeLim (by omega))).1
  bounded := (noAlloc_ok (c.build.lt_usizeLim (by
    have h1 : c.epb ≤ c.W := Nat.div_le_self _ _
    rcases h.1 with e | e | e | e | e <;> (show c.epb + 4 < _; omega)))).2
  few := False.elim
  contract := False.elim

theorem set_shape (h : c.Compiles) (s : EV c.W) {i : Nat} (x : α) (hi : i < s.num) (hs : s.num ≤ s.storage.data.length * c.epb) :
    ∃ s', EV.set c i x s = (.ok (), s') ∧ s'.num = s.num ∧ s'.storage.data.length = s.storage.data.length := by
  refine ⟨putRaw c s i (c.E.toDiscr x), ?_, rfl, by simp⟩
  have hq : 0 < c.epb := (noAlloc_fits h).epb_pos
  have hlt : i / c.epb < s.storage.data.length := (Nat.div_lt_iff_lt_mul hq).mpr (Nat.lt_of_lt_of_le hi hs)
  show setRaw c i (c.E.toDiscr x) s = _
  unfold setRaw
  rw [M.read_bind]
  have h2 : ¬ i ≥ len c s := by simpa [len] using hi
  rw [if_neg h2]
  show setRawUnchecked c i (c.E.toDiscr x) s = _
  unfold setRawUnchecked putRaw blockIndex writeFld Inst.mask
  simp only [List.getElem?_eq_getElem hlt, Option.getD_some]

theorem extendHinted_shape (h : c.Compiles) (x : α) : ∀ (n pos : Nat) (s : EV c.W), pos + n ≤ s.num →
    s.num ≤ s.storage.data.length * c.epb →
    ∃ s', extendHinted c false n pos (List.replicate n x) s = (.ok [], s') ∧ s'.num = s.num ∧
      s'.storage.data.length = s.storage.data.length
  | 0, _, s, _, _ => ⟨s, rfl, rfl, rfl⟩
  | n + 1, pos, s, h1, h2 => by
    obtain ⟨s1, e1, e2, e3⟩ := set_shape h s x (i := pos) (by omega) h2
    obtain ⟨s2, e4, e5, e6⟩ := extendHinted_shape h x n (pos + 1) s1 (by omega) (by rw [e2, e3]; exact h2)
    refine ⟨s2, ?_, by omega, by omega⟩
    show (EV.set c pos x >>= fun _ => extendHinted c false n (pos + 1) (List.replicate n x)) s = _
    show M.bind _ _ s = _
    unfold M.bind
    rw [e1]
    exact e4

/-- The storage after `reserve`/`extend` of `usize::MAX` elements on an empty vector. -/
theorem reserve_max (he : 1 < c.epb) (s : EV c.W) (hs : s.num = 0) (hd : s.storage.data = []) (hcap : s.storage.cap = c.alloc.fresh)
    (hg : c.alloc.fresh < (c.build.usizeLim - 1) / c.epb + 1 → ∃ k, c.alloc.grow c.alloc.fresh ((c.build.usizeLim - 1) / c.epb + 1) = some k) :
    ∃ s', reserve c (c.build.usizeLim - 1) s = (.ok (), s') ∧ s'.num = 0 ∧
      s'.storage.data.length = (c.build.usizeLim - 1) / c.epb + 1 := by
  have hu := c.build.lt_usizeLim (n := 1) (by omega)
  unfold reserve
  rw [if_pos (by show s.num + _ < _; omega)]
  have hl : len c s = 0 := hs
  have hsl : s.storage.len = 0 := by show s.storage.data.length = 0; rw [hd]; rfl
  have hsum : uAdd c.build ((c.build.usizeLim - 1) / c.epb) 1 = .ok ((c.build.usizeLim - 1) / c.epb + 1) := by
    unfold uAdd
    have := Nat.div_lt_self (n := c.build.usizeLim - 1) (k := c.epb) (by omega) he
    rw [if_pos (by omega)]
  simp only [hl, Nat.zero_add, hsum]
  unfold RVec.resize
  rw [hsl, if_neg (Nat.not_succ_le_zero _)]
  unfold RVec.reserve
  simp only [hsl, hcap, Nat.zero_add, Nat.sub_zero]
  by_cases hf : (c.build.usizeLim - 1) / c.epb + 1 ≤ c.alloc.fresh
  · rw [if_pos hf]
    exact ⟨_, rfl, hs, by simp [hd]⟩
  · obtain ⟨k, hk⟩ := hg (Nat.lt_of_not_le hf)
    rw [if_neg hf, hk]
    exact ⟨_, rfl, hs, by simp [hd]⟩

theorem extend_max (h : c.Compiles) (he : 1 < c.epb) (x : α)
    (hg : c.alloc.fresh < (c.build.usizeLim - 1) / c.epb + 1 → ∃ k, c.alloc.grow c.alloc.fresh ((c.build.usizeLim - 1) / c.epb + 1) = some k) :
    ∃ s', extend c (repeatTake x (c.build.usizeLim - 1)) (EV.new c) = (.ok (), s') ∧ s'.num = c.build.usizeLim - 1 ∧
      s'.storage.data.length = (c.build.usizeLim - 1) / c.epb + 1 := by
  have hu := c.build.lt_usizeLim (n := 1) (by omega)
  have hq : 0 < c.epb := (noAlloc_fits h).epb_pos
  obtain ⟨s1, e1, e2, e3⟩ := reserve_max (c := c) he (EV.new c) rfl rfl rfl hg
  obtain ⟨s2, e4, e5, e6⟩ := extendHinted_shape h x (c.build.usizeLim - 1) 0 { s1 with num := c.build.usizeLim - 1 }
    (by simp) (by
      show c.build.usizeLim - 1 ≤ s1.storage.data.length * c.epb
      rw [e3]
      have := Nat.div_add_mod (c.build.usizeLim - 1) c.epb
      have := Nat.mod_lt (c.build.usizeLim - 1) hq
      rw [Nat.add_mul, Nat.one_mul, Nat.mul_comm]; omega)
  refine ⟨s2, ?_, e5, e6.trans e3⟩
  unfold extend repeatTake
  rw [M.read_bind]
  show M.bind _ _ _ = _
  unfold M.bind
  simp only [e1]
  rw [M.read_bind]
  show M.bind _ _ _ = _
  unfold M.bind M.lift uAdd
  rw [e2, if_pos (by omega), Nat.zero_add]
  show M.bind (extendHinted c false _ 0 _) _ _ = _
  unfold M.bind
  rw [e4]
  rfl

/-- **C28 is false in full** on 32-bit targets (and would be on 64-bit targets with enough memory), without `append` and `split_off`: collect `usize::MAX` elements, call
`shrink_to_fit`, read the last element. The block count in `fix_storage` saturates (lines 590, 605) and the last block is cut off. Hypotheses: the type compiles, `usize::MAX` is
not a multiple of the number of elements per block (it is not for 10 nor powers of two, that is in `vec_u32` for elements of 1, 2 or 3 bits), and the allocator grants the storage for `usize::MAX` elements. -/
theorem C28_limit_ub (h : c.Compiles) (hd : ¬ c.epb ∣ c.build.usizeLim - 1)
    (hg : c.alloc.fresh < (c.build.usizeLim - 1) / c.epb + 1 → ∃ k, c.alloc.grow c.alloc.fresh ((c.build.usizeLim - 1) / c.epb + 1) = some k)
    (x : α) (w : τ) :
    (runAll c ([.extend 0 (repeatTake x (c.build.usizeLim - 1)), .shrinkToFit 0, .len 0, .get 0 (c.build.usizeLim - 2)] : List (Op τ α))
      (Mem.start c w)).1 = [.unit, .unit, .num (c.build.usizeLim - 1), .ub] := by
  have hu := c.build.lt_usizeLim (n := 3) (by omega)
  have hq : 0 < c.epb := (noAlloc_fits h).epb_pos
  have he : 1 < c.epb := by
    rcases Nat.lt_or_ge 1 c.epb with he | he
    · exact he
    · exact absurd (show c.epb ∣ _ by rw [(by omega : c.epb = 1)]; exact Nat.one_dvd _) hd
  obtain ⟨s1, e1, e2, e3⟩ := extend_max h he x hg
  have hb : blocksForElements c (c.build.usizeLim - 1) = (c.build.usizeLim - 1) / c.epb := by
    unfold blocksForElements satAdd
    rw [Nat.min_eq_right (by omega)]
  let s2 : EV c.W := ⟨(s1.storage.truncate ((c.build.usizeLim - 1) / c.epb)).shrinkToFit c.alloc, s1.num⟩
  have e4 : shrinkToFit c s1 = (.ok (), s2) := by
    have hl : len c s1 = c.build.usizeLim - 1 := e2
    show (Except.ok (), (⟨(s1.storage.truncate (blocksForElements c (len c s1))).shrinkToFit c.alloc, s1.num⟩ : EV c.W)) = _
    rw [hl, hb]
  have hlen : s2.storage.data.length = (c.build.usizeLim - 1) / c.epb := by
    show (s1.storage.data.take _).length = _
    rw [List.length_take, e3]
    exact Nat.min_eq_left (Nat.le_succ _)
  have e5 : EV.get c (c.build.usizeLim - 2) s2 = (.error .ub, s2) := by
    have hdiv : (c.build.usizeLim - 2) / c.epb = (c.build.usizeLim - 1) / c.epb := by
      have h1 : c.build.usizeLim - 1 = (c.build.usizeLim - 2) + 1 := by omega
      rw [h1] at hd ⊢
      rw [Nat.succ_div, if_neg hd]
      rfl
    have hn : ¬ c.build.usizeLim - 2 ≥ len c s2 := by
      show ¬ c.build.usizeLim - 2 ≥ s1.num
      omega
    have hnone : s2.storage.data[(c.build.usizeLim - 2) / c.epb]? = none :=
      List.getElem?_eq_none (by rw [hlen, hdiv]; exact Nat.le_refl _)
    have hr : getRaw c (c.build.usizeLim - 2) s2 = (.error .ub, s2) := by
      unfold getRaw
      rw [M.read_bind, if_neg hn]
      show M.bind (getRawUnchecked c _) _ s2 = _
      unfold M.bind getRawUnchecked rawUnchecked blockIndex
      simp only [hnone]
    show M.bind (getRaw c _) _ s2 = _
    unfold M.bind
    rw [hr]
  have e6 : s2.num = c.build.usizeLim - 1 := e2
  simp only [runAll, step, Mem.call, Mem.start, e1, upd, if_true, e4, e5, len, e6]
  rfl

/-- What `std` grants on 32-bit targets: less than 2^31 bytes (`isize::MAX`), doubling if possible. -/
def isizeAlloc (W : Nat) : Alloc where
  fresh := 0
  exact n := if n * (W / 8) < 2 ^ 31 then some n else none
  grow cap n := if max (2 * cap) n * (W / 8) < 2 ^ 31 then some (max (2 * cap) n) else none
  shrinkTo _ len := len

/-- `vec_u32::EnumVec<bool>` on a 32-bit target. -/
abbrev c2w (checked : Bool) : Inst (Fin 2) := (exInst 32 2 ⟨checked, false⟩ false).withAlloc (isizeAlloc 32)

theorem c2w_compiles (b : Bool) : (c2w b).Compiles :=
  (exInst_ok (W := 32) (n := 2) ⟨b, false⟩ false (by omega) (by omega) (by omega) (by omega)).compiles

/-- The allocator is as documented, but storage for 2^32 elements is granted. -/
example (b : Bool) : (c2w b).Compiles ∧ (isizeAlloc 32).Lawful ∧ ¬ (isizeAlloc 32).Bounded ⟨b, false⟩ (c2w b).epb := by
  refine ⟨c2w_compiles _, ⟨fun n k h => ?_, fun _ n k h => ?_, fun _ _ _ => Nat.le_refl _⟩, fun h => ?_⟩
  · simp only [isizeAlloc] at h; split at h <;> simp at h; omega
  · simp only [isizeAlloc] at h; split at h <;> simp at h; omega
  · have := h.exact (2 ^ 27) (2 ^ 27) (by decide)
    revert this
    cases b <;> decide

/-- The concrete case: 512 MiB of booleans. -/
theorem C28_narrow_ub (checked : Bool) :
    (runAll (c2w checked) ([.extend 0 (repeatTake 1 (2 ^ 32 - 1)), .shrinkToFit 0, .len 0, .get 0 (2 ^ 32 - 2)] : List (Op Unit (Fin 2)))
      (Mem.start (c2w checked) ())).1 = [.unit, .unit, .num (2 ^ 32 - 1), .ub] :=
  C28_limit_ub (c := c2w checked) (c2w_compiles _)
    (by cases checked <;> decide) (fun _ => ⟨2 ^ 27, by cases checked <;> decide⟩) 1 ()

/-- With an allocator that refuses such storage the theorems apply to 32-bit targets as they are. -/
abbrev c8w : Inst (Fin 8) := exInst 32 8 debug32 false

theorem c8w_ok : c8w.Ok := exInst_ok _ _ (by omega) (by omega) (by omega) (by omega)

example : Along c8w (SafeUse c8w) wildHistory (fun _ => .clean) (Mem.start c8w 0) ∧
    (runAll c8w wildHistory (Mem.start c8w 0)).1 = (runAll c8 wildHistory (Mem.start c8 0)).1 := by decide +kernel

/-- The limit shows in `reserve(2^32 - 1)`: refused here, granted on a 64-bit target. -/
example : (reserve c8w (2 ^ 32 - 1) (EV.new c8w)).1 = .error .capacity ∧ (reserve c8 (2 ^ 32 - 1) (EV.new c8)).1 = .ok () := by
  refine ⟨by decide +kernel, ?_⟩
  rfl

end EnumVecModel
