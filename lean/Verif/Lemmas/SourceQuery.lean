import Verif.Lemmas.SourceTwo
/-! # The source text of `eq`, `hash`, `any` and `all` is the model -/

namespace EnumVecModel
namespace Source
open EV
set_option linter.constructorNameAsVariable false
set_option linter.unusedSimpArgs false
variable {α τ : Type} {W : Nat}

attribute [local irreducible] Inst.epb Inst.bits

/-- A search that stops at the first hit. -/
def search (f : Nat → Except Fault Bool) : Nat → Nat → Except Fault Bool
  | 0, _ => .ok false
  | n + 1, i =>
    match f i with
    | .error e => .error e
    | .ok true => .ok true
    | .ok false => search f n (i + 1)

/-- The outcome of a search that returns `v` at a hit. -/
def Out.found (v : Val α W) (st : St α τ W) (r : Except Fault Bool) : Out α τ W :=
  match r with
  | .error e => .fault e st.heap
  | .ok true => .ret v st.heap
  | .ok false => .val .unit st

theorem forLoop_search (body : Nat → St α τ W → Out α τ W) (v : Val α W) (st : St α τ W) (f : Nat → Except Fault Bool)
    (hb : ∀ j, body j st = .found v st (f j)) : ∀ n i, forLoop body n i st = .found v st (search f n i)
  | 0, _ => rfl
  | n + 1, i => by
    unfold forLoop search
    rw [hb]
    rcases f i with e | _ | _
    · rfl
    · exact forLoop_search body v st f hb n (i + 1)
    · rfl

variable {strict : Prop} {c : Inst α} (hc : c.Fits strict) (u : User α τ c.W) (K : Nat)

theorem eqLoop_search (a b : EV c.W) : ∀ n i, eqLoop c a b n i =
    (search (fun j => match rawUnchecked c a j, rawUnchecked c b j with
      | .ok x, .ok y => .ok (decide (x ≠ y))
      | .error e, _ => .error e
      | _, .error e => .error e) n i).map (!·)
  | 0, _ => rfl
  | n + 1, i => by
    unfold eqLoop search
    rcases rawUnchecked c a i with e | x
    · rfl
    rcases rawUnchecked c b i with e | y
    · rfl
    by_cases h : x = y
    · simp [h, eqLoop_search a b n (i + 1)]
    · simp [h, Except.map]

theorem anyBlocks_search (m : BitVec c.W) (s : EV c.W) : ∀ n i, anyBlocks c m n i s =
    (search (fun j => match s.storage.data[j]? with
      | some b => .ok (hasZero c (b ^^^ m))
      | none => .error .index) n i, s)
  | 0, _ => rfl
  | n + 1, i => by
    unfold anyBlocks search
    rw [M.bind_apply]
    rcases h : s.storage.data[i]? with _ | b
    · simp [EV.block, h]
    · rcases hz : hasZero c (b ^^^ m) <;> simp [EV.block, h, hz, text, anyBlocks_search m s n (i + 1)]

theorem allBlocks_search (m x : BitVec c.W) (s : EV c.W) : ∀ n i, allBlocks c m x n i s =
    ((search (fun j => match s.storage.data[j]? with
      | some b => .ok (decide (b &&& m ≠ x))
      | none => .error .index) n i).map (!·), s)
  | 0, _ => rfl
  | n + 1, i => by
    unfold allBlocks search
    rw [M.bind_apply]
    rcases h : s.storage.data[i]? with _ | b
    · simp [EV.block, h, Except.map]
    · by_cases hz : b &&& m = x <;> simp [EV.block, h, hz, text, allBlocks_search m x s n (i + 1), Except.map]

/-- Feed numbers to the hasher. -/
def Heap.feedAll (h : Heap τ W) (l : List Nat) : Heap τ W := { h with hashed := h.hashed ++ l }

theorem Heap.feed_feedAll (h : Heap τ W) (x : Nat) (l : List Nat) : (h.feedAll l).feed x = h.feedAll (l ++ [x]) := by
  simp [Heap.feedAll, Heap.feed]

theorem Heap.feedAll_nil (h : Heap τ W) : h.feedAll [] = h := by simp [Heap.feedAll]

theorem Heap.get_feedAll (h : Heap τ W) (l : List Nat) (sl : Slot) : (h.feedAll l).get sl = h.get sl := by cases sl <;> rfl

theorem forLoop_hash (body : Nat → St α τ W → Out α τ W) (env : Env α W) (raw : Nat → Except Fault Nat) (h : Heap τ W)
    (hb : ∀ j l, body j ⟨env, h.feedAll l⟩ = match raw j with
      | .ok x => .val .unit ⟨env, h.feedAll (l ++ [x])⟩
      | .error e => .fault e (h.feedAll l)) (hl : Nat → Nat → Except Fault (List Nat)) (h0 : ∀ i, hl 0 i = .ok [])
    (h1 : ∀ n i, hl (n + 1) i = match raw i with | .ok x => (hl n (i + 1)).map (x :: ·) | .error e => .error e) : ∀ n i l0,
    match hl n i with
    | .ok l => forLoop body n i ⟨env, h.feedAll l0⟩ = .val .unit ⟨env, h.feedAll (l0 ++ l)⟩
    | .error e => ∃ l, forLoop body n i ⟨env, h.feedAll l0⟩ = .fault e (h.feedAll l)
  | 0, i, l0 => by
    rw [h0]
    simp [forLoop]
  | n + 1, i, l0 => by
    rw [h1]
    unfold forLoop
    rw [hb]
    rcases raw i with e | x
    · exact ⟨l0, rfl⟩
    · have := forLoop_hash body env raw h hb hl h0 h1 n (i + 1) (l0 ++ [x])
      rcases hx : hl n (i + 1) with e | l <;> rw [hx] at this
      · exact this
      · simp at this
        simp [Out.bind, this, Except.map]

include hc

theorem text_eq (d : Nat) (sl sl' : Slot) (w : Val α c.W) (h : Heap τ c.W) :
    call c u K (d + 3) .eq [.vec sl, .vec sl', w] h =
      match EV.eq c (h.get sl) (h.get sl') with
      | .ok b => .val (.bool b) h
      | .error e => .fault e h := by
  rw [call_eq u K (d + 2) (fn := f_eq) rfl]
  by_cases h0 : (h.get sl).num = (h.get sl').num
  · simp [f_eq, ↓bindStep, text, text_len, h0]
    rw [forLoop_search _ (.bool false) _ (fun j => match rawUnchecked c (h.get sl) j, rawUnchecked c (h.get sl') j with
      | .ok x, .ok y => .ok (decide (x ≠ y))
      | .error e, _ => .error e
      | _, .error e => .error e)]
    · simp [EV.eq, len, h0, eqLoop_search]
      rcases search (fun j => match rawUnchecked c (h.get sl) j, rawUnchecked c (h.get sl') j with
        | .ok x, .ok y => .ok (!decide (x = y))
        | .error e, _ => .error e
        | _, .error e => .error e) (h.get sl').num 0 with e | _ | _ <;> simp [Out.found, Except.map, ↓bindStep, text]
    · intro j
      have h1 := text_get_raw_unchecked hc u K d sl j .unit h
      have h2 := text_get_raw_unchecked hc u K d sl' j .unit h
      simp only [getRawUnchecked] at h1 h2
      rcases hx : rawUnchecked c (h.get sl) j with e | x <;> rw [hx] at h1 <;> simp only [Ret.ofM, Heap.set_get] at h1
      · simp [↓bindStep, text, h1, Out.found]
      rcases hy : rawUnchecked c (h.get sl') j with e | y <;> rw [hy] at h2 <;> simp only [Ret.ofM, Heap.set_get] at h2
      · simp [↓bindStep, text, h1, h2, Out.found]
      by_cases hz : x = y <;> simp [↓bindStep, text, h1, h2, Out.found, hz]
  · simp [f_eq, ↓bindStep, text, text_len, h0, EV.eq, len]

theorem text_hash (d : Nat) (sl : Slot) (w : Val α c.W) (h : Heap τ c.W) :
    match EV.hash c (h.get sl) with
    | .ok l => call c u K (d + 3) .hash [.vec sl, .hasher, w] h = .val .unit (h.feedAll l)
    | .error e => ∃ l, call c u K (d + 3) .hash [.vec sl, .hasher, w] h = .fault e (h.feedAll l) := by
  rw [call_eq u K (d + 2) (fn := f_hash) rfl]
  have h2 := forLoop_hash (τ := τ) (fun i st => (eval c K (call c u K (d + 2)) (.letE (.one .x) (.meth (.var .self) .get_raw_unchecked (.var .i) .unit) ((Ex.meth (.var .x) .hash (.var .state) .unit).seq .unit))
      u.fns ⟨(.i, .usz i) :: st.env, st.heap⟩).pop 1)
    [(.l, .usz (h.get sl).num), (.self, .vec sl), (.state, .hasher)] (rawUnchecked c (h.get sl)) h ?_ (hashLoop c (h.get sl)) (fun _ => rfl) (fun _ _ => rfl) (h.get sl).num 0 []
  · rw [Heap.feedAll_nil] at h2
    simp [EV.hash, f_hash, ↓bindStep, text, text_len, len] at h2 ⊢
    rcases hx : hashLoop c (h.get sl) (h.get sl).num 0 with e | l <;> rw [hx] at h2
    · obtain ⟨l, h2⟩ := h2
      exact ⟨l, by rw [h2]; rfl⟩
    · simp at h2
      rw [h2]; rfl
  · intro j l
    have h1 := text_get_raw_unchecked hc u K d sl j .unit (h.feedAll l)
    simp only [getRawUnchecked, Heap.get_feedAll] at h1
    rcases hx : rawUnchecked c (h.get sl) j with e | x <;> rw [hx] at h1 <;> simp only [Ret.ofM] at h1 <;>
      rw [← Heap.get_feedAll h l, Heap.set_get] at h1
    · simp [↓bindStep, text, h1]
    · simp [↓bindStep, text, h1, Heap.feed_feedAll]

theorem mask_ne : c.mask ≠ 0#c.W := by
  intro h
  have h1 := congrArg BitVec.toNat h
  unfold Inst.mask at h1
  rw [toNat_mask hc.bits_le] at h1
  have : 2 ^ 1 ≤ 2 ^ c.bits := Nat.pow_le_pow_right (by decide) hc.bits_pos
  simp at h1
  omega

theorem text_any (d : Nat) (sl : Slot) (x : α) (w : Val α c.W) (h : Heap τ c.W) :
    call c u K (d + 3) .any [.vec sl, .elem x, w] h = .ofM h sl .bool (EV.any c x (h.get sl)) := by
  rw [call_eq u K (d + 2) (fn := f_any) rfl]
  by_cases h0 : (h.get sl).num = 0
  · simp [f_any, ↓bindStep, text, text_is_empty, isEmpty, len, h0, EV.any]
  have h1 : isEmpty c (h.get sl) = false := by simp [isEmpty, len, h0]
  have hb := hc.bits_pos
  have hbl := hc.bits_le
  have hmask : c.mask ≠ 0#c.W := mask_ne hc
  have hmod : c.W % c.bits < c.W := Nat.lt_of_lt_of_le (Nat.mod_lt _ hb) hbl
  have hbits : c.bits ≠ 0 := by omega
  have h2 : 1 ≤ c.bits := hb
  have h2' : c.bits - 1 < c.W := by omega
  have hoff : (blockIndex c (h.get sl).num).2 < c.W := off_lt hc _
  have hc1 : blkMul c.build.checked (BitVec.ofNat c.W (c.E.toDiscr x)) (oneMask c) = blkMul c.build.checked (BitVec.ofNat c.W (c.E.toDiscr x)) ((BitVec.allOnes c.W / c.mask) >>> (c.W % c.bits)) := rfl
  rcases hm : blkMul c.build.checked (BitVec.ofNat c.W (c.E.toDiscr x)) (oneMask c) with e | m <;> rw [hm] at hc1 <;> replace hc1 := hc1.symm
  · simp [f_any, ↓bindStep, text, text_is_empty, text_len, h1, text_block_index hc, hmask, hbits, blkShr, blkShl, hmod, uSub_ok h2, h2', EV.any, len, hm, hc1]
  simp only [f_any]
  generalize hr : Ex.letFn .haszero _ _ _ _ = r
  simp [↓bindStep, text, text_is_empty, text_len, h1, text_block_index hc, hmask, hbits, blkShr, blkShl, hmod, uSub_ok h2, h2', EV.any, len, hm, hc1]
  subst r
  rw [eval_letFn]
  generalize hΔ : (fun g => if g = Sym.haszero then _ else _ : Fns α τ c.W) = Δ
  have hg := congrFun hΔ .haszero
  rw [if_pos rfl] at hg
  replace hg := hg.symm
  clear hΔ
  have hO : (BitVec.allOnes c.W / c.mask) >>> (c.W % c.bits) = oneMask c := rfl
  have hH : oneMask c <<< (c.bits - 1) = highMask c := rfl
  rw [hO, hH] at hg
  rw [hO, hH]
  have hz : ∀ v, decide (¬ (v - oneMask c) &&& ~~~v &&& highMask c = 0#c.W) = hasZero c v := by
    intro v
    by_cases h3 : (v - oneMask c) &&& ~~~v &&& highMask c = 0#c.W <;> simp [hasZero, h3]
  simp only [eval_seq, eval_for, eval_range, eval_num, eval_var, bind_val]
  simp [↓bindStep, text]
  rw [forLoop_search _ (.bool true) _ (fun j => match (h.get sl).storage.data[j]? with
      | some b => .ok (hasZero c (b ^^^ m))
      | none => .error .index)]
  · rw [anyBlocks_search]
    rcases search (fun j => match (h.get sl).storage.data[j]? with
      | some b => .ok (hasZero c (b ^^^ m))
      | none => .error .index) (blockIndex c (h.get sl).num).1 0 with e | _ | _
    · simp [Out.found, ↓bindStep, text]
    · by_cases h3 : (blockIndex c (h.get sl).num).2 = 0
      · simp [Out.found, ↓bindStep, text, h3]
      · rcases h4 : (h.get sl).storage.data[(blockIndex c (h.get sl).num).1]? with _ | b
        · simp [Out.found, ↓bindStep, text, h3, h4, EV.block, blkShl, hoff, eval_callv _ _ _ _ _ _ _ _ _ hg]
        · rcases h5 : hasZero c ((b ^^^ m) ||| BitVec.allOnes c.W <<< (blockIndex c (h.get sl).num).2) <;>
          simp [Out.found, ↓bindStep, text, h3, h4, EV.block, blkShl, hoff, eval_callv _ _ _ _ _ _ _ _ _ hg, hz, h5]
    · simp [Out.found, ↓bindStep, text]
  · intro j
    rcases h4 : (h.get sl).storage.data[j]? with _ | b
    · simp [Out.found, ↓bindStep, text, h4, eval_callv _ _ _ _ _ _ _ _ _ hg]
    · rcases h5 : hasZero c (b ^^^ m) <;>
      simp [Out.found, ↓bindStep, text, h4, eval_callv _ _ _ _ _ _ _ _ _ hg, hz, h5]

theorem text_all (d : Nat) (sl : Slot) (x : α) (w : Val α c.W) (h : Heap τ c.W) :
    call c u K (d + 3) .all [.vec sl, .elem x, w] h = .ofM h sl .bool (EV.all c x (h.get sl)) := by
  rw [call_eq u K (d + 2) (fn := f_all) rfl]
  by_cases h0 : (h.get sl).num = 0
  · simp [f_all, ↓bindStep, text, text_is_empty, isEmpty, len, h0, EV.all]
  have h1 : isEmpty c (h.get sl) = false := by simp [isEmpty, len, h0]
  have hb := hc.bits_pos
  have hbl := hc.bits_le
  have hmask : c.mask ≠ 0#c.W := mask_ne hc
  have hmod : c.W % c.bits < c.W := Nat.lt_of_lt_of_le (Nat.mod_lt _ hb) hbl
  have hbits : c.bits ≠ 0 := by omega
  have hoff : (blockIndex c (h.get sl).num).2 < c.W := off_lt hc _
  have hc1 : blkMul c.build.checked (BitVec.ofNat c.W (c.E.toDiscr x)) (oneMask c) = blkMul c.build.checked (BitVec.ofNat c.W (c.E.toDiscr x)) ((BitVec.allOnes c.W / c.mask) >>> (c.W % c.bits)) := rfl
  rcases hm : blkMul c.build.checked (BitVec.ofNat c.W (c.E.toDiscr x)) (oneMask c) with e | m <;> rw [hm] at hc1 <;> replace hc1 := hc1.symm
  · simp [f_all, ↓bindStep, text, text_is_empty, text_len, h1, text_block_index hc, hmask, hbits, blkShr, blkShl, hmod, EV.all, len, hm, hc1]
  simp [f_all, ↓bindStep, text, text_is_empty, text_len, h1, text_block_index hc, hmask, hbits, blkShr, blkShl, hmod, EV.all, len, hm, hc1]
  rw [forLoop_search _ (.bool false) _ (fun j => match (h.get sl).storage.data[j]? with
      | some b => .ok (decide (b &&& BitVec.allOnes c.W >>> (c.W % c.bits) ≠ m))
      | none => .error .index)]
  · rw [allBlocks_search]
    rcases search (fun j => match (h.get sl).storage.data[j]? with
      | some b => .ok (decide (b &&& BitVec.allOnes c.W >>> (c.W % c.bits) ≠ m))
      | none => .error .index) (blockIndex c (h.get sl).num).1 0 with e | _ | _
    · simp [Out.found, ↓bindStep, text, Except.map]
    · by_cases h3 : (blockIndex c (h.get sl).num).2 = 0
      · simp [Out.found, ↓bindStep, text, h3, Except.map]
      · rcases h4 : (h.get sl).storage.data[(blockIndex c (h.get sl).num).1]? with _ | b
        · simp [Out.found, ↓bindStep, text, h3, h4, EV.block, blkShl, hoff, Except.map]
        · by_cases h5 : b &&& ~~~(BitVec.allOnes c.W <<< (blockIndex c (h.get sl).num).2) = m &&& ~~~(BitVec.allOnes c.W <<< (blockIndex c (h.get sl).num).2) <;>
          simp [Out.found, ↓bindStep, text, h3, h4, EV.block, blkShl, hoff, h5, Except.map]
    · simp [Out.found, ↓bindStep, text, Except.map]
  · intro j
    rcases h4 : (h.get sl).storage.data[j]? with _ | b
    · simp [Out.found, ↓bindStep, text, h4]
    · by_cases h5 : b &&& BitVec.allOnes c.W >>> (c.W % c.bits) = m <;>
      simp [Out.found, ↓bindStep, text, h4, h5]

end Source
end EnumVecModel
