import Verif.Lemmas.Readable
import Verif.Props.Real

/-! # C73: exactly when all stored numbers stay readable -/

namespace EnumVecModel
open EV

variable {α τ : Type} {c : Inst α}

theorem upd_rd_iff {E : EnumLike α} {f : Nat → List Nat} (hf : ∀ q, Rd E (f q)) (r : Nat) (l : List Nat) : (∀ q, Rd E (upd f r l q)) ↔ Rd E l :=
  ⟨fun h => by have := h r; rwa [upd, if_pos rfl] at this, fun h q => by
    unfold upd; split
    · exact h
    · exact hf q⟩

theorem orEach_rd {E : EnumLike α} (a b : List Nat) : Rd E (orEach a b) ↔ ∀ k x y : Nat, a[k]? = some x → b[k]? = some y → E.fromDiscr (x ||| y) ≠ none := by
  constructor
  · intro h k x y hx hy
    refine h _ (List.mem_of_getElem? (i := k) ?_)
    show (List.zipWith _ a b)[k]? = _
    rw [List.getElem?_zipWith, hx, hy]
  · intro h d hd
    obtain ⟨k, hk⟩ := List.mem_iff_getElem?.mp hd
    unfold orEach at hk
    rw [List.getElem?_zipWith] at hk
    rcases hx : a[k]? with _ | x <;> rcases hy : b[k]? with _ | y <;> rw [hx, hy] at hk <;> try cases hk
    exact h k x y hx hy

theorem mapIdx_rd {E : EnumLike α} (l : List Nat) (f : Nat → Nat → Nat) : Rd E (l.mapIdx f) ↔ ∀ k d : Nat, l[k]? = some d → E.fromDiscr (f k d) ≠ none := by
  constructor
  · intro h k d hd
    exact h _ (List.mem_of_getElem? (i := k) (by rw [List.getElem?_mapIdx, hd]; rfl))
  · intro h d hd
    obtain ⟨k, hk⟩ := List.mem_iff_getElem?.mp hd
    rw [List.getElem?_mapIdx] at hk
    rcases hx : l[k]? with _ | x <;> rw [hx] at hk
    · cases hk
    · rw [← Option.some.inj hk]; exact h k x hx

/-- The positions `k` behind the block of `i` that are the last of their block. -/
theorem block_last {e i k : Nat} (he : 0 < e) (h1 : i / e < k / e) (h2 : (k + 1) % e = 0) : i < k ∧ k + 1 = (k / e + 1) * e := by
  refine ⟨Nat.lt_of_not_le fun h => absurd (Nat.div_le_div_right (c := e) h) (by omega), ?_⟩
  have h3 := Nat.div_add_mod k e
  have h4 := Nat.mod_lt k he
  have h5 : k % e + 1 = e := by
    by_cases hlt : k % e + 1 < e
    · exfalso
      have : (k + 1) % e = k % e + 1 := by
        rw [show k + 1 = (k % e + 1) + e * (k / e) by omega, Nat.add_mul_mod_self_left, Nat.mod_eq_of_lt hlt]
      omega
    · omega
  rw [Nat.add_mul, Nat.one_mul, Nat.mul_comm]; omega

theorem last_block {e i j : Nat} (he : 0 < e) (h : i / e < j) : i < (j + 1) * e - 1 ∧ ((j + 1) * e - 1) / e = j ∧ ((j + 1) * e - 1 + 1) % e = 0 := by
  have h1 : (j + 1) * e = j * e + e := by rw [Nat.add_mul, Nat.one_mul]
  have h2 : ((j + 1) * e - 1) / e = j := by
    rw [show (j + 1) * e - 1 = (e - 1) + e * j by rw [h1, Nat.mul_comm j e]; omega, Nat.add_mul_div_left _ _ he, Nat.div_eq_of_lt (by omega)]; omega
  refine ⟨Nat.lt_of_not_le fun h' => ?_, h2, ?_⟩
  · have := Nat.div_le_div_right (c := e) h'
    omega
  · rw [Nat.sub_add_cancel (by omega)]; exact Nat.mul_mod_left _ _

theorem remove_rd (hc : c.Sound) (s : EV c.W) {l : List Nat} (h : Rd c.E l) (i : Nat) (hi : i < l.length) :
    Rd c.E (realRemove c s l i) ↔
      if c.bits < c.W then ∀ j d : Nat, i / c.epb < j → l[(j + 1) * c.epb]? = some d → c.E.fromDiscr (unusedBits c s j ||| d) ≠ none
      else ∀ k a b : Nat, i < k → l[k]? = some a → l[k + 1]? = some b → c.E.fromDiscr (a ||| b) ≠ none := by
  have he : 0 < c.epb := hc.epb_pos
  unfold realRemove
  rw [mapIdx_rd]
  by_cases hw : c.bits < c.W
  · simp only [if_pos hw]
    constructor
    · intro g j d hj hd
      obtain ⟨q1, q2, q3⟩ := last_block he hj
      have hd' : (l.eraseIdx i)[(j + 1) * c.epb - 1]? = some d := by
        rw [List.getElem?_eraseIdx, if_neg (by omega), Nat.sub_add_cancel (Nat.mul_pos (by omega) he), hd]
      have := g _ d hd'
      rwa [if_pos ⟨by rw [q2]; exact hj, q3⟩, q2] at this
    · intro g k d hd
      split
      · next hk =>
        obtain ⟨q1, q2⟩ := block_last he hk.1 hk.2
        rw [List.getElem?_eraseIdx, if_neg (by omega), q2] at hd
        exact g _ d hk.1 hd
      · exact h d (List.mem_of_mem_eraseIdx (List.mem_of_getElem? hd))
  · simp only [if_neg hw]
    constructor
    · intro g k a b hk ha hb
      have hd' : (l.eraseIdx i)[k]? = some b := by rw [List.getElem?_eraseIdx, if_neg (by omega), hb]
      have := g k b hd'
      rwa [if_pos hk, List.getD_eq_getElem?_getD, ha] at this
    · intro g k d hd
      split
      · next hk =>
        rw [List.getElem?_eraseIdx, if_neg (by omega)] at hd
        obtain ⟨q, -⟩ := List.getElem?_eq_some_iff.mp hd
        have ha : l[k]? = some l[k] := List.getElem?_eq_getElem _
        rw [List.getD_eq_getElem?_getD, ha]
        exact g k _ d hk ha hd
      · exact h d (List.mem_of_mem_eraseIdx (List.mem_of_getElem? hd))

/-- What `realStep` gives in vectors of readable numbers. -/
theorem realStep_rd (hc : c.Sound) (hE : ∀ x, c.E.fromDiscr (c.E.toDiscr x) ≠ none) (m : Mem c τ) (v : Vecs Nat τ) (h : AllReadable c v) (op : Op τ α) :
    (realStep c m v op).1 ≠ .invalid ∧ (AllReadable c (realStep c m v op).2 ↔ KeepsReadable c m v op) := by
  have easy : ∀ {op : Op τ α}, realStep c m v op = numStep c.E v op → KeepsReadable c m v op → (realStep c m v op).1 ≠ .invalid ∧ (AllReadable c (realStep c m v op).2 ↔ KeepsReadable c m v op) :=
    fun {op} e k => by rw [e]; exact ⟨(numStep_rd hE v h op).1, fun _ => k, fun _ => (numStep_rd hE v h op).2⟩
  cases op with
  | insert r i x =>
    have hu := upd_rd_iff (f := v.reg) h r (realInsert c (v.reg r) i (c.E.toDiscr x)).2
    have hp : Rd c.E (v.reg r ++ [c.E.toDiscr x]) := (Rd.append (h r) (Rd.cons (hE x) Rd.nil))
    have hg : Rd c.E ((v.reg r).take i ++ c.E.toDiscr x :: (v.reg r).drop i) := Rd.append (Rd.take (h r) i) (Rd.cons (hE x) (Rd.drop (h r) i))
    show (realInsert c (v.reg r) i (c.E.toDiscr x)).1 ≠ .invalid ∧ ((∀ q, Rd c.E (upd v.reg r _ q)) ↔ _)
    rw [hu]
    unfold realInsert KeepsReadable
    by_cases h1 : (v.reg r).length < i
    · rw [if_pos h1]
      refine ⟨?_, fun _ g => absurd g (by omega), fun _ => hp⟩
      dsimp only
      split <;> exact nofun
    · rw [if_neg h1]
      by_cases h2 : c.bits < c.W
      · rw [if_pos h2]
        exact ⟨nofun, fun _ _ g => absurd h2 g, fun _ => hg⟩
      · rw [if_neg h2]
        by_cases h3 : c.build.checked = true
        · rw [if_pos h3]
          exact ⟨nofun, fun _ _ _ g => absurd h3 (by rw [g]; exact nofun), fun _ => hp⟩
        · rw [if_neg h3]
          refine ⟨nofun, ?_⟩
          rw [orEach_rd]
          exact ⟨fun g _ _ _ => g, fun g => g (by omega) h2 (by simpa using h3)⟩
  | remove r i =>
    unfold realStep
    dsimp only
    rcases hd : (v.reg r)[i]? with _ | d <;> dsimp only
    · have hlen : (v.reg r).length ≤ i := List.getElem?_eq_none_iff.mp hd
      refine ⟨nofun, fun _ => ?_, fun _ => h⟩
      unfold KeepsReadable; dsimp only
      split
      · intro j d hj hd
        obtain ⟨q1, -⟩ := last_block hc.epb_pos hj
        obtain ⟨q2, -⟩ := List.getElem?_eq_some_iff.mp hd
        omega
      · intro _ k a b hk ha
        obtain ⟨q2, -⟩ := List.getElem?_eq_some_iff.mp ha
        omega
    obtain ⟨hlen, -⟩ := List.getElem?_eq_some_iff.mp hd
    rcases hx : c.E.fromDiscr d with _ | x <;> dsimp only
    · exact absurd hx (h r d (List.mem_of_getElem? hd))
    split
    · next hw =>
      refine ⟨nofun, ?_, fun _ => ?_⟩
      · intro _
        unfold KeepsReadable; dsimp only
        rw [if_neg hw.1]
        intro g; exact absurd hw.2.1 (by rw [g]; exact nofun)
      · refine (upd_rd_iff (f := v.reg) h r _).mpr (Rd.dropLast (Rd.set (h r) i ?_))
        rw [List.getD_eq_getElem?_getD, List.getElem?_eq_getElem (show i + 1 < (v.reg r).length by omega)]
        exact h r _ (List.getElem_mem _)
    · next hw =>
      refine ⟨nofun, (upd_rd_iff (f := v.reg) h r _).trans ((remove_rd hc (m.reg r) (h r) i hlen).trans ?_)⟩
      unfold KeepsReadable
      by_cases h2 : c.bits < c.W
      · simp only [if_pos h2]
      · simp only [if_neg h2]
        refine ⟨fun g _ => g, fun g => ?_⟩
        by_cases h3 : c.build.checked = true
        · intro k a b hk ha hb
          obtain ⟨q2, -⟩ := List.getElem?_eq_some_iff.mp hb
          exact absurd ⟨h2, h3, by omega⟩ hw
        · exact g (by simpa using h3)
  | extend r it =>
    by_cases hfew : it.items.length < it.hint
    · simp only [realStep, if_pos hfew]
      refine ⟨nofun, (upd_rd_iff (f := v.reg) h r _).trans ?_⟩
      unfold KeepsReadable
      constructor
      · intro g k h1 h2
        exact g _ (List.mem_append_right _ (List.mem_map.mpr ⟨k, List.mem_range'_1.mpr ⟨h1, by omega⟩, rfl⟩))
      · intro g
        refine Rd.append (Rd.append (h r) (Rd.map hE _)) fun d hd => ?_
        obtain ⟨k, hk, rfl⟩ := List.mem_map.mp hd
        obtain ⟨h1, h2⟩ := List.mem_range'_1.mp hk
        exact g k h1 (by omega)
    · exact easy (by simp only [realStep, if_neg hfew]) (fun k h1 h2 => by omega)
  | fromIter r it =>
    by_cases hfew : it.items.length < it.hint
    · simp only [realStep, if_pos hfew]
      exact ⟨nofun, fun _ => trivial, fun _ => h⟩
    · exact easy (by simp only [realStep, if_neg hfew]) trivial
  | _ => exact easy rfl trivial

/-- **C73** Every number that is stored can be read as long as, and no longer than, the calls satisfy `KeepsReadable`: a call that finds only readable numbers never fails to read one, and it leaves only
readable numbers if, and only if, `KeepsReadable` holds for it. -/
theorem C73_readable_iff (hc : c.Sound) (hr : ∀ x, c.E.toDiscr x < 2 ^ c.bits) (hE : ∀ x, c.E.fromDiscr (c.E.toDiscr x) ≠ none) {m : Mem c τ} {v : Vecs Nat τ} (h : NumSame c m v)
    (ha : AllReadable c v) (op : Op τ α) (hb : op.Borrows) (hs : Sane c v op) (hoom : (step c m op).1 ≠ .oom) :
    (step c m op).1 ≠ .invalid ∧
    ((∀ r d, d ∈ ((realStep c m v op).2.reg r) → c.E.fromDiscr d ≠ none) ↔ KeepsReadable c m v op) ∧
    ∀ r, IsNums c ((step c m op).2.reg r) ((realStep c m v op).2.reg r) := by
  obtain ⟨g1, g2⟩ := C73_exact hc hr h op hb hs hoom
  obtain ⟨g3, g4⟩ := realStep_rd hc hE m v ha op
  exact ⟨by rw [g1]; exact g3, g4, g2.reg⟩

theorem readableRun_iff (hc : c.Sound) (hE : ∀ x, c.E.fromDiscr (c.E.toDiscr x) ≠ none) : ∀ (ops : List (Op τ α)) (m : Mem c τ) (v : Vecs Nat τ), AllReadable c v →
    (ReadableRun c ops m v ↔ KeepsRun c ops m v) ∧ (KeepsRun c ops m v → .invalid ∉ (realRun c ops m v).1)
  | [], _, _, _ => ⟨Iff.rfl, fun _ h => by cases h⟩
  | o :: os, m, v, h => by
    obtain ⟨g1, g2⟩ := realStep_rd hc hE m v h o
    refine ⟨⟨fun k => ⟨g2.mp k.1, (readableRun_iff hc hE os _ _ k.1).1.mp k.2⟩, fun k => ⟨g2.mpr k.1, (readableRun_iff hc hE os _ _ (g2.mpr k.1)).1.mpr k.2⟩⟩, fun k hk => ?_⟩
    rcases List.mem_cons.mp hk with e | hk
    · exact g1 e.symm
    · exact (readableRun_iff hc hE os _ _ (g2.mpr k.1)).2 k.2 hk

/-- **C73** for histories: after every call every stored number can be read if, and only if, each call satisfies `KeepsReadable` in the state it finds; and then no call fails to read a number. -/
theorem C73_readable_history (hc : c.Sound) (hr : ∀ x, c.E.toDiscr x < 2 ^ c.bits) (hE : ∀ x, c.E.fromDiscr (c.E.toDiscr x) ≠ none) (ops : List (Op τ α)) {m : Mem c τ} {v : Vecs Nat τ}
    (h : NumSame c m v) (ha : AllReadable c v) (hb : ∀ op ∈ ops, op.Borrows) (hs : SaneRun c ops m v) (hoom : .oom ∉ (runAll c ops m).1) :
    (ReadableRun c ops m v ↔ KeepsRun c ops m v) ∧ (KeepsRun c ops m v → .invalid ∉ (runAll c ops m).1) := by
  obtain ⟨g1, g2⟩ := readableRun_iff hc hE ops m v ha
  refine ⟨g1, ?_⟩
  rw [(C73_history hc hr ops h hb hs hoom).1]
  exact g2

/-- **C29** The exact condition, from the start: after every call every stored number is the number of a variant if, and only if, each call satisfies `KeepsReadable`; then no call ever fails to read one. -/
theorem C29_exact (hc : c.Sound) (hr : ∀ x, c.E.toDiscr x < 2 ^ c.bits) (hE : ∀ x, c.E.fromDiscr (c.E.toDiscr x) ≠ none) (w : τ) (ops : List (Op τ α))
    (hb : ∀ op ∈ ops, op.Borrows) (hs : SaneRun c ops (Mem.start c w) ⟨fun _ => [], w⟩) (hoom : .oom ∉ (runAll c ops (Mem.start c w)).1) :
    (ReadableRun c ops (Mem.start c w) ⟨fun _ => [], w⟩ ↔ KeepsRun c ops (Mem.start c w) ⟨fun _ => [], w⟩) ∧
    (KeepsRun c ops (Mem.start c w) ⟨fun _ => [], w⟩ → .invalid ∉ (runAll c ops (Mem.start c w)).1) :=
  C73_readable_history hc hr hE ops ⟨rfl, fun _ => isNums_of_raw hc (new_safe hc) rfl nofun⟩ (fun _ _ h => by cases h) hb hs hoom

/-! ## Concrete cases -/

/-- Five variants, three bits, in 32-bit blocks: two unused bits in each block. -/
abbrev c5 : Inst (Fin 5) := exInst 32 5 debug64 false

theorem c5_ok : c5.Ok := exInst_ok _ _ (by omega) (by omega) (by omega) (by omega)

theorem fin_fits {W n : Nat} (b : Build) (s : Bool) (h : (exInst W n b s).Ok) : ∀ x, (exInst W n b s).E.toDiscr x < 2 ^ (exInst W n b s).bits := h.toDiscr_lt

theorem fin_reads {W n : Nat} (b : Build) (s : Bool) (h : (exInst W n b s).Ok) : ∀ x, (exInst W n b s).E.fromDiscr ((exInst W n b s).E.toDiscr x) ≠ none := fun x e => by
  rw [h.contract.roundtrip x] at e; cases e

theorem start_nums (hc : c.Sound) (w : τ) : NumSame c (Mem.start c w) ⟨fun _ => [], w⟩ := ⟨rfl, fun _ => isNums_of_raw hc (new_safe hc) rfl nofun⟩

/-- The unused bits are not zero after `resize`, but `remove` only adds bits that are there already. -/
def quietRun : List (Op Nat (Fin 5)) := [.resize 0 50 3, .set 0 17 2, .remove 0 0]

theorem quietRun_sane : SaneRun c5 quietRun (Mem.start _ 0) ⟨fun _ => [], 0⟩ := ⟨trivial, trivial, trivial, trivial⟩

theorem keeps_remove {m : Mem c τ} {v : Vecs Nat τ} {r i : Nat} (hw : c.bits < c.W)
    (h : ∀ j, j < (v.reg r).length → i / c.epb < j → ((v.reg r)[(j + 1) * c.epb]?).all (fun d => (c.E.fromDiscr (unusedBits c (m.reg r) j ||| d)).isSome) = true) (he : 0 < c.epb) :
    KeepsReadable c m v (.remove r i) := by
  unfold KeepsReadable; dsimp only
  rw [if_pos hw]
  intro j d hj hd e
  obtain ⟨q1, -⟩ := List.getElem?_eq_some_iff.mp hd
  have := h j (Nat.lt_of_lt_of_le (Nat.lt_succ_self j) (Nat.le_trans (Nat.le_mul_of_pos_right _ he) (Nat.le_of_lt q1))) hj
  rw [hd, Option.all_some, e] at this
  cases this

theorem quietRun_keeps : KeepsRun c5 quietRun (Mem.start _ 0) ⟨fun _ => [], 0⟩ :=
  ⟨trivial, trivial, keeps_remove (by decide) (by decide +kernel) (by decide), trivial⟩

example : .invalid ∉ (runAll c5 quietRun (Mem.start c5 0)).1 :=
  (C73_readable_history (c := c5) c5_ok.sound (fin_fits _ _ c5_ok) (fin_reads _ _ c5_ok) quietRun (start_nums c5_ok.sound 0) (fun _ _ h => by cases h)
    (by intro op h; simp only [quietRun, List.mem_cons, List.not_mem_nil, or_false] at h; rcases h with rfl | rfl | rfl <;> exact trivial) quietRun_sane (by decide +kernel)).2 quietRun_keeps

/-- With a 4 at the right place, the same `remove` leaves a 7, which is the number of no variant. -/
def noisyRun : List (Op Nat (Fin 5)) := [.resize 0 50 3, .set 0 30 4, .remove 0 0]

theorem noisyRun_breaks : ¬ KeepsRun c5 noisyRun (Mem.start _ 0) ⟨fun _ => [], 0⟩ := fun h =>
  (h.2.2.1 : ∀ j d : Nat, _ → _ → _) 2 4 (by decide +kernel) (by decide +kernel) (by decide +kernel)

example : ¬ ReadableRun c5 noisyRun (Mem.start _ 0) ⟨fun _ => [], 0⟩ := fun h =>
  noisyRun_breaks ((C73_readable_history (c := c5) c5_ok.sound (fin_fits _ _ c5_ok) (fin_reads _ _ c5_ok) noisyRun (start_nums c5_ok.sound 0) (fun _ _ h => by cases h)
    (by intro op h; simp only [noisyRun, List.mem_cons, List.not_mem_nil, or_false] at h; rcases h with rfl | rfl | rfl <;> exact trivial) ⟨trivial, trivial, trivial, trivial⟩
    (by decide +kernel)).1.mp h)

example : (realRun c5 (noisyRun ++ [.get 0 29, .get 0 28]) (Mem.start _ 0) ⟨fun _ => [], 0⟩).1 = [.unit, .unit, .val 3, .invalid, .item (some 3)] := by decide +kernel
example : (runAll c5 (noisyRun ++ [.get 0 29, .get 0 28]) (Mem.start _ 0)).1 = [.unit, .unit, .val 3, .invalid, .item (some 3)] := by decide +kernel

/-- Elements as wide as blocks, debug and release build; `insert` beyond the end; an iterator that promised five items more than it has. -/
def wideRun : List (Op Nat (Fin 200)) :=
  [.fromVec 0 [1, 2, 3, 4, 5], .insert 0 1 64, .toVec 0, .remove 0 0, .toVec 0, .insert 0 70 9, .toVec 0, .truncate 0 2, .extend 0 ⟨4, [7], false⟩, .toVec 0]

example : (realRun c200 wideRun (Mem.start _ 0) ⟨fun _ => [], 0⟩).1 =
    [.unit, .panic, .list [1, 2, 3, 4, 5, 64], .panic, .list [2, 2, 3, 4, 5], .unit, .list [2, 2, 3, 4, 5, 9], .unit, .panic, .list [2, 2, 7, 4, 5, 9]] := by decide +kernel

example : (realRun c200r wideRun (Mem.start _ 0) ⟨fun _ => [], 0⟩).1 =
    [.unit, .unit, .list [1, 66, 3, 7, 5, 69], .val 1, .list [66, 67, 7, 7, 69], .unit, .list [66, 67, 7, 7, 69, 9], .unit, .panic, .list [66, 67, 7, 7, 69, 9]] := by decide +kernel

example : (runAll c200r wideRun (Mem.start c200r 0)).1 = (realRun c200r wideRun (Mem.start _ 0) ⟨fun _ => [], 0⟩).1 :=
  (C73_start (c := c200r) c200r_ok.sound (fin_fits _ _ c200r_ok) 0 wideRun
    (by intro op h; simp only [wideRun, List.mem_cons, List.not_mem_nil, or_false] at h; rcases h with rfl | rfl | rfl | rfl | rfl | rfl | rfl | rfl | rfl | rfl <;> exact trivial)
    ⟨(by decide +kernel : ¬ c200r.AtLimit _), trivial, trivial, trivial, trivial, trivial, trivial, trivial, (by decide +kernel : ¬ c200r.AtLimit _), trivial, trivial⟩ (by decide +kernel)).1

end EnumVecModel
