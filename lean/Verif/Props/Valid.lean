import Verif.Lemmas.NoBad
import Verif.Props.History

/-! # Validity of the stored discriminants (C29) -/

namespace EnumVecModel
open EV

variable {α τ : Type} {c : Inst α}

theorem runAll_valid (hc : c.Ok) (hE : c.E.Consecutive) : ∀ (ops : List (Op τ α)) {k : Nat → Mark} {m : Mem c τ},
    ValidMem c k m → Along c (ValidUse c) ops k m →
    .invalid ∉ (runAll c ops m).1 ∧ .ub ∉ (runAll c ops m).1 ∧ ValidMem c (runMarksAll c ops k m) (runAll c ops m).2
  | [], _, _, h, _ => ⟨by simp [runAll], by simp [runAll], h⟩
  | o :: os, k, m, h, ha => by
    obtain ⟨h1, h2⟩ := step_valid hc hE h o ha.1
    have h0 := (step_safe hc (fun r => (h r).safe) o ha.1.1).1
    obtain ⟨h3, h4, h5⟩ := runAll_valid hc hE os h2 ha.2
    refine ⟨?_, ?_, h5⟩
    · simp only [runAll, List.mem_cons, not_or]
      exact ⟨fun h => h1 h.symm, h3⟩
    · simp only [runAll, List.mem_cons, not_or]
      exact ⟨fun h => h0 h.symm, h4⟩

theorem start_valid (hc : c.Ok) (w : τ) : ValidMem c (fun _ => .clean) (Mem.start c w) :=
  fun _ => ⟨new_safe hc, new_valid hc, new_clean hc⟩

/-- **C29 (partial)** In a history without the calls that mix bits (`ValidUse`), continued after every panic, no call has
`from_discr` fail (nor undefined behaviour), and at the end every number in the storage of every variable that is not
dead, also behind its length, is a discriminant, and every `get` inside the bounds returns a value.

Full claim: for all histories. It is false: `C29_wrong`. -/
theorem C29_valid_partial (hc : c.Ok) (hE : c.E.Consecutive) (w : τ) (ops : List (Op τ α))
    (ha : Along c (ValidUse c) ops (fun _ => .clean) (Mem.start c w)) :
    .invalid ∉ (runAll c ops (Mem.start c w)).1 ∧ .ub ∉ (runAll c ops (Mem.start c w)).1 ∧
    ∀ r, runMarksAll c ops (fun _ => .clean) (Mem.start c w) r ≠ .dead →
      AllValid c ((runAll c ops (Mem.start c w)).2.reg r) ∧
      ∀ i, i < EV.len c ((runAll c ops (Mem.start c w)).2.reg r) →
        ∃ a, EV.get c i ((runAll c ops (Mem.start c w)).2.reg r) =
          (.ok (some a), (runAll c ops (Mem.start c w)).2.reg r) := by
  obtain ⟨h1, h2, h3⟩ := runAll_valid hc hE ops (start_valid hc w) ha
  refine ⟨h1, h2, fun r hr => ?_⟩
  obtain ⟨h4, h5⟩ := (h3 r).live hr
  exact ⟨(allValid_iff hc _).mpr h5, fun i hi => Valid.get hc hE h4 h5 hi⟩

/-- A 5-variant enum in 32-bit blocks: 3 of the 8 bit patterns are invalid, 2 bits per block are unused. The history has
garbage in unused bits, dishonest and panicking iterators, panicking closures, calls beyond the end. -/
def validHistory : List (Op Nat (Fin 5)) :=
  [.fromElem 0 3 50, .set 0 30 4, .insert 0 2 1, .remove 0 48, .clone 1 0, .insert 1 1000 4, .toVec 1,
   .extend 0 ⟨30, [1, 2], false⟩, .len 0, .toVec 0, .fromSlice 2 [1, 2, 3, 4, 0, 1, 2, 3, 4, 0, 1, 2], .remove 2 0,
   .append 3 2, .clear 2, .push 2 4, .remove 3 3, .append 3 2,
   .retain 3 (fun x n => (if n = 7 then none else some (x != 2), n + 1)), .toVec 3, .hash 3,
   .forEach 3 (fun x n => (if n = 9 then none else some (x + 1), n + 1)), .toVec 3, .swap 3 0 99, .pop 3]

example : Along (exInst 32 5 debug64 false) (ValidUse _) validHistory (fun _ => .clean) (Mem.start _ 0) := by decide +kernel

/-- **C29 is false in full**: this history makes `from_discr` fail. -/
theorem C29_wrong :
    (runAll (exInst 32 5 debug64 false)
      ([.resize 0 50 3, .set 0 30 4, .remove 0 0, .get 0 29] : List (Op Nat (Fin 5))) (Mem.start _ 0)).1 =
      [.unit, .unit, .val 3, .invalid] := by decide +kernel

theorem runAll_full (hc : c.Ok) (hE : c.E.Consecutive) (hf : c.E.num = 2 ^ c.bits) :
    ∀ (ops : List (Op τ α)) {k : Nat → Mark} {m : Mem c τ},
    SafeMem c k m → Along c (SafeUse c) ops k m → .invalid ∉ (runAll c ops m).1
  | [], _, _, _, _ => by simp [runAll]
  | o :: os, k, m, h, ha => by
    have h1 := step_full hc hE hf h o ha.1
    have h3 := runAll_full hc hE hf os (step_safe hc h o ha.1).2 ha.2
    simp only [runAll, List.mem_cons, not_or]
    exact ⟨fun h => h1 h.symm, h3⟩

/-- **C29** If the number of variants is a power of two, every memory-safe history is fine: elements may be wrong (C01)
but never invalid. -/
theorem C29_power_of_two (hc : c.Ok) (hE : c.E.Consecutive) (w : τ) {e : Nat} (he : c.E.num = 2 ^ e)
    (ops : List (Op τ α)) (ha : Along c (SafeUse c) ops (fun _ => .clean) (Mem.start c w)) :
    .invalid ∉ (runAll c ops (Mem.start c w)).1 := by
  have h1 := hc.num_le
  have h2 := (bitsPerElem_spec _ hc.num_gt hc.few).2.2.2
  have hb : c.bits = e := by
    rcases Nat.lt_trichotomy c.bits e with h | h | h
    · rw [he] at h1
      exact absurd ((Nat.pow_le_pow_iff_right (by omega)).mp h1) (by omega)
    · exact h
    · exact absurd (h2 e h) (by rw [he]; omega)
  exact runAll_full hc hE (by rw [hb]; exact he) ops (k := fun _ => .clean) (fun _ => new_safe hc) ha

example : c8.E.num = 2 ^ 3 ∧ c8.E.Consecutive ∧
    Along c8 (SafeUse c8) badHistory (fun _ => .clean) (Mem.start c8 0) :=
  ⟨rfl, finLike_consecutive 8, by decide +kernel⟩

/-! ## Only stored values -/

section
variable {S : α → Prop}

theorem all_set {l : List α} (h : ∀ y ∈ l, S y) {x : α} (hx : S x) (i : Nat) : ∀ y ∈ l.set i x, S y := fun y hy => by
  rcases List.mem_or_eq_of_mem_set hy with hy | rfl
  · exact h y hy
  · exact hx

theorem all_upd {f : Nat → List α} (h : ∀ r, ∀ y ∈ f r, S y) {l : List α} (hl : ∀ y ∈ l, S y) (r : Nat) :
    ∀ q, ∀ y ∈ upd f r l q, S y := fun q => by
  unfold upd; split
  · exact hl
  · exact h q

theorem filterSpec_mem (f : Closure τ α Bool) : ∀ (l : List α) (w : τ), (∀ y ∈ (filterSpec f l w).1, y ∈ l) ∧
    ∀ y ∈ filterRest f l w, y ∈ l
  | [], w => ⟨by simp [filterSpec], by simp [filterRest]⟩
  | x :: xs, w => by
    unfold filterSpec filterRest
    rcases hx : f x w with ⟨_ | b, w'⟩
    · simp
    · have := filterSpec_mem f xs w'
      cases b
      · exact ⟨fun y hy => by simp [this.1 y hy], fun y hy => by simp [this.2 y hy]⟩
      · refine ⟨fun y hy => ?_, fun y hy => by simp [this.2 y hy]⟩
        rcases List.mem_cons.mp hy with rfl | hy
        · simp
        · simp [this.1 y hy]

theorem mapSpec_mem (f : Closure τ α α) (hf : ∀ x w y w', f x w = (some y, w') → S y) : ∀ (l : List α) (w : τ),
    (∀ y ∈ l, S y) → ∀ y ∈ (mapSpec f l w).1, S y
  | [], w, _ => by simp [mapSpec]
  | x :: xs, w, hl => by
    unfold mapSpec
    rcases hx : f x w with ⟨_ | b, w'⟩
    · exact hl
    · intro y hy
      rcases List.mem_cons.mp hy with rfl | hy
      · exact hf _ _ _ _ hx
      · exact mapSpec_mem f hf xs w' (fun y hy => hl y (by simp [hy])) y hy

theorem iterSpecRun_mem : ∀ (os : List IterOp) (l : List α), (∀ y ∈ l, S y) →
    ∀ y ∈ (Out.iter (iterSpecRun os l).1).values, S y
  | [], l, _ => by simp [iterSpecRun, Out.values]
  | o :: os, l, hl => by
    have key : (∀ y ∈ (Out.iter [(iterSpec l o).1]).values, S y) ∧ ∀ y ∈ (iterSpec l o).2, S y := by
      cases o with
      | next =>
        cases l with
        | nil => simp [iterSpec, Out.values]
        | cons x xs => simpa [iterSpec, Out.values] using hl
      | nextBack =>
        refine ⟨fun y hy => hl y ?_, fun y hy => hl y (List.dropLast_subset l hy)⟩
        simp only [iterSpec, Out.values, List.flatMap_cons, List.flatMap_nil, List.append_nil, Option.mem_toList] at hy
        exact List.mem_of_getLast? hy
      | nth n =>
        refine ⟨fun y hy => hl y ?_, fun y hy => hl y (List.mem_of_mem_drop hy)⟩
        simp only [iterSpec, Out.values, List.flatMap_cons, List.flatMap_nil, List.append_nil, Option.mem_toList] at hy
        exact List.mem_of_getElem? hy
      | sizeHint => simpa [iterSpec, Out.values] using hl
    have ih := iterSpecRun_mem os (iterSpec l o).2 key.2
    intro y hy
    have : (Out.iter (iterSpecRun (o :: os) l).1).values =
        (Out.iter [(iterSpec l o).1]).values ++ (Out.iter (iterSpecRun os (iterSpec l o).2).1).values := by
      simp [iterSpecRun, Out.values]
    rw [this] at hy
    rcases List.mem_append.mp hy with hy | hy
    · exact key.1 y hy
    · exact ih y hy

variable [DecidableEq α]

theorem vecStep_stored {E : EnumLike α} {v : Vecs α τ} (h : ∀ r, ∀ y ∈ v.reg r, S y) (op : Op τ α)
    (ho : ∀ y, op.Stores y → S y) :
    (∀ y ∈ (vecStep E v op).1.values, S y) ∧ ∀ r, ∀ y ∈ (vecStep E v op).2.reg r, S y := by
  have hopt : ∀ {o : Option α}, (∀ y, o = some y → S y) → ∀ y ∈ o.toList, S y := fun ho y hy => ho y (by simpa using hy)
  cases op with
  | fromElem r x n =>
    exact ⟨nofun, all_upd h (fun y hy => ho y (List.eq_of_mem_replicate hy)) r⟩
  | fromIter r it =>
    simp only [vecStep]; split
    · exact ⟨nofun, h⟩
    · exact ⟨nofun, all_upd h ho r⟩
  | fromVec r xs => exact ⟨nofun, all_upd h ho r⟩
  | fromSlice r xs => exact ⟨nofun, all_upd h ho r⟩
  | new r => exact ⟨nofun, all_upd h (by simp) r⟩
  | withCapacity r n => exact ⟨nofun, all_upd h (by simp) r⟩
  | clone r s => exact ⟨nofun, all_upd h (h s) r⟩
  | len r => exact ⟨nofun, h⟩
  | isEmpty r => exact ⟨nofun, h⟩
  | get r i => exact ⟨hopt fun y hy => h r y (List.mem_of_getElem? hy), h⟩
  | set r i x =>
    simp only [vecStep]; split
    · exact ⟨nofun, all_upd h (all_set (h r) (ho x rfl) i) r⟩
    · exact ⟨nofun, h⟩
  | push r x =>
    refine ⟨nofun, all_upd h (fun y hy => ?_) r⟩
    rcases List.mem_append.mp hy with hy | hy
    · exact h r y hy
    · exact ho y (List.mem_singleton.mp hy)
  | pop r =>
    exact ⟨hopt fun y hy => h r y (List.mem_of_getLast? hy), all_upd h (fun y hy => h r y (List.dropLast_subset _ hy)) r⟩
  | insert r i x =>
    simp only [vecStep]; split
    · refine ⟨nofun, all_upd h (fun y hy => ?_) r⟩
      rcases List.mem_append.mp hy with hy | hy
      · exact h r y (List.mem_of_mem_take hy)
      · rcases List.mem_cons.mp hy with rfl | hy
        · exact ho y rfl
        · exact h r y (List.mem_of_mem_drop hy)
    · exact ⟨nofun, h⟩
  | remove r i =>
    simp only [vecStep]; split
    · next x hx =>
      refine ⟨fun y hy => ?_, all_upd h (fun y hy => ?_) r⟩
      · have : y = x := by simpa [Out.values] using hy
        subst this; exact h r y (List.mem_of_getElem? hx)
      · rcases List.mem_append.mp hy with hy | hy
        · exact h r y (List.mem_of_mem_take hy)
        · exact h r y (List.mem_of_mem_drop hy)
    · exact ⟨nofun, h⟩
  | swap r i j =>
    simp only [vecStep]; split
    · next x y hx hy =>
      exact ⟨nofun, all_upd h (all_set (all_set (h r) (h r _ (List.mem_of_getElem? hy)) _) (h r _ (List.mem_of_getElem? hx)) _) r⟩
    · exact ⟨nofun, h⟩
  | swapRemove r i =>
    simp only [vecStep]; split
    · next x y hx hy =>
      refine ⟨fun z hz => ?_, all_upd h (fun z hz => ?_) r⟩
      · have : z = x := by simpa [Out.values] using hz
        subst this; exact h r z (List.mem_of_getElem? hx)
      · exact all_set (h r) (h r _ (List.mem_of_getLast? hy)) i z (List.dropLast_subset _ hz)
    · exact ⟨nofun, h⟩
  | truncate r n => exact ⟨nofun, all_upd h (fun y hy => h r y (List.mem_of_mem_take hy)) r⟩
  | clear r => exact ⟨nofun, all_upd h (by simp) r⟩
  | resize r n x =>
    refine ⟨nofun, all_upd h (fun y hy => ?_) r⟩
    rcases List.mem_append.mp hy with hy | hy
    · exact h r y (List.mem_of_mem_take hy)
    · exact ho y (List.eq_of_mem_replicate hy)
  | reserve r n => exact ⟨nofun, h⟩
  | shrinkToFit r => exact ⟨nofun, h⟩
  | extend r it =>
    refine ⟨?_, all_upd h (fun y hy => ?_) r⟩
    · simp only [vecStep]; split <;> nofun
    · rcases List.mem_append.mp hy with hy | hy
      · exact h r y hy
      · exact ho y hy
  | append r o =>
    refine ⟨nofun, all_upd (all_upd h (fun y hy => ?_) r) (by simp) o⟩
    rcases List.mem_append.mp hy with hy | hy
    · exact h r y hy
    · exact h o y hy
  | splitOff r a d =>
    simp only [vecStep]; split
    · exact ⟨nofun, all_upd (all_upd h (fun y hy => h r y (List.mem_of_mem_take hy)) r)
        (fun y hy => h r y (List.mem_of_mem_drop hy)) d⟩
    · exact ⟨nofun, h⟩
  | retain r f =>
    have h1 := filterSpec_mem f (v.reg r) v.world
    simp only [vecStep]; split
    · next kept w hx =>
      rw [hx] at h1
      exact ⟨nofun, all_upd h (fun y hy => h r y (h1.1 y hy)) r⟩
    · next kept w hx =>
      rw [hx] at h1
      refine ⟨nofun, all_upd h (fun y hy => ?_) r⟩
      rcases List.mem_append.mp hy with hy | hy
      · exact h r y (h1.1 y hy)
      · exact h r y (h1.2 y hy)
  | forEach r f =>
    have h1 := mapSpec_mem (S := S) f (fun x w y w' hx => ho y ⟨x, w, w', hx⟩) (v.reg r) v.world (h r)
    simp only [vecStep]; split
    · next l w hx => rw [hx] at h1; exact ⟨nofun, all_upd h h1 r⟩
    · next l w hx => rw [hx] at h1; exact ⟨nofun, all_upd h h1 r⟩
  | eq r o => exact ⟨nofun, h⟩
  | any r x => exact ⟨nofun, h⟩
  | all r x => exact ⟨nofun, h⟩
  | toVec r => exact ⟨h r, h⟩
  | iterate r calls => exact ⟨iterSpecRun_mem calls (v.reg r) (h r), h⟩
  | hash r => exact ⟨nofun, h⟩

theorem vecRun_stored {E : EnumLike α} : ∀ (ops : List (Op τ α)) {v : Vecs α τ}, (∀ r, ∀ y ∈ v.reg r, S y) →
    (∀ op ∈ ops, ∀ y, op.Stores y → S y) →
    (∀ o ∈ (vecRun E ops v).1, ∀ y ∈ o.values, S y) ∧ ∀ r, ∀ y ∈ (vecRun E ops v).2.reg r, S y
  | [], v, h, _ => ⟨by simp [vecRun], h⟩
  | o :: os, v, h, ho => by
    obtain ⟨h1, h2⟩ := vecStep_stored (E := E) h o (ho o (by simp))
    obtain ⟨h3, h4⟩ := vecRun_stored (E := E) os h2 (fun op hop => ho op (by simp [hop]))
    refine ⟨fun q hq => ?_, h4⟩
    rcases List.mem_cons.mp hq with rfl | hq
    · exact h1
    · exact h3 q hq

/-- **C29 (partial)** In an allowed history (C01) every element any call returns was passed to a call of the history
(or returned by a closure passed to `for_each`), and so was every element of the vectors at the end. For a history that
is not allowed this is false: `C01_history_wrong`. -/
theorem C29_stored_partial (hc : c.Ok) (w : τ) (ops : List (Op τ α))
    (ha : AllowedRun c ops (fun _ => .clean) (Vecs.start w)) :
    (∀ o ∈ (run c ops (Mem.start c w)).1, ∀ y ∈ o.values, ∃ op ∈ ops, op.Stores y) ∧
    (.oom ∉ (run c ops (Mem.start c w)).1 → ∀ r, marksRun c ops (fun _ => .clean) (Vecs.start w) r ≠ .dead →
      ∃ l, Is c ((run c ops (Mem.start c w)).2.reg r) l ∧ ∀ y ∈ l, ∃ op ∈ ops, op.Stores y) := by
  have key := fun (ops' : List (Op τ α)) (hsub : ∀ op ∈ ops', op ∈ ops) =>
    vecRun_stored (E := c.E) (S := fun y => ∃ op ∈ ops, op.Stores y) ops' (v := Vecs.start w) (fun r => nofun)
      (fun op hop y hy => ⟨op, hsub op hop, hy⟩)
  rcases C01_history_partial hc w ops ha with ⟨h1, h2, h3⟩ | ⟨pre, op, post, hops, h1, -⟩
  · rw [h1]
    exact ⟨(key ops (fun _ h => h)).1, fun _ r hr => ⟨_, h3 r hr, (key ops (fun _ h => h)).2 r⟩⟩
  · rw [h1]
    refine ⟨fun o ho => ?_, fun hno => absurd (by simp) hno⟩
    rcases List.mem_append.mp ho with ho | ho
    · exact (key pre (fun op hop => by rw [hops]; simp [hop])).1 o ho
    · rw [List.mem_singleton.mp ho]; nofun

end

example : AllowedRun c8 exHistory (fun _ => .clean) (Vecs.start 0) ∧
    .oom ∉ (run c8 exHistory (Mem.start c8 0)).1 := ⟨by decide +kernel, by decide +kernel⟩

end EnumVecModel
