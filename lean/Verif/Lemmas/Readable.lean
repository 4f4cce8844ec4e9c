import Verif.RealSpec

/-! # Readable numbers stay readable where calls are right -/

namespace EnumVecModel
open EV

variable {α τ : Type} {E : EnumLike α}

/-- Every number in the list can be read. -/
def Rd (E : EnumLike α) (l : List Nat) : Prop := ∀ d ∈ l, E.fromDiscr d ≠ none

theorem Rd.append {a b : List Nat} (ha : Rd E a) (hb : Rd E b) : Rd E (a ++ b) := fun d hd => (List.mem_append.mp hd).elim (ha d) (hb d)

theorem Rd.cons {a : Nat} {b : List Nat} (ha : E.fromDiscr a ≠ none) (hb : Rd E b) : Rd E (a :: b) := fun d hd => by
  rcases List.mem_cons.mp hd with rfl | hd
  · exact ha
  · exact hb d hd

theorem Rd.sub {a b : List Nat} (ha : Rd E a) (hb : ∀ d ∈ b, d ∈ a) : Rd E b := fun d hd => ha d (hb d hd)

theorem Rd.take {a : List Nat} (ha : Rd E a) (n : Nat) : Rd E (a.take n) := ha.sub fun _ => List.mem_of_mem_take
theorem Rd.drop {a : List Nat} (ha : Rd E a) (n : Nat) : Rd E (a.drop n) := ha.sub fun _ => List.mem_of_mem_drop
theorem Rd.dropLast {a : List Nat} (ha : Rd E a) : Rd E a.dropLast := ha.sub fun _ hd => (List.dropLast_sublist a).mem hd

theorem Rd.set {a : List Nat} (ha : Rd E a) (i : Nat) {d : Nat} (hd : E.fromDiscr d ≠ none) : Rd E (a.set i d) := fun e he => by
  rcases List.mem_or_eq_of_mem_set he with he | rfl
  · exact ha e he
  · exact hd

theorem Rd.nil : Rd E [] := nofun

variable (hE : ∀ x, E.fromDiscr (E.toDiscr x) ≠ none)
include hE

theorem Rd.map (xs : List α) : Rd E (xs.map E.toDiscr) := fun d hd => by
  obtain ⟨x, -, rfl⟩ := List.mem_map.mp hd
  exact hE x

theorem numFilter_rd (f : Closure τ α Bool) : ∀ (ds : List Nat) (w : τ), Rd E (numFilter E f ds w).1
  | [], _ => Rd.nil
  | d :: ds, w => by
    unfold numFilter
    split
    · exact Rd.nil
    · split
      · exact Rd.cons (hE _) (numFilter_rd f ds _)
      · exact numFilter_rd f ds _
      · exact Rd.nil

theorem numMap_rd (f : Closure τ α α) : ∀ (ds : List Nat) (w : τ), Rd E (numMap E f ds w).1
  | [], _ => Rd.nil
  | d :: ds, w => by
    unfold numMap
    split
    · exact Rd.nil
    · split
      · exact Rd.cons (hE _) (numMap_rd f ds _)
      · exact Rd.nil

omit hE in
theorem numFilter_out (f : Closure τ α Bool) : ∀ (ds : List Nat) (w : τ), Rd E ds → (numFilter E f ds w).2.2 ≠ some .invalid
  | [], _, _ => nofun
  | d :: ds, w, h => by
    have h2 := numFilter_out f ds
    have hds : Rd E ds := h.sub fun _ => List.mem_cons_of_mem _
    unfold numFilter
    split
    · next e => exact absurd e (h d List.mem_cons_self)
    · split
      · exact h2 _ hds
      · exact h2 _ hds
      · exact nofun

omit hE in
theorem numMap_out (f : Closure τ α α) : ∀ (ds : List Nat) (w : τ), Rd E ds → (numMap E f ds w).2.2 ≠ some .invalid
  | [], _, _ => nofun
  | d :: ds, w, h => by
    have h2 := numMap_out f ds
    have hds : Rd E ds := h.sub fun _ => List.mem_cons_of_mem _
    unfold numMap
    split
    · next e => exact absurd e (h d List.mem_cons_self)
    · split
      · exact h2 _ hds
      · exact nofun

omit hE in
theorem mapM_rd {β γ : Type} (f : β → Option γ) : ∀ (l : List β), (∀ d ∈ l, f d ≠ none) → l.mapM f ≠ none
  | [], _ => by simp
  | d :: ds, h => by
    rw [List.mapM_cons]
    rcases hx : f d with _ | y
    · exact absurd hx (h d List.mem_cons_self)
    · rcases hy : ds.mapM f with _ | ys
      · exact absurd hy (mapM_rd f ds fun e he => h e (List.mem_cons_of_mem _ he))
      · exact nofun

omit hE in
theorem iterSpec_rd (l : List Nat) (h : Rd E l) (o : IterOp) : (iterSpec l o).1.decode E ≠ none ∧ Rd E (iterSpec l o).2 := by
  have key : ∀ x : Option Nat, (∀ d, x = some d → d ∈ l) → (IterOut.item x).decode E ≠ none := fun x hx => by
    cases x with
    | none => exact nofun
    | some d =>
      unfold IterOut.decode
      rcases hy : E.fromDiscr d with _ | y
      · exact absurd hy (h d (hx d rfl))
      · simp [hy]
  cases o with
  | next => exact ⟨key _ fun d hd => List.mem_of_head? hd, h.sub fun _ => List.mem_of_mem_tail⟩
  | nextBack => exact ⟨key _ fun d hd => List.mem_of_getLast? hd, h.dropLast⟩
  | nth n => exact ⟨key _ fun d hd => List.mem_of_getElem? hd, h.drop _⟩
  | sizeHint => exact ⟨nofun, h⟩

omit hE in
theorem iterSpecRun_rd : ∀ (os : List IterOp) (l : List Nat), Rd E l → ∀ o ∈ (iterSpecRun os l).1, o.decode E ≠ none
  | [], _, _ => fun _ hd => by cases hd
  | o :: os, l, h => fun d hd => by
    obtain ⟨h1, h2⟩ := iterSpec_rd l h o
    rcases List.mem_cons.mp hd with rfl | hd
    · exact h1
    · exact iterSpecRun_rd os _ h2 d hd

/-- A call on vectors of readable numbers leaves such vectors, and reads all it has to. -/
theorem numStep_rd (v : Vecs Nat τ) (h : ∀ r, Rd E (v.reg r)) (op : Op τ α) : (numStep E v op).1 ≠ .invalid ∧ ∀ r, Rd E ((numStep E v op).2.reg r) := by
  have hu : ∀ (f : Nat → List Nat) (r : Nat) (l : List Nat), (∀ q, Rd E (f q)) → Rd E l → ∀ q, Rd E (upd f r l q) := fun f r l hf hl q => by
    unfold upd; split
    · exact hl
    · exact hf q
  have hrd : ∀ {r i d : Nat}, (v.reg r)[i]? = some d → E.fromDiscr d ≠ none := fun {r i d} hd => h r d (List.mem_of_getElem? hd)
  have hlast : ∀ {r d : Nat}, (v.reg r).getLast? = some d → E.fromDiscr d ≠ none := fun {r d} hd => h r d (List.mem_of_getLast? hd)
  have hm := fun xs => Rd.map hE xs
  cases op with
  | new r => exact ⟨nofun, hu _ _ _ h Rd.nil⟩
  | withCapacity r _ => exact ⟨nofun, hu _ _ _ h Rd.nil⟩
  | fromElem r x n => exact ⟨nofun, hu _ _ _ h fun d hd => by rw [List.eq_of_mem_replicate hd]; exact hE x⟩
  | fromVec r xs => exact ⟨nofun, hu _ _ _ h (hm xs)⟩
  | fromSlice r xs => exact ⟨nofun, hu _ _ _ h (hm xs)⟩
  | fromIter r it =>
    unfold numStep; dsimp only
    split
    · exact ⟨nofun, h⟩
    · exact ⟨nofun, hu _ _ _ h (hm _)⟩
  | clone r q => exact ⟨nofun, hu _ _ _ h (h q)⟩
  | len r => exact ⟨nofun, h⟩
  | isEmpty r => exact ⟨nofun, h⟩
  | get r i =>
    unfold numStep; dsimp only
    split
    · exact ⟨nofun, h⟩
    · next hd => split
                 · exact ⟨nofun, h⟩
                 · next e => exact absurd e (hrd hd)
  | set r i x =>
    unfold numStep; dsimp only
    split
    · exact ⟨nofun, hu _ _ _ h ((h r).set i (hE x))⟩
    · exact ⟨nofun, h⟩
  | push r x => exact ⟨nofun, hu _ _ _ h ((h r).append (Rd.cons (hE x) Rd.nil))⟩
  | pop r =>
    unfold numStep; dsimp only
    split
    · exact ⟨nofun, h⟩
    · next hd => split
                 · exact ⟨nofun, hu _ _ _ h (h r).dropLast⟩
                 · next e => exact absurd e (hlast hd)
  | insert r i x =>
    unfold numStep; dsimp only
    split
    · exact ⟨nofun, hu _ _ _ h (((h r).take i).append (Rd.cons (hE x) ((h r).drop i)))⟩
    · exact ⟨nofun, h⟩
  | remove r i =>
    unfold numStep; dsimp only
    split
    · exact ⟨nofun, h⟩
    · next hd => split
                 · exact ⟨nofun, hu _ _ _ h (((h r).take i).append ((h r).drop _))⟩
                 · next e => exact absurd e (hrd hd)
  | swap r i j =>
    unfold numStep; dsimp only
    split
    · next h1 h2 => exact ⟨nofun, hu _ _ _ h (((h r).set _ (hrd h2)).set _ (hrd h1))⟩
    · exact ⟨nofun, h⟩
  | swapRemove r i =>
    unfold numStep; dsimp only
    split
    · next h1 h2 => split
                    · exact ⟨nofun, hu _ _ _ h ((h r).set _ (hlast h2)).dropLast⟩
                    · next e => exact absurd e (hrd h1)
    · exact ⟨nofun, h⟩
  | truncate r n => exact ⟨nofun, hu _ _ _ h ((h r).take n)⟩
  | clear r => exact ⟨nofun, hu _ _ _ h Rd.nil⟩
  | resize r n x => exact ⟨nofun, hu _ _ _ h (((h r).take n).append fun d hd => by rw [List.eq_of_mem_replicate hd]; exact hE x)⟩
  | reserve r n => exact ⟨nofun, h⟩
  | shrinkToFit r => exact ⟨nofun, h⟩
  | extend r it =>
    refine ⟨?_, hu _ _ _ h ((h r).append (hm _))⟩
    show (if it.panics then Out.panic else .unit) ≠ _
    split <;> exact nofun
  | append r o => exact ⟨nofun, hu _ _ _ (hu _ _ _ h ((h r).append (h o))) Rd.nil⟩
  | splitOff r a d =>
    unfold numStep; dsimp only
    split
    · exact ⟨nofun, hu _ _ _ (hu _ _ _ h ((h r).take a)) ((h r).drop a)⟩
    · exact ⟨nofun, h⟩
  | retain r f =>
    have k1 := numFilter_rd hE f (v.reg r) v.world
    have k2 := numFilter_out f (v.reg r) v.world (h r)
    unfold numStep; dsimp only
    revert k1 k2
    generalize numFilter E f (v.reg r) v.world = p
    intro k1 k2
    rcases p with ⟨kept, w, _ | o⟩
    · exact ⟨nofun, hu _ _ _ h k1⟩
    · exact ⟨fun e => k2 (congrArg some e), hu _ _ _ h (k1.append ((h r).drop _))⟩
  | forEach r f =>
    have k1 := numMap_rd hE f (v.reg r) v.world
    have k2 := numMap_out f (v.reg r) v.world (h r)
    unfold numStep; dsimp only
    revert k1 k2
    generalize numMap E f (v.reg r) v.world = p
    intro k1 k2
    rcases p with ⟨kept, w, _ | o⟩
    · exact ⟨nofun, hu _ _ _ h k1⟩
    · exact ⟨fun e => k2 (congrArg some e), hu _ _ _ h (k1.append ((h r).drop _))⟩
  | eq r o => exact ⟨nofun, h⟩
  | any r x => exact ⟨nofun, h⟩
  | all r x => exact ⟨nofun, h⟩
  | toVec r =>
    have k := mapM_rd E.fromDiscr (v.reg r) (h r)
    unfold numStep; dsimp only
    split
    · exact ⟨nofun, h⟩
    · next e => exact absurd e k
  | iterate r calls =>
    have k := mapM_rd (IterOut.decode E) _ (iterSpecRun_rd calls (v.reg r) (h r))
    unfold numStep; dsimp only
    split
    · exact ⟨nofun, h⟩
    · next e => exact absurd e k
  | hash r => exact ⟨nofun, h⟩

end EnumVecModel
