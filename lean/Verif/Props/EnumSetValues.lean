import Verif.EnumSetValSpec
import Verif.Props.EnumSetCode
import Verif.Lemmas.Values

/-! # `EnumSet` is a set of values (C83) -/

namespace EnumVecModel
namespace ESet
open EV (DebugList)
open Hostile (Impl Iter)
open EnumLike (AllValues)

variable {σ ω α : Type} {B : BitSet σ} {E : EnumLike α} {vals : List α}

/-- The numbers of a set of values. -/
theorem nums_lists (hE : E.Contract) (hv : AllValues E vals) (S : α → Bool) : Lists ((vals.filter S).map E.toDiscr) fun x => ∃ a, E.toDiscr a = x ∧ S a = true := by
  refine ⟨?_, fun x => ?_⟩
  · have h : ((vals.filter S).map E.toDiscr).Sublist (List.range E.num) := hv ▸ (List.filter_sublist).map _
    exact List.Pairwise.sublist h List.pairwise_lt_range
  · rw [List.mem_map]
    exact ⟨fun ⟨a, h1, h2⟩ => ⟨a, h2, (List.mem_filter.1 h1).2⟩, fun ⟨a, h1, h2⟩ => ⟨a, List.mem_filter.2 ⟨hv.mem hE a, h2⟩, h1⟩⟩

theorem num_mem (hE : E.Contract) (hv : AllValues E vals) (S : α → Bool) (a : α) : ((vals.filter S).map E.toDiscr).contains (E.toDiscr a) = S a := by
  rw [Bool.eq_iff_iff, List.contains_iff_mem, (nums_lists hE hv S).2]
  exact ⟨fun ⟨b, h1, h2⟩ => EnumLike.toDiscr_inj hE h1 ▸ h2, fun h => ⟨a, rfl, h⟩⟩

/-- A list of the numbers of the values with `S`. -/
theorem nums_eq (hE : E.Contract) (hv : AllValues E vals) {l : List Nat} {S : α → Bool} (h1 : l.Pairwise (· < ·)) (h2 : ∀ x ∈ l, x < E.num) (h3 : ∀ a, E.toDiscr a ∈ l ↔ S a = true) :
    l = (vals.filter S).map E.toDiscr := by
  refine lists_unique ⟨h1, fun x => ?_⟩ (nums_lists hE hv S)
  constructor
  · intro hx
    have : x ∈ vals.map E.toDiscr := by rw [show vals.map E.toDiscr = _ from hv]; exact List.mem_range.2 (h2 x hx)
    obtain ⟨a, -, rfl⟩ := List.mem_map.1 this
    exact ⟨a, rfl, (h3 a).1 hx⟩
  · rintro ⟨a, rfl, h⟩
    exact (h3 a).2 h

theorem nums_lt (hE : E.Contract) {l : List α} {x : Nat} (h : x ∈ l.map E.toDiscr) : x < E.num := by
  obtain ⟨a, -, rfl⟩ := List.mem_map.1 h
  exact hE.lt a

/-- The sets have the numbers of these values, and so on. -/
structure Named (E : EnumLike α) (vals : List α) (v : Nums ω) (u : Vals ω α) : Prop where
  set : ∀ r, v.set r = (vals.filter (u.set r)).map E.toDiscr
  iter : ∀ i, v.iter i = (u.iter i).map E.toDiscr
  world : v.world = u.world

variable [DecidableEq α]

theorem insert_named (hE : E.Contract) (hv : AllValues E vals) (S : α → Bool) (a : α) :
    setOf (E.toDiscr a :: (vals.filter S).map E.toDiscr) = (vals.filter fun b => b = a || S b).map E.toDiscr := by
  refine nums_eq hE hv (setOf_lists _).1 (fun x hx => ?_) fun b => ?_
  · rcases List.mem_cons.1 (((setOf_lists _).2 x).1 hx) with rfl | hx
    · exact hE.lt a
    · exact nums_lt hE hx
  · rw [(setOf_lists _).2]
    dsimp only
    rw [List.mem_cons, (nums_lists hE hv S).2, Bool.or_eq_true, decide_eq_true_iff]
    constructor
    · rintro (h | ⟨c, h1, h2⟩)
      · exact Or.inl (EnumLike.toDiscr_inj hE h)
      · exact Or.inr (EnumLike.toDiscr_inj hE h1 ▸ h2)
    · rintro (rfl | h)
      · exact Or.inl rfl
      · exact Or.inr ⟨b, rfl, h⟩

theorem walk_named (hE : E.Contract) (hv : AllValues E vals) {N : Nat → List Nat} {S : Nat → α → Bool} (h : ∀ r, N r = (vals.filter (S r)).map E.toDiscr) (g : Walk) :
    g.nums N = (vals.filter fun a => g.vals S a).map E.toDiscr := by
  have hm : ∀ r a, E.toDiscr a ∈ N r ↔ S r a = true := fun r a => by rw [← List.contains_iff_mem, h, num_mem hE hv]
  have hl : ∀ r x, x ∈ N r → x < E.num := fun r x hx => nums_lt hE (h r ▸ hx)
  have hp : ∀ r, (N r).Pairwise (· < ·) := fun r => h r ▸ (nums_lists hE hv _).1
  have hc : ∀ r a, (N r).contains (E.toDiscr a) = S r a := fun r a => by rw [h, num_mem hE hv]
  cases g with
  | iter r => exact h r
  | union r q =>
    refine nums_eq hE hv (setOf_lists _).1 (fun x hx => ?_) fun a => ?_
    · rcases List.mem_append.1 (((setOf_lists _).2 x).1 hx) with hx | hx <;> exact hl _ x hx
    · unfold Walk.nums
      rw [(setOf_lists _).2]
      dsimp only
      rw [List.mem_append, hm, hm]
      simp [Walk.vals]
  | intersection r q =>
    refine nums_eq hE hv ((hp r).filter _) (fun x hx => hl r x (List.mem_filter.1 hx).1) fun a => ?_
    simp only [Walk.nums, Walk.vals, List.mem_filter, hm, hc, Bool.and_eq_true]
  | difference r q =>
    refine nums_eq hE hv ((hp r).filter _) (fun x hx => hl r x (List.mem_filter.1 hx).1) fun a => ?_
    simp only [Walk.nums, Walk.vals, List.mem_filter, hm, hc, Bool.and_eq_true]
  | symmetricDifference r q =>
    refine nums_eq hE hv ((setOf_lists _).1.filter _) (fun x hx => ?_) fun a => ?_
    · rcases List.mem_append.1 (((setOf_lists _).2 x).1 (List.mem_filter.1 hx).1) with hx | hx <;> exact hl _ x hx
    · simp only [Walk.nums, Walk.vals, List.mem_filter, hc, (setOf_lists _).2, List.mem_append, hm]
      cases S r a <;> cases S q a <;> simp

theorem extend_named (hE : E.Contract) (hv : AllValues E vals) (I : Iter ω Unit α) : ∀ (n : Nat) (S : α → Bool) (w : ω),
    extendNums (Impl.of E) I n ((vals.filter S).map E.toDiscr) w =
      ((extendVals I n S w).1, (vals.filter (extendVals I n S w).2.1).map E.toDiscr, (extendVals I n S w).2.2)
  | 0, _, _ => rfl
  | n + 1, S, w => by
    unfold extendNums extendVals
    rcases I.next () w with ⟨_ | ⟨_ | a, u⟩, w1⟩
    · rfl
    · rfl
    · show extendNums (Impl.of E) I n (setOf (E.toDiscr a :: _)) w1 = _
      rw [insert_named hE hv]
      exact extend_named hE hv I n _ w1

omit [DecidableEq α] in
theorem fmt_named (hE : E.Contract) (D : DebugList ω α) : ∀ (l : List α) (w : ω), fmtNums (Impl.of E) D (l.map E.toDiscr) w = fmtVals D l w
  | [], _ => rfl
  | a :: l, w => by
    show (match ((Impl.of E : Impl ω α).fromDiscr (E.toDiscr a) w) with
      | (none, w) => (Ret.panic .badDiscr, w)
      | (some a, w) =>
        match D.entry a w with
        | (none, w) => (Ret.panic .user, w)
        | (some _, w) => fmtNums (Impl.of E) D (l.map E.toDiscr) w) = _
    rw [show ((Impl.of E : Impl ω α).fromDiscr (E.toDiscr a) w) = (some a, w) from by show (E.fromDiscr _, w) = _; rw [hE.roundtrip]]
    unfold fmtVals
    dsimp only
    rcases D.entry a w with ⟨_ | u, w1⟩
    · rfl
    · exact fmt_named hE D l w1

omit [DecidableEq α] in
theorem put_named {N : Nat → List Nat} {S : Nat → α → Bool} (h : ∀ r, N r = (vals.filter (S r)).map E.toDiscr) {r : Nat} {l : List Nat} {s : α → Bool}
    (hs : l = (vals.filter s).map E.toDiscr) : ∀ i, put N r l i = (vals.filter (put S r s i)).map E.toDiscr := by
  intro i
  unfold put
  split
  · exact hs
  · exact h i

omit [DecidableEq α] in
theorem all_named {S : α → Bool} (f : Nat → Bool) : ((vals.filter S).map E.toDiscr).all f = vals.all fun a => !S a || f (E.toDiscr a) := by
  rw [List.all_map, List.all_filter]
  rfl

/-- One call. -/
theorem call_named (hE : E.Contract) (hv : AllValues E vals) {members : σ → List Nat} (hmem : ∀ b, (members b).Pairwise (· < ·)) {feed : List Nat → List Nat} {v : Nums ω} {u : Vals ω α}
    (h : Named E vals v u) (c : Call σ ω α) (hc : c.Valid members E.num) :
    (numCall members feed (Impl.of E) v c).1 = (valCall vals E.toDiscr members feed u c).1 ∧
    Named E vals (numCall members feed (Impl.of E) v c).2 (valCall vals E.toDiscr members feed u c).2 := by
  obtain ⟨h1, h2, h3⟩ := h
  have hwalk := fun g => walk_named hE hv h1 g
  have hcon : ∀ r a, (v.set r).contains (E.toDiscr a) = u.set r a := fun r a => by rw [h1, num_mem hE hv]
  have hnone : ([] : List Nat) = (vals.filter fun _ => false).map E.toDiscr := by simp
  cases c with
  | new r => exact ⟨rfl, put_named h1 hnone, h2, h3⟩
  | fromBitSet r b => exact ⟨rfl, put_named h1 (nums_eq hE hv (hmem b) hc fun a => by rw [List.contains_iff_mem]), h2, h3⟩
  | getRef r => exact ⟨congrArg _ (h1 r), h1, h2, h3⟩
  | collect r I n =>
    have he := extend_named hE hv I n (fun _ => false) u.world
    rw [← hnone] at he
    simp only [numCall, valCall, h3, he]
    rcases extendVals I n (fun _ => false) u.world with ⟨_ | _, s, w⟩
    · exact ⟨rfl, h1, h2, rfl⟩
    · exact ⟨rfl, put_named h1 rfl, h2, rfl⟩
  | clone r q => exact ⟨rfl, put_named h1 (h1 r), h2, h3⟩
  | insert r a => exact ⟨by show Ret.bool _ = _; rw [hcon]; rfl, put_named h1 (by rw [h1, insert_named hE hv]), h2, h3⟩
  | remove r a =>
    refine ⟨by show Ret.bool _ = _; rw [hcon]; rfl, put_named h1 ?_, h2, h3⟩
    refine nums_eq hE hv ((h1 r ▸ (nums_lists hE hv _).1).filter _) (fun x hx => nums_lt hE (h1 r ▸ (List.mem_filter.1 hx).1)) fun b => ?_
    rw [List.mem_filter, ← List.contains_iff_mem, hcon, Bool.and_eq_true, decide_eq_true_iff, decide_eq_true_iff, and_comm]
    exact and_congr_left fun _ => not_congr ⟨fun h => EnumLike.toDiscr_inj hE h, fun h => h ▸ rfl⟩
  | contains r a => exact ⟨by show Ret.bool _ = _; rw [hcon]; rfl, h1, h2, h3⟩
  | extend r I n =>
    have he := extend_named hE hv I n (u.set r) u.world
    rw [← h1] at he
    simp only [numCall, valCall, h3, he]
    rcases extendVals I n (u.set r) u.world with ⟨_ | _, s, w⟩
    · exact ⟨rfl, put_named h1 rfl, h2, rfl⟩
    · exact ⟨rfl, put_named h1 rfl, h2, rfl⟩
  | clear r => exact ⟨rfl, put_named h1 hnone, h2, h3⟩
  | shrinkToFit r => exact ⟨rfl, h1, h2, h3⟩
  | len r => exact ⟨by show Ret.num _ = Ret.num _; rw [h1, List.length_map, List.countP_eq_length_filter], h1, h2, h3⟩
  | isEmpty r =>
    refine ⟨?_, h1, h2, h3⟩
    show Ret.bool _ = Ret.bool _
    rw [h1, List.isEmpty_map]
    congr 1
    rw [Bool.eq_iff_iff]
    simp [List.isEmpty_iff, List.filter_eq_nil_iff]
  | unionWith r q => exact ⟨rfl, put_named h1 (hwalk (.union r q)), h2, h3⟩
  | intersectWith r q => exact ⟨rfl, put_named h1 (hwalk (.intersection r q)), h2, h3⟩
  | differenceWith r q => exact ⟨rfl, put_named h1 (hwalk (.difference r q)), h2, h3⟩
  | symmetricDifferenceWith r q => exact ⟨rfl, put_named h1 (hwalk (.symmetricDifference r q)), h2, h3⟩
  | isDisjoint r q =>
    refine ⟨?_, h1, h2, h3⟩
    show Ret.bool _ = Ret.bool _
    rw [h1 r, all_named]
    simp only [hcon, Bool.not_and]
  | isSubset r q =>
    refine ⟨?_, h1, h2, h3⟩
    show Ret.bool _ = Ret.bool _
    rw [h1 r, all_named]
    simp only [hcon]
  | isSuperset r q =>
    refine ⟨?_, h1, h2, h3⟩
    show Ret.bool _ = Ret.bool _
    rw [h1 q, all_named]
    simp only [hcon, Bool.or_comm]
  | eq r q =>
    refine ⟨?_, h1, h2, h3⟩
    show Ret.bool _ = Ret.bool _
    congr 1
    rw [Bool.eq_iff_iff, beq_iff_eq, List.all_eq_true]
    constructor
    · intro he a _
      rw [← hcon, ← hcon, he, beq_self_eq_true]
    · intro he
      rw [h1, h1, List.filter_congr fun a ha => eq_of_beq (he a ha)]
  | cmp r q => exact ⟨by show Ret.ord _ = Ret.ord _; rw [h1, h1], h1, h2, h3⟩
  | hash r => exact ⟨by show Ret.feed _ = Ret.feed _; rw [h1], h1, h2, h3⟩
  | iterate i g =>
    refine ⟨rfl, h1, fun k => ?_, h3⟩
    show put v.iter i _ k = (put u.iter i _ k).map _
    unfold put
    split
    · exact hwalk g
    · exact h2 k
  | next i =>
    have hi := h2 i
    simp only [numCall, valCall]
    rcases hu : u.iter i with _ | ⟨a, l⟩ <;> rw [hu] at hi <;> rw [hi]
    · refine ⟨rfl, h1, fun k => ?_, h3⟩
      show v.iter k = (put u.iter i [] k).map _
      unfold put
      split
      · next hk => rw [hk, hi]
      · exact h2 k
    · have hf : (Impl.of E : Impl ω α).fromDiscr (E.toDiscr a) v.world = (some a, v.world) := by show (E.fromDiscr _, _) = _; rw [hE.roundtrip]
      rw [List.map_cons]
      dsimp only
      rw [hf]
      refine ⟨rfl, h1, fun k => ?_, h3⟩
      show put v.iter i _ k = (put u.iter i l k).map _
      unfold put
      split
      · rfl
      · exact h2 k
  | debug r D =>
    simp only [numCall, valCall]
    rw [h1, fmt_named hE, h3]
    exact ⟨rfl, h1, h2, rfl⟩

theorem calls_named (hE : E.Contract) (hv : AllValues E vals) {members : σ → List Nat} (hmem : ∀ b, (members b).Pairwise (· < ·)) {feed : List Nat → List Nat} :
    ∀ (cs : List (Call σ ω α)), (∀ c ∈ cs, c.Valid members E.num) → ∀ {v : Nums ω} {u : Vals ω α}, Named E vals v u →
      (numCalls members feed (Impl.of E) cs v).1 = (valCalls vals E.toDiscr members feed cs u).1 ∧
      Named E vals (numCalls members feed (Impl.of E) cs v).2 (valCalls vals E.toDiscr members feed cs u).2
  | [], _, _, _, h => ⟨rfl, h⟩
  | c :: cs, hc, v, u, h => by
    obtain ⟨k1, k2⟩ := call_named hE hv hmem (feed := feed) h c (hc c (by simp))
    obtain ⟨k3, k4⟩ := calls_named hE hv hmem (feed := feed) cs (fun c hm => hc c (List.mem_cons_of_mem _ hm)) k2
    exact ⟨by unfold numCalls valCalls; rw [k1, k3], k4⟩

/-- **C83** For an element type that keeps the contract of `EnumLike` and uses all numbers, `EnumSet`s are sets of values: every history of calls, on any number of sets and live iterators, with any
user iterators and formatters (which may panic and have side effects), returns what it returns on sets of values and has the same effects; `from_bit_set` must be given numbers of values. Iterators
yield the values in the order of `vals`, the list of all values by number. -/
theorem C83_values (hB : B.Lawful) (hE : E.Contract) (hv : AllValues E vals) : ∃ feed : List Nat → List Nat, ∀ {ω : Type} (w : ω) (cs : List (Call σ ω α)),
    (∀ c ∈ cs, c.Valid B.iter E.num) →
      (execAll B (Impl.of E) cs (Store.start B w)).1 = (valCalls vals E.toDiscr B.iter feed cs (Vals.start w)).1 ∧
      (execAll B (Impl.of E) cs (Store.start B w)).2.world = (valCalls vals E.toDiscr B.iter feed cs (Vals.start w)).2.world ∧
      (∀ r a, B.contains ((execAll B (Impl.of E) cs (Store.start B w)).2.set r).inner (E.toDiscr a) = (valCalls vals E.toDiscr B.iter feed cs (Vals.start w)).2.set r a) ∧
      ∀ i, ((execAll B (Impl.of E) cs (Store.start B w)).2.iter i).inner = ((valCalls vals E.toDiscr B.iter feed cs (Vals.start w)).2.iter i).map E.toDiscr := by
  obtain ⟨feed, hf⟩ := C68_numbers hB
  refine ⟨feed, fun {ω} w cs hc => ?_⟩
  obtain ⟨h1, h2, h3, h4⟩ := hf (Impl.of E) w cs
  have h0 : Named E vals (Nums.start w) (Vals.start (α := α) w) := ⟨fun r => by show [] = (vals.filter fun _ => false).map E.toDiscr; simp, fun _ => rfl, rfl⟩
  obtain ⟨k1, k2⟩ := calls_named hE hv (fun b => (hB.iter b).1) (feed := feed) cs hc h0
  refine ⟨h1.trans k1, h2.trans k2.world, fun r a => ?_, fun i => (h4 i).trans (k2.iter i)⟩
  rw [contains_eq hB, h3, k2.set, num_mem hE hv]

/-! ## A concrete case: `EnumSet<Option<bool>>` -/

/-- The values in order. -/
def exVals : List (Option Bool) := [some false, some true, none]

theorem exVals_all : AllValues (EnumLike.option EnumLike.bool) exVals := by unfold AllValues; decide

/-- Yields `None` and `Some(true)` in turn, three items in all; panics if the world is 100 or more. -/
def exItems : Iter Nat Unit (Option Bool) :=
  ⟨fun _ w => (some 0, w), fun _ w => if 100 ≤ w then (none, w) else if 3 ≤ w then (some (none, ()), w) else (some (some (if w % 2 = 0 then none else some true), ()), w + 1)⟩

/-- A program over sets of such values; printing adds up lengths in the world, after which the iterator panics. -/
def exSetCalls : List (Call Nat Nat (Option Bool)) :=
  [.extend 0 exItems 9, .insert 0 none, .len 0, .iterate 0 (.iter 0), .next 0, .next 0, .next 0, .insert 1 (some false), .insert 1 none, .iterate 1 (.symmetricDifference 0 1), .next 1, .next 1,
   .next 1, .isDisjoint 0 1, .cmp 0 1, .debug 0 ⟨fun w => w + 100, fun a w => (some (), if a = none then w + 7 else w + 1), fun w => (true, w)⟩, .extend 0 exItems 9, .contains 0 (some false),
   .unionWith 0 1, .getRef 0, .fromBitSet 2 5, .isSubset 2 0, .eq 0 2]

/-- The hypothesis of `C83_values` is met, … -/
example : ∀ c ∈ exSetCalls, c.Valid maskSet.iter (EnumLike.option EnumLike.bool).num := by
  intro c hc
  simp only [exSetCalls, List.mem_cons, List.not_mem_nil, or_false] at hc
  rcases hc with rfl | rfl | rfl | rfl | rfl | rfl | rfl | rfl | rfl | rfl | rfl | rfl | rfl | rfl | rfl | rfl | rfl | rfl | rfl | rfl | rfl | rfl | rfl <;>
    first | trivial | (show ∀ x ∈ maskSet.iter 5, x < 3; decide)

/-- … and this is what it says. -/
example : (execAll maskSet (Impl.of (EnumLike.option EnumLike.bool)) exSetCalls (Store.start maskSet 0)).1 =
      (valCalls exVals (EnumLike.option EnumLike.bool).toDiscr maskSet.iter id exSetCalls (Vals.start 0)).1 ∧
    (valCalls exVals (EnumLike.option EnumLike.bool).toDiscr maskSet.iter id exSetCalls (Vals.start 0)).1 =
      [.unit, .bool false, .num 2, .unit, .item (some (some true)), .item (some none), .item none, .bool true, .bool true, .unit, .item (some (some false)), .item (some (some true)),
       .item none, .bool false, .ord .gt, .bool true, .panic .user, .bool false, .unit, .bits [0, 1, 2], .unit, .bool true, .bool false] := by decide +kernel

end ESet
end EnumVecModel
