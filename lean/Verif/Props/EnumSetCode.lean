import Verif.EnumSetCodeSpec
import Verif.Props.EnumSet
import Verif.Interop

/-! # `EnumSet` whatever the implementation of `EnumLike` does (C68) -/

namespace EnumVecModel
namespace ESet
open EV (Closure DebugList onFst onSnd call)
open Hostile (Impl Iter)

variable {σ ω α : Type} {B : BitSet σ} {h : Impl ω α}

theorem setOf_lists (xs : List Nat) : Lists (setOf xs) (· ∈ xs) := by
  refine ⟨List.Pairwise.filter _ List.pairwise_lt_range, fun x => ?_⟩
  have key : ∀ ys : List Nat, x ∈ ys → x ≤ ys.foldr max 0 := by
    intro ys
    induction ys with
    | nil => simp
    | cons y ys ih =>
      intro hx
      rcases List.mem_cons.1 hx with rfl | hx
      · exact Nat.le_max_left _ _
      · exact Nat.le_trans (ih hx) (Nat.le_max_right _ _)
  simp only [setOf, List.mem_filter, List.mem_range, List.contains_iff_mem]
  exact ⟨fun h => h.2, fun h => ⟨Nat.lt_succ_of_le (key xs h), h⟩⟩

theorem lists_unique {l m : List Nat} {p : Nat → Prop} (hl : Lists l p) (hm : Lists m p) : l = m :=
  List.Perm.eq_of_pairwise (fun _ _ _ _ h1 h2 => absurd h1 (Nat.lt_asymm h2)) hl.1 hm.1
    ((List.perm_ext_iff_of_nodup (hl.1.imp Nat.ne_of_lt) (hm.1.imp Nat.ne_of_lt)).2 fun x => (hl.2 x).trans (hm.2 x).symm)

theorem iter_eq (hB : B.Lawful) {s : σ} {l : List Nat} (h : Lists l fun x => B.contains s x = true) : B.iter s = l := lists_unique (hB.iter s) h

theorem contains_eq (hB : B.Lawful) (s : σ) (x : Nat) : B.contains s x = (B.iter s).contains x := by
  rw [Bool.eq_iff_iff, List.contains_iff_mem, (hB.iter s).2]

theorem filter_lists {l : List Nat} {p : Nat → Prop} {q : Nat → Bool} (h : Lists l p) : Lists (l.filter q) fun x => p x ∧ q x = true :=
  ⟨h.1.filter _, fun x => by rw [List.mem_filter, h.2]⟩

/-- The sets hold these numbers, the iterators have these still to come, the world is the same. -/
structure Same (B : BitSet σ) (m : Store σ ω) (v : Nums ω) : Prop where
  set : ∀ r, B.iter (m.set r).inner = v.set r
  iter : ∀ i, (m.iter i).inner = v.iter i
  world : m.world = v.world

theorem iter_new (hB : B.Lawful) : B.iter B.new = [] :=
  iter_eq hB ⟨List.Pairwise.nil, fun x => by simp [hB.new]⟩

theorem iter_insert (hB : B.Lawful) (s : σ) (x : Nat) : B.iter (B.insert s x).2 = setOf (x :: B.iter s) := by
  refine iter_eq hB ⟨(setOf_lists _).1, fun y => ?_⟩
  rw [(setOf_lists _).2]
  dsimp only
  rw [List.mem_cons, (hB.iter s).2, hB.insert_mem]

theorem iter_remove (hB : B.Lawful) (s : σ) (x : Nat) : B.iter (B.remove s x).2 = (B.iter s).filter (· ≠ x) := by
  refine iter_eq hB ⟨((hB.iter s).1).filter _, fun y => ?_⟩
  dsimp only
  rw [List.mem_filter, (hB.iter s).2]
  dsimp only
  rw [hB.remove_mem, decide_eq_true_iff, and_comm]

theorem walk_nums (hB : B.Lawful) {R : Nat → EnumSet σ} {S : Nat → List Nat} (h : ∀ r, B.iter (R r).inner = S r) (g : Walk) :
    (g.open B R).inner = g.nums S := by
  cases g with
  | iter r => exact h r
  | union r q =>
    refine lists_unique (hB.union _ _) ⟨(setOf_lists _).1, fun x => ?_⟩
    unfold Walk.nums
    rw [(setOf_lists _).2]
    dsimp only
    rw [List.mem_append, ← h, ← h, (hB.iter _).2, (hB.iter _).2]
  | intersection r q =>
    refine lists_unique (hB.intersection _ _) ⟨(h r ▸ (hB.iter _).1).filter _, fun x => ?_⟩
    unfold Walk.nums
    rw [List.mem_filter, List.contains_iff_mem, ← h, ← h, (hB.iter _).2, (hB.iter _).2]
  | difference r q =>
    refine lists_unique (hB.difference _ _) ⟨(h r ▸ (hB.iter _).1).filter _, fun x => ?_⟩
    unfold Walk.nums
    rw [List.mem_filter, ← h, ← h, ← contains_eq hB, (hB.iter _).2]
    simp
  | symmetricDifference r q =>
    refine lists_unique (hB.symmetricDifference _ _) ⟨(setOf_lists _).1.filter _, fun x => ?_⟩
    unfold Walk.nums
    rw [List.mem_filter, (setOf_lists _).2]
    dsimp only
    rw [List.mem_append, ← h, ← h, ← contains_eq hB, ← contains_eq hB, (hB.iter _).2, (hB.iter _).2]
    cases hx : B.contains (R r).inner x <;> cases hy : B.contains (R q).inner x <;> simp [hx, hy]

theorem put_same {R : Nat → EnumSet σ} {S : Nat → List Nat} (h : ∀ r, B.iter (R r).inner = S r) {r : Nat} {s : EnumSet σ} {l : List Nat}
    (hs : B.iter s.inner = l) : ∀ i, B.iter (put R r s i).inner = put S r l i := by
  intro i
  unfold put
  split
  · exact hs
  · exact h i

/-- Returned or panicked. -/
def outcome : Bool → Except Fault Unit
  | true => .ok ()
  | false => .error .user

theorem extendCode_nums (hB : B.Lawful) (I : Iter ω Unit α) : ∀ (n : Nat) (s : EnumSet σ) (w : ω),
    (extendCode B h I n (s, w)).1 = outcome (extendNums h I n (B.iter s.inner) w).1 ∧
    B.iter (extendCode B h I n (s, w)).2.1.inner = (extendNums h I n (B.iter s.inner) w).2.1 ∧
    (extendCode B h I n (s, w)).2.2 = (extendNums h I n (B.iter s.inner) w).2.2
  | 0, s, w => ⟨rfl, rfl, rfl⟩
  | n + 1, s, w => by
    unfold extendCode extendNums
    rcases hn : I.next () w with ⟨_ | ⟨_ | a, u⟩, w1⟩
    · have : (call I.next () : M (EnumSet σ × ω) _) (s, w) = (.error .user, (s, w1)) := by unfold call; dsimp only; rw [hn]
      rw [M.bind_error this]
      exact ⟨rfl, rfl, rfl⟩
    · have : (call I.next () : M (EnumSet σ × ω) _) (s, w) = (.ok (none, u), (s, w1)) := by unfold call; dsimp only; rw [hn]
      rw [M.bind_ok this]
      exact ⟨rfl, rfl, rfl⟩
    · have : (call I.next () : M (EnumSet σ × ω) _) (s, w) = (.ok (some a, u), (s, w1)) := by unfold call; dsimp only; rw [hn]
      rw [M.bind_ok this]
      dsimp only
      rcases hd : h.toDiscr a w1 with ⟨_ | d, w2⟩
      · have hi : insertCode B h a (s, w1) = (.error .user, (s, w2)) := by
          unfold insertCode
          rw [M.bind_error (e := .user) (s' := (s, w2)) (by unfold call; dsimp only; rw [hd])]
        rw [M.bind_error hi]
        exact ⟨rfl, rfl, rfl⟩
      · have hi : insertCode B h a (s, w1) = (.ok (B.insert s.inner d).1, (⟨(B.insert s.inner d).2⟩, w2)) := by
          unfold insertCode
          rw [M.bind_ok (a := d) (s' := (s, w2)) (by unfold call; dsimp only; rw [hd])]
          rfl
        rw [M.bind_ok hi]
        have := extendCode_nums hB I n ⟨(B.insert s.inner d).2⟩ w2
        dsimp only at this ⊢
        rw [iter_insert hB] at this
        exact this

theorem forCode_nums (D : DebugList ω α) : ∀ (xs : List Nat) (n : Nat) (w : ω), xs.length < n →
    ∃ xs' w', (forCode h D.entry n (⟨xs⟩, w)).2 = (⟨xs'⟩, w') ∧
      fmtNums h D xs w = (match (forCode h D.entry n (⟨xs⟩, w)).1 with
        | .ok _ => (.bool (D.finish w').1, (D.finish w').2)
        | .error e => (.panic e, w'))
  | _, 0, _, hn => absurd hn (Nat.not_lt_zero _)
  | [], n + 1, w, _ => ⟨[], w, rfl, rfl⟩
  | x :: xs, n + 1, w, hn => by
    unfold forCode fmtNums
    rcases hf : h.fromDiscr x w with ⟨_ | a, w1⟩
    · have : nextCode h (⟨x :: xs⟩, w) = (.error .badDiscr, (⟨xs⟩, w1)) := by unfold nextCode; dsimp only; rw [hf]
      rw [M.bind_error this]
      exact ⟨xs, w1, rfl, rfl⟩
    · have : nextCode h (⟨x :: xs⟩, w) = (.ok (some a), (⟨xs⟩, w1)) := by unfold nextCode; dsimp only; rw [hf]
      rw [M.bind_ok this]
      dsimp only
      rcases he : D.entry a w1 with ⟨_ | u, w2⟩
      · have hc : (call D.entry a : M (WrapIter × ω) Unit) (⟨xs⟩, w1) = (.error .user, (⟨xs⟩, w2)) := by unfold call; dsimp only; rw [he]
        rw [M.bind_error hc]
        exact ⟨xs, w2, rfl, rfl⟩
      · have hc : (call D.entry a : M (WrapIter × ω) Unit) (⟨xs⟩, w1) = (.ok u, (⟨xs⟩, w2)) := by unfold call; dsimp only; rw [he]
        rw [M.bind_ok hc]
        exact forCode_nums D xs n w2 (by simpa using hn)

theorem fmtCode_nums (D : DebugList ω α) (s : EnumSet σ) (w : ω) :
    Ret.of .bool (fmtCode B h D s w).1 = (fmtNums h D (B.iter s.inner) (D.start w)).1 ∧
    (fmtCode B h D s w).2 = (fmtNums h D (B.iter s.inner) (D.start w)).2 := by
  obtain ⟨xs', w', h1, h2⟩ := forCode_nums (h := h) D (B.iter s.inner) ((B.iter s.inner).length + 1) (D.start w) (by omega)
  unfold fmtCode
  rw [h2]
  rcases hf : forCode h D.entry ((B.iter s.inner).length + 1) (⟨B.iter s.inner⟩, D.start w) with ⟨e | u, p⟩
  · rw [hf] at h1
    have h1 : p = (⟨xs'⟩, w') := h1
    rw [show forCode h D.entry ((iter B s).inner.length + 1) (iter B s, D.start w) = _ from hf, h1]
    exact ⟨rfl, rfl⟩
  · rw [hf] at h1
    have h1 : p = (⟨xs'⟩, w') := h1
    rw [show forCode h D.entry ((iter B s).inner.length + 1) (iter B s, D.start w) = _ from hf, h1]
    exact ⟨rfl, rfl⟩

/-- One call. -/
theorem exec_nums (hB : B.Lawful) {feed : List Nat → List Nat} (hf : ∀ s, B.hash s = feed (B.iter s)) {m : Store σ ω} {v : Nums ω} (hs : Same B m v)
    (o : Call σ ω α) : (exec B h m o).1 = (numCall B.iter feed h v o).1 ∧ Same B (exec B h m o).2 (numCall B.iter feed h v o).2 := by
  obtain ⟨h1, h2, h3⟩ := hs
  have hm : ∀ r x, B.contains (m.set r).inner x = (v.set r).contains x := fun r x => by rw [contains_eq hB, h1]
  have w1 := fun g : Walk => walk_nums hB h1 g
  cases o with
  | new r => exact ⟨rfl, put_same h1 (iter_new hB), h2, h3⟩
  | fromBitSet r b => exact ⟨rfl, put_same h1 rfl, h2, h3⟩
  | getRef r => exact ⟨by show Ret.bits _ = _; rw [show intoBitSet (m.set r) = (m.set r).inner from rfl, h1]; rfl, h1, h2, h3⟩
  | collect r I n =>
    obtain ⟨k1, k2, k3⟩ := extendCode_nums (h := h) hB I n (new B) m.world
    rw [show B.iter (new B).inner = [] from iter_new hB, h3] at k1 k2 k3
    unfold exec numCall
    dsimp only
    rw [h3]
    rcases he : extendCode B h I n (new B, v.world) with ⟨e | u, p⟩ <;> rw [he] at k1 k2 k3 <;>
      rcases hn : extendNums h I n [] v.world with ⟨_ | _, s, w⟩ <;> rw [hn] at k1 k2 k3
    · cases k1
      exact ⟨rfl, h1, h2, k3⟩
    · cases k1
    · cases k1
    · exact ⟨rfl, put_same h1 k2, h2, k3⟩
  | clone r q => exact ⟨rfl, put_same h1 (h1 r), h2, h3⟩
  | insert r a =>
    unfold exec numCall insertCode withNum
    dsimp only
    rcases hd : h.toDiscr a v.world with ⟨_ | d, w⟩
    · rw [M.bind_error (e := .user) (s' := (m.set r, w)) (by unfold call; dsimp only; rw [h3, hd])]
      refine ⟨rfl, fun i => ?_, h2, rfl⟩
      show B.iter (put m.set r (m.set r) i).inner = v.set i
      unfold put
      split
      · rename_i e; rw [h1, e]
      · exact h1 i
    · rw [M.bind_ok (a := d) (s' := (m.set r, w)) (by unfold call; dsimp only; rw [h3, hd])]
      refine ⟨?_, put_same h1 ?_, h2, rfl⟩
      · show Ret.bool (B.insert (m.set r).inner d).1 = Ret.bool _
        rw [hB.insert, hm]
      · show B.iter (B.insert (m.set r).inner d).2 = _
        rw [iter_insert hB, h1]
  | remove r a =>
    unfold exec numCall removeCode withNum
    dsimp only
    rcases hd : h.toDiscr a v.world with ⟨_ | d, w⟩
    · rw [M.bind_error (e := .user) (s' := (m.set r, w)) (by unfold call; dsimp only; rw [h3, hd])]
      refine ⟨rfl, fun i => ?_, h2, rfl⟩
      show B.iter (put m.set r (m.set r) i).inner = v.set i
      unfold put
      split
      · rename_i e; rw [h1, e]
      · exact h1 i
    · rw [M.bind_ok (a := d) (s' := (m.set r, w)) (by unfold call; dsimp only; rw [h3, hd])]
      refine ⟨?_, put_same h1 ?_, h2, rfl⟩
      · show Ret.bool (B.remove (m.set r).inner d).1 = Ret.bool _
        rw [hB.remove, hm]
      · show B.iter (B.remove (m.set r).inner d).2 = _
        rw [iter_remove hB, h1]
  | contains r a =>
    unfold exec numCall containsCode withNum
    dsimp only
    rw [h3]
    rcases hd : h.toDiscr a v.world with ⟨_ | d, w⟩
    · exact ⟨rfl, h1, h2, rfl⟩
    · refine ⟨?_, h1, h2, rfl⟩
      show Ret.bool _ = Ret.bool _
      rw [hm]
  | extend r I n =>
    obtain ⟨k1, k2, k3⟩ := extendCode_nums (h := h) hB I n (m.set r) m.world
    rw [h1, h3] at k1 k2 k3
    unfold exec numCall
    dsimp only
    rw [h3]
    rcases he : extendCode B h I n (m.set r, v.world) with ⟨e | u, p⟩ <;> rw [he] at k1 k2 k3 <;>
      rcases hn : extendNums h I n (v.set r) v.world with ⟨_ | _, s, w⟩ <;> rw [hn] at k1 k2 k3
    · cases k1
      exact ⟨rfl, put_same h1 k2, h2, k3⟩
    · cases k1
    · cases k1
    · exact ⟨rfl, put_same h1 k2, h2, k3⟩
  | clear r => exact ⟨rfl, put_same h1 (iter_eq hB ⟨List.Pairwise.nil, fun x => by simp [clear, hB.clear]⟩), h2, h3⟩
  | shrinkToFit r =>
    refine ⟨rfl, fun i => ?_, h2, h3⟩
    show B.iter (put m.set r _ i).inner = v.set i
    unfold put
    split
    · rename_i e
      rw [e, ← h1]
      exact iter_eq hB ⟨(hB.iter _).1, fun x => by
        show _ ↔ B.contains (B.shrinkToFit (m.set r).inner) x = true
        rw [hB.shrink, (hB.iter _).2]⟩
    · exact h1 i
  | len r => exact ⟨by show Ret.num (B.len _) = Ret.num _; rw [hB.len, h1], h1, h2, h3⟩
  | isEmpty r =>
    refine ⟨?_, h1, h2, h3⟩
    show Ret.bool (B.isEmpty _) = Ret.bool _
    congr 1
    rw [Bool.eq_iff_iff, hB.isEmpty, List.isEmpty_iff, List.eq_nil_iff_forall_not_mem, ← h1]
    simp only [(hB.iter _).2, Bool.not_eq_true]
  | unionWith r q =>
    refine ⟨rfl, put_same h1 ?_, h2, h3⟩
    rw [← w1]
    refine iter_eq hB ⟨(hB.union _ _).1, fun x => ?_⟩
    show _ ↔ B.contains (B.unionWith (m.set r).inner (m.set q).inner) x = true
    rw [hB.unionWith, Bool.or_eq_true]
    exact (hB.union _ _).2 x
  | intersectWith r q =>
    refine ⟨rfl, put_same h1 ?_, h2, h3⟩
    rw [← w1]
    refine iter_eq hB ⟨(hB.intersection _ _).1, fun x => ?_⟩
    show _ ↔ B.contains (B.intersectWith (m.set r).inner (m.set q).inner) x = true
    rw [hB.intersectWith, Bool.and_eq_true]
    exact (hB.intersection _ _).2 x
  | differenceWith r q =>
    refine ⟨rfl, put_same h1 ?_, h2, h3⟩
    rw [← w1]
    refine iter_eq hB ⟨(hB.difference _ _).1, fun x => ?_⟩
    show _ ↔ B.contains (B.differenceWith (m.set r).inner (m.set q).inner) x = true
    rw [hB.differenceWith, Bool.and_eq_true,
      Bool.not_eq_true']
    exact ((hB.difference _ _).2 x).trans (by dsimp only; rw [Bool.not_eq_true])
  | symmetricDifferenceWith r q =>
    refine ⟨rfl, put_same h1 ?_, h2, h3⟩
    rw [← w1]
    refine iter_eq hB ⟨(hB.symmetricDifference _ _).1, fun x => ?_⟩
    show _ ↔ B.contains (B.symmetricDifferenceWith (m.set r).inner (m.set q).inner) x = true
    rw [hB.symmetricDifferenceWith, bne_iff]
    exact (hB.symmetricDifference _ _).2 x
  | isDisjoint r q =>
    refine ⟨?_, h1, h2, h3⟩
    show Ret.bool (B.isDisjoint _ _) = Ret.bool _
    congr 1
    rw [Bool.eq_iff_iff, hB.isDisjoint, List.all_eq_true]
    simp only [← h1, ← contains_eq hB, (hB.iter _).2, Bool.not_eq_true']
    exact ⟨fun h x hx => by have := h x; simp only [hx, true_and, Bool.not_eq_true] at this; exact this, fun h x hx => by rw [h x hx.1] at hx; cases hx.2⟩
  | isSubset r q =>
    refine ⟨?_, h1, h2, h3⟩
    show Ret.bool (B.isSubset _ _) = Ret.bool _
    congr 1
    rw [Bool.eq_iff_iff, hB.isSubset, List.all_eq_true]
    simp only [← h1, ← contains_eq hB, (hB.iter _).2]
  | isSuperset r q =>
    refine ⟨?_, h1, h2, h3⟩
    show Ret.bool (B.isSuperset _ _) = Ret.bool _
    congr 1
    rw [Bool.eq_iff_iff, hB.isSuperset, List.all_eq_true]
    simp only [← h1, ← contains_eq hB, (hB.iter _).2]
  | eq r q =>
    refine ⟨?_, h1, h2, h3⟩
    show Ret.bool (B.eq _ _) = Ret.bool _
    congr 1
    rw [Bool.eq_iff_iff, hB.eq, beq_iff_eq, ← h1, ← h1]
    refine ⟨fun h => lists_unique (hB.iter _) ⟨(hB.iter _).1, fun x => by rw [(hB.iter _).2]; dsimp only; rw [h x]⟩, fun h x => ?_⟩
    rw [contains_eq hB, contains_eq hB, h]
  | cmp r q => exact ⟨by show Ret.ord (B.cmp _ _) = Ret.ord _; rw [hB.cmp, h1, h1], h1, h2, h3⟩
  | hash r => exact ⟨by show Ret.feed (B.hash _) = Ret.feed _; rw [hf, h1], h1, h2, h3⟩
  | iterate i g =>
    refine ⟨rfl, h1, fun j => ?_, h3⟩
    show (put m.iter i _ j).inner = put v.iter i _ j
    unfold put
    split
    · exact w1 g
    · exact h2 j
  | next i =>
    unfold exec numCall nextCode
    dsimp only
    rw [h2 i, h3]
    have hp : ∀ xs : List Nat, ∀ j, (put m.iter i (⟨xs⟩ : WrapIter) j).inner = put v.iter i xs j := by
      intro xs j
      unfold put
      split
      · rfl
      · exact h2 j
    rcases hv : v.iter i with _ | ⟨x, xs⟩
    · refine ⟨rfl, h1, fun j => ?_, rfl⟩
      show (put m.iter i (m.iter i) j).inner = v.iter j
      unfold put
      split
      · rename_i e; rw [e, h2]
      · exact h2 j
    · dsimp only
      rcases h.fromDiscr x v.world with ⟨_ | a, w⟩
      · exact ⟨rfl, h1, hp xs, rfl⟩
      · exact ⟨rfl, h1, hp xs, rfl⟩
  | debug r D =>
    obtain ⟨k1, k2⟩ := fmtCode_nums (B := B) (h := h) D (m.set r) m.world
    unfold exec numCall
    dsimp only
    rw [h1, h3] at k1 k2
    refine ⟨?_, h1, h2, ?_⟩
    · rw [h3]; exact k1
    · rw [h3]; exact k2

theorem same_start (hB : B.Lawful) (w : ω) : Same B (Store.start B w) (Nums.start w) := ⟨fun _ => iter_new hB, fun _ => rfl, rfl⟩

/-- Some function of the members is what a set feeds to a hasher. -/
theorem exists_feed (hB : B.Lawful) : ∃ feed : List Nat → List Nat, ∀ s, B.hash s = feed (B.iter s) := by
  classical
  refine ⟨fun l => if h : ∃ s, B.iter s = l then B.hash h.choose else [], fun s => ?_⟩
  have he : ∃ t, B.iter t = B.iter s := ⟨s, rfl⟩
  dsimp only
  rw [dif_pos he]
  exact hB.hash _ _ fun x => by rw [contains_eq hB, contains_eq hB, he.choose_spec]

theorem execAll_nums (hB : B.Lawful) {feed : List Nat → List Nat} (hf : ∀ s, B.hash s = feed (B.iter s)) :
    ∀ (os : List (Call σ ω α)) {m : Store σ ω} {v : Nums ω}, Same B m v →
    (execAll B h os m).1 = (numCalls B.iter feed h os v).1 ∧ Same B (execAll B h os m).2 (numCalls B.iter feed h os v).2
  | [], _, _, hs => ⟨rfl, hs⟩
  | o :: os, m, v, hs => by
    obtain ⟨h1, h2⟩ := exec_nums (h := h) hB hf hs o
    obtain ⟨h3, h4⟩ := execAll_nums hB hf os h2
    refine ⟨?_, h4⟩
    show _ :: _ = _ :: _
    rw [h1, h3]

/-- **C68** Whatever `to_discr`, `from_discr`, the iterators and the `Debug` implementation do (panic, have side effects, answer differently each time), every history of calls on any
number of `EnumSet`s and iterators returns what it returns on sets of numbers, calls the same user code in the same order with the same effects, and leaves the same numbers. -/
theorem C68_numbers (hB : B.Lawful) : ∃ feed : List Nat → List Nat, ∀ {ω α : Type} (h : Impl ω α) (w : ω) (os : List (Call σ ω α)),
    (execAll B h os (Store.start B w)).1 = (numCalls B.iter feed h os (Nums.start w)).1 ∧
    (execAll B h os (Store.start B w)).2.world = (numCalls B.iter feed h os (Nums.start w)).2.world ∧
    (∀ r, B.iter ((execAll B h os (Store.start B w)).2.set r).inner = (numCalls B.iter feed h os (Nums.start w)).2.set r) ∧
    ∀ i, ((execAll B h os (Store.start B w)).2.iter i).inner = (numCalls B.iter feed h os (Nums.start w)).2.iter i := by
  obtain ⟨feed, hf⟩ := exists_feed hB
  refine ⟨feed, fun {ω α} h w os => ?_⟩
  obtain ⟨h1, h2⟩ := execAll_nums (h := h) hB hf os (same_start hB w)
  exact ⟨h1, h2.world, h2.set, h2.iter⟩

/-- A call other than `extend`. -/
def Call.notExtend : Call σ ω α → Bool
  | .extend .. => false
  | _ => true

theorem put_self {τ : Type} (f : Nat → τ) (r : Nat) : put f r (f r) = f := by
  funext i
  unfold put
  split
  · rename_i e; rw [e]
  · rfl

/-- **C68** A call that panics changes no set, except `extend`, … -/
theorem C68_panic (m : Store σ ω) (o : Call σ ω α) (e : Fault) (hp : (exec B h m o).1 = .panic e) (ho : o.notExtend = true) : (exec B h m o).2.set = m.set := by
  cases o with
  | insert r a =>
    revert hp
    unfold exec insertCode
    dsimp only
    rcases hd : h.toDiscr a m.world with ⟨_ | d, w⟩
    · rw [M.bind_error (e := .user) (s' := (m.set r, w)) (by unfold call; dsimp only; rw [hd])]
      exact fun _ => put_self _ _
    · rw [M.bind_ok (a := d) (s' := (m.set r, w)) (by unfold call; dsimp only; rw [hd])]
      exact fun hp => by cases hp
  | remove r a =>
    revert hp
    unfold exec removeCode
    dsimp only
    rcases hd : h.toDiscr a m.world with ⟨_ | d, w⟩
    · rw [M.bind_error (e := .user) (s' := (m.set r, w)) (by unfold call; dsimp only; rw [hd])]
      exact fun _ => put_self _ _
    · rw [M.bind_ok (a := d) (s' := (m.set r, w)) (by unfold call; dsimp only; rw [hd])]
      exact fun hp => by cases hp
  | collect r I n =>
    revert hp
    unfold exec
    dsimp only
    rcases extendCode B h I n (new B, m.world) with ⟨e | u, p⟩
    · exact fun _ => rfl
    · exact fun hp => by cases hp
  | extend r I n => cases ho
  | contains r a => rfl
  | getRef r => rfl
  | len r => rfl
  | isEmpty r => rfl
  | isDisjoint r q => rfl
  | isSubset r q => rfl
  | isSuperset r q => rfl
  | eq r q => rfl
  | cmp r q => rfl
  | hash r => rfl
  | iterate i g => rfl
  | next i => rfl
  | debug r D => rfl
  | _ => cases hp

theorem extendNums_mono (I : Iter ω Unit α) : ∀ (n : Nat) (s : List Nat) (w : ω) (x : Nat), x ∈ s → x ∈ (extendNums h I n s w).2.1
  | 0, _, _, _, hx => hx
  | n + 1, s, w, x, hx => by
    unfold extendNums
    rcases I.next () w with ⟨_ | ⟨_ | a, u⟩, w1⟩
    · exact hx
    · exact hx
    · dsimp only
      rcases h.toDiscr a w1 with ⟨_ | d, w2⟩
      · exact hx
      · exact extendNums_mono I n _ w2 x (((setOf_lists _).2 x).2 (List.mem_cons_of_mem _ hx))

/-- **C68** … which loses nothing, whether it panics or not, and changes no other set. -/
theorem C68_extend (hB : B.Lawful) (m : Store σ ω) (r : Nat) (I : Iter ω Unit α) (n : Nat) :
    (∀ x, B.contains (m.set r).inner x = true → B.contains ((exec B h m (.extend r I n)).2.set r).inner x = true) ∧
    ∀ q, q ≠ r → (exec B h m (.extend r I n)).2.set q = m.set q := by
  refine ⟨fun x hx => ?_, fun q hq => ?_⟩
  · have : (exec B h m (.extend r I n)).2.set r = (extendCode B h I n (m.set r, m.world)).2.1 := by
      unfold exec put
      dsimp only
      rw [if_pos rfl]
    rw [this]
    refine ((hB.iter _).2 x).1 ?_
    rw [(extendCode_nums hB I n _ _).2.1]
    exact extendNums_mono I n _ _ x (((hB.iter _).2 x).2 hx)
  · unfold exec put
    dsimp only
    rw [if_neg hq]

/-- **C68** For a well-behaved implementation this model is that of `EnumSet.lean`. -/
theorem C68_faithful (E : EnumLike α) (s : EnumSet σ) (w : ω) (a : α) (it : WrapIter) (D : DebugList ω α) :
    insertCode B (Impl.of E) a (s, w) = (.ok (insert B E s a).1, ((insert B E s a).2, w)) ∧
    removeCode B (Impl.of E) a (s, w) = (.ok (remove B E s a).1, ((remove B E s a).2, w)) ∧
    containsCode B (Impl.of E) s a w = (.ok (contains B E s a), w) ∧
    nextCode (Impl.of E) (it, w) = ((next E it).1, ((next E it).2, w)) ∧
    fmtCode B (Impl.of E) D s w = fmt B E D s w := by
  have hn : ∀ it w, nextCode (Impl.of (ω := ω) E) (it, w) = ((next E it).1, ((next E it).2, w)) := by
    intro it w
    unfold nextCode next Impl.of
    dsimp only
    rcases it.inner with _ | ⟨x, xs⟩
    · rfl
    · dsimp only
      cases E.fromDiscr x <;> rfl
  refine ⟨rfl, rfl, rfl, hn it w, ?_⟩
  have hfor : ∀ n it w, forCode (Impl.of E) D.entry n (it, w) = forWrap E D.entry n (it, w) := by
    intro n
    induction n with
    | zero => intro it w; rfl
    | succ n ih =>
      intro it w
      unfold forCode forWrap
      rcases hx : next E it with ⟨e | x, it1⟩
      · have h1 : nextCode (Impl.of E) (it, w) = (.error e, (it1, w)) := by rw [hn, hx]
        have h2 : onFst (next E) (it, w) = (.error e, (it1, w)) := by unfold onFst; dsimp only; rw [hx]
        rw [M.bind_error h1, M.bind_error h2]
      · have h1 : nextCode (Impl.of E) (it, w) = (.ok x, (it1, w)) := by rw [hn, hx]
        have h2 : onFst (next E) (it, w) = (.ok x, (it1, w)) := by unfold onFst; dsimp only; rw [hx]
        rw [M.bind_ok h1, M.bind_ok h2]
        cases x with
        | none => rfl
        | some x =>
          dsimp only
          rcases hc : (call D.entry x : M (WrapIter × ω) Unit) (it1, w) with ⟨e | u, p⟩
          · rw [M.bind_error hc, M.bind_error hc]
          · rw [M.bind_ok hc, M.bind_ok hc]
            exact ih p.1 p.2
  unfold fmtCode fmt
  rw [hfor]
  rcases forWrap E D.entry ((iter B s).inner.length + 1) (iter B s, D.start w) with ⟨e | u, p⟩ <;> rfl

/-! ## Examples -/

/-- A hostile implementation: the numbers of the values 0, 1, 2, … alternate between `a / 2` and 7 (the world counts calls), 5 panics; `from_discr` panics on 7 and counts too. -/
def odd : Impl Nat Nat where
  toDiscr a w := if a = 5 then (none, w + 1) else (some (if w % 2 = 0 then a / 2 else 7), w + 1)
  fromDiscr d w := if d = 7 then (none, w + 1) else (some (d + 100 * w), w + 1)
  clone a w := (some a, w)

/-- Yields ever larger values, depending on the world. -/
def counter : Iter Nat Unit Nat := ⟨fun _ w => (some 0, w), fun _ w => (some (some (w / 2 + 1), ()), w + 1)⟩

/-- Two values with one number, one value with two numbers, a panic in `insert` and `collect`, panics while iterating and printing. -/
def oddCalls : List (Call Nat Nat Nat) :=
  [.insert 0 2, .insert 0 3, .insert 0 3, .contains 0 9, .insert 0 5, .len 0, .iterate 0 (.iter 0), .next 0, .next 0, .next 0,
   .collect 1 counter 3, .extend 1 counter 9, .getRef 1, .fromBitSet 2 200, .unionWith 2 0, .getRef 2, .iterate 1 (.symmetricDifference 2 1), .next 1, .next 1, .next 1,
   .cmp 0 2, .isSubset 0 2, .debug 0 ⟨fun w => w + 1, fun a w => (some (), w + a), fun w => (true, w)⟩]

example : (execAll maskSet odd oddCalls (Store.start maskSet 0)).1 =
    [.bool true, .bool true, .bool false, .bool true, .panic .user, .num 2, .unit, .item (some 501), .panic .badDiscr, .item none,
     .panic .user, .unit, .bits [3, 4, 5, 6, 7], .unit, .unit, .bits [1, 3, 6, 7], .unit, .item (some 2901), .item (some 3004), .item (some 3105),
     .ord .gt, .bool true, .panic .badDiscr] := by decide +kernel

end ESet
end EnumVecModel
