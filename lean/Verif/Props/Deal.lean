import Verif.DealSpec
import Verif.Props.EnumSet
import Verif.Lemmas.Values
import Verif.Props.EnumLike
import Verif.Examples
import Mathlib.Data.Finset.Card

/-!
# C93: counting members of `EnumSet`s, and dealing values to sets
-/

namespace EnumVecModel
namespace ESet

variable {σ α : Type} {B : BitSet σ} {E : EnumLike α}

/-- The numbers in the set. -/
def fs (B : BitSet σ) (s : EnumSet σ) : Finset Nat := (B.iter s.inner).toFinset

theorem mem_fs (hB : B.Lawful) {s : EnumSet σ} {x : Nat} : x ∈ fs B s ↔ B.contains s.inner x = true := by
  rw [fs, List.mem_toFinset, (hB.iter s.inner).2]

theorem card_fs (hB : B.Lawful) (s : EnumSet σ) : (fs B s).card = len B s := by
  rw [fs, List.toFinset_card_of_nodup ((hB.iter s.inner).1.imp (by intro a b h; exact Nat.ne_of_lt h))]
  exact (hB.len s.inner).symm

theorem fs_union (hB : B.Lawful) (s t : EnumSet σ) : fs B (unionWith B s t) = fs B s ∪ fs B t := by
  ext x; rw [Finset.mem_union, mem_fs hB, mem_fs hB, mem_fs hB]
  show B.contains (B.unionWith s.inner t.inner) x = true ↔ _
  rw [hB.unionWith, Bool.or_eq_true]

theorem fs_inter (hB : B.Lawful) (s t : EnumSet σ) : fs B (intersectWith B s t) = fs B s ∩ fs B t := by
  ext x; rw [Finset.mem_inter, mem_fs hB, mem_fs hB, mem_fs hB]
  show B.contains (B.intersectWith s.inner t.inner) x = true ↔ _
  rw [hB.intersectWith, Bool.and_eq_true]

theorem fs_diff (hB : B.Lawful) (s t : EnumSet σ) : fs B (differenceWith B s t) = fs B s \ fs B t := by
  ext x; rw [Finset.mem_sdiff, mem_fs hB, mem_fs hB, mem_fs hB]
  show B.contains (B.differenceWith s.inner t.inner) x = true ↔ _
  rw [hB.differenceWith, Bool.and_eq_true]; simp

theorem fs_symm (hB : B.Lawful) (s t : EnumSet σ) : fs B (symmetricDifferenceWith B s t) = (fs B s \ fs B t) ∪ (fs B t \ fs B s) := by
  ext x; rw [Finset.mem_union, Finset.mem_sdiff, Finset.mem_sdiff, mem_fs hB, mem_fs hB, mem_fs hB]
  show B.contains (B.symmetricDifferenceWith s.inner t.inner) x = true ↔ _
  rw [hB.symmetricDifferenceWith]
  cases B.contains s.inner x <;> cases B.contains t.inner x <;> decide

/-- **C93** (counting): for all sets, also those made by `from_bit_set`: the usual laws of counting, and how `len` decides the other questions. -/
theorem C93_count (hB : B.Lawful) (s t : EnumSet σ) (a : α) :
    len B (unionWith B s t) + len B (intersectWith B s t) = len B s + len B t ∧
    len B (differenceWith B s t) + len B (intersectWith B s t) = len B s ∧
    len B (symmetricDifferenceWith B s t) + 2 * len B (intersectWith B s t) = len B s + len B t ∧
    (isDisjoint B s t = true ↔ len B (unionWith B s t) = len B s + len B t) ∧
    (isSubset B s t = true ↔ len B (intersectWith B s t) = len B s) ∧
    (isSuperset B s t = true ↔ len B (intersectWith B s t) = len B t) ∧
    (eq B s t = true ↔ len B (symmetricDifferenceWith B s t) = 0) ∧
    (isEmpty B s = true ↔ len B s = 0) ∧
    len B (insert B E s a).2 = len B s + (if (insert B E s a).1 then 1 else 0) ∧
    len B (remove B E s a).2 + (if (remove B E s a).1 then 1 else 0) = len B s ∧
    len B (new B) = 0 ∧ len B (clear B s) = 0 ∧ len B (shrinkToFit B s) = len B s ∧ len B (clone s) = len B s := by
  have hu := Finset.card_union_add_card_inter (fs B s) (fs B t)
  have hd := Finset.card_sdiff_add_card_inter (fs B s) (fs B t)
  have hd' := Finset.card_sdiff_add_card_inter (fs B t) (fs B s)
  have hx : (fs B s \ fs B t ∪ fs B t \ fs B s).card = (fs B s \ fs B t).card + (fs B t \ fs B s).card :=
    Finset.card_union_of_disjoint (Finset.disjoint_left.mpr fun x h1 h2 => (Finset.mem_sdiff.mp h1).2 (Finset.mem_sdiff.mp h2).1)
  rw [Finset.inter_comm (fs B t)] at hd'
  simp only [← card_fs hB, fs_union hB, fs_inter hB, fs_diff hB, fs_symm hB]
  have zero : ∀ u : EnumSet σ, (∀ x, B.contains u.inner x = false) → (fs B u).card = 0 := fun u h => by
    rw [Finset.card_eq_zero, Finset.eq_empty_iff_forall_notMem]
    intro x hx; rw [mem_fs hB, h x] at hx; cases hx
  refine ⟨hu, hd, by omega, ?_, ?_, ?_, ?_, ?_, ?_, ?_, zero _ hB.new, zero _ (hB.clear s.inner), ?_, rfl⟩
  · show B.isDisjoint s.inner t.inner = true ↔ _
    rw [hB.isDisjoint]
    have : (fs B s ∪ fs B t).card = (fs B s).card + (fs B t).card ↔ (fs B s ∩ fs B t).card = 0 := by omega
    rw [this, Finset.card_eq_zero, Finset.eq_empty_iff_forall_notMem]
    simp only [Finset.mem_inter, mem_fs hB]
  · show B.isSubset s.inner t.inner = true ↔ _
    rw [hB.isSubset]
    have : (fs B s ∩ fs B t).card = (fs B s).card ↔ (fs B s \ fs B t).card = 0 := by omega
    rw [this, Finset.card_eq_zero, Finset.sdiff_eq_empty_iff_subset, Finset.subset_iff]
    simp only [mem_fs hB]
  · show B.isSuperset s.inner t.inner = true ↔ _
    rw [hB.isSuperset]
    have : (fs B s ∩ fs B t).card = (fs B t).card ↔ (fs B t \ fs B s).card = 0 := by omega
    rw [this, Finset.card_eq_zero, Finset.sdiff_eq_empty_iff_subset, Finset.subset_iff]
    simp only [mem_fs hB]
  · show B.eq s.inner t.inner = true ↔ _
    rw [hB.eq, hx]
    have : (fs B s \ fs B t).card + (fs B t \ fs B s).card = 0 ↔ (fs B s \ fs B t).card = 0 ∧ (fs B t \ fs B s).card = 0 := by omega
    rw [this, Finset.card_eq_zero, Finset.card_eq_zero, Finset.sdiff_eq_empty_iff_subset, Finset.sdiff_eq_empty_iff_subset, Finset.subset_iff, Finset.subset_iff]
    simp only [mem_fs hB]
    constructor
    · intro h; exact ⟨fun x hx => h x ▸ hx, fun x hx => (h x).symm ▸ hx⟩
    · intro h x; rw [Bool.eq_iff_iff]; exact ⟨fun e => h.1 e, fun e => h.2 e⟩
  · show B.isEmpty s.inner = true ↔ _
    rw [hB.isEmpty, Finset.card_eq_zero, Finset.eq_empty_iff_forall_notMem]
    simp only [mem_fs hB, Bool.not_eq_true]
  · have e : fs B (insert B E s a).2 = Insert.insert (E.toDiscr a) (fs B s) := by
      ext x; rw [Finset.mem_insert, mem_fs hB, mem_fs hB]
      exact hB.insert_mem s.inner (E.toDiscr a) x
    have e1 : (insert B E s a).1 = !B.contains s.inner (E.toDiscr a) := hB.insert _ _
    rw [e, e1]
    cases h : B.contains s.inner (E.toDiscr a) with
    | true => rw [Finset.insert_eq_of_mem ((mem_fs hB).mpr h)]; rfl
    | false => rw [Finset.card_insert_of_notMem (fun hm => by rw [mem_fs hB, h] at hm; cases hm)]; rfl
  · have e : fs B (remove B E s a).2 = (fs B s).erase (E.toDiscr a) := by
      ext x; rw [Finset.mem_erase, mem_fs hB, mem_fs hB]
      exact hB.remove_mem s.inner (E.toDiscr a) x
    have e1 : (remove B E s a).1 = B.contains s.inner (E.toDiscr a) := hB.remove _ _
    rw [e, e1]
    cases h : B.contains s.inner (E.toDiscr a) with
    | true => rw [if_pos rfl]; exact Finset.card_erase_add_one ((mem_fs hB).mpr h)
    | false => rw [Finset.erase_eq_of_notMem (fun hm => by rw [mem_fs hB, h] at hm; cases hm)]; rfl
  · congr 1
    ext x; rw [mem_fs hB, mem_fs hB]
    exact (hB.shrink s.inner x).symm ▸ Iff.rfl

/-- A set holds the members of a list without repetition: `len` is its length. -/
theorem len_rep (hB : B.Lawful) (hE : E.Contract) {s : EnumSet σ} {p : VSet α} (h : Rep B E s p) {l : List α} (hl : l.Nodup) (hm : ∀ a, a ∈ l ↔ p a) : len B s = l.length := by
  rw [← card_fs hB]
  have : fs B s = (l.map E.toDiscr).toFinset := by
    ext x
    rw [mem_fs hB, h x, List.mem_toFinset, List.mem_map]
    exact ⟨fun ⟨a, e, ha⟩ => ⟨a, (hm a).mpr ha, e⟩, fun ⟨a, ha, e⟩ => ⟨a, e, (hm a).mp ha⟩⟩
  rw [this, List.toFinset_card_of_nodup (hl.map fun a b e => EnumLike.toDiscr_inj hE e), List.length_map]

theorem after_rep (hB : B.Lawful) (hE : E.Contract) : (os : List (Op α)) → (R : Nat → EnumSet σ) → (S : Nat → VSet α) → (∀ i, Rep B E (R i) (S i)) → ∃ S' : Nat → VSet α, ∀ i, Rep B E (after B E os R i) (S' i)
  | [], _, S, h => ⟨S, h⟩
  | o :: os, _, _, h => after_rep hB hE os _ _ (step_right hB hE h o).2

/-- **C93** (the bound): after any history of calls, a set has at most `NUM_VARIANTS` members; if `vals` are all values, it has that many exactly if it contains all of them. -/
theorem C93_bound (hB : B.Lawful) (hE : E.Contract) (os : List (Op α)) (r : Nat) :
    len B (after B E os (fun _ => new B) r) ≤ E.num ∧
    ∀ vals, EnumLike.AllValues E vals → (len B (after B E os (fun _ => new B) r) = E.num ↔ ∀ a, contains B E (after B E os (fun _ => new B) r) a = true) := by
  obtain ⟨S, hS⟩ := after_rep hB hE os (fun _ => new B) (fun _ _ => False) fun _ => empty_rep hB.new
  have h := hS r
  generalize after B E os (fun _ => new B) r = s at h
  generalize S r = p at h
  have hsub : fs B s ⊆ Finset.range E.num := by
    intro x hx
    rw [mem_fs hB, h x] at hx
    obtain ⟨a, rfl, -⟩ := hx
    exact Finset.mem_range.mpr (hE.lt a)
  rw [← card_fs hB]
  refine ⟨by simpa using Finset.card_le_card hsub, fun vals hv => ?_⟩
  constructor
  · intro e a
    have : fs B s = Finset.range E.num := Finset.eq_of_subset_of_card_le hsub (by rw [e, Finset.card_range])
    exact (mem_fs hB).mp (this ▸ Finset.mem_range.mpr (hE.lt a))
  · intro ha
    have : fs B s = Finset.range E.num := by
      refine Finset.Subset.antisymm hsub fun x hx => ?_
      have hx' : x ∈ vals.map E.toDiscr := by rw [hv]; exact List.mem_range.mpr (Finset.mem_range.mp hx)
      obtain ⟨a, -, rfl⟩ := List.mem_map.mp hx'
      exact (mem_fs hB).mpr (ha a)
    rw [this, Finset.card_range]

/-! ## Dealing -/

theorem deal_spec (hB : B.Lawful) (hE : E.Contract) : (moves : List (Nat × Nat)) → (deck : List α) → (hands : Nat → EnumSet σ) → (H : Nat → VSet α) → (∀ p, Rep B E (hands p) (H p)) → deck.Nodup →
    (∀ a ∈ deck, ∀ p, ¬ H p a) → {news : List Bool} → {rest : List α} → {hands' : Nat → EnumSet σ} → deal B E moves deck hands = some (news, rest, hands') →
    ∃ D : List (Nat × α), D.map Prod.fst = moves.map Prod.fst ∧ (D.map Prod.snd ++ rest).Perm deck ∧ (∀ p, Rep B E (hands' p) fun a => (p, a) ∈ D ∨ H p a) ∧ news = moves.map fun _ => true
  | [], deck, hands, H, hR, _, _, news, rest, hands', h => by
    cases h
    exact ⟨[], rfl, List.Perm.refl _, fun p => by simpa using hR p, rfl⟩
  | (p, i) :: moves, deck, hands, H, hR, hN, hD, news, rest, hands', h => by
    unfold deal at h
    cases ha : deck[i]? with
    | none => rw [ha] at h; cases h
    | some a =>
      rw [ha] at h
      dsimp only at h
      cases hr : deal B E moves (deck.eraseIdx i) (upd hands p (insert B E (hands p) a).2) with
      | none => rw [hr] at h; cases h
      | some r =>
        rw [hr] at h
        obtain ⟨news1, rest1, hands1⟩ := r
        cases h
        obtain ⟨hi, hai⟩ := List.getElem?_eq_some_iff.mp ha
        have hperm : (a :: deck.eraseIdx i).Perm deck := by subst hai; exact List.getElem_cons_eraseIdx_perm hi
        have hN' : (a :: deck.eraseIdx i).Nodup := hperm.nodup_iff.mpr hN
        have hmem : a ∈ deck := hperm.subset (List.mem_cons_self ..)
        obtain ⟨D, h1, h2, h3, h4⟩ := deal_spec hB hE moves (deck.eraseIdx i) (upd hands p (insert B E (hands p) a).2) (upd H p fun b => b = a ∨ H p b)
          (rep_upd hR (insert_rep hB (hR p) a)) (List.nodup_cons.mp hN').2 (by
            intro b hb q hq
            have hb' : b ∈ deck := hperm.subset (List.mem_cons_of_mem _ hb)
            unfold upd at hq
            split at hq
            · rcases hq with rfl | hq
              · exact (List.nodup_cons.mp hN').1 hb
              · exact hD b hb' p hq
            · exact hD b hb' q hq) hr
        refine ⟨(p, a) :: D, by simp [h1], ?_, ?_, ?_⟩
        · exact (List.Perm.cons a h2).trans hperm
        · intro q
          have hq := h3 q
          intro x
          rw [hq x]
          refine exists_congr fun b => and_congr_right fun _ => ?_
          unfold upd
          by_cases e : q = p
          · subst e
            show _ ↔ (q, b) ∈ (q, a) :: D ∨ H q b
            rw [if_pos rfl, List.mem_cons]
            simp only [Prod.mk.injEq, true_and]
            exact ⟨fun h => h.elim (fun h => .inl (.inr h)) (fun h => h.elim (fun h => .inl (.inl h)) .inr), fun h => h.elim (fun h => h.elim (fun h => .inr (.inl h)) .inl) (fun h => .inr (.inr h))⟩
          · show _ ↔ (q, b) ∈ (p, a) :: D ∨ H q b
            rw [if_neg e, List.mem_cons]
            simp [e]
        · have : (insert B E (hands p) a).1 = true := by
            show (B.insert _ _).1 = _
            rw [hB.insert]
            cases hc : B.contains (hands p).inner (E.toDiscr a) with
            | false => rfl
            | true => exact absurd (((hR p).mem hE a).mp hc) (hD a hmem p)
          rw [this, h4]; rfl

theorem allValues_nodup {vals : List α} (hv : EnumLike.AllValues E vals) : vals.Nodup :=
  List.Nodup.of_map E.toDiscr (by rw [show vals.map E.toDiscr = _ from hv]; exact List.nodup_range)

theorem fold_union (hB : B.Lawful) (hands : Nat → EnumSet σ) (x : Nat) : (l : List Nat) → (s : EnumSet σ) →
    (B.contains (l.foldl (fun u p => unionWith B u (hands p)) s).inner x = true ↔ B.contains s.inner x = true ∨ ∃ p ∈ l, B.contains (hands p).inner x = true)
  | [], s => by simp
  | p :: l, s => by
    rw [List.foldl_cons, fold_union hB hands x l]
    show B.contains (B.unionWith s.inner (hands p).inner) x = true ∨ _ ↔ _
    rw [hB.unionWith, Bool.or_eq_true]
    simp [or_assoc]

theorem sum_add (f g : Nat → Nat) : (l : List Nat) → (l.map fun p => f p + g p).sum = (l.map f).sum + (l.map g).sum
  | [] => rfl
  | a :: l => by
    simp only [List.map_cons, List.sum_cons, sum_add f g l]; omega

theorem sum_count (k : Nat) : (l : List Nat) → (∀ p ∈ l, p < k) → ((List.range k).map fun p => l.count p).sum = l.length
  | [], _ => by simp
  | a :: l, h => by
    have ih := sum_count k l fun p hp => h p (List.mem_cons_of_mem _ hp)
    have hk := h a (List.mem_cons_self ..)
    rw [List.length_cons, ← ih]
    simp only [List.count_cons]
    rw [sum_add fun p => l.count p]
    congr 1
    have : ∀ k, ((List.range k).map fun p => if (a == p) = true then 1 else 0).sum = if a < k then 1 else 0 := by
      intro k
      induction k with
      | zero => rfl
      | succ k ih =>
        rw [List.range_succ, List.map_append, List.sum_append, ih]
        simp only [List.map_cons, List.map_nil, List.sum_cons, List.sum_nil, beq_iff_eq]
        split <;> split <;> split <;> omega
    rw [this, if_pos hk]

/-- **C93** (dealing): `deck` is what `T::values()` yields; any number of its values are dealt to empty sets, in any order. Then every `insert` returned `true`; the sets are disjoint; each has as many members as its player was
dealt; every value is in exactly one set or in the rest. If all of the deck was dealt to `k` players, the sets have `NUM_VARIANTS` members together, and their union equals the set of all values. -/
theorem C93_deal (hB : B.Lawful) (hE : E.Contract) {deck : List α} (hv : EnumLike.AllValues E deck) {moves : List (Nat × Nat)} {news : List Bool} {rest : List α} {hands : Nat → EnumSet σ}
    (h : deal B E moves deck (fun _ => new B) = some (news, rest, hands)) :
    (∀ b ∈ news, b = true) ∧ news.length = moves.length ∧
    (∀ p q, p ≠ q → isDisjoint B (hands p) (hands q) = true) ∧
    (∀ p, len B (hands p) = (moves.map Prod.fst).count p) ∧
    (∀ a, (a ∈ rest ↔ ¬ ∃ p, contains B E (hands p) a = true) ∧ ∀ p q, contains B E (hands p) a = true → contains B E (hands q) a = true → p = q) ∧
    rest.length + moves.length = E.num ∧
    ∀ k, rest = [] → (∀ m ∈ moves, m.1 < k) → ((List.range k).map fun p => len B (hands p)).sum = E.num ∧
      eq B ((List.range k).foldl (fun u p => unionWith B u (hands p)) (new B)) (fromIter B E deck) = true := by
  have hN := allValues_nodup hv
  obtain ⟨D, h1, h2, h3, h4⟩ := deal_spec hB hE moves deck (fun _ => new B) (fun _ _ => False) (fun _ => empty_rep hB.new) hN (fun _ _ _ h => h) h
  have hlen : deck.length = E.num := by have := congrArg List.length (show deck.map E.toDiscr = _ from hv); simpa using this
  have hall : ∀ a, a ∈ deck := fun a => by
    have : E.toDiscr a ∈ deck.map E.toDiscr := by rw [show deck.map E.toDiscr = _ from hv]; exact List.mem_range.mpr (hE.lt a)
    obtain ⟨b, hb, e⟩ := List.mem_map.mp this
    exact EnumLike.toDiscr_inj hE e ▸ hb
  have hN2 : (D.map Prod.snd ++ rest).Nodup := h2.nodup_iff.mpr hN
  have hND : (D.map Prod.snd).Nodup := (List.nodup_append.mp hN2).1
  have huniq : ∀ {p q a}, (p, a) ∈ D → (q, a) ∈ D → p = q := fun {p q a} hp hq => by
    have := List.inj_on_of_nodup_map hND hp hq rfl
    exact congrArg Prod.fst this
  have hc : ∀ p a, contains B E (hands p) a = true ↔ (p, a) ∈ D := fun p a => by
    have := (h3 p).mem hE a
    show B.contains (hands p).inner (E.toDiscr a) = true ↔ _
    simpa using this
  have hlenD : D.length = moves.length := by have := congrArg List.length h1; simpa using this
  have hL : ∀ p, len B (hands p) = (moves.map Prod.fst).count p := fun p => by
    rw [len_rep hB hE (h3 p) (l := (D.filter fun d => d.1 == p).map Prod.snd) (hND.sublist ((List.filter_sublist ..).map _)) ?_]
    · rw [List.length_map, ← h1, List.count, List.countP_map, List.countP_eq_length_filter]; rfl
    · intro a
      simp only [List.mem_map, List.mem_filter, beq_iff_eq, or_false]
      constructor
      · rintro ⟨⟨q, b⟩, ⟨hm, rfl⟩, rfl⟩; exact hm
      · intro hm; exact ⟨(p, a), ⟨hm, rfl⟩, rfl⟩
  have hsum : rest.length + moves.length = E.num := by
    have := h2.length_eq
    rw [List.length_append, List.length_map, hlenD, hlen] at this
    omega
  refine ⟨?_, by rw [h4]; simp, ?_, hL, ?_, hsum, ?_⟩
  · intro b hb; rw [h4] at hb; obtain ⟨_, _, rfl⟩ := List.mem_map.mp hb; rfl
  · intro p q hpq
    show B.isDisjoint (hands p).inner (hands q).inner = true
    rw [hB.isDisjoint]
    rintro x ⟨hx, hy⟩
    obtain ⟨a, rfl, ha⟩ := (h3 p x).mp hx
    have hb := (hc q a).mp hy
    have ha' : (p, a) ∈ D := by simpa using ha
    exact hpq (huniq ha' hb)
  · intro a
    refine ⟨⟨?_, ?_⟩, fun p q hp hq => huniq ((hc p a).mp hp) ((hc q a).mp hq)⟩
    · rintro har ⟨p, hp⟩
      exact (List.nodup_append.mp hN2).2.2 a (List.mem_map.mpr ⟨(p, a), (hc p a).mp hp, rfl⟩) a har rfl
    · intro hn
      rcases List.mem_append.mp (h2.symm.subset (hall a)) with hm | hm
      · obtain ⟨⟨p, b⟩, hd, rfl⟩ := List.mem_map.mp hm
        exact absurd ⟨p, (hc p b).mpr hd⟩ hn
      · exact hm
  · rintro k rfl hk
    constructor
    · simp only [hL]
      rw [sum_count k _ (by intro p hp; obtain ⟨m, hm, rfl⟩ := List.mem_map.mp hp; exact hk m hm), List.length_map]
      simpa using hsum
    · show B.eq _ _ = true
      rw [hB.eq]
      intro x
      rw [Bool.eq_iff_iff, fold_union hB]
      have hE' : Rep B E (fromIter B E deck) fun b => b ∈ deck ∨ False := extend_rep hB deck (empty_rep hB.new)
      show _ ↔ B.contains (fromIter B E deck).inner x = true
      rw [hE' x]
      constructor
      · rintro (hx | ⟨p, -, hx⟩)
        · rw [show B.contains (new B).inner x = false from hB.new x] at hx; cases hx
        · obtain ⟨a, e, _⟩ := (h3 p x).mp hx
          exact ⟨a, e, .inl (hall a)⟩
      · rintro ⟨a, rfl, -⟩
        have := h2.symm.subset (hall a)
        rw [List.append_nil] at this
        obtain ⟨⟨p, b⟩, hm, rfl⟩ := List.mem_map.mp this
        refine .inr ⟨p, List.mem_range.mpr ?_, (hc p b).mpr hm⟩
        have : p ∈ moves.map Prod.fst := by rw [← h1]; exact List.mem_map.mpr ⟨_, hm, rfl⟩
        obtain ⟨m, hm2, rfl⟩ := List.mem_map.mp this
        exact hk m hm2

/-- **C93** (the deal goes through): if every index is within the rest of the deck, `Vec::remove` does not panic. -/
theorem C93_deals : (moves : List (Nat × Nat)) → (deck : List α) → (hands : Nat → EnumSet σ) → (∀ i (h : i < moves.length), moves[i].2 + i < deck.length) → (deal B E moves deck hands).isSome
  | [], _, _, _ => rfl
  | (p, i) :: moves, deck, hands, h => by
    have hi : i < deck.length := h 0 (by simp)
    unfold deal
    rw [List.getElem?_eq_getElem hi]
    dsimp only
    rw [Option.isSome_map]
    refine C93_deals moves _ _ fun j hj => ?_
    have := h (j + 1) (by simpa using hj)
    rw [List.length_eraseIdx_of_lt hi]
    simp only [List.getElem_cons_succ] at this
    omega

theorem count_mod (k p : Nat) (hp : p < k) : (m : Nat) → (((List.range (k * m)).map (· % k)).count p) = m
  | 0 => by simp
  | m + 1 => by
    rw [Nat.mul_succ, List.range_add, List.map_append, List.count_append, count_mod k p hp m, List.map_map]
    have : (List.range k).map ((· % k) ∘ (k * m + ·)) = List.range k := by
      conv => rhs; rw [← List.map_id (List.range k)]
      refine List.map_congr_left fun j hj => ?_
      show (k * m + j) % k = j
      rw [Nat.mul_add_mod, Nat.mod_eq_of_lt (List.mem_range.mp hj)]
    rw [this, List.count_eq_one_of_mem List.nodup_range (List.mem_range.mpr hp)]

/-- **C93** (the program of the example, for every type, seed and number of players): deal all of `T::values()` to `k` players in turn, each time the value at `seed % deck.len()`. It goes through, nothing is left, and each player has the same
number of values, if `k` divides `NUM_VARIANTS`. -/
theorem C93_game (hB : B.Lawful) (hE : E.Contract) {deck : List α} (hv : EnumLike.AllValues E deck) (seed k : Nat) (hk : 0 < k) :
    ∃ news hands, deal B E ((List.range E.num).map fun j => (j % k, seed % (E.num - j))) deck (fun _ => new B) = some (news, [], hands) ∧
      (k ∣ E.num → ∀ p, p < k → len B (hands p) = E.num / k) ∧
      eq B ((List.range k).foldl (fun u p => unionWith B u (hands p)) (new B)) (fromIter B E deck) = true := by
  have hlen : deck.length = E.num := by have := congrArg List.length (show deck.map E.toDiscr = _ from hv); simpa using this
  obtain ⟨⟨news, rest, hands⟩, h⟩ := Option.isSome_iff_exists.mp (C93_deals (B := B) (E := E) ((List.range E.num).map fun j => (j % k, seed % (E.num - j))) deck (fun _ => new B) (by
    intro i hi
    rw [List.length_map, List.length_range] at hi
    rw [List.getElem_map, List.getElem_range, hlen]
    have := Nat.mod_lt seed (show 0 < E.num - i by omega)
    show seed % (E.num - i) + i < _
    omega))
  obtain ⟨-, -, -, hL, -, hr, hall⟩ := C93_deal hB hE hv h
  rw [List.length_map, List.length_range] at hr
  have : rest = [] := List.eq_nil_of_length_eq_zero (by omega)
  subst this
  refine ⟨news, hands, h, ?_, (hall k rfl (by intro m hm; obtain ⟨j, -, rfl⟩ := List.mem_map.mp hm; exact Nat.mod_lt _ hk)).2⟩
  rintro ⟨m, hm⟩ p hp
  rw [hL p, List.map_map, hm, Nat.mul_div_cancel_left _ hk]
  exact count_mod k p hp m

/-- The hypotheses hold for the cards of the example (example/src/enum_set.rs:4-33), and each of four players gets 13 cards whatever the seed. -/
example (seed : Nat) : ∃ (deck : List (EnumLike.Derive.Fields [⟨_, finLike 13⟩, ⟨_, finLike 4⟩])) (news : List Bool) (hands : Nat → EnumSet Nat),
    deal maskSet (EnumLike.Derive.struct [⟨_, finLike 13⟩, ⟨_, finLike 4⟩]) ((List.range 52).map fun j => (j % 4, seed % (52 - j))) deck (fun _ => new maskSet) = some (news, [], hands) ∧
    ∀ p, p < 4 → len maskSet (hands p) = 13 := by
  have hE : (EnumLike.Derive.struct [⟨_, finLike 13⟩, ⟨_, finLike 4⟩]).Contract ∧ (EnumLike.Derive.struct [⟨_, finLike 13⟩, ⟨_, finLike 4⟩]).Consecutive :=
    EnumLike.C40_struct (by simp [finLike_contract]) (by simp [finLike_consecutive])
  obtain ⟨deck, hv⟩ := EnumLike.allValues_exists hE.2
  obtain ⟨news, hands, h, hl, -⟩ := C93_game maskSet_lawful hE.1 hv seed 4 (by decide)
  exact ⟨deck, news, hands, h, hl (by decide)⟩

/-- A deal of some of the three values of `Option<bool>`, and the counts. -/
example : (deal maskSet (EnumLike.option EnumLike.bool) [(0, 1), (1, 1)] [some false, some true, none] fun _ => new maskSet).map (fun r => (r.1, r.2.1, (r.2.2 0).inner, (r.2.2 1).inner)) =
    some ([true, true], [some false], 2, 4) ∧
    (deal maskSet (EnumLike.option EnumLike.bool) [(0, 1), (1, 2)] [some false, some true, none] fun _ => new maskSet).isNone = true ∧ EnumLike.AllValues (EnumLike.option EnumLike.bool) [some false, some true, none] :=
  ⟨by decide +kernel, by decide +kernel, rfl⟩

end ESet
end EnumVecModel
