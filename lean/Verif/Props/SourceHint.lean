import Verif.HintSpec
import Verif.Props.SourceSet

/-!
# C94: `size_hint` of the iterators of `EnumSet`, from the text
-/

namespace EnumVecModel
namespace Source
namespace SetText
open Like ESet
open Hostile (Impl)

set_option linter.constructorNameAsVariable false

variable {σ ω α : Type} {B : BitSet σ} {h : Impl ω α}

theorem run_next_nil (w : ω) : srun B h 4 .wrap .next [wrapObj ⟨[]⟩] w = .ok .none (wrapObj ⟨[]⟩) w := by
  rw [run_next]; rfl

theorem run_next_cons (x : Nat) (l : List Nat) (w : ω) : srun B h 4 .wrap .next [wrapObj ⟨x :: l⟩] w =
    match h.fromDiscr x w with
    | (Option.some a, w) => .ok (.some (.elem a)) (wrapObj ⟨l⟩) w
    | (Option.none, w) => .fault .badDiscr (wrapObj ⟨l⟩) w := by
  rw [run_next]
  unfold nextCode
  dsimp only
  rcases h.fromDiscr x w with ⟨_ | a, w'⟩ <;> rfl

theorem run_hint (l : List Nat) (w : ω) : srun B h 4 .wrap .size_hint [wrapObj ⟨l⟩] w = .ok (.hint l) (wrapObj ⟨l⟩) w := by
  srun_simp []

theorem skip_wrap : (k : Nat) → (l : List Nat) → (w : ω) → ∃ l' w', textSkip B h k (wrapObj ⟨l⟩) w = Option.some (wrapObj ⟨l'⟩, w') ∧ l' = l.drop k
  | 0, l, w => ⟨l, w, rfl, rfl⟩
  | k + 1, [], w => by
    unfold textSkip
    rw [run_next_nil]
    obtain ⟨l', w', e, hl⟩ := skip_wrap k [] w
    exact ⟨l', w', e, by rw [hl]; simp⟩
  | k + 1, x :: l, w => by
    unfold textSkip
    rw [run_next_cons]
    rcases h.fromDiscr x w with ⟨_ | a, w1⟩
    · exact skip_wrap k l w1
    · exact skip_wrap k l w1

theorem count_wrap : (n : Nat) → (l : List Nat) → (w : ω) → (m : Nat) → textCount B h n (wrapObj ⟨l⟩) w = Option.some m → m = l.length
  | 0, _, _, _, e => by cases e
  | n + 1, [], w, m, e => by
    unfold textCount at e
    rw [run_next_nil] at e
    cases e; rfl
  | n + 1, x :: l, w, m, e => by
    unfold textCount at e
    rw [run_next_cons] at e
    rcases hx : h.fromDiscr x w with ⟨_ | a, w1⟩
    · rw [hx] at e; cases e
    · rw [hx] at e
      dsimp only at e
      obtain ⟨m', e', rfl⟩ := Option.map_eq_some_iff.mp e
      rw [count_wrap n l w1 m' e', List.length_cons]

theorem count_ends : (l : List Nat) → (∀ x ∈ l, ∀ w, (h.fromDiscr x w).1 ≠ Option.none) → (w : ω) → textCount B h (l.length + 1) (wrapObj ⟨l⟩) w = Option.some l.length
  | [], _, w => by unfold textCount; rw [run_next_nil]; rfl
  | x :: l, hh, w => by
    unfold textCount
    rw [run_next_cons]
    rcases hx : h.fromDiscr x w with ⟨_ | a, w1⟩
    · exact absurd (by rw [hx]) (hh x (List.mem_cons_self ..) w)
    · show (textCount B h (l.length + 1) (wrapObj ⟨l⟩) w1).map _ = _
      rw [count_ends l (fun y hy => hh y (List.mem_cons_of_mem _ hy)) w1]; rfl

theorem run_makers (s t : σ) (w : ω) (f : Sym × List (SV σ ω α)) (hf : f ∈ makers s t) : ∃ l o, srun B h 4 .set f.1 f.2 w = .ok (wrapObj ⟨l⟩) o w := by
  simp only [makers, List.mem_cons, List.not_mem_nil, or_false] at hf
  rcases hf with rfl | rfl | rfl | rfl | rfl
  · exact ⟨B.iter s, obj ⟨s⟩, by srun_simp []⟩
  · exact ⟨B.union s t, obj ⟨s⟩, by srun_simp []⟩
  · exact ⟨B.intersection s t, obj ⟨s⟩, by srun_simp []⟩
  · exact ⟨B.difference s t, obj ⟨s⟩, by srun_simp []⟩
  · exact ⟨B.symmetricDifference s t, obj ⟨s⟩, by srun_simp []⟩

/-- **C94**: take an iterator made by `iter`, `union`, `intersection`, `difference` or `symmetric_difference`, whatever the sets hold and the element type does, after any number `k` of calls of `next`. By the text, `size_hint` changes
nothing, does not touch the element type, and returns what the iterator of `bit-set` returns while it has some numbers `l` to yield. If the calls of `next` that follow come to an end without a panic, they return exactly that many items; so, if
the hints of `bit-set` are right (`honest`), those of `EnumSet` are. -/
theorem C94_hint (s t : σ) (w : ω) (f : Sym × List (SV σ ω α)) (hf : f ∈ makers s t) (hint : List Nat → Nat × Option Nat)
    (honest : ∀ l, (hint l).1 ≤ l.length ∧ ∀ u, (hint l).2 = Option.some u → l.length ≤ u) :
    ∃ it o, srun B h 4 .set f.1 f.2 w = .ok it o w ∧ ∀ k, ∃ it' w' l, textSkip B h k it w = Option.some (it', w') ∧ srun B h 4 .wrap .size_hint [it'] w' = .ok (.hint l) it' w' ∧
      (∀ n m, textCount B h n it' w' = Option.some m → m = l.length ∧ (hint l).1 ≤ m ∧ ∀ u, (hint l).2 = Option.some u → m ≤ u) := by
  obtain ⟨l0, o, e⟩ := run_makers (B := B) (h := h) s t w f hf
  refine ⟨_, o, e, fun k => ?_⟩
  obtain ⟨l, w', e', -⟩ := skip_wrap (B := B) (h := h) k l0 w
  refine ⟨_, w', l, e', run_hint l w', fun n m hm => ?_⟩
  obtain rfl := count_wrap n l w' m hm
  exact ⟨rfl, honest l⟩

theorem lists_length {l l' : List Nat} {p q : Nat → Prop} (h1 : Lists l p) (h2 : Lists l' q) (h : ∀ x, p x ↔ q x) : l.length = l'.length := by
  refine List.Perm.length_eq ((List.perm_ext_iff_of_nodup (h1.1.imp fun h => Nat.ne_of_lt h) (h2.1.imp fun h => Nat.ne_of_lt h)).mpr fun x => ?_)
  rw [h1.2, h2.2, h]

theorem run_inPlace (hB : B.Lawful) (s t : σ) (w : ω) (f : (Sym × List (SV σ ω α)) × σ) (hf : f ∈ inPlace B s t) :
    ∃ l o, srun B h 4 .set f.1.1 f.1.2 w = .ok (wrapObj ⟨l⟩) o w ∧ l.length = B.len f.2 ∧ ∀ x ∈ l, B.contains s x = true ∨ B.contains t x = true := by
  simp only [inPlace, makers, List.zip_cons_cons, List.zip_nil_left, List.mem_cons, List.not_mem_nil, or_false] at hf
  rcases hf with rfl | rfl | rfl | rfl | rfl
  · exact ⟨B.iter s, obj ⟨s⟩, by srun_simp [], (hB.len s).symm, fun x hx => .inl (((hB.iter s).2 x).mp hx)⟩
  · refine ⟨B.union s t, obj ⟨s⟩, by srun_simp [], ?_, fun x hx => ((hB.union s t).2 x).mp hx⟩
    rw [hB.len]
    exact lists_length (hB.union s t) (hB.iter _) fun x => by rw [hB.unionWith, Bool.or_eq_true]
  · refine ⟨B.intersection s t, obj ⟨s⟩, by srun_simp [], ?_, fun x hx => .inl (((hB.intersection s t).2 x).mp hx).1⟩
    rw [hB.len]
    exact lists_length (hB.intersection s t) (hB.iter _) fun x => by rw [hB.intersectWith, Bool.and_eq_true]
  · refine ⟨B.difference s t, obj ⟨s⟩, by srun_simp [], ?_, fun x hx => .inl (((hB.difference s t).2 x).mp hx).1⟩
    rw [hB.len]
    exact lists_length (hB.difference s t) (hB.iter _) fun x => by rw [hB.differenceWith, Bool.and_eq_true]; simp
  · refine ⟨B.symmetricDifference s t, obj ⟨s⟩, by srun_simp [], ?_, fun x hx => by
      have hn : ¬ (B.contains s x = true ↔ B.contains t x = true) := ((hB.symmetricDifference s t).2 x).mp hx
      cases h1 : B.contains s x with
      | true => exact .inl rfl
      | false => cases h2 : B.contains t x with
        | true => exact .inr rfl
        | false => exact absurd (by rw [h1, h2]) hn⟩
    rw [hB.len]
    exact lists_length (hB.symmetricDifference s t) (hB.iter _) fun x => by
      rw [hB.symmetricDifferenceWith]; cases B.contains s x <;> cases B.contains t x <;> decide

/-- **C94** (how many): if `from_discr` does not panic for the numbers in the sets, the iterator of a set has `len()` items, and those of union, intersection, difference and symmetric difference have as many as the set has that the function in place makes; after `k` of
them, that many less. -/
theorem C94_exact (hB : B.Lawful) (s t : σ) (hh : ∀ x, B.contains s x = true ∨ B.contains t x = true → ∀ w, (h.fromDiscr x w).1 ≠ Option.none) (w : ω) (f : (Sym × List (SV σ ω α)) × σ) (hf : f ∈ inPlace B s t) :
    ∃ it o, srun B h 4 .set f.1.1 f.1.2 w = .ok it o w ∧ ∀ k, ∃ it' w', textSkip B h k it w = Option.some (it', w') ∧ ∃ n, textCount B h n it' w' = Option.some (B.len f.2 - k) := by
  obtain ⟨l, o, e, hl, hm⟩ := run_inPlace (h := h) hB s t w f hf
  refine ⟨_, o, e, fun k => ?_⟩
  obtain ⟨_, w', e', rfl⟩ := skip_wrap (B := B) (h := h) k l w
  refine ⟨_, w', e', (l.drop k).length + 1, ?_⟩
  rw [count_ends _ (fun x hx => hh x (hm x (List.mem_of_mem_drop hx))), List.length_drop, hl]

/-- The hypotheses hold: the sets {false, true} and {true, None} over `Option<bool>`; `from_discr(3)` panics. -/
example (f : (Sym × List (SV Nat Nat (Option Bool))) × Nat) (hf : f ∈ inPlace maskSet 3 6) :
    ∃ it o, srun maskSet (Impl.of (EnumLike.option EnumLike.bool)) 4 .set f.1.1 f.1.2 0 = .ok it o 0 ∧
      ∀ k, ∃ it' w', textSkip maskSet (Impl.of (EnumLike.option EnumLike.bool)) k it 0 = Option.some (it', w') ∧
        ∃ n, textCount maskSet (Impl.of (EnumLike.option EnumLike.bool)) n it' w' = Option.some (maskSet.len f.2 - k) :=
  C94_exact maskSet_lawful 3 6 (fun x hx w => by
    have hx3 : x < 3 := by
      refine Nat.lt_of_not_le fun h3 => ?_
      have h8 : (8 : Nat) ≤ 2 ^ x := Nat.pow_le_pow_right (n := 2) (by decide) h3
      rcases hx with hx | hx
      · have := Nat.testBit_lt_two_pow (show 3 < 2 ^ x by omega); exact absurd hx (by show ¬ Nat.testBit 3 x = true; rw [this]; decide)
      · have := Nat.testBit_lt_two_pow (show 6 < 2 ^ x by omega); exact absurd hx (by show ¬ Nat.testBit 6 x = true; rw [this]; decide)
    match x, hx3 with
    | 0, _ => exact fun e => by cases e
    | 1, _ => exact fun e => by cases e
    | 2, _ => exact fun e => by cases e) 0 f hf

/-- The union has three items, two after one `next`; `size_hint` is that of `bit-set`. With a type that panics, there is no count. -/
example : (match srun maskSet (Impl.of (EnumLike.option EnumLike.bool)) 4 .set .union [obj ⟨3⟩, obj ⟨6⟩] () with
    | .ok it _ w => (textCount maskSet (Impl.of (EnumLike.option EnumLike.bool)) 9 it w,
        (textSkip maskSet (Impl.of (EnumLike.option EnumLike.bool)) 1 it w).bind fun p => textCount maskSet (Impl.of (EnumLike.option EnumLike.bool)) 9 p.1 p.2)
    | _ => (Option.none, Option.none)) = (Option.some 3, Option.some 2) := by decide +kernel

end SetText
end Source
end EnumVecModel
