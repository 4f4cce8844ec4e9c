import Verif.CheckValues
import Verif.Props.EnumLike

/-! # What `check_values_of` checks (C69) -/

namespace EnumVecModel
namespace EnumLike
variable {α : Type} {E : EnumLike α} {eqv : α → α → Bool}

instance : DecidableEq (Except Fault Unit)
  | .ok (), .ok () => isTrue rfl
  | .error a, .error b => if h : a = b then isTrue (h ▸ rfl) else isFalse fun e => h (Except.error.inj e)
  | .ok _, .error _ => isFalse nofun
  | .error _, .ok _ => isFalse nofun

/-- The number `k` stands for a value that comes back from its own number. -/
def Stable (E : EnumLike α) (k : Nat) : Prop := ∃ a, E.fromDiscr k = some a ∧ E.fromDiscr (E.toDiscr a) = some a

theorem checkLoop_pass (he : ∀ a b, eqv a b = true ↔ a = b) : ∀ (n k : Nat) (seen : List α) (cnt : Nat), E.num - k < n → k ≤ E.num →
    (∀ j, k ≤ j → j < E.num → Stable E j) →
    ∃ l, checkLoop E eqv n ⟨k, E.num⟩ seen cnt = .ok (seen ++ l, cnt + (E.num - k)) ∧ l.length = E.num - k ∧ ∀ j, j < E.num - k → l[j]? = E.fromDiscr (k + j)
  | 0, _, _, _, hn, _, _ => absurd hn (Nat.not_lt_zero _)
  | n + 1, k, seen, cnt, hn, hk, h => by
    unfold checkLoop Values.next
    dsimp only
    by_cases hlt : k < E.num
    · obtain ⟨a, h1, h2⟩ := h k (Nat.le_refl _) hlt
      obtain ⟨l, e1, e2, e3⟩ := checkLoop_pass he n (k + 1) (seen ++ [a]) (cnt + 1) (by omega) (by omega) fun j hj => h j (by omega)
      refine ⟨a :: l, ?_, by simp only [List.length_cons, e2]; omega, fun j hj => ?_⟩
      · rw [if_pos hlt, h1]
        dsimp only
        have : fromDiscrCall E (E.toDiscr a) = .ok a := by unfold fromDiscrCall; rw [h2]
        rw [this]
        show (assertThat (eqv a a) >>= fun _ => assertThat (E.toDiscr a == E.toDiscr a) >>= fun _ => checkLoop E eqv n ⟨k + 1, E.num⟩ (seen ++ [a]) (cnt + 1)) = _
        rw [(he a a).2 rfl, beq_self_eq_true]
        show checkLoop E eqv n ⟨k + 1, E.num⟩ (seen ++ [a]) (cnt + 1) = _
        rw [e1, List.append_assoc, show cnt + 1 + (E.num - (k + 1)) = cnt + (E.num - k) by omega]
        rfl
      · cases j with
        | zero => exact h1.symm
        | succ j =>
          have := e3 j (by omega)
          rw [show k + (j + 1) = k + 1 + j by omega, ← this]
          rfl
    · rw [if_neg hlt]
      have : E.num - k = 0 := by omega
      exact ⟨[], by simp [this], by simp [this], fun j hj => by omega⟩

theorem checkLoop_only (he : ∀ a b, eqv a b = true ↔ a = b) : ∀ (n k : Nat) (seen : List α) (cnt : Nat) (r : List α × Nat), E.num - k < n →
    checkLoop E eqv n ⟨k, E.num⟩ seen cnt = .ok r → ∀ j, k ≤ j → j < E.num → Stable E j
  | 0, _, _, _, _, hn, _ => absurd hn (Nat.not_lt_zero _)
  | n + 1, k, seen, cnt, r, hn, h => by
    intro j hj hlt
    unfold checkLoop Values.next at h
    dsimp only at h
    rw [if_pos (by omega)] at h
    cases h1 : E.fromDiscr k with
    | none => rw [h1] at h; cases h
    | some a =>
      rw [h1] at h
      dsimp only at h
      cases h2 : E.fromDiscr (E.toDiscr a) with
      | none =>
        have : fromDiscrCall E (E.toDiscr a) = .error .badDiscr := by unfold fromDiscrCall; rw [h2]
        rw [this] at h
        cases h
      | some b =>
        have : fromDiscrCall E (E.toDiscr a) = .ok b := by unfold fromDiscrCall; rw [h2]
        rw [this] at h
        have h : (assertThat (eqv a b) >>= fun _ => assertThat (E.toDiscr a == E.toDiscr b) >>= fun _ =>
          checkLoop E eqv n ⟨k + 1, E.num⟩ (seen ++ [a]) (cnt + 1)) = .ok r := h
        cases hab : eqv a b with
        | false => rw [hab] at h; cases h
        | true =>
          rw [hab] at h
          have hab := (he a b).1 hab
          subst hab
          rw [beq_self_eq_true] at h
          have h : checkLoop E eqv n ⟨k + 1, E.num⟩ (seen ++ [a]) (cnt + 1) = .ok r := h
          by_cases hjk : j = k
          · subst hjk; exact ⟨a, h1, h2⟩
          · exact checkLoop_only he n (k + 1) _ _ r (by omega) h j (by omega) hlt

theorem noDuplicates_iff (he : ∀ a b, eqv a b = true ↔ a = b) {l : List α} {f : Nat → Option α} {n : Nat} (hl : l.length = n) (h : ∀ j, j < n → l[j]? = f j) :
    noDuplicates eqv l n = true ↔ ∀ i j, i < j → j < n → f i ≠ f j := by
  unfold noDuplicates
  simp only [List.all_eq_true, List.mem_range, List.mem_range'_1]
  refine ⟨fun hd i j hij hj e => ?_, fun hd i hi j hj => ?_⟩
  · have := hd i (by omega) j (by omega)
    rw [h i (by omega), h j hj] at this
    have hs : (f j).isSome := by rw [← h j hj, List.getElem?_eq_getElem (by omega)]; rfl
    obtain ⟨a, ha⟩ := Option.isSome_iff_exists.1 hs
    rw [e, ha] at this
    dsimp only at this
    rw [(he a a).2 rfl] at this
    cases this
  · have hne := hd i j (by omega) (by omega)
    rw [← h i hi, ← h j (by omega)] at hne
    rw [List.getElem?_eq_getElem (by omega), List.getElem?_eq_getElem (by omega)] at hne ⊢
    dsimp only
    cases hab : eqv l[i] l[j] with
    | false => rfl
    | true => exact absurd (congrArg some ((he _ _).1 hab)) hne

/-- **C69** Exactly when `check_values_of::<T>(x)` passes: `x` is the number of variants, `from_discr` accepts every number below it and gives different values, and each of these values
comes back from its own discriminant. -/
theorem C69_iff (he : ∀ a b, eqv a b = true ↔ a = b) (x : Nat) :
    checkValues E eqv x = .ok () ↔
      x = E.num ∧ (∀ k, k < E.num → ∃ a, E.fromDiscr k = some a ∧ E.fromDiscr (E.toDiscr a) = some a) ∧
      ∀ j k, j < k → k < E.num → E.fromDiscr j ≠ E.fromDiscr k := by
  constructor
  · intro h
    unfold checkValues Values.of at h
    cases hl : checkLoop E eqv (E.num + 1) ⟨0, E.num⟩ [] 0 with
    | error e => rw [hl] at h; cases h
    | ok r =>
      have hs := checkLoop_only he _ 0 _ _ r (by omega) hl
      obtain ⟨l, e1, e2, e3⟩ := checkLoop_pass he (E.num + 1) 0 [] 0 (by omega) (by omega) hs
      rw [e1] at h
      have h : (assertThat (0 + (E.num - 0) == E.num) >>= fun _ => assertThat (noDuplicates eqv ([] ++ l) (0 + (E.num - 0))) >>= fun _ => assertThat (x == E.num)) = .ok () := h
      rw [Nat.zero_add, Nat.sub_zero, beq_self_eq_true, List.nil_append] at h
      have h : (assertThat (noDuplicates eqv l E.num) >>= fun _ => assertThat (x == E.num)) = .ok () := h
      cases hd : noDuplicates eqv l E.num with
      | false => rw [hd] at h; cases h
      | true =>
        rw [hd] at h
        have h : assertThat (x == E.num) = .ok () := h
        refine ⟨?_, fun k hk => hs k (by omega) hk, (noDuplicates_iff he (by omega) fun j hj => ?_).1 hd⟩
        · by_cases hx : x = E.num
          · exact hx
          · unfold assertThat at h
            rw [if_neg (by simpa using hx)] at h
            cases h
        · have := e3 j (by omega)
          rwa [Nat.zero_add] at this
  · rintro ⟨rfl, hs, hd⟩
    obtain ⟨l, e1, e2, e3⟩ := checkLoop_pass (eqv := eqv) he (E.num + 1) 0 [] 0 (by omega) (by omega) fun j _ hj => hs j hj
    unfold checkValues Values.of
    rw [e1]
    show (assertThat (0 + (E.num - 0) == E.num) >>= fun _ => assertThat (noDuplicates eqv ([] ++ l) (0 + (E.num - 0))) >>= fun _ => assertThat (E.num == E.num)) = .ok ()
    rw [Nat.zero_add, Nat.sub_zero, beq_self_eq_true, List.nil_append]
    rw [(noDuplicates_iff he (by omega) fun j hj => by have := e3 j (by omega); rwa [Nat.zero_add] at this).2 hd]
    rfl

/-- **C69** No false alarm: an implementation that keeps the contract of the trait and whose values are consecutive passes, … -/
theorem C69_lawful (he : ∀ a b, eqv a b = true ↔ a = b) (hE : E.Contract) (hc : E.Consecutive) : checkValues E eqv E.num = .ok () := by
  refine (C69_iff he _).2 ⟨rfl, fun k hk => ?_, fun j k hjk hk e => ?_⟩
  · obtain ⟨a, h1, -⟩ := hc k hk
    exact ⟨a, h1, hE.roundtrip a⟩
  · obtain ⟨a, h1, h2⟩ := hc k hk
    obtain ⟨b, h3, h4⟩ := hc j (by omega)
    rw [h1, h3] at e
    cases e
    omega

/-- **C69** … in particular every type built from `()`, `bool`, `Option`, `Result`, tuples and arrays, however deep. -/
theorem C69_builtin (he : ∀ a b, eqv a b = true ↔ a = b) (h : Built NoBase α E) : checkValues E eqv E.num = .ok () := by
  refine C69_lawful he (C35_crate h) fun x hx => ?_
  obtain ⟨a, h1, h2, -⟩ := C36_unique (fun _ _ h => h.elim) h hx
  exact ⟨a, h1, h2⟩

/-- **C69 (partial)** A type that passes keeps the contract, if all its values are listed by `values()` and their discriminants are below `NUM_VARIANTS`. Both conditions are
part of the contract, and the check sees neither: `C69_misses`, `C69_misses_unlisted`. -/
theorem C69_sound_partial (he : ∀ a b, eqv a b = true ↔ a = b) {x : Nat} (h : checkValues E eqv x = .ok ())
    (hlt : ∀ k a, k < E.num → E.fromDiscr k = some a → E.toDiscr a < E.num) (hall : ∀ a, ∃ k, k < E.num ∧ E.fromDiscr k = some a) :
    E.Contract ∧ E.Consecutive := by
  obtain ⟨-, hs, hd⟩ := (C69_iff he x).1 h
  have key : ∀ k a, k < E.num → E.fromDiscr k = some a → E.fromDiscr (E.toDiscr a) = some a ∧ E.toDiscr a = k := by
    intro k a hk ha
    obtain ⟨b, h1, h2⟩ := hs k hk
    rw [ha] at h1
    cases h1
    refine ⟨h2, ?_⟩
    have hl := hlt k a hk ha
    rcases Nat.lt_trichotomy (E.toDiscr a) k with hc | hc | hc
    · exact absurd (h2.trans ha.symm) (hd _ _ hc hk)
    · exact hc
    · exact absurd (ha.trans h2.symm) (hd _ _ hc hl)
  refine ⟨⟨fun a => ?_, fun a => ?_⟩, fun k hk => ?_⟩
  · obtain ⟨k, hk, ha⟩ := hall a
    rw [(key k a hk ha).2]; exact hk
  · obtain ⟨k, hk, ha⟩ := hall a
    exact (key k a hk ha).1
  · obtain ⟨a, h1, -⟩ := hs k hk
    exact ⟨a, h1, (key k a hk h1).2⟩

/-- `NUM_VARIANTS` too small by a factor: `true` has discriminant 2. -/
def shifted : EnumLike Bool where
  num := 2
  toDiscr b := if b then 2 else 0
  fromDiscr x := some (x != 0)

/-- **C69** The check passes although a discriminant is not below `NUM_VARIANTS`, for a value that `values()` lists. -/
theorem C69_misses : checkValues shifted (· == ·) 2 = .ok () ∧ ¬ shifted.Contract ∧ shifted.fromDiscr 1 = some true ∧ shifted.num ≤ shifted.toDiscr true :=
  ⟨by decide +kernel, fun h => absurd (h.lt true) (by decide), rfl, by decide⟩

/-- `NUM_VARIANTS` too small: the third value is forgotten, and has the discriminant of the first. -/
def forgotten : EnumLike (Fin 3) where
  num := 2
  toDiscr a := a.val % 2
  fromDiscr x := if x < 2 then some (Fin.ofNat 3 x) else none

/-- **C69** The check passes although a value that `values()` does not list breaks the contract. -/
theorem C69_misses_unlisted : checkValues forgotten (· == ·) 2 = .ok () ∧ ¬ forgotten.Contract :=
  ⟨by decide +kernel, fun h => absurd (h.roundtrip 2) (by decide)⟩

/-! ## Examples -/

example : checkValues (EnumLike.option (EnumLike.pair EnumLike.bool EnumLike.bool)) (· == ·) 5 = .ok () := by decide +kernel

/-- It finds a duplicate, a wrong count, a value that does not come back, and a panicking `from_discr`. -/
example : checkValues ⟨2, fun b : Bool => b.toNat, fun _ => some true⟩ (· == ·) 2 = .error .user ∧
    checkValues EnumLike.bool (· == ·) 3 = .error .user ∧
    checkValues ⟨2, fun b : Bool => (!b).toNat, fun x => some (x == 1)⟩ (· == ·) 2 = .error .user ∧
    checkValues ⟨3, fun b : Bool => b.toNat, fun x => if x < 2 then some (x == 1) else none⟩ (· == ·) 3 = .error .badDiscr := by decide +kernel

end EnumLike
end EnumVecModel
