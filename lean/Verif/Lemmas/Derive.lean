import Verif.Lemmas.EnumLike

/-! # Lemmas on derived impls -/

namespace EnumVecModel
namespace EnumLike
namespace Derive

/-- `[p, p * n₀, p * n₀ * n₁, …]`, as long as `ns`. -/
def prefixFrom : Nat → List Nat → List Nat
  | _, [] => []
  | p, n :: ns => p :: prefixFrom (p * n) ns

theorem prefixFrom_length (p : Nat) (ns : List Nat) : (prefixFrom p ns).length = ns.length := by
  induction ns generalizing p with
  | nil => rfl
  | cons n ns ih => simp [prefixFrom, ih]

theorem prefixFrom_get (p : Nat) (ns : List Nat) (i : Nat) (h : i < ns.length) :
    (prefixFrom p ns)[i]? = some (p * (ns.take i).prod) := by
  induction ns generalizing p i with
  | nil => simp at h
  | cons n ns ih =>
    cases i with
    | zero => simp [prefixFrom]
    | succ i =>
      simp only [prefixFrom, List.getElem?_cons_succ, List.take_succ_cons, List.prod_cons]
      rw [ih _ _ (by simpa using h), Nat.mul_assoc]

theorem numVariantsProduct_get (ns : List Nat) (h : 2 ≤ ns.length) :
    numVariantsProduct ns = (List.range ns.length).map fun i => (ns.take i).prod := by
  unfold numVariantsProduct
  rw [if_pos h]
  have key : ∀ k, k + 2 ≤ ns.length →
      (List.range' 2 k).foldl (fun ps i => ps ++ [ps.getLastD 1 * ns.getD (i - 1) 1]) [1, ns.getD 0 1]
        = (List.range (k + 2)).map fun i => (ns.take i).prod := by
    intro k
    induction k with
    | zero =>
      intro hk
      match ns, h with
      | a :: b :: ns, _ => simp [List.range_succ]
    | succ k ih =>
      intro hk
      rw [List.range'_1_concat, List.foldl_append, ih (by omega), List.foldl_cons, List.foldl_nil, List.range_succ (n := k + 2),
        List.map_append]
      congr 1
      rw [List.range_succ (n := k + 1), List.map_append]
      simp only [List.map_cons, List.map_nil, List.getLastD_concat]
      rw [show 2 + k - 1 = k + 1 from by omega]
      have hlt : k + 1 < ns.length := by omega
      rw [List.getD_eq_getElem?_getD, List.getElem?_eq_getElem hlt, Option.getD_some, show k + 2 = (k + 1) + 1 from rfl,
        List.take_succ_eq_append_getElem hlt, List.prod_append]
      simp
  have := key (ns.length - 2) (by omega)
  rwa [show ns.length - 2 + 2 = ns.length from by omega] at this

theorem numVariantsProduct_eq (ns : List Nat) (h : ns ≠ []) : numVariantsProduct ns = prefixFrom 1 ns := by
  match ns, h with
  | [n], _ => rfl
  | a :: b :: ns, _ =>
    rw [numVariantsProduct_get _ (by simp)]
    apply List.ext_getElem?
    intro i
    by_cases hi : i < (a :: b :: ns).length
    · rw [prefixFrom_get _ _ _ hi, List.getElem?_map, List.getElem?_range hi, Nat.one_mul]; rfl
    · rw [List.getElem?_eq_none (by simpa using hi), List.getElem?_eq_none (by rw [prefixFrom_length]; omega)]

theorem totalNum_eq (cs : Comps) : totalNum cs = (cs.map fun A => A.2.num).prod := by
  unfold totalNum
  cases cs with
  | nil => rfl
  | cons A rest =>
    rw [numVariantsProduct_get _ (by simp [nums])]
    have hl : (nums (A :: rest) ++ [0]).length = (A :: rest).length + 1 := by simp [nums]
    rw [hl, List.range_succ, List.map_append]
    simp only [List.map_cons (l := []), List.map_nil, List.getLastD_concat]
    rw [List.take_append_of_le_length (by simp [nums]), List.take_of_length_le (by simp [nums])]
    rfl

theorem totalNum_nil : totalNum [] = 1 := totalNum_eq []

theorem totalNum_cons (A : (α : Type) × EnumLike α) (rest : Comps) : totalNum (A :: rest) = A.2.num * totalNum rest := by
  rw [totalNum_eq, totalNum_eq, List.map_cons, List.prod_cons]

theorem toBody_eq (cs : Comps) (p acc : Nat) (x : Fields cs) :
    toBody cs (prefixFrom p (nums cs)) acc x = acc + p * mixedRadix (fieldDigits cs x) := by
  induction cs generalizing p acc with
  | nil => show acc = acc + p * 0; omega
  | cons A rest ih =>
    show toBody rest (prefixFrom (p * A.2.num) (nums rest)) (acc + p * A.2.toDiscr x.1) x.2 =
      acc + p * mixedRadix ((A.2.num, A.2.toDiscr x.1) :: fieldDigits rest x.2)
    rw [mixedRadix_cons, ih, Nat.mul_add, Nat.mul_assoc, Nat.add_assoc]

/-- The body of `to_discr` adds the mixed-radix number of the fields to the offset. -/
theorem toBody_spec (cs : Comps) (h : cs ≠ []) (acc : Nat) (x : Fields cs) :
    toBody cs (numVariantsProduct (nums cs)) acc x = acc + mixedRadix (fieldDigits cs x) := by
  rw [numVariantsProduct_eq _ (by simpa [nums] using h), toBody_eq, Nat.one_mul]

theorem digits_lt (cs : Comps) (h : ∀ A ∈ cs, A.2.Contract) (x : Fields cs) :
    mixedRadix (fieldDigits cs x) < totalNum cs := by
  induction cs with
  | nil => rw [totalNum_nil]; exact Nat.zero_lt_one
  | cons A rest ih =>
    show mixedRadix ((A.2.num, A.2.toDiscr x.1) :: fieldDigits rest x.2) < _
    rw [totalNum_cons, mixedRadix_cons, Nat.mul_comm A.2.num (mixedRadix _)]
    exact mixed_lt ((h A (by simp)).lt x.1) (ih (fun B hB => h B (List.mem_cons_of_mem _ hB)) x.2)

theorem fromBody_digits (cs : Comps) (h : ∀ A ∈ cs, A.2.Contract) (x : Fields cs) (p r : Nat) (hr : r < p) :
    fromBody cs (prefixFrom p (nums cs)) (r + p * mixedRadix (fieldDigits cs x)) = some x := by
  induction cs generalizing p r with
  | nil => rfl
  | cons A rest ih =>
    have hA := h A (by simp)
    have hlt := hA.lt x.1
    have hrt := hA.roundtrip x.1
    have hp : 0 < p := by omega
    cases rest with
    | nil =>
      show (if p = 0 then none else _) = _
      rw [if_neg (by omega)]
      have e : (r + p * mixedRadix (fieldDigits [A] x)) / p = A.2.toDiscr x.1 := by
        rw [Nat.add_mul_div_left _ _ hp, Nat.div_eq_of_lt hr, Nat.zero_add]
        show mixedRadix [(A.2.num, A.2.toDiscr x.1)] = _
        rw [mixedRadix_cons, mixedRadix_nil]; omega
      rw [e, hrt]
    | cons B rest =>
      show (if p = 0 ∨ A.2.num = 0 then none else _) = _
      rw [if_neg (by omega)]
      have e0 : mixedRadix (fieldDigits (A :: B :: rest) x) =
          A.2.toDiscr x.1 + A.2.num * mixedRadix (fieldDigits (B :: rest) x.2) := mixedRadix_cons _ _ _
      have e1 : (r + p * mixedRadix (fieldDigits (A :: B :: rest) x)) / p % A.2.num = A.2.toDiscr x.1 := by
        rw [Nat.add_mul_div_left _ _ hp, Nat.div_eq_of_lt hr, Nat.zero_add, e0, Nat.add_mul_mod_self_left, Nat.mod_eq_of_lt hlt]
      have hlt' : r + p * A.2.toDiscr x.1 < p * A.2.num := by
        have := mixed_lt hr hlt
        rw [Nat.mul_comm (A.2.toDiscr x.1) p] at this
        exact this
      have e2 := ih (fun C hC => h C (List.mem_cons_of_mem _ hC)) x.2 (p * A.2.num) (r + p * A.2.toDiscr x.1) hlt'
      have e3 : r + p * A.2.toDiscr x.1 + p * A.2.num * mixedRadix (fieldDigits (B :: rest) x.2) =
          r + p * mixedRadix (fieldDigits (A :: B :: rest) x) := by
        rw [e0, Nat.mul_add, Nat.mul_assoc, Nat.add_assoc]
      rw [e3] at e2
      have e2' : fromBody (B :: rest) (prefixFrom (p * (fun A : (α : Type) × EnumLike α => A.snd.num) A)
          (List.map (fun A : (α : Type) × EnumLike α => A.snd.num) (B :: rest)))
          (r + p * mixedRadix (fieldDigits (A :: B :: rest) x)) = some x.2 := e2
      rw [e1, hrt, e2']

theorem fromBody_consec (cs : Comps) (h : ∀ A ∈ cs, A.2.Consecutive) (p v : Nat) (hp : 0 < p) (hv : v / p < totalNum cs) :
    ∃ x, fromBody cs (prefixFrom p (nums cs)) v = some x ∧ mixedRadix (fieldDigits cs x) = v / p := by
  induction cs generalizing p with
  | nil =>
    have : v / p < 1 := by rw [totalNum_nil] at hv; exact hv
    refine ⟨(), rfl, ?_⟩
    show 0 = v / p
    exact (Nat.lt_one_iff.1 this).symm
  | cons A rest ih =>
    have hA := h A (by simp)
    rw [totalNum_cons] at hv
    have hN : 0 < A.2.num := by
      rcases Nat.eq_zero_or_pos A.2.num with h | h
      · rw [h, Nat.zero_mul] at hv; exact absurd hv (Nat.not_lt_zero _)
      · exact h
    cases rest with
    | nil =>
      have hv : v / p < A.2.num := by
        rw [totalNum_nil, Nat.mul_one] at hv; exact hv
      obtain ⟨a, a1, a2⟩ := hA (v / p) hv
      refine ⟨(a, ()), ?_, ?_⟩
      · show (if p = 0 then none else _) = _
        rw [if_neg (by omega), a1]
      · show mixedRadix [(A.2.num, A.2.toDiscr a)] = _
        rw [mixedRadix_cons, mixedRadix_nil, a2]; omega
    | cons B rest =>
      obtain ⟨a, a1, a2⟩ := hA (v / p % A.2.num) (Nat.mod_lt _ hN)
      have hd : v / (p * A.2.num) = v / p / A.2.num := (Nat.div_div_eq_div_mul _ _ _).symm
      obtain ⟨y, y1, y2⟩ := ih (fun C hC => h C (List.mem_cons_of_mem _ hC)) (p * A.2.num) (Nat.mul_pos hp hN)
        (by rw [hd]; exact Nat.div_lt_of_lt_mul hv)
      refine ⟨(a, y), ?_, ?_⟩
      · show (if p = 0 ∨ A.2.num = 0 then none else _) = _
        have y1' : fromBody (B :: rest) (prefixFrom (p * (fun A : (α : Type) × EnumLike α => A.snd.num) A)
          (List.map (fun A : (α : Type) × EnumLike α => A.snd.num) (B :: rest))) v = some y := y1
        rw [if_neg (by omega), a1, y1']
      · show mixedRadix ((A.2.num, A.2.toDiscr a) :: fieldDigits (B :: rest) y) = _
        rw [mixedRadix_cons, a2, y2, hd]
        exact Nat.mod_add_div _ _

theorem fromBody_spec (cs : Comps) (hne : cs ≠ []) (h : ∀ A ∈ cs, A.2.Contract) (x : Fields cs) :
    fromBody cs (numVariantsProduct (nums cs)) (mixedRadix (fieldDigits cs x)) = some x := by
  have := fromBody_digits cs h x 1 0 (by omega)
  rw [Nat.zero_add, Nat.one_mul] at this
  rw [numVariantsProduct_eq _ (by simpa [nums] using hne), this]

theorem fromBody_specConsec (cs : Comps) (hne : cs ≠ []) (h : ∀ A ∈ cs, A.2.Consecutive) (v : Nat) (hv : v < totalNum cs) :
    ∃ x, fromBody cs (numVariantsProduct (nums cs)) v = some x ∧ mixedRadix (fieldDigits cs x) = v := by
  rw [numVariantsProduct_eq _ (by simpa [nums] using hne)]
  have := fromBody_consec cs h 1 v (by omega) (by rw [Nat.div_one]; exact hv)
  rwa [Nat.div_one] at this

theorem struct_num (cs : Comps) : (struct cs).num = totalNum cs := by
  cases cs with
  | nil => exact totalNum_nil.symm
  | cons => rfl

theorem struct_digits (cs : Comps) (x : Fields cs) : (struct cs).toDiscr x = mixedRadix (fieldDigits cs x) := by
  cases cs with
  | nil => rfl
  | cons A rest =>
    show toBody (A :: rest) _ 0 x = _
    rw [toBody_spec _ (by simp), Nat.zero_add]

theorem struct_contract {cs : Comps} (h : ∀ A ∈ cs, A.2.Contract) : (struct cs).Contract := by
  constructor
  · intro x
    rw [struct_digits, struct_num]
    exact digits_lt cs h x
  · intro x
    rw [struct_digits]
    cases cs with
    | nil => rfl
    | cons A rest =>
      exact fromBody_spec (A :: rest) (by simp) h x

theorem struct_consec {cs : Comps} (h : ∀ A ∈ cs, A.2.Consecutive) : (struct cs).Consecutive := by
  intro v hv
  rw [struct_num] at hv
  cases cs with
  | nil =>
    rw [totalNum_nil] at hv
    exact ⟨(), rfl, by show 0 = v; omega⟩
  | cons A rest =>
    obtain ⟨x, h1, h2⟩ := fromBody_specConsec (A :: rest) (by simp) h v hv
    exact ⟨x, h1, by rw [struct_digits, h2]⟩

/-! ## Enums -/

/-- Total size of the data variants. -/
def dataTotal (vs : List Variant) : Nat := ((vs.filter fun v => !v.isUnit).map fun v => totalNum v.fields).sum

theorem isUnit_iff {v : Variant} : v.isUnit = true ↔ v.fields = [] := List.isEmpty_iff

theorem units_cons (v : Variant) (vs : List Variant) : units (v :: vs) = (if v.isUnit then 1 else 0) + units vs := by
  unfold units
  by_cases h : v.isUnit = true
  · rw [List.filter_cons_of_pos h, if_pos h, List.length_cons]; omega
  · rw [List.filter_cons_of_neg h, if_neg h]; omega

theorem dataTotal_cons (v : Variant) (vs : List Variant) :
    dataTotal (v :: vs) = (if v.isUnit then 0 else totalNum v.fields) + dataTotal vs := by
  unfold dataTotal
  by_cases h : v.isUnit = true
  · rw [List.filter_cons_of_neg (by simp [h]), if_pos h]; omega
  · rw [List.filter_cons_of_pos (by simp [h]), if_neg h, List.map_cons, List.sum_cons]

theorem sum_num (vs : List Variant) : (vs.map Variant.num).sum = units vs + dataTotal vs := by
  induction vs with
  | nil => rfl
  | cons v vs ih =>
    rw [List.map_cons, List.sum_cons, ih, units_cons, dataTotal_cons]
    unfold Variant.num
    split <;> omega

theorem fromUnits_none (vs : List Variant) (u x : Nat) (h : x < u ∨ u + units vs ≤ x) : fromUnits vs u x = none := by
  induction vs generalizing u with
  | nil => rfl
  | cons v vs ih =>
    rw [units_cons] at h
    obtain ⟨fs, e⟩ := v
    cases fs with
    | nil =>
      rw [if_pos (show Variant.isUnit ⟨[], e⟩ = true from rfl)] at h
      show (if x = u then _ else _) = _
      rw [if_neg (by omega), ih (u + 1) (by omega)]; rfl
    | cons A rest =>
      rw [if_neg (by simp [Variant.isUnit])] at h
      show (fromUnits vs u x).map Sum.inr = none
      rw [ih u (by omega)]; rfl

theorem fromUnits_consec (off : Nat) (vs : List Variant) (u rh x : Nat) (h1 : u ≤ x) (h2 : x < u + units vs) :
    ∃ y, fromUnits vs u x = some y ∧ toArms off vs u rh y = x := by
  induction vs generalizing u rh with
  | nil => have : units [] = 0 := rfl; omega
  | cons v vs ih =>
    rw [units_cons] at h2
    obtain ⟨fs, e⟩ := v
    cases fs with
    | nil =>
      rw [if_pos (show Variant.isUnit ⟨[], e⟩ = true from rfl)] at h2
      by_cases hx : x = u
      · refine ⟨.inl (), ?_, ?_⟩
        · show (if x = u then _ else _) = _
          rw [if_pos hx]
        · exact hx.symm
      · obtain ⟨y, y1, y2⟩ := ih (u + 1) rh (by omega) (by omega)
        refine ⟨.inr y, ?_, y2⟩
        show (if x = u then _ else _) = _
        rw [if_neg hx, y1]; rfl
    | cons A rest =>
      rw [if_neg (by simp [Variant.isUnit])] at h2
      obtain ⟨y, y1, y2⟩ := ih u (rh + (⟨A :: rest, e⟩ : Variant).num) h1 (by omega)
      refine ⟨.inr y, ?_, y2⟩
      show (fromUnits vs u x).map Sum.inr = _
      rw [y1]; rfl

theorem fromData_consec (off : Nat) (vs : List Variant) (hv : ∀ v ∈ vs, ∀ A ∈ v.fields, A.2.Consecutive) (u rh x : Nat)
    (h1 : off + rh ≤ x) (h2 : x < off + rh + dataTotal vs) :
    ∃ y, fromData off vs rh x = some y ∧ toArms off vs u rh y = x := by
  induction vs generalizing u rh with
  | nil => have : dataTotal [] = 0 := rfl; omega
  | cons v vs ih =>
    have ih := ih (fun w hw => hv w (List.mem_cons_of_mem _ hw))
    rw [dataTotal_cons] at h2
    by_cases hu : v.isUnit = true
    · rw [if_pos hu] at h2
      obtain ⟨y, y1, y2⟩ := ih (u + 1) rh h1 (by omega)
      refine ⟨.inr y, ?_, ?_⟩
      · show (if v.isUnit then _ else _) = _
        rw [if_pos hu, y1]; rfl
      · show (if v.isUnit then toArms off vs (u + 1) rh y else _) = _
        rw [if_pos hu, y2]
    · rw [if_neg hu] at h2
      have hn : v.num = totalNum v.fields := if_neg hu
      by_cases hx : x < off + (rh + v.num)
      · have hne : v.fields ≠ [] := fun e => hu (isUnit_iff.2 e)
        obtain ⟨y, y1, y2⟩ := fromBody_specConsec v.fields hne (hv v (by simp)) (x - off - rh) (by omega)
        refine ⟨.inl y, ?_, ?_⟩
        · show (if v.isUnit then _ else if off + rh ≤ x ∧ x < off + (rh + v.num) then _ else _) = _
          rw [if_neg hu, if_pos ⟨h1, hx⟩, y1]; rfl
        · show (if v.isUnit then u else toBody v.fields _ (off + rh) y) = x
          rw [if_neg hu, toBody_spec _ hne, y2]; omega
      · obtain ⟨y, y1, y2⟩ := ih u (rh + v.num) (by omega) (by omega)
        refine ⟨.inr y, ?_, ?_⟩
        · show (if v.isUnit then _ else if off + rh ≤ x ∧ x < off + (rh + v.num) then _ else _) = _
          rw [if_neg hu, if_neg (by omega), y1]; rfl
        · show (if v.isUnit then toArms off vs (u + 1) rh y else toArms off vs u (rh + v.num) y) = _
          rw [if_neg hu, y2]

theorem fromData_none (off : Nat) (vs : List Variant) (rh x : Nat) (h : off + rh + dataTotal vs ≤ x ∨ x < off + rh) :
    fromData off vs rh x = none := by
  induction vs generalizing rh with
  | nil => rfl
  | cons v vs ih =>
    rw [dataTotal_cons] at h
    by_cases hu : v.isUnit = true
    · rw [if_pos hu] at h
      show (if v.isUnit then _ else _) = _
      rw [if_pos hu, ih rh (by omega)]; rfl
    · rw [if_neg hu] at h
      have hn : v.num = totalNum v.fields := if_neg hu
      show (if v.isUnit then _ else if off + rh ≤ x ∧ x < off + (rh + v.num) then _ else _) = _
      rw [if_neg hu, if_neg (by omega), ih (rh + v.num) (by omega)]; rfl

theorem toArms_spec (off : Nat) (vs : List Variant) (hv : ∀ v ∈ vs, ∀ A ∈ v.fields, A.2.Contract) (u rh : Nat) (y : EnumVal vs) :
    (u ≤ toArms off vs u rh y ∧ toArms off vs u rh y < u + units vs ∧ fromUnits vs u (toArms off vs u rh y) = some y) ∨
    (off + rh ≤ toArms off vs u rh y ∧ toArms off vs u rh y < off + rh + dataTotal vs ∧
      fromData off vs rh (toArms off vs u rh y) = some y) := by
  induction vs generalizing u rh with
  | nil => exact y.elim
  | cons v vs ih =>
    have ih := ih (fun w hw => hv w (List.mem_cons_of_mem _ hw))
    rw [units_cons, dataTotal_cons]
    by_cases hu : v.isUnit = true
    · rw [if_pos hu, if_pos hu]
      obtain ⟨fs, e⟩ := v
      have : fs = [] := isUnit_iff.1 hu
      subst this
      cases y with
      | inl x =>
        left
        show u ≤ u ∧ u < u + (1 + units vs) ∧ (if u = u then some (Sum.inl ()) else _) = _
        refine ⟨by omega, by omega, ?_⟩
        rw [if_pos rfl]
      | inr y =>
        rcases ih (u + 1) rh y with ⟨a, b, c⟩ | ⟨a, b, c⟩
        · left
          show u ≤ toArms off vs (u + 1) rh y ∧ toArms off vs (u + 1) rh y < u + (1 + units vs) ∧
            (if toArms off vs (u + 1) rh y = u then _ else (fromUnits vs (u + 1) (toArms off vs (u + 1) rh y)).map Sum.inr) = _
          refine ⟨by omega, by omega, ?_⟩
          rw [if_neg (by omega), c]; rfl
        · right
          show off + rh ≤ toArms off vs (u + 1) rh y ∧ toArms off vs (u + 1) rh y < off + rh + (0 + dataTotal vs) ∧
            (fromData off vs rh (toArms off vs (u + 1) rh y)).map Sum.inr = _
          refine ⟨a, by omega, ?_⟩
          rw [c]; rfl
    · rw [if_neg hu, if_neg hu]
      have hn : v.num = totalNum v.fields := if_neg hu
      cases y with
      | inl x =>
        right
        have hne : v.fields ≠ [] := fun e => hu (isUnit_iff.2 e)
        have hlt := digits_lt v.fields (hv v (by simp)) x
        have e : toArms off (v :: vs) u rh (.inl x) = off + rh + mixedRadix (fieldDigits v.fields x) := by
          show (if v.isUnit then u else toBody v.fields _ (off + rh) x) = _
          rw [if_neg hu, toBody_spec _ hne]
        rw [e]
        refine ⟨by omega, by omega, ?_⟩
        show (if v.isUnit then _ else
          if off + rh ≤ off + rh + mixedRadix (fieldDigits v.fields x) ∧ off + rh + mixedRadix (fieldDigits v.fields x) < off + (rh + v.num) then
          (fromBody v.fields (numVariantsProduct (nums v.fields)) (off + rh + mixedRadix (fieldDigits v.fields x) - off - rh)).map Sum.inl else _) = _
        rw [if_neg hu, if_pos (by omega)]
        have := fromBody_spec v.fields hne (hv v (by simp)) x
        rw [show off + rh + mixedRadix (fieldDigits v.fields x) - off - rh = mixedRadix (fieldDigits v.fields x) from by omega, this]
        rfl
      | inr y =>
        have e : toArms off (v :: vs) u rh (.inr y) = toArms off vs u (rh + v.num) y := by
          show (if v.isUnit then _ else _) = _
          rw [if_neg hu]
        rw [e]
        rcases ih u (rh + v.num) y with ⟨a, b, c⟩ | ⟨a, b, c⟩
        · left
          refine ⟨a, by omega, ?_⟩
          obtain ⟨fs, ex⟩ := v
          cases fs with
          | nil => exact absurd rfl hu
          | cons A rest =>
            show (fromUnits vs u _).map Sum.inr = _
            rw [c]; rfl
        · right
          refine ⟨by omega, by omega, ?_⟩
          show (if v.isUnit then _ else if _ then _ else (fromData off vs (rh + v.num) _).map Sum.inr) = _
          rw [if_neg hu, if_neg (by omega), c]; rfl

theorem rustyEnum_num (vs : List Variant) : (rustyEnum vs).num = units vs + dataTotal vs := sum_num vs

theorem rustyEnum_contract {vs : List Variant} (hv : ∀ v ∈ vs, ∀ A ∈ v.fields, A.2.Contract) : (rustyEnum vs).Contract := by
  constructor
  · intro y
    rw [rustyEnum_num]
    show toArms (units vs) vs 0 0 y < _
    rcases toArms_spec (units vs) vs hv 0 0 y with ⟨_, b, _⟩ | ⟨_, b, _⟩ <;> omega
  · intro y
    show (match fromUnits vs 0 (toArms (units vs) vs 0 0 y) with
      | some a => some a
      | none => fromData (units vs) vs 0 (toArms (units vs) vs 0 0 y)) = some y
    rcases toArms_spec (units vs) vs hv 0 0 y with ⟨_, _, c⟩ | ⟨a, _, c⟩
    · rw [c]
    · rw [fromUnits_none vs 0 _ (by omega), c]

theorem rustyEnum_consec {vs : List Variant} (hv : ∀ v ∈ vs, ∀ A ∈ v.fields, A.2.Consecutive) : (rustyEnum vs).Consecutive := by
  intro x hx
  rw [rustyEnum_num] at hx
  by_cases h : x < units vs
  · obtain ⟨y, y1, y2⟩ := fromUnits_consec (units vs) vs 0 0 x (by omega) (by omega)
    refine ⟨y, ?_, y2⟩
    show (match fromUnits vs 0 x with
      | some a => some a
      | none => fromData (units vs) vs 0 x) = some y
    rw [y1]
  · obtain ⟨y, y1, y2⟩ := fromData_consec (units vs) vs hv 0 0 x (by omega) (by omega)
    refine ⟨y, ?_, y2⟩
    show (match fromUnits vs 0 x with
      | some a => some a
      | none => fromData (units vs) vs 0 x) = some y
    rw [fromUnits_none vs 0 x (by omega), y1]

theorem rustyEnum_none (vs : List Variant) (x : Nat) (h : (rustyEnum vs).num ≤ x) : (rustyEnum vs).fromDiscr x = none := by
  rw [rustyEnum_num] at h
  show (match fromUnits vs 0 x with
      | some a => some a
      | none => fromData (units vs) vs 0 x) = none
  rw [fromUnits_none vs 0 x (by omega), fromData_none _ _ _ _ (by omega)]

theorem units_all {vs : List Variant} (h : vs.all Variant.isUnit = true) : units vs = vs.length := by
  unfold units
  rw [List.filter_eq_self.2 (fun v hv => List.all_eq_true.1 h v hv)]

theorem toArms_position (off : Nat) {vs : List Variant} (h : vs.all Variant.isUnit = true) (u rh : Nat) (y : EnumVal vs) :
    toArms off vs u rh y = u + position vs y := by
  induction vs generalizing u rh with
  | nil => exact y.elim
  | cons v vs ih =>
    have hv := List.all_eq_true.1 h v (by simp)
    have ht : vs.all Variant.isUnit = true := List.all_eq_true.2 fun w hw => List.all_eq_true.1 h w (List.mem_cons_of_mem _ hw)
    cases y with
    | inl x =>
      show (if v.isUnit then u else _) = u + 0
      rw [if_pos hv]; omega
    | inr y =>
      show (if v.isUnit then toArms off vs (u + 1) rh y else _) = u + (position vs y + 1)
      rw [if_pos hv, ih ht]; omega

/-- A C-like enum gets the same numbers from both generators. -/
theorem cEnum_toDiscr {vs : List Variant} (h : vs.all Variant.isUnit = true) (y : EnumVal vs) :
    (cEnum vs).toDiscr y = (rustyEnum vs).toDiscr y := by
  show position vs y = toArms (units vs) vs 0 0 y
  rw [toArms_position _ h]; omega

theorem cEnum_contract {vs : List Variant} (h : vs.all Variant.isUnit = true) : (cEnum vs).Contract := by
  have hv : ∀ v ∈ vs, ∀ A ∈ v.fields, A.2.Contract := by
    intro v hv A hA
    rw [isUnit_iff.1 (List.all_eq_true.1 h v hv)] at hA
    cases hA
  have hd : dataTotal vs = 0 := by
    unfold dataTotal
    rw [List.filter_eq_nil_iff.2 (fun v hv => by simp [List.all_eq_true.1 h v hv])]; rfl
  constructor
  · intro y
    rw [cEnum_toDiscr h]
    have := (rustyEnum_contract hv).lt y
    rw [rustyEnum_num, units_all h, hd] at this
    exact this
  · intro y
    rw [cEnum_toDiscr h]
    show fromUnits vs 0 (toArms (units vs) vs 0 0 y) = some y
    rcases toArms_spec (units vs) vs hv 0 0 y with ⟨_, _, c⟩ | ⟨a, b, c⟩
    · exact c
    · omega

theorem cEnum_consec {vs : List Variant} (h : vs.all Variant.isUnit = true) : (cEnum vs).Consecutive := by
  intro x hx
  have hx : x < vs.length := hx
  obtain ⟨y, y1, y2⟩ := fromUnits_consec (units vs) vs 0 0 x (by omega) (by rw [units_all h]; omega)
  exact ⟨y, y1, by rw [cEnum_toDiscr h]; exact y2⟩

theorem cEnum_none {vs : List Variant} (h : vs.all Variant.isUnit = true) (x : Nat) (hx : vs.length ≤ x) :
    (cEnum vs).fromDiscr x = none := fromUnits_none vs 0 x (by rw [units_all h]; omega)

theorem enum_contract {vs : List Variant} (hv : ∀ v ∈ vs, ∀ A ∈ v.fields, A.2.Contract) : (enum vs).Contract := by
  unfold enum
  split
  · exact cEnum_contract (by assumption)
  · exact rustyEnum_contract hv

theorem enum_consec {vs : List Variant} (hv : ∀ v ∈ vs, ∀ A ∈ v.fields, A.2.Consecutive) : (enum vs).Consecutive := by
  unfold enum
  split
  · exact cEnum_consec (by assumption)
  · exact rustyEnum_consec hv

end Derive

/-! ## Everything the crate provides -/

theorem built_contract {B : (α : Type) → EnumLike α → Prop} (hB : ∀ α E, B α E → E.Contract) {α : Type} {E : EnumLike α}
    (h : Built B α E) : E.Contract := by
  induction h with
  | base h => exact hB _ _ h
  | unit => exact unit_contract
  | bool => exact bool_contract
  | option _ ih => exact option_contract ih
  | result _ _ ih1 ih2 => exact result_contract ih1 ih2
  | tuple1 _ ih => exact ⟨ih.lt, ih.roundtrip⟩
  | pair _ _ ih1 ih2 => exact pair_contract ih1 ih2
  | tuple _ ih => exact tuple_contract _ ih
  | array n _ ih => exact array_contract ih n
  | struct _ ih => exact Derive.struct_contract ih
  | enum _ ih => exact Derive.enum_contract ih

theorem built_consec {B : (α : Type) → EnumLike α → Prop} (hB : ∀ α E, B α E → E.Consecutive) {α : Type} {E : EnumLike α}
    (h : Built B α E) : E.Consecutive := by
  induction h with
  | base h => exact hB _ _ h
  | unit => exact unit_consec
  | bool => exact bool_consec
  | option _ ih => exact option_consec ih
  | result _ _ ih1 ih2 => exact result_consec ih1 ih2
  | tuple1 _ ih => exact fun x hx => ih x hx
  | pair _ _ ih1 ih2 => exact pair_consec ih1 ih2
  | tuple _ ih => exact tuple_consec _ ih
  | array n _ ih => exact array_consec ih n
  | struct _ ih => exact Derive.struct_consec ih
  | enum _ ih => exact Derive.enum_consec ih

end EnumLike
end EnumVecModel
