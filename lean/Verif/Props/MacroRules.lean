import Verif.Lemmas.MacroRules

/-!
# C62: the impls for tuples and arrays that the macros print
-/

namespace EnumVecModel
namespace EnumLike
namespace Rules

variable {β : Type}

theorem tupleRows_eq : tupleRows = rows (fun i => "A" ++ toString i) 32 := by decide +kernel

theorem arrayRows_eq : arrayRows = rows (fun _ => "A") 33 := by decide +kernel

theorem tupleItems_eq : tupleImpls tupleRows = some (items (fun i => "A" ++ toString i) 32) := by
  rw [tupleRows_eq]; exact tupleImpls_rows _ 30

theorem arrayItems_eq : arrayImpls arrayRows = some (aitems "A" 32) := by
  rw [arrayRows_eq]; exact arrayImpls_rows "A" 32

theorem names_distinct : ∀ i j, i < 32 → j < 32 → "A" ++ toString i = "A" ++ toString j → i = j := by
  have : ∀ i : Fin 32, ∀ j : Fin 32, "A" ++ toString i.val = "A" ++ toString j.val → i = j := by decide +kernel
  intro i j hi hj h
  exact congrArg Fin.val (this ⟨i, hi⟩ ⟨j, hj⟩ h)

theorem tupleOf_eq (build : Build) (Ts : List (Mach (Val β))) : tupleOf build Ts = findTuple build (items (fun i => "A" ++ toString i) 32) Ts.length Ts := by
  unfold tupleOf; rw [tupleItems_eq]; rfl

theorem arrayOf_eq (build : Build) (uninit : Bool) (n : Nat) (T : Mach (Val β)) :
    arrayOf build uninit n T = findArray build uninit (items (fun i => "A" ++ toString i) 32) (aitems "A" 32) n T := by
  unfold arrayOf; rw [tupleItems_eq, arrayItems_eq]; rfl

/-- **C62** (tuples). Let `ps` be at most 32 components, of any types. The macro `tuple_impls!` prints an impl for the tuple of these types;
`NUM_VARIANTS` is the product of the components' (a compile error if that, or the product of the first components, does not fit in `usize`);
`to_discr` of a tuple is the number whose digits are the numbers of its components, the first one least significant; `from_discr` of that number is the tuple. -/
theorem C62_tuple (build : Build) (ps : List (Part β)) (hlen : ps.length ≤ 32) (hnum : ∀ p ∈ ps, p.T.num = .ok p.n) :
    ∃ M, tupleOf build (ps.map (·.T)) = some M ∧
      ((∀ p ∈ ps, p.n < build.usizeLim) → ¬Fits build.usizeLim ps → M.num = .error .overflow) ∧
      (Fits build.usizeLim ps →
        M.num = .ok (ps.map (·.n)).prod ∧
        ((∀ p ∈ ps, p.d < p.n ∧ p.T.toDiscr p.v = .ok p.d) → M.toDiscr (.tup (ps.map (·.v))) = .ok (number ps)) ∧
        ((∀ p ∈ ps, p.d < p.n ∧ p.T.fromDiscr p.d = .ok p.v) → M.fromDiscr (number ps) = .ok (.tup (ps.map (·.v))))) := by
  obtain ⟨M, hM, hS⟩ := tuple_sem build (n := 32) names_distinct ps.length ps hnum (Or.inl hlen) (by omega)
  refine ⟨M, ?_, hS.over, fun hf => ⟨hS.num hf, fun h => ?_, fun h => ?_⟩⟩
  · rw [tupleOf_eq, List.length_map, hM]
  · exact hS.to hf (fun p hp => (h p hp).1) (fun p hp => (h p hp).2)
  · exact hS.from_ hf (fun p hp => (h p hp).1) (fun p hp => (h p hp).2)

/-- **C62** (tuples): longer tuples have no impl. -/
theorem C62_tuple_limit (build : Build) (Ts : List (Mach (Val β))) (h : 32 < Ts.length) : tupleOf build Ts = none := by
  rw [tupleOf_eq]; exact findTuple_none _ _ _ _ _ h (by omega)

/-- **C62** (tuples): every number below `NUM_VARIANTS` is the number of a tuple, provided that holds for the components: `from_discr` succeeds there and `to_discr` gives the number back. -/
theorem C62_tuple_onto (build : Build) (Ts : List (Mach (Val β))) (ns : List Nat) (hlen : Ts.length ≤ 32) (hns : Ts.map (·.num) = ns.map .ok)
    (hfit : ∀ i, (ns.take i).prod < build.usizeLim)
    (hT : ∀ T ∈ Ts, ∀ n d, T.num = .ok n → d < n → ∃ v, T.fromDiscr d = .ok v ∧ T.toDiscr v = .ok d) :
    ∃ M, tupleOf build Ts = some M ∧ M.num = .ok ns.prod ∧
      ∀ x, x < ns.prod → ∃ vs, vs.length = Ts.length ∧ M.fromDiscr x = .ok (.tup vs) ∧ M.toDiscr (.tup vs) = .ok x := by
  obtain ⟨ps, h1, h2, -⟩ := parts_of Ts ns hns 0
  have hnum : ∀ p ∈ ps, p.T.num = .ok p.n := parts_num h1 h2 hns
  have hl : ps.length = Ts.length := by rw [← h1, List.length_map]
  obtain ⟨M, hM, -, hS⟩ := C62_tuple build ps (by omega) hnum
  rw [h1] at hM
  have hf : Fits build.usizeLim ps := fun i => by rw [List.map_take, h2]; exact hfit i
  refine ⟨M, hM, by rw [(hS hf).1, h2], fun x hx => ?_⟩
  obtain ⟨qs, q1, q2, q3, q4, q5⟩ := digits_of Ts ns hns hT x hx
  have hl' : qs.length = Ts.length := by rw [← q1, List.length_map]
  obtain ⟨M', hM', -, hS'⟩ := C62_tuple build qs (by omega) q3
  rw [q1, hM] at hM'
  cases hM'
  have hf' : Fits build.usizeLim qs := fun i => by rw [List.map_take, q2]; exact hfit i
  refine ⟨qs.map (·.v), by simp [hl'], ?_, ?_⟩
  · rw [← q5]; exact (hS' hf').2.2 fun q hq => ⟨(q4 q hq).1, (q4 q hq).2.1⟩
  · rw [← q5]; exact (hS' hf').2.1 fun q hq => ⟨(q4 q hq).1, (q4 q hq).2.2⟩

/-- **C62** (arrays). The same for `[T; n]` with `n ≤ 32`: the impl is that of the tuple of its items, in order; no item is read after it was moved out, and none out of bounds. -/
theorem C62_array (build : Build) (T : Mach (Val β)) (ps : List (Part β)) (hlen : ps.length ≤ 32) (hnum : ∀ p ∈ ps, p.T = T ∧ T.num = .ok p.n) :
    ∃ M, arrayOf build true ps.length T = some M ∧
      ((∀ p ∈ ps, p.n < build.usizeLim) → ¬Fits build.usizeLim ps → M.num = .error .overflow) ∧
      (Fits build.usizeLim ps →
        M.num = .ok (ps.map (·.n)).prod ∧
        ((∀ p ∈ ps, p.d < p.n ∧ T.toDiscr p.v = .ok p.d) → M.toDiscr (.arr (ps.map (·.v))) = .ok (number ps)) ∧
        ((∀ p ∈ ps, p.d < p.n ∧ T.fromDiscr p.d = .ok p.v) → M.fromDiscr (number ps) = .ok (.arr (ps.map (·.v))))) := by
  by_cases h0 : ps.length = 0
  · have : ps = [] := List.eq_nil_of_length_eq_zero h0
    subst this
    refine ⟨emptyArrayImpl, rfl, fun _ h => ?_, fun _ => ⟨rfl, fun _ => rfl, fun _ => rfl⟩⟩
    exact (h fun i => by rw [List.take_nil, List.map_nil, List.prod_nil]; exact build.lt_usizeLim (by decide)).elim
  · obtain ⟨M, hM, hS⟩ := tuple_sem build (n := 32) names_distinct ps.length ps (fun p hp => by rw [(hnum p hp).1]; exact (hnum p hp).2) (Or.inl hlen) (by omega)
    have hTs : ps.map (·.T) = List.replicate ps.length T := by
      rw [List.eq_replicate_iff]
      refine ⟨by simp, fun b hb => ?_⟩
      obtain ⟨p, hp, rfl⟩ := List.mem_map.mp hb
      exact (hnum p hp).1
    refine ⟨(aitem "A" ps.length).impl build true M, ?_, hS.over, fun hf => ⟨hS.num hf, fun h => ?_, fun h => ?_⟩⟩
    · rw [arrayOf_eq, findArray_eq _ _ _ _ _ _ _ (by omega) hlen, ← hTs, hM]
      rfl
    · show (moveAll build true ps.length (List.range ps.length).reverse ((ps.map (·.v)).map some) >>= fun ws => M.toDiscr (.tup ws)) = _
      have := moveAll_eq build ps.length (ps.map (·.v)) 0 (by simp)
      rw [List.length_map] at this
      rw [show (ps.map (·.v)).map some = List.replicate 0 none ++ (ps.map (·.v)).map some from rfl, this, ok_bind]
      exact hS.to hf (fun p hp => (h p hp).1) (fun p hp => by rw [(hnum p hp).1]; exact (h p hp).2)
    · have hfr := hS.from_ hf (fun p hp => (h p hp).1) (fun p hp => by rw [(hnum p hp).1]; exact (h p hp).2)
      unfold ArrayItem.impl number
      dsimp only
      rw [hfr, ok_bind]
      show (project (ps.map (·.v)) (List.range ps.length) >>= fun ws => pure (Val.arr ws)) = _
      rw [project_range _ _ (by simp), List.take_of_length_le (by simp)]
      rfl

/-- **C62** (arrays): longer arrays have no impl. -/
theorem C62_array_limit (build : Build) (uninit : Bool) (n : Nat) (T : Mach (Val β)) (h : 32 < n) : arrayOf build uninit n T = none := by
  rw [arrayOf_eq]; exact findArray_none _ _ _ _ _ _ _ h

/-- **C62** (arrays): if the compiler makes `mem::uninitialized` panic for the item type, `to_discr` panics on every array that is not empty; the rest of the impl is not affected. -/
theorem C62_array_uninit (build : Build) (n : Nat) (T : Mach (Val β)) (h1 : 1 ≤ n) (h2 : n ≤ 32) (M M' : Mach (Val β)) (hM : arrayOf build true n T = some M)
    (hM' : arrayOf build false n T = some M') : (∀ vs, M'.toDiscr (.arr vs) = .error .user) ∧ M'.num = M.num ∧ M'.fromDiscr = M.fromDiscr := by
  rw [arrayOf_eq, findArray_eq _ _ _ _ _ _ _ h1 h2] at hM hM'
  cases hF : findTuple build (items (fun i => "A" ++ toString i) 32) n (List.replicate n T) with
  | none => rw [hF] at hM; cases hM
  | some t =>
    rw [hF] at hM hM'
    cases hM; cases hM'
    refine ⟨fun vs => ?_, rfl, rfl⟩
    show (moveAll build false n (List.range n).reverse (vs.map some) >>= fun ws => t.toDiscr (.tup ws)) = _
    rw [moveAll_panic build n h1]
    rfl

/-- **C62** (other invocations). The same holds for any number of rows: with the rows `n - 1, …, 1, 0` and distinct names, `tuple_impls!` prints an impl for every tuple of up to `n` components
and no other but those written by hand. -/
theorem C62_rows (build : Build) (name : Nat → String) (n : Nat) (h2 : 2 ≤ n) (hinj : ∀ i j, i < n → j < n → name i = name j → i = j) :
    ∃ its, tupleImpls (rows name n) = some its ∧
      ∀ ps : List (Part β), (∀ p ∈ ps, p.T.num = .ok p.n) →
        (n < ps.length → findTuple build its ps.length (ps.map (·.T)) = none) ∧
        (ps.length ≤ n → ∃ M, findTuple build its ps.length (ps.map (·.T)) = some M ∧
          (Fits build.usizeLim ps →
            M.num = .ok (ps.map (·.n)).prod ∧
            ((∀ p ∈ ps, p.d < p.n ∧ p.T.toDiscr p.v = .ok p.d) → M.toDiscr (.tup (ps.map (·.v))) = .ok (number ps)) ∧
            ((∀ p ∈ ps, p.d < p.n ∧ p.T.fromDiscr p.d = .ok p.v) → M.fromDiscr (number ps) = .ok (.tup (ps.map (·.v)))))) := by
  obtain ⟨k, rfl⟩ : ∃ k, n = k + 2 := ⟨n - 2, by omega⟩
  refine ⟨_, tupleImpls_rows name k, fun ps hnum => ⟨fun h => ?_, fun h => ?_⟩⟩
  · exact findTuple_none _ _ _ _ _ (by simpa using h) (by simp; omega)
  · obtain ⟨M, hM, hS⟩ := tuple_sem build hinj ps.length ps hnum (Or.inl h) (by omega)
    exact ⟨M, hM, fun hf => ⟨hS.num hf, fun h => hS.to hf (fun p hp => (h p hp).1) (fun p hp => (h p hp).2),
      fun h => hS.from_ hf (fun p hp => (h p hp).1) (fun p hp => (h p hp).2)⟩⟩

/-- The check the compiler makes, without the helper's `&&`s. -/
theorem C62_compiles_iff (it : TupleItem) : it.compiles = true ↔
    it.params.Nodup ∧ (∀ T ∈ it.self_, T ∈ it.params) ∧ (∃ l, it.fromIdx.mapM (fun k => it.inner[k]?) = some l ∧ it.self_ = l ++ [it.last]) := by
  unfold TupleItem.compiles
  simp only [Bool.and_eq_true, decide_eq_true_eq, List.all_eq_true, List.contains_iff_mem, beq_iff_eq, and_assoc]
  refine and_congr_right fun _ => and_congr_right fun _ => ⟨fun ⟨h1, h2⟩ => ⟨_, h1, ?_⟩, fun ⟨l, h1, h2⟩ => ?_⟩
  · obtain ⟨ys, hy⟩ := List.getLast?_eq_some_iff.mp h2
    rw [hy, List.dropLast_concat]
  · rw [h2, List.dropLast_concat, List.getLast?_concat]
    exact ⟨h1, rfl⟩

/-- Items that are refused: a parameter declared twice, a component that is no parameter, a component taken twice, a last component in the wrong place. -/
example : (⟨["A", "A", "C"], ["A", "A", "C"], ["A", "A"], "C", [0, 1], 2, [0, 1]⟩ : TupleItem).compiles = false := by decide +kernel
example : (⟨["A", "C"], ["A", "B", "C"], ["A", "B"], "C", [0, 1], 2, [0, 1]⟩ : TupleItem).compiles = false := by decide +kernel
example : (⟨["A", "B", "C"], ["A", "B", "C"], ["A", "B"], "C", [0, 1], 2, [0, 0]⟩ : TupleItem).compiles = false := by decide +kernel
example : (⟨["A", "B", "C"], ["A", "C", "B"], ["A", "C"], "C", [0, 1], 2, [0, 1]⟩ : TupleItem).compiles = false := by decide +kernel

/-- **C62**: no two impls are for the same type: the ones printed have different sizes, none of which is that of an impl written by hand. -/
theorem C62_no_overlap : ∃ ts as, tupleImpls tupleRows = some ts ∧ arrayImpls arrayRows = some as ∧
    (ts.map (·.self_.length)).Nodup ∧ (∀ t ∈ ts, 3 ≤ t.self_.length ∧ t.compiles = true) ∧ (as.map (·.size)).Nodup ∧ (∀ a ∈ as, 1 ≤ a.size) := by
  refine ⟨_, _, tupleItems_eq, arrayItems_eq, ?_, ?_, ?_, ?_⟩ <;> decide +kernel

/-! ## Concrete cases -/

/-- An enum with `n` variants. -/
def enumN (n : Nat) : Mach (Val Nat) where
  num := .ok n
  toDiscr
    | .leaf x => .ok x
    | _ => .error .ub
  fromDiscr x := if x < n then .ok (.leaf x) else .error .badDiscr

/-- The leaves of a value. -/
def leaves : Val Nat → List Nat
  | .tup vs => vs.flatMap fun | .leaf x => [x] | _ => []
  | .arr vs => vs.flatMap fun | .leaf x => [x] | _ => []
  | .leaf x => [x]

/-- The hypotheses of `C62_tuple` hold for the components of `(A, B, C, D)` with 2, 3, 4, 5 variants. -/
def parts4 : List (Part Nat) := [⟨enumN 2, 2, .leaf 1, 1⟩, ⟨enumN 3, 3, .leaf 2, 2⟩, ⟨enumN 4, 4, .leaf 0, 0⟩, ⟨enumN 5, 5, .leaf 3, 3⟩]

example : ∃ M, tupleOf ⟨false, true⟩ (parts4.map (·.T)) = some M ∧ M.num = .ok 120 ∧
    M.toDiscr (.tup [.leaf 1, .leaf 2, .leaf 0, .leaf 3]) = .ok 77 ∧ M.fromDiscr 77 = .ok (.tup [.leaf 1, .leaf 2, .leaf 0, .leaf 3]) := by
  obtain ⟨M, h, -, hS⟩ := C62_tuple ⟨false, true⟩ parts4 (by decide) (by simp [parts4, enumN])
  have hf : Fits (Build.usizeLim ⟨false, true⟩) parts4 := by
    have h0 : Fits (β := Nat) (Build.usizeLim ⟨false, true⟩) [] := fun i => by rw [List.take_nil]; decide
    exact (fits_concat _ _).mpr ⟨(fits_concat _ _).mpr ⟨(fits_concat _ _).mpr ⟨(fits_concat [] _).mpr ⟨h0, by decide⟩, by decide⟩, by decide⟩, by decide⟩
  exact ⟨M, h, (hS hf).1, (hS hf).2.1 (by simp [parts4, enumN]), (hS hf).2.2 (by simp [parts4, enumN])⟩

/-- Evaluated: a tuple of 5 components with 2, 3, 4, 5, 7 variants. -/
example : ((tupleOf ⟨true, false⟩ [enumN 2, enumN 3, enumN 4, enumN 5, enumN 7]).map fun M =>
    (M.num.toOption, (M.toDiscr (.tup [.leaf 1, .leaf 2, .leaf 3, .leaf 4, .leaf 6])).toOption, (M.fromDiscr 77).toOption.map leaves)) =
    some (some 840, some 839, some [1, 2, 0, 3, 0]) := by decide +kernel

/-- Evaluated: an array of 3 items with 5 variants, with and without `mem::uninitialized`. -/
example : ((arrayOf ⟨true, false⟩ true 3 (enumN 5)).map fun M =>
    (M.num.toOption, (M.toDiscr (.arr [.leaf 1, .leaf 2, .leaf 3])).toOption, (M.fromDiscr 86).toOption.map leaves)) =
    some (some 125, some 86, some [1, 2, 3]) := by decide +kernel

example : ((arrayOf ⟨true, false⟩ false 3 (enumN 5)).map fun M =>
    (M.num.toOption, (M.toDiscr (.arr [.leaf 1, .leaf 2, .leaf 3])).toOption, (M.fromDiscr 86).toOption.map leaves)) =
    some (some 125, none, some [1, 2, 3]) := by decide +kernel

/-- A 17-tuple of types with 4 variants does not compile on a 32-bit target: the product is 2^34. 33 components have no impl at all. -/
example : ((tupleOf ⟨false, false⟩ (List.replicate 17 (enumN 4))).map fun M => M.num.toOption) = some none ∧
    (tupleOf ⟨false, false⟩ (List.replicate 33 (enumN 1))).isNone = true := by
  refine ⟨by decide +kernel, ?_⟩
  rw [C62_tuple_limit _ _ (by decide)]; rfl

/-- `C62_tuple_onto`: its hypothesis about the components holds for these types. -/
example (n : Nat) : ∀ m d, (enumN n).num = .ok m → d < m → ∃ v, (enumN n).fromDiscr d = .ok v ∧ (enumN n).toDiscr v = .ok d := by
  intro m d h hd
  cases h
  exact ⟨.leaf d, if_pos hd, rfl⟩

end Rules
end EnumLike
end EnumVecModel
