import Verif.EnumLikeSpec

/-! # Lemmas on the `EnumLike` impls -/

namespace EnumVecModel
namespace EnumLike
variable {α β : Type}

/-- Contract and consecutive. -/
structure Good (E : EnumLike α) : Prop where
  contract : E.Contract
  consec : E.Consecutive

theorem unit_contract : unit.Contract := ⟨fun _ => Nat.zero_lt_one, fun _ => rfl⟩
theorem unit_consec : unit.Consecutive := fun x hx => ⟨(), rfl, by
  have : x < 1 := hx
  show 0 = x; omega⟩

theorem bool_contract : bool.Contract :=
  ⟨fun b => by cases b <;> decide, fun b => by cases b <;> rfl⟩
theorem bool_consec : bool.Consecutive := fun x hx => by
  have : x < 2 := hx
  match x, this with
  | 0, _ => exact ⟨false, rfl, rfl⟩
  | 1, _ => exact ⟨true, rfl, rfl⟩

theorem option_contract {T : EnumLike α} (h : T.Contract) : (option T).Contract := by
  constructor
  · intro a
    cases a with
    | none => show T.num < 1 + T.num; omega
    | some x => show T.toDiscr x < 1 + T.num; have := h.lt x; omega
  · intro a
    cases a with
    | none => exact if_pos rfl
    | some x =>
      show (if T.toDiscr x = T.num then some none else (T.fromDiscr (T.toDiscr x)).map some) = _
      rw [if_neg (Nat.ne_of_lt (h.lt x)), h.roundtrip]; rfl

theorem option_consec {T : EnumLike α} (h : T.Consecutive) : (option T).Consecutive := by
  intro x hx
  have hx : x < 1 + T.num := hx
  by_cases hn : x = T.num
  · exact ⟨none, if_pos hn, hn.symm⟩
  · obtain ⟨a, h1, h2⟩ := h x (by omega)
    refine ⟨some a, ?_, h2⟩
    show (if x = T.num then _ else _) = _
    rw [if_neg hn, h1]; rfl

theorem result_contract {T : EnumLike α} {S : EnumLike β} (hT : T.Contract) (hS : S.Contract) : (result T S).Contract := by
  constructor
  · intro a
    cases a with
    | ok x => show T.toDiscr x < T.num + S.num; have := hT.lt x; omega
    | error x => show T.num + S.toDiscr x < T.num + S.num; have := hS.lt x; omega
  · intro a
    cases a with
    | ok x =>
      show (if T.toDiscr x < T.num then (T.fromDiscr (T.toDiscr x)).map Except.ok else _) = _
      rw [if_pos (hT.lt x), hT.roundtrip]; rfl
    | error x =>
      show (if T.num + S.toDiscr x < T.num then _ else (S.fromDiscr (T.num + S.toDiscr x - T.num)).map Except.error) = _
      rw [if_neg (by omega), Nat.add_sub_cancel_left, hS.roundtrip]; rfl

theorem result_consec {T : EnumLike α} {S : EnumLike β} (hT : T.Consecutive) (hS : S.Consecutive) :
    (result T S).Consecutive := by
  intro x hx
  have hx : x < T.num + S.num := hx
  by_cases hn : x < T.num
  · obtain ⟨a, h1, h2⟩ := hT x hn
    refine ⟨.ok a, ?_, h2⟩
    show (if x < T.num then _ else _) = _
    rw [if_pos hn, h1]; rfl
  · obtain ⟨a, h1, h2⟩ := hS (x - T.num) (by omega)
    refine ⟨.error a, ?_, ?_⟩
    · show (if x < T.num then _ else _) = _
      rw [if_neg hn, h1]; rfl
    · show T.num + S.toDiscr a = x
      omega

theorem mixed_lt {N M a b : Nat} (ha : a < N) (hb : b < M) : a + b * N < N * M := by
  have h : (b + 1) * N ≤ M * N := Nat.mul_le_mul_right N hb
  rw [Nat.add_mul, Nat.one_mul] at h
  rw [Nat.mul_comm N M]
  omega

theorem pair_contract {T : EnumLike α} {S : EnumLike β} (hT : T.Contract) (hS : S.Contract) : (pair T S).Contract := by
  constructor
  · intro p
    exact mixed_lt (hT.lt p.1) (hS.lt p.2)
  · intro p
    have h1 := hT.lt p.1
    have hpos : 0 < T.num := by omega
    show (if T.num = 0 then none else _) = _
    rw [if_neg (by omega)]
    have e1 : (T.toDiscr p.1 + S.toDiscr p.2 * T.num) % T.num = T.toDiscr p.1 := by
      rw [Nat.add_mul_mod_self_right, Nat.mod_eq_of_lt h1]
    have e2 : (T.toDiscr p.1 + S.toDiscr p.2 * T.num) / T.num = S.toDiscr p.2 := by
      rw [Nat.add_mul_div_right _ _ hpos, Nat.div_eq_of_lt h1, Nat.zero_add]
    show (match T.fromDiscr ((T.toDiscr p.1 + S.toDiscr p.2 * T.num) % T.num),
      S.fromDiscr ((T.toDiscr p.1 + S.toDiscr p.2 * T.num) / T.num) with
      | some a, some b => some (a, b)
      | _, _ => none) = _
    rw [e1, e2, hT.roundtrip, hS.roundtrip]

theorem pair_consec {T : EnumLike α} {S : EnumLike β} (hT : T.Consecutive) (hS : S.Consecutive) : (pair T S).Consecutive := by
  intro x hx
  have hx : x < T.num * S.num := hx
  have hpos : 0 < T.num := by
    rcases Nat.eq_zero_or_pos T.num with h | h
    · rw [h, Nat.zero_mul] at hx; omega
    · exact h
  obtain ⟨a, a1, a2⟩ := hT (x % T.num) (Nat.mod_lt _ hpos)
  obtain ⟨b, b1, b2⟩ := hS (x / T.num) (Nat.div_lt_of_lt_mul hx)
  refine ⟨(a, b), ?_, ?_⟩
  · show (if T.num = 0 then none else _) = _
    rw [if_neg (by omega)]
    show (match T.fromDiscr (x % T.num), S.fromDiscr (x / T.num) with
      | some a, some b => some (a, b)
      | _, _ => none) = _
    rw [a1, b1]
  · show T.toDiscr a + S.toDiscr b * T.num = x
    rw [a2, b2, Nat.mul_comm]
    exact Nat.mod_add_div x T.num

theorem tuple_contract : (cs : Comps) → (∀ A ∈ cs, A.2.Contract) → (tuple cs).Contract
  | [], _ => unit_contract
  | [A], h => ⟨(h A (by simp)).lt, (h A (by simp)).roundtrip⟩
  | A :: B :: rest, h => pair_contract (tuple_contract (B :: rest) fun C hC => h C (List.mem_cons_of_mem _ hC)) (h A (by simp))

theorem tuple_consec : (cs : Comps) → (∀ A ∈ cs, A.2.Consecutive) → (tuple cs).Consecutive
  | [], _ => unit_consec
  | [A], h => fun x hx => h A (by simp) x hx
  | A :: B :: rest, h => pair_consec (tuple_consec (B :: rest) fun C hC => h C (List.mem_cons_of_mem _ hC)) (h A (by simp))

theorem tupleToArray_arrayToTuple (T : EnumLike α) : (n : Nat) → (f : Fin n → α) →
    tupleToArray T n (arrayToTuple T n f) = f
  | 0, f => by funext i; exact i.elim0
  | 1, f => by
    funext i
    show f 0 = f i
    rw [Subsingleton.elim i 0]
  | n + 2, f => by
    funext i
    show (if h : i.1 < n + 1 then tupleToArray T (n + 1) (arrayToTuple T (n + 1) (fun i => f i.castSucc)) ⟨i.1, h⟩
      else f (Fin.last _)) = f i
    rw [tupleToArray_arrayToTuple T (n + 1)]
    split
    · rfl
    · congr 1
      apply Fin.ext
      show n + 1 = i.1
      have := i.2; omega

theorem arrayToTuple_tupleToArray (T : EnumLike α) : (n : Nat) → (t : Tuple (arrayComps T n)) →
    arrayToTuple T n (tupleToArray T n t) = t
  | 0, _ => rfl
  | 1, _ => rfl
  | n + 2, t => by
    have h1 : (fun i : Fin (n + 1) => tupleToArray T (n + 2) t i.castSucc) = tupleToArray T (n + 1) t.1 := by
      funext i
      show (if h : i.1 < n + 1 then tupleToArray T (n + 1) t.1 ⟨i.1, h⟩ else t.2) = _
      rw [dif_pos i.2]
    have h2 : tupleToArray T (n + 2) t (Fin.last _) = t.2 := by
      show (if h : n + 1 < n + 1 then tupleToArray T (n + 1) t.1 ⟨n + 1, h⟩ else t.2) = _
      rw [dif_neg (by omega)]
    show (arrayToTuple T (n + 1) (fun i => tupleToArray T (n + 2) t i.castSucc), tupleToArray T (n + 2) t (Fin.last _)) = t
    rw [h1, h2, arrayToTuple_tupleToArray T (n + 1)]
    rfl

theorem mem_arrayComps {T : EnumLike α} {n : Nat} {A : (α : Type) × EnumLike α} (h : A ∈ arrayComps T n) :
    A = ⟨α, T⟩ := (List.mem_replicate.1 h).2

theorem array_contract {T : EnumLike α} (h : T.Contract) (n : Nat) : (array T n).Contract := by
  have ht := tuple_contract (arrayComps T n) (fun A hA => by rw [mem_arrayComps hA]; exact h)
  constructor
  · intro f
    exact ht.lt _
  · intro f
    show ((tuple (arrayComps T n)).fromDiscr ((tuple (arrayComps T n)).toDiscr (arrayToTuple T n f))).map _ = _
    rw [ht.roundtrip, Option.map_some, tupleToArray_arrayToTuple]

theorem array_consec {T : EnumLike α} (h : T.Consecutive) (n : Nat) : (array T n).Consecutive := by
  have ht := tuple_consec (arrayComps T n) (fun A hA => by rw [mem_arrayComps hA]; exact h)
  intro x hx
  obtain ⟨t, h1, h2⟩ := ht x hx
  refine ⟨tupleToArray T n t, ?_, ?_⟩
  · show ((tuple (arrayComps T n)).fromDiscr x).map _ = _
    rw [h1]; rfl
  · show (tuple (arrayComps T n)).toDiscr (arrayToTuple T n (tupleToArray T n t)) = x
    rw [arrayToTuple_tupleToArray, h2]

/-! ## Mixed radix -/

theorem mixedRadix_nil : mixedRadix [] = 0 := rfl

theorem mixedRadix_append_one (ds : List (Nat × Nat)) (N d : Nat) :
    mixedRadix (ds ++ [(N, d)]) = mixedRadix ds + d * (ds.map Prod.fst).prod := by
  unfold mixedRadix
  rw [List.length_append, List.length_singleton, List.range_succ, List.map_append, List.sum_append]
  congr 1
  · congr 1
    apply List.map_congr_left
    intro i hi
    have hi := List.mem_range.1 hi
    rw [List.take_append_of_le_length (by omega)]
    simp only [List.getD_eq_getElem?_getD, List.getElem?_append_left hi]
  · simp

theorem mixedRadix_cons (ds : List (Nat × Nat)) (N d : Nat) :
    mixedRadix ((N, d) :: ds) = d + N * mixedRadix ds := by
  unfold mixedRadix
  rw [List.length_cons, List.range_succ_eq_map, List.map_cons, List.sum_cons]
  simp only [List.map_map]
  congr 1
  · simp
  · have : ∀ L : List Nat, (L.map ((fun i => (((N, d) :: ds).getD i (0, 0)).2 * (((((N, d) :: ds).take i).map Prod.fst).prod)) ∘ Nat.succ)).sum
        = N * (L.map fun i => (ds.getD i (0, 0)).2 * ((ds.take i).map Prod.fst).prod).sum := by
      intro L
      induction L with
      | nil => simp
      | cons a L ih =>
        rw [List.map_cons, List.sum_cons, List.map_cons, List.sum_cons, ih, Nat.mul_add]
        congr 1
        simp only [Function.comp, Nat.succ_eq_add_one, List.getD_cons_succ, List.take_succ_cons, List.map_cons, List.prod_cons]
        exact Nat.mul_left_comm _ _ _
    exact this _

theorem mixedRadix_append (ds es : List (Nat × Nat)) :
    mixedRadix (ds ++ es) = mixedRadix ds + (ds.map Prod.fst).prod * mixedRadix es := by
  induction ds with
  | nil => simp [mixedRadix_nil]
  | cons a ds ih =>
    obtain ⟨N, d⟩ := a
    rw [List.cons_append, mixedRadix_cons, mixedRadix_cons, ih, List.map_cons, List.prod_cons, Nat.mul_add, Nat.mul_assoc, Nat.add_assoc]

theorem tuple_num : (cs : Comps) → (tuple cs).num = (cs.map fun A => A.2.num).prod
  | [] => rfl
  | [A] => by simp [tuple, tuple1]
  | A :: B :: rest => by
    show (tuple (B :: rest)).num * A.2.num = _
    rw [tuple_num (B :: rest), List.map_cons (l := B :: rest), List.prod_cons, Nat.mul_comm]

theorem tupleDigits_num : (cs : Comps) → (x : Tuple cs) → ((tupleDigits cs x).map Prod.fst).prod = (tuple cs).num
  | [], _ => rfl
  | [A], x => by simp [tupleDigits, tuple, tuple1]
  | A :: B :: rest, x => by
    show ((tupleDigits (B :: rest) x.1 ++ [(A.2.num, A.2.toDiscr x.2)]).map Prod.fst).prod = (tuple (B :: rest)).num * A.2.num
    rw [List.map_append, List.prod_append, tupleDigits_num (B :: rest)]
    simp

theorem tuple_digits : (cs : Comps) → (x : Tuple cs) → (tuple cs).toDiscr x = mixedRadix (tupleDigits cs x)
  | [], _ => rfl
  | [A], x => by
    show A.2.toDiscr x = mixedRadix [(A.2.num, A.2.toDiscr x)]
    rw [mixedRadix_cons, mixedRadix_nil]; omega
  | A :: B :: rest, x => by
    show (tuple (B :: rest)).toDiscr x.1 + A.2.toDiscr x.2 * (tuple (B :: rest)).num =
      mixedRadix (tupleDigits (B :: rest) x.1 ++ [(A.2.num, A.2.toDiscr x.2)])
    rw [mixedRadix_append_one, tupleDigits_num, tuple_digits (B :: rest)]

theorem array_digits (T : EnumLike α) : (n : Nat) → (f : Fin n → α) →
    tupleDigits (arrayComps T n) (arrayToTuple T n f) = List.ofFn fun i => (T.num, T.toDiscr (f i))
  | 0, _ => rfl
  | 1, f => by
    show [(T.num, T.toDiscr (f 0))] = _
    simp
  | n + 2, f => by
    show tupleDigits (arrayComps T (n + 1)) (arrayToTuple T (n + 1) fun i => f i.castSucc) ++ [(T.num, T.toDiscr (f (Fin.last _)))] = _
    rw [array_digits T (n + 1), List.ofFn_succ_last (n := n + 1)]

end EnumLike
end EnumVecModel
