import Verif.Lemmas.Values

/-! # C35 - C42: the `EnumLike` impls of the crate and of the derive macro, `values()`, packed values -/

namespace EnumVecModel
namespace EnumLike

variable {α β : Type} {B : (α : Type) → EnumLike α → Prop} {E : EnumLike α}

/-- **C35**. Every impl built by any nesting of the crate's impls (and derived structs and enums) from base impls that obey the
`EnumLike` contract obeys the contract: `to_discr` is below `NUM_VARIANTS`, and `from_discr(to_discr(x))` returns `x`. -/
theorem C35_contract (hB : ∀ α E, B α E → (∀ a : α, E.toDiscr a < E.num) ∧ ∀ a : α, E.fromDiscr (E.toDiscr a) = some a)
    (h : Built B α E) : (∀ a, E.toDiscr a < E.num) ∧ ∀ a, E.fromDiscr (E.toDiscr a) = some a := by
  have := built_contract (fun α E hE => ⟨(hB α E hE).1, (hB α E hE).2⟩) h
  exact ⟨this.lt, this.roundtrip⟩

/-- **C35**, without base impls. -/
theorem C35_crate (h : Built NoBase α E) : E.Contract := built_contract (fun _ _ h => h.elim) h

/-- **C36** (bijection). Every number below `NUM_VARIANTS` is the discriminant of exactly one value, which `from_discr` returns. -/
theorem C36_unique (hB : ∀ α E, B α E → E.Contract ∧ E.Consecutive) (h : Built B α E) {x : Nat} (hx : x < E.num) :
    ∃ a, E.fromDiscr x = some a ∧ E.toDiscr a = x ∧ ∀ b, E.toDiscr b = x → b = a := by
  obtain ⟨a, h1, h2⟩ := built_consec (fun α E hE => (hB α E hE).2) h x hx
  refine ⟨a, h1, h2, fun b hb => ?_⟩
  exact toDiscr_inj (built_contract (fun α E hE => (hB α E hE).1) h) (hb.trans h2.symm)

/-- **C36** (`values()`). There is a list of all values: the `i`-th one has discriminant `i`, every value is in it, none twice; and
`T::values()` yields it in this order, then `None` forever. -/
theorem C36_values (hB : ∀ α E, B α E → E.Contract ∧ E.Consecutive) (h : Built B α E) :
    ∃ l : List α, l.map E.toDiscr = List.range E.num ∧ (∀ a, a ∈ l) ∧ l.Nodup ∧
      ∀ build k, (valRun E build (List.replicate (l.length + k) .next) (Values.of E)).1 =
        .ok (l.map (fun a => .item (some a)) ++ List.replicate k (.item none)) := by
  have hc := built_contract (fun α E hE => (hB α E hE).1) h
  obtain ⟨l, hl⟩ := allValues_exists (built_consec (fun α E hE => (hB α E hE).2) h)
  refine ⟨l, hl, hl.mem hc, hl.nodup, fun build k => ?_⟩
  obtain ⟨v, h1, _⟩ := valRun_left hc hl build (List.replicate (l.length + k) .next)
    (fun n hn => by cases (List.mem_replicate.1 hn).2) (v := Values.of E) (r := l) ⟨rfl, Nat.zero_le _, rfl⟩
  rw [h1, ← valSpecRun_next]

/-! ## C37: mixed radix -/

/-- **C37** (tuples). `NUM_VARIANTS` of a tuple is the product over its components, and its discriminant is the sum of each
component's discriminant times the product of the `NUM_VARIANTS` of the components before it. -/
theorem C37_tuple (cs : Comps) (x : Tuple cs) :
    (tuple cs).num = ((tupleDigits cs x).map Prod.fst).prod ∧ (tuple cs).toDiscr x = mixedRadix (tupleDigits cs x) :=
  ⟨(tupleDigits_num cs x).symm, tuple_digits cs x⟩

theorem C37_tuple_num (cs : Comps) : (tuple cs).num = (cs.map fun A => A.2.num).prod := tuple_num cs

/-- **C37** (arrays). The discriminant of an array is the mixed-radix number of its items, first item least significant, and
`NUM_VARIANTS` is a power. -/
theorem C37_array (T : EnumLike α) (n : Nat) (f : Fin n → α) :
    (array T n).num = T.num ^ n ∧ (array T n).toDiscr f = mixedRadix (List.ofFn fun i => (T.num, T.toDiscr (f i))) := by
  refine ⟨?_, ?_⟩
  · show (tuple (arrayComps T n)).num = _
    rw [tuple_num, List.map_replicate, List.prod_replicate_nat]
  · show (tuple (arrayComps T n)).toDiscr (arrayToTuple T n f) = _
    rw [tuple_digits, array_digits]

/-- **C37** (an array is the tuple of its items). -/
theorem C37_array_tuple (T : EnumLike α) (n : Nat) (f : Fin n → α) (x : Tuple (arrayComps T n))
    (hx : tupleDigits (arrayComps T n) x = List.ofFn fun i => (T.num, T.toDiscr (f i))) :
    (array T n).toDiscr f = (tuple (arrayComps T n)).toDiscr x := by
  rw [(C37_array T n f).2, tuple_digits, hx]

/-- **C37** (nesting). A pair of tuples has the discriminant of the flat tuple of all their components. -/
theorem C37_nested (cs ds es : Comps) (x : Tuple cs) (y : Tuple ds) (z : Tuple es)
    (hz : tupleDigits es z = tupleDigits cs x ++ tupleDigits ds y) :
    (pair (tuple cs) (tuple ds)).toDiscr (x, y) = (tuple es).toDiscr z := by
  show (tuple cs).toDiscr x + (tuple ds).toDiscr y * (tuple cs).num = _
  rw [tuple_digits, tuple_digits, tuple_digits, hz, mixedRadix_append, tupleDigits_num, Nat.mul_comm]

/-- **C37** (no overflow). All tuple and array impls compute with the expression of the pair impl. If the `NUM_VARIANTS` of the pair fits
in a `usize` (it is a compile-time constant), then neither the product nor the sum in `to_discr` overflows, in any build. -/
theorem C37_no_overflow {T : EnumLike α} {S : EnumLike β} (hT : T.Contract) (hS : S.Contract)
    (build : Build) (hn : (pair T S).num < build.usizeLim) (a : α) (b : β) :
    ∃ p, uMul build (S.toDiscr b) T.num = .ok p ∧ uAdd build (T.toDiscr a) p = .ok ((pair T S).toDiscr (a, b)) := by
  have h := (pair_contract hT hS).lt (a, b)
  have e : (pair T S).toDiscr (a, b) = T.toDiscr a + S.toDiscr b * T.num := rfl
  refine ⟨S.toDiscr b * T.num, if_pos (by omega), ?_⟩
  rw [e] at h ⊢
  exact if_pos (by omega)

/-! ## C38: the iterator `values()` -/

/-- **C38**. For a type that obeys the contract and whose values are consecutive, any sequence of `next`, `nth`, `size_hint`, `count`,
`last` calls on `T::values()` returns what it returns on the list `l` of all values in discriminant order, provided no `nth`
argument makes `NUM_VARIANTS + n` overflow a `usize`. Missing: larger arguments, for which the claim is false
(`C38_nth_overflow_debug`, `C38_nth_overflow_release`). -/
theorem C38_values_partial (hE : E.Contract) {l : List α} (hl : l.map E.toDiscr = List.range E.num) (build : Build)
    (os : List ValOp) (ho : ∀ n, .nth n ∈ os → E.num + n < build.usizeLim) :
    (valRun E build os (Values.of E)).1 = .ok (valSpecRun os l).1 := by
  obtain ⟨v, h1, _⟩ := valRun_left hE (l := l) hl build os ho (v := Values.of E) (r := l) ⟨rfl, Nat.zero_le _, rfl⟩
  rw [h1]

/-- **C38** without `nth`: no condition. -/
theorem C38_values_no_nth (hE : E.Contract) {l : List α} (hl : l.map E.toDiscr = List.range E.num) (build : Build)
    (os : List ValOp) (ho : ∀ n, .nth n ∉ os) :
    (valRun E build os (Values.of E)).1 = .ok (valSpecRun os l).1 :=
  C38_values_partial hE hl build os fun n hn => absurd hn (ho n)

/-- **C38** (defect, debug build). After `k ≥ 1` items, `nth(n)` with `k + n ≥ 2^64` (32-bit targets: 2^32) panics; a list iterator returns
`None`. -/
theorem C38_nth_overflow_debug {build : Build} (hb : build.checked = true) (v : Values) {n : Nat} (h : build.usizeLim ≤ v.current + n) :
    Values.nth E build n v = (.error .overflow, v) := by
  unfold Values.nth
  have e : uAdd build v.current n = .error .overflow := by
    unfold uAdd
    rw [if_neg (by omega), if_pos hb]
  rw [e]

/-- **C38** (defect, release build). After `k` items, `nth(2^64 - k)` (32-bit targets: `2^32 - k`) rewinds: it returns the first value again. -/
theorem C38_nth_overflow_release {build : Build} (hb : build.checked = false) (hE : E.Contract) {l : List α} (hl : l.map E.toDiscr = List.range E.num) {a : α}
    (ha : l.head? = some a) (v : Values) (hm : v.max = E.num) (hk : 0 < v.current) (hk' : v.current ≤ build.usizeLim) :
    (Values.nth E build (build.usizeLim - v.current) v).1 = .ok (some a) := by
  have hl : AllValues E l := hl
  unfold Values.nth
  have e : uAdd build v.current (build.usizeLim - v.current) = .ok 0 := by
    unfold uAdd
    rw [if_neg (by omega), show v.current + (build.usizeLim - v.current) = build.usizeLim from by omega, Nat.mod_self, hb]; rfl
  rw [e]
  have hpos : 0 < v.max := by
    rw [hm, ← hl.length]
    cases l with
    | nil => cases ha
    | cons => simp
  show (if 0 < v.max then Values.next E { v with current := 0 } else _).1 = _
  rw [if_pos hpos]
  obtain ⟨v', h1, _⟩ := next_left hE hl (v := { v with current := 0 }) (r := l) ⟨hm, Nat.zero_le _, rfl⟩
  rw [h1, ha]

/-! ## C39: packed values -/

/-- **C39** (which types). Using `PackedU8` (`B = 8`) or `PackedU16` (`B = 16`) compiles exactly for types with at most `2^B` variants. -/
theorem C39_compiles (build : Build) (E : EnumLike α) (B : Nat) : Packed.Compiles build E B ↔ E.num ≤ 2 ^ B := by
  unfold Packed.Compiles Packed.checkLimit uSub
  constructor
  · rintro ⟨k, hk⟩
    by_cases h : E.num ≤ 2 ^ B
    · exact h
    · rw [if_neg h, if_pos (show build.const.checked = true from rfl)] at hk; cases hk
  · intro h
    exact ⟨_, if_pos h⟩

/-- **C39** (round trip). Where it compiles, `Packed::new(a)` does not panic and `get` returns `a`. -/
theorem C39_roundtrip {build : Build} (hE : E.Contract) {B : Nat} (hB : Packed.Compiles build E B) (a : α) :
    ∃ p, Packed.new build E B a = .ok p ∧ Packed.get E p = some a := by
  have hn := (C39_compiles build E B).1 hB
  have hlt := hE.lt a
  have hc : Packed.checkLimit build E B = .ok (2 ^ B - E.num) := if_pos hn
  refine ⟨⟨BitVec.ofNat B (E.toDiscr a)⟩, ?_, ?_⟩
  · unfold Packed.new
    rw [hc]
    exact if_pos (Nat.sub_le _ _)
  · unfold Packed.get
    rw [BitVec.toNat_ofNat, Nat.mod_eq_of_lt (by omega), hE.roundtrip]

/-- **C39** (equality and order). Packed values are equal exactly if the values are equal, and are ordered by discriminant. -/
theorem C39_order {build : Build} (hE : E.Contract) {B : Nat} (hB : Packed.Compiles build E B) {a b : α} {p q : Packed B}
    (hp : Packed.new build E B a = .ok p) (hq : Packed.new build E B b = .ok q) :
    (p = q ↔ a = b) ∧ (Packed.lt p q ↔ E.toDiscr a < E.toDiscr b) := by
  have hn := (C39_compiles build E B).1 hB
  have hc : Packed.checkLimit build E B = .ok (2 ^ B - E.num) := if_pos hn
  have key : ∀ (a : α) (p : Packed B), Packed.new build E B a = .ok p → p.discr.toNat = E.toDiscr a := by
    intro a p h
    unfold Packed.new at h
    rw [hc] at h
    have h : (if 2 ^ B - E.num ≤ 2 ^ B then Except.ok ⟨BitVec.ofNat B (E.toDiscr a)⟩ else Except.error Fault.index) =
      (Except.ok p : Except Fault (Packed B)) := h
    rw [if_pos (Nat.sub_le _ _)] at h
    have hlt := hE.lt a
    rw [← Except.ok.inj h, BitVec.toNat_ofNat, Nat.mod_eq_of_lt (by omega)]
  have h1 := key a p hp
  have h2 := key b q hq
  refine ⟨⟨fun e => ?_, fun e => ?_⟩, ?_⟩
  · apply toDiscr_inj hE
    rw [← h1, ← h2, e]
  · rw [e] at hp
    exact Except.ok.inj (hp.symm.trans hq)
  · unfold Packed.lt
    rw [h1, h2]

/-! ## C40: derived structs -/

/-- **C40** (contract and bijection). -/
theorem C40_struct {cs : Comps} (h : ∀ A ∈ cs, A.2.Contract) (h' : ∀ A ∈ cs, A.2.Consecutive) :
    (Derive.struct cs).Contract ∧ (Derive.struct cs).Consecutive :=
  ⟨Derive.struct_contract h, Derive.struct_consec h'⟩

/-- **C40** (numbering). `NUM_VARIANTS` is the product over the fields (1 for a unit struct), and the first field is the least
significant digit of the discriminant. -/
theorem C40_digits (cs : Comps) (x : Derive.Fields cs) :
    (Derive.struct cs).num = (cs.map fun A => A.2.num).prod ∧
      (Derive.struct cs).toDiscr x = mixedRadix (fieldDigits cs x) :=
  ⟨(Derive.struct_num cs).trans (Derive.totalNum_eq cs), Derive.struct_digits cs x⟩

theorem fieldDigits_num (cs : Comps) (x : Derive.Fields cs) :
    ((fieldDigits cs x).map Prod.fst).prod = (cs.map fun A => A.2.num).prod := by
  induction cs with
  | nil => rfl
  | cons A rest ih =>
    show (A.2.num :: (fieldDigits rest x.2).map Prod.fst).prod = _
    rw [List.prod_cons, ih, List.map_cons, List.prod_cons]

/-- **C40** (no overflow). The derived `to_discr` adds up, for each field `i`, the product of the `NUM_VARIANTS` of the fields before it times
the field's discriminant. For every value, each such product, each addend and each partial sum is bounded by `NUM_VARIANTS`, which
is a `usize`: nothing overflows. -/
theorem C40_no_overflow {cs : Comps} (h : ∀ A ∈ cs, A.2.Contract) (x : Derive.Fields cs) (i : Nat) {N d : Nat}
    (hi : (fieldDigits cs x)[i]? = some (N, d)) :
    (((fieldDigits cs x).take i).map Prod.fst).prod ≤ (Derive.struct cs).num ∧
    (((fieldDigits cs x).take i).map Prod.fst).prod * d < (Derive.struct cs).num ∧
    mixedRadix ((fieldDigits cs x).take i) + (((fieldDigits cs x).take i).map Prod.fst).prod * d < (Derive.struct cs).num := by
  have hlt := (Derive.struct_contract h).lt x
  rw [Derive.struct_digits] at hlt
  have hnum : ((fieldDigits cs x).map Prod.fst).prod = (Derive.struct cs).num :=
    (fieldDigits_num cs x).trans (C40_digits cs x).1.symm
  generalize fieldDigits cs x = ds at *
  obtain ⟨hil, hi⟩ := List.getElem?_eq_some_iff.1 hi
  have hsplit : ds = ds.take i ++ (N, d) :: ds.drop (i + 1) := by
    rw [← hi, List.getElem_cons_drop, List.take_append_drop]
  have h1 : mixedRadix ds = mixedRadix (ds.take i) + ((ds.take i).map Prod.fst).prod * (d + N * mixedRadix (ds.drop (i + 1))) := by
    conv => lhs; rw [hsplit]
    rw [mixedRadix_append, mixedRadix_cons]
  have h2 : (Derive.struct cs).num = ((ds.take i).map Prod.fst).prod * (((N, d) :: ds.drop (i + 1)).map Prod.fst).prod := by
    rw [← hnum]
    conv => lhs; rw [hsplit]
    rw [List.map_append, List.prod_append]
  rw [Nat.mul_add] at h1
  have hq : 0 < (((N, d) :: ds.drop (i + 1)).map Prod.fst).prod := by
    rcases Nat.eq_zero_or_pos (((N, d) :: ds.drop (i + 1)).map Prod.fst).prod with h | h
    · rw [h, Nat.mul_zero] at h2; omega
    · exact h
  refine ⟨?_, by omega, by omega⟩
  rw [h2]
  exact Nat.le_mul_of_pos_right _ hq

/-- A struct has the same numbering as the tuple of its fields (`cs` lists the components of a tuple last first). -/
theorem C40_tuple (cs ds : Comps) (x : Derive.Fields cs) (y : Tuple ds) (h : fieldDigits cs x = tupleDigits ds y) :
    (Derive.struct cs).toDiscr x = (tuple ds).toDiscr y := by
  rw [Derive.struct_digits, tuple_digits, h]

/-! ## C41, C42: derived enums -/

/-- **C41** (contract and bijection), for every enum. -/
theorem C41_enum {vs : List Derive.Variant} (h : ∀ v ∈ vs, ∀ A ∈ v.fields, A.2.Contract)
    (h' : ∀ v ∈ vs, ∀ A ∈ v.fields, A.2.Consecutive) : (Derive.enum vs).Contract ∧ (Derive.enum vs).Consecutive :=
  ⟨Derive.enum_contract h, Derive.enum_consec h'⟩

theorem variant_surj : (vs : List Derive.Variant) → (y : Derive.EnumVal vs) → ∃ k h x, y = variant vs k h x
  | _ :: _, .inl x => ⟨0, by simp, x, rfl⟩
  | _ :: vs, .inr y => by
    obtain ⟨k, h, x, e⟩ := variant_surj vs y
    exact ⟨k + 1, by simpa using h, x, by rw [e]; rfl⟩

theorem toArms_variant (off : Nat) (vs : List Derive.Variant) (k : Nat) (h : k < vs.length) (x : Derive.Fields vs[k].fields)
    (u rh : Nat) :
    Derive.toArms off vs u rh (variant vs k h x) =
      if dataLess vs[k] then u + ((vs.take k).filter dataLess).length
      else off + rh + (((vs.take k).filter fun v => !dataLess v).map variantSize).sum + mixedRadix (fieldDigits vs[k].fields x) := by
  induction vs generalizing k u rh with
  | nil => simp at h
  | cons v vs ih =>
    cases k with
    | zero =>
      show (if v.isUnit then u else Derive.toBody v.fields _ (off + rh) x) = if v.isUnit then u + 0 else _
      by_cases hu : v.isUnit = true
      · rw [if_pos hu, if_pos hu]; rfl
      · rw [if_neg hu, if_neg hu, Derive.toBody_spec _ (fun e => hu (Derive.isUnit_iff.2 e))]; rfl
    | succ k =>
      have hk : k < vs.length := by simpa using h
      show (if v.isUnit then Derive.toArms off vs (u + 1) rh (variant vs k hk x)
        else Derive.toArms off vs u (rh + v.num) (variant vs k hk x)) = _
      rw [ih, ih, List.take_succ_cons]
      by_cases hu : v.isUnit = true
      · rw [if_pos hu, List.filter_cons_of_pos (show dataLess v = true from hu), List.filter_cons_of_neg (by rw [show dataLess v = true from hu]; simp)]
        simp only [List.length_cons, List.getElem_cons_succ]
        split
        · omega
        · rfl
      · have hd : ¬ dataLess v = true := hu
        have hn : v.num = variantSize v := (if_neg hu).trans (Derive.totalNum_eq _)
        rw [if_neg hu, List.filter_cons_of_neg hd, List.filter_cons_of_pos (by simpa using hd)]
        simp only [List.map_cons, List.sum_cons, List.getElem_cons_succ, hn]
        split
        · rfl
        · omega

/-- **C41** (numbering). Every value of the enum is a variant with its data (`C41_every`). The data-less variants come first, numbered in
declaration order; the data variants follow in declaration order, each occupying a contiguous range as long as the product of the
`NUM_VARIANTS` of its fields, in which the fields are little-endian. -/
theorem C41_numbering (vs : List Derive.Variant) (k : Nat) (h : k < vs.length) (x : Derive.Fields vs[k].fields) :
    (Derive.enum vs).toDiscr (variant vs k h x) =
      if dataLess vs[k] then ((vs.take k).filter dataLess).length
      else (vs.filter dataLess).length + (((vs.take k).filter fun v => !dataLess v).map variantSize).sum +
        mixedRadix (fieldDigits vs[k].fields x) := by
  have e : (Derive.enum vs).toDiscr (variant vs k h x) = Derive.toArms (Derive.units vs) vs 0 0 (variant vs k h x) := by
    unfold Derive.enum
    split
    · exact Derive.cEnum_toDiscr (by assumption) _
    · rfl
  rw [e, toArms_variant]
  show (if dataLess vs[k] then 0 + _ else (vs.filter dataLess).length + 0 + _ + _) = _
  rw [Nat.zero_add, Nat.add_zero]

theorem C41_every (vs : List Derive.Variant) (y : Derive.EnumVal vs) : ∃ k h x, y = variant vs k h x := variant_surj vs y

/-- **C41** (`NUM_VARIANTS`): one for each data-less variant, the product over the fields for a data variant (0 if a field type has no
values). -/
theorem C41_num (vs : List Derive.Variant) : (Derive.enum vs).num = (vs.map variantSize).sum := by
  have hs : ∀ v : Derive.Variant, v.num = variantSize v := by
    intro v
    by_cases hu : v.isUnit = true
    · have hf := Derive.isUnit_iff.1 hu
      rw [show v.num = 1 from if_pos hu]
      unfold variantSize; rw [hf]; rfl
    · exact (if_neg hu).trans (Derive.totalNum_eq _)
  have hr : (Derive.rustyEnum vs).num = (vs.map variantSize).sum := by
    show (vs.map Derive.Variant.num).sum = _
    rw [funext hs]
  unfold Derive.enum
  split
  · rename_i h
    rw [← hr, Derive.rustyEnum_num, Derive.units_all h]
    have : Derive.dataTotal vs = 0 := by
      unfold Derive.dataTotal
      rw [List.filter_eq_nil_iff.2 (fun v hv => by simp [List.all_eq_true.1 h v hv])]; rfl
    rw [this]; rfl
  · exact hr

/-- **C41, C42** (invalid numbers). `from_discr` of a number that is no discriminant panics, it never invents a value. -/
theorem C41_invalid (vs : List Derive.Variant) {x : Nat} (hx : (Derive.enum vs).num ≤ x) : (Derive.enum vs).fromDiscr x = none := by
  unfold Derive.enum at hx ⊢
  split at hx
  · rename_i h
    rw [if_pos h]
    exact Derive.cEnum_none h x hx
  · rename_i h
    rw [if_neg h]
    exact Derive.rustyEnum_none vs x hx

/-- **C42**. In an enum without data the discriminant of a variant is its position in the declaration, whatever explicit discriminants
(`vs[k].explicit`) are written; `NUM_VARIANTS` is the number of variants; `from_discr` of the position is the variant and all other
numbers make it panic. -/
theorem C42_c_like (vs : List Derive.Variant) (hv : ∀ v ∈ vs, v.fields = []) :
    (Derive.enum vs).num = vs.length ∧
    (∀ k h x, (Derive.enum vs).toDiscr (variant vs k h x) = k) ∧
    (∀ k h x, (Derive.enum vs).fromDiscr k = some (variant vs k h x)) ∧
    ∀ k, vs.length ≤ k → (Derive.enum vs).fromDiscr k = none := by
  have hd : ∀ v ∈ vs, dataLess v = true := fun v h => Derive.isUnit_iff.2 (hv v h)
  have hn : (Derive.enum vs).num = vs.length := by
    unfold Derive.enum
    rw [if_pos (show vs.all Derive.Variant.isUnit = true from List.all_eq_true.2 hd)]; rfl
  have ht : ∀ k h x, (Derive.enum vs).toDiscr (variant vs k h x) = k := by
    intro k h x
    rw [C41_numbering, if_pos (hd _ (List.getElem_mem h)), List.filter_eq_self.2 fun v hv => hd v (List.mem_of_mem_take hv),
      List.length_take]
    omega
  refine ⟨hn, ht, fun k h x => ?_, fun k hk => C41_invalid vs (by omega)⟩
  have hc : (Derive.enum vs).Contract := Derive.enum_contract (fun v h A hA => by rw [hv v h] at hA; cases hA)
  have := hc.roundtrip (variant vs k h x)
  rwa [ht] at this

/-! ## Non-trivial cases -/

/-- `(Option<bool>, [Result<bool, ()>; 2])` -/
example : Built NoBase _ (pair (option bool) (array (result bool unit) 2)) :=
  .pair (.option .bool) (.array 2 (.result .bool .unit))
example : (pair (option bool) (array (result bool unit) 2)).num = 27 := by decide
example : (pair (option bool) (array (result bool unit) 2)).toDiscr (none, fun i => if i = 0 then .ok true else .error ()) =
    2 + 3 * (1 + 3 * 2) := by decide

/-- `enum { A(bool, Option<bool>), B, C(bool), D }` -/
abbrev exEnum : List Derive.Variant :=
  [⟨[⟨_, bool⟩, ⟨_, option bool⟩], none⟩, ⟨[], none⟩, ⟨[⟨_, bool⟩], none⟩, ⟨[], none⟩]

example : Built NoBase _ (Derive.enum exEnum) := .enum fun v hv A hA => by
  simp only [exEnum, List.mem_cons, List.not_mem_nil, or_false] at hv
  rcases hv with rfl | rfl | rfl | rfl <;> simp only [List.mem_cons, List.not_mem_nil, or_false] at hA
  · rcases hA with rfl | rfl
    · exact .bool
    · exact .option .bool
  · rcases hA with rfl
    exact .bool

example : (Derive.enum exEnum).num = 10 ∧
    (Derive.enum exEnum).toDiscr (.inl (true, none, ())) = 2 + (1 + 2 * 2) ∧
    (Derive.enum exEnum).toDiscr (.inr (.inl ())) = 0 ∧
    (Derive.enum exEnum).toDiscr (.inr (.inr (.inl (true, ())))) = 2 + 6 + 1 ∧
    (Derive.enum exEnum).toDiscr (.inr (.inr (.inr (.inl ())))) = 1 := by decide

example (build : Build) : Packed.Compiles build bool 8 ∧ ¬ Packed.Compiles build (array bool 9) 8 := by
  rw [C39_compiles, C39_compiles]; decide

/-- The release-build defect on `Option<bool>`: after two items, `nth(2^64 - 2)` returns the first value again. -/
example : (Values.nth (option bool) ⟨false, true⟩ (2 ^ 64 - 2) ⟨2, 3⟩).1 = .ok (some (some false)) :=
  C38_nth_overflow_release (build := ⟨false, true⟩) rfl (l := [some false, some true, none]) (option_contract bool_contract) (by decide) rfl ⟨2, 3⟩ rfl (by decide) (by decide)

end EnumLike
end EnumVecModel
