import Verif.Props.MacroRules
import Verif.Props.SourceLike

/-!
# C84: tuples and arrays keep the contract

The impls that `tuple_impls!` and `array_impls!` print (C62) keep the contract of `EnumLike` if those of the components do, for every number given to `from_discr`, not only those of values.
-/

namespace EnumVecModel
open EnumLike EnumLike.Rules

set_option linter.constructorNameAsVariable false

variable {β γ : Type} {build : Build}

/-- `m` keeps the contract of `EnumLike` for a type whose values are those with `Has`, if its `NUM_VARIANTS` compiles. -/
def KeepsContract (build : Build) (m : Mach γ) (Has : γ → Prop) : Prop :=
  ∀ n, m.num = .ok n → Macro.Lawful build n Has m.toDiscr m.fromDiscr ∧ Macro.Onto n Has m.toDiscr m.fromDiscr

/-- The values of a tuple type, given those of its components. -/
def TupleHas (Hs : List (Val β → Prop)) (v : Val β) : Prop :=
  ∃ vs, v = .tup vs ∧ vs.length = Hs.length ∧ ∀ (i : Nat) (w : Val β) (H : Val β → Prop), vs[i]? = some w → Hs[i]? = some H → H w

/-- The values of an array type. -/
def ArrayHas (n : Nat) (H : Val β → Prop) (v : Val β) : Prop :=
  ∃ vs, v = .arr vs ∧ vs.length = n ∧ ∀ w ∈ vs, H w

theorem keeps_congr {m : Mach γ} {H H' : γ → Prop} (h : KeepsContract build m H) (e : ∀ v, H v ↔ H' v) : KeepsContract build m H' := by
  have : H = H' := funext fun v => propext (e v)
  subst this; exact h

/-- An impl that keeps the contract, with its values named in another way. -/
theorem keeps_map {δ : Type} {m : Mach γ} {H : γ → Prop} {m' : Mach δ} (f : γ → δ) (h : KeepsContract build m H) (hnum : m'.num = m.num) (hto : ∀ a, H a → m'.toDiscr (f a) = m.toDiscr a)
    (hfrom : ∀ x a, H a → m.fromDiscr x = .ok a → m'.fromDiscr x = .ok (f a)) (herr : ∀ x, m.fromDiscr x = .error .badDiscr → m'.fromDiscr x = .error .badDiscr) :
    KeepsContract build m' fun v => ∃ a, H a ∧ v = f a := by
  intro n hn
  obtain ⟨h1, h2⟩ := h n (hnum ▸ hn)
  refine ⟨⟨h1.fits, ?_, fun x hx => ?_⟩, fun x hx => ?_⟩
  · rintro _ ⟨a, ha, rfl⟩
    obtain ⟨k, k1, k2, k3⟩ := h1.to a ha
    exact ⟨k, (hto a ha).trans k1, k2, hfrom _ _ ha k3⟩
  · rcases h1.from x hx with ⟨a, ha, k⟩ | k
    · exact .inl ⟨f a, ⟨a, ha, rfl⟩, hfrom _ _ ha k⟩
    · exact .inr (herr _ k)
  · obtain ⟨a, ha, k1, k2⟩ := h2 x hx
    exact ⟨f a, ⟨a, ha, rfl⟩, hfrom _ _ ha k1, (hto a ha).trans k2⟩

theorem keeps_pair {α α' : Type} {T : Mach α} {S : Mach α'} {HT : α → Prop} {HS : α' → Prop} (hT : KeepsContract build T HT) (hS : KeepsContract build S HS) :
    KeepsContract build (Mach.pair build T S) fun p => HT p.1 ∧ HS p.2 := by
  intro n hn
  have hn' : (T.num >>= fun t => S.num >>= fun u => uMul build.const t u) = .ok n := hn
  rcases hA : T.num with e | N
  · rw [hA] at hn'; cases hn'
  rw [hA, ok_bind] at hn'
  rcases hB : S.num with e | k
  · rw [hB] at hn'; cases hn'
  rw [hB, ok_bind] at hn'
  obtain ⟨t1, t2⟩ := hT N hA
  obtain ⟨s1, s2⟩ := hS k hB
  have hlim : N * k < build.usizeLim ∧ n = N * k := by
    unfold uMul at hn'
    split at hn'
    · rename_i h; cases hn'; exact ⟨h, rfl⟩
    · cases hn'
  obtain ⟨hlim, rfl⟩ := hlim
  have hfr : ∀ x, 0 < N → (Mach.pair build T S).fromDiscr x = (T.fromDiscr (x % N) >>= fun a => S.fromDiscr (x / N) >>= fun b => pure (a, b)) := by
    intro x h0
    show (T.num >>= fun t => uRem x t >>= fun y => T.fromDiscr y >>= fun a => T.num >>= fun t => uDiv x t >>= fun z => S.fromDiscr z >>= fun b => pure (a, b)) = _
    unfold uRem uDiv
    rw [hA, ok_bind, if_neg (by omega), ok_bind]
    rcases T.fromDiscr (x % N) with e | a
    · rfl
    · rw [ok_bind, ok_bind, if_neg (by omega), ok_bind, ok_bind]
  have hto : ∀ a b x y, T.toDiscr a = .ok x → S.toDiscr b = .ok y → x < N → y < k → x + y * N < N * k ∧ (Mach.pair build T S).toDiscr (a, b) = .ok (x + y * N) := by
    intro a b x y ha hb hx hy
    have h1 : (y + 1) * N ≤ k * N := Nat.mul_le_mul hy (Nat.le_refl _)
    rw [Nat.mul_comm k N, Nat.add_mul, Nat.one_mul] at h1
    refine ⟨by omega, ?_⟩
    show (T.toDiscr a >>= fun a => S.toDiscr b >>= fun b => T.num >>= fun t => uMul build b t >>= fun q => uAdd build a q) = _
    rw [ha, ok_bind, hb, ok_bind, hA, ok_bind, uMul_ok (by omega), ok_bind, uAdd_ok (by omega)]
  refine ⟨⟨hlim, ?_, fun x hx => ?_⟩, fun x hx => ?_⟩
  · rintro ⟨a, b⟩ ⟨ha, hb⟩
    obtain ⟨x, x1, x2, x3⟩ := t1.to a ha
    obtain ⟨y, y1, y2, y3⟩ := s1.to b hb
    obtain ⟨z1, z2⟩ := hto a b x y x1 y1 x2 y2
    refine ⟨_, z2, z1, ?_⟩
    rw [hfr _ (by omega), Nat.add_mul_mod_self_right, Nat.mod_eq_of_lt x2, x3, ok_bind, Nat.add_mul_div_right _ _ (by omega), Nat.div_eq_of_lt x2, Nat.zero_add, y3, ok_bind]
    rfl
  · rcases Nat.eq_zero_or_pos N with h0 | h0
    · refine .inr ?_
      show (T.num >>= fun t => uRem x t >>= _) = _
      rw [hA, ok_bind, h0]; rfl
    · rw [hfr _ h0]
      rcases t1.from (x % N) (Nat.lt_of_le_of_lt (Nat.mod_le _ _) hx) with ⟨a, ha, e⟩ | e
      · rcases s1.from (x / N) (Nat.lt_of_le_of_lt (Nat.div_le_self _ _) hx) with ⟨b, hb, e'⟩ | e'
        · exact .inl ⟨(a, b), ⟨ha, hb⟩, by rw [e, ok_bind, e']; rfl⟩
        · exact .inr (by rw [e, ok_bind, e']; rfl)
      · exact .inr (by rw [e]; rfl)
  · have h0 : 0 < N := Nat.pos_of_ne_zero fun e => by rw [e, Nat.zero_mul] at hx; omega
    obtain ⟨a, ha, a1, a2⟩ := t2 (x % N) (Nat.mod_lt _ h0)
    obtain ⟨b, hb, b1, b2⟩ := s2 (x / N) (Nat.div_lt_of_lt_mul hx)
    refine ⟨(a, b), ⟨ha, hb⟩, by rw [hfr _ h0, a1, ok_bind, b1]; rfl, ?_⟩
    rw [(hto a b _ _ a2 b2 (Nat.mod_lt _ h0) (Nat.div_lt_of_lt_mul hx)).2, Nat.mul_comm, Nat.mod_add_div]

theorem keeps_pairImpl {T S : Mach (Val β)} {HT HS : Val β → Prop} (hT : KeepsContract build T HT) (hS : KeepsContract build S HS) :
    KeepsContract build (pairImpl build T S) fun v => ∃ p : Val β × Val β, (HT p.1 ∧ HS p.2) ∧ v = .tup [p.1, p.2] := by
  refine keeps_map (fun p : Val β × Val β => Val.tup [p.1, p.2]) (keeps_pair hT hS) rfl (fun a _ => rfl) (fun x a _ e => ?_) (fun x e => ?_)
  · show ((Mach.pair build T S).fromDiscr x >>= _) = _; rw [e]; rfl
  · show ((Mach.pair build T S).fromDiscr x >>= _) = _; rw [e]; rfl

theorem tupleHas_concat (Hs : List (Val β → Prop)) (H : Val β → Prop) (v : Val β) :
    TupleHas (Hs ++ [H]) v ↔ ∃ vs w, v = .tup (vs ++ [w]) ∧ TupleHas Hs (.tup vs) ∧ H w := by
  constructor
  · rintro ⟨us, rfl, hl, h⟩
    rcases concat_cases us with rfl | ⟨vs, w, rfl⟩
    · simp at hl
    simp at hl
    refine ⟨vs, w, rfl, ⟨vs, rfl, hl, fun i u K hu hK => h i u K ?_ ?_⟩, h vs.length w H (by simp) (by simp [hl])⟩
    · rw [List.getElem?_append_left (List.getElem?_eq_some_iff.mp hu).1]; exact hu
    · rw [List.getElem?_append_left (List.getElem?_eq_some_iff.mp hK).1]; exact hK
  · rintro ⟨vs, w, rfl, ⟨_, e, hl, h⟩, hw⟩
    cases e
    refine ⟨_, rfl, by simp [hl], fun i u K hu hK => ?_⟩
    rcases Nat.lt_trichotomy i vs.length with hi | hi | hi
    · rw [List.getElem?_append_left hi] at hu
      rw [List.getElem?_append_left (by omega)] at hK
      exact h i u K hu hK
    · subst hi
      rw [List.getElem?_append_right (Nat.le_refl _)] at hu
      rw [hl, List.getElem?_append_right (Nat.le_refl _)] at hK
      simp at hu hK
      subst hu; subst hK; exact hw
    · rw [List.getElem?_eq_none (by simp; omega)] at hu; cases hu

theorem tupleHas_nil (v : Val β) : TupleHas [] v ↔ v = .tup [] := by
  constructor
  · rintro ⟨vs, rfl, hl, -⟩
    simp at hl
    subst hl; rfl
  · rintro rfl
    exact ⟨[], rfl, rfl, fun i w H h => by simp at h⟩

theorem tupleHas_one (H : Val β → Prop) (v : Val β) : TupleHas [H] v ↔ ∃ a, H a ∧ v = .tup [a] := by
  rw [show [H] = [] ++ [H] from rfl, tupleHas_concat]
  constructor
  · rintro ⟨vs, w, rfl, h, hw⟩
    cases (tupleHas_nil _).mp h
    exact ⟨w, hw, rfl⟩
  · rintro ⟨a, ha, rfl⟩
    exact ⟨[], a, rfl, (tupleHas_nil _).mpr rfl, ha⟩

theorem tupleHas_two (H K : Val β → Prop) (v : Val β) : TupleHas [H, K] v ↔ ∃ p : Val β × Val β, (H p.1 ∧ K p.2) ∧ v = .tup [p.1, p.2] := by
  rw [show [H, K] = [H] ++ [K] from rfl, tupleHas_concat]
  constructor
  · rintro ⟨vs, w, rfl, h, hw⟩
    obtain ⟨a, ha, e⟩ := (tupleHas_one _ _).mp h
    cases e
    exact ⟨(a, w), ⟨ha, hw⟩, rfl⟩
  · rintro ⟨⟨a, b⟩, ⟨ha, hb⟩, rfl⟩
    exact ⟨[a], b, rfl, (tupleHas_one _ _).mpr ⟨a, ha, rfl⟩, hb⟩

theorem keeps_step (name : Nat → String) {M T : Mach (Val β)} {Hs : List (Val β → Prop)} {H : Val β → Prop} (hM : KeepsContract build M (TupleHas Hs)) (hT : KeepsContract build T H) {m : Nat}
    (hm : Hs.length = m + 2) : KeepsContract build ((item name (m + 2)).impl build M T M T) (TupleHas (Hs ++ [H])) := by
  have h := keeps_map (m' := (item name (m + 2)).impl build M T M T)
    (fun p : Val β × Val β => match p.1 with | .tup vs => Val.tup (vs ++ [p.2]) | _ => .tup []) (keeps_pair hM hT) rfl ?_ ?_ ?_
  · refine keeps_congr h fun v => ?_
    rw [tupleHas_concat]
    constructor
    · rintro ⟨⟨a, b⟩, ⟨⟨vs, e, hl, hv⟩, hb⟩, rfl⟩
      dsimp only at e hb
      subst e
      exact ⟨vs, b, rfl, ⟨vs, rfl, hl, hv⟩, hb⟩
    · rintro ⟨vs, w, rfl, hv, hw⟩
      exact ⟨(.tup vs, w), ⟨hv, hw⟩, rfl⟩
  · rintro ⟨a, b⟩ ⟨⟨vs, e, hl, hv⟩, hb⟩
    dsimp only at e hb
    subst e
    dsimp only
    have hproj : project (vs ++ [b]) (List.range (m + 2)) = .ok vs := by
      rw [project_range _ _ (by simp; omega), List.take_left' (by omega)]
    have hlast : (vs ++ [b])[m + 2]? = some b := by
      rw [← hm, ← hl, List.getElem?_append_right (Nat.le_refl _)]; simp
    show (project (vs ++ [b]) (List.range (m + 2)) >>= fun ws => match (vs ++ [b])[m + 2]? with
      | some w => (pairImpl build M T).toDiscr (.tup [.tup ws, w])
      | none => illTyped) = _
    rw [hproj, ok_bind, hlast]
    rfl
  · rintro x ⟨a, b⟩ ⟨⟨vs, e, hl, hv⟩, hb⟩ hx
    dsimp only at e hb
    subst e
    dsimp only
    have hpi : (pairImpl build M T).fromDiscr x = .ok (.tup [.tup vs, b]) := by
      show ((Mach.pair build M T).fromDiscr x >>= fun r => pure (Val.tup [r.1, r.2])) = _
      rw [hx]; rfl
    unfold TupleItem.impl
    dsimp only
    rw [hpi, ok_bind]
    show (project vs (List.range (m + 2)) >>= fun us => pure (Val.tup (us ++ [b]))) = _
    rw [project_range _ _ (by omega), List.take_of_length_le (by omega), ok_bind]
    rfl
  · intro x hx
    unfold TupleItem.impl
    dsimp only
    have hpi : (pairImpl build M T).fromDiscr x = .error .badDiscr := by
      show ((Mach.pair build M T).fromDiscr x >>= fun r => pure (Val.tup [r.1, r.2])) = _
      rw [hx]; rfl
    rw [hpi]; rfl

theorem keeps_unit : KeepsContract build (unitImpl (β := β)) (TupleHas []) := by
  have h : KeepsContract build Mach.unit fun _ => True := LawfulMach.of good_unit unit_consec
  refine keeps_congr (keeps_map (m' := unitImpl (β := β)) (fun _ => Val.tup []) h rfl (fun _ _ => rfl) (fun x a _ e => ?_) (fun x e => ?_)) fun v => ?_
  · show (Mach.unit.fromDiscr x >>= _) = _; rw [e]; rfl
  · show (Mach.unit.fromDiscr x >>= _) = _; rw [e]; rfl
  · rw [tupleHas_nil]
    exact ⟨fun ⟨_, _, e⟩ => e, fun e => ⟨(), trivial, e⟩⟩

theorem keeps_one {T : Mach (Val β)} {H : Val β → Prop} (h : KeepsContract build T H) : KeepsContract build (tuple1Impl T) (TupleHas [H]) := by
  refine keeps_congr (keeps_map (m' := tuple1Impl T) (fun v => Val.tup [v]) h rfl (fun _ _ => rfl) (fun x a _ e => ?_) (fun x e => ?_)) fun v => (tupleHas_one _ _).symm
  · show (T.fromDiscr x >>= fun v => pure (Val.tup [v])) = _; rw [e]; rfl
  · show (T.fromDiscr x >>= fun v => pure (Val.tup [v])) = _; rw [e]; rfl

theorem keeps_tuple {name : Nat → String} {n : Nat} (hinj : ∀ i j, i < n → j < n → name i = name j → i = j) :
    (fuel : Nat) → (ts : List (Mach (Val β) × (Val β → Prop))) → (∀ t ∈ ts, KeepsContract build t.1 t.2) → (ts.length ≤ n ∨ ts.length ≤ 2) → ts.length ≤ fuel + 2 →
    ∃ M, findTuple build (items name n) fuel (ts.map (·.1)) = some M ∧ KeepsContract build M (TupleHas (ts.map (·.2)))
  | _, [], _, _, _ => ⟨unitImpl, by unfold findTuple; rfl, keeps_unit⟩
  | _, [p], h, _, _ => ⟨tuple1Impl p.1, by unfold findTuple; rfl, keeps_one (h p (by simp))⟩
  | _, [p, q], h, _, _ => ⟨pairImpl build p.1 q.1, by unfold findTuple; rfl,
      keeps_congr (keeps_pairImpl (h p (by simp)) (h q (by simp))) fun v => (tupleHas_two _ _ _).symm⟩
  | 0, _ :: _ :: _ :: _, _, _, h => by simp at h
  | fuel + 1, a :: b :: c :: rest, h, hn, hf => by
    obtain ⟨ps, p, e⟩ : ∃ ps p, a :: b :: c :: rest = ps ++ [p] := by
      rcases concat_cases (a :: b :: c :: rest) with e | e
      · cases e
      · exact e
    have hl : ps.length + 1 = rest.length + 3 := by
      have := congrArg List.length e
      simpa using this.symm
    rw [e] at h hn hf ⊢
    simp at hn hf
    obtain ⟨m, hm⟩ : ∃ m, ps.length = m + 2 := ⟨ps.length - 2, by omega⟩
    obtain ⟨M, hM, hS⟩ := keeps_tuple hinj fuel ps (fun q hq => h q (List.mem_append_left _ hq)) (by omega) (by omega)
    refine ⟨(item name (m + 2)).impl build M p.1 M p.1, ?_, ?_⟩
    · rw [List.map_append, List.map_singleton, findTuple_step hinj build fuel m _ _ (by simpa using hm) (by omega), hM]
      rfl
    · rw [List.map_append]
      exact keeps_step name hS (h p (by simp)) (by simpa using hm)

/-- **C84** (tuples): a tuple of at most 32 components whose impls keep the contract has an impl, and it keeps the contract: if its `NUM_VARIANTS` compiles, every tuple has a number below it from
which it is recovered, every number below it is that of a tuple, and `from_discr` of any number at all returns a tuple whose components are values of their types, in order, or panics. -/
theorem C84_tuple (build : Build) (ts : List (Mach (Val β) × (Val β → Prop))) (hlen : ts.length ≤ 32) (h : ∀ t ∈ ts, KeepsContract build t.1 t.2) :
    ∃ M, tupleOf build (ts.map (·.1)) = some M ∧ KeepsContract build M (TupleHas (ts.map (·.2))) := by
  obtain ⟨M, hM, hS⟩ := keeps_tuple (build := build) (n := 32) names_distinct ts.length ts h (Or.inl hlen) (by omega)
  exact ⟨M, by rw [tupleOf_eq, List.length_map]; exact hM, hS⟩

/-- **C84** (arrays): the same for `[T; n]` with `n ≤ 32`. -/
theorem C84_array (build : Build) (T : Mach (Val β)) (H : Val β → Prop) (n : Nat) (hn : n ≤ 32) (h : KeepsContract build T H) :
    ∃ M, arrayOf build true n T = some M ∧ KeepsContract build M (ArrayHas n H) := by
  rcases Nat.eq_zero_or_pos n with rfl | h0
  · refine ⟨emptyArrayImpl, rfl, fun k hk => ?_⟩
    cases hk
    have h0 : ArrayHas 0 H (.arr []) := ⟨[], rfl, rfl, nofun⟩
    refine ⟨⟨build.lt_usizeLim (by decide), ?_, fun x hx => .inl ⟨_, h0, rfl⟩⟩, fun x hx => ⟨_, h0, rfl, by rw [show x = 0 by omega]; rfl⟩⟩
    rintro _ ⟨vs, rfl, hl, -⟩
    simp at hl; subst hl
    exact ⟨0, rfl, by decide, rfl⟩
  · obtain ⟨M, hM, hS⟩ := keeps_tuple (build := build) (n := 32) names_distinct n (List.replicate n (T, H))
      (fun t ht => by rw [List.eq_of_mem_replicate ht]; exact h) (Or.inl (by simpa using hn)) (by simp)
    rw [List.map_replicate] at hM hS
    refine ⟨(aitem "A" n).impl build true M, ?_, ?_⟩
    · rw [arrayOf_eq, findArray_eq _ _ _ _ _ _ _ h0 hn, hM]; rfl
    have hk := keeps_map (m' := (aitem "A" n).impl build true M) (fun v => match v with | .tup vs => Val.arr vs | _ => .arr []) hS rfl ?_ ?_ ?_
    · refine keeps_congr hk fun v => ⟨?_, ?_⟩
      · rintro ⟨_, ⟨vs, rfl, hl, hv⟩, rfl⟩
        have hl : vs.length = n := by simpa using hl
        refine ⟨vs, rfl, hl, fun w hw => ?_⟩
        obtain ⟨i, hi, rfl⟩ := List.mem_iff_getElem.mp hw
        exact hv i _ H (List.getElem?_eq_getElem hi) (by rw [List.getElem?_replicate, if_pos (hl ▸ hi)])
      · rintro ⟨vs, rfl, hl, hv⟩
        refine ⟨.tup vs, ⟨vs, rfl, by simpa using hl, fun i w K hw hK => ?_⟩, rfl⟩
        rw [List.getElem?_replicate] at hK
        split at hK
        · cases hK; exact hv w (List.mem_of_getElem? hw)
        · cases hK
    · rintro _ ⟨vs, rfl, hl, -⟩
      have hl : vs.length = n := by simpa using hl
      show (moveAll build true n (List.range n).reverse (vs.map some) >>= fun ws => M.toDiscr (.tup ws)) = _
      have := moveAll_eq build n vs 0 (by omega)
      rw [hl] at this
      rw [show vs.map some = List.replicate 0 none ++ vs.map some from rfl, this, ok_bind]
    · rintro x _ ⟨vs, rfl, hl, -⟩ hx
      have hl : vs.length = n := by simpa using hl
      unfold ArrayItem.impl
      dsimp only
      rw [hx, ok_bind]
      show (project vs (List.range n) >>= fun ws => pure (Val.arr ws)) = _
      rw [project_range _ _ (by omega), List.take_of_length_le (by omega)]
      rfl
    · intro x hx
      unfold ArrayItem.impl
      dsimp only
      rw [hx]; rfl

/-! ## Tuples and arrays of any types -/

open Classical in
/-- An impl for the values with `P` only. -/
noncomputable def EnumLike.Mach.restrict (m : Mach γ) (P : γ → Prop) : Mach {v // P v} where
  num := m.num
  toDiscr a := m.toDiscr a.1
  fromDiscr x := do
    let v ← m.fromDiscr x
    if h : P v then .ok ⟨v, h⟩ else illTyped

theorem keeps_restrict {m : Mach γ} {P : γ → Prop} (h : KeepsContract build m P) : LawfulMach build (m.restrict P) := by
  classical
  intro n hn
  obtain ⟨h1, h2⟩ := h n hn
  have hf : ∀ x a (ha : P a), m.fromDiscr x = .ok a → (m.restrict P).fromDiscr x = .ok ⟨a, ha⟩ := fun x a ha e => by
    show (m.fromDiscr x >>= fun v => if h : P v then Except.ok (⟨v, h⟩ : {v // P v}) else illTyped) = _
    rw [e, ok_bind, dif_pos ha]
  refine ⟨⟨h1.fits, fun a _ => ?_, fun x hx => ?_⟩, fun x hx => ?_⟩
  · obtain ⟨k, k1, k2, k3⟩ := h1.to a.1 a.2
    exact ⟨k, k1, k2, hf _ _ a.2 k3⟩
  · rcases h1.from x hx with ⟨a, ha, k⟩ | k
    · exact .inl ⟨_, trivial, hf x a ha k⟩
    · refine .inr ?_
      show (m.fromDiscr x >>= fun v => if h : P v then Except.ok (⟨v, h⟩ : {v // P v}) else illTyped) = _
      rw [k]; rfl
  · obtain ⟨a, ha, k1, k2⟩ := h2 x hx
    exact ⟨⟨a, ha⟩, trivial, hf x a ha k1, k2⟩

/-- The values of all types: `I t` is the type with the number `t` and its impl. -/
abbrev Leaf (I : Macro.Interp) := (t : Nat) × (I t).1

/-- The impl of the type `t` on all values. -/
def leafMach (I : Macro.Interp) (t : Nat) : Mach (Val (Leaf I)) where
  num := (I t).2.num
  toDiscr
    | .leaf ⟨s, a⟩ => if h : s = t then (I t).2.toDiscr (h ▸ a) else illTyped
    | _ => illTyped
  fromDiscr x := do return .leaf ⟨t, ← (I t).2.fromDiscr x⟩

/-- The values of the type `t`. -/
def IsLeaf (I : Macro.Interp) (t : Nat) (v : Val (Leaf I)) : Prop := ∃ a, v = .leaf ⟨t, a⟩

theorem keeps_leaf {I : Macro.Interp} {t : Nat} (h : LawfulMach build (I t).2) : KeepsContract build (leafMach I t) (IsLeaf I t) := by
  refine keeps_congr (keeps_map (m' := leafMach I t) (fun a => Val.leaf ⟨t, a⟩) (show KeepsContract build (I t).2 fun _ => True from h) rfl (fun a _ => ?_) (fun x a _ e => ?_) (fun x e => ?_)) fun v => ?_
  · show (if h : t = t then (I t).2.toDiscr (h ▸ a) else illTyped) = _
    rw [dif_pos rfl]
  · show ((I t).2.fromDiscr x >>= fun a => pure (Val.leaf (⟨t, a⟩ : Leaf I))) = _; rw [e]; rfl
  · show ((I t).2.fromDiscr x >>= fun a => pure (Val.leaf (⟨t, a⟩ : Leaf I))) = _; rw [e]; rfl
  · exact ⟨fun ⟨a, _, e⟩ => ⟨a, e⟩, fun ⟨a, e⟩ => ⟨a, trivial, e⟩⟩

/-- The values of the tuple type with components of the types `ts`. -/
abbrev TupleVal (I : Macro.Interp) (ts : List Nat) := {v : Val (Leaf I) // TupleHas (ts.map (IsLeaf I)) v}

/-- The values of `[t; n]`. -/
abbrev ArrayVal (I : Macro.Interp) (t n : Nat) := {v : Val (Leaf I) // ArrayHas n (IsLeaf I t) v}

/-- **C84** Tuples and arrays of any types with lawful impls have lawful impls. -/
theorem C84_lawful (build : Build) (I : Macro.Interp) (hI : ∀ t, LawfulMach build (I t).2) :
    (∀ ts : List Nat, ts.length ≤ 32 → ∃ M, tupleOf build (ts.map (leafMach I)) = some M ∧ LawfulMach build (Mach.restrict M (TupleHas (ts.map (IsLeaf I))))) ∧
    ∀ t n, n ≤ 32 → ∃ M, arrayOf build true n (leafMach I t) = some M ∧ LawfulMach build (Mach.restrict M (ArrayHas n (IsLeaf I t))) := by
  refine ⟨fun ts hl => ?_, fun t n hn => ?_⟩
  · obtain ⟨M, h1, h2⟩ := C84_tuple build (ts.map fun t => (leafMach I t, IsLeaf I t)) (by simpa using hl)
      (fun p hp => by obtain ⟨t, -, rfl⟩ := List.mem_map.mp hp; exact keeps_leaf (hI t))
    rw [List.map_map] at h1 h2
    exact ⟨M, h1, keeps_restrict h2⟩
  · obtain ⟨M, h1, h2⟩ := C84_array build (leafMach I t) (IsLeaf I t) n hn (keeps_leaf (hI t))
    exact ⟨M, h1, keeps_restrict h2⟩

/-! ## A concrete case -/

/-- The type 0 is `Option<bool>`, all others are `bool`. -/
def exTypes : Macro.Interp
  | 0 => ⟨Option Bool, Mach.option debug64 Mach.bool⟩
  | _ + 1 => ⟨Bool, Mach.bool⟩

theorem exTypes_lawful (t : Nat) : LawfulMach debug64 (exTypes t).2 := by
  cases t with
  | zero => exact LawfulMach.of (good_option good_bool) (option_consec bool_consec)
  | succ t => exact LawfulMach.of good_bool bool_consec

/-- `(bool, Option<bool>, bool)` has 12 variants, so the statement is not empty: … -/
example : (tupleOf debug64 ([1, 0, 2].map (leafMach exTypes))).map (·.num) = some (.ok 12) := by decide +kernel

/-- … its impl is lawful, … -/
example : ∃ M, tupleOf debug64 ([1, 0, 2].map (leafMach exTypes)) = some M ∧ M.num = .ok 12 ∧ LawfulMach debug64 (Mach.restrict M (TupleHas ([1, 0, 2].map (IsLeaf exTypes)))) := by
  obtain ⟨M, h1, h2⟩ := (C84_lawful debug64 exTypes exTypes_lawful).1 [1, 0, 2] (by decide)
  refine ⟨M, h1, ?_, h2⟩
  have : (tupleOf debug64 ([1, 0, 2].map (leafMach exTypes))).map (·.num) = some (.ok 12) := by decide +kernel
  rw [h1] at this
  exact Option.some.inj this

/-- … and `(true, None, true)` is one of its values. -/
example : TupleHas ([1, 0, 2].map (IsLeaf exTypes)) (.tup [.leaf ⟨1, true⟩, .leaf ⟨0, none⟩, .leaf ⟨2, true⟩]) := by
  refine ⟨_, rfl, rfl, fun i w H hw hH => ?_⟩
  rcases i with _ | _ | _ | i
  · cases hw; cases hH; exact ⟨_, rfl⟩
  · cases hw; cases hH; exact ⟨_, rfl⟩
  · cases hw; cases hH; exact ⟨_, rfl⟩
  · cases hw

end EnumVecModel
