import Verif.Props.SourceFull

/-!
# C92: at most one impl of `EnumLike` for each tuple and array type
-/

namespace EnumVecModel
namespace Source
namespace Mac
open EnumLike (Mach)
open EnumLike.Rules hiding Val

variable {β : Type}

/-- An item is an impl of the tuple types with as many components as its header has, and of no others. -/
theorem textTuple_isSome (it : TupleItem) (build : Build) (F : List (Mach (EnumLike.Rules.Val β)) → Option (Mach (EnumLike.Rules.Val β))) (Ts : List (Mach (EnumLike.Rules.Val β))) :
    (textTuple build F (tupleText it) Ts).isSome = (it.self_.length == Ts.length) := by
  by_cases h : it.self_.length = Ts.length
  · obtain ⟨b, e1, e2⟩ := afterGt_tuple it
    unfold textTuple
    rw [e1]
    dsimp only
    rw [if_pos ⟨rfl, rfl⟩, pieces_commas ident (fun _ => rfl) (by simp [ident]), paramNames, e2]
    dsimp only
    rw [if_pos (by simp [h])]
    simp [h]
  · rw [textTuple_none it h]; simp [h]

theorem textArray_isSome (it : ArrayItem) (build : Build) (uninit : Bool) (F : List (Mach (EnumLike.Rules.Val β)) → Option (Mach (EnumLike.Rules.Val β))) (n : Nat) (T : Mach (EnumLike.Rules.Val β)) :
    (textArray build uninit F (arrayText it) n T).isSome = (it.size == n) := by
  by_cases h : it.size = n
  · obtain ⟨b, e1, e2⟩ := afterGt_array it
    unfold textArray
    rw [e1]
    show (if (word% "EnumLike" : Word) = word% "EnumLike" ∧ (word% "for" : Word) = word% "for" ∧ n = it.size then _ else _ : Option _).isSome = _
    rw [if_pos ⟨rfl, rfl, h.symm⟩, e2]
    simp [h]
  · rw [textArray_none it h]; simp [h]

theorem filter_map_length {γ δ : Type} (f : γ → δ) (p : δ → Bool) (q : γ → Bool) (h : ∀ a, p (f a) = q a) (l : List γ) : ((l.map f).filter p).length = (l.filter q).length := by
  rw [List.filter_map, List.length_map]
  congr 1
  exact congrArg (List.filter · l) (funext h)

/-- **C92** (the crate): let `tOut` and `aOut` be what the two calls in the crate expand to. For each tuple type with three to 32 components, and each array type with one to 32 elements, exactly one item of these texts is
an impl; for all other tuple and array types none is, so that there is no overlap with the impls of `()`, `(T,)`, `(T, S)` and `[T; 0]` in the crate. -/
theorem C92_coherent {tOut aOut : TTs} (ht : Expands macros c_tuple_impls tOut) (ha : Expands macros c_array_impls aOut) (build : Build)
    (F : List (Mach (EnumLike.Rules.Val β)) → Option (Mach (EnumLike.Rules.Val β))) :
    (∀ Ts, ((itemsOf tOut).filter fun it => (textTuple build F it Ts).isSome).length = if 3 ≤ Ts.length ∧ Ts.length ≤ 32 then 1 else 0) ∧
    (∀ uninit n T, ((itemsOf aOut).filter fun it => (textArray build uninit F it n T).isSome).length = if 1 ≤ n ∧ n ≤ 32 then 1 else 0) := by
  obtain ⟨ts, h1, rfl⟩ := (C85_crate.1 _).mp ht
  obtain ⟨as, h2, rfl⟩ := (C85_crate.2 _).mp ha
  rw [tupleItems_eq] at h1
  obtain rfl := Option.some.inj h1
  rw [arrayItems_eq] at h2
  obtain rfl := Option.some.inj h2
  rw [itemsOf_each itemsOf_tuple, itemsOf_each itemsOf_array]
  constructor
  · intro Ts
    rw [filter_map_length tupleText _ (fun it => it.self_.length == Ts.length) fun it => textTuple_isSome it build F Ts]
    split
    · next h => rw [filter_one _ 32 _ h.1 h.2]; rfl
    · next h => rw [filter_none _ 32 _ (by omega)]; rfl
  · intro uninit n T
    rw [filter_map_length arrayText _ (fun it => it.size == n) fun it => textArray_isSome it build uninit F n T]
    split
    · next h => rw [afilter_one _ 32 _ h.1 h.2]; rfl
    · next h =>
      by_cases h0 : n = 0
      · subst h0
        rw [show ((aitems "A" 32).filter fun it => it.size == 0) = [] from by decide +kernel]; rfl
      · rw [afilter_none _ 32 _ (by omega)]; rfl

theorem only_some {γ δ : Type} {f : γ → Option δ} {b : δ} : {l : List γ} → only (l.filterMap f) = some b → (l.filter fun a => (f a).isSome).length = 1
  | [], h => by cases h
  | a :: l, h => by
    cases e : f a with
    | none =>
      rw [List.filterMap_cons, e] at h
      rw [List.filter_cons_of_neg (by simp [e])]
      exact only_some h
    | some c =>
      rw [List.filterMap_cons, e] at h
      rw [List.filter_cons_of_pos (by simp [e]), List.length_cons]
      have : l.filterMap f = [] := by
        cases h' : l.filterMap f with
        | nil => rfl
        | cons d ds => rw [h'] at h; cases h
      have h' : (l.filter fun a => (f a).isSome) = [] := by
        rw [List.filter_eq_nil_iff]
        intro x hx
        rw [List.filterMap_eq_nil_iff.mp this x hx]; simp
      rw [h']; rfl

/-- **C92** (any texts): whatever the two calls expanded to, a tuple type with three or more components has an impl only if exactly one item of the text is an impl of it, and so has an array type with one element or more.
Overlapping impls are rejected, not chosen among. -/
theorem C92_overlap {build : Build} {tOut aOut : TTs} :
    (∀ (Ts : List (Mach (EnumLike.Rules.Val β))) m, 3 ≤ Ts.length → tupleIn build tOut Ts = some m →
      ((itemsOf tOut).filter fun it => (textTuple build (lookTuple build (itemsOf tOut) (Ts.length - 1)) it Ts).isSome).length = 1) ∧
    (∀ uninit n (T : Mach (EnumLike.Rules.Val β)) m, n ≠ 0 → arrayIn build uninit tOut aOut n T = some m →
      ((itemsOf aOut).filter fun it => (textArray build uninit (tupleIn build tOut) it n T).isSome).length = 1) := by
  constructor
  · intro Ts m h3 h
    obtain ⟨k, hk⟩ : ∃ k, Ts.length = k + 1 := ⟨Ts.length - 1, by omega⟩
    unfold tupleIn at h
    rw [hk, lookTuple_succ _ _ _ _ h3] at h
    rw [hk]
    exact only_some h
  · intro uninit n T m h0 h
    unfold arrayIn at h
    rw [if_neg h0] at h
    exact only_some h

/-- The text with the item for triples once: one impl; twice: two, so none. -/
example (T : Mach (EnumLike.Rules.Val Unit)) :
    let one := tupleText (item (fun i => "A" ++ toString i) 2)
    (tupleIn debug64 one [T, T, T]).isSome = true ∧ ((itemsOf one).filter fun it => (textTuple debug64 (fun _ => none) it [T, T, T]).isSome).length = 1 ∧
    tupleIn debug64 (one ++ one) [T, T, T] = none ∧ ((itemsOf (one ++ one)).filter fun it => (textTuple debug64 (fun _ => none) it [T, T, T]).isSome).length = 2 := ⟨rfl, rfl, rfl, rfl⟩

end Mac
end Source

/-- The hypotheses of the first theorem hold for the calls in the crate. -/
example : ∃ tOut aOut, Source.Mac.Expands Source.Mac.macros Source.Mac.c_tuple_impls tOut ∧ Source.Mac.Expands Source.Mac.macros Source.Mac.c_array_impls aOut := exExpands

end EnumVecModel
