import Verif.Lemmas.MacroStruct

/-! # The arms of derived impls of enums -/

namespace EnumVecModel
namespace Macro

open EnumLike

variable {I : Interp} (build : Build)

/-- A variant in the model. -/
@[reducible] def mv (I : Interp) (v : Variant) : Mach.MVariant := ⟨comps I v.fields.decl, v.discriminant⟩

/-- The variants in the model. -/
@[reducible] def mvs (I : Interp) : List Variant → List Mach.MVariant
  | [] => []
  | v :: vs => mv I v :: mvs I vs

/-- The value of the model as a named constructor with named fields. -/
def encE (I : Interp) : (vs : List Variant) → Derive.EnumVal (Mach.pureVars (mvs I vs)) → Obj I
  | v :: _, .inl x => ⟨v.ident, encF I v.fields.decl x⟩
  | _ :: vs, .inr y => encE I vs y

/-- Data variants have fields: the macro accepts no others. -/
def NoEmpty (vs : List Variant) : Prop := ∀ v ∈ vs, v.fields.decl = [] → v.fields = .unit

theorem mv_isUnit {v : Variant} (h : v.fields.decl = [] → v.fields = .unit) : (mv I v).isUnit = decide (v.fields = .unit) := by
  rcases hd : v.fields.decl with _ | ⟨d, ds⟩
  · rw [decide_eq_true (h hd)]; simp only [mv, hd]; rfl
  · have : v.fields ≠ .unit := fun hu => by rw [hu] at hd; cases hd
    rw [decide_eq_false this]; simp only [mv, hd]; rfl

theorem encE_ctor_mem : ∀ (vs : List Variant) (y : Derive.EnumVal (Mach.pureVars (mvs I vs))), (encE I vs y).ctor ∈ vs.map (·.ident)
  | v :: _, .inl x => by simp [encE]
  | _ :: vs, .inr y => by
    have := encE_ctor_mem vs y
    simp only [encE, List.map_cons, List.mem_cons]; exact Or.inr this

/-- The value is of a unit variant. -/
def isUnitVal (I : Interp) : (vs : List Variant) → Derive.EnumVal (Mach.pureVars (mvs I vs)) → Bool
  | v :: _, .inl _ => decide (v.fields = .unit)
  | _ :: vs, .inr y => isUnitVal I vs y

/-! ### the arms -/

/-- The arms of the unit variants, numbered from `u`. -/
def unitArmsFrom : Nat → List Variant → List MatchArm
  | _, [] => []
  | u, v :: vs => if v.fields = .unit then MatchArm.unit v.ident u :: unitArmsFrom (u + 1) vs else unitArmsFrom u vs

/-- The arms of the data variants. -/
def dataArmsFrom (off : Nat) : Toks → List Variant → List MatchArm
  | _, [] => []
  | rh, v :: vs =>
    if v.fields = .unit then dataArmsFrom off rh vs
    else (MatchArm.fromFields v.ident v.fields off rh).1 :: dataArmsFrom off (MatchArm.fromFields v.ident v.fields off rh).2 vs

theorem unitArms_eq (vs : List Variant) : unitArms vs = unitArmsFrom 0 vs := by
  have key : ∀ (vs : List Variant) (x : List MatchArm), vs.foldl (fun x v => match v.fields with
      | .unit => x ++ [MatchArm.unit v.ident x.length]
      | _ => x) x = x ++ unitArmsFrom x.length vs := by
    intro vs
    induction vs with
    | nil => intro x; simp [unitArmsFrom]
    | cons v vs ih =>
      intro x
      rw [List.foldl_cons, ih]
      cases hf : v.fields <;> simp [unitArmsFrom, hf]
  exact (key vs []).trans rfl

theorem unitArmsFrom_length : ∀ (u : Nat) (vs : List Variant), (unitArmsFrom u vs).length = (vs.filter fun v => decide (v.fields = .unit)).length
  | _, [] => rfl
  | u, v :: vs => by
    unfold unitArmsFrom
    by_cases h : v.fields = .unit
    · rw [if_pos h, List.length_cons, unitArmsFrom_length (u + 1) vs]; simp [h]
    · rw [if_neg h, unitArmsFrom_length u vs]; simp [h]

theorem filter_length_le {α : Type} (p : α → Bool) (l : List α) : (l.filter p).length ≤ l.length := List.length_filter_le _ _

theorem units_eq : ∀ (vs : List Variant), NoEmpty vs → Mach.units (mvs I vs) = (vs.filter fun v => decide (v.fields = .unit)).length
  | [], _ => rfl
  | v :: vs, h => by
    have ih := units_eq vs fun w hw => h w (by simp [hw])
    unfold Mach.units at ih ⊢
    have hu := mv_isUnit (I := I) (h v (by simp))
    by_cases hf : v.fields = .unit
    · have e : (mv I v).isUnit = true := by rw [hu]; simpa using hf
      simp only [mvs, List.filter_cons, e, if_true, List.length_cons, ih, hf, decide_true]
    · have e : (mv I v).isUnit = false := by rw [hu]; simpa using hf
      simp only [mvs, List.filter_cons, e, hf, decide_false]
      simpa using ih

/-- The body of the second loop of `all_variants_of`. -/
def dataStep (off : Nat) : Option (List MatchArm × Toks) → Variant → Option (List MatchArm × Toks) := fun st v => do
  let (x, rangeHigh) ← st
  match v.fields with
  | .unnamed [] => none
  | .named [] => none
  | .unit => some (x, rangeHigh)
  | fields =>
    let (m, rangeHigh) := MatchArm.fromFields v.ident fields off rangeHigh
    some (x ++ [m], rangeHigh)

theorem dataStep_none (off : Nat) : ∀ vs : List Variant, vs.foldl (dataStep off) none = none
  | [] => rfl
  | _ :: vs => dataStep_none off vs

theorem dataStep_eq (off : Nat) : ∀ (vs : List Variant), NoEmpty vs → ∀ (x : List MatchArm) (rh : Toks),
    (vs.foldl (dataStep off) (some (x, rh))).map (·.1) = some (x ++ dataArmsFrom off rh vs)
  | [], _, x, rh => by simp [dataArmsFrom]
  | ⟨ident, fields, disc⟩ :: vs, h, x, rh => by
    have h' : NoEmpty vs := fun w hw => h w (by simp [hw])
    have hv := h ⟨ident, fields, disc⟩ (by simp)
    rw [List.foldl_cons]
    cases fields with
    | unit =>
      have := dataStep_eq off vs h' x rh
      simpa [dataStep, dataArmsFrom] using this
    | named fs =>
      cases fs with
      | nil => cases hv rfl
      | cons f fs =>
        have := dataStep_eq off vs h' (x ++ [(MatchArm.fromFields ident (.named (f :: fs)) off rh).1]) (MatchArm.fromFields ident (.named (f :: fs)) off rh).2
        simpa [dataStep, dataArmsFrom] using this
    | unnamed ts =>
      cases ts with
      | nil => cases hv rfl
      | cons t ts =>
        have := dataStep_eq off vs h' (x ++ [(MatchArm.fromFields ident (.unnamed (t :: ts)) off rh).1]) (MatchArm.fromFields ident (.unnamed (t :: ts)) off rh).2
        simpa [dataStep, dataArmsFrom] using this

theorem dataStep_fail (off : Nat) : ∀ (vs : List Variant), ¬ NoEmpty vs → ∀ (x : List MatchArm) (rh : Toks), vs.foldl (dataStep off) (some (x, rh)) = none
  | [], h, x, rh => absurd (fun v hv => by simp at hv) h
  | ⟨ident, fields, disc⟩ :: vs, h, x, rh => by
    have tail : ∀ hv : (fields.decl = [] → fields = .unit), ¬ NoEmpty vs := fun hv h' => h fun w hw => by
      rcases List.mem_cons.mp hw with rfl | hw
      · exact hv
      · exact h' w hw
    rw [List.foldl_cons]
    cases fields with
    | unit => exact dataStep_fail off vs (tail fun _ => rfl) x rh
    | named fs =>
      cases fs with
      | nil => exact dataStep_none off vs
      | cons f fs => exact dataStep_fail off vs (tail (by simp [Fields.decl])) _ _
    | unnamed ts =>
      cases ts with
      | nil => exact dataStep_none off vs
      | cons t ts => exact dataStep_fail off vs (tail (by simp [Fields.decl])) _ _

theorem allVariantsOf_fold (vs : List Variant) :
    allVariantsOf vs = (vs.foldl (dataStep (unitArmsFrom 0 vs).length) (some (unitArmsFrom 0 vs, [.int 0]))).map (·.1) := by
  rw [← unitArms_eq]; rfl

theorem allVariantsOf_eq (vs : List Variant) (h : NoEmpty vs) :
    allVariantsOf vs = some (unitArmsFrom 0 vs ++ dataArmsFrom (unitArmsFrom 0 vs).length [.int 0] vs) := by
  rw [allVariantsOf_fold, dataStep_eq _ vs h]

/-- An enum with an empty data variant is rejected. -/
theorem allVariantsOf_none (vs : List Variant) (h : ¬ NoEmpty vs) : allVariantsOf vs = none := by
  rw [allVariantsOf_fold, dataStep_fail _ vs h]; rfl

theorem fromFields_eq (name : List Char) {fields : Fields} (off : Nat) (rh : Toks) :
    (MatchArm.fromFields name fields off rh).1 = ⟨name, off, fields.decl.length, nameToks fields.decl, typeToks fields.decl, rh⟩ := by
  cases fields with
  | unit => rfl
  | named fs => simp only [MatchArm.fromFields, nameToks_named, typeToks_named]; simp [Fields.decl]
  | unnamed ts => simp only [MatchArm.fromFields, nameToks_unnamed, typeToks_unnamed]; simp [Fields.decl]

theorem fromFields_next (name : List Char) {fields : Fields} (hne : fields.decl ≠ []) (off : Nat) (rh : Toks) :
    (MatchArm.fromFields name fields off rh).2 = rh ++ [.plus] ++ totalNumVariantsProduct (typeToks fields.decl) := by
  have e : (MatchArm.fromFields name fields off rh).2 = (MatchArm.fromFields name fields off rh).1.printNextRangeHigh := rfl
  rw [e, fromFields_eq]
  unfold MatchArm.printNextRangeHigh MatchArm.printNumVariants
  dsimp only
  rw [if_neg (by simpa using hne)]

/-! ### paths -/

theorem parsePath_variant (a b : List Char) (r : Toks) : parsePath (.id a :: .coloncolon :: .id b :: r) = some (.variant a b, r) := rfl

theorem ctor_variant {name : List Char} {all : List Variant} (hn : (all.map (·.ident)).Nodup) {v : Variant} (hv : v ∈ all) :
    (Input.enum name all).ctor (.variant name v.ident) = some (v.ident, v.fields) := by
  have key : ∀ all : List Variant, (all.map (·.ident)).Nodup → v ∈ all → all.find? (fun w => w.ident = v.ident) = some v := by
    intro all
    induction all with
    | nil => intro _ h; simp at h
    | cons w all ih =>
      intro hn h
      simp only [List.map_cons, List.nodup_cons] at hn
      rcases List.mem_cons.mp h with rfl | h
      · simp
      · have : w.ident ≠ v.ident := fun he => hn.1 (he ▸ List.mem_map.mpr ⟨v, h, rfl⟩)
        rw [List.find?_cons, decide_eq_false this]
        exact ih hn.2 h
  simp [Input.ctor, key all hn hv]


end Macro
end EnumVecModel
