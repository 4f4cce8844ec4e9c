import Verif.Lemmas.MacroEnum
import Verif.Props.EnumLike
import Verif.Props.Machine

/-! # What the derived impls compute -/

namespace EnumVecModel
namespace Macro

open EnumLike

variable {I : Interp} {num : Nat → Nat} {build : Build}

/-! ### values -/

theorem hasFields_iff : ∀ (ds : List (Tok × Nat)) (fs : List (Tok × FieldVal I)), HasFields ds fs ↔ ∃ x, encF I ds x = fs
  | [], [] => ⟨fun _ => ⟨(), rfl⟩, fun _ => trivial⟩
  | [], _ :: _ => ⟨fun h => h.elim, fun ⟨_, h⟩ => by cases h⟩
  | _ :: _, [] => ⟨fun h => h.elim, fun ⟨_, h⟩ => by cases h⟩
  | (f, t) :: ds, (g, ⟨t', v⟩) :: fs => by
    constructor
    · rintro ⟨rfl, h2, h3⟩
      replace h2 : t' = t := h2
      subst h2
      obtain ⟨x, hx⟩ := (hasFields_iff ds fs).mp h3
      exact ⟨(v, x), by simp [encF, hx]⟩
    · rintro ⟨x, hx⟩
      simp only [encF, List.cons.injEq, Prod.mk.injEq] at hx
      obtain ⟨⟨rfl, h2⟩, h3⟩ := hx
      have h4 := (Sigma.mk.inj h2).1
      exact ⟨rfl, h4.symm, (hasFields_iff ds fs).mpr ⟨x.2, h3⟩⟩

theorem struct_has (name : List Char) (fields : Fields) (o : Obj I) :
    (Input.struct name fields).Has o ↔ ∃ x, (⟨name, encF I fields.decl x⟩ : Obj I) = o := by
  rcases o with ⟨c, fs⟩
  show (c = name ∧ HasFields fields.decl fs) ↔ _
  rw [hasFields_iff]
  constructor
  · rintro ⟨rfl, x, rfl⟩; exact ⟨x, rfl⟩
  · rintro ⟨x, hx⟩; cases hx; exact ⟨rfl, x, rfl⟩

theorem enum_has (name : List Char) : ∀ (vs : List Variant) (o : Obj I), (Input.enum name vs).Has o ↔ ∃ y, encE I vs y = o
  | [], o => ⟨fun ⟨_, h, _⟩ => by simp at h, fun ⟨y, _⟩ => (nomatch y)⟩
  | v :: vs, o => by
    have ih := enum_has name vs o
    rcases o with ⟨c, fs⟩
    constructor
    · rintro ⟨w, hw, h1, h2⟩
      rcases List.mem_cons.mp hw with rfl | hw
      · obtain ⟨x, hx⟩ := (hasFields_iff _ _).mp h2
        refine ⟨.inl x, ?_⟩
        show (⟨w.ident, encF I w.fields.decl x⟩ : Obj I) = _
        dsimp only at h1 hx
        rw [h1, hx]
      · obtain ⟨y, hy⟩ := ih.mp ⟨w, hw, h1, h2⟩
        exact ⟨.inr y, hy⟩
    · rintro ⟨x | y, h⟩
      · replace h : (⟨v.ident, encF I v.fields.decl x⟩ : Obj I) = ⟨c, fs⟩ := h
        cases h
        exact ⟨v, by simp, rfl, (hasFields_iff _ _).mpr ⟨x, rfl⟩⟩
      · obtain ⟨w, hw, h'⟩ := ih.mpr ⟨y, h⟩
        exact ⟨w, by simp [hw], h'⟩

/-! ### the impls of the fields -/

theorem fieldImpl (h : FieldImpls build I num) (t : Nat) :
    (toPure (I t).2).num = num t ∧ (toPure (I t).2).Contract ∧ Refines build (I t).2 (toPure (I t).2) := by
  obtain ⟨h1, h2, h3, h4⟩ := h t
  have hnum : (toPure (I t).2).num = num t := by simp [toPure, h1]
  have hto : ∀ a, (I t).2.toDiscr a = .ok ((toPure (I t).2).toDiscr a) := fun a => by
    obtain ⟨k, hk, -⟩ := h3 a trivial
    simp [toPure, hk]
  refine ⟨hnum, ⟨fun a => ?_, fun a => ?_⟩, ⟨?_, ?_, hto, fun x hx => ?_⟩⟩
  · obtain ⟨k, hk1, hk2, -⟩ := h3 a trivial
    rw [hnum]; simpa [toPure, hk1] using hk2
  · obtain ⟨k, hk1, -, hk2⟩ := h3 a trivial
    have : (toPure (I t).2).toDiscr a = k := by simp [toPure, hk1]
    rw [this]; simp [toPure, hk2]
  · rw [h1, hnum]
  · rw [hnum]; exact h2
  · rcases h4 x hx with ⟨a, -, ha⟩ | he
    · simp [toPure, ha]
    · simp [toPure, he]

theorem fieldOnto (h : FieldImpls build I num) (ho : ∀ t, Onto (num t) (fun _ => True) (I t).2.toDiscr (I t).2.fromDiscr) (t : Nat) :
    (toPure (I t).2).Consecutive := by
  intro x hx
  rw [(fieldImpl h t).1] at hx
  obtain ⟨a, -, h1, h2⟩ := ho t x hx
  exact ⟨a, by simp [toPure, h1], by simp [toPure, h2]⟩


/-- The impls of the components. -/
def GoodBase (build : Build) : (α : Type) → EnumLike α → Mach α → Prop := fun _ E m => E.Contract ∧ Refines build m E

theorem comps_mem {ds : List (Tok × Nat)} {A : (α : Type) × EnumLike α × Mach α} (h : A ∈ comps I ds) : ∃ t, A = ⟨(I t).1, toPure (I t).2, (I t).2⟩ := by
  induction ds with
  | nil => simp [comps] at h
  | cons d ds ih =>
    rcases List.mem_cons.mp h with rfl | h
    · exact ⟨d.2, rfl⟩
    · exact ih h

theorem pure_mem {cs : Mach.MComps} {A : (α : Type) × EnumLike α} (h : A ∈ Mach.pure cs) : ∃ B ∈ cs, A = ⟨B.1, B.2.1⟩ := by
  induction cs with
  | nil => simp [Mach.pure] at h
  | cons B cs ih =>
    rcases List.mem_cons.mp h with rfl | h
    · exact ⟨B, by simp, rfl⟩
    · obtain ⟨C, hC, e⟩ := ih h
      exact ⟨C, by simp [hC], e⟩

theorem mvs_mem {vs : List Variant} {m : Mach.MVariant} (h : m ∈ mvs I vs) : ∃ v ∈ vs, m = mv I v := by
  induction vs with
  | nil => simp at h
  | cons v vs ih =>
    rcases List.mem_cons.mp h with rfl | h
    · exact ⟨v, by simp, rfl⟩
    · obtain ⟨w, hw, e⟩ := ih h
      exact ⟨w, by simp [hw], e⟩

theorem pureVars_mem {ms : List Mach.MVariant} {v : Derive.Variant} (h : v ∈ Mach.pureVars ms) : ∃ m ∈ ms, v = ⟨Mach.pure m.fields, m.explicit⟩ := by
  induction ms with
  | nil => simp [Mach.pureVars] at h
  | cons m ms ih =>
    rcases List.mem_cons.mp h with rfl | h
    · exact ⟨m, by simp, rfl⟩
    · obtain ⟨n, hn, e⟩ := ih h
      exact ⟨n, by simp [hn], e⟩

/-! ### numbers -/

theorem fields_size (h : FieldImpls build I num) : ∀ ds : List (Tok × Nat), ((Mach.pure (comps I ds)).map fun A => A.2.num).prod = (ds.map fun d => num d.2).prod
  | [] => rfl
  | (_, t) :: ds => by
    have := fields_size h ds
    simp only [comps, Mach.pure, List.map_cons, List.prod_cons, (fieldImpl h t).1, this]

theorem fields_digits (h : FieldImpls build I num) {code : FieldVal I → Nat} (hc : ∀ v : FieldVal I, (I v.1).2.toDiscr v.2 = .ok (code v)) :
    ∀ (ds : List (Tok × Nat)) (x : Derive.Fields (Mach.pure (comps I ds))),
      fieldDigits (Mach.pure (comps I ds)) x = (encF I ds x).map fun f => (num f.2.1, code f.2)
  | [], _ => rfl
  | (f, t) :: ds, x => by
    have e : (toPure (I t).2).toDiscr x.1 = code ⟨t, x.1⟩ := by
      have := hc ⟨t, x.1⟩
      dsimp only at this
      simp [toPure, this]
    show ((toPure (I t).2).num, (toPure (I t).2).toDiscr x.1) :: fieldDigits (Mach.pure (comps I ds)) x.2 = _
    rw [fields_digits h hc ds x.2, (fieldImpl h t).1, e]
    rfl

theorem variant_size (h : FieldImpls build I num) (v : Variant) : variantSize ⟨Mach.pure (comps I v.fields.decl), v.discriminant⟩ = v.fields.size num :=
  fields_size h v.fields.decl

theorem enum_size (h : FieldImpls build I num) (vs : List Variant) : (Derive.enum (Mach.pureVars (mvs I vs))).num = (vs.map fun v => v.fields.size num).sum := by
  rw [C41_num]
  congr 1
  induction vs with
  | nil => rfl
  | cons v vs ih =>
    simp only [mvs, Mach.pureVars, List.map_cons, ih]
    congr 1
    exact variant_size h v

theorem variant_isUnit {v : Variant} (hv : v.fields.decl = [] → v.fields = .unit) :
    (⟨Mach.pure (comps I v.fields.decl), v.discriminant⟩ : Derive.Variant).isUnit = decide (v.fields = .unit) := by
  rcases hd : v.fields.decl with _ | ⟨d, ds⟩
  · rw [decide_eq_true (hv hd)]; rfl
  · have : v.fields ≠ .unit := fun hu => by rw [hu] at hd; cases hd
    rw [decide_eq_false this]; rfl

theorem variant_num (h : FieldImpls build I num) {v : Variant} (hf : v.fields ≠ .unit) (hv : v.fields.decl = [] → v.fields = .unit) :
    (⟨Mach.pure (comps I v.fields.decl), v.discriminant⟩ : Derive.Variant).num = v.fields.size num := by
  unfold Derive.Variant.num
  rw [variant_isUnit hv, if_neg (by simpa using hf), ← variant_size h v]
  exact Derive.totalNum_eq _

theorem toArms_number (h : FieldImpls build I num) {code : FieldVal I → Nat} (hc : ∀ v : FieldVal I, (I v.1).2.toDiscr v.2 = .ok (code v)) (off : Nat) :
    ∀ (vs : List Variant) (u rh : Nat) (y : Derive.EnumVal (Mach.pureVars (mvs I vs))), (vs.map (·.ident)).Nodup → NoEmpty vs →
      Derive.toArms off (Mach.pureVars (mvs I vs)) u rh y =
        if (encE I vs y).fields = [] then u + ((vs.takeWhile fun v => v.ident ≠ (encE I vs y).ctor).filter fun v => v.fields = .unit).length
        else off + rh + (((vs.takeWhile fun v => v.ident ≠ (encE I vs y).ctor).filter fun v => v.fields ≠ .unit).map fun v => v.fields.size num).sum +
          mixedRadix ((encE I vs y).fields.map fun f => (num f.2.1, code f.2))
  | v :: vs, u, rh, .inl x, hnd, hne => by
    have hv := hne v (by simp)
    have e : encE I (v :: vs) (.inl x) = ⟨v.ident, encF I v.fields.decl x⟩ := rfl
    have e1 : (encF I v.fields.decl x = []) ↔ v.fields = .unit := by
      rw [← List.length_eq_zero_iff, encF_length, List.length_eq_zero_iff]
      exact ⟨hv, fun hu => by rw [hu]; rfl⟩
    have tw : ((v :: vs).takeWhile fun w => decide (w.ident ≠ v.ident)) = [] := by simp [List.takeWhile_cons]
    rw [e]
    dsimp only
    rw [tw]
    show (if (⟨Mach.pure (comps I v.fields.decl), v.discriminant⟩ : Derive.Variant).isUnit = true then u else
      Derive.toBody (Mach.pure (comps I v.fields.decl)) (Derive.numVariantsProduct (Derive.nums (Mach.pure (comps I v.fields.decl)))) (off + rh) x) = _
    rw [variant_isUnit hv]
    by_cases hf : v.fields = .unit
    · rw [if_pos (by simpa using hf), if_pos (e1.mpr hf)]; simp
    · rw [if_neg (by simpa using hf), if_neg (fun he => hf (e1.mp he)), ← fields_digits h hc]
      rw [Derive.toBody_spec]
      · simp
      · intro hn
        refine hf (hv ?_)
        revert hn
        generalize v.fields.decl = ds
        cases ds with
        | nil => intro _; rfl
        | cons d ds => intro hn; cases hn
  | v :: vs, u, rh, .inr y, hnd, hne => by
    have hv := hne v (by simp)
    simp only [List.map_cons, List.nodup_cons] at hnd
    have e : encE I (v :: vs) (.inr y) = encE I vs y := rfl
    have hne' : v.ident ≠ (encE I vs y).ctor := fun he => hnd.1 (he ▸ encE_ctor_mem vs y)
    have ih := fun u rh => toArms_number h hc off vs u rh y hnd.2 fun w hw => hne w (by simp [hw])
    have tw : ((v :: vs).takeWhile fun w => decide (w.ident ≠ (encE I vs y).ctor)) = v :: vs.takeWhile fun w => decide (w.ident ≠ (encE I vs y).ctor) := by
      rw [List.takeWhile_cons, if_pos (by simpa using hne')]
    rw [e, tw]
    show (if (⟨Mach.pure (comps I v.fields.decl), v.discriminant⟩ : Derive.Variant).isUnit = true then Derive.toArms off (Mach.pureVars (mvs I vs)) (u + 1) rh y else
      Derive.toArms off (Mach.pureVars (mvs I vs)) u (rh + (⟨Mach.pure (comps I v.fields.decl), v.discriminant⟩ : Derive.Variant).num) y) = _
    rw [variant_isUnit hv]
    by_cases hf : v.fields = .unit
    · rw [if_pos (by simpa using hf), ih]
      simp only [List.filter_cons, hf, decide_true, if_true, List.length_cons, ne_eq, not_true_eq_false, decide_false]
      simp only [Bool.false_eq_true, if_false]
      congr 1
      omega
    · rw [if_neg (by simpa using hf), ih, variant_num h hf hv]
      simp only [List.filter_cons, hf, decide_false, ne_eq, not_false_eq_true, decide_true, if_true, List.map_cons, List.sum_cons]
      simp only [Bool.false_eq_true, if_false]
      congr 1
      omega

theorem units_pure : ∀ (vs : List Variant), NoEmpty vs → Derive.units (Mach.pureVars (mvs I vs)) = (vs.filter fun v => v.fields = .unit).length
  | [], _ => rfl
  | v :: vs, h => by
    have ih := units_pure vs fun w hw => h w (by simp [hw])
    unfold Derive.units at ih ⊢
    have hu := variant_isUnit (I := I) (h v (by simp))
    by_cases hf : v.fields = .unit
    · have e : (⟨Mach.pure (comps I v.fields.decl), v.discriminant⟩ : Derive.Variant).isUnit = true := by rw [hu]; simpa using hf
      have e' : decide (v.fields = .unit) = true := by simpa using hf
      rw [List.filter_cons, List.filter_cons, if_pos e, if_pos e', List.length_cons, List.length_cons, ih]
    · have e : (⟨Mach.pure (comps I v.fields.decl), v.discriminant⟩ : Derive.Variant).isUnit = false := by rw [hu]; simpa using hf
      have e' : decide (v.fields = .unit) = false := by simpa using hf
      rw [List.filter_cons, List.filter_cons, if_neg (by rw [e]; simp), if_neg (by rw [e']; simp), ih]

theorem enum_number (h : FieldImpls build I num) {code : FieldVal I → Nat} (hc : ∀ v : FieldVal I, (I v.1).2.toDiscr v.2 = .ok (code v))
    {name : List Char} {vs : List Variant} (hnd : (vs.map (·.ident)).Nodup) (hne : NoEmpty vs) (y : Derive.EnumVal (Mach.pureVars (mvs I vs))) :
    (Derive.enum (Mach.pureVars (mvs I vs))).toDiscr y = (Input.enum name vs).number num code (encE I vs y) := by
  have e : (Derive.enum (Mach.pureVars (mvs I vs))).toDiscr y =
      Derive.toArms (Derive.units (Mach.pureVars (mvs I vs))) (Mach.pureVars (mvs I vs)) 0 0 y := by
    unfold Derive.enum
    split
    · exact Derive.cEnum_toDiscr (by assumption) _
    · rfl
  rw [e, toArms_number h hc _ vs 0 0 y hnd hne, units_pure vs hne]
  simp only [Input.number, Nat.zero_add, Nat.add_zero]

theorem struct_number (h : FieldImpls build I num) {code : FieldVal I → Nat} (hc : ∀ v : FieldVal I, (I v.1).2.toDiscr v.2 = .ok (code v))
    {name : List Char} {fields : Fields} (x : Derive.Fields (Mach.pure (comps I fields.decl))) :
    (Derive.struct (Mach.pure (comps I fields.decl))).toDiscr x = (Input.struct name fields).number num code ⟨name, encF I fields.decl x⟩ := by
  rw [Derive.struct_digits, fields_digits h hc]
  rfl

/-- The declared type has at least one constructor. -/
def Input.HasCtor : Input → Prop
  | .enum _ vs => vs ≠ []
  | _ => True

/-- The derived impl in the model. -/
structure Model (build : Build) (I : Interp) (num : Nat → Nat) (d : Input) (ts : Toks) {α : Type} (E : EnumLike α) (m : Mach α) (enc : α → Obj I) : Prop where
  means : Means build d ts m enc
  built : ∀ empty B, (∀ t, B (I t).1 (toPure (I t).2) (I t).2) → (empty = true ∨ d.HasCtor) → MBuilt build empty B α E m
  has : ∀ o, d.Has o ↔ ∃ a, enc a = o
  size : E.num = d.size num
  number : ∀ code : FieldVal I → Nat, (∀ v : FieldVal I, (I v.1).2.toDiscr v.2 = .ok (code v)) → ∀ a, E.toDiscr a = d.number num code (enc a)
  onto : (∀ t, (toPure (I t).2).Consecutive) → E.Consecutive
  invalid : ∀ name vs, d = .enum name vs → ∀ x, E.num ≤ x → E.fromDiscr x = none

theorem derive_model (h : FieldImpls build I num) {d : Input} (hd : d.Distinct build) {ts : Toks} (hts : derive d = some ts) :
    ∃ (α : Type) (E : EnumLike α) (m : Mach α) (enc : α → Obj I), Model build I num d ts E m enc := by
  cases d with
  | union => cases hts
  | struct name fields =>
    have hts : generateStructCode name fields = ts := Option.some.inj hts
    subst hts
    refine ⟨_, Derive.struct (Mach.pure (comps I fields.decl)), _, _, struct_means build hd, fun empty B hB _ => .struct fun A hA => ?_, struct_has name fields, ?_,
      fun code hc a => struct_number h hc a, fun hc => ?_, fun _ _ he => by cases he⟩
    · obtain ⟨t, rfl⟩ := comps_mem hA
      exact .base (hB t)
    · exact ((Derive.struct_num _).trans (Derive.totalNum_eq _)).trans (fields_size h _)
    · refine Derive.struct_consec fun A hA => ?_
      obtain ⟨B, hB, rfl⟩ := pure_mem hA
      obtain ⟨t, rfl⟩ := comps_mem hB
      exact hc t
  | enum name vs =>
    have hne := (enum_accepts name vs).mp ⟨ts, hts⟩
    refine ⟨_, Derive.enum (Mach.pureVars (mvs I vs)), _, _, enum_means build hd hts, fun empty B hB he => .enum ?_ fun v hv A hA => ?_, enum_has name vs,
      enum_size h vs, fun code hc a => enum_number h hc hd.1 hne a, fun hc => ?_, fun _ _ _ x hx => C41_invalid _ hx⟩
    · refine he.imp id fun hv hn => hv ?_
      cases vs with
      | nil => rfl
      | cons => cases hn
    · obtain ⟨w, -, rfl⟩ := mvs_mem hv
      obtain ⟨t, rfl⟩ := comps_mem hA
      exact .base (hB t)
    · refine Derive.enum_consec fun v hv A hA => ?_
      obtain ⟨m, hm, rfl⟩ := pureVars_mem hv
      obtain ⟨w, -, rfl⟩ := mvs_mem hm
      obtain ⟨B, hB, rfl⟩ := pure_mem hA
      obtain ⟨t, rfl⟩ := comps_mem hB
      exact hc t

end Macro
end EnumVecModel
