import Verif.Lemmas.MacroFrom

/-! # `to_discr` of derived impls of enums -/

namespace EnumVecModel
namespace Macro

open EnumLike

variable {I : Interp} (build : Build)

/-- The field patterns printed for a data variant. -/
def patToks (ds : List (Tok × Nat)) : Toks := (ds.map fun d => [d.1, .colon, .id (xname d.1), .comma]).flatten

theorem patFields_den : ∀ (ds : List (Tok × Nat)), (∀ d ∈ ds, isFieldName d.1 = true) → ∀ r,
    Eventually (fun n => parsePatFields n (patToks ds ++ .rbrace :: r)) (ds.map fun d => (d.1, xname d.1), r)
  | [], _, r => parsePatFields_nil r
  | d :: ds, h, r => by
    have := parsePatFields_cons (f := d.1) (x := xname d.1) (h d (by simp)) (patFields_den ds (fun e he => h e (by simp [he])) r)
    simpa [patToks] using this

theorem find_of_nodup {α : Type} {g : α → List Char} : ∀ {l : List α}, (l.map g).Nodup → ∀ a ∈ l, l.find? (fun p => g p = g a) = some a
  | [], _, _, h => by simp at h
  | b :: l, hn, a, h => by
    simp only [List.map_cons, List.nodup_cons] at hn
    rcases List.mem_cons.mp h with rfl | h
    · simp
    · have : g b ≠ g a := fun he => hn.1 (he ▸ List.mem_map.mpr ⟨a, h, rfl⟩)
      rw [List.find?_cons, decide_eq_false this]
      exact find_of_nodup hn.2 a h

/-- The pattern of a data variant binds every field. -/
theorem bindFields_ok {fields : Fields} (hv : fields.Valid build) (name : List Char) (x : Derive.Fields (Mach.pure (comps I fields.decl))) :
    ∃ env : Env I, bindFields ⟨name, encF I fields.decl x⟩ (fields.decl.map fun d => (d.1, xname d.1)) = .ok env ∧
      ∀ p ∈ encF I fields.decl x, env.var (xname p.1) = some (.field p.2) := by
  have hnd : ((encF I fields.decl x).map (·.1)).Nodup := by rw [encF_names]; exact decl_nodup build hv
  have hx := decl_xnames_nodup build hv
  have hnames := encF_names (I := I) fields.decl x
  have hmem : ∀ d ∈ fields.decl, ∃ p ∈ encF I fields.decl x, p.1 = d.1 := by
    intro d hd
    have : d.1 ∈ (encF I fields.decl x).map (·.1) := by rw [hnames]; exact List.mem_map.mpr ⟨d, hd, rfl⟩
    obtain ⟨p, hp, he⟩ := List.mem_map.mp this
    exact ⟨p, hp, he⟩
  refine ⟨_, if_pos ⟨by simp [encF_length], by simpa [Function.comp_def] using hx, fun p hp => ?_⟩, fun p hp => ?_⟩
  · have hd : p.1 ∈ fields.decl.map (·.1) := by rw [← hnames]; exact List.mem_map.mpr ⟨p, hp, rfl⟩
    obtain ⟨d, hd, he⟩ := List.mem_map.mp hd
    have hf := find_of_nodup (l := fields.decl.map fun d => (d.1, xname d.1)) (g := fun p => p.2) (by simpa [Function.comp_def] using hx) (d.1, xname d.1)
      (List.mem_map.mpr ⟨d, hd, rfl⟩)
    dsimp only at hf ⊢
    rw [← he, hf]
    have hl := lookup_of_nodup hnd p hp
    rw [← he] at hl
    simp [hl]
  · obtain ⟨d, hd, rfl⟩ := List.mem_map.mp hp
    obtain ⟨q, hq, he⟩ := hmem d hd
    have := lookup_of_nodup hnd q hq
    rw [he] at this
    simp [this]

theorem dataPrintTo {v : Variant} (hdne : v.fields.decl ≠ []) (off : Nat) (rh : Toks) (name : List Char) :
    (MatchArm.fromFields v.ident v.fields off rh).1.printToDiscr name =
      .id name :: .coloncolon :: .id v.ident :: .lbrace :: (patToks v.fields.decl ++ .rbrace :: .fatArrow ::
        (([.lpar] ++ ([.int off] ++ [.plus] ++ rh) ++ [.rpar] ++ (((numVariantsProduct (typeToks v.fields.decl)).zip ((typeToks v.fields.decl).zip
          ((v.fields.decl.map fun d => ([Tok.id (xname d.1)], Ex.var (xname d.1))).map (·.1)))).map toItem).flatten) ++ [.comma])) := by
  have hx : (nameToks v.fields.decl).map (fun f => Tok.id ('x' :: text f)) = v.fields.decl.map fun d => Tok.id (xname d.1) := by
    simp [nameToks, xname]
  have hz : ∀ ds : List (Tok × Nat), (((nameToks ds).zip (ds.map fun d => Tok.id (xname d.1))).map fun (f, x) => f ++ [.colon, x, .comma]).flatten = patToks ds := by
    intro ds
    induction ds with
    | nil => rfl
    | cons d ds ih =>
      simp only [nameToks, patToks] at ih
      simp [nameToks, patToks, ih]
  rw [fromFields_eq]
  unfold MatchArm.printToDiscr
  dsimp only
  rw [if_neg (by simpa using hdne), hx, hz, toDiscrBody_x]
  simp

section
variable {name : List Char} {all : List Variant} (hn : (all.map (·.ident)).Nodup)
include hn

theorem toArms_skip {v : Variant} (hmem : v ∈ all) {o : Obj I} (ho : v.ident ≠ o.ctor) (pf : Option (List (Tok × List Char))) (e : Ex) (L : List (Pat × Ex)) :
    evalToArms build (.enum name all) o ((⟨.variant name v.ident, pf⟩, e) :: L) = evalToArms build (.enum name all) o L := by
  rw [evalToArms]
  dsimp only
  rw [ctor_variant (name := name) hn hmem]
  dsimp only
  rw [if_neg ho]

theorem unitTo_den : ∀ (vs : List Variant) (u : Nat), (∀ v ∈ vs, v ∈ all) → (vs.map (·.ident)).Nodup → NoEmpty vs → u + vs.length < build.usizeLim →
    ∃ as : List (Pat × Ex),
      (∀ r l r', Eventually (fun n => parseToArms n r) (l, r') →
        Eventually (fun n => parseToArms n (((unitArmsFrom u vs).map fun e => e.printToDiscr name).flatten ++ r)) (as ++ l, r')) ∧
      (∀ (y : Derive.EnumVal (Mach.pureVars (mvs I vs))) (off : Nat) (rhV : List (Except Fault Nat)) (L : List (Pat × Ex)),
        evalToArms build (.enum name all) (encE I vs y) (as ++ L) =
          if isUnitVal I vs y = true then Mach.toArms build off (mvs I vs) u rhV y else evalToArms build (.enum name all) (encE I vs y) L) ∧
      ∀ (o : Obj I), o.ctor ∉ vs.map (·.ident) → ∀ L, evalToArms build (.enum name all) o (as ++ L) = evalToArms build (.enum name all) o L
  | [], u, _, _, _, _ => ⟨[], fun r l r' h => h, fun y => (nomatch y), fun _ _ _ => rfl⟩
  | v :: vs, u, hm, hnd, hne, hu => by
    have hv := hne v (by simp)
    have hmem := hm v (by simp)
    have hm' : ∀ w ∈ vs, w ∈ all := fun w hw => hm w (by simp [hw])
    have hne' : NoEmpty vs := fun w hw => hne w (by simp [hw])
    have hctor := ctor_variant (name := name) hn hmem
    have hunit := mv_isUnit (I := I) hv
    rw [List.length_cons] at hu
    simp only [List.map_cons, List.nodup_cons] at hnd
    by_cases hf : v.fields = .unit
    · obtain ⟨as, h1, h2, h3⟩ := unitTo_den vs (u + 1) hm' hnd.2 hne' (by omega)
      refine ⟨(⟨.variant name v.ident, none⟩, .lit u) :: as, fun r l r' h => ?_, fun y off rhV L => ?_, fun o ho L => ?_⟩
      · have e : ((unitArmsFrom u (v :: vs)).map fun e => e.printToDiscr name).flatten ++ r =
            .id name :: .coloncolon :: .id v.ident :: .fatArrow :: ([.int u] ++ .comma :: (((unitArmsFrom (u + 1) vs).map fun e => e.printToDiscr name).flatten ++ r)) := by
          simp [unitArmsFrom, MatchArm.printToDiscr, MatchArm.unit, hf]
        rw [e]
        exact parseToArms_cons (by simp [Not]) (parsePat_unit (parsePath_variant _ _ _) (by simp [Not])) ((AtomG.lit u).sum.stop (by simp [Not])) (h1 r l r' h)
      · rcases y with x | y
        · have e1 : isUnitVal I (v :: vs) (.inl x) = true := by simp [isUnitVal, hf]
          have e2 : Mach.toArms build off (mvs I (v :: vs)) u rhV (.inl x) = .ok u := by
            show (if (mv I v).isUnit = true then _ else _) = _
            rw [hunit, if_pos (by simpa using hf)]
          rw [if_pos e1, e2, List.cons_append, evalToArms]
          dsimp only
          rw [hctor]
          show (if v.ident = v.ident then (if v.fields = .unit then evalNum build _ (.lit u) else _) else _) = _
          rw [if_pos rfl, if_pos hf, evalNum_lit _ _ (by omega)]
        · have e1 : isUnitVal I (v :: vs) (.inr y) = isUnitVal I vs y := rfl
          have e2 : Mach.toArms build off (mvs I (v :: vs)) u rhV (.inr y) = Mach.toArms build off (mvs I vs) (u + 1) rhV y := by
            show (if (mv I v).isUnit = true then _ else _) = _
            rw [hunit, if_pos (by simpa using hf)]
          have e3 : encE I (v :: vs) (.inr y) = encE I vs y := rfl
          rw [e1, e2, e3, List.cons_append, toArms_skip build hn hmem, h2 y off rhV L]
          intro he
          exact hnd.1 (he ▸ encE_ctor_mem vs y)
      · simp only [List.map_cons, List.mem_cons, not_or] at ho
        rw [List.cons_append, toArms_skip build hn hmem (fun he => ho.1 he.symm), h3 o ho.2]
    · obtain ⟨as, h1, h2, h3⟩ := unitTo_den vs u hm' hnd.2 hne' (by omega)
      refine ⟨as, fun r l r' h => ?_, fun y off rhV L => ?_, fun o ho L => ?_⟩
      · have e : unitArmsFrom u (v :: vs) = unitArmsFrom u vs := by simp [unitArmsFrom, hf]
        rw [e]; exact h1 r l r' h
      · rcases y with x | y
        · have e1 : isUnitVal I (v :: vs) (.inl x) = false := by simp [isUnitVal, hf]
          rw [e1, h3 _ hnd.1]
          rfl
        · have e1 : isUnitVal I (v :: vs) (.inr y) = isUnitVal I vs y := rfl
          have e2 : Mach.toArms build off (mvs I (v :: vs)) u (rhV) (.inr y) = Mach.toArms build off (mvs I vs) u (rhV ++ [(mv I v).num build]) y := by
            show (if (mv I v).isUnit = true then _ else _) = _
            rw [hunit, if_neg (by simpa using hf)]
          have e3 : encE I (v :: vs) (.inr y) = encE I vs y := rfl
          rw [e1, e2, e3, h2 y off (rhV ++ [(mv I v).num build]) L]
      · simp only [List.map_cons, List.mem_cons, not_or] at ho
        exact h3 o ho.2 L

theorem dataTo_den {off : Nat} (hoff : off < build.usizeLim) : ∀ (vs : List Variant) (rh : List Toks) (rhV : List (Except Fault Nat)), (∀ v ∈ vs, v ∈ all) →
    (vs.map (·.ident)).Nodup → NoEmpty vs → (∀ v ∈ vs, v.fields.Valid build) → rh ≠ [] → All2 (ProdDen I build) rh rhV →
    ∃ as : List (Pat × Ex),
      (∀ r l r', Eventually (fun n => parseToArms n r) (l, r') →
        Eventually (fun n => parseToArms n (((dataArmsFrom off (joinPlus rh) vs).map fun e => e.printToDiscr name).flatten ++ r)) (as ++ l, r')) ∧
      ∀ (y : Derive.EnumVal (Mach.pureVars (mvs I vs))), isUnitVal I vs y = false → ∀ u,
        evalToArms build (.enum name all) (encE I vs y) as = Mach.toArms build off (mvs I vs) u rhV y
  | [], rh, rhV, _, _, _, _, _, _ => ⟨[], fun r l r' h => h, fun y => (nomatch y)⟩
  | v :: vs, rh, rhV, hm, hnd, hne, hval, hrh, hden => by
    have hv := hne v (by simp)
    have hmem := hm v (by simp)
    have hm' : ∀ w ∈ vs, w ∈ all := fun w hw => hm w (by simp [hw])
    have hne' : NoEmpty vs := fun w hw => hne w (by simp [hw])
    have hval' : ∀ w ∈ vs, w.fields.Valid build := fun w hw => hval w (by simp [hw])
    have hctor := ctor_variant (name := name) hn hmem
    have hunit := mv_isUnit (I := I) hv
    simp only [List.map_cons, List.nodup_cons] at hnd
    by_cases hf : v.fields = .unit
    · obtain ⟨as, h1, h2⟩ := dataTo_den hoff vs rh rhV hm' hnd.2 hne' hval' hrh hden
      refine ⟨as, fun r l r' h => ?_, fun y hy u => ?_⟩
      · have e : dataArmsFrom off (joinPlus rh) (v :: vs) = dataArmsFrom off (joinPlus rh) vs := by simp [dataArmsFrom, hf]
        rw [e]; exact h1 r l r' h
      · rcases y with x | y
        · rw [show isUnitVal I (v :: vs) (.inl x) = true by simp [isUnitVal, hf]] at hy
          cases hy
        · have e2 : Mach.toArms build off (mvs I (v :: vs)) u rhV (.inr y) = Mach.toArms build off (mvs I vs) (u + 1) rhV y := by
            show (if (mv I v).isUnit = true then _ else _) = _
            rw [hunit, if_pos (by simpa using hf)]
          have e3 : encE I (v :: vs) (.inr y) = encE I vs y := rfl
          rw [e2, e3, h2 y hy (u + 1)]
    · have hdne : v.fields.decl ≠ [] := fun h => hf (hv h)
      have hprod := fieldProducts_den (I := I) build v.fields.decl
      have hplen : (numVariantsProduct (typeToks v.fields.decl)).length = v.fields.decl.length := by
        rw [products_length _ (typeToks_ne hdne)]; simp [typeToks]
      have hden' := hden.snoc (total_den (I := I) build v.fields.decl)
      have hnum : (mv I v).num build = Mach.totalNum build (comps I v.fields.decl) := by
        unfold Mach.MVariant.num
        rw [hunit, if_neg (by simpa using hf)]
      obtain ⟨as, h1, h2⟩ := dataTo_den hoff vs _ _ hm' hnd.2 hne' hval' (by simp) hden'
      obtain ⟨lo, hlo1, hlo2⟩ := joinPlus_den (I := I) build (l := [.int off] :: rh) (vs := .ok off :: rhV) ⟨ProdDen.lit build hoff, hden⟩ (by simp)
      rw [joinPlus_cons hrh] at hlo1
      obtain ⟨te, ht1, ht2⟩ := toBody_den (I := I) build v.fields.decl (v.fields.decl.map fun d => ([Tok.id (xname d.1)], Ex.var (xname d.1))) _ _ _ _ hprod hplen (by simp)
        (fun a ha => by
          obtain ⟨d, hd, rfl⟩ := List.mem_map.mp ha
          exact (AtomG.var (xname d.1)).sum)
        (AtomG.paren hlo1).sum
      refine ⟨(⟨.variant name v.ident, some (v.fields.decl.map fun d => (d.1, xname d.1))⟩, te) :: as, fun r l r' h => ?_, fun y hy u => ?_⟩
      · have e : ((dataArmsFrom off (joinPlus rh) (v :: vs)).map fun e => e.printToDiscr name).flatten ++ r =
            (MatchArm.fromFields v.ident v.fields off (joinPlus rh)).1.printToDiscr name ++
              (((dataArmsFrom off (joinPlus (rh ++ [totalNumVariantsProduct (typeToks v.fields.decl)])) vs).map fun e => e.printToDiscr name).flatten ++ r) := by
          rw [joinPlus_snoc hrh]
          simp only [dataArmsFrom, hf, if_false, List.map_cons, List.flatten_cons, fromFields_next v.ident hdne, List.append_assoc]
        rw [e, dataPrintTo hdne]
        have hrest := h1 r l r' h
        revert hrest
        generalize ((dataArmsFrom off (joinPlus (rh ++ [totalNumVariantsProduct (typeToks v.fields.decl)])) vs).map fun e => e.printToDiscr name).flatten ++ r = rest
        intro hrest
        revert ht1
        generalize [Tok.lpar] ++ ([.int off] ++ [.plus] ++ joinPlus rh) ++ [.rpar] ++ (((numVariantsProduct (typeToks v.fields.decl)).zip ((typeToks v.fields.decl).zip
          ((v.fields.decl.map fun d => ([Tok.id (xname d.1)], Ex.var (xname d.1))).map (·.1)))).map toItem).flatten = body
        intro ht1
        simp only [List.cons_append, List.append_assoc, List.nil_append]
        refine parseToArms_cons (r := body ++ .comma :: rest) (by simp [Not]) (parsePat_braces (parsePath_variant _ _ _) ?_) (ht1.stop (by simp [Not])) hrest
        exact patFields_den _ (decl_fieldName v.fields) _
      · rcases y with x | y
        · have e2 : Mach.toArms build off (mvs I (v :: vs)) u rhV (.inl x) =
              Mach.toBody build (comps I v.fields.decl) (Mach.products build (Mach.nums (comps I v.fields.decl))) (Mach.sum build (.ok off :: rhV)) x := by
            show (if (mv I v).isUnit = true then _ else _) = _
            rw [hunit, if_neg (by simpa using hf)]
          obtain ⟨env, hb1, hb2⟩ := bindFields_ok build (I := I) (hval v (by simp)) v.ident x
          rw [e2, evalToArms]
          dsimp only
          rw [hctor]
          show (if v.ident = v.ident then (do evalNum build (← bindFields ⟨v.ident, encF I v.fields.decl x⟩ _) te) else _) = _
          rw [if_pos rfl, hb1]
          show evalNum build env te = _
          rw [ht2 env x, hlo2]
          refine args_all2 build (fun f => ([Tok.id (xname f)], Ex.var (xname f))) _ x fun p hp => ?_
          show eval build env (.var (xname p.1)) = _
          rw [eval, hb2 p hp]
        · have e2 : Mach.toArms build off (mvs I (v :: vs)) u rhV (.inr y) =
              Mach.toArms build off (mvs I vs) u (rhV ++ [Mach.totalNum build (comps I v.fields.decl)]) y := by
            show (if (mv I v).isUnit = true then _ else _) = _
            rw [hunit, if_neg (by simpa using hf), hnum]
          have e3 : encE I (v :: vs) (.inr y) = encE I vs y := rfl
          rw [e2, e3, toArms_skip build hn hmem, h2 y hy u]
          intro he
          exact hnd.1 (he ▸ encE_ctor_mem vs y)

end
end Macro
end EnumVecModel
