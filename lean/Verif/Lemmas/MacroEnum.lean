import Verif.Lemmas.MacroTo

/-! # Derived impls of enums -/

namespace EnumVecModel
namespace Macro

open EnumLike

variable {I : Interp} (build : Build)

theorem All2.append {α β : Type} {R : α → β → Prop} : ∀ {as : List α} {bs : List β} {as' : List α} {bs' : List β},
    All2 R as bs → All2 R as' bs' → All2 R (as ++ as') (bs ++ bs')
  | [], [], _, _, _, h => h
  | _ :: _, _ :: _, _, _, h, h' => ⟨h.1, h.2.append h'⟩

theorem unitCounts : ∀ (vs : List Variant) (u : Nat), NoEmpty vs →
    All2 (ProdDen I build) ((unitArmsFrom u vs).map fun e => e.printNumVariants) (((mvs I vs).filter Mach.MVariant.isUnit).map (Mach.MVariant.num build))
  | [], _, _ => trivial
  | v :: vs, u, h => by
    have hu := mv_isUnit (I := I) (h v (by simp))
    have h' : NoEmpty vs := fun w hw => h w (by simp [hw])
    by_cases hf : v.fields = .unit
    · have e : (mv I v).isUnit = true := by rw [hu]; simpa using hf
      have hnum : (mv I v).num build = .ok 1 := by unfold Mach.MVariant.num; rw [if_pos e]
      simp only [mvs, List.filter_cons, e, if_true, unitArmsFrom, hf, List.map_cons, hnum]
      exact ⟨ProdDen.lit build (build.lt_usizeLim (by decide)), unitCounts vs (u + 1) h'⟩
    · have e : (mv I v).isUnit = false := by rw [hu]; simpa using hf
      simp only [mvs, List.filter_cons, e, unitArmsFrom, hf]
      exact unitCounts vs u h'

theorem dataCounts : ∀ (vs : List Variant) (off : Nat) (rh : Toks), NoEmpty vs →
    All2 (ProdDen I build) ((dataArmsFrom off rh vs).map fun e => e.printNumVariants) (((mvs I vs).filter fun v => !v.isUnit).map (Mach.MVariant.num build))
  | [], _, _, _ => trivial
  | v :: vs, off, rh, h => by
    have hv := h v (by simp)
    have hu := mv_isUnit (I := I) hv
    have h' : NoEmpty vs := fun w hw => h w (by simp [hw])
    by_cases hf : v.fields = .unit
    · have e : (mv I v).isUnit = true := by rw [hu]; simpa using hf
      simp only [mvs, List.filter_cons, e, dataArmsFrom, hf]
      exact dataCounts vs off rh h'
    · have hdne : v.fields.decl ≠ [] := fun hd => hf (hv hd)
      have e : (mv I v).isUnit = false := by rw [hu]; simpa using hf
      have hnum : (mv I v).num build = Mach.totalNum build (comps I v.fields.decl) := by unfold Mach.MVariant.num; rw [if_neg (by simp [e])]
      have hp : (MatchArm.fromFields v.ident v.fields off rh).1.printNumVariants = totalNumVariantsProduct (typeToks v.fields.decl) := by
        rw [fromFields_eq]
        unfold MatchArm.printNumVariants
        dsimp only
        rw [if_neg (by simpa using hdne)]
      simp only [mvs, List.filter_cons, e, dataArmsFrom, hf, if_false, List.map_cons, hnum, hp, Bool.not_false, if_true]
      exact ⟨total_den build v.fields.decl, dataCounts vs off _ h'⟩

theorem rusty_means {name : List Char} {vs : List Variant} (hv : (Input.enum name vs).Distinct build) (hne : NoEmpty vs) {ts : Toks}
    (hts : generateRustyEnumCode name vs = some ts) :
    Means (I := I) build (.enum name vs) ts (Mach.rustyEnum build (mvs I vs)) (encE I vs) := by
  obtain ⟨hnd, hlen, hval⟩ := hv
  unfold generateRustyEnumCode at hts
  rw [allVariantsOf_eq vs hne] at hts
  replace hts := Option.some.inj hts
  subst hts
  have hunits : (unitArmsFrom 0 vs).length = Mach.units (mvs I vs) := by rw [unitArmsFrom_length, units_eq vs hne]
  have hoff : (unitArmsFrom 0 vs).length < build.usizeLim := by
    rw [unitArmsFrom_length]
    exact Nat.lt_of_le_of_lt (List.length_filter_le _ _) hlen
  have h0 : All2 (ProdDen I build) [[.int 0]] [.ok 0] := ⟨ProdDen.lit build (build.lt_usizeLim (by decide)), trivial⟩
  have hcount := ((unitCounts (I := I) build.const vs 0 hne).append ((dataCounts (I := I) build.const vs (unitArmsFrom 0 vs).length [.int 0] hne).append
    (as' := [[.int 0]]) (bs' := [.ok 0]) ⟨ProdDen.lit build.const (build.const.lt_usizeLim (by decide)), trivial⟩))
  obtain ⟨ne, hn1, hn2⟩ := joinPlus_den (I := I) build.const hcount (by simp)
  obtain ⟨fu, fu1, fu2⟩ := unitFrom_den (I := I) build (name := name) hnd vs 0 (fun _ h => h) hne (by simpa using hlen)
  obtain ⟨fd, fd1, fd2⟩ := dataFrom_den (I := I) build (name := name) hnd hoff vs [[.int 0]] [.ok 0] (fun _ h => h) hne hval (by simp) h0
  obtain ⟨tu, tu1, tu2, -⟩ := unitTo_den (I := I) build (name := name) hnd vs 0 (fun _ h => h) hnd hne (by simpa using hlen)
  obtain ⟨td, td1, td2⟩ := dataTo_den (I := I) build (name := name) hnd hoff vs [[.int 0]] [.ok 0] (fun _ h => h) hnd hne hval (by simp) h0
  refine ⟨⟨ne, valueId, .match valueId (fu ++ (fd ++ [(.wild, none)])), .match (tu ++ (td ++ []))⟩, ?_, ?_, fun a => ?_, fun x => ?_⟩
  · refine parses_implBody ?_ (fun r => ?_) ?_
    · rw [joinPlus_flatten]
      simpa using hn1
    · have := parseFromFn_match (x := valueId) (fu1 _ _ _ (fd1 _ _ _ (parseFromArms_last (.rbrace :: r))))
      simpa [joinPlus] using this
    · have := parseToFn_match (tu1 _ _ _ (td1 _ _ _ (parseToArms_nil [.rbrace])))
      simpa [joinPlus] using this
  · show evalNum build.const (Env.empty I) ne = _
    rw [hn2]
    rfl
  · show evalToArms build (.enum name vs) (encE I vs a) (tu ++ (td ++ [])) = Mach.toArms build (Mach.units (mvs I vs)) (mvs I vs) 0 [.ok 0] a
    rw [List.append_nil, tu2 a (unitArmsFrom 0 vs).length [.ok 0], hunits]
    by_cases ha : isUnitVal I vs a = true
    · rw [if_pos ha]
    · rw [if_neg ha, td2 a (by simpa using ha) 0, hunits]
  · show (do evalFromArms build (.enum name vs) _ (← evalNum build _ (.var valueId)) (fu ++ (fd ++ [(IntPat.wild, none)]))) = _
    rw [evalNum_var build (n := x) (by simp)]
    show evalFromArms build (.enum name vs) _ x (fu ++ (fd ++ [(.wild, none)])) = _
    rw [fu2, fd2, hunits]
    simp only [Mach.rustyEnum]
    cases Derive.fromUnits (Mach.pureVars (mvs I vs)) 0 x <;> rfl

theorem toArms_position (off : Nat) (rh : List (Except Fault Nat)) : ∀ (vs : List Mach.MVariant) (u : Nat) (y : Derive.EnumVal (Mach.pureVars vs)),
    (∀ v ∈ vs, v.isUnit = true) → Mach.toArms build off vs u rh y = .ok (u + Derive.position (Mach.pureVars vs) y)
  | v :: vs, u, .inl x, h => by
    show (if v.isUnit = true then _ else _) = _
    rw [if_pos (h v (by simp))]; rfl
  | v :: vs, u, .inr y, h => by
    show (if v.isUnit = true then _ else _) = _
    rw [if_pos (h v (by simp)), toArms_position off rh vs (u + 1) y fun w hw => h w (by simp [hw])]
    show Except.ok (u + 1 + _) = Except.ok (u + (_ + 1))
    congr 1; omega

theorem isUnitVal_all : ∀ (vs : List Variant) (y : Derive.EnumVal (Mach.pureVars (mvs I vs))), (∀ v ∈ vs, v.fields = .unit) → isUnitVal I vs y = true
  | v :: _, .inl _, h => by simp [isUnitVal, h v (by simp)]
  | _ :: vs, .inr y, h => isUnitVal_all vs y fun w hw => h w (by simp [hw])

theorem cFrom_toks (name : List Char) : ∀ (vs : List Variant) (u : Nat), (∀ v ∈ vs, v.fields = .unit) →
    (((List.range' u vs.length).zip (vs.map fun v => v.ident)).map fun (k, v) => [Tok.int k, .fatArrow, .id name, .coloncolon, .id v, .comma]).flatten =
      ((unitArmsFrom u vs).map fun e => e.printFromDiscr name).flatten
  | [], _, _ => rfl
  | v :: vs, u, h => by
    have := cFrom_toks name vs (u + 1) fun w hw => h w (by simp [hw])
    rw [List.length_cons, List.range'_succ]
    simp only [List.map_cons, List.zip_cons_cons, List.flatten_cons, unitArmsFrom, h v (by simp), if_true, this]
    rfl

theorem cTo_toks (name : List Char) : ∀ (vs : List Variant) (u : Nat), (∀ v ∈ vs, v.fields = .unit) →
    (((List.range' u vs.length).zip (vs.map fun v => v.ident)).map fun (k, v) => [Tok.id name, .coloncolon, .id v, .fatArrow, .int k, .comma]).flatten =
      ((unitArmsFrom u vs).map fun e => e.printToDiscr name).flatten
  | [], _, _ => rfl
  | v :: vs, u, h => by
    have := cTo_toks name vs (u + 1) fun w hw => h w (by simp [hw])
    rw [List.length_cons, List.range'_succ]
    simp only [List.map_cons, List.zip_cons_cons, List.flatten_cons, unitArmsFrom, h v (by simp), if_true, this]
    rfl

theorem all_mvs {vs : List Variant} (hne : NoEmpty vs) (h : ∀ v ∈ vs, v.fields = .unit) : ∀ m ∈ mvs I vs, m.isUnit = true := by
  induction vs with
  | nil => intro m hm; simp at hm
  | cons v vs ih =>
    intro m hm
    rcases List.mem_cons.mp hm with rfl | hm
    · rw [mv_isUnit (hne v (by simp))]; simpa using h v (by simp)
    · exact ih (fun w hw => hne w (by simp [hw])) (fun w hw => h w (by simp [hw])) m hm

theorem mvs_length : ∀ vs : List Variant, (mvs I vs).length = vs.length
  | [] => rfl
  | _ :: vs => by rw [List.length_cons, List.length_cons, mvs_length vs]

theorem c_means {name : List Char} {vs : List Variant} (hv : (Input.enum name vs).Distinct build) (h : ∀ v ∈ vs, v.fields = .unit) :
    Means (I := I) build (.enum name vs) (generateCEnumCode name vs) (Mach.cEnum build (mvs I vs)) (encE I vs) := by
  obtain ⟨hnd, hlen, hval⟩ := hv
  have hne : NoEmpty vs := fun v hv _ => h v hv
  obtain ⟨fu, fu1, fu2⟩ := unitFrom_den (I := I) build (name := name) hnd vs 0 (fun _ h => h) hne (by simpa using hlen)
  obtain ⟨tu, tu1, tu2, -⟩ := unitTo_den (I := I) build (name := name) hnd vs 0 (fun _ h => h) hnd hne (by simpa using hlen)
  refine ⟨⟨.lit vs.length, valueId, .match valueId (fu ++ [(.wild, none)]), .match (tu ++ [])⟩, ?_, ?_, fun a => ?_, fun x => ?_⟩
  · unfold generateCEnumCode
    dsimp only
    rw [List.range_eq_range', cFrom_toks name vs 0 h, cTo_toks name vs 0 h]
    refine parses_implBody (AtomG.lit _).sum (fun r => ?_) ?_
    · have := parseFromFn_match (x := valueId) (fu1 _ _ _ (parseFromArms_last (.rbrace :: r)))
      simpa using this
    · have := parseToFn_match (tu1 _ _ _ (parseToArms_nil [.rbrace]))
      simpa using this
  · show evalNum build.const (Env.empty I) (.lit vs.length) = if (mvs I vs).length < build.usizeLim then .ok (mvs I vs).length else .error .overflow
    rw [evalNum_lit build.const _ hlen, mvs_length, if_pos hlen]
  · show evalToArms build (.enum name vs) (encE I vs a) (tu ++ []) = .ok (Derive.position (Mach.pureVars (mvs I vs)) a)
    rw [tu2 a 0 [.ok 0], if_pos (isUnitVal_all vs a h), toArms_position build _ _ _ _ _ (all_mvs hne h), Nat.zero_add]
  · show (do evalFromArms build (.enum name vs) _ (← evalNum build _ (.var valueId)) (fu ++ [(IntPat.wild, none)])) = _
    rw [evalNum_var build (n := x) (by simp)]
    show evalFromArms build (.enum name vs) _ x (fu ++ [(.wild, none)]) = _
    rw [fu2]
    simp only [Mach.cEnum]
    cases Derive.fromUnits (Mach.pureVars (mvs I vs)) 0 x <;> rfl

/-- The macro accepts all enums but those with an empty data variant. -/
theorem enum_accepts (name : List Char) (vs : List Variant) : (∃ ts, derive (.enum name vs) = some ts) ↔ NoEmpty vs := by
  show (∃ ts, (if (vs.all fun v => decide (v.fields = .unit)) = true then some (generateCEnumCode name vs) else generateRustyEnumCode name vs) = some ts) ↔ _
  by_cases h : (vs.all fun v => decide (v.fields = .unit)) = true
  · rw [if_pos h]
    refine ⟨fun _ v hv _ => ?_, fun _ => ⟨_, rfl⟩⟩
    simpa using List.all_eq_true.mp h v hv
  · rw [if_neg h]
    refine ⟨fun ⟨ts, hts⟩ => ?_, fun hne => ?_⟩
    · by_cases hne : NoEmpty vs
      · exact hne
      · unfold generateRustyEnumCode at hts
        rw [allVariantsOf_none vs hne] at hts
        cases hts
    · unfold generateRustyEnumCode
      rw [allVariantsOf_eq vs hne]
      exact ⟨_, rfl⟩

theorem enum_means {name : List Char} {vs : List Variant} (hv : (Input.enum name vs).Distinct build) {ts : Toks} (hts : derive (.enum name vs) = some ts) :
    Means (I := I) build (.enum name vs) ts (Mach.enum build (mvs I vs)) (encE I vs) := by
  have hne := (enum_accepts name vs).mp ⟨ts, hts⟩
  replace hts : (if (vs.all fun v => decide (v.fields = .unit)) = true then some (generateCEnumCode name vs) else generateRustyEnumCode name vs) = some ts := hts
  have hall : (mvs I vs).all Mach.MVariant.isUnit = vs.all fun v => decide (v.fields = .unit) := by
    clear hts hv
    induction vs with
    | nil => rfl
    | cons v vs ih => rw [List.all_cons, List.all_cons, mv_isUnit (hne v (by simp)), ih fun w hw => hne w (by simp [hw])]
  unfold Mach.enum
  rw [hall]
  by_cases h : (vs.all fun v => decide (v.fields = .unit)) = true
  · rw [if_pos h] at hts ⊢
    cases hts
    exact c_means build hv fun v hv => by simpa using List.all_eq_true.mp h v hv
  · rw [if_neg h] at hts ⊢
    exact rusty_means build hv hne hts

end Macro
end EnumVecModel
