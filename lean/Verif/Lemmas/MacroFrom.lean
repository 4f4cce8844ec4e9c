import Verif.Lemmas.MacroArms

/-! # `from_discr` of derived impls of enums -/

namespace EnumVecModel
namespace Macro

open EnumLike

variable {I : Interp} (build : Build)

/-! ### `from_discr`, unit variants -/

section
variable {name : List Char} {all : List Variant} (hn : (all.map (·.ident)).Nodup)
include hn

theorem unitFrom_den : ∀ (vs : List Variant) (u : Nat), (∀ v ∈ vs, v ∈ all) → NoEmpty vs → u + vs.length < build.usizeLim →
    ∃ as : List (IntPat × Option Ctor),
      (∀ r l r', Eventually (fun n => parseFromArms n r) (l, r') →
        Eventually (fun n => parseFromArms n (((unitArmsFrom u vs).map fun e => e.printFromDiscr name).flatten ++ r)) (as ++ l, r')) ∧
      ∀ (env : Env I) (x : Nat) (L : List (IntPat × Option Ctor)), evalFromArms build (.enum name all) env x (as ++ L) =
        match Derive.fromUnits (Mach.pureVars (mvs I vs)) u x with
        | some a => .ok (encE I vs a)
        | none => evalFromArms build (.enum name all) env x L
  | [], u, _, _, _ => ⟨[], fun r l r' h => h, fun env x L => rfl⟩
  | v :: vs, u, hm, hne, hu => by
    have hv := hne v (by simp)
    have hmem := hm v (by simp)
    have hm' : ∀ w ∈ vs, w ∈ all := fun w hw => hm w (by simp [hw])
    have hne' : NoEmpty vs := fun w hw => hne w (by simp [hw])
    have hctor := ctor_variant (name := name) hn hmem
    rw [List.length_cons] at hu
    rcases v with ⟨ident, fields, disc⟩
    by_cases hf : fields = .unit
    · subst hf
      obtain ⟨as, h1, h2⟩ := unitFrom_den vs (u + 1) hm' hne' (by omega)
      refine ⟨(.lit u, some ⟨.variant name ident, none⟩) :: as, fun r l r' h => ?_, fun env x L => ?_⟩
      · have e : ((unitArmsFrom u (⟨ident, .unit, disc⟩ :: vs)).map fun e => e.printFromDiscr name).flatten ++ r =
            [.int u, .fatArrow, .id name, .coloncolon, .id ident, .comma] ++ (((unitArmsFrom (u + 1) vs).map fun e => e.printFromDiscr name).flatten ++ r) := by
          simp [unitArmsFrom, MatchArm.printFromDiscr, MatchArm.unit]
        rw [e]
        refine parseFromArms_cons (by simp [Not]) ⟨0, fun n _ => rfl⟩ ?_ (h1 r l r' h)
        exact parseFromRhs_ctor (by simp [Not]) (parseCtor_unit (parsePath_variant _ _ _) (by simp [Not]))
      · rw [List.cons_append, evalFromArms]
        dsimp only
        rw [if_pos (show u < build.usizeLim by omega)]
        show (if decide (x = u) = true then _ else _) = _
        by_cases hx : x = u
        · rw [if_pos (by simpa using hx), evalCtor_unit build hctor rfl]
          have : Derive.fromUnits (Mach.pureVars (mvs I (⟨ident, .unit, disc⟩ :: vs))) u x = some (.inl ()) := by
            exact if_pos hx
          rw [this]
          rfl
        · rw [if_neg (by simpa using hx), h2]
          have : Derive.fromUnits (Mach.pureVars (mvs I (⟨ident, .unit, disc⟩ :: vs))) u x =
              (Derive.fromUnits (Mach.pureVars (mvs I vs)) (u + 1) x).map .inr := by
            exact if_neg hx
          rw [this]
          cases Derive.fromUnits (Mach.pureVars (mvs I vs)) (u + 1) x <;> rfl
    · obtain ⟨as, h1, h2⟩ := unitFrom_den vs u hm' hne' (by omega)
      refine ⟨as, fun r l r' h => ?_, fun env x L => ?_⟩
      · have e : unitArmsFrom u (⟨ident, fields, disc⟩ :: vs) = unitArmsFrom u vs := by simp [unitArmsFrom, hf]
        rw [e]; exact h1 r l r' h
      · rw [h2]
        have : Derive.fromUnits (Mach.pureVars (mvs I (⟨ident, fields, disc⟩ :: vs))) u x =
            (Derive.fromUnits (Mach.pureVars (mvs I vs)) u x).map .inr := by
          cases fields with
          | unit => exact absurd rfl hf
          | named fs =>
            cases fs with
            | nil => cases hv rfl
            | cons => rfl
          | unnamed ts =>
            cases ts with
            | nil => cases hv rfl
            | cons => rfl
        rw [this]
        cases Derive.fromUnits (Mach.pureVars (mvs I vs)) u x <;> rfl

/-! ### `from_discr`, data variants -/

omit hn in
theorem evalNum_var {env : Env I} {x : List Char} {n : Nat} (h : env.var x = some (.num n)) : evalNum build env (.var x) = .ok n := by
  unfold evalNum; rw [eval, h]; rfl

omit hn in
theorem guard_eval {x : Nat} {env : Env I} (hx : env.var ['x'] = some (.num x)) {lo hi : Ex} :
    evalCond build env (.and (.ge (.var ['x']) lo) (.lt (.var ['x']) hi)) =
      Mach.inRange (evalNum build env lo) (evalNum build env hi) x := by
  have hv : evalNum build env (.var ['x']) = .ok x := by unfold evalNum; rw [eval, hx]; rfl
  unfold Mach.inRange
  rw [evalCond, evalCond, evalCond, hv]
  rcases evalNum build env lo with _ | a
  · rfl
  · by_cases h : a ≤ x
    · rcases evalNum build env hi with _ | b <;> simp [bind, Except.bind, pure, Except.pure, h]
    · simp [bind, Except.bind, pure, Except.pure, h]

theorem dataFrom_den {off : Nat} (hoff : off < build.usizeLim) : ∀ (vs : List Variant) (rh : List Toks) (rhV : List (Except Fault Nat)), (∀ v ∈ vs, v ∈ all) → NoEmpty vs →
    (∀ v ∈ vs, v.fields.Valid build) → rh ≠ [] → All2 (ProdDen I build) rh rhV →
    ∃ as : List (IntPat × Option Ctor),
      (∀ r l r', Eventually (fun n => parseFromArms n r) (l, r') →
        Eventually (fun n => parseFromArms n (((dataArmsFrom off (joinPlus rh) vs).map fun e => e.printFromDiscr name).flatten ++ r)) (as ++ l, r')) ∧
      ∀ (env : Env I) (x : Nat), evalFromArms build (.enum name all) env x (as ++ [(.wild, none)]) =
        (do return encE I vs (← Mach.fromData build off (mvs I vs) rhV x))
  | [], rh, rhV, _, _, _, _, _ => ⟨[], fun r l r' h => h, fun env x => rfl⟩
  | v :: vs, rh, rhV, hm, hne, hval, hrh, hden => by
    have hv := hne v (by simp)
    have hmem := hm v (by simp)
    have hm' : ∀ w ∈ vs, w ∈ all := fun w hw => hm w (by simp [hw])
    have hne' : NoEmpty vs := fun w hw => hne w (by simp [hw])
    have hval' : ∀ w ∈ vs, w.fields.Valid build := fun w hw => hval w (by simp [hw])
    have hctor := ctor_variant (name := name) hn hmem
    have hunit := mv_isUnit (I := I) hv
    by_cases hf : v.fields = .unit
    · obtain ⟨as, h1, h2⟩ := dataFrom_den hoff vs rh rhV hm' hne' hval' hrh hden
      refine ⟨as, fun r l r' h => ?_, fun env x => ?_⟩
      · have e : dataArmsFrom off (joinPlus rh) (v :: vs) = dataArmsFrom off (joinPlus rh) vs := by simp [dataArmsFrom, hf]
        rw [e]; exact h1 r l r' h
      · rw [h2]
        have : Mach.fromData build off (mvs I (v :: vs)) rhV x = (do return .inr (← Mach.fromData build off (mvs I vs) rhV x)) := by
          show (if (mv I v).isUnit = true then _ else _) = _
          rw [hunit, if_pos (by simpa using hf)]
        rw [this]
        rcases Mach.fromData build off (mvs I vs) rhV x with _ | _ <;> rfl
    · have hdne : v.fields.decl ≠ [] := fun h => hf (hv h)
      have hprod := fieldProducts_den (I := I) build v.fields.decl
      have hplen : (numVariantsProduct (typeToks v.fields.decl)).length = v.fields.decl.length := by
        rw [products_length _ (typeToks_ne hdne)]; simp [typeToks]
      have htot := total_den (I := I) build v.fields.decl
      have hden' : All2 (ProdDen I build) (rh ++ [totalNumVariantsProduct (typeToks v.fields.decl)]) (rhV ++ [Mach.totalNum build (comps I v.fields.decl)]) :=
        hden.snoc htot
      obtain ⟨as, h1, h2⟩ := dataFrom_den hoff vs _ _ hm' hne' hval' (by simp) hden'
      obtain ⟨re, hr1, hr2⟩ := joinPlus_den (I := I) build hden hrh
      have hoffd : ProdDen I build [.int off] (.ok off) := ProdDen.lit build hoff
      obtain ⟨lo, hlo1, hlo2⟩ := joinPlus_den (I := I) build (l := [.int off] :: rh) (vs := .ok off :: rhV) ⟨hoffd, hden⟩ (by simp)
      obtain ⟨hi, hhi1, hhi2⟩ := joinPlus_den (I := I) build (l := [.int off] :: (rh ++ [_])) (vs := .ok off :: (rhV ++ [_])) ⟨hoffd, hden'⟩ (by simp)
      rw [joinPlus_cons hrh] at hlo1
      rw [joinPlus_cons (by simp), joinPlus_snoc hrh] at hhi1
      have hval1 : SumG ([.id ['x'], .minus, .int off, .minus, .lpar] ++ joinPlus rh ++ [.rpar]) (.sub (.sub (.var ['x']) (.lit off)) re) := by
        have := ((AtomG.var ['x']).sum.sub (AtomG.lit off).prod).sub (AtomG.paren hr1).prod
        simpa using this
      obtain ⟨l, hl1, hl2, hl3⟩ := fromBody_den (I := I) build hval1 v.fields.decl _ _ (decl_fieldName v.fields) hprod hplen
      refine ⟨(.guard ['x'] (.and (.ge (.var ['x']) lo) (.lt (.var ['x']) hi)), some ⟨.variant name v.ident, some l⟩) :: as, fun r l0 r' h => ?_, fun env x => ?_⟩
      · have e : ((dataArmsFrom off (joinPlus rh) (v :: vs)).map fun e => e.printFromDiscr name).flatten ++ r =
            .id ['x'] :: .if_ :: ([.id ['x']] ++ .ge :: (([.lpar] ++ ([.int off] ++ [.plus] ++ joinPlus rh) ++ [.rpar]) ++ .andand :: ([.id ['x']] ++ .lt ::
              (([.lpar] ++ ([.int off] ++ [.plus] ++ (joinPlus rh ++ [.plus] ++ totalNumVariantsProduct (typeToks v.fields.decl))) ++ [.rpar]) ++ .fatArrow ::
                (.id name :: .coloncolon :: .id v.ident :: .lbrace ::
                  (fromDiscrBody (nameToks v.fields.decl) (typeToks v.fields.decl) ([.id ['x'], .minus, .int off, .minus, .lpar] ++ joinPlus rh ++ [.rpar]) ++
                  (.rbrace :: .comma ::
                    (((dataArmsFrom off (joinPlus (rh ++ [totalNumVariantsProduct (typeToks v.fields.decl)])) vs).map fun e => e.printFromDiscr name).flatten ++ r)))))))) := by
          rw [joinPlus_snoc hrh]
          simp only [dataArmsFrom, hf, if_false, List.map_cons, List.flatten_cons, fromFields_next v.ident hdne, fromFields_eq]
          unfold MatchArm.printFromDiscr MatchArm.printNextRangeHigh MatchArm.printNumVariants
          simp [hdne]
        rw [e]
        have hrest := h1 r l0 r' h
        revert hrest
        generalize ((dataArmsFrom off (joinPlus (rh ++ [totalNumVariantsProduct (typeToks v.fields.decl)])) vs).map fun e => e.printFromDiscr name).flatten ++ r = rest
        intro hrest
        have hrhs : Eventually (fun n => parseFromRhs n (.id name :: .coloncolon :: .id v.ident :: .lbrace ::
                  (fromDiscrBody (nameToks v.fields.decl) (typeToks v.fields.decl) ([.id ['x'], .minus, .int off, .minus, .lpar] ++ joinPlus rh ++ [.rpar]) ++
                  (.rbrace :: .comma :: rest)))) (some ⟨.variant name v.ident, some l⟩, .comma :: rest) := by
          refine parseFromRhs_ctor (by simp [Not]) (parseCtor_braces (parsePath_variant _ _ _) ?_)
          rw [fromDiscrBody_eq hdne]
          have := hl2 _ _ _ (parseInits_nil (.comma :: rest))
          rw [List.append_nil] at this
          exact this
        revert hrhs
        generalize (.id name :: .coloncolon :: .id v.ident :: .lbrace ::
                  (fromDiscrBody (nameToks v.fields.decl) (typeToks v.fields.decl) ([.id ['x'], .minus, .int off, .minus, .lpar] ++ joinPlus rh ++ [.rpar]) ++
                  (.rbrace :: .comma :: rest)) : Toks) = K
        intro hrhs
        refine parseFromArms_cons (r := K) (by simp [Not]) (parseIntPat_guard ?_) hrhs hrest
        refine parseCond_and (parseCmp_ge ((AtomG.var ['x']).sum.stop (by simp [Not])) ((AtomG.paren hlo1).sum.stop (by simp [Not]))) ?_
        exact parseCond_one (parseCmp_lt ((AtomG.var ['x']).sum.stop (by simp [Not])) ((AtomG.paren hhi1).sum.stop (by simp [Not]))) (by simp [Not])
      · rw [List.cons_append, evalFromArms]
        dsimp only
        rw [guard_eval build (x := x) (by simp), hlo2, hhi2]
        have : Mach.fromData build off (mvs I (v :: vs)) rhV x = (do
            if ← Mach.inRange (Mach.sum build (.ok off :: rhV)) (Mach.sum build (.ok off :: (rhV ++ [(mv I v).num build]))) x then
              return .inl (← Mach.fromBody (comps I v.fields.decl) (Mach.products build (Mach.nums (comps I v.fields.decl))) (do
                uSub build (← uSub build x off) (← Mach.sum build rhV)))
            else return .inr (← Mach.fromData build off (mvs I vs) (rhV ++ [(mv I v).num build]) x)) := by
          show (if (mv I v).isUnit = true then _ else _) = _
          rw [hunit, if_neg (by simpa using hf)]
        rw [this]
        have hnum : (mv I v).num build = Mach.totalNum build (comps I v.fields.decl) := by
          unfold Mach.MVariant.num
          rw [hunit, if_neg (by simpa using hf)]
        rw [hnum]
        rcases Mach.inRange (Mach.sum build (.ok off :: rhV)) (Mach.sum build (.ok off :: (rhV ++ [Mach.totalNum build (comps I v.fields.decl)]))) x with _ | b
        · rfl
        · cases b with
          | false =>
            show evalFromArms build (.enum name all) env x (as ++ [(.wild, none)]) = _
            rw [h2]
            rcases Mach.fromData build off (mvs I vs) (rhV ++ [Mach.totalNum build (comps I v.fields.decl)]) x with _ | _ <;> rfl
          | true =>
            show evalCtor build (.enum name all) _ _ = _
            rw [evalCtor_braces build (hval v (by simp)) hctor rfl hl1 (hl3 _)]
            rw [evalNum_sub, evalNum_sub, hr2, evalNum_lit build _ hoff, evalNum_var build (n := x) (by simp)]
            show (do return (⟨v.ident, encF I v.fields.decl (← Mach.fromBody (comps I v.fields.decl) (Mach.products build (Mach.nums (comps I v.fields.decl)))
              (do uSub build (← uSub build x off) (← Mach.sum build rhV)))⟩ : Obj I)) = _
            generalize (do uSub build (← uSub build x off) (← Mach.sum build rhV)) = w
            rcases Mach.fromBody (comps I v.fields.decl) (Mach.products build (Mach.nums (comps I v.fields.decl))) w with _ | _ <;> rfl

end
end Macro
end EnumVecModel
