import Verif.Lemmas.MacroExpr

/-! # Fields, constructors, and derived impls of structs -/

namespace EnumVecModel
namespace Macro

open EnumLike

variable {I : Interp} (build : Build)

/-! ### names -/

theorem lookup_of_nodup {β : Type} : ∀ {l : List (Tok × β)}, (l.map (·.1)).Nodup → ∀ p ∈ l, lookup p.1 l = some p.2
  | [], _, _, h => by simp at h
  | (g, b) :: l, hn, p, h => by
    simp only [List.map_cons, List.nodup_cons] at hn
    rcases List.mem_cons.mp h with rfl | h
    · simp [lookup]
    · have hne : g ≠ p.1 := fun he => hn.1 (he ▸ List.mem_map.mpr ⟨p, h, rfl⟩)
      rw [lookup, if_neg hne]
      exact lookup_of_nodup hn.2 p h

theorem encF_names : ∀ (ds : List (Tok × Nat)) (x : Derive.Fields (Mach.pure (comps I ds))), (encF I ds x).map (·.1) = ds.map (·.1)
  | [], _ => rfl
  | (f, t) :: ds, x => by simp only [encF, List.map_cons, encF_names ds x.2]

theorem encF_length (ds : List (Tok × Nat)) (x : Derive.Fields (Mach.pure (comps I ds))) : (encF I ds x).length = ds.length := by
  have := congrArg List.length (encF_names ds x)
  simpa using this

theorem toDigits_inj {m n : Nat} : Nat.toDigits 10 m = Nat.toDigits 10 n → m = n := by
  intro h
  have h1 := Nat.ofDigitChars_toDigits (b := 10) (n := m) (by decide) (by decide)
  rw [h, Nat.ofDigitChars_toDigits (by decide) (by decide)] at h1
  exact h1.symm

/-- The variable that the macro binds to a field. -/
def xname (f : Tok) : List Char := 'x' :: text [f]

theorem nodup_map_of_inj {α β : Type} {f : α → β} : ∀ {l : List α}, l.Nodup → (∀ a ∈ l, ∀ b ∈ l, f a = f b → a = b) → (l.map f).Nodup
  | [], _, _ => by simp
  | a :: l, h, hf => by
    rw [List.nodup_cons] at h
    rw [List.map_cons, List.nodup_cons]
    refine ⟨fun hm => ?_, nodup_map_of_inj h.2 fun x hx y hy => hf x (by simp [hx]) y (by simp [hy])⟩
    obtain ⟨b, hb, he⟩ := List.mem_map.mp hm
    exact h.1 (hf b (by simp [hb]) a (by simp) he ▸ hb)

theorem decl_unnamed_names (ts : List Nat) : (Fields.unnamed ts).decl.map (·.1) = (List.range ts.length).map Tok.int := by
  simp only [Fields.decl, List.map_map]
  apply List.ext_getElem
  · simp
  · intro i h1 h2; simp

theorem decl_fieldName (fields : Fields) : ∀ d ∈ fields.decl, isFieldName d.1 = true := by
  intro d hd
  cases fields with
  | unit => simp [Fields.decl] at hd
  | named fs =>
    obtain ⟨f, -, rfl⟩ := List.mem_map.mp hd
    rfl
  | unnamed ts =>
    obtain ⟨f, -, rfl⟩ := List.mem_map.mp hd
    rfl

theorem decl_nodup {fields : Fields} (h : fields.Valid build) : (fields.decl.map (·.1)).Nodup := by
  cases fields with
  | unit => simp [Fields.decl]
  | named fs =>
    have e : (Fields.named fs).decl.map (·.1) = (fs.map (·.1)).map Tok.id := by simp [Fields.decl]
    rw [e]
    exact nodup_map_of_inj h fun a _ b _ he => by cases he; rfl
  | unnamed ts =>
    rw [decl_unnamed_names]
    exact nodup_map_of_inj List.nodup_range fun a _ b _ he => by cases he; rfl

theorem decl_xnames_nodup {fields : Fields} (h : fields.Valid build) : (fields.decl.map fun d => xname d.1).Nodup := by
  have e : (fields.decl.map fun d => xname d.1) = (fields.decl.map (·.1)).map xname := by simp
  rw [e]
  refine nodup_map_of_inj (decl_nodup build h) fun a ha b hb he => ?_
  cases fields with
  | unit => simp [Fields.decl] at ha
  | named fs =>
    obtain ⟨p, hp, rfl⟩ := List.mem_map.mp ha
    obtain ⟨q, hq, rfl⟩ := List.mem_map.mp hb
    obtain ⟨f, -, rfl⟩ := List.mem_map.mp hp
    obtain ⟨g, -, rfl⟩ := List.mem_map.mp hq
    simp only [xname, text, List.cons.injEq, true_and] at he
    rw [he]
  | unnamed ts =>
    rw [decl_unnamed_names] at ha hb
    obtain ⟨i, -, rfl⟩ := List.mem_map.mp ha
    obtain ⟨j, -, rfl⟩ := List.mem_map.mp hb
    simp only [xname, text, List.cons.injEq, true_and] at he
    rw [toDigits_inj he]

/-! ### constructor expressions -/

theorem arrange_encF : ∀ (ds : List (Tok × Nat)) (x : Derive.Fields (Mach.pure (comps I ds))) (vals : List (Tok × FieldVal I)),
    (∀ p ∈ encF I ds x, lookup p.1 vals = some p.2) → arrange vals ds = .ok (encF I ds x)
  | [], _, _, _ => rfl
  | (f, t) :: ds, x, vals, h => by
    have h1 := h (f, ⟨t, x.1⟩) (by simp [encF])
    have h2 := arrange_encF ds x.2 vals fun p hp => h p (by simp [encF, hp])
    rw [arrange]
    dsimp only at h1
    rw [h1]
    dsimp only
    rw [if_pos rfl, h2]
    rfl

theorem evalCtor_braces {d : Input} {env : Env I} {c : Ctor} {name : List Char} {fields : Fields} {l : List (Tok × Ex)}
    {w : Except Fault (Derive.Fields (Mach.pure (comps I fields.decl)))} (hv : fields.Valid build) (hc : d.ctor c.path = some (name, fields)) (hi : c.inits = some l)
    (hl : l.length = fields.decl.length) (he : evalInits build env l = (do return encF I fields.decl (← w))) :
    evalCtor build d env c = (do return ⟨name, encF I fields.decl (← w)⟩) := by
  unfold evalCtor
  rw [hc]
  dsimp only
  rw [hi]
  dsimp only
  rw [if_pos hl, he]
  rcases w with _ | x
  · rfl
  · have := arrange_encF fields.decl x (encF I fields.decl x) fun p hp => lookup_of_nodup (by rw [encF_names]; exact decl_nodup build hv) p hp
    simp only [bind, Except.bind, pure, Except.pure, this]

theorem evalCtor_unit {d : Input} {env : Env I} {c : Ctor} {name : List Char} (hc : d.ctor c.path = some (name, .unit)) (hi : c.inits = none) :
    evalCtor build d env c = .ok ⟨name, []⟩ := by
  unfold evalCtor
  rw [hc]
  dsimp only
  rw [hi]
  rfl

/-! ### what the macro extracts from the fields -/

theorem nameToks_named (fs : List (List Char × Nat)) : nameToks (Fields.named fs).decl = fs.map fun f => [Tok.id f.1] := by
  simp [nameToks, Fields.decl]

theorem typeToks_named (fs : List (List Char × Nat)) : typeToks (Fields.named fs).decl = fs.map fun f => [Tok.ty f.2] := by
  simp [typeToks, Fields.decl]

theorem nameToks_unnamed (ts : List Nat) : nameToks (Fields.unnamed ts).decl = (List.range ts.length).map fun i => [Tok.int i] := by
  have : nameToks (Fields.unnamed ts).decl = ((Fields.unnamed ts).decl.map (·.1)).map fun t => [t] := by simp [nameToks]
  rw [this, decl_unnamed_names]; simp

theorem typeToks_unnamed (ts : List Nat) : typeToks (Fields.unnamed ts).decl = ts.map fun t => [Tok.ty t] := by
  simp only [typeToks, Fields.decl, List.map_map]
  apply List.ext_getElem
  · simp
  · intro i h1 h2; simp

theorem zip3_map {α β γ δ ε : Type} (g : α × β × γ → ε) (k : α × β × δ → ε) (h : γ → δ) (hg : ∀ x y z, g (x, y, z) = k (x, y, h z)) :
    ∀ (a : List α) (b : List β) (c : List γ), (a.zip (b.zip c)).map g = (a.zip (b.zip (c.map h))).map k
  | [], _, _ => by simp
  | _ :: _, [], _ => by simp
  | _ :: _, _ :: _, [] => by simp
  | x :: a, y :: b, z :: c => by simp [hg, zip3_map g k h hg a b c]

theorem toDiscrBody_self (ds : List (Tok × Nat)) (offset : Toks) : toDiscrBody (nameToks ds) (typeToks ds) offset none =
    [.lpar] ++ offset ++ [.rpar] ++ (((numVariantsProduct (typeToks ds)).zip ((typeToks ds).zip
      ((ds.map fun d => ([Tok.self_, Tok.dot, d.1], Ex.selfField d.1)).map (·.1)))).map toItem).flatten := by
  unfold toDiscrBody
  dsimp only
  congr 2
  rw [zip3_map _ toItem (fun f => [Tok.self_, Tok.dot] ++ f) (fun p tn f => by simp [toItem])]
  simp [nameToks, Function.comp_def]

theorem toDiscrBody_x (ds : List (Tok × Nat)) (offset : Toks) (fn : List Toks) :
    toDiscrBody fn (typeToks ds) offset (some (ds.map fun d => Tok.id (xname d.1))) =
    [.lpar] ++ offset ++ [.rpar] ++ (((numVariantsProduct (typeToks ds)).zip ((typeToks ds).zip
      ((ds.map fun d => ([Tok.id (xname d.1)], Ex.var (xname d.1))).map (·.1)))).map toItem).flatten := by
  unfold toDiscrBody
  dsimp only
  congr 2
  rw [zip3_map _ toItem (fun f => [f]) (fun p tn f => by simp [toItem])]
  simp [Function.comp_def]

theorem fromDiscrBody_eq {ds : List (Tok × Nat)} (h : ds ≠ []) (value : Toks) : fromDiscrBody (nameToks ds) (typeToks ds) value =
    (((nameToks ds).zip ((typeToks ds).zip ((numVariantsProduct (typeToks ds)).zip (rems ds)))).map (fromItem value)).flatten := by
  unfold fromDiscrBody
  dsimp only
  rw [rems_eq ds h]
  rfl

theorem args_all2 {env : Env I} (mk : Tok → Toks × Ex) : ∀ (ds : List (Tok × Nat)) (x : Derive.Fields (Mach.pure (comps I ds))),
    (∀ p ∈ encF I ds x, eval build env (mk p.1).2 = .ok (.field p.2)) → ArgsOk build env (ds.map fun d => mk d.1) (encF I ds x)
  | [], _, _ => trivial
  | (f, t) :: ds, x, h => ⟨h (f, ⟨t, x.1⟩) (by simp [encF]), args_all2 mk ds x.2 fun p hp => h p (by simp [encF, hp])⟩

theorem typeToks_ne {ds : List (Tok × Nat)} (h : ds ≠ []) : typeToks ds ≠ [] := by simpa [typeToks] using h

/-! ### structs -/

/-- What is proved about a printed impl: it parses, and means the machine model `m` on the encoded values. -/
structure Means (d : Input) (ts : Toks) {α : Type} (m : Mach α) (enc : α → Obj I) : Prop where
  out : ∃ i, Reads ts i ∧ i.evalConst I build = m.num ∧ (∀ a, i.evalTo build d (enc a) = m.toDiscr a) ∧
    ∀ x, i.evalFrom build d x = (do return enc (← m.fromDiscr x))

theorem struct_many {name : List Char} {fields : Fields} (hv : fields.Valid build) (hne : fields.decl ≠ []) :
    Means build (.struct name fields) (generateStructManyElem (nameToks fields.decl) (typeToks fields.decl)) (Mach.struct build (comps I fields.decl))
      (fun x => ⟨name, encF I fields.decl x⟩) := by
  have hprod := fieldProducts_den (I := I) build fields.decl
  have hplen := products_length _ (typeToks_ne hne)
  have hplen' : (numVariantsProduct (typeToks fields.decl)).length = fields.decl.length := by rw [hplen]; simp [typeToks]
  obtain ⟨ne, hn1, hn2⟩ := total_den (I := I) build.const fields.decl
  obtain ⟨te, ht1, ht2⟩ := toBody_den (I := I) build fields.decl (fields.decl.map fun d => ([Tok.self_, Tok.dot, d.1], Ex.selfField d.1)) _ _ _ _ hprod hplen' (by simp)
    (fun a ha => by
      obtain ⟨d, hd, rfl⟩ := List.mem_map.mp ha
      exact (AtomG.selfField (decl_fieldName fields d hd)).sum)
    (AtomG.paren (AtomG.lit 0).sum).sum
  obtain ⟨l, hl1, hl2, hl3⟩ := fromBody_den (I := I) build (AtomG.var valueId).sum fields.decl _ _ (decl_fieldName fields) hprod hplen'
  have hs : ∀ m : Mach (Derive.Fields (Mach.pure (comps I fields.decl))), m = Mach.struct build (comps I fields.decl) →
      m.num = Mach.totalNum build.const (comps I fields.decl) ∧
      (∀ x, m.toDiscr x = Mach.toBody build (comps I fields.decl) (Mach.products build (Mach.nums (comps I fields.decl))) (.ok 0) x) ∧
      ∀ v, m.fromDiscr v = Mach.fromBody (comps I fields.decl) (Mach.products build (Mach.nums (comps I fields.decl))) (.ok v) := by
    rintro m rfl
    generalize fields.decl = ds at hne
    cases ds with
    | nil => exact absurd rfl hne
    | cons d ds => exact ⟨rfl, fun _ => rfl, fun _ => rfl⟩
  obtain ⟨s1, s2, s3⟩ := hs _ rfl
  refine ⟨⟨ne, valueId, .ctor ⟨.self_, some l⟩, .ex te⟩, ?_, ?_, fun a => ?_, fun x => ?_⟩
  · unfold generateStructManyElem
    refine parses_implBody hn1.sum (fun r => ?_) ?_
    · refine parseFromFn_ctor (by simp [Not]) ?_
      refine parseCtor_braces (r := fromDiscrBody (nameToks fields.decl) (typeToks fields.decl) [.id valueId] ++ ([.rbrace] ++ .rbrace :: r)) ?_ ?_
      · simp [parsePath]
      · rw [fromDiscrBody_eq hne]
        have := hl2 _ _ _ (parseInits_nil (.rbrace :: r))
        rw [List.append_nil] at this
        exact this
    · refine parseToFn_ex ?_ ?_
      · rw [toDiscrBody_self]; simp [Not]
      · rw [toDiscrBody_self]
        exact ht1.stop (by simp [Not])
  · show evalNum build.const (Env.empty I) ne = _
    rw [hn2, s1]
  · show evalNum build _ te = _
    rw [s2, ht2 _ a, evalNum_lit build _ (build.lt_usizeLim (by decide))]
    refine args_all2 build (fun f => ([Tok.self_, Tok.dot, f], Ex.selfField f)) _ a fun p hp => ?_
    show eval build _ (.selfField p.1) = _
    rw [eval]
    dsimp only
    rw [lookup_of_nodup (by rw [encF_names]; exact decl_nodup build hv) p hp]
  · unfold Impl.evalFrom
    dsimp only
    rw [s3]
    refine evalCtor_braces build hv rfl rfl hl1 ?_
    rw [hl3]
    congr 2

theorem struct_unit {name : List Char} {fields : Fields} (hd : fields.decl = []) (unit : Bool) (hu : unit = true ↔ fields = .unit) (m : Mach (Derive.Fields (Mach.pure (comps I fields.decl))))
    (enc : Derive.Fields (Mach.pure (comps I fields.decl)) → Obj I) (hm : m.num = .ok 1 ∧ (∀ a, m.toDiscr a = .ok 0) ∧ ∀ x, ∃ a, m.fromDiscr x = .ok a)
    (he : ∀ a, enc a = ⟨name, []⟩) :
    Means build (.struct name fields) (generateUnitStructImpl name unit) m enc := by
  have hpath : ∀ r, Not [.coloncolon] r → parsePath (.id name :: r) = some (.name name, r) := by
    intro r hr
    unfold parsePath
    split
    · next h => cases h
    · next h =>
      simp only [List.cons.injEq] at h
      exact absurd (by rw [h.2]; rfl) (hr .coloncolon (by simp))
    · next h => cases h; rfl
    · next h => exact absurd rfl (h _ _)
  cases unit with
  | true =>
    have hf := hu.mp rfl
    subst hf
    refine ⟨⟨.lit 1, '_' :: valueId, .ctor ⟨.name name, none⟩, .ex (.lit 0)⟩, ?_, ?_, fun a => ?_, fun x => ?_⟩
    · unfold generateUnitStructImpl
      refine parses_implBody (AtomG.lit 1).sum (fun r => ?_) ?_
      · exact parseFromFn_ctor (by simp [Not]) (parseCtor_unit (hpath _ (by simp [Not])) (by simp [Not]))
      · exact parseToFn_ex (by simp [Not]) ((AtomG.lit 0).sum.stop (by simp [Not]))
    · show evalNum build.const (Env.empty I) (.lit 1) = _
      rw [hm.1, evalNum_lit build.const _ (build.const.lt_usizeLim (by decide))]
    · show evalNum build _ (.lit 0) = _
      rw [hm.2.1, evalNum_lit build _ (build.lt_usizeLim (by decide))]
    · unfold Impl.evalFrom
      dsimp only
      obtain ⟨a, ha⟩ := hm.2.2 x
      rw [ha, evalCtor_unit build (name := name) (by simp [Input.ctor]) rfl]
      show _ = Except.ok (enc a)
      rw [he]
  | false =>
    refine ⟨⟨.lit 1, '_' :: valueId, .ctor ⟨.name name, some []⟩, .ex (.lit 0)⟩, ?_, ?_, fun a => ?_, fun x => ?_⟩
    · unfold generateUnitStructImpl
      refine parses_implBody (AtomG.lit 1).sum (fun r => ?_) ?_
      · exact parseFromFn_ctor (by simp [Not]) (parseCtor_braces (hpath _ (by simp [Not])) (parseInits_nil _))
      · exact parseToFn_ex (by simp [Not]) ((AtomG.lit 0).sum.stop (by simp [Not]))
    · show evalNum build.const (Env.empty I) (.lit 1) = _
      rw [hm.1, evalNum_lit build.const _ (build.const.lt_usizeLim (by decide))]
    · show evalNum build _ (.lit 0) = _
      rw [hm.2.1, evalNum_lit build _ (build.lt_usizeLim (by decide))]
    · unfold Impl.evalFrom
      dsimp only
      obtain ⟨a, ha⟩ := hm.2.2 x
      unfold evalCtor
      rw [ha]
      simp only [Input.ctor, if_true, hd]
      show Except.ok _ = Except.ok (enc a)
      rw [he]

theorem structNames_named (fs : List (List Char × Nat)) : (fs.map fun f => (some f.1, f.2)).zipIdx.map (fun x => match x.1.1 with
    | some x => [Tok.id x]
    | none => [Tok.int x.2]) = fs.map fun f => [Tok.id f.1] := by
  apply List.ext_getElem
  · simp
  · intro i h1 h2; simp

theorem structNames_unnamed (ts : List Nat) : (ts.map fun t => ((none : Option (List Char)), t)).zipIdx.map (fun x => match x.1.1 with
    | some x => [Tok.id x]
    | none => [Tok.int x.2]) = (List.range ts.length).map fun i => [Tok.int i] := by
  apply List.ext_getElem
  · simp
  · intro i h1 h2; simp

theorem struct_means {name : List Char} {fields : Fields} (hv : fields.Valid build) :
    Means build (.struct name fields) (generateStructCode name fields) (Mach.struct build (comps I fields.decl)) (fun x => ⟨name, encF I fields.decl x⟩) := by
  cases fields with
  | unit => exact struct_unit build rfl true (by simp) _ _ ⟨rfl, fun _ => rfl, fun _ => ⟨(), rfl⟩⟩ fun _ => rfl
  | named fs =>
    cases fs with
    | nil => exact struct_unit build rfl false (by simp) _ _ ⟨rfl, fun _ => rfl, fun _ => ⟨(), rfl⟩⟩ fun _ => rfl
    | cons f fs =>
      have := struct_many (I := I) build (name := name) hv (by simp [Fields.decl])
      rw [nameToks_named, typeToks_named] at this
      have e : generateStructCode name (.named (f :: fs)) =
          generateStructManyElem ((f :: fs).map fun f => [Tok.id f.1]) ((f :: fs).map fun f => [Tok.ty f.2]) := by
        simp only [generateStructCode, generateStructWithFields, List.length_map, List.length_cons, List.map_map]
        congr 1
        exact structNames_named _
      rw [e]; exact this
  | unnamed ts =>
    cases ts with
    | nil => exact struct_unit build rfl false (by simp) _ _ ⟨rfl, fun _ => rfl, fun _ => ⟨(), rfl⟩⟩ fun _ => rfl
    | cons t ts =>
      have := struct_many (I := I) build (name := name) hv (by simp [Fields.decl])
      rw [nameToks_unnamed, typeToks_unnamed] at this
      have e : generateStructCode name (.unnamed (t :: ts)) =
          generateStructManyElem ((List.range (t :: ts).length).map fun i => [Tok.int i]) ((t :: ts).map fun t => [Tok.ty t]) := by
        simp only [generateStructCode, generateStructWithFields, List.length_map, List.length_cons, List.map_map]
        congr 1
        exact structNames_unnamed _
      rw [e]; exact this

end Macro
end EnumVecModel
