import Verif.Source.DeriveEval
import Verif.Props.MacroHeader

/-!
# C89: the derive macro, with the templates of its text

`deriveItem` (of this namespace) is the macro with all its `quote!` done from the text of the file, `Macro.deriveItem` is the model of C52 and C59.
-/

namespace EnumVecModel
namespace Quote
open Macro (Tok Toks Fields Variant Input MatchArm Generics Bound GParam Item)

set_option linter.constructorNameAsVariable false

/-! ## Lists -/

theorem mapM_some {α β : Type} {f : α → Option β} {g : α → β} : (l : List α) → (∀ a ∈ l, f a = some (g a)) → l.mapM f = some (l.map g)
  | [], _ => rfl
  | a :: l, h => by
    rw [List.mapM_cons, h a (by simp), mapM_some l fun b hb => h b (by simp [hb])]; rfl

theorem foldlM_some {α β : Type} {f : β → α → Option β} {g : β → α → β} : (l : List α) → (s : β) → (∀ s a, f s a = some (g s a)) → l.foldlM f s = some (l.foldl g s)
  | [], _, _ => rfl
  | a :: l, s, h => by
    rw [List.foldlM_cons, h s a]
    exact foldlM_some l (g s a) h

theorem mapM_range {f : Nat → Option Toks} (L : List Toks) (h : ∀ k (hk : k < L.length), f k = some L[k]) {n : Nat} (hn : n = L.length) : (List.range n).mapM f = some L := by
  subst hn
  rw [mapM_some (g := fun k => L.getD k []) (f := f)]
  · congr 1
    apply List.ext_getElem (by simp)
    intro k h1 h2
    simp [h2]
  · intro k hk
    have hk : k < L.length := by simpa using hk
    rw [h k hk]; simp [hk]

/-! ## Templates -/

theorem numVariantsProduct_eq (tns : List Toks) : numVariantsProduct tns = some (Macro.numVariantsProduct tns) := by
  have step : ∀ (st : Toks × List Toks) (i : Nat), (do
      let lastP ← q_num_variants_product_2.fill [(word% "type_n1", .one (tns.getD (i - 1) [])), (word% "old_last_p", .one st.1)]
      pure (lastP, st.2 ++ [lastP]) : Option (Toks × List Toks)) =
      some (let lastP := st.1 ++ [.star] ++ Macro.qself (tns.getD (i - 1) []) ++ [.NUM_VARIANTS]; (lastP, st.2 ++ [lastP])) := by
    intro st i
    show some _ = some _
    simp [Macro.qself]
  unfold numVariantsProduct Macro.numVariantsProduct
  simp only [foldlM_some _ _ step]
  by_cases h : 2 ≤ tns.length
  · simp only [h, if_true]
    have : q_num_variants_product_1.fill [(word% "type_n1", .one (tns.getD 0 []))] = some (Macro.qself (tns.getD 0 []) ++ [.NUM_VARIANTS]) := by
      show some _ = some _
      simp [Macro.qself]
    rw [this]; rfl
  · simp only [h, if_false]; rfl

theorem numVariantsProduct_ne (tns : List Toks) : Macro.numVariantsProduct tns ≠ [] := by
  have grow : ∀ (l : List Nat) (st : Toks × List Toks) (g : Toks × List Toks → Nat → Toks × List Toks), (∀ st i, (g st i).2 ≠ []) → st.2 ≠ [] → (l.foldl g st).2 ≠ [] := by
    intro l
    induction l with
    | nil => intro st g _ h; exact h
    | cons a l ih => intro st g hg _; exact ih _ _ hg (hg _ _)
  unfold Macro.numVariantsProduct
  apply grow
  · intro st i; simp
  · dsimp only
    cases Nat.decLe 2 tns.length <;> simp

theorem totalNumVariantsProduct_eq (tns : List Toks) : totalNumVariantsProduct tns = some (Macro.totalNumVariantsProduct tns) := by
  show (numVariantsProduct (tns ++ [[]]) >>= fun product => product.getLast?) = _
  rw [numVariantsProduct_eq]
  show (Macro.numVariantsProduct (tns ++ [[]])).getLast? = some ((Macro.numVariantsProduct (tns ++ [[]])).getLastD [])
  rw [List.getLast?_eq_some_getLast (numVariantsProduct_ne _), List.getLastD_eq_getLast?, List.getLast?_eq_some_getLast (numVariantsProduct_ne _)]
  rfl

theorem fromDiscrBody_eq (fns tns : List Toks) (value : Toks) : fromDiscrBody fns tns value = some (Macro.fromDiscrBody fns tns value) := by
  have hrem : ∀ tn ∈ tns.take (tns.length - 1), q_from_discr_body_0.fill [(word% "tn", .one tn)] = some ([.dot, .wrapping_rem, .lpar] ++ Macro.qself tn ++ [.NUM_VARIANTS, .rpar]) := by
    intro tn _
    show some _ = some _
    simp [Macro.qself]
  unfold fromDiscrBody Macro.fromDiscrBody
  rw [numVariantsProduct_eq]
  simp only [Option.bind_eq_bind, Option.bind_some, mapM_some _ hrem]
  generalize Macro.numVariantsProduct tns = product
  show (q_from_discr_body_2.fill [(word% "value_r", .forever value), (word% "product", .list product), (word% "rem", .list (_ ++ [[]])), (word% "field_names", .list fns),
    (word% "type_names", .list tns)]) = _
  generalize (tns.take (tns.length - 1)).map _ ++ [[]] = rem
  show (do
    let parts ← (List.range (min fns.length (min tns.length (min product.length _)))).mapM fun k => _
    return parts.flatten ++ []) = _
  rw [mapM_range]
  · simp only [Option.pure_def, Option.bind_eq_bind, Option.bind_some, List.append_nil]
    rfl
  · intro k hk
    simp only [List.length_map, List.length_zip, Nat.lt_min] at hk
    simp [Q.flat, Env.round, List.lookup, hk, Macro.qself]
  · simp

theorem fill_tok {e : Env} {t : Tok} {r : Q} {ts : Toks} (h : r.fill e = some ts) : (Q.tok t r).fill e = some (t :: ts) := by simp [Q.fill, h]

theorem fill_one {e : Env} {x : List Char} {t : Toks} {r : Q} {ts : Toks} (hx : e.lookup x = some (.one t)) (h : r.fill e = some ts) : (Q.hole x r).fill e = some (t ++ ts) := by simp [Q.fill, hx, h]

theorem fill_rep {e : Env} {i r : Q} {ts : Toks} {n : Nat} (parts : List Toks) (hn : e.rounds i.holes = some (some n)) (hl : n = parts.length)
    (hp : ∀ k (hk : k < parts.length), i.flat (e.round k) = some parts[k]) (h : r.fill e = some ts) : (Q.rep i r).fill e = some (parts.flatten ++ ts) := by
  simp only [Q.fill, hn, mapM_range parts hp hl, h]; rfl

/-- Fill up to the next repetition. -/
local macro "fill_up" : tactic => `(tactic| repeat (first | exact (rfl : Q.fill _ Q.nil = some []) | apply fill_tok | (apply fill_one; rfl)))

/-- The tokens of a round. -/
local macro "fill_round" : tactic => `(tactic| (intro k hk; (try simp only [List.length_map, List.length_zip, Nat.lt_min] at hk); simp [Q.flat, Env.round, List.lookup, hk, Macro.qself]))

theorem toDiscrBody_some (fns tns : List Toks) (offset : Toks) (xs : List Tok) : toDiscrBody fns tns offset (some xs) = some (Macro.toDiscrBody fns tns offset (some xs)) := by
  unfold toDiscrBody Macro.toDiscrBody
  rw [numVariantsProduct_eq]
  simp only [Option.bind_eq_bind, Option.bind_some]
  generalize Macro.numVariantsProduct tns = product
  refine Eq.trans (b := some _) (by
    unfold q_to_discr_body_0
    fill_up
    apply fill_rep ((product.zip (tns.zip xs)).map fun (p, tn, x) => [.plus] ++ p ++ [.star] ++ Macro.qself tn ++ [.to_discr, .lpar, x, .rpar])
    · rfl
    · simp
    · fill_round
    · rfl) ?_
  simp

theorem toDiscrBody_none (fns tns : List Toks) (offset : Toks) : toDiscrBody fns tns offset none = some (Macro.toDiscrBody fns tns offset none) := by
  unfold toDiscrBody Macro.toDiscrBody
  rw [numVariantsProduct_eq]
  simp only [Option.bind_eq_bind, Option.bind_some]
  generalize Macro.numVariantsProduct tns = product
  refine Eq.trans (b := some _) (by
    unfold q_to_discr_body_1
    fill_up
    apply fill_rep ((product.zip (tns.zip fns)).map fun (p, tn, f) => [.plus] ++ p ++ [.star] ++ Macro.qself tn ++ [.to_discr, .lpar, .self_, .dot] ++ f ++ [.rpar])
    · rfl
    · simp
    · fill_round
    · rfl) ?_
  simp

theorem printNumVariants_eq (m : MatchArm) : printNumVariants m = some m.printNumVariants := by
  unfold printNumVariants MatchArm.printNumVariants
  split
  · rfl
  · exact totalNumVariantsProduct_eq _

theorem printNextRangeHigh_eq (m : MatchArm) (h : m.dataFields ≠ 0) : printNextRangeHigh m = some m.printNextRangeHigh := by
  unfold printNextRangeHigh
  rw [if_neg h, printNumVariants_eq]
  show some _ = some _
  simp [MatchArm.printNextRangeHigh]

theorem fromFields_eq (name : List Char) (fields : Fields) (offset : Nat) (rh : Toks) (h : fields ≠ .unit ∧ fields ≠ .named [] ∧ fields ≠ .unnamed []) :
    fromFields name fields offset rh = some (MatchArm.fromFields name fields offset rh) := by
  unfold fromFields MatchArm.fromFields
  cases fields with
  | unit => exact absurd rfl h.1
  | named fs =>
    have : fs ≠ [] := fun e => h.2.1 (by rw [e])
    simp only [Option.pure_def, Option.bind_eq_bind, Option.bind_some]
    rw [printNextRangeHigh_eq _ (by simpa using this)]; rfl
  | unnamed ts =>
    have : ts ≠ [] := fun e => h.2.2 (by rw [e])
    simp only [Option.pure_def, Option.bind_eq_bind]
    rw [mapM_some (f := fun i => Q.fill [(word% "i", Bind.one [Tok.int i])] q_from_fields_0) (g := fun i => [Tok.int i]) _ (fun i _ => rfl)]
    simp only [Option.bind_some]
    rw [printNextRangeHigh_eq _ (by simpa using this)]; rfl

theorem printToDiscr_eq (m : MatchArm) (parent : List Char) : printToDiscr m parent = some (m.printToDiscr parent) := by
  unfold printToDiscr MatchArm.printToDiscr
  split
  · rfl
  · have : q_print_to_discr_1.fill [(word% "range_high", .one m.rangeHigh), (word% "offset", .one [.int m.offset])] = some ([.int m.offset, .plus] ++ m.rangeHigh) := by
      show some _ = some _
      simp
    rw [this]
    simp only [Option.bind_eq_bind, Option.bind_some]
    rw [toDiscrBody_some]
    simp only [Option.bind_some]
    generalize Macro.toDiscrBody _ _ _ _ = body
    generalize (m.fieldNames.map fun f => Tok.id ('x' :: Macro.text f)) = xs
    refine Eq.trans (b := some _) (by
      unfold q_print_to_discr_2
      fill_up
      apply fill_rep ((m.fieldNames.zip xs).map fun (f, x) => f ++ [.colon, x, .comma])
      · rfl
      · simp
      · fill_round
      · fill_up) ?_
    simp

theorem printFromDiscr_eq (m : MatchArm) (parent : List Char) : printFromDiscr m parent = some (m.printFromDiscr parent) := by
  unfold printFromDiscr MatchArm.printFromDiscr
  split
  · rfl
  · rename_i h
    rw [printNextRangeHigh_eq m h]
    simp only [Option.bind_eq_bind, Option.bind_some]
    have : q_print_from_discr_1.fill [(word% "range_high", .one m.rangeHigh), (word% "offset", .one [.int m.offset])] =
        some ([.id ['x'], .minus, .int m.offset, .minus, .lpar] ++ m.rangeHigh ++ [.rpar]) := by
      show some _ = some _
      simp
    rw [this]
    simp only [Option.bind_some]
    rw [fromDiscrBody_eq]
    show some _ = some _
    simp

theorem unitArms_eq (vs : List Variant) : unitArms vs = some (Macro.unitArms vs) := by
  unfold unitArms Macro.unitArms
  apply foldlM_some
  intro x v
  rcases v with ⟨n, fs, d⟩
  cases fs <;> rfl

theorem allVariantsOf_eq (vs : List Variant) : allVariantsOf vs = Macro.allVariantsOf vs := by
  unfold allVariantsOf Macro.allVariantsOf
  rw [unitArms_eq]
  simp only [Option.bind_eq_bind, Option.bind_some]
  generalize Macro.unitArms vs = x
  generalize x.length = offset
  have none_ : ∀ (g : Option (List MatchArm × Toks) → Variant → Option (List MatchArm × Toks)), (∀ v, g none v = none) → ∀ l : List Variant, l.foldl g none = none := by
    intro g hg l
    induction l with
    | nil => rfl
    | cons a l ih => rw [List.foldl_cons, hg, ih]
  have all : ∀ (f : List MatchArm × Toks → Variant → Option (List MatchArm × Toks)) (g : Option (List MatchArm × Toks) → Variant → Option (List MatchArm × Toks)), (∀ v, g none v = none) →
      (∀ st v, f st v = g (some st) v) → ∀ (l : List Variant) st, l.foldlM f st = l.foldl g (some st) := by
    intro f g h0 h1 l
    induction l with
    | nil => intro st; rfl
    | cons v l ih =>
      intro st
      rw [List.foldlM_cons, List.foldl_cons, h1]
      cases h : g (some st) v with
      | none => rw [none_ g h0]; rfl
      | some st' => exact ih st'
  show (vs.foldlM _ (x, [Tok.int 0]) >>= fun st => some st.1) = _
  have bm : ∀ o : Option (List MatchArm × Toks), (o >>= fun st => some st.1) = o.map (·.1) := fun o => by cases o <;> rfl
  rw [bm]
  refine congrArg _ (all _ _ ?_ ?_ vs _)
  · intro v; rfl
  · intro st v
    rcases v with ⟨n, fs, d⟩
    cases fs with
    | unit => rfl
    | named fs =>
      cases fs with
      | nil => rfl
      | cons f fs => show (fromFields _ _ _ _ >>= _) = _; rw [fromFields_eq _ _ _ _ (by simp)]; rfl
    | unnamed fs =>
      cases fs with
      | nil => rfl
      | cons f fs => show (fromFields _ _ _ _ >>= _) = _; rw [fromFields_eq _ _ _ _ (by simp)]; rfl

theorem addTraitBounds_eq (g : Generics) : addTraitBounds g = some (Macro.addTraitBounds g) := by
  unfold addTraitBounds Macro.addTraitBounds
  rw [mapM_some (g := fun p => match p with
      | .type name bounds default => .type name (bounds.push .enumLike) default
      | p => p)]
  · rfl
  · intro p _
    cases p <;> rfl

theorem implEnumLike_eq (name : List Char) (g : Generics) (body : Toks) : implEnumLike name g body = some (Macro.implEnumLike name g body) := by
  unfold implEnumLike Macro.implEnumLike
  rw [addTraitBounds_eq]
  show some _ = some _
  simp

theorem generateUnitStructImpl_eq (name : List Char) (g : Generics) (unit : Bool) :
    generateUnitStructImpl name g unit = some (Macro.implEnumLike name g (Macro.generateUnitStructImpl name unit)) := by
  cases unit
  · exact implEnumLike_eq name g _
  · exact implEnumLike_eq name g _

theorem generateStructManyElem_eq (name : List Char) (g : Generics) (fns tns : List Toks) :
    generateStructManyElem name g fns tns = some (Macro.implEnumLike name g (Macro.generateStructManyElem fns tns)) := by
  unfold generateStructManyElem Macro.generateStructManyElem
  show (fromDiscrBody fns tns [.id Macro.valueId] >>= fun fromDiscr0 => toDiscrBody fns tns [.int 0] none >>= fun toDiscr0 => totalNumVariantsProduct tns >>= fun total => _) = _
  rw [fromDiscrBody_eq, toDiscrBody_none, totalNumVariantsProduct_eq]
  simp only [Option.bind_eq_bind, Option.bind_some]
  rw [← implEnumLike_eq]
  generalize Macro.fromDiscrBody _ _ _ = a
  generalize Macro.toDiscrBody _ _ _ _ = b
  generalize Macro.totalNumVariantsProduct _ = c
  show implEnumLike name g _ = _
  congr 1
  simp [Macro.implBody, Macro.valueId]

theorem generateStructWithFields_eq (name : List Char) (g : Generics) (fields : List (Option (List Char) × Nat)) :
    generateStructWithFields name g fields = some (Macro.implEnumLike name g (Macro.generateStructWithFields name fields)) := by
  cases fields with
  | nil => exact generateUnitStructImpl_eq name g false
  | cons f fs =>
    unfold generateStructWithFields Macro.generateStructWithFields
    simp only [List.length_cons]
    rw [mapM_some (g := fun ((f, i) : (Option (List Char) × Nat) × Nat) => match f.1 with
      | some x => [.id x]
      | none => [.int i])]
    · exact generateStructManyElem_eq name g _ _
    · intro fi _
      rcases fi with ⟨⟨o, t⟩, i⟩
      cases o <;> rfl

theorem generateStructCode_eq (name : List Char) (g : Generics) (fields : Fields) :
    generateStructCode name g fields = some (Macro.implEnumLike name g (Macro.generateStructCode name fields)) := by
  cases fields
  · exact generateUnitStructImpl_eq name g true
  · exact generateStructWithFields_eq name g _
  · exact generateStructWithFields_eq name g _

theorem generateCEnumCode_eq (name : List Char) (g : Generics) (vs : List Variant) :
    generateCEnumCode name g vs = some (Macro.implEnumLike name g (Macro.generateCEnumCode name vs)) := by
  rw [← implEnumLike_eq]
  refine Eq.trans (congrArg (fun o => o >>= fun body => implEnumLike name g body) (?_ : _ = some (Macro.generateCEnumCode name vs))) rfl
  · refine Eq.trans (b := some _) (by
      unfold q_generate_c_enum_code_0
      fill_up
      apply fill_rep (((List.range vs.length).zip (vs.map fun v => v.ident)).map fun (k, v) => [.int k, .fatArrow, .id name, .coloncolon, .id v, .comma])
      · rfl
      · simp
      · fill_round
      · fill_up
        apply fill_rep (((List.range vs.length).zip (vs.map fun v => v.ident)).map fun (k, v) => [.id name, .coloncolon, .id v, .fatArrow, .int k, .comma])
        · rfl
        · simp
        · fill_round
        · fill_up) ?_
    simp [Macro.generateCEnumCode, Macro.implBody, Macro.valueId]

theorem generateRustyEnumCode_eq (name : List Char) (g : Generics) (vs : List Variant) :
    generateRustyEnumCode name g vs = (Macro.generateRustyEnumCode name vs).map (Macro.implEnumLike name g) := by
  unfold generateRustyEnumCode Macro.generateRustyEnumCode
  rw [allVariantsOf_eq]
  cases Macro.allVariantsOf vs with
  | none => rfl
  | some arms =>
    simp only [Option.bind_eq_bind, Option.bind_some, Option.pure_def, Option.map_some]
    rw [mapM_some arms fun m _ => printFromDiscr_eq m name, mapM_some arms fun m _ => printToDiscr_eq m name, mapM_some arms fun m _ => printNumVariants_eq m]
    simp only [Option.bind_some]
    generalize arms.map (fun m => m.printFromDiscr name) = from_
    generalize arms.map (fun m => m.printToDiscr name) = to_
    generalize arms.map (fun m => m.printNumVariants) = num
    have hcount : q_generate_rusty_enum_code_0.fill [(word% "enum_count_s", .list num)] = some ((num.map fun e => e ++ [.plus]).flatten ++ [.int 0]) := by
      unfold q_generate_rusty_enum_code_0
      apply fill_rep (num.map fun e => e ++ [Tok.plus])
      · rfl
      · simp
      · fill_round
      · rfl
    rw [hcount]
    simp only [Option.bind_some]
    generalize (num.map fun e => e ++ [Tok.plus]).flatten ++ [Tok.int 0] = count
    have hbody : q_generate_rusty_enum_code_1.fill [(word% "enum_count", .one count), (word% "match_arm_to", .list to_), (word% "match_arm_from", .list from_), (word% "name", .one [.id name])] =
        some (Macro.implBody count Macro.valueId ([.match_, .id Macro.valueId, .lbrace] ++ from_.flatten ++ [.underscore, .fatArrow, .unreachable, .rbrace])
          ([.match_, .self_, .lbrace] ++ to_.flatten ++ [.rbrace])) := by
      refine Eq.trans (b := some _) (by
        unfold q_generate_rusty_enum_code_1
        fill_up
        apply fill_rep from_
        · rfl
        · simp
        · fill_round
        · fill_up
          apply fill_rep to_
          · rfl
          · simp
          · fill_round
          · fill_up) ?_
      simp [Macro.implBody, Macro.valueId]
    rw [hbody]
    exact implEnumLike_eq name g _

/-- C89: for every declaration, the derive macro prints the text of its templates, filled in as the model of C52 and C59 does, and it panics where the model does. -/
theorem C89_derive (d : Item) : deriveItem d = Macro.deriveItem d := by
  rcases d with ⟨g, data⟩
  cases data with
  | struct name fields => exact generateStructCode_eq name g fields
  | union name => rfl
  | enum name vs =>
    show generateEnumCode name g vs = (Macro.generateEnumCode name vs).map _
    unfold generateEnumCode Macro.generateEnumCode
    split
    · exact generateCEnumCode_eq name g vs
    · exact generateRustyEnumCode_eq name g vs

/-- **C89** (what is accepted). No template fails: the macro panics for unions, and for enums with a variant that has `()` or `{}` without fields inside, and for nothing else. -/
theorem C89_accepts (d : Item) : deriveItem d = none ↔
    match d.data with
    | .struct _ _ => False
    | .enum _ vs => ∃ v ∈ vs, v.fields = .named [] ∨ v.fields = .unnamed []
    | .union _ => True := by
  rw [C89_derive, show Macro.deriveItem d = none ↔ Macro.derive d.data = none by simp [Macro.deriveItem]]
  exact Macro.C52_accepts d.data

/-- **C89** (contract). What the templates print has exactly one reading as a Rust impl: it is an impl for exactly those instances of the declared type whose type arguments all implement `EnumLike`, and if the impls of the field types
of an instance keep the contract, it keeps it for this instance. -/
theorem C89_contract {build : Build} {d : Item} {ts : Toks} (hd : d.data.Valid build) (hg : d.generics.Valid) (hts : deriveItem d = some ts) :
    ∃ h i, Macro.ParsesItem ts h i ∧ (∀ h' i', Macro.ParsesItem ts h' i' → h' = h ∧ i' = i) ∧ h.self_ = d.data.name ∧
      ∀ (W : Macro.Universe) (args : List W.Arg), (h.Applies args ↔ d.generics.Instance args ∧ ∀ t, .ty t ∈ args → W.enumLike t) ∧
        ∀ (I : List W.Arg → Macro.Interp) (num : List W.Arg → Nat → Nat), Macro.FieldImpls build (I args) (num args) → ∀ n, i.evalConst (I args) build = .ok n →
          n = d.data.size (num args) ∧ Macro.Lawful build n (Macro.Input.Has (I := I args) d.data) (i.evalTo build d.data) (i.evalFrom build d.data) := by
  rw [C89_derive] at hts
  obtain ⟨h, i, h1, h2, h3, -, h5⟩ := Macro.C59_applies hd hg hts
  exact ⟨h, i, h1, h2, h3, fun W args => ⟨h5 W args, fun I num hI n hn => Macro.C59_instances hd hg hts h1 args hI n hn⟩⟩

/-! ## Non-trivial cases -/

/-- `struct P { a: X, b: Y }`, printed from the text. -/
example : deriveItem ⟨⟨⟨[], false⟩, ⟨[], false⟩⟩, .struct ['P'] (.named [(['a'], 0), (['b'], 1)])⟩ = some (
    [.unsafe_, .impl_, .enumLike, .for_, .id ['P'], .lbrace, .const_, .NUM_VARIANTS, .colon, .usize, .eq,
      .lt, .ty 0, .as_, .enumLike, .gt, .coloncolon, .NUM_VARIANTS, .star, .lt, .ty 1, .as_, .enumLike, .gt, .coloncolon, .NUM_VARIANTS, .semi,
      .fn_, .from_discr, .lpar, .id Macro.valueId, .colon, .usize, .rpar, .arrow, .Self_, .lbrace, .Self_, .lbrace,
      .id ['a'], .colon, .lt, .ty 0, .as_, .enumLike, .gt, .coloncolon, .from_discr, .lpar, .lpar, .id Macro.valueId, .rpar, .dot, .wrapping_div, .lpar, .int 1, .rpar,
        .dot, .wrapping_rem, .lpar, .lt, .ty 0, .as_, .enumLike, .gt, .coloncolon, .NUM_VARIANTS, .rpar, .rpar, .comma,
      .id ['b'], .colon, .lt, .ty 1, .as_, .enumLike, .gt, .coloncolon, .from_discr, .lpar, .lpar, .id Macro.valueId, .rpar, .dot, .wrapping_div, .lpar,
        .lt, .ty 0, .as_, .enumLike, .gt, .coloncolon, .NUM_VARIANTS, .rpar, .rpar, .comma,
      .rbrace, .rbrace,
      .fn_, .to_discr, .lpar, .self_, .rpar, .arrow, .usize, .lbrace, .lpar, .int 0, .rpar,
      .plus, .int 1, .star, .lt, .ty 0, .as_, .enumLike, .gt, .coloncolon, .to_discr, .lpar, .self_, .dot, .id ['a'], .rpar,
      .plus, .lt, .ty 0, .as_, .enumLike, .gt, .coloncolon, .NUM_VARIANTS, .star, .lt, .ty 1, .as_, .enumLike, .gt, .coloncolon, .to_discr, .lpar, .self_, .dot, .id ['b'], .rpar,
      .rbrace, .rbrace]) := rfl

/-- The generic enum of C59 is printed from the text, and its declaration meets the hypotheses of `C89_contract`. -/
example : ∃ ts, deriveItem Macro.exItem = some ts ∧ Macro.exItem.data.Valid EnumVecModel.debug64 ∧ Macro.exItem.generics.Valid :=
  ⟨_, (C89_derive _).trans rfl, Macro.exEnum_valid _, Macro.exItem_valid⟩

/-- A variant with an empty list of fields: the macro panics. -/
example : deriveItem ⟨⟨⟨[], false⟩, ⟨[], false⟩⟩, .enum ['E'] [⟨['A'], .unnamed [], none⟩]⟩ = none := rfl

end Quote
end EnumVecModel
