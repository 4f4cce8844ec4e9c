import Verif.Lemmas.MacroParse

/-! # The meaning of the printed expressions -/

namespace EnumVecModel
namespace Macro

open EnumLike

variable {I : Interp} (build : Build)

/-! ### evaluation of integer expressions -/

section
variable (env : Env I) (a b : Ex)

theorem evalNum_add : evalNum build env (.add a b) = (do uAdd build (← evalNum build env a) (← evalNum build env b)) := by
  unfold evalNum; rw [eval]
  rcases eval build env a with _ | ⟨_ | _⟩ <;> rcases eval build env b with _ | ⟨_ | _⟩ <;> try rfl
  next x y => show (do asNum (← (do return Val.num (← uAdd build x y)))) = uAdd build x y
              rcases uAdd build x y with _ | _ <;> rfl

theorem evalNum_sub : evalNum build env (.sub a b) = (do uSub build (← evalNum build env a) (← evalNum build env b)) := by
  unfold evalNum; rw [eval]
  rcases eval build env a with _ | ⟨_ | _⟩ <;> rcases eval build env b with _ | ⟨_ | _⟩ <;> try rfl
  next x y => show (do asNum (← (do return Val.num (← uSub build x y)))) = uSub build x y
              rcases uSub build x y with _ | _ <;> rfl

theorem evalNum_mul : evalNum build env (.mul a b) = (do uMul build (← evalNum build env a) (← evalNum build env b)) := by
  unfold evalNum; rw [eval]
  rcases eval build env a with _ | ⟨_ | _⟩ <;> rcases eval build env b with _ | ⟨_ | _⟩ <;> try rfl
  next x y => show (do asNum (← (do return Val.num (← uMul build x y)))) = uMul build x y
              rcases uMul build x y with _ | _ <;> rfl

theorem evalNum_div : evalNum build env (.wrappingDiv a b) = (do uDiv (← evalNum build env a) (← evalNum build env b)) := by
  unfold evalNum; rw [eval]
  rcases eval build env a with _ | ⟨_ | _⟩ <;> rcases eval build env b with _ | ⟨_ | _⟩ <;> try rfl
  next x y => show (do asNum (← (do return Val.num (← uDiv x y)))) = uDiv x y
              rcases uDiv x y with _ | _ <;> rfl

theorem evalNum_rem : evalNum build env (.wrappingRem a b) = (do uRem (← evalNum build env a) (← evalNum build env b)) := by
  unfold evalNum; rw [eval]
  rcases eval build env a with _ | ⟨_ | _⟩ <;> rcases eval build env b with _ | ⟨_ | _⟩ <;> try rfl
  next x y => show (do asNum (← (do return Val.num (← uRem x y)))) = uRem x y
              rcases uRem x y with _ | _ <;> rfl

theorem evalNum_lit {n : Nat} (h : n < build.usizeLim) : evalNum build env (.lit n) = .ok n := by
  unfold evalNum; rw [eval, if_pos h]; rfl

theorem evalNum_numVariants (t : Nat) : evalNum build env (.numVariants t) = (I t).2.num := by
  unfold evalNum; rw [eval]
  rcases (I t).2.num with _ | _ <;> rfl

theorem evalNum_toDiscr {e : Ex} {t : Nat} {v : (I t).1} (h : eval build env e = .ok (.field ⟨t, v⟩)) :
    evalNum build env (.toDiscr t e) = (I t).2.toDiscr v := by
  unfold evalNum; rw [eval, h]
  simp only [bind, Except.bind, toDiscrOf, if_true]
  rcases (I t).2.toDiscr v with _ | _ <;> rfl

theorem eval_fromDiscr {e : Ex} {t : Nat} : eval build env (.fromDiscr t e) =
    (do
      let k ← evalNum build env e
      let v ← (I t).2.fromDiscr k
      return Val.field ⟨t, v⟩) := by
  unfold evalNum; rw [eval]
  rcases eval build env e with _ | ⟨_ | _⟩ <;> rfl

end

/-! ### lists of related things -/

/-- Same length, and related at every place. -/
def All2 {α β : Type} (R : α → β → Prop) : List α → List β → Prop
  | [], [] => True
  | a :: as, b :: bs => R a b ∧ All2 R as bs
  | _, _ => False

theorem All2.length {α β : Type} {R : α → β → Prop} : ∀ {as : List α} {bs : List β}, All2 R as bs → as.length = bs.length
  | [], [], _ => rfl
  | _ :: _, _ :: _, h => by simp [All2.length h.2]

theorem All2.snoc {α β : Type} {R : α → β → Prop} {a : α} {b : β} : ∀ {as : List α} {bs : List β}, All2 R as bs → R a b → All2 R (as ++ [a]) (bs ++ [b])
  | [], [], _, h => ⟨h, trivial⟩
  | _ :: _, _ :: _, h, h' => ⟨h.1, All2.snoc h.2 h'⟩

theorem All2.last {α β : Type} {R : α → β → Prop} {x : α} {y : β} : ∀ {as : List α} {bs : List β}, All2 R as bs → as ≠ [] → R (as.getLastD x) (bs.getLastD y)
  | [], [], _, h => absurd rfl h
  | [_], [_], h, _ => h.1
  | [_], _ :: _ :: _, h, _ => h.2.elim
  | _ :: _ :: _, [_], h, _ => h.2.elim
  | _ :: a :: as, _ :: b :: bs, h, _ => by
    have := All2.last (x := x) (y := y) (as := a :: as) (bs := b :: bs) h.2 (by simp)
    simpa [List.getLastD] using this

/-! ### products -/

/-- `ts` is a product with value `v`. -/
def ProdDen (I : Interp) (build : Build) (ts : Toks) (v : Except Fault Nat) : Prop :=
  ∃ e, ProdG ts e ∧ ∀ env : Env I, evalNum build env e = v

theorem ProdDen.lit {n : Nat} (h : n < build.usizeLim) : ProdDen I build [.int n] (.ok n) :=
  ⟨.lit n, (AtomG.lit n).prod, fun env => evalNum_lit build env h⟩

theorem ProdDen.numVariants (t : Nat) : ProdDen I build (qself [.ty t] ++ [.NUM_VARIANTS]) (I t).2.num :=
  ⟨.numVariants t, (AtomG.numVariants t).prod, fun env => evalNum_numVariants build env t⟩

theorem ProdDen.mul {ts : Toks} {v : Except Fault Nat} (h : ProdDen I build ts v) (t : Nat) :
    ProdDen I build (ts ++ [.star] ++ qself [.ty t] ++ [.NUM_VARIANTS]) (do uMul build (← v) (← (I t).2.num)) := by
  obtain ⟨e, h1, h2⟩ := h
  refine ⟨.mul e (.numVariants t), ?_, fun env => ?_⟩
  · have := h1.mul (AtomG.numVariants t).post
    simpa only [List.append_assoc] using this
  · rw [evalNum_mul, h2, evalNum_numVariants]

/-- The two loops run in step. -/
theorem products_step (names : List Toks) (ns : List (Except Fault Nat)) : ∀ (L : List Nat) (st : Toks × List Toks) (ps : List (Except Fault Nat)),
    (∀ i ∈ L, ∃ t, names.getD (i - 1) [] = [.ty t] ∧ ns.getD (i - 1) (.ok 1) = (I t).2.num) →
    ProdDen I build st.1 (ps.getLastD (.ok 1)) → All2 (ProdDen I build) st.2 ps →
    All2 (ProdDen I build)
      (L.foldl (fun (st : Toks × List Toks) i =>
        let lastP := st.1 ++ [.star] ++ qself (names.getD (i - 1) []) ++ [.NUM_VARIANTS]
        (lastP, st.2 ++ [lastP])) st).2
      (L.foldl (fun ps i => ps ++ [do uMul build (← ps.getLastD (.ok 1)) (← ns.getD (i - 1) (.ok 1))]) ps)
  | [], _, _, _, _, h => h
  | i :: L, st, ps, hL, h1, h2 => by
    obtain ⟨t, ht, hn⟩ := hL i (by simp)
    simp only [List.foldl_cons]
    have hp := h1.mul build t
    refine products_step names ns L _ _ (fun j hj => hL j (by simp [hj])) ?_ ?_
    · simp only [ht, hn, List.getLastD_concat]; exact hp
    · refine h2.snoc ?_
      simp only [ht, hn]; exact hp

/-- The types of the fields, as the macro sees them and as the model sees them. -/
theorem products_den (ts : List Nat) (extraT : List Toks) (extraN : List (Except Fault Nat)) (hT : extraT.length ≤ 1) (hN : extraN.length = extraT.length) :
    All2 (ProdDen I build) (numVariantsProduct (ts.map (fun t => [.ty t]) ++ extraT)) (Mach.products build (ts.map (fun t => (I t).2.num) ++ extraN)) := by
  have hone : ProdDen I build [.int 1] (.ok 1) := ProdDen.lit build (build.lt_usizeLim (by decide))
  have hget : ∀ i, i < ts.length → ∃ t, (ts.map (fun t => [Tok.ty t]) ++ extraT).getD i [] = [.ty t] ∧
      ∀ d, (ts.map (fun t => (I t).2.num) ++ extraN).getD i d = (I t).2.num := by
    intro i hi
    refine ⟨ts[i], ?_, fun d => ?_⟩ <;>
      rw [List.getD_eq_getElem?_getD, List.getElem?_append_left (by simpa using hi), List.getElem?_map, List.getElem?_eq_getElem hi] <;> rfl
  unfold numVariantsProduct Mach.products
  simp only [List.length_append, List.length_map, hN]
  by_cases h2 : 2 ≤ ts.length + extraT.length
  · rw [if_pos h2, if_pos h2]
    obtain ⟨t, ht, hn⟩ := hget 0 (by omega)
    refine products_step build _ _ _ _ _ (fun i hi => ?_) ?_ ?_
    · have := (List.mem_range'_1.mp hi)
      obtain ⟨t, ht, hn⟩ := hget (i - 1) (by omega)
      exact ⟨t, ht, hn _⟩
    · simp only [ht, hn, List.getLastD_cons, List.getLastD_nil]; exact ProdDen.numVariants build t
    · refine ⟨hone, ?_, trivial⟩
      simp only [ht, hn]; exact ProdDen.numVariants build t
  · rw [if_neg h2, if_neg h2]
    have : ts.length + extraT.length - 2 = 0 := by omega
    rw [this]
    exact ⟨hone, trivial⟩

theorem products_length (names : List Toks) (h : names ≠ []) : (numVariantsProduct names).length = names.length := by
  have key : ∀ (L : List Nat) (st : Toks × List Toks), (L.foldl (fun (st : Toks × List Toks) i =>
        let lastP := st.1 ++ [.star] ++ qself (names.getD (i - 1) []) ++ [.NUM_VARIANTS]
        (lastP, st.2 ++ [lastP])) st).2.length = st.2.length + L.length := by
    intro L
    induction L with
    | nil => intro st; rfl
    | cons i L ih => intro st; rw [List.foldl_cons, ih]; simp; omega
  have hl : 0 < names.length := List.length_pos_iff.mpr h
  unfold numVariantsProduct
  dsimp only
  split <;> rw [key] <;> simp <;> omega

/-- The functions of an impl without panics; they are what the machine computes if it does not panic. -/
def toPure {α : Type} (m : Mach α) : EnumLike α where
  num := match m.num with
    | .ok n => n
    | .error _ => 0
  toDiscr a := match m.toDiscr a with
    | .ok k => k
    | .error _ => 0
  fromDiscr x := match m.fromDiscr x with
    | .ok a => some a
    | .error _ => none

/-- Names and types of fields as types of the model. -/
@[reducible] def comps (I : Interp) : List (Tok × Nat) → Mach.MComps
  | [] => []
  | (_, t) :: ds => ⟨(I t).1, toPure (I t).2, (I t).2⟩ :: comps I ds

theorem comps_nums : ∀ ds : List (Tok × Nat), Mach.nums (comps I ds) = (ds.map (·.2)).map fun t => (I t).2.num
  | [] => rfl
  | (_, t) :: ds => by
    have := comps_nums ds
    simp only [Mach.nums, comps, List.map_cons] at this ⊢
    rw [this]

/-- Type tokens of the fields. -/
def typeToks (ds : List (Tok × Nat)) : List Toks := ds.map fun d => [.ty d.2]

theorem typeToks_eq (ds : List (Tok × Nat)) : typeToks ds = (ds.map (·.2)).map fun t => [Tok.ty t] := by
  simp [typeToks]

theorem fieldProducts_den (ds : List (Tok × Nat)) :
    All2 (ProdDen I build) (numVariantsProduct (typeToks ds)) (Mach.products build (Mach.nums (comps I ds))) := by
  have := products_den (I := I) build (ds.map (·.2)) [] [] (by simp) rfl
  rw [List.append_nil, List.append_nil] at this
  rw [typeToks_eq, comps_nums]; exact this

theorem total_den (ds : List (Tok × Nat)) : ProdDen I build (totalNumVariantsProduct (typeToks ds)) (Mach.totalNum build (comps I ds)) := by
  have := products_den (I := I) build (ds.map (·.2)) [[]] [.ok 0] (by simp) rfl
  unfold totalNumVariantsProduct Mach.totalNum
  rw [typeToks_eq, comps_nums]
  refine this.last ?_
  intro h
  have := products_length ((ds.map (·.2)).map (fun t => [Tok.ty t]) ++ [[]]) (by simp)
  rw [h] at this
  simp at this

/-! ### sums -/

/-- `ts` is a sum with value `v`. -/
def SumDen (I : Interp) (build : Build) (ts : Toks) (v : Except Fault Nat) : Prop :=
  ∃ e, SumG ts e ∧ ∀ env : Env I, evalNum build env e = v

theorem ProdDen.sum {ts : Toks} {v : Except Fault Nat} (h : ProdDen I build ts v) : SumDen I build ts v := by
  obtain ⟨e, h1, h2⟩ := h
  exact ⟨e, h1.sum, h2⟩

theorem SumDen.add {ts ts' : Toks} {v v' : Except Fault Nat} (h : SumDen I build ts v) (h' : ProdDen I build ts' v') :
    SumDen I build (ts ++ [.plus] ++ ts') (do uAdd build (← v) (← v')) := by
  obtain ⟨e, h1, h2⟩ := h
  obtain ⟨e', h1', h2'⟩ := h'
  exact ⟨.add e e', h1.add h1', fun env => by rw [evalNum_add, h2, h2']⟩

/-- `s0 + s1 + …` -/
def joinPlus : List Toks → Toks
  | [] => []
  | t :: l => l.foldl (fun acc s => acc ++ [.plus] ++ s) t

theorem joinPlus_den : ∀ {l : List Toks} {vs : List (Except Fault Nat)}, All2 (ProdDen I build) l vs → l ≠ [] → SumDen I build (joinPlus l) (Mach.sum build vs)
  | [], _, _, h => absurd rfl h
  | _ :: _, [], h, _ => h.elim
  | t :: l, v :: vs, h, _ => by
    have key : ∀ (l : List Toks) (vs : List (Except Fault Nat)) (t : Toks) (v : Except Fault Nat), All2 (ProdDen I build) l vs → SumDen I build t v →
        SumDen I build (l.foldl (fun acc s => acc ++ [.plus] ++ s) t) (vs.foldl (fun acc m => do uAdd build (← acc) (← m)) v) := by
      intro l
      induction l with
      | nil => intro vs t v h h'; cases vs with
        | nil => exact h'
        | cons => exact h.elim
      | cons s l ih => intro vs t v h h'; cases vs with
        | nil => exact h.elim
        | cons w vs => exact ih vs _ _ h.2 (h'.add build h.1)
    exact key l vs t v h.2 (h.1.sum build)

theorem joinPlus_snoc {l : List Toks} (h : l ≠ []) (t : Toks) : joinPlus (l ++ [t]) = joinPlus l ++ [.plus] ++ t := by
  cases l with
  | nil => exact absurd rfl h
  | cons a l => simp [joinPlus, List.foldl_append]

theorem foldl_plus_append (a b : Toks) : ∀ l : List Toks, l.foldl (fun acc s => acc ++ [.plus] ++ s) (a ++ b) = a ++ l.foldl (fun acc s => acc ++ [.plus] ++ s) b
  | [] => rfl
  | s :: l => by
    simp only [List.foldl_cons]
    rw [← foldl_plus_append a _ l]; simp only [List.append_assoc]

theorem joinPlus_cons {l : List Toks} (h : l ≠ []) (t : Toks) : joinPlus (t :: l) = t ++ [.plus] ++ joinPlus l := by
  cases l with
  | nil => exact absurd rfl h
  | cons a l =>
    simp only [joinPlus, List.foldl_cons]
    rw [foldl_plus_append]

theorem joinPlus_flatten (z : Toks) : ∀ l : List Toks, (l.map fun e => e ++ [Tok.plus]).flatten ++ z = joinPlus (l ++ [z])
  | [] => rfl
  | a :: l => by
    rw [List.cons_append, joinPlus_cons (by simp), ← joinPlus_flatten z l]
    simp

/-! ### `to_discr_body` -/

/-- The fields of a value of the model as named field values. -/
def encF (I : Interp) : (ds : List (Tok × Nat)) → Derive.Fields (Mach.pure (comps I ds)) → List (Tok × FieldVal I)
  | [], _ => []
  | (f, t) :: ds, x => (f, ⟨t, x.1⟩) :: encF I ds x.2

/-- The arguments of the calls of `to_discr` evaluate to the fields. -/
def ArgsOk (build : Build) (env : Env I) (args : List (Toks × Ex)) (vals : List (Tok × FieldVal I)) : Prop :=
  All2 (fun a v => eval build env a.2 = .ok (.field v.2)) args vals

/-- One summand of `to_discr_body`. -/
def toItem : Toks × Toks × Toks → Toks := fun (p, tn, a) => [.plus] ++ p ++ [.star] ++ qself tn ++ [.to_discr, .lpar] ++ a ++ [.rpar]

theorem toBody_den : ∀ (ds : List (Tok × Nat)) (args : List (Toks × Ex)) (pts : List Toks) (pvs : List (Except Fault Nat)) (ts : Toks) (e : Ex),
    All2 (ProdDen I build) pts pvs → pts.length = ds.length → args.length = ds.length → (∀ a ∈ args, SumG a.1 a.2) → SumG ts e →
    ∃ e', SumG (ts ++ ((pts.zip ((typeToks ds).zip (args.map (·.1)))).map toItem).flatten) e' ∧
      ∀ (env : Env I) (x : Derive.Fields (Mach.pure (comps I ds))), ArgsOk build env args (encF I ds x) →
        evalNum build env e' = Mach.toBody build (comps I ds) pvs (evalNum build env e) x
  | [], args, pts, pvs, ts, e, hp, hl, _, _, h => by
    have : pts = [] := List.length_eq_zero_iff.mp hl
    subst this
    exact ⟨e, by simpa using h, fun env x _ => by cases pvs <;> rfl⟩
  | (f, t) :: ds, [], _, _, _, _, _, _, hl, _, _ => by simp at hl
  | (f, t) :: ds, _, [], _, _, _, _, hl, _, _, _ => by simp at hl
  | (f, t) :: ds, _ :: _, _ :: _, [], _, _, hp, _, _, _, _ => hp.elim
  | (f, t) :: ds, a :: args, p :: pts, v :: pvs, ts, e, hp, hl, hla, ha, h => by
    obtain ⟨pe, hp1, hp2⟩ := hp.1
    have hitem : ProdG (p ++ [.star] ++ (qself [.ty t] ++ [.to_discr, .lpar] ++ a.1 ++ [.rpar])) (.mul pe (.toDiscr t a.2)) :=
      hp1.mul (AtomG.toDiscr t (ha a (by simp))).post
    obtain ⟨e', h1, h2⟩ := toBody_den ds args pts pvs _ _ hp.2 (by simpa using hl) (by simpa using hla) (fun b hb => ha b (by simp [hb])) (h.add hitem)
    refine ⟨e', ?_, fun env x hx => ?_⟩
    · simpa [typeToks, toItem, List.append_assoc] using h1
    · rw [h2 env x.2 hx.2, evalNum_add, evalNum_mul, hp2, evalNum_toDiscr build env hx.1]
      simp only [bind_assoc]
      rfl

/-! ### `from_discr_body` -/

/-- The `.wrapping_rem(…)` of the fields: none after the last. -/
def rems : List (Tok × Nat) → List Toks
  | [] => []
  | [_] => [[]]
  | (_, t) :: d :: ds => ([.dot, .wrapping_rem, .lpar] ++ qself [.ty t] ++ [.NUM_VARIANTS, .rpar]) :: rems (d :: ds)

theorem rems_eq : ∀ ds : List (Tok × Nat), ds ≠ [] →
    ((typeToks ds).take ((typeToks ds).length - 1)).map (fun tn => [.dot, .wrapping_rem, .lpar] ++ qself tn ++ [.NUM_VARIANTS, .rpar]) ++ [[]] = rems ds
  | [], h => absurd rfl h
  | [_], _ => rfl
  | (_, t) :: d :: ds, _ => by
    have := rems_eq (d :: ds) (by simp)
    simp only [rems, ← this]
    simp [typeToks]

/-- One field of `from_discr_body`. -/
def fromItem (value : Toks) : Toks × Toks × Toks × Toks → Toks := fun (f, tn, p, r) =>
  f ++ [.colon] ++ qself tn ++ [.from_discr, .lpar] ++ [.lpar] ++ value ++ [.rpar] ++ [.dot, .wrapping_div, .lpar] ++ p ++ [.rpar] ++ r ++ [.rpar, .comma]

/-- Name tokens of the fields. -/
def nameToks (ds : List (Tok × Nat)) : List Toks := ds.map fun d => [d.1]

theorem evalInits_cons (env : Env I) (f : Tok) (e : Ex) (l : List (Tok × Ex)) {t : Nat} {w : Except Fault (I t).1}
    (h : eval build env e = (do return Val.field ⟨t, ← w⟩)) :
    evalInits build env ((f, e) :: l) = (do
      let a ← w
      let r ← evalInits build env l
      return (f, ⟨t, a⟩) :: r) := by
  rw [evalInits, h]
  rcases w with _ | _ <;> rfl

theorem fromBody_den {value : Toks} {ve : Ex} (hv : SumG value ve) : ∀ (ds : List (Tok × Nat)) (pts : List Toks) (pvs : List (Except Fault Nat)),
    (∀ d ∈ ds, isFieldName d.1 = true) → All2 (ProdDen I build) pts pvs → pts.length = ds.length →
    ∃ l : List (Tok × Ex), l.length = ds.length ∧
      (∀ r l' r', Eventually (fun n => parseInits n r) (l', r') →
        Eventually (fun n => parseInits n ((((nameToks ds).zip ((typeToks ds).zip (pts.zip (rems ds)))).map (fromItem value)).flatten ++ r)) (l ++ l', r')) ∧
      ∀ env : Env I, evalInits build env l = (do return encF I ds (← Mach.fromBody (comps I ds) pvs (evalNum build env ve)))
  | [], pts, pvs, _, _, hl => by
    have : pts = [] := List.length_eq_zero_iff.mp hl
    subst this
    exact ⟨[], rfl, fun r l' r' h => h, fun env => by cases pvs <;> rfl⟩
  | d :: ds, [], _, _, _, hl => by simp at hl
  | d :: ds, _ :: _, [], _, hp, _ => hp.elim
  | [(f, t)], [p], [v], hf, hp, _ => by
    obtain ⟨pe, hp1, hp2⟩ := hp.1
    have hx := AtomG.fromDiscr t ((AtomG.paren hv).post.div hp1.sum).prod.sum
    refine ⟨[(f, .fromDiscr t (.wrappingDiv ve pe))], rfl, fun r l' r' h => ?_, fun env => ?_⟩
    · have := parseInits_cons (hf (f, t) (by simp)) hx.sum h
      simpa [nameToks, typeToks, rems, fromItem, List.append_assoc] using this
    · rw [evalInits_cons build env f _ [] (w := do (I t).2.fromDiscr (← uDiv (← evalNum build env ve) (← v)))]
      · simp only [Mach.fromBody, evalInits, bind_assoc, pure_bind]
        rfl
      · rw [eval_fromDiscr, evalNum_div, hp2]
        simp only [bind_assoc]
  | [(f, t)], _ :: _ :: _, _, _, _, hl => by simp at hl
  | [(f, t)], [_], _ :: _ :: _, _, hp, _ => hp.2.elim
  | (f, t) :: d :: ds, p :: pts, v :: pvs, hf, hp, hl => by
    obtain ⟨pe, hp1, hp2⟩ := hp.1
    obtain ⟨l, hl1, hl2, hl3⟩ := fromBody_den hv (d :: ds) pts pvs (fun d hd => hf d (List.mem_cons_of_mem _ hd)) hp.2 (by simpa using hl)
    have hx := AtomG.fromDiscr t (((AtomG.paren hv).post.div hp1.sum).rem (AtomG.numVariants t).sum).prod.sum
    refine ⟨(f, .fromDiscr t (.wrappingRem (.wrappingDiv ve pe) (.numVariants t))) :: l, by simp [hl1], fun r l' r' h => ?_, fun env => ?_⟩
    · have := parseInits_cons (hf (f, t) (by simp)) hx.sum (hl2 r l' r' h)
      simpa [nameToks, typeToks, rems, fromItem, List.append_assoc] using this
    · rw [evalInits_cons build env f _ l (w := do (I t).2.fromDiscr (← uRem (← uDiv (← evalNum build env ve) (← v)) (← (I t).2.num)))]
      · simp only [Mach.fromBody, hl3, bind_assoc, pure_bind]
        rfl
      · rw [eval_fromDiscr, evalNum_rem, evalNum_div, hp2, evalNum_numVariants]
        simp only [bind_assoc]

end Macro
end EnumVecModel
