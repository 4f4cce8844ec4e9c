import Verif.Source.ItemEval
import Verif.Props.SourceMacro

/-!
# C88: what the impls of tuples and arrays do, from the text that the macros print
-/

namespace EnumVecModel
namespace Source
namespace Mac
open EnumLike (Mach)
open EnumLike.Rules (Val illTyped moveOut moveAll project pairImpl findTuple findArray TupleItem ArrayItem tupleImpls arrayImpls)

set_option linter.constructorNameAsVariable false

variable {β : Type}

/-! ## Parts -/

theorem hasComma_append : (a b : TTs) → hasComma (a ++ b) = (hasComma a || hasComma b)
  | .nil, b => rfl
  | .tok t r, b => by rw [tok_append, hasComma, hasComma, hasComma_append r b, Bool.or_assoc]
  | .grp d i r, b => by rw [grp_append, hasComma, hasComma, hasComma_append r b]

theorem pieces_comma : (p r : TTs) → hasComma p = false → pieces (p ++ .tok (.p [',']) r) = p :: pieces r
  | .nil, r, _ => by rw [nil_append, pieces, if_pos rfl]
  | .tok t q, r, h => by
    simp only [hasComma, Bool.or_eq_false_iff, decide_eq_false_iff_not] at h
    rw [tok_append, pieces, if_neg h.1, pieces_comma q r h.2]
  | .grp d i q, r, h => by
    rw [grp_append, pieces, pieces_comma q r h]

theorem pieces_one : (p : TTs) → hasComma p = false → p ≠ .nil → pieces p = [p]
  | .nil, _, h => absurd rfl h
  | .tok t .nil, h, _ => by
    simp only [hasComma, Bool.or_eq_false_iff, decide_eq_false_iff_not] at h
    rw [pieces, if_neg h.1]; rfl
  | .tok t (.tok u q), h, _ => by
    simp only [hasComma, Bool.or_eq_false_iff, decide_eq_false_iff_not] at h
    have := pieces_one (.tok u q) (by simp [hasComma, h]) (by simp)
    rw [pieces, if_neg h.1, this]
  | .tok t (.grp d i q), h, _ => by
    simp only [hasComma, Bool.or_eq_false_iff, decide_eq_false_iff_not] at h
    have := pieces_one (.grp d i q) (by simp [hasComma, h]) (by simp)
    rw [pieces, if_neg h.1, this]
  | .grp d i .nil, h, _ => rfl
  | .grp d i (.tok u q), h, _ => by
    have := pieces_one (.tok u q) h (by simp)
    rw [pieces, this]
  | .grp d i (.grp d' i' q), h, _ => by
    have := pieces_one (.grp d' i' q) h (by simp)
    rw [pieces, this]

theorem pieces_each {γ : Type} (f : γ → TTs) (hf : ∀ a, hasComma (f a) = false) (q : TTs) : (l : List γ) → pieces (each l (fun a => f a ++ tts% ",") ++ q) = l.map f ++ pieces q
  | [] => rfl
  | a :: l => by
    rw [each_cons, append_assoc, append_assoc, tok_append, nil_append, pieces_comma _ _ (hf a), pieces_each f hf q l]; rfl

theorem pieces_each_nil {γ : Type} (f : γ → TTs) (hf : ∀ a, hasComma (f a) = false) (l : List γ) : pieces (each l fun a => f a ++ tts% ",") = l.map f := by
  have := pieces_each f hf .nil l
  rw [append_nil] at this
  rw [this]; simp [pieces]

theorem isTuple_each {γ : Type} (f : γ → TTs) : (l : List γ) → isTuple (each l fun a => f a ++ tts% ",") = true
  | [] => rfl
  | a :: l => by rw [each_cons]; simp [isTuple, hasComma_append, hasComma]

theorem pieces_commas {γ : Type} (f : γ → TTs) (hf : ∀ a, hasComma (f a) = false) (hn : ∀ a, f a ≠ .nil) : (l : List γ) → pieces (commas (l.map f)) = l.map f
  | [] => rfl
  | [a] => pieces_one _ (hf a) (hn a)
  | a :: b :: l => by
    have ih := pieces_commas f hf hn (b :: l)
    show pieces (f a ++ tts% "," ++ commas (f b :: l.map f)) = _
    rw [append_assoc, tok_append, nil_append, pieces_comma _ _ (hf a)]
    rw [show f b :: l.map f = (b :: l).map f from rfl, ih]; rfl

theorem afterGt_commas (r : TTs) : (l : List String) → afterGt (commas (l.map fun T => ident T ++ tts% ": EnumLike") ++ .tok (.p ['>']) r) = r
  | [] => rfl
  | [a] => rfl
  | a :: b :: l => by
    have ih := afterGt_commas r (b :: l)
    show afterGt (ident a ++ tts% ": EnumLike" ++ tts% "," ++ commas ((b :: l).map fun T => ident T ++ tts% ": EnumLike") ++ .tok (.p ['>']) r) = r
    simpa [ident, afterGt] using ih

theorem mapM_map {γ δ ε : Type} (f : γ → δ) (g : δ → Option ε) : (l : List γ) → (l.map f).mapM g = l.mapM fun a => g (f a)
  | [] => rfl
  | a :: l => by rw [List.map_cons, List.mapM_cons, List.mapM_cons, mapM_map f g l]

theorem toList_inj {a b : String} (h : a.toList = b.toList) : a = b := by
  rw [← String.ofList_toList (s := a), h, String.ofList_toList]

theorem idxOf_toList (T : String) : (l : List String) → (l.map String.toList).idxOf T.toList = l.idxOf T
  | [] => rfl
  | a :: l => by
    rw [List.map_cons, List.idxOf_cons, List.idxOf_cons, idxOf_toList T l]
    by_cases h : a = T
    · subst h; simp
    · have : a.toList ≠ T.toList := fun e => h (toList_inj e)
      rw [beq_false_of_ne this, beq_false_of_ne h]

theorem paramNames (l : List String) : (l.map ident).mapM paramName = some (l.map String.toList) := by
  rw [mapM_map]; exact mapM_some l fun a _ => rfl

/-! ## Types -/

variable {Γ : Scope β}

theorem tyImpl_ident (n : Nat) (T : String) : tyImpl Γ (n + 1) (ident T) = Γ.params T.toList := rfl

theorem tyImpl_tuple (n : Nat) (l : List String) : tyImpl Γ (n + 2) (paren (each l fun T => ident T ++ tts% ",")) = (l.mapM fun T => Γ.params T.toList) >>= Γ.tuple := by
  show (if isTuple _ then (pieces _).mapM (tyImpl Γ (n + 1)) >>= Γ.tuple else _) = _
  rw [if_pos (isTuple_each _ l), pieces_each_nil _ (fun _ => rfl), mapM_map]
  rfl

theorem tyImpl_pair (n : Nat) (l : List String) (T : String) : tyImpl Γ (n + 3) (paren (paren (each l fun T => ident T ++ tts% ",") ++ tts% "," ++ ident T)) =
    ((l.mapM fun T => Γ.params T.toList) >>= Γ.tuple) >>= fun m => Γ.params T.toList >>= fun m' => Γ.tuple [m, m'] := by
  show (if isTuple _ then (pieces _).mapM (tyImpl Γ (n + 2)) >>= Γ.tuple else _) = _
  rw [if_pos (by simp [isTuple, hasComma_append, hasComma]), append_assoc, tok_append, nil_append, pieces_comma _ _ rfl, pieces_one (ident T) rfl (by simp [ident]), List.mapM_cons, List.mapM_cons,
    tyImpl_tuple, tyImpl_ident]
  cases (l.mapM fun T => Γ.params T.toList) >>= Γ.tuple with
  | none => rfl
  | some m => cases Γ.params T.toList <;> rfl

/-! ## Projections of a tuple -/

theorem illTyped_bind {γ δ : Type} (f : γ → Except Fault δ) : (illTyped >>= f) = illTyped := rfl

/-- `self.0, self.1, …`: a list of expressions each of which is a projection. -/
theorem each_proj {f : TTs → List (Option (Val β)) → Except Fault ((Val β × Known β) × List (Option (Val β)))} {g : Nat → TTs} {vs : List (Val β)} {ty : Nat → Known β}
    (h : ∀ k cells, f (g k) cells = match vs[k]? with | some v => .ok ((v, ty k), cells) | none => illTyped) (cells : List (Option (Val β))) : (idx : List Nat) → (ts : List TTs) →
    each' f (idx.map g ++ ts) cells = match idx.mapM (fun k => vs[k]?) with
      | some ws => (each' f ts cells).bind fun r => .ok (ws.zip (idx.map ty) ++ r.1, r.2)
      | none => illTyped
  | [], ts => by
    show each' f ts cells = (each' f ts cells).bind fun r => .ok ([] ++ r.1, r.2)
    cases each' f ts cells <;> rfl
  | k :: idx, ts => by
    have ih := each_proj h cells idx ts
    rw [List.map_cons, List.cons_append, each', h, List.mapM_cons]
    cases vs[k]? with
    | none => rfl
    | some v =>
      show (each' f (idx.map g ++ ts) cells).bind _ = _
      rw [ih]
      cases idx.mapM (fun k => vs[k]?) with
      | none => rfl
      | some ws =>
        show ((each' f ts cells).bind _).bind _ = (each' f ts cells).bind _
        cases each' f ts cells <;> rfl

theorem zip_fst {γ δ : Type} : (l : List γ) → (m : List δ) → l.length = m.length → (l.zip m).map (·.1) = l
  | [], [], _ => rfl
  | a :: l, b :: m, h => by simp [zip_fst l m (by simpa using h)]
theorem zip_snd {γ δ : Type} : (l : List γ) → (m : List δ) → l.length = m.length → (l.zip m).map (·.2) = m
  | [], [], _ => rfl
  | a :: l, b :: m, h => by simp [zip_snd l m (by simpa using h)]

theorem mapM_length {γ δ : Type} {f : γ → Option δ} : {l : List γ} → {r : List δ} → l.mapM f = some r → r.length = l.length
  | [], r, h => by cases h; rfl
  | a :: l, r, h => by
    rw [List.mapM_cons] at h
    cases hf : f a with
    | none => rw [hf] at h; cases h
    | some b =>
      cases hl : l.mapM f with
      | none => rw [hf, hl] at h; cases h
      | some r' => rw [hf, hl] at h; cases h; simp [mapM_length hl]

theorem find_proj (Ts : List (Mach (Val β))) (k : Nat) : ((Known.tuple Ts).proj k).find Γ = Ts[k]? := by
  simp only [Known.proj]
  cases Ts[k]? <;> rfl

/-- The text of `self.k`. -/
def selfK (k : Nat) : TTs := tts% "self." ++ number k

theorem expr_self (elem : Known β) (vs : List (Val β)) (Ts : List (Mach (Val β))) (n k : Nat) (cells : List (Option (Val β))) :
    expr Γ elem [(word% "self", (.tup vs, .tuple Ts))] (n + 1) (selfK k) cells = match vs[k]? with | some v => .ok ((v, (Known.tuple Ts).proj k), cells) | none => illTyped := by
  show (projs (.tok (.p ['.']) (.tok (.num k) .nil)) (Val.tup vs, Known.tuple Ts)).bind (fun v => Except.ok (v, cells)) = _
  simp only [projs]
  cases vs[k]? <;> rfl

/-- `(self.0, self.1, …, )` -/
theorem expr_selfs (elem : Known β) (vs : List (Val β)) (Ts : List (Mach (Val β))) (n : Nat) (idx : List Nat) (cells : List (Option (Val β))) :
    expr Γ elem [(word% "self", (.tup vs, .tuple Ts))] (n + 2) (paren (each idx fun k => selfK k ++ tts% ",")) cells =
      (project vs idx).bind fun ws => .ok ((.tup ws, match idx.mapM (fun k => Ts[k]?) with | some ms => .tuple ms | none => .nothing), cells) := by
  show (if isTuple _ then (each' _ (pieces _) cells).bind _ else _) = _
  rw [if_pos (isTuple_each _ idx), pieces_each_nil _ (fun _ => rfl), ← List.append_nil (idx.map selfK), each_proj (expr_self elem vs Ts n) cells idx []]
  unfold project
  cases h : idx.mapM (fun k => vs[k]?) with
  | none => rfl
  | some ws =>
    have hl := mapM_length h
    show Except.ok (((Val.tup ((ws.zip (idx.map (Known.tuple Ts).proj) ++ []).map Prod.fst), Known.tupleOf Γ ((ws.zip (idx.map (Known.tuple Ts).proj) ++ []).map Prod.snd)), cells)) = _
    rw [List.append_nil, zip_fst _ _ (by simpa using hl), zip_snd _ _ (by simpa using hl)]
    show _ = Except.ok ((Val.tup ws, _), cells)
    unfold Known.tupleOf
    rw [mapM_map]
    simp only [find_proj]
    rfl

/-- On a value that is no tuple. -/
theorem expr_selfs_bad {elem : Known β} {v : Val β} {ty : Known β} (hv : ∀ vs, v ≠ .tup vs) (n : Nat) (idx : List Nat) (cells : List (Option (Val β))) :
    (∀ m k c, expr Γ elem [(word% "self", (v, ty))] (m + 1) (selfK k) c = illTyped) ∧
    (expr Γ elem [(word% "self", (v, ty))] (n + 2) (paren (each idx fun k => selfK k ++ tts% ",")) cells = illTyped ∨
      ∃ r, expr Γ elem [(word% "self", (v, ty))] (n + 2) (paren (each idx fun k => selfK k ++ tts% ",")) cells = .ok r) := by
  have h : ∀ m k c, expr Γ elem [(word% "self", (v, ty))] (m + 1) (selfK k) c = illTyped := fun m k c => by
    cases v with
    | tup vs => exact absurd rfl (hv vs)
    | leaf b => rfl
    | arr vs => rfl
  refine ⟨h, ?_⟩
  cases idx with
  | nil => exact Or.inr ⟨_, rfl⟩
  | cons k idx =>
    left
    show (if isTuple _ then (each' _ (pieces _) cells).bind _ else _) = _
    rw [if_pos (isTuple_each _ (k :: idx)), pieces_each_nil _ (fun _ => rfl), List.map_cons, each', h]
    rfl

/-- The text of `(a.0).k`. -/
def innerK (k : Nat) : TTs := tts% "(a.0)." ++ number k

theorem expr_inner (v w : Val β) (n k : Nat) (cells : List (Option (Val β))) : expr Γ .nothing [(word% "a", (.tup [v, w], .nothing))] (n + 2) (innerK k) cells =
    (match v with
      | .tup vs => match vs[k]? with | some v => .ok ((v, .nothing), cells) | none => illTyped
      | _ => illTyped) := by
  show (projs (.tok (.p ['.']) (.tok (.num k) .nil)) (v, Known.nothing)).bind (fun v => Except.ok (v, cells)) = _
  cases v with
  | leaf b => rfl
  | arr vs => rfl
  | tup vs =>
    simp only [projs]
    cases vs[k]? <;> rfl

theorem expr_last (v w : Val β) (n : Nat) (cells : List (Option (Val β))) : expr Γ .nothing [(word% "a", (.tup [v, w], .nothing))] (n + 1) (tts% "a.1") cells = .ok ((w, .nothing), cells) := rfl

/-! ## Impls of tuples -/

def numText (it : TupleItem) : TTs := paren (paren (each it.inner fun T => ident T ++ tts% ",") ++ tts% "," ++ ident it.last)
def toText (it : TupleItem) : TTs := paren (paren (each it.toIdx fun k => selfK k ++ tts% ",") ++ tts% "," ++ selfK it.toLast) ++ tts% ".to_discr()"
def fromText (it : TupleItem) : TTs := tts% "let a = <" ++ numText it ++ tts% ">::from_discr(x);" ++ paren (each it.fromIdx (fun k => innerK k ++ tts% ",") ++ tts% "a.1")

theorem afterGt_tuple (it : TupleItem) : ∃ b, afterGt (tupleText it) = .tok (.id (word% "EnumLike")) (.tok (.id (word% "for")) (.grp .paren (commas (it.self_.map ident)) (.grp .brace b .nil))) ∧
    readItems b = some ⟨numText it, tts% "self", toText it, fromText it⟩ := by
  refine ⟨tts% "const NUM_VARIANTS: usize = <" ++ numText it ++ tts% ">::NUM_VARIANTS; fn to_discr(self) -> usize" ++ brace (toText it) ++ tts% "fn from_discr(x: usize) -> Self" ++ brace (fromText it), ?_, ?_⟩
  · simp only [tupleText, append_assoc, tok_append, nil_append]
    rw [afterGt, if_neg (by decide), afterGt, if_neg (by decide), afterGt, if_neg (by decide), afterGt_commas]
    rfl
  · rfl

theorem text_num (it : TupleItem) {inner : List (Mach (Val β))} {last mFrom : Mach (Val β)} (hpair : ∀ a b, Γ.tuple [a, b] = some (pairImpl Γ.build a b))
    (h3 : it.inner.mapM (fun T => Γ.params T.toList) = some inner) (h4 : Γ.params it.last.toList = some last) (h6 : Γ.tuple inner = some mFrom) :
    tyImpl Γ 5 (numText it) = some (pairImpl Γ.build mFrom last) := by
  unfold numText
  rw [tyImpl_pair, h3, h4]
  show (Γ.tuple inner >>= _) = _
  rw [h6]
  exact hpair _ _

theorem text_to (it : TupleItem) (Ts toInner : List (Mach (Val β))) {toLast mTo : Mach (Val β)} (hpair : ∀ a b, Γ.tuple [a, b] = some (pairImpl Γ.build a b))
    (h1 : it.toIdx.mapM (fun k => Ts[k]?) = some toInner) (h2 : Ts[it.toLast]? = some toLast) (h5 : Γ.tuple toInner = some mTo) (inner last : Mach (Val β)) (v : Val β) :
    bodyTo Γ .nothing [(word% "self", (v, .tuple Ts))] [] 5 (toText it) = (it.impl Γ.build mTo toLast inner last).toDiscr v := by
  have hb : bodyTo Γ .nothing [(word% "self", (v, .tuple Ts))] [] 5 (toText it) = (expr Γ .nothing [(word% "self", (v, .tuple Ts))] 4
      (paren (paren (each it.toIdx fun k => selfK k ++ tts% ",") ++ tts% "," ++ selfK it.toLast)) []).bind fun r => match r.1.2.find Γ with | some m => m.toDiscr r.1.1 | none => illTyped := rfl
  have he : expr Γ .nothing [(word% "self", (v, .tuple Ts))] 4 (paren (paren (each it.toIdx fun k => selfK k ++ tts% ",") ++ tts% "," ++ selfK it.toLast)) [] =
      (expr Γ .nothing [(word% "self", (v, .tuple Ts))] 3 (paren (each it.toIdx fun k => selfK k ++ tts% ",")) []).bind fun a =>
        (expr Γ .nothing [(word% "self", (v, .tuple Ts))] 3 (selfK it.toLast) a.2).bind fun b =>
          .ok ((.tup [a.1.1, b.1.1], Known.tupleOf Γ [a.1.2, b.1.2]), b.2) := by
    show (if isTuple _ then (each' _ (pieces _) []).bind _ else _) = _
    rw [if_pos (by simp [isTuple, hasComma_append, hasComma]), append_assoc, tok_append, nil_append, pieces_comma _ _ rfl, pieces_one (selfK _) rfl (by simp [selfK])]
    unfold each'
    cases expr Γ .nothing [(word% "self", (v, .tuple Ts))] 3 (paren (each it.toIdx fun k => selfK k ++ tts% ",")) [] with
    | error e => rfl
    | ok a =>
      unfold each'
      show (Except.bind (Except.bind (expr Γ .nothing [(word% "self", (v, .tuple Ts))] 3 (selfK it.toLast) a.2) _) _).bind _ = (expr Γ .nothing [(word% "self", (v, .tuple Ts))] 3 (selfK it.toLast) a.2).bind _
      cases expr Γ .nothing [(word% "self", (v, .tuple Ts))] 3 (selfK it.toLast) a.2 with
      | error e => rfl
      | ok b => rfl
  rw [hb, he]
  cases v with
  | leaf b =>
    obtain ⟨k1, k2 | ⟨r, k2⟩⟩ := expr_selfs_bad (Γ := Γ) (elem := .nothing) (v := .leaf b) (ty := .tuple Ts) (by simp) 1 it.toIdx []
    · rw [k2]; rfl
    · rw [k2]; simp only [Except.bind, k1]; rfl
  | arr vs =>
    obtain ⟨k1, k2 | ⟨r, k2⟩⟩ := expr_selfs_bad (Γ := Γ) (elem := .nothing) (v := .arr vs) (ty := .tuple Ts) (by simp) 1 it.toIdx []
    · rw [k2]; rfl
    · rw [k2]; simp only [Except.bind, k1]; rfl
  | tup vs =>
    rw [expr_selfs, h1]
    show _ = (project vs it.toIdx).bind fun ws => match vs[it.toLast]? with | some w => (pairImpl Γ.build mTo toLast).toDiscr (.tup [.tup ws, w]) | none => illTyped
    cases project vs it.toIdx with
    | error e => rfl
    | ok ws =>
      show Except.bind (Except.bind (expr _ _ _ _ _ _) _) _ = _
      rw [expr_self]
      show _ = match vs[it.toLast]? with | some w => _ | none => _
      cases vs[it.toLast]? with
      | none => rfl
      | some w =>
        have hk : (Known.tupleOf Γ [.tuple toInner, (Known.tuple Ts).proj it.toLast]).find Γ = some (pairImpl Γ.build mTo toLast) := by
          unfold Known.tupleOf
          rw [List.mapM_cons, List.mapM_cons, find_proj, h2]
          show (match (do let a ← Γ.tuple toInner; some [a, toLast]) with | some ms => Known.tuple ms | none => Known.nothing).find Γ = _
          rw [h5]
          exact hpair _ _
        show (match (Known.tupleOf Γ [.tuple toInner, (Known.tuple Ts).proj it.toLast]).find Γ with | some m => m.toDiscr (.tup [.tup ws, w]) | none => illTyped) = _
        rw [hk]

theorem text_from (it : TupleItem) {toInner toLast inner last : Mach (Val β)} (hn : tyImpl Γ 5 (numText it) = some (pairImpl Γ.build inner last)) (hf : it.fromIdx ≠ []) (x : Nat) :
    bodyFrom Γ x (fromText it) = (it.impl Γ.build toInner toLast inner last).fromDiscr x := by
  have hb : bodyFrom Γ x (fromText it) = match tyImpl Γ 5 (numText it) with
      | some m => (m.fromDiscr x).bind fun v => (expr Γ .nothing [(word% "a", (v, .nothing))] 5 (paren (each it.fromIdx (fun k => innerK k ++ tts% ",") ++ tts% "a.1")) []).bind fun r => .ok r.1.1
      | none => illTyped := rfl
  rw [hb, hn]
  show Except.bind (((Mach.pair Γ.build inner last).fromDiscr x).bind fun p => .ok (Val.tup [p.1, p.2])) _ = ((((Mach.pair Γ.build inner last).fromDiscr x).bind fun p => .ok (Val.tup [p.1, p.2])).bind fun (r : Val β) => match r with
    | .tup [.tup ws, w] => (project ws it.fromIdx).bind fun l => .ok (Val.tup (l ++ [w]))
    | _ => illTyped)
  cases (Mach.pair Γ.build inner last).fromDiscr x with
  | error e => rfl
  | ok p =>
    obtain ⟨v, w⟩ := p
    have he : expr Γ .nothing [(word% "a", (.tup [v, w], .nothing))] 5 (paren (each it.fromIdx (fun k => innerK k ++ tts% ",") ++ tts% "a.1")) [] =
        (each' (expr Γ .nothing [(word% "a", (.tup [v, w], .nothing))] 4) (it.fromIdx.map innerK ++ [tts% "a.1"]) []).bind fun r =>
          .ok ((.tup (r.1.map Prod.fst), Known.tupleOf Γ (r.1.map Prod.snd)), r.2) := by
      show (if isTuple _ then (each' _ (pieces _) []).bind _ else _) = _
      rw [if_pos, pieces_each _ (fun _ => rfl), pieces_one _ rfl (by simp)]
      · rfl
      · cases hl : it.fromIdx with
        | nil => exact absurd hl hf
        | cons k l => simp [isTuple, hasComma_append, hasComma]
    show Except.bind (expr Γ .nothing [(word% "a", (.tup [v, w], .nothing))] 5 _ []) _ = _
    rw [he]
    cases v with
    | leaf b =>
      cases hl : it.fromIdx with
      | nil => exact absurd hl hf
      | cons k l => rw [List.map_cons, List.cons_append, each', expr_inner]; rfl
    | arr vs =>
      cases hl : it.fromIdx with
      | nil => exact absurd hl hf
      | cons k l => rw [List.map_cons, List.cons_append, each', expr_inner]; rfl
    | tup vs =>
      rw [each_proj (vs := vs) (ty := fun _ => .nothing) (fun k cells => expr_inner (.tup vs) w 2 k cells) [] it.fromIdx [tts% "a.1"]]
      show _ = (project vs it.fromIdx).bind fun l => Except.ok (Val.tup (l ++ [w]))
      unfold project
      cases h : it.fromIdx.mapM (fun k => vs[k]?) with
      | none => rfl
      | some ws =>
        have hl := mapM_length h
        show Except.ok (Val.tup (List.map Prod.fst (ws.zip (it.fromIdx.map fun _ => Known.nothing) ++ [(w, Known.nothing)]))) = _
        rw [List.map_append, zip_fst _ _ (by simpa using hl)]
        rfl

/-- The impl of a tuple type, from the text of the item. -/
theorem textTuple_eq (it : TupleItem) {build : Build} {F : List (Mach (Val β)) → Option (Mach (Val β))} {Ts toInner inner : List (Mach (Val β))} {toLast last mTo mFrom : Mach (Val β)}
    (hpair : ∀ a b, F [a, b] = some (pairImpl build a b)) (hlen : it.self_.length = Ts.length) (hf : it.fromIdx ≠ [])
    (h1 : it.toIdx.mapM (fun k => Ts[k]?) = some toInner) (h2 : Ts[it.toLast]? = some toLast) (h3 : it.inner.mapM (fun T => Ts[it.self_.idxOf T]?) = some inner)
    (h4 : Ts[it.self_.idxOf it.last]? = some last) (h5 : F toInner = some mTo) (h6 : F inner = some mFrom) :
    textTuple build F (tupleText it) Ts = some (it.impl build mTo toLast mFrom last) := by
  obtain ⟨b, e1, e2⟩ := afterGt_tuple it
  unfold textTuple
  rw [e1]
  dsimp only
  rw [if_pos ⟨rfl, rfl⟩, pieces_commas ident (fun _ => rfl) (by simp [ident]), paramNames, e2]
  dsimp only
  rw [if_pos ⟨by simpa using hlen, rfl⟩]
  have hn := text_num (Γ := ⟨build, true, fun w => Ts[(it.self_.map String.toList).idxOf w]?, F⟩) it (inner := inner) (last := last) (mFrom := mFrom) hpair (by simpa only [idxOf_toList] using h3)
    (by simpa only [idxOf_toList] using h4) h6
  have k1 : numOf (⟨build, true, fun w => Ts[(it.self_.map String.toList).idxOf w]?, F⟩ : Scope β) (numText it) = (it.impl build mTo toLast mFrom last).num := by
    unfold numOf; rw [hn]; rfl
  have k2 := fun v => text_to (Γ := ⟨build, true, fun w => Ts[(it.self_.map String.toList).idxOf w]?, F⟩) it Ts toInner hpair h1 h2 h5 mFrom last v
  have k3 := fun x => text_from (toInner := mTo) (toLast := toLast) it hn hf x
  simp only [k1, k2, k3]

theorem tupleImpls_self {rows : List EnumLike.Rules.Row} : {items : List TupleItem} → tupleImpls rows = some items → ∀ it ∈ items, it.self_ = it.params ∧ it.toIdx.length + 1 = it.self_.length ∧ it.inner.length + 1 = it.self_.length := by
  match rows with
  | [] => intro items h; cases h
  | [_] => intro items h; cases h
  | [_, _] => intro items h; cases h; simp
  | a :: b :: c :: rows =>
    intro items h
    have h' : (tupleImpls (b :: c :: rows) >>= fun items => some (_ :: items)) = some items := h
    cases hr : tupleImpls (b :: c :: rows) with
    | none => rw [hr] at h'; cases h'
    | some l =>
      rw [hr] at h'
      have ih := tupleImpls_self hr
      cases h'
      intro it hit
      rcases List.mem_cons.mp hit with rfl | hit
      · simp [EnumLike.Rules.reverseIdx_eq]
      · exact ih it hit

/-- **C88** (tuples): the impl that is found for a tuple type with three or more components is what the text of one of the printed items says, where the impls that it needs are found in the same way: for all rows
given to the macro, all component impls, good or bad, all values and numbers, also those for which it panics. -/
theorem C88_tuple {build : Build} {rows : List EnumLike.Rules.Row} {items : List TupleItem} (hi : tupleImpls rows = some items) {Ts : List (Mach (Val β))} {m : Mach (Val β)}
    (h3 : 3 ≤ Ts.length) (h : findTuple build items Ts.length Ts = some m) :
    ∃ it ∈ items, textTuple build (fun Ts => findTuple build items Ts.length Ts) (tupleText it) Ts = some m := by
  obtain ⟨fuel, hfuel⟩ : ∃ k, Ts.length = k + 1 := ⟨Ts.length - 1, by omega⟩
  rw [hfuel] at h
  match Ts, h3 with
  | A :: B :: C :: Ts, h3 =>
  generalize hT : A :: B :: C :: Ts = Us at h h3 hfuel ⊢
  have hstep : findTuple build items (fuel + 1) Us = match items.filter fun it => it.self_.length == Us.length with
    | [it] => do
      if !it.compiles then none else
      let bound := fun ty : String => Us[it.self_.idxOf ty]?
      let toInner ← it.toIdx.mapM fun k => it.self_[k]?.bind bound
      let toLast ← it.self_[it.toLast]?.bind bound
      let inner ← it.inner.mapM bound
      let last ← bound it.last
      let mTo ← findTuple build items fuel toInner
      let mFrom ← findTuple build items fuel inner
      return it.impl build mTo toLast mFrom last
    | _ => none := by rw [← hT]; rfl
  rw [hstep] at h
  split at h
  · rename_i it hfil
    have hmem : it ∈ items.filter fun it => it.self_.length == Us.length := by rw [hfil]; simp
    obtain ⟨hit, hlen⟩ := List.mem_filter.mp hmem
    have hlen : it.self_.length = Us.length := by simpa using hlen
    by_cases hc : it.compiles = true
    · rw [hc] at h
      simp only [Bool.not_true, Bool.false_eq_true, if_false, Option.bind_eq_bind, Option.bind_eq_some_iff, Option.pure_def, Option.some.injEq] at h
      obtain ⟨toInner, h1, toLast, h2, inner, h3', last, h4, mTo, h5, mFrom, h6, rfl⟩ := h
      obtain ⟨hs, hs1, hs2⟩ := tupleImpls_self hi it hit
      simp only [TupleItem.compiles, Bool.and_eq_true, decide_eq_true_eq] at hc
      have hnd : it.self_.Nodup := by rw [hs]; exact hc.1.1.1
      have hk : ∀ k : Nat, (it.self_[k]?.bind fun ty => Us[it.self_.idxOf ty]?) = Us[k]? := fun k => by
        by_cases hk : k < it.self_.length
        · rw [List.getElem?_eq_getElem hk]
          show Us[it.self_.idxOf it.self_[k]]? = _
          rw [hnd.idxOf_getElem k hk]
        · rw [List.getElem?_eq_none (by omega), List.getElem?_eq_none (by omega)]; rfl
      obtain ⟨a, e1, e2⟩ := h2
      have h2 : Us[it.toLast]? = some toLast := by
        have := hk it.toLast
        rw [e1] at this
        exact this.symm.trans e2
      refine ⟨it, hit, textTuple_eq it (fun a b => rfl) hlen ?_ (by simpa only [hk] using h1) h2 h3' h4
        (by rw [mapM_length h1, show it.toIdx.length = fuel by omega]; exact h5) (by rw [mapM_length h3', show it.inner.length = fuel by omega]; exact h6)⟩
      intro hf
      have := hc.1.2
      rw [hf] at this
      have hl : it.self_.dropLast = [] := (Option.some.inj (beq_iff_eq.mp this)).symm
      have := congrArg List.length hl
      simp at this
      omega
    · simp only [Bool.not_eq_true] at hc
      rw [hc] at h; cases h
  · cases h

/-! ## Impls of arrays -/

/-- The text of the item `k` of an array of length `n`, moved out. -/
def moveText (n k : Nat) : TTs := tts% "mem::replace" ++ paren (tts% "&mut self" ++ bracket (number n ++ tts% "- 1 -" ++ number k) ++ tts% ", mem::uninitialized()")

def arrNum (it : ArrayItem) : TTs := paren (each it.comps fun T => ident T ++ tts% ",")
def arrTo (it : ArrayItem) : TTs := tts% "use std::mem; unsafe" ++ brace (paren (each it.toIdx fun k => moveText it.size k ++ tts% ",") ++ tts% ".to_discr()")
def arrFrom (it : ArrayItem) : TTs := tts% "let t = <" ++ arrNum it ++ tts% ">::from_discr(x);" ++ bracket (each it.fromIdx fun k => tts% "t." ++ number k ++ tts% ",")

theorem afterGt_array (it : ArrayItem) : ∃ b, afterGt (arrayText it) = .tok (.id (word% "EnumLike")) (.tok (.id (word% "for"))
      (.grp .bracket (.tok (.id it.elem.toList) (.tok (.p [';']) (.tok (.num it.size) .nil))) (.grp .brace b .nil))) ∧
    readItems b = some ⟨arrNum it, tts% "mut self", arrTo it, arrFrom it⟩ :=
  ⟨tts% "const NUM_VARIANTS: usize = <" ++ arrNum it ++ tts% ">::NUM_VARIANTS; fn to_discr(mut self) -> usize" ++ brace (arrTo it) ++ tts% "fn from_discr(x: usize) -> Self" ++ brace (arrFrom it), rfl, rfl⟩

theorem expr_move (elem : Known β) (n N k : Nat) (cells : List (Option (Val β))) : expr Γ elem [] (n + 1) (moveText N k) cells =
    ((uSub Γ.build.const N 1).bind fun a => uSub Γ.build.const a k).bind fun i => (moveOut Γ.uninit cells i).bind fun r => .ok ((r.1, elem), r.2) := by
  show ((uSub Γ.build.const N 1).bind fun a => (uSub Γ.build.const a k).bind fun i => (moveOut Γ.uninit cells i).bind fun r => Except.ok ((r.1, elem), r.2)) = _
  cases uSub Γ.build.const N 1 <;> rfl

theorem each_move (elem : Known β) (n N : Nat) : (idx : List Nat) → (cells : List (Option (Val β))) →
    (each' (expr Γ elem [] (n + 1)) (idx.map (moveText N)) cells).map (·.1) = (moveAll Γ.build Γ.uninit N idx cells).map fun ws => ws.map fun w => (w, elem)
  | [], _ => rfl
  | k :: idx, cells => by
    have ih := each_move elem n N idx
    rw [List.map_cons, each', expr_move, moveAll]
    show Except.map _ (Except.bind (Except.bind (Except.bind (uSub Γ.build.const N 1) _) _) _) = Except.map _ (Except.bind (uSub Γ.build.const N 1) fun a => Except.bind (uSub Γ.build.const a k) _)
    cases uSub Γ.build.const N 1 with
    | error e => rfl
    | ok a =>
      show Except.map _ (Except.bind (Except.bind (uSub Γ.build.const a k) _) _) = Except.map _ (Except.bind (uSub Γ.build.const a k) _)
      cases uSub Γ.build.const a k with
      | error e => rfl
      | ok i =>
        show Except.map _ (Except.bind (Except.bind (moveOut Γ.uninit cells i) _) _) = Except.map _ (Except.bind (moveOut Γ.uninit cells i) _)
        cases moveOut Γ.uninit cells i with
        | error e => rfl
        | ok r =>
          obtain ⟨v, cells'⟩ := r
          have ih := ih cells'
          show Except.map _ (Except.bind (each' (expr Γ elem [] (n + 1)) (idx.map (moveText N)) cells') _) = Except.map _ (Except.bind (moveAll Γ.build Γ.uninit N idx cells') _)
          cases h1 : each' (expr Γ elem [] (n + 1)) (idx.map (moveText N)) cells' with
          | error e =>
            rw [h1] at ih
            cases h2 : moveAll Γ.build Γ.uninit N idx cells' with
            | error e' => rw [h2] at ih; cases ih; rfl
            | ok ws => rw [h2] at ih; cases ih
          | ok r =>
            rw [h1] at ih
            cases h2 : moveAll Γ.build Γ.uninit N idx cells' with
            | error e' => rw [h2] at ih; cases ih
            | ok ws =>
              rw [h2] at ih
              have : r.1 = ws.map fun w => (w, elem) := Except.ok.inj ih
              show Except.ok ((v, elem) :: r.1) = Except.ok ((v, elem) :: ws.map fun w => (w, elem))
              rw [this]

theorem moveAll_length {build : Build} {uninit : Bool} {N : Nat} : (idx : List Nat) → (cells : List (Option (Val β))) → {ws : List (Val β)} → moveAll build uninit N idx cells = .ok ws → ws.length = idx.length
  | [], _, ws, h => by cases h; rfl
  | k :: idx, cells, ws, h => by
    rw [moveAll] at h
    cases h1 : uSub build.const N 1 with
    | error e => rw [h1] at h; cases h
    | ok a =>
      rw [h1] at h
      replace h : (uSub build.const a k).bind (fun i => (moveOut uninit cells i).bind fun r => (moveAll build uninit N idx r.2).bind fun l => Except.ok (r.1 :: l)) = .ok ws := h
      cases h2 : uSub build.const a k with
      | error e => rw [h2] at h; cases h
      | ok i =>
        rw [h2] at h
        replace h : (moveOut uninit cells i).bind (fun r => (moveAll build uninit N idx r.2).bind fun l => Except.ok (r.1 :: l)) = .ok ws := h
        cases h3 : moveOut uninit cells i with
        | error e => rw [h3] at h; cases h
        | ok r =>
          rw [h3] at h
          replace h : (moveAll build uninit N idx r.2).bind (fun l => Except.ok (r.1 :: l)) = .ok ws := h
          cases h4 : moveAll build uninit N idx r.2 with
          | error e => rw [h4] at h; cases h
          | ok l => rw [h4] at h; cases h; simp [moveAll_length idx r.2 h4]

theorem find_all (Γ : Scope β) (T : Mach (Val β)) : (l : List (Val β)) → ((l.map fun w => (w, Known.impl T)).map Prod.snd).mapM (Known.find Γ) = some (List.replicate l.length T)
  | [] => rfl
  | a :: l => by
    have := find_all Γ T l
    rw [List.map_cons, List.map_cons, List.mapM_cons, this]; rfl

theorem array_to (it : ArrayItem) {T tuple : Mach (Val β)} (ht : Γ.tuple (List.replicate it.toIdx.length T) = some tuple) (vs : List (Val β)) :
    bodyTo Γ (.impl T) [] (vs.map some) 5 (arrTo it) = (it.impl Γ.build Γ.uninit tuple).toDiscr (.arr vs) := by
  have hb : bodyTo Γ (.impl T) [] (vs.map some) 5 (arrTo it) = (expr Γ (.impl T) [] 2 (paren (each it.toIdx fun k => moveText it.size k ++ tts% ",")) (vs.map some)).bind fun r =>
      match r.1.2.find Γ with | some m => m.toDiscr r.1.1 | none => illTyped := rfl
  have he : expr Γ (.impl T) [] 2 (paren (each it.toIdx fun k => moveText it.size k ++ tts% ",")) (vs.map some) =
      (each' (expr Γ (.impl T) [] 1) (it.toIdx.map (moveText it.size)) (vs.map some)).bind fun r => .ok ((.tup (r.1.map Prod.fst), Known.tupleOf Γ (r.1.map Prod.snd)), r.2) := by
    show (if isTuple _ then (each' _ (pieces _) _).bind _ else _) = _
    rw [if_pos (isTuple_each _ it.toIdx), pieces_each_nil _ (fun _ => rfl)]
    rfl
  rw [hb, he]
  have hm := each_move (Γ := Γ) (.impl T) 0 it.size it.toIdx (vs.map some)
  show _ = (moveAll Γ.build Γ.uninit it.size it.toIdx (vs.map some)).bind fun ws => tuple.toDiscr (.tup ws)
  cases h1 : each' (expr Γ (.impl T) [] 1) (it.toIdx.map (moveText it.size)) (vs.map some) with
  | error e =>
    rw [h1] at hm
    cases h2 : moveAll Γ.build Γ.uninit it.size it.toIdx (vs.map some) with
    | error e' => rw [h2] at hm; cases hm; rfl
    | ok ws => rw [h2] at hm; cases hm
  | ok r =>
    rw [h1] at hm
    cases h2 : moveAll Γ.build Γ.uninit it.size it.toIdx (vs.map some) with
    | error e' => rw [h2] at hm; cases hm
    | ok ws =>
      rw [h2] at hm
      have hr : r.1 = ws.map fun w => (w, .impl T) := Except.ok.inj hm
      have hw := moveAll_length _ _ h2
      show (match (Known.tupleOf Γ (r.1.map Prod.snd)).find Γ with | some m => m.toDiscr (.tup (r.1.map Prod.fst)) | none => illTyped) = tuple.toDiscr (.tup ws)
      unfold Known.tupleOf
      rw [hr, find_all, hw]
      show (match Γ.tuple (List.replicate it.toIdx.length T) with | some m => m.toDiscr (.tup ((ws.map fun w => (w, Known.impl T)).map Prod.fst)) | none => illTyped) = _
      rw [ht, List.map_map]
      show tuple.toDiscr (.tup (ws.map fun w => w)) = _
      rw [List.map_id']

/-- The text of `t.k`. -/
def tK (k : Nat) : TTs := tts% "t." ++ number k

theorem expr_t (v : Val β) (n k : Nat) (cells : List (Option (Val β))) : expr Γ .nothing [(word% "t", (v, .nothing))] (n + 1) (tK k) cells =
    (match v with
      | .tup vs => match vs[k]? with | some v => .ok ((v, .nothing), cells) | none => illTyped
      | _ => illTyped) := by
  show (projs (.tok (.p ['.']) (.tok (.num k) .nil)) (v, Known.nothing)).bind (fun v => Except.ok (v, cells)) = _
  cases v with
  | leaf b => rfl
  | arr vs => rfl
  | tup vs =>
    simp only [projs]
    cases vs[k]? <;> rfl

theorem array_from (it : ArrayItem) {tuple : Mach (Val β)} (hn : tyImpl Γ 5 (arrNum it) = some tuple) (hf : it.fromIdx ≠ []) (x : Nat) :
    bodyFrom Γ x (arrFrom it) = (it.impl Γ.build Γ.uninit tuple).fromDiscr x := by
  have hb : bodyFrom Γ x (arrFrom it) = match tyImpl Γ 5 (arrNum it) with
      | some m => (m.fromDiscr x).bind fun v => (expr Γ .nothing [(word% "t", (v, .nothing))] 5 (bracket (each it.fromIdx fun k => tK k ++ tts% ",")) []).bind fun r => .ok r.1.1
      | none => illTyped := rfl
  rw [hb, hn]
  show Except.bind (tuple.fromDiscr x) _ = ((tuple.fromDiscr x).bind fun (r : Val β) => match r with
    | .tup ws => (project ws it.fromIdx).bind fun l => .ok (Val.arr l)
    | _ => illTyped)
  cases tuple.fromDiscr x with
  | error e => rfl
  | ok v =>
    have he : expr Γ .nothing [(word% "t", (v, .nothing))] 5 (bracket (each it.fromIdx fun k => tK k ++ tts% ",")) [] =
        (each' (expr Γ .nothing [(word% "t", (v, .nothing))] 4) (it.fromIdx.map tK) []).bind fun r => .ok ((.arr (r.1.map Prod.fst), .nothing), r.2) := by
      show (each' _ (pieces _) []).bind _ = _
      rw [pieces_each_nil _ (fun _ => rfl)]
      rfl
    show Except.bind (expr Γ .nothing [(word% "t", (v, .nothing))] 5 _ []) _ = _
    rw [he]
    cases v with
    | leaf b =>
      cases hl : it.fromIdx with
      | nil => exact absurd hl hf
      | cons k l => rw [List.map_cons, each', expr_t]; rfl
    | arr vs =>
      cases hl : it.fromIdx with
      | nil => exact absurd hl hf
      | cons k l => rw [List.map_cons, each', expr_t]; rfl
    | tup vs =>
      rw [← List.append_nil (it.fromIdx.map tK), each_proj (vs := vs) (ty := fun _ => .nothing) (fun k cells => expr_t (.tup vs) 3 k cells) [] it.fromIdx []]
      show _ = (project vs it.fromIdx).bind fun l => Except.ok (Val.arr l)
      unfold project
      cases h : it.fromIdx.mapM (fun k => vs[k]?) with
      | none => rfl
      | some ws =>
        have hl := mapM_length h
        show Except.ok (Val.arr (List.map Prod.fst (ws.zip (it.fromIdx.map fun _ => Known.nothing) ++ []))) = _
        rw [List.append_nil, zip_fst _ _ (by simpa using hl)]
        rfl

theorem arrayImpls_length {rows : List EnumLike.Rules.Row} : {items : List ArrayItem} → arrayImpls rows = some items → ∀ it ∈ items, it.toIdx.length = it.comps.length := by
  match rows with
  | [] => intro items h; cases h
  | [_] => intro items h; cases h; simp
  | a :: b :: rows =>
    intro items h
    have h' : (arrayImpls (b :: rows) >>= fun items => some (_ :: items)) = some items := h
    cases hr : arrayImpls (b :: rows) with
    | none => rw [hr] at h'; cases h'
    | some l =>
      rw [hr] at h'
      have ih := arrayImpls_length hr
      cases h'
      intro it hit
      rcases List.mem_cons.mp hit with rfl | hit
      · simp
      · exact ih it hit

theorem mapM_same {γ : Type} {A : String} {T : γ} : {l : List String} → {r : List γ} → l.mapM (fun ty => if ty = A then some T else none) = some r → r = List.replicate l.length T
  | [], r, h => by cases h; rfl
  | a :: l, r, h => by
    rw [List.mapM_cons] at h
    by_cases ha : a = A
    · rw [if_pos ha] at h
      cases hl : l.mapM (fun ty => if ty = A then some T else none) with
      | none => rw [hl] at h; cases h
      | some r' => rw [hl] at h; cases h; rw [mapM_same hl]; rfl
    · rw [if_neg ha] at h; cases h

/-- **C88** (arrays): the same for arrays. -/
theorem C88_array {build : Build} {uninit : Bool} {rows : List EnumLike.Rules.Row} {tuples : List TupleItem} {items : List ArrayItem} (hi : arrayImpls rows = some items) {n : Nat} {T m : Mach (Val β)}
    (h0 : n ≠ 0) (h : findArray build uninit tuples items n T = some m) :
    ∃ it ∈ items, textArray build uninit (fun Ts => findTuple build tuples Ts.length Ts) (arrayText it) n T = some m := by
  unfold findArray at h
  rw [if_neg h0] at h
  split at h
  · rename_i it hfil
    have hmem : it ∈ items.filter fun it => it.size == n := by rw [hfil]; simp
    obtain ⟨hit, hsize⟩ := List.mem_filter.mp hmem
    have hsize : it.size = n := by simpa using hsize
    by_cases hc : it.fromIdx.length ≠ it.size
    · rw [if_pos hc] at h; cases h
    · rw [if_neg hc] at h
      replace h : ((it.comps.mapM fun ty => if ty = it.elem then some T else none).bind fun comps => (findTuple build tuples comps.length comps).bind fun tuple => some (it.impl build uninit tuple)) = some m := h
      obtain ⟨comps, h1, h⟩ := Option.bind_eq_some_iff.mp h
      obtain ⟨tuple, h2, h⟩ := Option.bind_eq_some_iff.mp h
      cases h
      refine ⟨it, hit, ?_⟩
      obtain ⟨b, e1, e2⟩ := afterGt_array it
      unfold textArray
      rw [e1]
      show (if (word% "EnumLike" : Word) = word% "EnumLike" ∧ (word% "for" : Word) = word% "for" ∧ n = it.size then _ else _) = _
      rw [if_pos ⟨rfl, rfl, hsize.symm⟩, e2]
      dsimp only
      rw [if_pos rfl]
      have hf : it.fromIdx ≠ [] := fun hf => by rw [hf] at hc; simp at hc; omega
      have hs := mapM_same h1
      have hp : it.comps.mapM (fun w => if w.toList = it.elem.toList then some T else none) = some comps := by
        rw [← h1]
        congr 1
        funext w
        by_cases hw : w = it.elem
        · rw [if_pos hw, if_pos (by rw [hw])]
        · rw [if_neg hw, if_neg fun e => hw (toList_inj e)]
      have hn : tyImpl (⟨build, uninit, fun w => if w = it.elem.toList then some T else none, fun Ts => findTuple build tuples Ts.length Ts⟩ : Scope β) 5 (arrNum it) = some tuple := by
        unfold arrNum
        rw [tyImpl_tuple]
        show (it.comps.mapM (fun w => if w.toList = it.elem.toList then some T else none) >>= _) = _
        rw [hp]
        exact h2
      have ht : (fun Ts => findTuple build tuples Ts.length Ts) (List.replicate it.toIdx.length T) = some tuple := by
        rw [arrayImpls_length hi it hit, ← hs]; exact h2
      have k1 : numOf (⟨build, uninit, fun w => if w = it.elem.toList then some T else none, fun Ts => findTuple build tuples Ts.length Ts⟩ : Scope β) (arrNum it) = (it.impl build uninit tuple).num := by
        unfold numOf; rw [hn]; rfl
      have k2 := fun vs => array_to (Γ := ⟨build, uninit, fun w => if w = it.elem.toList then some T else none, fun Ts => findTuple build tuples Ts.length Ts⟩) it (T := T) ht vs
      have k3 := fun x => array_from it hn hf x
      simp only [k1, k2, k3]
      rfl
  · cases h

/-- **C88** (the crate): in what the two calls in the crate expand to, the text of one item is the impl of each tuple type with three or more components, and of each array type of positive length, that has one
(the impls of C84 and C85). -/
theorem C88_crate {build : Build} {tOut aOut : TTs} (ht : Expands macros c_tuple_impls tOut) (ha : Expands macros c_array_impls aOut) :
    (∀ (Ts : List (Mach (Val β))) (m : Mach (Val β)), 3 ≤ Ts.length → EnumLike.Rules.tupleOf build Ts = some m →
      ∃ pre it post, tOut = pre ++ it ++ post ∧ textTuple build (EnumLike.Rules.tupleOf build) it Ts = some m) ∧
    (∀ uninit (n : Nat) (T m : Mach (Val β)), n ≠ 0 → EnumLike.Rules.arrayOf build uninit n T = some m →
      ∃ pre it post, aOut = pre ++ it ++ post ∧ textArray build uninit (EnumLike.Rules.tupleOf build) it n T = some m) := by
  obtain ⟨ts, h1, rfl⟩ := (C85_crate.1 _).mp ht
  obtain ⟨as, h2, rfl⟩ := (C85_crate.2 _).mp ha
  have split : ∀ {γ : Type} (f : γ → TTs) (l : List γ) (a : γ), a ∈ l → ∃ pre post, each l f = pre ++ f a ++ post := fun f l a hl => by
    obtain ⟨l1, l2, rfl⟩ := List.append_of_mem hl
    exact ⟨each l1 f, each l2 f, by rw [each_append, each_cons]; simp⟩
  have hF : EnumLike.Rules.tupleOf build = fun Ts : List (Mach (Val β)) => findTuple build ts Ts.length Ts := by
    funext Ts; unfold EnumLike.Rules.tupleOf; rw [h1]; rfl
  constructor
  · intro Ts m h3 h
    unfold EnumLike.Rules.tupleOf at h
    rw [h1] at h
    replace h : findTuple build ts Ts.length Ts = some m := h
    obtain ⟨it, hit, e⟩ := C88_tuple h1 h3 h
    obtain ⟨pre, post, hp⟩ := split tupleText ts it hit
    refine ⟨pre, _, post, hp, ?_⟩
    rw [hF]
    exact e
  · intro uninit n T m h0 h
    unfold EnumLike.Rules.arrayOf at h
    rw [h1, h2] at h
    replace h : findArray build uninit ts as n T = some m := h
    obtain ⟨it, hit, e⟩ := C88_array h2 h0 h
    obtain ⟨pre, post, hp⟩ := split arrayText as it hit
    refine ⟨pre, _, post, hp, ?_⟩
    rw [hF]
    exact e

/-- **C88** (contract, with C84): so the printed text keeps the contract of `EnumLike`, for all component types with impls that do. -/
theorem C88_contract {build : Build} {tOut aOut : TTs} (ht : Expands macros c_tuple_impls tOut) (ha : Expands macros c_array_impls aOut) :
    (∀ ts : List (Mach (Val β) × (Val β → Prop)), 3 ≤ ts.length → ts.length ≤ 32 → (∀ t ∈ ts, KeepsContract build t.1 t.2) →
      ∃ pre it post M, tOut = pre ++ it ++ post ∧ textTuple build (EnumLike.Rules.tupleOf build) it (ts.map (·.1)) = some M ∧ KeepsContract build M (TupleHas (ts.map (·.2)))) ∧
    (∀ (T : Mach (Val β)) (H : Val β → Prop) (n : Nat), n ≠ 0 → n ≤ 32 → KeepsContract build T H →
      ∃ pre it post M, aOut = pre ++ it ++ post ∧ textArray build true (EnumLike.Rules.tupleOf build) it n T = some M ∧ KeepsContract build M (ArrayHas n H)) := by
  obtain ⟨h1, h2⟩ := C88_crate (β := β) (build := build) ht ha
  constructor
  · intro ts h3 hl h
    obtain ⟨M, e1, e2⟩ := C84_tuple build ts hl h
    obtain ⟨pre, it, post, e3, e4⟩ := h1 _ M (by simpa using h3) e1
    exact ⟨pre, it, post, M, e3, e4, e2⟩
  · intro T H n h0 hn h
    obtain ⟨M, e1, e2⟩ := C84_array build T H n hn h
    obtain ⟨pre, it, post, e3, e4⟩ := h2 true n T M h0 e1
    exact ⟨pre, it, post, M, e3, e4, e2⟩

/-- `bool`, as a component. -/
def boolMach : Mach (Val Bool) where
  num := .ok 2
  toDiscr
    | .leaf b => .ok b.toNat
    | _ => illTyped
  fromDiscr x := .ok (.leaf (x == 1))

/-- The text of the item for triples, run. -/
def tripleText : TTs := tts%
    "unsafe impl<A1: EnumLike, A0: EnumLike, A2: EnumLike> EnumLike for (A1, A0, A2) {
       const NUM_VARIANTS: usize = <((A1, A0,), A2)>::NUM_VARIANTS;
       fn to_discr(self) -> usize { ((self.0, self.1,), self.2).to_discr() }
       fn from_discr(x: usize) -> Self {
         let a = <((A1, A0,), A2)>::from_discr(x);
         ((a.0).0, (a.0).1, a.1)
       }
     }"

/-- `(true, false, true)` is 5 of 8, and back; what is no triple is ill typed. -/
example : ∃ m, textTuple ⟨true, true⟩ (EnumLike.Rules.tupleOf ⟨true, true⟩) tripleText [boolMach, boolMach, boolMach] = some m ∧ m.num = .ok 8 ∧
    m.toDiscr (.tup [.leaf true, .leaf false, .leaf true]) = .ok 5 ∧ m.fromDiscr 5 = .ok (.tup [.leaf true, .leaf false, .leaf true]) ∧ m.toDiscr (.tup [.leaf true, .leaf false]) = .error .ub :=
  ⟨_, rfl, rfl, rfl, rfl, rfl⟩

end Mac
end Source
end EnumVecModel
