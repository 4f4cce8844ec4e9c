import Verif.Lemmas.SourceMacro
import Verif.Props.MacroLawful

/-!
# C85: the text of the macros of `enum_like`

The definitions of `tuple_impls!`, `array_impls!`, `reverse_idx_a!`, `reverse_idx_b!` and `reverse_idx_c!`, letter by letter, expand every call to the items of `MacroRules.lean`.
-/

namespace EnumVecModel
namespace Source
namespace Mac
open EnumLike.Rules (Row TupleItem ArrayItem tupleImpls arrayImpls tupleRows arrayRows reverseIdx)

set_option linter.constructorNameAsVariable false
set_option maxRecDepth 20000

/-- `($idx:tt) -> $T:ident` -/
def pRow : Pats := .grp .paren (.frag (word% "idx") .tt .nil) (.tok (.p ['-', '>']) (.frag (word% "T") .ident .nil))

theorem rows_match (rows : List Row) (h : rows ≠ []) :
    (Pats.rep pRow true .nil).run (each rows Row.text) = some ([(word% "idx", .seq (rows.map fun r => number r.idx)), (word% "T", .seq (rows.map fun r => ident r.ty))], .nil) := by
  refine rep_match (env := fun r => [(word% "idx", .leaf (number r.idx)), (word% "T", .leaf (ident r.ty))]) (fun r ts => rfl) rfl (fun r => by simp [Row.text, paren, ident, TTs.length]) (fun _ => h) ?_
  have h1 := rounds_map (env := fun r : Row => [(word% "idx", .leaf (number r.idx)), (word% "T", .leaf (ident r.ty))]) (x := word% "idx") (g := fun r => number r.idx) (fun r => rfl) rows
  have h2 := rounds_map (env := fun r : Row => [(word% "idx", .leaf (number r.idx)), (word% "T", .leaf (ident r.ty))]) (x := word% "T") (g := fun r => ident r.ty) (fun r => rfl) rows
  show ([word% "idx", word% "T"].mapM fun x => (rounds _ x).map fun l => (x, Bnd.seq l)) = _
  rw [List.mapM_cons, List.mapM_cons, h1, h2]
  rfl

/-! ## Tuples -/

/-- What the variables stand for. -/
def tEnv (last : Row) (rows : List Row) : Env :=
  [(word% "last_idx", .leaf (number last.idx)), (word% "last_T", .leaf (ident last.ty)), (word% "idx", .seq (rows.map fun r => number r.idx)), (word% "T", .seq (rows.map fun r => ident r.ty))]

theorem tEnv_at (last : Row) (rows : List Row) (i : Nat) (hi : i < rows.length) : (tEnv last rows).at i =
    [(word% "last_idx", .leaf (number last.idx)), (word% "last_T", .leaf (ident last.ty)), (word% "idx", .leaf (number rows[i].idx)), (word% "T", .leaf (ident rows[i].ty))] := by
  simp [tEnv, Env.at, hi]

/-- The item before `reverse_idx_a!` and `reverse_idx_b!` are expanded. -/
def tupleBody (last : Row) (rows : List Row) : TTs :=
  tts% "unsafe impl<" ++ each rows (fun r => ident r.ty ++ tts% ": EnumLike,") ++ ident last.ty ++ tts% ": EnumLike> EnumLike for" ++
  paren (each rows (fun r => ident r.ty ++ tts% ",") ++ ident last.ty) ++ brace (
    tts% "const NUM_VARIANTS: usize = <" ++ paren (paren (each rows fun r => ident r.ty ++ tts% ",") ++ tts% "," ++ ident last.ty) ++ tts% ">::NUM_VARIANTS;" ++
    tts% "fn to_discr(self) -> usize" ++ brace (
      paren (tts% "reverse_idx_b!" ++ paren (tts% "self" ++ bracket (nums (rows.map (·.idx)))) ++ tts% ", self." ++ number last.idx) ++ tts% ".to_discr()") ++
    tts% "fn from_discr(x: usize) -> Self" ++ brace (
      tts% "let a = <" ++ paren (paren (each rows fun r => ident r.ty ++ tts% ",") ++ tts% "," ++ ident last.ty) ++ tts% ">::from_discr(x);" ++
      tts% "reverse_idx_a!" ++ paren (tts% "a" ++ bracket (nums (rows.map (·.idx)))))) ++
  callText (word% "tuple_impls") rows

theorem tuple_apply (last a b : Row) (rest : List Row) : applyRules m_tuple_impls.rules (each (last :: a :: b :: rest) Row.text) = some (tupleBody last (a :: b :: rest)) := by
  generalize hr : a :: b :: rest = rows
  have hne : rows ≠ [] := by rw [← hr]; simp
  have h1 : m_tuple_impls.rules[0].pat.run (each (last :: rows) Row.text) = some
      ([(word% "idx0", .leaf (number last.idx)), (word% "T0", .leaf (ident last.ty)), (word% "idx1", .leaf (number a.idx)), (word% "T1", .leaf (ident a.ty))], each (b :: rest) Row.text) := by
    rw [← hr]; rfl
  have key : ∀ (R : Pats) e, R.run (each rows Row.text) = some (e, .nil) →
      (Pats.grp .paren (.frag (word% "last_idx") .tt .nil) (.tok (.p ['-', '>']) (.frag (word% "last_T") .ident R))).run (each (last :: rows) Row.text) =
        some ((word% "last_idx", .leaf (number last.idx)) :: (word% "last_T", .leaf (ident last.ty)) :: e, .nil) := fun R e h => by
    simp [Pats.run, Row.text, paren, ident, number, h]
  have h2 := key _ _ (rows_match rows hne)
  have var1 : ∀ r, (Trs.var (word% "last_idx") r).run (tEnv last rows) = (r.run (tEnv last rows)).map (number last.idx ++ ·) := fun r => run_var rfl r
  have var2 : ∀ r, (Trs.var (word% "last_T") r).run (tEnv last rows) = (r.run (tEnv last rows)).map (ident last.ty ++ ·) := fun r => run_var rfl r
  have rep1 : ∀ r, (Trs.rep (.var (word% "T") (.tok (.p [':']) (.tok (.id (word% "EnumLike")) (.tok (.p [',']) .nil)))) true r).run (tEnv last rows) =
      (r.run (tEnv last rows)).map (each rows (fun r => ident r.ty ++ tts% ": EnumLike,") ++ ·) := fun r =>
    rep_write (by simp [count, tEnv, Trs.vars]) (fun _ => hne) fun i hi => by rw [tEnv_at _ _ _ hi]; rfl
  have rep2 : ∀ r, (Trs.rep (.var (word% "T") (.tok (.p [',']) .nil)) true r).run (tEnv last rows) =
      (r.run (tEnv last rows)).map (each rows (fun r => ident r.ty ++ tts% ",") ++ ·) := fun r =>
    rep_write (by simp [count, tEnv, Trs.vars]) (fun _ => hne) fun i hi => by rw [tEnv_at _ _ _ hi]; rfl
  have rep3 : ∀ r, (Trs.rep (.var (word% "idx") .nil) true r).run (tEnv last rows) = (r.run (tEnv last rows)).map (each rows (fun r => number r.idx) ++ ·) := fun r =>
    rep_write (by simp [count, tEnv, Trs.vars]) (fun _ => hne) fun i hi => by rw [tEnv_at _ _ _ hi]; rfl
  have rep4 : ∀ r, (Trs.rep (.grp .paren (.var (word% "idx") .nil) (.tok (.p ['-', '>']) (.var (word% "T") .nil))) true r).run (tEnv last rows) =
      (r.run (tEnv last rows)).map (each rows Row.text ++ ·) := fun r =>
    rep_write (by simp [count, tEnv, Trs.vars]) (fun _ => hne) fun i hi => by rw [tEnv_at _ _ _ hi]; rfl
  rw [show m_tuple_impls.rules = [⟨_, _⟩, ⟨_, _⟩] from rfl, applyRules_skip (fun e he => by cases he.symm.trans h1)]
  refine (applyRules_here h2).trans ?_
  show Trs.run _ (tEnv last rows) = _
  simp only [run_tok, run_grp, run_nil, var1, var2, rep1, rep2, rep3, rep4, Option.map_some, Option.bind_some]
  simp [tupleBody, callText, paren, brace, bracket, nums, each_map]

/-- What the base case of `reverse_idx_b!` prints. -/
def revB (l : List Nat) : TTs := paren (each l fun k => tts% "self." ++ number k ++ tts% ",")

/-- What the base case of `reverse_idx_a!` prints. -/
def revA (l : List Nat) : TTs := paren (each l (fun k => tts% "(a.0)." ++ number k ++ tts% ",") ++ tts% "a.1")

/-- What the base case of `reverse_idx_c!` prints. -/
def revC (l : List Nat) : TTs := bracket (each l fun k => tts% "t." ++ number k ++ tts% ",")

theorem revEnv_at (a : String) (l : List Nat) (i : Nat) (hi : i < l.length) :
    Env.at [(word% "a", .leaf (ident a)), (word% "reversed", .seq (l.map number))] i = [(word% "a", .leaf (ident a)), (word% "reversed", .leaf (number l[i]))] := by
  simp [Env.at, hi]

theorem expand_b {r r' : TTs} (ns : List Nat) (h : ns ≠ []) (hr : Expands macros r r') :
    Expands macros (tts% "reverse_idx_b!" ++ (paren (tts% "self" ++ bracket (nums ns)) ++ r)) (revB (reverseIdx ns []) ++ r') := by
  have := expand_rev (m := word% "reverse_idx_b") (a := "self") (base := m_reverse_idx_b.rules[0].body) (f := revB) rfl (fun l => by
    simp [revB, paren, quiet]; exact quiet_each (fun k => rfl) l) (fun l hl => by
    show (Trs.grp .paren (.rep (.var (word% "a") (.tok (.p ['.']) (.var (word% "reversed") (.tok (.p [',']) .nil)))) true .nil) .nil).run _ = _
    rw [run_grp, rep_write (l := l) (G := fun k => tts% "self." ++ number k ++ tts% ",") (by simp [count, Trs.vars]) (fun _ => hl) (fun i hi => by rw [revEnv_at _ _ _ hi]; rfl), run_nil]
    simp [revB, paren]) hr ns [] (Or.inl h)
  simpa [ident, nums, bracket, paren] using this

theorem expand_a {r r' : TTs} (ns : List Nat) (h : ns ≠ []) (hr : Expands macros r r') :
    Expands macros (tts% "reverse_idx_a!" ++ (paren (tts% "a" ++ bracket (nums ns)) ++ r)) (revA (reverseIdx ns []) ++ r') := by
  have := expand_rev (m := word% "reverse_idx_a") (a := "a") (base := m_reverse_idx_a.rules[0].body) (f := revA) rfl (fun l => by
    simp [revA, paren, quiet, quiet_append]; exact quiet_each (fun k => rfl) l) (fun l hl => by
    show (Trs.grp .paren (.rep (.grp .paren (.var (word% "a") (.tok (.p ['.']) (.tok (.num 0) .nil))) (.tok (.p ['.']) (.var (word% "reversed") (.tok (.p [',']) .nil)))) true
      (.var (word% "a") (.tok (.p ['.']) (.tok (.num 1) .nil)))) .nil).run _ = _
    rw [run_grp, rep_write (l := l) (G := fun k => tts% "(a.0)." ++ number k ++ tts% ",") (by simp [count, Trs.vars]) (fun _ => hl) (fun i hi => by rw [revEnv_at _ _ _ hi]; rfl), run_nil,
      run_var (v := ident "a") rfl, run_tok, run_tok, run_nil]
    simp [revA, paren, ident]) hr ns [] (Or.inl h)
  simpa [ident, nums, bracket, paren] using this

theorem expand_c {r r' : TTs} (ns : List Nat) (h : ns ≠ []) (hr : Expands macros r r') :
    Expands macros (tts% "reverse_idx_c!" ++ (paren (tts% "t" ++ bracket (nums ns)) ++ r)) (revC (reverseIdx ns []) ++ r') := by
  have := expand_rev (m := word% "reverse_idx_c") (a := "t") (base := m_reverse_idx_c.rules[0].body) (f := revC) rfl (fun l => by
    simp [revC, bracket, quiet]; exact quiet_each (fun k => rfl) l) (fun l hl => by
    show (Trs.grp .bracket (.rep (.var (word% "a") (.tok (.p ['.']) (.var (word% "reversed") (.tok (.p [',']) .nil)))) true .nil) .nil).run _ = _
    rw [run_grp, rep_write (l := l) (G := fun k => tts% "t." ++ number k ++ tts% ",") (by simp [count, Trs.vars]) (fun _ => hl) (fun i hi => by rw [revEnv_at _ _ _ hi]; rfl), run_nil]
    simp [revC, bracket]) hr ns [] (Or.inl h)
  simpa [ident, nums, bracket, paren] using this

/-- The item for a tuple. -/
def tItem (last : Row) (rows : List Row) : TupleItem where
  params := rows.map (·.ty) ++ [last.ty]
  self_ := rows.map (·.ty) ++ [last.ty]
  inner := rows.map (·.ty)
  last := last.ty
  toIdx := reverseIdx (rows.map (·.idx)) []
  toLast := last.idx
  fromIdx := reverseIdx (rows.map (·.idx)) []

theorem quiet_ident (s : String) : quiet (ident s) = true := rfl

theorem quiet_tys (rows : List Row) : quiet (each rows fun r => ident r.ty ++ tts% ",") = true := quiet_each (fun _ => rfl) rows

theorem tuple_expand (last : Row) (rows : List Row) (hne : rows ≠ []) {out : TTs} (h : Expands macros (callText (word% "tuple_impls") rows) out) :
    Expands macros (tupleBody last rows) (tupleText (tItem last rows) ++ out) := by
  have hi : rows.map (·.idx) ≠ [] := by simpa using hne
  have e1 : tupleBody last rows =
      (tts% "unsafe impl<" ++ each rows (fun r => ident r.ty ++ tts% ": EnumLike,") ++ ident last.ty ++ tts% ": EnumLike> EnumLike for" ++
        paren (each rows (fun r => ident r.ty ++ tts% ",") ++ ident last.ty)) ++ .grp .brace (
        (tts% "const NUM_VARIANTS: usize = <" ++ paren (paren (each rows fun r => ident r.ty ++ tts% ",") ++ tts% "," ++ ident last.ty) ++ tts% ">::NUM_VARIANTS;" ++
          tts% "fn to_discr(self) -> usize") ++ .grp .brace (
          .grp .paren (tts% "reverse_idx_b!" ++ (paren (tts% "self" ++ bracket (nums (rows.map (·.idx)))) ++ (tts% ", self." ++ number last.idx))) (tts% ".to_discr()"))
        (tts% "fn from_discr(x: usize) -> Self" ++ .grp .brace (
          (tts% "let a = <" ++ paren (paren (each rows fun r => ident r.ty ++ tts% ",") ++ tts% "," ++ ident last.ty) ++ tts% ">::from_discr(x);") ++
          (tts% "reverse_idx_a!" ++ (paren (tts% "a" ++ bracket (nums (rows.map (·.idx)))) ++ .nil))) .nil))
      (callText (word% "tuple_impls") rows) := by
    simp [tupleBody, paren, brace, bracket]
  have e2 : tupleText (tItem last rows) ++ out =
      (tts% "unsafe impl<" ++ each rows (fun r => ident r.ty ++ tts% ": EnumLike,") ++ ident last.ty ++ tts% ": EnumLike> EnumLike for" ++
        paren (each rows (fun r => ident r.ty ++ tts% ",") ++ ident last.ty)) ++ .grp .brace (
        (tts% "const NUM_VARIANTS: usize = <" ++ paren (paren (each rows fun r => ident r.ty ++ tts% ",") ++ tts% "," ++ ident last.ty) ++ tts% ">::NUM_VARIANTS;" ++
          tts% "fn to_discr(self) -> usize") ++ .grp .brace (
          .grp .paren (revB (reverseIdx (rows.map (·.idx)) []) ++ (tts% ", self." ++ number last.idx)) (tts% ".to_discr()"))
        (tts% "fn from_discr(x: usize) -> Self" ++ .grp .brace (
          (tts% "let a = <" ++ paren (paren (each rows fun r => ident r.ty ++ tts% ",") ++ tts% "," ++ ident last.ty) ++ tts% ">::from_discr(x);") ++
          (revA (reverseIdx (rows.map (·.idx)) []) ++ .nil)) .nil))
      out := by
    have c1 : commas ((rows.map (·.ty) ++ [last.ty]).map fun T => ident T ++ tts% ": EnumLike") = each rows (fun r => ident r.ty ++ tts% ": EnumLike,") ++ (ident last.ty ++ tts% ": EnumLike") := by
      rw [List.map_append, List.map_singleton, commas_concat, List.map_map, List.map_map]
      rfl
    have c2 : commas ((rows.map (·.ty) ++ [last.ty]).map ident) = each rows (fun r => ident r.ty ++ tts% ",") ++ ident last.ty := by
      rw [List.map_append, List.map_singleton, commas_concat, List.map_map, List.map_map]
      rfl
    have c3 : each (rows.map (·.ty)) (fun T => ident T ++ tts% ",") = each rows (fun r => ident r.ty ++ tts% ",") := each_map _ _ _
    unfold tupleText
    simp only [tItem, c1, c2, c3]
    simp [revA, revB, paren, brace]
  rw [e1, e2]
  have q := quiet_tys rows
  refine .quiet ?_ rfl (.grp (.quiet ?_ rfl (.grp (.grp (expand_b _ hi ?_) ?_) (.quiet rfl rfl (.grp (.quiet ?_ rfl (expand_a _ hi .nil)) .nil)))) h)
  · have q1 : quiet (each rows fun r => ident r.ty ++ tts% ": EnumLike,") = true := quiet_each (fun _ => rfl) rows
    simp only [quiet_append, quiet, paren, quiet_ident, q, q1]; rfl
  · simp only [quiet_append, quiet, paren, quiet_ident, q]; rfl
  · have := Expands.quiet (ms := macros) (a := tts% ", self." ++ number last.idx) rfl (show noBang .nil = true from rfl) .nil
    rwa [append_nil] at this
  · have := Expands.quiet (ms := macros) (a := tts% ".to_discr()") rfl (show noBang .nil = true from rfl) .nil
    rwa [append_nil] at this
  · simp only [quiet_append, quiet, paren, quiet_ident, q]; rfl

theorem ofRules {name : Word} {rs : List Rule} (hm : macros.lookup name = some rs) {rows : List Row} {out : TTs} :
    Expands macros (callText name rows) out ↔ ∃ b, applyRules rs (each rows Row.text) = some b ∧ Expands macros b out := by
  constructor
  · intro h
    cases h with
    | tok h1 => simp [isCall, brace, hm] at h1
    | call h1 h2 h3 h4 =>
      rw [hm] at h1; cases h1
      cases h4
      exact ⟨_, h2, by rwa [append_nil]⟩
  · rintro ⟨b, h1, h2⟩
    exact .ofCall hm h1 h2 .nil (append_nil _).symm

theorem tupleImpls_some (a b : Row) : (rest : List Row) → ∃ items, tupleImpls (a :: b :: rest) = some items
  | [] => ⟨[], rfl⟩
  | c :: rest => by
    obtain ⟨items, h⟩ := tupleImpls_some b c rest
    refine ⟨tItem a (b :: c :: rest) :: items, ?_⟩
    show (tupleImpls (b :: c :: rest)).bind (fun its => some (tItem a (b :: c :: rest) :: its)) = _
    rw [h]; rfl

/-- **C85** (`tuple_impls!`): for any rows at all, the macros as written print the items of the model, if it has any, and there is a compile error otherwise. -/
theorem C85_tuple_impls (rows : List Row) (out : TTs) :
    Expands macros (callText (word% "tuple_impls") rows) out ↔ ∃ items, tupleImpls rows = some items ∧ out = each items tupleText := by
  have hm : macros.lookup (word% "tuple_impls") = some m_tuple_impls.rules := rfl
  induction rows generalizing out with
  | nil => rw [ofRules hm]; exact ⟨fun ⟨b, h, _⟩ => (by cases h), fun ⟨_, h, _⟩ => (by cases h)⟩
  | cons last rows ih =>
    match rows, ih with
    | [], _ => rw [ofRules hm]; exact ⟨fun ⟨b, h, _⟩ => (by cases h), fun ⟨_, h, _⟩ => (by cases h)⟩
    | [a], _ =>
      rw [ofRules hm]
      constructor
      · rintro ⟨b, h, h'⟩
        have : applyRules m_tuple_impls.rules (each [last, a] Row.text) = some .nil := rfl
        rw [this] at h
        cases h; cases h'
        exact ⟨[], rfl, rfl⟩
      · rintro ⟨_, h, rfl⟩
        cases h
        exact ⟨.nil, rfl, .nil⟩
    | a :: b :: rest, ih =>
      have hT : tupleImpls (last :: a :: b :: rest) = (tupleImpls (a :: b :: rest)).map (tItem last (a :: b :: rest) :: ·) := by
        show (tupleImpls (a :: b :: rest)).bind (fun its => some (tItem last (a :: b :: rest) :: its)) = _
        cases tupleImpls (a :: b :: rest) <;> rfl
      rw [ofRules hm, hT]
      constructor
      · rintro ⟨b', h, h'⟩
        rw [tuple_apply] at h
        cases h
        obtain ⟨items, hi⟩ := tupleImpls_some a b rest
        refine ⟨tItem last (a :: b :: rest) :: items, by rw [hi]; rfl, ?_⟩
        exact h'.det (tuple_expand last _ (by simp) ((ih _).mpr ⟨items, hi, rfl⟩))
      · rintro ⟨_, h, rfl⟩
        cases hi : tupleImpls (a :: b :: rest) with
        | none => rw [hi] at h; cases h
        | some items =>
          rw [hi] at h
          cases h
          exact ⟨_, tuple_apply _ _ _ _, tuple_expand last _ (by simp) ((ih _).mpr ⟨items, hi, rfl⟩)⟩

/-! ## Arrays -/

/-- What the variables stand for. -/
def aEnv (n : Row) (rows : List Row) : Env :=
  [(word% "N", .leaf (number n.idx)), (word% "T0", .leaf (ident n.ty)), (word% "idx", .seq (rows.map fun r => number r.idx)), (word% "T", .seq (rows.map fun r => ident r.ty))]

theorem aEnv_at (n : Row) (rows : List Row) (i : Nat) (hi : i < rows.length) : (aEnv n rows).at i =
    [(word% "N", .leaf (number n.idx)), (word% "T0", .leaf (ident n.ty)), (word% "idx", .leaf (number rows[i].idx)), (word% "T", .leaf (ident rows[i].ty))] := by
  simp [aEnv, Env.at, hi]

/-- `mem::replace(&mut self[N - 1 - idx], mem::uninitialized()),` -/
def takeText (n k : Nat) : TTs :=
  tts% "mem::replace" ++ paren (tts% "&mut self" ++ bracket (number n ++ tts% "- 1 -" ++ number k) ++ tts% ", mem::uninitialized()") ++ tts% ","

/-- The item before `reverse_idx_c!` is expanded. -/
def arrayBody (n : Row) (rows : List Row) : TTs :=
  tts% "unsafe impl<" ++ ident n.ty ++ tts% ": EnumLike> EnumLike for" ++ bracket (ident n.ty ++ tts% ";" ++ number n.idx) ++ brace (
    tts% "const NUM_VARIANTS: usize = <" ++ paren (each rows fun r => ident r.ty ++ tts% ",") ++ tts% ">::NUM_VARIANTS;" ++
    tts% "fn to_discr(mut self) -> usize" ++ brace (
      tts% "use std::mem; unsafe" ++ brace (paren (each rows fun r => takeText n.idx r.idx) ++ tts% ".to_discr()")) ++
    tts% "fn from_discr(x: usize) -> Self" ++ brace (
      tts% "let t = <" ++ paren (each rows fun r => ident r.ty ++ tts% ",") ++ tts% ">::from_discr(x);" ++
      tts% "reverse_idx_c!" ++ paren (tts% "t" ++ bracket (nums (rows.map (·.idx)))))) ++
  callText (word% "array_impls") rows

theorem array_apply (n a : Row) (rest : List Row) : applyRules m_array_impls.rules (each (n :: a :: rest) Row.text) = some (arrayBody n (a :: rest)) := by
  generalize hr : a :: rest = rows
  have hne : rows ≠ [] := by rw [← hr]; simp
  have h1 : m_array_impls.rules[0].pat.run (each (n :: rows) Row.text) = some
      ([(word% "idx0", .leaf (number n.idx)), (word% "T0", .leaf (ident n.ty))], each (a :: rest) Row.text) := by
    rw [← hr]; rfl
  have key : ∀ (R : Pats) e, R.run (each rows Row.text) = some (e, .nil) →
      (Pats.grp .paren (.frag (word% "N") .tt .nil) (.tok (.p ['-', '>']) (.frag (word% "T0") .ident R))).run (each (n :: rows) Row.text) =
        some ((word% "N", .leaf (number n.idx)) :: (word% "T0", .leaf (ident n.ty)) :: e, .nil) := fun R e h => by
    simp [Pats.run, Row.text, paren, ident, number, h]
  have h2 := key _ _ (rows_match rows hne)
  have var1 : ∀ r, (Trs.var (word% "N") r).run (aEnv n rows) = (r.run (aEnv n rows)).map (number n.idx ++ ·) := fun r => run_var rfl r
  have var2 : ∀ r, (Trs.var (word% "T0") r).run (aEnv n rows) = (r.run (aEnv n rows)).map (ident n.ty ++ ·) := fun r => run_var rfl r
  have rep1 : ∀ r, (Trs.rep (.tok (.id (word% "mem")) (.tok (.p [':', ':']) (.tok (.id (word% "replace")) (.grp .paren (.tok (.p ['&']) (.tok (.id (word% "mut")) (.tok (.id (word% "self"))
      (.grp .bracket (.var (word% "N") (.tok (.p ['-']) (.tok (.num 1) (.tok (.p ['-']) (.var (word% "idx") .nil)))))
        (.tok (.p [',']) (.tok (.id (word% "mem")) (.tok (.p [':', ':']) (.tok (.id (word% "uninitialized")) (.grp .paren .nil .nil))))))))) (.tok (.p [',']) .nil))))) true r).run (aEnv n rows) =
      (r.run (aEnv n rows)).map (each rows (fun r => takeText n.idx r.idx) ++ ·) := fun r =>
    rep_write (by simp [count, aEnv, Trs.vars]) (fun _ => hne) fun i hi => by rw [aEnv_at _ _ _ hi]; rfl
  have rep2 : ∀ r, (Trs.rep (.var (word% "T") (.tok (.p [',']) .nil)) true r).run (aEnv n rows) =
      (r.run (aEnv n rows)).map (each rows (fun r => ident r.ty ++ tts% ",") ++ ·) := fun r =>
    rep_write (by simp [count, aEnv, Trs.vars]) (fun _ => hne) fun i hi => by rw [aEnv_at _ _ _ hi]; rfl
  have rep3 : ∀ r, (Trs.rep (.var (word% "idx") .nil) true r).run (aEnv n rows) = (r.run (aEnv n rows)).map (each rows (fun r => number r.idx) ++ ·) := fun r =>
    rep_write (by simp [count, aEnv, Trs.vars]) (fun _ => hne) fun i hi => by rw [aEnv_at _ _ _ hi]; rfl
  have rep4 : ∀ r, (Trs.rep (.grp .paren (.var (word% "idx") .nil) (.tok (.p ['-', '>']) (.var (word% "T") .nil))) true r).run (aEnv n rows) =
      (r.run (aEnv n rows)).map (each rows Row.text ++ ·) := fun r =>
    rep_write (by simp [count, aEnv, Trs.vars]) (fun _ => hne) fun i hi => by rw [aEnv_at _ _ _ hi]; rfl
  rw [show m_array_impls.rules = [⟨_, _⟩, ⟨_, _⟩] from rfl, applyRules_skip (fun e he => by cases he.symm.trans h1)]
  refine (applyRules_here h2).trans ?_
  show Trs.run _ (aEnv n rows) = _
  simp only [run_tok, run_grp, run_nil, var1, var2, rep1, rep2, rep3, rep4, Option.map_some, Option.bind_some]
  simp [arrayBody, callText, paren, brace, bracket, nums, each_map]

/-- The item for an array. -/
def aItem (n : Row) (rows : List Row) : ArrayItem where
  elem := n.ty
  size := n.idx
  comps := rows.map (·.ty)
  toIdx := rows.map (·.idx)
  fromIdx := reverseIdx (rows.map (·.idx)) []

theorem array_expand (n : Row) (rows : List Row) (hne : rows ≠ []) {out : TTs} (h : Expands macros (callText (word% "array_impls") rows) out) :
    Expands macros (arrayBody n rows) (arrayText (aItem n rows) ++ out) := by
  have hi : rows.map (·.idx) ≠ [] := by simpa using hne
  have e1 : arrayBody n rows =
      (tts% "unsafe impl<" ++ ident n.ty ++ tts% ": EnumLike> EnumLike for" ++ bracket (ident n.ty ++ tts% ";" ++ number n.idx)) ++ .grp .brace (
        (tts% "const NUM_VARIANTS: usize = <" ++ paren (each rows fun r => ident r.ty ++ tts% ",") ++ tts% ">::NUM_VARIANTS;" ++
          tts% "fn to_discr(mut self) -> usize" ++ brace (
            tts% "use std::mem; unsafe" ++ brace (paren (each rows fun r => takeText n.idx r.idx) ++ tts% ".to_discr()")) ++
          tts% "fn from_discr(x: usize) -> Self") ++ .grp .brace (
          (tts% "let t = <" ++ paren (each rows fun r => ident r.ty ++ tts% ",") ++ tts% ">::from_discr(x);") ++
          (tts% "reverse_idx_c!" ++ (paren (tts% "t" ++ bracket (nums (rows.map (·.idx)))) ++ .nil))) .nil)
      (callText (word% "array_impls") rows) := by
    simp [arrayBody, paren, brace, bracket]
  have e2 : arrayText (aItem n rows) ++ out =
      (tts% "unsafe impl<" ++ ident n.ty ++ tts% ": EnumLike> EnumLike for" ++ bracket (ident n.ty ++ tts% ";" ++ number n.idx)) ++ .grp .brace (
        (tts% "const NUM_VARIANTS: usize = <" ++ paren (each rows fun r => ident r.ty ++ tts% ",") ++ tts% ">::NUM_VARIANTS;" ++
          tts% "fn to_discr(mut self) -> usize" ++ brace (
            tts% "use std::mem; unsafe" ++ brace (paren (each rows fun r => takeText n.idx r.idx) ++ tts% ".to_discr()")) ++
          tts% "fn from_discr(x: usize) -> Self") ++ .grp .brace (
          (tts% "let t = <" ++ paren (each rows fun r => ident r.ty ++ tts% ",") ++ tts% ">::from_discr(x);") ++
          (revC (reverseIdx (rows.map (·.idx)) []) ++ .nil)) .nil)
      out := by
    have c3 : each (rows.map (·.ty)) (fun T => ident T ++ tts% ",") = each rows (fun r => ident r.ty ++ tts% ",") := each_map _ _ _
    have c4 : each (rows.map (·.idx)) (takeText n.idx) = each rows (fun r => takeText n.idx r.idx) := each_map _ _ _
    rw [← c4]
    unfold arrayText
    simp only [aItem, c3]
    simp [revC, paren, brace, bracket]
    rfl
  rw [e1, e2]
  have q := quiet_tys rows
  refine .quiet rfl rfl (.grp (.quiet ?_ rfl (.grp (.quiet ?_ rfl (expand_c _ hi .nil)) .nil)) h)
  · have q1 : quiet (each rows fun r => takeText n.idx r.idx) = true := quiet_each (fun _ => rfl) rows
    simp only [quiet_append, quiet, paren, brace, q, q1]; rfl
  · simp only [quiet_append, quiet, paren, q]; rfl

theorem arrayImpls_some (a : Row) : (rest : List Row) → ∃ items, arrayImpls (a :: rest) = some items
  | [] => ⟨[], rfl⟩
  | c :: rest => by
    obtain ⟨items, h⟩ := arrayImpls_some c rest
    refine ⟨aItem a (c :: rest) :: items, ?_⟩
    show (arrayImpls (c :: rest)).bind (fun its => some (aItem a (c :: rest) :: its)) = _
    rw [h]; rfl

/-- **C85** (`array_impls!`). -/
theorem C85_array_impls (rows : List Row) (out : TTs) :
    Expands macros (callText (word% "array_impls") rows) out ↔ ∃ items, arrayImpls rows = some items ∧ out = each items arrayText := by
  have hm : macros.lookup (word% "array_impls") = some m_array_impls.rules := rfl
  induction rows generalizing out with
  | nil => rw [ofRules hm]; exact ⟨fun ⟨b, h, _⟩ => (by cases h), fun ⟨_, h, _⟩ => (by cases h)⟩
  | cons n rows ih =>
    match rows, ih with
    | [], _ =>
      rw [ofRules hm]
      constructor
      · rintro ⟨b, h, h'⟩
        have : applyRules m_array_impls.rules (each [n] Row.text) = some .nil := rfl
        rw [this] at h
        cases h; cases h'
        exact ⟨[], rfl, rfl⟩
      · rintro ⟨_, h, rfl⟩
        cases h
        exact ⟨.nil, rfl, .nil⟩
    | a :: rest, ih =>
      have hT : arrayImpls (n :: a :: rest) = (arrayImpls (a :: rest)).map (aItem n (a :: rest) :: ·) := by
        show (arrayImpls (a :: rest)).bind (fun its => some (aItem n (a :: rest) :: its)) = _
        cases arrayImpls (a :: rest) <;> rfl
      rw [ofRules hm, hT]
      constructor
      · rintro ⟨b', h, h'⟩
        rw [array_apply] at h
        cases h
        obtain ⟨items, hi⟩ := arrayImpls_some a rest
        refine ⟨aItem n (a :: rest) :: items, by rw [hi]; rfl, ?_⟩
        exact h'.det (array_expand n _ (by simp) ((ih _).mpr ⟨items, hi, rfl⟩))
      · rintro ⟨_, h, rfl⟩
        cases hi : arrayImpls (a :: rest) with
        | none => rw [hi] at h; cases h
        | some items =>
          rw [hi] at h
          cases h
          exact ⟨_, array_apply _ _ _, array_expand n _ (by simp) ((ih _).mpr ⟨items, hi, rfl⟩)⟩

/-! ## The crate -/

/-- **C85**: the calls in the crate are those of the model, and they print the items that the search for an impl (C62, C84) looks through. -/
theorem C85_crate :
    (∀ out, Expands macros c_tuple_impls out ↔ ∃ items, tupleImpls tupleRows = some items ∧ out = each items tupleText) ∧
    (∀ out, Expands macros c_array_impls out ↔ ∃ items, arrayImpls arrayRows = some items ∧ out = each items arrayText) := by
  have h1 : c_tuple_impls = callText (word% "tuple_impls") tupleRows := by rfl
  have h2 : c_array_impls = callText (word% "array_impls") arrayRows := by rfl
  exact ⟨fun out => by rw [h1]; exact C85_tuple_impls tupleRows out, fun out => by rw [h2]; exact C85_array_impls arrayRows out⟩

/-- **C85** (from the texts): the rules and the calls are what the parser makes of the texts in the repository. -/
theorem C85_text :
    (macroText m_tuple_impls.text.toList = some m_tuple_impls ∧ macroText m_array_impls.text.toList = some m_array_impls ∧
      macroText m_reverse_idx_a.text.toList = some m_reverse_idx_a ∧ macroText m_reverse_idx_b.text.toList = some m_reverse_idx_b ∧
      macroText m_reverse_idx_c.text.toList = some m_reverse_idx_c) ∧
    (∃ out, treesOf c_tuple_impls.text.toList = some c_tuple_impls ∧ Expands macros c_tuple_impls out) ∧
    (∃ out, treesOf c_array_impls.text.toList = some c_array_impls ∧ Expands macros c_array_impls out) := by
  obtain ⟨items, h⟩ := tupleImpls_some ⟨31, "A31"⟩ ⟨30, "A30"⟩ (tupleRows.drop 2)
  obtain ⟨items', h'⟩ := arrayImpls_some ⟨32, "A"⟩ (arrayRows.drop 1)
  exact ⟨⟨m_tuple_impls.parses, m_array_impls.parses, m_reverse_idx_a.parses, m_reverse_idx_b.parses, m_reverse_idx_c.parses⟩,
    ⟨_, c_tuple_impls.parses, (C85_crate.1 _).mpr ⟨items, h, rfl⟩⟩, ⟨_, c_array_impls.parses, (C85_crate.2 _).mpr ⟨items', h', rfl⟩⟩⟩

/-! ## The text determines the items -/

theorem ident_inj {s t : String} {x y : TTs} (h : ident s ++ x = ident t ++ y) : s = t ∧ x = y := by
  simpa [ident, String.toList_inj] using h

theorem each_inj {α : Type} {f : α → TTs} (hf : ∀ a b x y, f a ++ x = f b ++ y → a = b ∧ x = y) (hn : ∀ a, f a ≠ .nil) : {l l' : List α} → each l f = each l' f → l = l'
  | [], [], _ => rfl
  | [], b :: l', h => absurd h.symm (by rw [each_cons]; cases hb : f b with | nil => exact absurd hb (hn b) | tok => nofun | grp => nofun)
  | a :: l, [], h => absurd h (by rw [each_cons]; cases hb : f a with | nil => exact absurd hb (hn a) | tok => nofun | grp => nofun)
  | a :: l, b :: l', h => by
    obtain ⟨e, h⟩ := hf _ _ _ _ h
    rw [e, each_inj hf hn h]

theorem tys_inj {l l' : List String} (h : each l (fun T => ident T ++ tts% ",") = each l' (fun T => ident T ++ tts% ",")) : l = l' :=
  each_inj (f := fun T => ident T ++ tts% ",") (fun a b x y h => by simpa [ident, String.toList_inj] using h) (fun _ h => by simp [ident] at h) h

theorem params_inj {x y : TTs} : {l l' : List String} → commas (l.map fun T => ident T ++ tts% ": EnumLike") ++ .tok (.p ['>']) x = commas (l'.map fun T => ident T ++ tts% ": EnumLike") ++ .tok (.p ['>']) y → l = l' ∧ x = y
  | [], [], h => by simpa [commas] using h
  | [], [_], h => by simp [commas, ident] at h
  | [], _ :: _ :: _, h => by simp [commas, ident] at h
  | [_], [], h => by simp [commas, ident] at h
  | _ :: _ :: _, [], h => by simp [commas, ident] at h
  | [a], [b], h => by simpa [commas, ident, String.toList_inj] using h
  | [_], _ :: _ :: _, h => by simp [commas, ident] at h
  | _ :: _ :: _, [_], h => by simp [commas, ident] at h
  | a :: c :: l, b :: d :: l', h => by
    have h' : a = b ∧ commas ((c :: l).map fun T => ident T ++ tts% ": EnumLike") ++ .tok (.p ['>']) x = commas ((d :: l').map fun T => ident T ++ tts% ": EnumLike") ++ .tok (.p ['>']) y := by
      simpa [commas, ident, String.toList_inj] using h
    obtain ⟨e', h⟩ := h'
    obtain ⟨e, e2⟩ := params_inj h
    exact ⟨by rw [e', e], e2⟩

theorem idents_inj : {l l' : List String} → commas (l.map ident) = commas (l'.map ident) → l = l'
  | [], [], h => rfl
  | [], [_], h => by simp [commas, ident] at h
  | [], _ :: _ :: _, h => by simp [commas, ident] at h
  | [_], [], h => by simp [commas, ident] at h
  | _ :: _ :: _, [], h => by simp [commas, ident] at h
  | [a], [b], h => by simpa [commas, ident, String.toList_inj] using h
  | [_], _ :: _ :: _, h => by simp [commas, ident] at h
  | _ :: _ :: _, [_], h => by simp [commas, ident] at h
  | a :: c :: l, b :: d :: l', h => by
    have h' : a = b ∧ commas ((c :: l).map ident) = commas ((d :: l').map ident) := by
      simpa [commas, ident, String.toList_inj] using h
    obtain ⟨e, h⟩ := h'
    rw [e, idents_inj h]

theorem from_inj : {l l' : List Nat} → each l (fun k => tts% "(a.0)." ++ number k ++ tts% ",") ++ tts% "a.1" = each l' (fun k => tts% "(a.0)." ++ number k ++ tts% ",") ++ tts% "a.1" → l = l'
  | [], [], _ => rfl
  | [], _ :: _, h => by simp at h
  | _ :: _, [], h => by simp at h
  | a :: l, b :: l', h => by
    have h' : a = b ∧ each l (fun k => tts% "(a.0)." ++ number k ++ tts% ",") ++ tts% "a.1" = each l' (fun k => tts% "(a.0)." ++ number k ++ tts% ",") ++ tts% "a.1" := by
      simpa [number] using h
    obtain ⟨e, h⟩ := h'
    rw [e, from_inj h]

theorem tupleText_inj {a b : TupleItem} {x y : TTs} (h : tupleText a ++ x = tupleText b ++ y) : a = b ∧ x = y := by
  obtain ⟨p, s, i, l, t, u, f⟩ := a
  obtain ⟨p', s', i', l', t', u', f'⟩ := b
  simp only [tupleText, append_assoc, tok_append, nil_append, TTs.tok.injEq, true_and] at h
  have h' := params_inj (l := p) (l' := p') h
  clear h
  obtain ⟨e, h⟩ := h'
  simp only [paren, brace, grp_append, tok_append, nil_append, TTs.tok.injEq, TTs.grp.injEq, true_and, and_true] at h
  obtain ⟨h1, ⟨⟨h2, h3⟩, ⟨h4, h5⟩, -, h6⟩, h7⟩ := h
  have e4 : t = t' := each_inj (f := fun k => tts% "self." ++ number k ++ tts% ",") (fun a b x y h => by simpa [number] using h) (fun _ h => by simp at h) h4
  have e5 : u = u' := by simpa [number] using h5
  exact ⟨by rw [e, idents_inj h1, tys_inj h2, (ident_inj (s := l) (t := l') (x := .nil) (y := .nil) (by rw [h3])).1, e4, e5, from_inj h6], h7⟩

theorem arrayText_inj {a b : ArrayItem} {x y : TTs} (h : arrayText a ++ x = arrayText b ++ y) : a = b ∧ x = y := by
  obtain ⟨s, n, i, t, f⟩ := a
  obtain ⟨s', n', i', t', f'⟩ := b
  simp only [arrayText, append_assoc, tok_append, nil_append, TTs.tok.injEq, true_and] at h
  obtain ⟨e, h⟩ := ident_inj (s := s) (t := s') h
  simp only [paren, brace, bracket, number, ident, grp_append, tok_append, nil_append, TTs.tok.injEq, TTs.grp.injEq, true_and, and_true, Tk.num.injEq] at h
  obtain ⟨⟨-, e2⟩, ⟨h1, h2, -, h4⟩, h5⟩ := h
  have e4 : t = t' := each_inj (f := takeText n) (fun a b x y h => by simpa [number, takeText, paren, bracket] using h) (fun _ h => by simp [takeText] at h) (by rw [e2] at h2 ⊢; exact h2)
  have e5 : f = f' := each_inj (f := fun k => tts% "t." ++ number k ++ tts% ",") (fun a b x y h => by simpa [number] using h) (fun _ h => by simp at h) h4
  exact ⟨by rw [e, e2, tys_inj h1, e4, e5], h5⟩

theorem tupleText_ne (it : TupleItem) : tupleText it ≠ .nil := by simp [tupleText]
theorem arrayText_ne (it : ArrayItem) : arrayText it ≠ .nil := by simp [arrayText]

/-- **C85** (text and meaning): whatever the calls in the crate expand to, it is the text of exactly one list of items, and the impl of every tuple and array type (C62, C84) is the one that the search
finds among these items. -/
theorem C85_search {β : Type} {tOut aOut : TTs} (ht : Expands macros c_tuple_impls tOut) (ha : Expands macros c_array_impls aOut) :
    ∃ (ts : List TupleItem) (as : List ArrayItem), (∀ ts', tOut = each ts' tupleText ↔ ts' = ts) ∧ (∀ as', aOut = each as' arrayText ↔ as' = as) ∧
      (∀ build (Ts : List (EnumLike.Mach (EnumLike.Rules.Val β))), EnumLike.Rules.tupleOf build Ts = EnumLike.Rules.findTuple build ts Ts.length Ts) ∧
      (∀ build uninit n (T : EnumLike.Mach (EnumLike.Rules.Val β)), EnumLike.Rules.arrayOf build uninit n T = EnumLike.Rules.findArray build uninit ts as n T) := by
  obtain ⟨ts, h1, rfl⟩ := (C85_crate.1 _).mp ht
  obtain ⟨as, h2, rfl⟩ := (C85_crate.2 _).mp ha
  refine ⟨ts, as, fun ts' => ⟨fun h => each_inj (fun _ _ _ _ h => tupleText_inj h) tupleText_ne h.symm, fun h => by rw [h]⟩,
    fun as' => ⟨fun h => each_inj (fun _ _ _ _ h => arrayText_inj h) arrayText_ne h.symm, fun h => by rw [h]⟩, fun build Ts => ?_, fun build uninit n T => ?_⟩
  · unfold EnumLike.Rules.tupleOf; rw [h1]; rfl
  · unfold EnumLike.Rules.arrayOf; rw [h1, h2]; rfl

/-- What the macro prints for triples. -/
example : Expands macros (tts% "tuple_impls! { (2) -> A2 (1) -> A1 (0) -> A0 }") (tts%
    "unsafe impl<A1: EnumLike, A0: EnumLike, A2: EnumLike> EnumLike for (A1, A0, A2) {
       const NUM_VARIANTS: usize = <((A1, A0,), A2)>::NUM_VARIANTS;
       fn to_discr(self) -> usize { ((self.0, self.1,), self.2).to_discr() }
       fn from_discr(x: usize) -> Self {
         let a = <((A1, A0,), A2)>::from_discr(x);
         ((a.0).0, (a.0).1, a.1)
       }
     }") := (C85_tuple_impls [⟨2, "A2"⟩, ⟨1, "A1"⟩, ⟨0, "A0"⟩] _).mpr ⟨_, rfl, rfl⟩

/-- And for arrays of length 2 and 1. -/
example : Expands macros (tts% "array_impls! { (2) -> A (1) -> A (0) -> A }") (tts%
    "unsafe impl<A: EnumLike> EnumLike for [A; 2] {
       const NUM_VARIANTS: usize = <(A, A,)>::NUM_VARIANTS;
       fn to_discr(mut self) -> usize {
         use std::mem;
         unsafe { (mem::replace(&mut self[2 - 1 - 1], mem::uninitialized()), mem::replace(&mut self[2 - 1 - 0], mem::uninitialized()),).to_discr() }
       }
       fn from_discr(x: usize) -> Self { let t = <(A, A,)>::from_discr(x); [t.0, t.1,] }
     }
     unsafe impl<A: EnumLike> EnumLike for [A; 1] {
       const NUM_VARIANTS: usize = <(A,)>::NUM_VARIANTS;
       fn to_discr(mut self) -> usize { use std::mem; unsafe { (mem::replace(&mut self[1 - 1 - 0], mem::uninitialized()),).to_discr() } }
       fn from_discr(x: usize) -> Self { let t = <(A,)>::from_discr(x); [t.0,] }
     }") := (C85_array_impls [⟨2, "A"⟩, ⟨1, "A"⟩, ⟨0, "A"⟩] _).mpr ⟨_, rfl, rfl⟩

/-- One row is an error for `tuple_impls!` and nothing for `array_impls!`. -/
example : (¬ ∃ out, Expands macros (tts% "tuple_impls! { (0) -> A0 }") out) ∧ Expands macros (tts% "array_impls! { (0) -> A }") .nil :=
  ⟨fun ⟨out, h⟩ => (by obtain ⟨_, h, _⟩ := (C85_tuple_impls [⟨0, "A0"⟩] out).mp h; cases h), (C85_array_impls [⟨0, "A"⟩] _).mpr ⟨_, rfl, rfl⟩⟩

end Mac
end Source
end EnumVecModel
