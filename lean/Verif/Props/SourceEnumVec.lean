import Verif.Lemmas.SourceMacro

/-!
# C87: the text of `enum_vec!`

The calls `enum_vec![ … ]` that compile and the calls to `from_elem` and `from_slice` that they are, for every argument, from the text of the macro (enum_vec/src/lib.rs:29-36).
-/

namespace EnumVecModel
namespace Source
namespace Mac

set_option linter.constructorNameAsVariable false

/-! ## Expressions -/

theorem splitExpr_spec : (ts : TTs) → ts = (splitExpr ts).1 ++ (splitExpr ts).2 ∧ Plain (splitExpr ts).1 ∧ ((splitExpr ts).2 = .nil ∨ ∃ t r, (splitExpr ts).2 = .tok t r ∧ endsExpr t = true)
  | .nil => ⟨rfl, trivial, Or.inl rfl⟩
  | .tok t r => by
    obtain ⟨h1, h2, h3⟩ := splitExpr_spec r
    unfold splitExpr
    split
    · exact ⟨rfl, trivial, Or.inr ⟨t, r, rfl, by assumption⟩⟩
    · rename_i h
      refine ⟨by rw [tok_append, ← h1], ?_, h3⟩
      simp only [endsExpr, Bool.or_eq_true, decide_eq_true_eq, not_or] at h
      exact ⟨h.1.1, h.1.2, h.2, h2⟩
  | .grp d i r => by
    obtain ⟨h1, h2, h3⟩ := splitExpr_spec r
    unfold splitExpr
    exact ⟨by rw [grp_append, ← h1], h2, h3⟩

theorem splitExpr_append {b : TTs} (hb : b = .nil ∨ ∃ t r, b = .tok t r ∧ endsExpr t = true) : (a : TTs) → Plain a → splitExpr (a ++ b) = (a, b)
  | .nil, _ => by
    rcases hb with rfl | ⟨t, r, rfl, h⟩
    · rfl
    · rw [nil_append]; unfold splitExpr; rw [if_pos h]
  | .tok t r, h => by
    obtain ⟨h1, h2, h3, h4⟩ := h
    rw [tok_append]; unfold splitExpr
    rw [if_neg (by simp [endsExpr, h1, h2, h3]), splitExpr_append hb r h4]
  | .grp d i r, h => by
    rw [grp_append]; unfold splitExpr
    rw [splitExpr_append hb r h]

theorem run_expr (x : Word) (r : Pats) (ts : TTs) : (Pats.frag x .expr r).run ts =
    if (splitExpr ts).1 = .nil then none else (r.run (splitExpr ts).2).map fun q => ((x, .leaf (splitExpr ts).1) :: q.1, q.2) := by
  show (match splitExpr ts with
      | (.nil, _) => none
      | (v, ts) => (r.run ts).map fun (q : Env × TTs) => ((x, Bnd.leaf v) :: q.1, q.2)) = _
  rcases splitExpr ts with ⟨_ | _ | _, b⟩ <;> simp

/-- `$x:expr` and nothing else. -/
theorem run_expr1 (x : Word) (ts : TTs) : (Pats.frag x .expr .nil).run ts = if (splitExpr ts).1 = .nil then none else some ([(x, .leaf (splitExpr ts).1)], (splitExpr ts).2) := by
  rw [run_expr]; rfl

theorem append_length : (b c : TTs) → (b ++ c).length = b.length + c.length
  | .nil, c => by simp [TTs.length]
  | .tok t r, c => by have := append_length r c; simp [TTs.length, this]; omega
  | .grp d i r, c => by have := append_length r c; simp [TTs.length, this]; omega

theorem length_pos {a : TTs} (h : a ≠ .nil) : 1 ≤ a.length := by cases a <;> simp_all [TTs.length]

theorem commas_cons {x : TTs} : {l : List TTs} → l ≠ [] → commas (x :: l) = x ++ tts% "," ++ commas l
  | [], h => absurd rfl h
  | _ :: _, _ => rfl

/-- What a list of expressions matches: all of the text up to a place where no expression or no comma with an expression follows. -/
theorem matchSep_spec (x : Word) : (n : Nat) → (ts : TTs) → ts.length ≤ n →
    ∃ xs : List TTs, (∀ y ∈ xs, ExprText y) ∧ (matchSep (Pats.frag x .expr .nil).run (.p [',']) n ts).1 = xs.map (fun y => [(x, Bnd.leaf y)]) ∧
      ts = commas xs ++ (matchSep (Pats.frag x .expr .nil).run (.p [',']) n ts).2
  | 0, ts, h => ⟨[], by simp, rfl, rfl⟩
  | n + 1, ts, h => by
    obtain ⟨h1, h2, h3⟩ := splitExpr_spec ts
    by_cases h0 : (splitExpr ts).1 = .nil
    · refine ⟨[], by simp, ?_, ?_⟩ <;> (unfold matchSep; rw [run_expr1, if_pos h0]; rfl)
    · have hx : ExprText (splitExpr ts).1 := ⟨h0, h2⟩
      have one : matchSep (Pats.frag x .expr .nil).run (.p [',']) (n + 1) ts = ([[(x, Bnd.leaf (splitExpr ts).1)]], (splitExpr ts).2) → _ := fun e => by
        exact (⟨[(splitExpr ts).1], by simpa using hx, by rw [e]; rfl, by rw [e]; exact h1⟩ :
          ∃ xs : List TTs, (∀ y ∈ xs, ExprText y) ∧ (matchSep (Pats.frag x .expr .nil).run (.p [',']) (n + 1) ts).1 = xs.map (fun y => [(x, Bnd.leaf y)]) ∧
            ts = commas xs ++ (matchSep (Pats.frag x .expr .nil).run (.p [',']) (n + 1) ts).2)
      rcases e2 : (splitExpr ts).2 with _ | ⟨t, r⟩ | ⟨d, i, r⟩
      · apply one; unfold matchSep; rw [run_expr1, if_neg h0, e2]
      · by_cases hr : t = .p [','] ∧ ((Pats.frag x .expr .nil).run r).isSome
        · have e : matchSep (Pats.frag x .expr .nil).run (.p [',']) (n + 1) ts = ([(x, Bnd.leaf (splitExpr ts).1)] :: (matchSep (Pats.frag x .expr .nil).run (.p [',']) n r).1,
              (matchSep (Pats.frag x .expr .nil).run (.p [',']) n r).2) := by
            conv => lhs; unfold matchSep
            rw [run_expr1, if_neg h0, e2]; dsimp only; rw [if_pos hr]
          have hl : r.length ≤ n := by
            rw [h1, append_length, e2] at h
            have := length_pos h0
            simp only [TTs.length] at h
            omega
          obtain ⟨xs, k1, k2, k3⟩ := matchSep_spec x n r hl
          refine ⟨(splitExpr ts).1 :: xs, ?_, by rw [e, k2]; rfl, ?_⟩
          · intro y hy
            rcases List.mem_cons.mp hy with rfl | hy
            · exact hx
            · exact k1 y hy
          · have hne : xs ≠ [] := by
              rintro rfl
              have hs := hr.2
              rw [run_expr1] at hs
              cases n with
              | zero => cases r <;> simp [TTs.length] at hl; simp [splitExpr] at hs
              | succ m =>
                have h5 : (splitExpr r).1 ≠ .nil := fun h5 => by rw [if_pos h5] at hs; exact absurd hs (by simp)
                unfold matchSep at k2
                rw [run_expr1, if_neg h5] at k2
                split at k2
                · rename_i h6; simp at h6
                · split at k2 <;> simp at k2
                · simp at k2
            rw [e, commas_cons hne]
            conv => lhs; rw [h1, e2, hr.1, k3]
            simp
        · apply one; unfold matchSep; rw [run_expr1, if_neg h0, e2]; dsimp only; rw [if_neg hr]
      · rw [e2] at h3
        rcases h3 with h3 | ⟨_, _, h3, _⟩ <;> cases h3

theorem trailing_zero : trailing 0 = .nil := rfl
theorem trailing_succ (k : Nat) : trailing (k + 1) = .tok (.p [',']) (trailing k) := rfl

theorem trailing_stops : (k : Nat) → trailing k = .nil ∨ ∃ t r, trailing k = .tok t r ∧ endsExpr t = true
  | 0 => Or.inl rfl
  | _ + 1 => Or.inr ⟨_, _, rfl, rfl⟩

theorem trailing_no_expr : (k : Nat) → (splitExpr (trailing k)).1 = .nil
  | 0 => rfl
  | _ + 1 => rfl

/-- A list of expressions with commas behind it is matched up to these commas. -/
theorem matchSep_list (x : Word) (k : Nat) : (xs : List TTs) → (∀ y ∈ xs, ExprText y) → (n : Nat) → xs.length ≤ n →
    matchSep (Pats.frag x .expr .nil).run (.p [',']) n (commas xs ++ trailing k) = (xs.map (fun y => [(x, Bnd.leaf y)]), trailing k)
  | [], _, 0, _ => rfl
  | [], _, n + 1, _ => by unfold matchSep; rw [run_expr1, if_pos (by exact trailing_no_expr k)]; rfl
  | y :: xs, h, 0, hn => by simp at hn
  | [y], h, n + 1, hn => by
    have hy := h y (by simp)
    unfold matchSep
    rw [run_expr1, show commas [y] = y from rfl, splitExpr_append (trailing_stops k) y hy.2, if_neg hy.1]
    dsimp only
    cases k with
    | zero => rfl
    | succ k =>
      rw [trailing_succ]
      dsimp only
      rw [if_neg]
      · rfl
      · rw [run_expr1, if_pos (trailing_no_expr k)]; simp
  | y :: z :: xs, h, n + 1, hn => by
    have hy := h y (by simp)
    have hz := h z (by simp)
    have ih := matchSep_list x k (z :: xs) (fun w hw => h w (by simp [hw])) n (by simpa using hn)
    unfold matchSep
    rw [run_expr1, commas_cons (by simp), append_assoc, append_assoc, tok_append, nil_append, splitExpr_append (Or.inr ⟨_, _, rfl, rfl⟩) y hy.2, if_neg hy.1]
    dsimp only
    rw [if_pos, ih]
    · rfl
    · refine ⟨rfl, ?_⟩
      have : (splitExpr (commas (z :: xs) ++ trailing k)).1 = z := by
        cases xs with
        | nil => rw [show commas [z] = z from rfl, splitExpr_append (trailing_stops k) z hz.2]
        | cons w xs => rw [commas_cons (by simp), append_assoc, append_assoc, tok_append, nil_append, splitExpr_append (Or.inr ⟨_, _, rfl, rfl⟩) z hz.2]
      rw [run_expr1, if_neg (by rw [this]; exact hz.1)]; rfl

theorem matchRep_comma : (n : Nat) → (ts : TTs) → ∃ k, (matchRep (Pats.tok (.p [',']) .nil).run n ts).1 = List.replicate k [] ∧
    ts = trailing k ++ (matchRep (Pats.tok (.p [',']) .nil).run n ts).2
  | 0, ts => ⟨0, rfl, rfl⟩
  | n + 1, ts => by
    unfold matchRep
    rcases e : (Pats.tok (.p [',']) .nil).run ts with _ | ⟨en, r⟩
    · exact ⟨0, rfl, rfl⟩
    · obtain ⟨k, h1, h2⟩ := matchRep_comma n r
      have : en = [] ∧ ts = .tok (.p [',']) r := by
        cases ts with
        | nil => simp [Pats.run] at e
        | grp d i r => simp [Pats.run] at e
        | tok t r' =>
          simp only [Pats.run] at e
          split at e
          · rename_i ht; simp at e; exact ⟨e.1, by rw [← ht, e.2]⟩
          · simp at e
      refine ⟨k + 1, by dsimp only; rw [h1, this.1]; rfl, ?_⟩
      dsimp only
      rw [this.2, trailing_succ, tok_append, ← h2]

theorem matchRep_trailing : (k n : Nat) → k ≤ n → matchRep (Pats.tok (.p [',']) .nil).run n (trailing k) = (List.replicate k [], .nil)
  | 0, 0, _ => rfl
  | 0, n + 1, _ => rfl
  | k + 1, 0, h => by simp at h
  | k + 1, n + 1, h => by
    have ih := matchRep_trailing k n (by omega)
    rw [trailing_succ]
    unfold matchRep
    rw [show (Pats.tok (.p [',']) .nil).run (.tok (.p [',']) (trailing k)) = some ([], trailing k) from rfl]
    dsimp only
    rw [ih]; rfl

theorem trailing_length : (k : Nat) → (trailing k).length = k
  | 0 => rfl
  | k + 1 => by rw [trailing_succ, TTs.length, trailing_length k]

theorem commas_length : (xs : List TTs) → (∀ y ∈ xs, ExprText y) → xs.length ≤ (commas xs).length
  | [], _ => Nat.le_refl _
  | [y], h => length_pos (h y (by simp)).1
  | y :: z :: xs, h => by
    have := commas_length (z :: xs) fun w hw => h w (by simp [hw])
    have := length_pos (h y (by simp)).1
    rw [commas_cons (by simp), append_length, append_length]
    simp only [List.length_cons, TTs.length] at *
    omega

theorem sepConcat_commas : (xs : List TTs) → sepConcat (.p [',']) xs = commas xs
  | [] => rfl
  | [_] => rfl
  | x :: y :: xs => by
    show x ++ TTs.tok _ (sepConcat _ (y :: xs)) = _
    rw [sepConcat_commas (y :: xs), commas_cons (x := x) (l := y :: xs) (by simp)]; simp

/-! ## The two rules -/

theorem enum_vec_rules : m_enum_vec.rules = [
    ⟨.frag (word% "elem") .expr (.tok (.p [';']) (.frag (word% "n") .expr .nil)),
      .grp .brace (.tok (.id (word% "EnumVec")) (.tok (.p [':', ':']) (.tok (.id (word% "from_elem")) (.grp .paren (.var (word% "elem") (.tok (.p [',']) (.var (word% "n") .nil))) .nil)))) .nil⟩,
    ⟨.sepRep (.frag (word% "x") .expr .nil) (.p [',']) false (.rep (.tok (.p [',']) .nil) false .nil),
      .grp .brace (.tok (.id (word% "EnumVec")) (.tok (.p [':', ':']) (.tok (.id (word% "from_slice")) (.grp .paren (.tok (.p ['&']) (.grp .bracket
        (.sepRep (.var (word% "x") .nil) (.p [',']) false .nil) .nil)) .nil)))) .nil⟩] := rfl


theorem rule1 (ts : TTs) : (∃ e, (Pats.frag (word% "elem") .expr (.tok (.p [';']) (.frag (word% "n") .expr .nil))).run ts = some (e, .nil)) → ∃ x n, ExprText x ∧ ExprText n ∧ ts = x ++ tts% ";" ++ n := by
  rintro ⟨e, h⟩
  rw [run_expr] at h
  obtain ⟨h1, h2, -⟩ := splitExpr_spec ts
  by_cases h0 : (splitExpr ts).1 = .nil
  · rw [if_pos h0] at h; cases h
  · rw [if_neg h0] at h
    rcases e2 : (splitExpr ts).2 with _ | ⟨t, r⟩ | ⟨d, i, r⟩
    · rw [e2] at h; simp [Pats.run] at h
    · rw [e2] at h
      rw [show (Pats.tok (.p [';']) (.frag (word% "n") .expr .nil)).run (.tok t r) = if .p [';'] = t then (Pats.frag (word% "n") .expr .nil).run r else none from rfl] at h
      by_cases ht : .p [';'] = t
      · rw [if_pos ht, run_expr1] at h
        obtain ⟨k1, k2, -⟩ := splitExpr_spec r
        by_cases h5 : (splitExpr r).1 = .nil
        · rw [if_pos h5] at h; cases h
        · rw [if_neg h5] at h
          simp only [Option.map_some, Option.some.injEq, Prod.mk.injEq] at h
          refine ⟨_, _, ⟨h0, h2⟩, ⟨h5, k2⟩, ?_⟩
          rw [h.2, append_nil] at k1
          rw [← k1]
          conv => lhs; rw [h1, e2, ← ht]
          simp
      · rw [if_neg ht] at h; cases h
    · rw [e2] at h; simp [Pats.run] at h

theorem rule1_run {x n : TTs} (hx : ExprText x) (hn : ExprText n) : (Pats.frag (word% "elem") .expr (.tok (.p [';']) (.frag (word% "n") .expr .nil))).run (x ++ tts% ";" ++ n) =
    some ([(word% "elem", .leaf x), (word% "n", .leaf n)], .nil) := by
  have h2 := splitExpr_append (Or.inl rfl) n hn.2
  rw [append_nil] at h2
  rw [run_expr, append_assoc, tok_append, nil_append, splitExpr_append (Or.inr ⟨_, _, rfl, rfl⟩) x hx.2, if_neg hx.1]
  rw [show (Pats.tok (.p [';']) (.frag (word% "n") .expr .nil)).run (.tok (.p [';']) n) = (Pats.frag (word% "n") .expr .nil).run n from rfl, run_expr1, h2, if_neg hn.1]
  rfl

/-- The pattern of the second rule. -/
abbrev pat2 : Pats := .sepRep (.frag (word% "x") .expr .nil) (.p [',']) false (.rep (.tok (.p [',']) .nil) false .nil)

theorem rounds_leaf (x : Word) (xs : List TTs) : rounds (xs.map fun y => [(x, Bnd.leaf y)]) x = some xs := by
  rw [rounds_map (g := id) (by intro a; simp)]; simp

theorem pat2_run (ts : TTs) : pat2.run ts =
    (let m := matchSep (Pats.frag (word% "x") .expr .nil).run (.p [',']) ts.length ts
     (rounds m.1 (word% "x")).bind fun l => some ([(word% "x", Bnd.seq l)], (matchRep (Pats.tok (.p [',']) .nil).run m.2.length m.2).2)) := by
  conv => lhs; unfold Pats.run
  dsimp only
  rw [if_neg (by simp)]
  generalize matchSep (Pats.frag (word% "x") .expr .nil).run (.p [',']) ts.length ts = m
  cases h : rounds m.1 (word% "x") with
  | none => simp [Pats.vars, h]
  | some l => simp [Pats.vars, h, Pats.run]

theorem rule2 (ts : TTs) : (∃ e, pat2.run ts = some (e, .nil)) → ∃ xs k, (∀ y ∈ xs, ExprText y) ∧ ts = commas xs ++ trailing k := by
  rintro ⟨e, h⟩
  rw [pat2_run] at h
  obtain ⟨xs, h1, h2, h3⟩ := matchSep_spec (word% "x") ts.length ts (Nat.le_refl _)
  dsimp only at h
  rw [h2, rounds_leaf] at h
  obtain ⟨k, -, h5⟩ := matchRep_comma (matchSep (Pats.frag (word% "x") .expr .nil).run (.p [',']) ts.length ts).2.length (matchSep (Pats.frag (word% "x") .expr .nil).run (.p [',']) ts.length ts).2
  simp only [Option.bind_some, Option.some.injEq, Prod.mk.injEq] at h
  rw [h.2, append_nil] at h5
  exact ⟨xs, k, h1, by rw [← h5]; exact h3⟩

theorem rule2_run {xs : List TTs} (h : ∀ y ∈ xs, ExprText y) (k : Nat) : pat2.run (commas xs ++ trailing k) = some ([(word% "x", Bnd.seq xs)], .nil) := by
  rw [pat2_run]
  dsimp only
  rw [matchSep_list _ k xs h _ (by rw [append_length]; have := commas_length xs h; omega), rounds_leaf]
  dsimp only
  rw [matchRep_trailing k _ (by rw [trailing_length]; exact Nat.le_refl _)]
  rfl

theorem body2_run (xs : List TTs) : (Trs.sepRep (.var (word% "x") .nil) (.p [',']) false .nil).run [(word% "x", Bnd.seq xs)] = some (commas xs) := by
  have h1 : (List.range xs.length).mapM (fun i => (Trs.var (word% "x") .nil).run (Env.at [(word% "x", Bnd.seq xs)] i)) = some xs := by
    rw [mapM_some (g := fun i => xs.getD i .nil)]
    · congr 1
      apply List.ext_getElem
      · simp
      · intro i h1 h2; simp at h1; simp [h1]
    · intro i _
      rw [run_var (v := xs.getD i .nil) rfl]; simp [run_nil]
  have hc : count (Trs.vars (.var (word% "x") .nil)) [(word% "x", Bnd.seq xs)] = some xs.length := rfl
  conv => lhs; unfold Trs.run
  rw [hc]
  dsimp only
  rw [if_neg (by simp), h1]
  simp [run_nil, sepConcat_commas]

/-- A list of expressions is not `x; n`. -/
theorem not_both {x n : TTs} (hx : ExprText x) {xs : List TTs} (h : ∀ y ∈ xs, ExprText y) (k : Nat) : x ++ tts% ";" ++ n ≠ commas xs ++ trailing k := by
  intro e
  have h1 : splitExpr (x ++ tts% ";" ++ n) = (x, .tok (.p [';']) n) := by
    rw [append_assoc, tok_append, nil_append, splitExpr_append (Or.inr ⟨_, _, rfl, rfl⟩) x hx.2]
  rw [e] at h1
  match xs, h with
  | [], _ =>
    have := trailing_no_expr k
    rw [show commas [] ++ trailing k = trailing k from rfl] at h1
    rw [h1] at this
    exact hx.1 this
  | [y], h =>
    rw [show commas [y] = y from rfl, splitExpr_append (trailing_stops k) y (h y (by simp)).2] at h1
    cases k with
    | zero => cases (Prod.mk.inj h1).2
    | succ k => exact absurd (Prod.mk.inj h1).2 (by rw [trailing_succ]; simp)
  | y :: z :: xs, h =>
    rw [commas_cons (by simp), append_assoc, append_assoc, tok_append, nil_append, splitExpr_append (Or.inr ⟨_, _, rfl, rfl⟩) y (h y (by simp)).2] at h1
    exact absurd (Prod.mk.inj h1).2 (by simp)

/-- **C87**: `enum_vec![x; n]` is `{ EnumVec::from_elem(x, n) }`, for all texts of expressions `x` and `n`. -/
theorem C87_from_elem {x n : TTs} (hx : ExprText x) (hn : ExprText n) : applyRules m_enum_vec.rules (x ++ tts% ";" ++ n) = some (fromElemText x n) := by
  rw [enum_vec_rules]
  unfold applyRules
  rw [rule1_run hx hn]
  dsimp only
  simp only [run_grp, run_tok, run_nil, Option.map_some]
  rw [run_var (v := x) rfl, run_tok, run_var (v := n) rfl]
  simp [run_nil, fromElemText, brace, paren]

/-- **C87**: `enum_vec![a, b, c]` is `{ EnumVec::from_slice(&[a, b, c]) }`, for every list of texts of expressions, the empty list too, and with any number of commas behind it. -/
theorem C87_from_slice {xs : List TTs} (h : ∀ x ∈ xs, ExprText x) (k : Nat) : applyRules m_enum_vec.rules (commas xs ++ trailing k) = some (fromSliceText xs) := by
  have h1 : ¬ ∃ e, (Pats.frag (word% "elem") .expr (.tok (.p [';']) (.frag (word% "n") .expr .nil))).run (commas xs ++ trailing k) = some (e, .nil) := fun he => by
    obtain ⟨x, n, hx, -, e⟩ := rule1 _ he
    exact not_both hx h k e.symm
  rw [enum_vec_rules]
  unfold applyRules
  split
  · rename_i e he; exact absurd ⟨e, he⟩ h1
  · unfold applyRules
    rw [rule2_run h k]
    dsimp only
    simp only [run_grp, run_tok, run_nil, body2_run, Option.bind_some, Option.map_some]
    rfl

/-- **C87**: nothing else is a call of `enum_vec!`: a text that the macro accepts is `x; n` or a list with commas behind it. -/
theorem C87_only {ts out : TTs} (h : applyRules m_enum_vec.rules ts = some out) :
    (∃ x n, ExprText x ∧ ExprText n ∧ ts = x ++ tts% ";" ++ n ∧ out = fromElemText x n) ∨
    (∃ xs k, (∀ x ∈ xs, ExprText x) ∧ ts = commas xs ++ trailing k ∧ out = fromSliceText xs) := by
  have h0 := h
  rw [enum_vec_rules] at h
  unfold applyRules at h
  split at h
  · rename_i e he
    obtain ⟨x, n, hx, hn, rfl⟩ := rule1 _ ⟨e, he⟩
    rw [C87_from_elem hx hn] at h0
    exact Or.inl ⟨x, n, hx, hn, rfl, (Option.some.inj h0).symm⟩
  · unfold applyRules at h
    split at h
    · rename_i e he
      obtain ⟨xs, k, hx, rfl⟩ := rule2 _ ⟨e, he⟩
      rw [C87_from_slice hx k] at h0
      exact Or.inr ⟨xs, k, hx, rfl, (Option.some.inj h0).symm⟩
    · cases h

/-- The name of the macro. -/
theorem C87_name : m_enum_vec.name = "enum_vec".toList := rfl

/-- The doc example and an argument with commas in delimiters. -/
example : applyRules m_enum_vec.rules (tts% "true, true, false") = some (tts% "{ EnumVec::from_slice(&[true, true, false]) }") ∧
    applyRules m_enum_vec.rules (tts% "true; 16") = some (tts% "{ EnumVec::from_elem(true, 16) }") ∧
    applyRules m_enum_vec.rules (tts% "") = some (tts% "{ EnumVec::from_slice(&[]) }") ∧
    applyRules m_enum_vec.rules (tts% "(a, f(b, [c; 2])), d,,") = some (tts% "{ EnumVec::from_slice(&[(a, f(b, [c; 2])), d]) }") :=
  ⟨C87_from_slice (xs := [tts% "true", tts% "true", tts% "false"]) (by simp [ExprText, Plain]) 0, C87_from_elem (x := tts% "true") (n := tts% "16") (by simp [ExprText, Plain]) (by simp [ExprText, Plain]),
    C87_from_slice (xs := []) (by simp) 0, C87_from_slice (xs := [tts% "(a, f(b, [c; 2]))", tts% "d"]) (by simp [ExprText, Plain]) 2⟩

/-- These are no calls. -/
example : applyRules m_enum_vec.rules (tts% "a; ") = none ∧ applyRules m_enum_vec.rules (tts% "a; b; c") = none ∧ applyRules m_enum_vec.rules (tts% "a; b, c") = none ∧
    applyRules m_enum_vec.rules (tts% "a,, b") = none := by decide +kernel

end Mac
end Source
end EnumVecModel
