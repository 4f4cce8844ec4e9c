import Verif.RustText

/-! # The parser on printed expressions -/

namespace EnumVecModel
namespace Macro

theorem Eventually.intro {β : Type} {f : Nat → Option β} {b : β} (k : Nat) (h : ∀ n, k ≤ n → f (n + 1) = some b) : Eventually f b :=
  ⟨k + 1, fun n hn => by
    obtain ⟨m, rfl⟩ : ∃ m, n = m + 1 := ⟨n - 1, by omega⟩
    exact h m (by omega)⟩

/-- Parsing in mode `m` returns `e` and leaves `r`. -/
def P (m : Mode) (ts : Toks) (e : Ex) (r : Toks) : Prop := Eventually (fun n => parse n m ts) (e, r)

variable {ts ts' r r' r1 : Toks} {e e' l : Ex}

/-! ### the rules of the grammar -/

theorem P.sum (h1 : P .prod ts e r) (h2 : P (.sumTail e) r e' r') : P .sum ts e' r' := by
  obtain ⟨k1, h1⟩ := h1; obtain ⟨k2, h2⟩ := h2
  refine .intro (max k1 k2) fun n hn => ?_
  have h1 := h1 n (by omega); have h2 := h2 n (by omega)
  dsimp only at h1 h2
  rw [parse, h1]; exact h2

theorem P.prod (h1 : P .post ts e r) (h2 : P (.prodTail e) r e' r') : P .prod ts e' r' := by
  obtain ⟨k1, h1⟩ := h1; obtain ⟨k2, h2⟩ := h2
  refine .intro (max k1 k2) fun n hn => ?_
  have h1 := h1 n (by omega); have h2 := h2 n (by omega)
  dsimp only at h1 h2
  rw [parse, h1]; exact h2

theorem P.post (h1 : P .atom ts e r) (h2 : P (.postTail e) r e' r') : P .post ts e' r' := by
  obtain ⟨k1, h1⟩ := h1; obtain ⟨k2, h2⟩ := h2
  refine .intro (max k1 k2) fun n hn => ?_
  have h1 := h1 n (by omega); have h2 := h2 n (by omega)
  dsimp only at h1 h2
  rw [parse, h1]; exact h2

theorem P.plus (h1 : P .prod ts e r) (h2 : P (.sumTail (.add l e)) r e' r') : P (.sumTail l) (.plus :: ts) e' r' := by
  obtain ⟨k1, h1⟩ := h1; obtain ⟨k2, h2⟩ := h2
  refine .intro (max k1 k2) fun n hn => ?_
  have h1 := h1 n (by omega); have h2 := h2 n (by omega)
  dsimp only at h1 h2
  rw [parse]; dsimp only; rw [h1]; exact h2

theorem P.minus (h1 : P .prod ts e r) (h2 : P (.sumTail (.sub l e)) r e' r') : P (.sumTail l) (.minus :: ts) e' r' := by
  obtain ⟨k1, h1⟩ := h1; obtain ⟨k2, h2⟩ := h2
  refine .intro (max k1 k2) fun n hn => ?_
  have h1 := h1 n (by omega); have h2 := h2 n (by omega)
  dsimp only at h1 h2
  rw [parse]; dsimp only; rw [h1]; exact h2

theorem P.star (h1 : P .post ts e r) (h2 : P (.prodTail (.mul l e)) r e' r') : P (.prodTail l) (.star :: ts) e' r' := by
  obtain ⟨k1, h1⟩ := h1; obtain ⟨k2, h2⟩ := h2
  refine .intro (max k1 k2) fun n hn => ?_
  have h1 := h1 n (by omega); have h2 := h2 n (by omega)
  dsimp only at h1 h2
  rw [parse]; dsimp only; rw [h1]; exact h2

theorem P.div (h1 : P .sum ts e (.rpar :: r)) (h2 : P (.postTail (.wrappingDiv l e)) r e' r') :
    P (.postTail l) (.dot :: .wrapping_div :: .lpar :: ts) e' r' := by
  obtain ⟨k1, h1⟩ := h1; obtain ⟨k2, h2⟩ := h2
  refine .intro (max k1 k2) fun n hn => ?_
  have h1 := h1 n (by omega); have h2 := h2 n (by omega)
  dsimp only at h1 h2
  rw [parse]; rw [h1]; exact h2

theorem P.rem (h1 : P .sum ts e (.rpar :: r)) (h2 : P (.postTail (.wrappingRem l e)) r e' r') :
    P (.postTail l) (.dot :: .wrapping_rem :: .lpar :: ts) e' r' := by
  obtain ⟨k1, h1⟩ := h1; obtain ⟨k2, h2⟩ := h2
  refine .intro (max k1 k2) fun n hn => ?_
  have h1 := h1 n (by omega); have h2 := h2 n (by omega)
  dsimp only at h1 h2
  rw [parse]; rw [h1]; exact h2

/-- The next token is none of these. -/
def Not (bad : List Tok) (r : Toks) : Prop := ∀ t ∈ bad, r.head? ≠ some t

theorem P.sumStop (h : Not [.plus, .minus] r) : P (.sumTail l) r l r := by
  refine .intro 0 fun n _ => ?_
  rw [parse] <;> (intro r1 h1; subst h1; exact absurd rfl (h _ (by simp)))

theorem P.prodStop (h : Not [.star] r) : P (.prodTail l) r l r := by
  refine .intro 0 fun n _ => ?_
  rw [parse] <;> (intro r1 h1; subst h1; exact absurd rfl (h _ (by simp)))

theorem P.postStop (h : Not [.dot] r) : P (.postTail l) r l r := by
  refine .intro 0 fun n _ => ?_
  rw [parse] <;> (intro r1 h1; subst h1; exact absurd rfl (h _ (by simp)))

/-! ### expressions that can be continued -/

/-- `ts` is a sum (loosest level): what follows continues it. -/
def SumG (ts : Toks) (e : Ex) : Prop := ∀ r, Not [.star, .dot] r → ∀ e' r', P (.sumTail e) r e' r' → P .sum (ts ++ r) e' r'

/-- `ts` is a product. -/
def ProdG (ts : Toks) (e : Ex) : Prop := ∀ r, Not [.dot] r → ∀ e' r', P (.prodTail e) r e' r' → P .prod (ts ++ r) e' r'

/-- `ts` is a method call chain. -/
def PostG (ts : Toks) (e : Ex) : Prop := ∀ r e' r', P (.postTail e) r e' r' → P .post (ts ++ r) e' r'

/-- `ts` is a primary expression. -/
def AtomG (ts : Toks) (e : Ex) : Prop := ∀ r, P .atom (ts ++ r) e r

theorem Not.mono {a b : List Tok} (h : Not a r) (hs : ∀ t ∈ b, t ∈ a) : Not b r := fun t ht => h t (hs t ht)

theorem AtomG.post (h : AtomG ts e) : PostG ts e := fun r _ _ h' => (h r).post h'

theorem PostG.prod (h : PostG ts e) : ProdG ts e := fun r hr _ _ h' => (h r e r (P.postStop hr)).prod h'

theorem ProdG.sum (h : ProdG ts e) : SumG ts e := fun r hr _ _ h' =>
  (h r (hr.mono (by simp)) e r (P.prodStop (hr.mono (by simp)))).sum h'

/-- A sum ends where no operator follows. -/
theorem SumG.stop (h : SumG ts e) (hr : Not [.plus, .minus, .star, .dot] r) : P .sum (ts ++ r) e r :=
  h r (hr.mono (by simp)) e r (P.sumStop (hr.mono (by simp)))

theorem SumG.add (h : SumG ts e) (h' : ProdG ts' e') : SumG (ts ++ [.plus] ++ ts') (.add e e') := by
  intro r hr e1 r1 h1
  rw [List.append_assoc, List.append_assoc]
  refine h _ (by simp [Not]) _ _ ?_
  exact P.plus (h' r (hr.mono (by simp)) e' r (P.prodStop (hr.mono (by simp)))) h1

theorem SumG.sub (h : SumG ts e) (h' : ProdG ts' e') : SumG (ts ++ [.minus] ++ ts') (.sub e e') := by
  intro r hr e1 r1 h1
  rw [List.append_assoc, List.append_assoc]
  refine h _ (by simp [Not]) _ _ ?_
  exact P.minus (h' r (hr.mono (by simp)) e' r (P.prodStop (hr.mono (by simp)))) h1

theorem ProdG.mul (h : ProdG ts e) (h' : PostG ts' e') : ProdG (ts ++ [.star] ++ ts') (.mul e e') := by
  intro r hr e1 r1 h1
  rw [List.append_assoc, List.append_assoc]
  refine h _ (by simp [Not]) _ _ ?_
  exact P.star (h' r e' r (P.postStop hr)) h1

theorem not_rpar (r : Toks) : Not [.plus, .minus, .star, .dot] (.rpar :: r) := by simp [Not]

theorem PostG.div (h : PostG ts e) (h' : SumG ts' e') : PostG (ts ++ [.dot, .wrapping_div, .lpar] ++ ts' ++ [.rpar]) (.wrappingDiv e e') := by
  intro r e1 r1 h1
  rw [List.append_assoc, List.append_assoc, List.append_assoc]
  refine h _ _ _ ?_
  exact P.div (h'.stop (not_rpar r)) h1

theorem PostG.rem (h : PostG ts e) (h' : SumG ts' e') : PostG (ts ++ [.dot, .wrapping_rem, .lpar] ++ ts' ++ [.rpar]) (.wrappingRem e e') := by
  intro r e1 r1 h1
  rw [List.append_assoc, List.append_assoc, List.append_assoc]
  refine h _ _ _ ?_
  exact P.rem (h'.stop (not_rpar r)) h1

theorem AtomG.paren (h : SumG ts e) : AtomG ([.lpar] ++ ts ++ [.rpar]) e := by
  intro r
  rw [List.append_assoc, List.append_assoc]
  obtain ⟨k, h⟩ := h.stop (not_rpar r)
  refine .intro k fun n hn => ?_
  have h := h n hn
  dsimp only at h
  simp only [List.cons_append, List.nil_append]
  rw [parse]; rw [h]

theorem AtomG.lit (n : Nat) : AtomG [.int n] (.lit n) := fun _ => .intro 0 fun _ _ => rfl
theorem AtomG.var (x : List Char) : AtomG [.id x] (.var x) := fun _ => .intro 0 fun _ _ => rfl
theorem AtomG.selfField {f : Tok} (hf : isFieldName f = true) : AtomG [.self_, .dot, f] (.selfField f) := fun _ => .intro 0 fun _ _ => by
  cases f <;> first | rfl | cases hf
theorem AtomG.numVariants (t : Nat) : AtomG (qself [.ty t] ++ [.NUM_VARIANTS]) (.numVariants t) := fun _ => .intro 0 fun _ _ => rfl

theorem AtomG.toDiscr (t : Nat) (h : SumG ts e) : AtomG (qself [.ty t] ++ [.to_discr, .lpar] ++ ts ++ [.rpar]) (.toDiscr t e) := by
  intro r
  rw [List.append_assoc, List.append_assoc]
  obtain ⟨k, h⟩ := h.stop (not_rpar r)
  refine .intro k fun n hn => ?_
  have h := h n hn
  dsimp only at h
  simp only [qself, List.cons_append, List.nil_append]
  rw [parse]; rw [h]

theorem AtomG.fromDiscr (t : Nat) (h : SumG ts e) : AtomG (qself [.ty t] ++ [.from_discr, .lpar] ++ ts ++ [.rpar]) (.fromDiscr t e) := by
  intro r
  rw [List.append_assoc, List.append_assoc]
  obtain ⟨k, h⟩ := h.stop (not_rpar r)
  refine .intro k fun n hn => ?_
  have h := h n hn
  dsimp only at h
  simp only [qself, List.cons_append, List.nil_append]
  rw [parse]; rw [h]

theorem AtomG.prod (h : AtomG ts e) : ProdG ts e := h.post.prod
theorem AtomG.sum (h : AtomG ts e) : SumG ts e := h.prod.sum

/-! ### conditions -/

theorem parseCmp_ge {a b : Ex} (h : P .sum ts a (.ge :: r)) (h' : P .sum r b r') : Eventually (fun n => parseCmp n ts) (.ge a b, r') := by
  obtain ⟨k1, h1⟩ := h; obtain ⟨k2, h2⟩ := h'
  refine ⟨max k1 k2, fun n hn => ?_⟩
  have h1 := h1 n (by omega); have h2 := h2 n (by omega)
  dsimp only at h1 h2 ⊢
  unfold parseCmp
  rw [h1]; dsimp only; rw [h2]; rfl

theorem parseCmp_lt {a b : Ex} (h : P .sum ts a (.lt :: r)) (h' : P .sum r b r') : Eventually (fun n => parseCmp n ts) (.lt a b, r') := by
  obtain ⟨k1, h1⟩ := h; obtain ⟨k2, h2⟩ := h'
  refine ⟨max k1 k2, fun n hn => ?_⟩
  have h1 := h1 n (by omega); have h2 := h2 n (by omega)
  dsimp only at h1 h2 ⊢
  unfold parseCmp
  rw [h1]; dsimp only; rw [h2]; rfl

theorem parseCond_and {c d : Cond} (h : Eventually (fun n => parseCmp n ts) (c, .andand :: r)) (h' : Eventually (fun n => parseCond n r) (d, r')) :
    Eventually (fun n => parseCond n ts) (.and c d, r') := by
  obtain ⟨k1, h1⟩ := h; obtain ⟨k2, h2⟩ := h'
  refine .intro (max k1 k2) fun n hn => ?_
  have h1 := h1 n (by omega); have h2 := h2 n (by omega)
  dsimp only at h1 h2 ⊢
  unfold parseCond
  rw [h1]; dsimp only; rw [h2]; rfl

theorem parseCond_one {c : Cond} (h : Eventually (fun n => parseCmp n ts) (c, r)) (hr : Not [.andand] r) :
    Eventually (fun n => parseCond n ts) (c, r) := by
  obtain ⟨k1, h1⟩ := h
  refine .intro k1 fun n hn => ?_
  have h1 := h1 n (by omega)
  dsimp only at h1 ⊢
  unfold parseCond
  rw [h1]
  split
  · next h => simp only [Option.some.injEq, Prod.mk.injEq] at h; exact absurd (by rw [h.2]; rfl) (hr .andand (by simp))
  · next h => exact h.symm
  · next h => cases h

/-! ### constructor expressions and arms -/

theorem not_comma (r : Toks) : Not [.plus, .minus, .star, .dot] (.comma :: r) := by simp [Not]

theorem parseInits_nil (r : Toks) : Eventually (fun n => parseInits n (.rbrace :: r)) ([], r) := .intro 0 fun _ _ => rfl

theorem parseInits_cons {f : Tok} {l : List (Tok × Ex)} (hf : isFieldName f = true) (h : SumG ts e) (h' : Eventually (fun n => parseInits n r) (l, r')) :
    Eventually (fun n => parseInits n ([f, .colon] ++ ts ++ [.comma] ++ r)) ((f, e) :: l, r') := by
  obtain ⟨k1, h1⟩ := h.stop (not_comma r); obtain ⟨k2, h2⟩ := h'
  refine .intro (max k1 k2) fun n hn => ?_
  have h1 := h1 n (by omega); have h2 := h2 n (by omega)
  dsimp only at h1 h2 ⊢
  simp only [List.cons_append, List.nil_append, List.append_assoc]
  unfold parseInits
  cases f <;> first | (cases hf; done) | (simp only [isFieldName, if_true, h1, h2]; rfl)

theorem parseCtor_braces {p : Path} {l : List (Tok × Ex)} (hp : parsePath ts = some (p, .lbrace :: r)) (h : Eventually (fun n => parseInits n r) (l, r')) :
    Eventually (fun n => parseCtor n ts) (⟨p, some l⟩, r') := by
  obtain ⟨k, h⟩ := h
  refine ⟨k, fun n hn => ?_⟩
  have h := h n hn
  dsimp only at h ⊢
  unfold parseCtor
  rw [hp]; dsimp only; rw [h]; rfl

theorem parseCtor_unit {p : Path} (hp : parsePath ts = some (p, r)) (hr : Not [.lbrace] r) : Eventually (fun n => parseCtor n ts) (⟨p, none⟩, r) := by
  refine ⟨0, fun n _ => ?_⟩
  dsimp only
  unfold parseCtor
  rw [hp]
  split
  · next h => simp only [Option.some.injEq, Prod.mk.injEq] at h; exact absurd (by rw [h.2]; rfl) (hr .lbrace (by simp))
  · next h => cases h; rfl
  · next h => cases h

theorem parseFromArms_nil (r : Toks) : Eventually (fun n => parseFromArms n (.rbrace :: r)) ([], r) := .intro 0 fun _ _ => rfl

theorem parseFromArms_cons {p : IntPat} {b : Option Ctor} {l : List (IntPat × Option Ctor)} (hs : Not [.rbrace] ts)
    (h : Eventually (fun n => parseIntPat n ts) (p, .fatArrow :: r)) (h' : Eventually (fun n => parseFromRhs n r) (b, .comma :: r1))
    (h'' : Eventually (fun n => parseFromArms n r1) (l, r')) : Eventually (fun n => parseFromArms n ts) ((p, b) :: l, r') := by
  obtain ⟨k1, h1⟩ := h; obtain ⟨k2, h2⟩ := h'; obtain ⟨k3, h3⟩ := h''
  refine .intro (max k1 (max k2 k3)) fun n hn => ?_
  have h1 := h1 n (by omega); have h2 := h2 n (by omega); have h3 := h3 n (by omega)
  dsimp only at h1 h2 h3 ⊢
  unfold parseFromArms
  split
  · exact absurd rfl (hs .rbrace (by simp))
  · rw [h1]; dsimp only; rw [h2]; dsimp only; rw [h3]; rfl

/-- `_ => unreachable!() }` -/
theorem parseFromArms_last (r : Toks) : Eventually (fun n => parseFromArms n ([.underscore, .fatArrow, .unreachable, .rbrace] ++ r)) ([(.wild, none)], r) :=
  .intro 0 fun _ _ => rfl

theorem parseFromRhs_ctor {c : Ctor} (hs : Not [.unreachable] ts) (h : Eventually (fun n => parseCtor n ts) (c, r)) :
    Eventually (fun n => parseFromRhs n ts) (some c, r) := by
  obtain ⟨k, h⟩ := h
  refine ⟨k, fun n hn => ?_⟩
  have h := h n hn
  dsimp only at h ⊢
  unfold parseFromRhs
  split
  · exact absurd rfl (hs .unreachable (by simp))
  · rw [h]; rfl

theorem parseIntPat_guard {x : List Char} {c : Cond} (h : Eventually (fun n => parseCond n ts) (c, r)) :
    Eventually (fun n => parseIntPat n (.id x :: .if_ :: ts)) (.guard x c, r) := by
  obtain ⟨k, h⟩ := h
  refine ⟨k, fun n hn => ?_⟩
  have h := h n hn
  dsimp only at h ⊢
  unfold parseIntPat
  dsimp only; rw [h]; rfl

theorem parsePatFields_nil (r : Toks) : Eventually (fun n => parsePatFields n (.rbrace :: r)) ([], r) := .intro 0 fun _ _ => rfl

theorem parsePatFields_cons {f : Tok} {x : List Char} {l : List (Tok × List Char)} (hf : isFieldName f = true)
    (h : Eventually (fun n => parsePatFields n r) (l, r')) :
    Eventually (fun n => parsePatFields n ([f, .colon, .id x, .comma] ++ r)) ((f, x) :: l, r') := by
  obtain ⟨k, h⟩ := h
  refine .intro k fun n hn => ?_
  have h := h n hn
  dsimp only at h ⊢
  simp only [List.cons_append, List.nil_append]
  unfold parsePatFields
  cases f <;> first | (cases hf; done) | (simp only [isFieldName, if_true, h]; rfl)

theorem parsePat_braces {p : Path} {l : List (Tok × List Char)} (hp : parsePath ts = some (p, .lbrace :: r))
    (h : Eventually (fun n => parsePatFields n r) (l, r')) : Eventually (fun n => parsePat n ts) (⟨p, some l⟩, r') := by
  obtain ⟨k, h⟩ := h
  refine ⟨k, fun n hn => ?_⟩
  have h := h n hn
  dsimp only at h ⊢
  unfold parsePat
  rw [hp]; dsimp only; rw [h]; rfl

theorem parsePat_unit {p : Path} (hp : parsePath ts = some (p, r)) (hr : Not [.lbrace] r) : Eventually (fun n => parsePat n ts) (⟨p, none⟩, r) := by
  refine ⟨0, fun n _ => ?_⟩
  dsimp only
  unfold parsePat
  rw [hp]
  split
  · next h => simp only [Option.some.injEq, Prod.mk.injEq] at h; exact absurd (by rw [h.2]; rfl) (hr .lbrace (by simp))
  · next h => cases h; rfl
  · next h => cases h

theorem parseToArms_nil (r : Toks) : Eventually (fun n => parseToArms n (.rbrace :: r)) ([], r) := .intro 0 fun _ _ => rfl

theorem parseToArms_cons {p : Pat} {l : List (Pat × Ex)} (hs : Not [.rbrace] ts)
    (h : Eventually (fun n => parsePat n ts) (p, .fatArrow :: r)) (h' : P .sum r e (.comma :: r1))
    (h'' : Eventually (fun n => parseToArms n r1) (l, r')) : Eventually (fun n => parseToArms n ts) ((p, e) :: l, r') := by
  obtain ⟨k1, h1⟩ := h; obtain ⟨k2, h2⟩ := h'; obtain ⟨k3, h3⟩ := h''
  refine .intro (max k1 (max k2 k3)) fun n hn => ?_
  have h1 := h1 n (by omega); have h2 := h2 n (by omega); have h3 := h3 n (by omega)
  dsimp only at h1 h2 h3 ⊢
  unfold parseToArms
  split
  · exact absurd rfl (hs .rbrace (by simp))
  · rw [h1]; dsimp only; rw [h2]; dsimp only; rw [h3]; rfl

/-! ### the impl -/

theorem parseFromFn_match {x : List Char} {l : List (IntPat × Option Ctor)} (h : Eventually (fun n => parseFromArms n r) (l, r')) :
    Eventually (fun n => parseFromFn n ([.match_, .id x, .lbrace] ++ r)) (.match x l, r') := by
  obtain ⟨k, h⟩ := h
  refine ⟨k, fun n hn => ?_⟩
  have h := h n hn
  dsimp only at h ⊢
  simp only [List.cons_append, List.nil_append]
  unfold parseFromFn
  dsimp only; rw [h]; rfl

theorem parseFromFn_ctor {c : Ctor} (hs : Not [.match_] ts) (h : Eventually (fun n => parseCtor n ts) (c, r)) :
    Eventually (fun n => parseFromFn n ts) (.ctor c, r) := by
  obtain ⟨k, h⟩ := h
  refine ⟨k, fun n hn => ?_⟩
  have h := h n hn
  dsimp only at h ⊢
  unfold parseFromFn
  split
  · exact absurd rfl (hs .match_ (by simp))
  · rw [h]; rfl

theorem parseToFn_match {l : List (Pat × Ex)} (h : Eventually (fun n => parseToArms n r) (l, r')) :
    Eventually (fun n => parseToFn n ([.match_, .self_, .lbrace] ++ r)) (.match l, r') := by
  obtain ⟨k, h⟩ := h
  refine ⟨k, fun n hn => ?_⟩
  have h := h n hn
  dsimp only at h ⊢
  simp only [List.cons_append, List.nil_append]
  unfold parseToFn
  dsimp only; rw [h]; rfl

theorem parseToFn_ex (hs : Not [.match_] ts) (h : P .sum ts e r) : Eventually (fun n => parseToFn n ts) (.ex e, r) := by
  obtain ⟨k, h⟩ := h
  refine ⟨k, fun n hn => ?_⟩
  have h := h n hn
  dsimp only at h ⊢
  unfold parseToFn
  split
  · exact absurd rfl (hs .match_ (by simp))
  · rw [h]; rfl

theorem parses_implBody {num from_ to_ : Toks} {var : List Char} {f : FromFn} {t : ToFn} (hn : SumG num e)
    (hf : ∀ r, Eventually (fun n => parseFromFn n (from_ ++ .rbrace :: r)) (f, .rbrace :: r))
    (ht : Eventually (fun n => parseToFn n (to_ ++ [.rbrace])) (t, [.rbrace])) :
    Reads (implBody num var from_ to_) ⟨e, var, f, t⟩ := by
  obtain ⟨k1, h1⟩ := hn.stop (r := .semi :: ([.fn_, .from_discr, .lpar, .id var, .colon, .usize, .rpar, .arrow, .Self_, .lbrace] ++ from_ ++ [.rbrace] ++
    [.fn_, .to_discr, .lpar, .self_, .rpar, .arrow, .usize, .lbrace] ++ to_ ++ [.rbrace])) (by simp [Not])
  obtain ⟨k2, h2⟩ := hf ([.fn_, .to_discr, .lpar, .self_, .rpar, .arrow, .usize, .lbrace] ++ to_ ++ [.rbrace])
  obtain ⟨k3, h3⟩ := ht
  refine ⟨max k1 (max k2 k3), fun n hn => ?_⟩
  have h1 := h1 n (by omega); have h2 := h2 n (by omega); have h3 := h3 n (by omega)
  dsimp only at h1 h2 h3 ⊢
  unfold implBody
  simp only [List.cons_append, List.nil_append, List.append_assoc] at h1 h2 h3 ⊢
  unfold parseImpl
  dsimp only
  rw [h1]; dsimp only; rw [h2]; dsimp only; rw [h3]

end Macro
end EnumVecModel
