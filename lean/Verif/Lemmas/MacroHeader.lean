import Verif.RustHeader
import Verif.Lemmas.MacroIdent

/-! Lemmas about the header printed by the derive macro. -/

namespace EnumVecModel
namespace Macro

/-- What follows a parameter. -/
def Stop (r : Toks) : Prop := ∃ r', r = .comma :: r' ∨ r = .gt :: r'

theorem parseLifeBounds_punctuate {r : Toks} (hr : Stop r) (tr : Bool) : ∀ l : List Nat, l ≠ [] →
    parseLifeBounds (punctuate .plus (fun b => [.bound b]) tr l ++ r) = (l, r)
  | [], h => absurd rfl h
  | [a], _ => by
    obtain ⟨r', rfl | rfl⟩ := hr <;> cases tr <;> simp [punctuate, parseLifeBounds]
  | a :: b :: l, _ => by
    have ih := parseLifeBounds_punctuate hr tr (b :: l) (by simp)
    simp [punctuate, parseLifeBounds, ih]

theorem parseBounds_punctuate {r : Toks} (hr : Stop r) (tr : Bool) : ∀ l : List Bound, l ≠ [] →
    parseBounds (punctuate .plus Bound.toTokens tr l ++ r) = (l, r)
  | [], h => absurd rfl h
  | [a], _ => by
    obtain ⟨r', rfl | rfl⟩ := hr <;> cases tr <;> cases a <;> simp [punctuate, parseBounds, Bound.toTokens]
  | a :: b :: l, _ => by
    have ih := parseBounds_punctuate hr tr (b :: l) (by simp)
    cases a <;> simp [punctuate, parseBounds, Bound.toTokens, ih]

/-- The parameter that is read. -/
def GParam.hparam : GParam → HParam
  | .life x bs => .life x bs.items
  | .type x bs _ => .type x bs.items
  | .const x ty => .const x ty

theorem parseParam_implTokens (p : GParam) {r : Toks} (hr : Stop r) : parseParam (p.implTokens ++ r) = some (p.hparam, r) := by
  cases p with
  | life x bs =>
    rcases bs with ⟨_ | ⟨b, l⟩, tr⟩
    · obtain ⟨r', rfl | rfl⟩ := hr <;> rfl
    · have := parseLifeBounds_punctuate hr tr (b :: l) (by simp)
      simp [GParam.implTokens, boundsTokens, Punctuated.toTokens, parseParam, this, GParam.hparam]
  | type x bs dflt =>
    rcases bs with ⟨_ | ⟨b, l⟩, tr⟩
    · obtain ⟨r', rfl | rfl⟩ := hr <;> rfl
    · have := parseBounds_punctuate hr tr (b :: l) (by simp)
      simp [GParam.implTokens, boundsTokens, Punctuated.toTokens, parseParam, this, GParam.hparam]
  | const x ty => rfl

theorem parseArg_tyTokens (p : GParam) (r : Toks) : parseArg (p.tyTokens ++ r) = some (p.arg, r) := by
  cases p <;> rfl

theorem implTokens_head (p : GParam) (r : Toks) : ∀ r', p.implTokens ++ r ≠ .gt :: r' := by
  cases p <;> intro r' h <;> simp [GParam.implTokens] at h

theorem tyTokens_head (p : GParam) (r : Toks) : ∀ r', p.tyTokens ++ r ≠ .gt :: r' := by
  cases p <;> intro r' h <;> simp [GParam.tyTokens] at h

theorem parseList_step {α : Type} {f : Toks → Option (α × Toks)} {n : Nat} {ts : Toks} (h : ∀ r', ts ≠ .gt :: r') :
    parseList f (n + 1) ts = match f ts with
      | some (a, .comma :: r) => (parseList f n r).map fun (l, r) => (a :: l, r)
      | some (a, .gt :: r) => some ([a], r)
      | _ => none := by
  rw [parseList]
  · rfl
  · exact h

theorem parseList_punctuate {α β : Type} {f : Toks → Option (α × Toks)} {g : β → Toks} {k : β → α} (hf : ∀ b r, Stop r → f (g b ++ r) = some (k b, r))
    (hg : ∀ b r r', g b ++ r ≠ .gt :: r') (tr : Bool) (r : Toks) : ∀ (l : List β) (n : Nat), l.length < n → l ≠ [] →
    parseList f n (punctuate .comma g tr l ++ .gt :: r) = some (l.map k, r)
  | [], _, _, h => absurd rfl h
  | _, 0, h, _ => absurd h (Nat.not_lt_zero _)
  | [b], 1, h, _ => absurd h (by simp)
  | [b], n + 2, _, _ => by
    cases tr
    · have : punctuate .comma g false [b] ++ .gt :: r = g b ++ .gt :: r := by simp [punctuate]
      rw [this, parseList_step (hg _ _), hf _ _ ⟨r, Or.inr rfl⟩]
      rfl
    · have : punctuate .comma g true [b] ++ .gt :: r = g b ++ .comma :: .gt :: r := by simp [punctuate]
      rw [this, parseList_step (hg _ _), hf _ _ ⟨_, Or.inl rfl⟩]
      rfl
  | b :: b' :: l, n + 1, h, _ => by
    have ih := parseList_punctuate hf hg tr r (b' :: l) n (by simpa using h) (by simp)
    have : punctuate .comma g tr (b :: b' :: l) ++ .gt :: r = g b ++ .comma :: (punctuate .comma g tr (b' :: l) ++ .gt :: r) := by simp [punctuate]
    rw [this, parseList_step (hg _ _), hf _ _ ⟨_, Or.inl rfl⟩]
    simp only [ih]
    rfl

theorem punctuate_length {β : Type} {g : β → Toks} (hg : ∀ b, 0 < (g b).length) (sep : Tok) (tr : Bool) : ∀ l : List β, l.length ≤ (punctuate sep g tr l).length
  | [] => Nat.zero_le _
  | [b] => by have := hg b; simp [punctuate]; omega
  | b :: b' :: l => by
    have ih := punctuate_length hg sep tr (b' :: l)
    have := hg b
    simp only [punctuate, List.length_append, List.length_cons, List.length_nil] at ih ⊢
    omega

theorem lifetimesFirst_eq {l : List GParam} (h : l.Pairwise fun p q => q.isLife = true → p.isLife = true) :
    l.filter (·.isLife) ++ l.filter (!·.isLife) = l := by
  induction l with
  | nil => rfl
  | cons p l ih =>
    obtain ⟨h1, h2⟩ := List.pairwise_cons.mp h
    cases hp : p.isLife with
    | true => simp [hp, ih h2]
    | false =>
      have hl : ∀ q ∈ l, q.isLife = false := fun q hq => by
        cases hq' : q.isLife with
        | false => rfl
        | true => rw [h1 q hq hq'] at hp; cases hp
      have e1 : l.filter (·.isLife) = [] := List.filter_eq_nil_iff.mpr fun q hq => by simp [hl q hq]
      have e2 : l.filter (!·.isLife) = l := List.filter_eq_self.mpr fun q hq => by simp [hl q hq]
      rw [List.filter_cons_of_neg (by simp [hp]), List.filter_cons_of_pos (by simp [hp]), e1, e2]
      rfl

theorem parseAngle_angle {α : Type} {f : Toks → Option (α × Toks)} {g : GParam → Toks} {k : GParam → α} (hf : ∀ b r, Stop r → f (g b ++ r) = some (k b, r))
    (hg : ∀ b r r', g b ++ r ≠ .gt :: r') (hl : ∀ b, 0 < (g b).length) (G : Generics) (ho : G.params.items.Pairwise fun p q => q.isLife = true → p.isLife = true)
    (r : Toks) (hr : ∀ r', r ≠ .lt :: r') :
    parseAngle f (angle g G ++ r) = some (G.params.items.map k, r) := by
  unfold angle
  split
  · next he =>
    rw [List.isEmpty_iff.mp he]
    show parseAngle f r = _
    unfold parseAngle
    split
    · exact absurd rfl (hr _)
    · rfl
  · next he =>
    have hne : G.params.items ≠ [] := fun h => he (by rw [h]; rfl)
    have e : [Tok.lt] ++ (Punctuated.mk G.lifetimesFirst G.params.trailing).toTokens .comma g ++ [.gt] ++ r
        = .lt :: (punctuate .comma g G.params.trailing G.params.items ++ .gt :: r) := by
      simp [Punctuated.toTokens, Generics.lifetimesFirst, lifetimesFirst_eq ho]
    rw [e]
    show parseList f _ _ = _
    refine parseList_punctuate hf hg _ _ _ _ ?_ hne
    have := punctuate_length hl .comma G.params.trailing G.params.items
    simp only [List.length_append, List.length_cons]
    omega

theorem parsePreds_punctuate (tr : Bool) (r : Toks) : ∀ l : List Nat, l ≠ [] →
    parsePreds (punctuate .comma (fun p => [.pred p]) tr l ++ .lbrace :: r) = (l, .lbrace :: r)
  | [], h => absurd rfl h
  | [a], _ => by cases tr <;> simp [punctuate, parsePreds]
  | a :: b :: l, _ => by
    have ih := parsePreds_punctuate tr r (b :: l) (by simp)
    simp [punctuate, parsePreds, ih]

theorem parseWhere_whereClause (G : Generics) (r : Toks) : parseWhere (G.whereClause ++ .lbrace :: r) = (G.where_.items, .lbrace :: r) := by
  unfold Generics.whereClause
  split
  · next he => rw [List.isEmpty_iff.mp he]; rfl
  · next he =>
    have hne : G.where_.items ≠ [] := fun h => he (by rw [h]; rfl)
    simpa [parseWhere, Punctuated.toTokens] using parsePreds_punctuate G.where_.trailing r _ hne

theorem whereClause_head (G : Generics) (r : Toks) : ∀ r', G.whereClause ++ .lbrace :: r ≠ .lt :: r' := by
  intro r' h
  unfold Generics.whereClause at h
  split at h <;> simp at h

/-- The header of the printed impl. -/
def Item.header (d : Item) : Header :=
  ⟨(addTraitBounds d.generics).params.items.map (·.hparam), d.data.name, d.generics.params.items.map (·.arg), d.generics.where_.items⟩

theorem addTraitBounds_order {G : Generics} (h : G.params.items.Pairwise fun p q => q.isLife = true → p.isLife = true) :
    (addTraitBounds G).params.items.Pairwise fun p q => q.isLife = true → p.isLife = true := by
  refine List.pairwise_map.mpr (h.imp fun {p q} hpq => ?_)
  cases p <;> cases q <;> simp_all [GParam.isLife]

theorem addTraitBounds_arg (G : Generics) : (addTraitBounds G).params.items.map (·.arg) = G.params.items.map (·.arg) := by
  refine (List.map_map ..).trans (List.map_congr_left fun p _ => ?_)
  cases p <;> rfl

theorem parseHeader_impl {d : Item} (h : d.generics.Valid) (body : Toks) :
    parseHeader (implEnumLike d.data.name d.generics body) = some (d.header, body ++ [.rbrace]) := by
  have ho := addTraitBounds_order h.order
  have h1 := parseAngle_angle (f := parseParam) (k := GParam.hparam) (fun b r hr => parseParam_implTokens b hr) implTokens_head
    (fun b => by cases b <;> simp [GParam.implTokens]) (addTraitBounds d.generics) ho
    ([.enumLike, .for_, .id d.data.name] ++ (addTraitBounds d.generics).tyGenerics ++ (addTraitBounds d.generics).whereClause ++ [.lbrace] ++ body ++ [.rbrace]) (by simp)
  have h2 := parseAngle_angle (f := parseArg) (k := GParam.arg) (fun b r _ => parseArg_tyTokens b r) tyTokens_head
    (fun b => by cases b <;> simp [GParam.tyTokens]) (addTraitBounds d.generics) ho ((addTraitBounds d.generics).whereClause ++ .lbrace :: (body ++ [.rbrace])) (whereClause_head _ _)
  have h3 := parseWhere_whereClause (addTraitBounds d.generics) (body ++ [.rbrace])
  rw [addTraitBounds_arg] at h2
  have e : implEnumLike d.data.name d.generics body = .unsafe_ :: .impl_ :: (angle GParam.implTokens (addTraitBounds d.generics) ++
    ([.enumLike, .for_, .id d.data.name] ++ (addTraitBounds d.generics).tyGenerics ++ (addTraitBounds d.generics).whereClause ++ [.lbrace] ++ body ++ [.rbrace])) := by
    simp [implEnumLike, Generics.implGenerics]
  rw [e]
  simp only [parseHeader, h1]
  have e2 : (addTraitBounds d.generics).tyGenerics ++ (addTraitBounds d.generics).whereClause ++ [.lbrace] ++ body ++ [.rbrace]
    = angle GParam.tyTokens (addTraitBounds d.generics) ++ ((addTraitBounds d.generics).whereClause ++ .lbrace :: (body ++ [.rbrace])) := by
    simp [Generics.tyGenerics]
  simp only [List.cons_append, List.nil_append, e2, h2, h3]
  rfl

theorem punctuate_ok {β : Type} {g : β → Toks} {sep : Tok} (hs : sep.Ok) {tr : Bool} : ∀ {l : List β}, (∀ b ∈ l, AllOk (g b)) → AllOk (punctuate sep g tr l)
  | [], _ => fun t ht => by cases ht
  | [b], h => by
    intro t ht
    simp only [punctuate, List.mem_append] at ht
    rcases ht with ht | ht
    · exact h b (by simp) t ht
    · cases tr <;> simp_all
  | b :: b' :: l, h => by
    intro t ht
    simp only [punctuate, List.mem_append, List.mem_singleton] at ht
    rcases ht with (ht | rfl) | ht
    · exact h b (by simp) t ht
    · exact hs
    · exact punctuate_ok hs (fun b hb => h b (List.mem_cons_of_mem _ hb)) t ht

theorem boundsTokens_ok {α : Type} {f : α → Toks} (hf : ∀ a, AllOk (f a)) (p : Punctuated α) : AllOk (boundsTokens f p) := by
  unfold boundsTokens
  split
  · intro t ht; cases ht
  · intro t ht
    rcases List.mem_append.mp ht with ht | ht
    · obtain rfl := List.mem_singleton.mp ht; trivial
    · exact punctuate_ok (sep := .plus) trivial (fun b _ => hf b) t ht

theorem GParam.implTokens_ok {p : GParam} (h : isIdent p.arg.text = true) : AllOk p.implTokens := by
  cases p with
  | life x bs =>
    intro t ht
    rcases List.mem_append.mp ht with ht | ht
    · obtain rfl := List.mem_singleton.mp ht; exact h
    · exact boundsTokens_ok (fun a t ht => by obtain rfl := List.mem_singleton.mp ht; trivial) bs t ht
  | type x bs dflt =>
    intro t ht
    rcases List.mem_append.mp ht with ht | ht
    · obtain rfl := List.mem_singleton.mp ht; exact h
    · exact boundsTokens_ok (fun a t ht => by cases a <;> (obtain rfl := List.mem_singleton.mp ht; trivial)) bs t ht
  | const x ty =>
    intro t ht
    simp only [GParam.implTokens, List.mem_cons, List.not_mem_nil, or_false] at ht
    rcases ht with rfl | rfl | rfl | rfl
    · trivial
    · exact h
    · trivial
    · trivial

theorem GParam.tyTokens_ok {p : GParam} (h : isIdent p.arg.text = true) : AllOk p.tyTokens := by
  cases p <;> (intro t ht; obtain rfl := List.mem_singleton.mp ht; exact h)

theorem angle_ok {f : GParam → Toks} {G : Generics} (h : ∀ p ∈ G.params.items, AllOk (f p)) : AllOk (angle f G) := by
  unfold angle
  split
  · intro t ht; cases ht
  · intro t ht
    rcases List.mem_append.mp ht with ht | ht
    · rcases List.mem_append.mp ht with ht | ht
      · obtain rfl := List.mem_singleton.mp ht; trivial
      · refine punctuate_ok (sep := .comma) trivial (fun b hb => h b ?_) t ht
        rcases List.mem_append.mp hb with hb | hb <;> exact (List.mem_filter.mp hb).1
    · obtain rfl := List.mem_singleton.mp ht; trivial

theorem whereClause_ok (G : Generics) : AllOk G.whereClause := by
  unfold Generics.whereClause
  split
  · intro t ht; cases ht
  · intro t ht
    rcases List.mem_append.mp ht with ht | ht
    · obtain rfl := List.mem_singleton.mp ht; trivial
    · exact punctuate_ok (sep := .comma) trivial (fun b _ t ht => by obtain rfl := List.mem_singleton.mp ht; trivial) t ht

theorem Generics.Valid.added {G : Generics} (h : G.Valid) : ∀ p ∈ (addTraitBounds G).params.items, isIdent p.arg.text = true := by
  intro p hp
  have : p.arg ∈ (addTraitBounds G).params.items.map (·.arg) := List.mem_map_of_mem hp
  rw [addTraitBounds_arg] at this
  obtain ⟨q, hq, e⟩ := List.mem_map.mp this
  rw [← e]
  exact h.ident q hq

theorem implEnumLike_ok {name : List Char} {G : Generics} {body : Toks} (hn : isIdent name = true) (h : G.Valid) (hb : AllOk body) : AllOk (implEnumLike name G body) := by
  intro t ht
  simp only [implEnumLike, List.mem_append, List.mem_cons, List.not_mem_nil, or_false] at ht
  rcases ht with (((((((rfl | rfl) | ht) | (rfl | rfl | rfl)) | ht) | ht) | rfl) | ht) | rfl
  · trivial
  · trivial
  · exact angle_ok (fun p hp => GParam.implTokens_ok (h.added p hp)) t ht
  · trivial
  · trivial
  · exact hn
  · exact angle_ok (fun p hp => GParam.tyTokens_ok (h.added p hp)) t ht
  · exact whereClause_ok _ t ht
  · trivial
  · exact hb t ht
  · trivial

variable {W : Universe}

/-- A bound more: `EnumLike` for the types. -/
theorem hparam_added (σ : W.Choice) (p : GParam) :
    (match p with
      | .type name bounds dflt => GParam.type name (bounds.push .enumLike) dflt
      | p => p).hparam.Holds σ ↔ p.Holds σ ∧ ∀ t, p.arg.value σ = .ty t → W.enumLike t := by
  cases p with
  | life x bs => simp [GParam.hparam, HParam.Holds, GParam.Holds, GParam.arg, HArg.value]
  | const x ty =>
    constructor
    · rintro ⟨v, h1, h2⟩
      refine ⟨⟨v, h1, h2⟩, fun t ht => ?_⟩
      simp [GParam.arg, HArg.value, h1] at ht
    · exact fun h => h.1
  | type x bs dflt =>
    constructor
    · rintro ⟨t, h1, h2⟩
      refine ⟨⟨t, h1, fun b hb => h2 b (List.mem_append_left _ hb)⟩, fun t' ht => ?_⟩
      have : t = t' := by simpa [GParam.arg, HArg.value, h1] using ht
      subst this
      exact h2 .enumLike (List.mem_append_right _ (List.mem_singleton.mpr rfl))
    · rintro ⟨⟨t, h1, h2⟩, h3⟩
      refine ⟨t, h1, fun b hb => ?_⟩
      rcases List.mem_append.mp hb with hb | hb
      · exact h2 b hb
      · obtain rfl := List.mem_singleton.mp hb
        exact h3 t (by simp [GParam.arg, HArg.value, h1])

theorem header_applies (d : Item) (args : List W.Arg) :
    d.header.Applies args ↔ d.generics.Instance args ∧ ∀ t, .ty t ∈ args → W.enumLike t := by
  have key : ∀ σ : W.Choice, (∀ p ∈ d.header.params, p.Holds σ) ↔ (∀ p ∈ d.generics.params.items, p.Holds σ) ∧
      ∀ t, .ty t ∈ d.generics.params.items.map (fun p => p.arg.value σ) → W.enumLike t := by
    intro σ
    constructor
    · intro h
      have h' : ∀ p ∈ d.generics.params.items, p.Holds σ ∧ ∀ t, p.arg.value σ = .ty t → W.enumLike t := fun p hp =>
        (hparam_added σ p).mp (h _ (List.mem_map_of_mem (List.mem_map_of_mem hp)))
      refine ⟨fun p hp => (h' p hp).1, fun t ht => ?_⟩
      obtain ⟨p, hp, e⟩ := List.mem_map.mp ht
      exact (h' p hp).2 t e
    · rintro ⟨h1, h2⟩ p hp
      obtain ⟨q', hq', rfl⟩ := List.mem_map.mp hp
      obtain ⟨q, hq, rfl⟩ := List.mem_map.mp hq'
      exact (hparam_added σ q).mpr ⟨h1 q hq, fun t ht => h2 t (List.mem_map.mpr ⟨q, hq, ht⟩)⟩
  constructor
  · rintro ⟨σ, h1, h2, h3⟩
    have h1' : d.generics.params.items.map (fun p => p.arg.value σ) = args := by rw [← h1]; simp [Item.header]
    obtain ⟨k1, k2⟩ := (key σ).mp h2
    exact ⟨⟨σ, h1', k1, h3⟩, by rw [← h1']; exact k2⟩
  · rintro ⟨⟨σ, h1, h2, h3⟩, h4⟩
    refine ⟨σ, by rw [← h1]; simp [Item.header], (key σ).mpr ⟨h2, by rw [h1]; exact h4⟩, h3⟩

theorem header_wf {d : Item} (h : d.generics.Valid) : d.header.WellFormed := by
  have e : d.header.params.map (·.arg) = d.generics.params.items.map (·.arg) := by
    show ((addTraitBounds d.generics).params.items.map (·.hparam)).map (·.arg) = _
    rw [← addTraitBounds_arg, List.map_map]
    exact List.map_congr_left fun p _ => by cases p <;> rfl
  refine ⟨by rw [e]; exact h.distinct, ?_, fun a ha => by rw [e]; exact ha, fun p hp => ?_⟩
  · refine List.pairwise_map.mpr ((addTraitBounds_order h.order).imp fun {p q} hpq => ?_)
    cases p <;> cases q <;> simp_all [GParam.isLife, GParam.hparam, HParam.isLife]
  · have : p.arg ∈ d.header.params.map (·.arg) := List.mem_map_of_mem hp
    rw [e] at this
    exact this

end Macro
end EnumVecModel
