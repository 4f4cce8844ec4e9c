import Verif.Source.ItemLookup
import Verif.Props.SourceItems
import Verif.Props.SourceDerive
import Verif.Props.SourceWhole

/-!
# C90: the search for an impl, and all the crates from their texts
-/

namespace EnumVecModel
namespace Source
namespace Mac
open EnumLike (Mach)
open EnumLike.Rules (TupleItem ArrayItem items item aitems aitem findTuple findArray tupleOf arrayOf tupleImpls arrayImpls findTuple_step findTuple_none filter_one filter_none afilter_one afilter_none length_item idxOf_self
  mapM_range mapM_list names length_names self_get self_last findArray_eq findArray_none tupleOf_eq arrayOf_eq tupleItems_eq arrayItems_eq names_distinct C62_tuple_limit)

variable {β : Type}

/-! ## Items -/

/-- No braces outside of delimiters. -/
def noBrace : TTs → Bool
  | .nil => true
  | .tok _ r => noBrace r
  | .grp d _ r => d != .brace && noBrace r

theorem noBrace_append : (a b : TTs) → noBrace (a ++ b) = (noBrace a && noBrace b)
  | .nil, b => rfl
  | .tok t r, b => by rw [tok_append, noBrace, noBrace, noBrace_append r b]
  | .grp d i r, b => by rw [grp_append, noBrace, noBrace, noBrace_append r b, Bool.and_assoc]

theorem noBrace_commas {γ : Type} (f : γ → TTs) (hf : ∀ a, noBrace (f a) = true) : (l : List γ) → noBrace (commas (l.map f)) = true
  | [] => rfl
  | [a] => hf a
  | a :: b :: l => by
    have ih := noBrace_commas f hf (b :: l)
    show noBrace (f a ++ tts% "," ++ commas (f b :: l.map f)) = true
    rw [noBrace_append, noBrace_append, hf a]
    simpa [noBrace] using ih

theorem itemsOf_item : (a b r : TTs) → noBrace a = true → itemsOf (a ++ brace b ++ r) = (a ++ brace b) :: itemsOf r
  | .nil, b, r, _ => by
    show (if Delim.brace = Delim.brace then _ else _) = _
    rw [if_pos rfl]; rfl
  | .tok t q, b, r, h => by
    have ih := itemsOf_item q b r h
    simp only [tok_append]
    rw [itemsOf, ih]
  | .grp d i q, b, r, h => by
    simp only [noBrace, Bool.and_eq_true, bne_iff_ne] at h
    have ih := itemsOf_item q b r h.2
    simp only [grp_append]
    rw [itemsOf, if_neg h.1, ih]

theorem itemsOf_tuple (it : TupleItem) (r : TTs) : itemsOf (tupleText it ++ r) = tupleText it :: itemsOf r :=
  itemsOf_item _ _ r (by
    have := noBrace_commas (fun T => ident T ++ tts% ": EnumLike") (fun _ => rfl) it.params
    simp [noBrace_append, noBrace, paren, this])

theorem itemsOf_array (it : ArrayItem) (r : TTs) : itemsOf (arrayText it ++ r) = arrayText it :: itemsOf r :=
  itemsOf_item _ _ r (by simp [noBrace, ident, bracket])

theorem itemsOf_each {γ : Type} {f : γ → TTs} (hf : ∀ a r, itemsOf (f a ++ r) = f a :: itemsOf r) : (l : List γ) → itemsOf (each l f) = l.map f
  | [] => rfl
  | a :: l => by rw [each_cons, hf, itemsOf_each hf l]; rfl

/-! ## The search -/

theorem filterMap_filter {γ δ : Type} (f : γ → Option δ) (p : γ → Bool) : (l : List γ) → (∀ a ∈ l, p a = false → f a = none) → l.filterMap f = (l.filter p).filterMap f
  | [], _ => rfl
  | a :: l, h => by
    have ih := filterMap_filter f p l fun b hb => h b (List.mem_cons_of_mem _ hb)
    cases hp : p a with
    | true => rw [List.filter_cons_of_pos hp, List.filterMap_cons, List.filterMap_cons, ih]
    | false => rw [List.filter_cons_of_neg (by simp [hp]), List.filterMap_cons, h a (List.mem_cons_self ..) hp, ih]

theorem only_one {γ δ : Type} {f : γ → Option δ} {a : γ} {b : δ} (h : f a = some b) : only ([a].filterMap f) = some b := by
  rw [List.filterMap_cons, h]; rfl

theorem textTuple_none (it : TupleItem) {build : Build} {F : List (Mach (EnumLike.Rules.Val β)) → Option (Mach (EnumLike.Rules.Val β))} {Ts : List (Mach (EnumLike.Rules.Val β))} (h : it.self_.length ≠ Ts.length) :
    textTuple build F (tupleText it) Ts = none := by
  obtain ⟨b, e1, e2⟩ := afterGt_tuple it
  unfold textTuple
  rw [e1]
  dsimp only
  rw [if_pos ⟨rfl, rfl⟩, pieces_commas ident (fun _ => rfl) (by simp [ident]), paramNames, e2]
  dsimp only
  rw [if_neg (by simp [h])]

theorem textArray_none (it : ArrayItem) {build : Build} {uninit : Bool} {F : List (Mach (EnumLike.Rules.Val β)) → Option (Mach (EnumLike.Rules.Val β))} {n : Nat} {T : Mach (EnumLike.Rules.Val β)} (h : it.size ≠ n) :
    textArray build uninit F (arrayText it) n T = none := by
  obtain ⟨b, e1, e2⟩ := afterGt_array it
  unfold textArray
  rw [e1]
  show (if (word% "EnumLike" : Word) = word% "EnumLike" ∧ (word% "for" : Word) = word% "for" ∧ n = it.size then _ else _) = _
  rw [if_neg fun e => h e.2.2.symm]

theorem lookTuple_succ (build : Build) (texts : List TTs) (fuel : Nat) (Ts : List (Mach (EnumLike.Rules.Val β))) (h : 3 ≤ Ts.length) :
    lookTuple build texts (fuel + 1) Ts = only (texts.filterMap fun it => textTuple build (lookTuple build texts fuel) it Ts) := by
  match Ts, h with
  | A :: B :: C :: Ts, _ => rfl

/-- The search in the text finds an impl exactly if the one among the items does, and the same. -/
theorem lookTuple_eq {name : Nat → String} {n : Nat} (hinj : ∀ i j, i < n → j < n → name i = name j → i = j) (build : Build) : (fuel : Nat) → (Ts : List (Mach (EnumLike.Rules.Val β))) → Ts.length ≤ fuel →
    lookTuple build ((items name n).map tupleText) fuel Ts = findTuple build (items name n) fuel Ts ∧ (Ts.length ≤ n → ∃ M, findTuple build (items name n) fuel Ts = some M)
  | fuel, [], _ => by cases fuel <;> exact ⟨rfl, fun _ => ⟨_, rfl⟩⟩
  | fuel, [T], _ => by cases fuel <;> exact ⟨rfl, fun _ => ⟨_, rfl⟩⟩
  | fuel, [T, S], _ => by cases fuel <;> exact ⟨rfl, fun _ => ⟨_, rfl⟩⟩
  | 0, A :: B :: C :: Ts, h => by simp at h
  | fuel + 1, A :: B :: C :: rest, h => by
    generalize hU : A :: B :: C :: rest = Us at h ⊢
    have h3 : 3 ≤ Us.length := by rw [← hU]; simp
    rw [lookTuple_succ _ _ _ _ h3, List.filterMap_map]
    rw [filterMap_filter _ (fun it => it.self_.length == Us.length) (items name n) (by intro it _ hp; exact textTuple_none it (by simpa using hp))]
    by_cases hn : Us.length ≤ n
    · obtain ⟨Ts, T, hTs⟩ : ∃ Ts T, Us = Ts ++ [T] := ⟨Us.dropLast, Us.getLast (by rw [← hU]; simp), (List.dropLast_concat_getLast _).symm⟩
      subst hTs
      obtain ⟨m, hm⟩ : ∃ m, Ts.length = m + 2 := ⟨Ts.length - 2, by simp at h3; omega⟩
      have hlen : (Ts ++ [T]).length = m + 3 := by simp [hm]
      obtain ⟨ih1, ih2⟩ := lookTuple_eq hinj build fuel Ts (by omega)
      obtain ⟨M, hM⟩ := ih2 (by omega)
      have hinj' : ∀ i j, i ≤ m + 2 → j ≤ m + 2 → name i = name j → i = j := fun i j hi hj => hinj i j (by omega) (by omega)
      rw [findTuple_step hinj build fuel m Ts T hm (by omega), hM]
      refine ⟨?_, fun _ => ⟨_, rfl⟩⟩
      rw [hlen, filter_one name n (m + 3) (by omega) (by omega)]
      have hbound : ∀ k, k < m + 3 → (item name (m + 2)).self_[k]?.bind (fun ty => (Ts ++ [T])[(item name (m + 2)).self_.idxOf ty]?) = (Ts ++ [T])[k]? := by
        intro k hk
        have hk' : k < (item name (m + 2)).self_.length := by rw [length_item]; exact hk
        rw [List.getElem?_eq_getElem hk']
        show (Ts ++ [T])[(item name (m + 2)).self_.idxOf (item name (m + 2)).self_[k]]? = _
        rw [idxOf_self hinj']
      have h1 : ((item name (m + 2)).toIdx.mapM fun k => (Ts ++ [T])[k]?) = some Ts := by
        show (List.range (m + 2)).mapM _ = _
        rw [mapM_range id (Ts ++ [T]) (m + 2) (by omega) _ (fun k hk => by simp)]
        rw [List.map_id, ← hm, List.take_left]
      have h2 : (Ts ++ [T])[(item name (m + 2)).toLast]? = some T := by
        show (Ts ++ [T])[m + 2]? = _
        rw [← hm]; simp
      have h3 : ((item name (m + 2)).inner.mapM fun ty => (Ts ++ [T])[(item name (m + 2)).self_.idxOf ty]?) = some Ts := by
        refine mapM_list _ _ _ ?_ ?_
        · show (names name (m + 2)).length = _
          rw [length_names, hm]
        · intro k hk hk'
          have hb := hbound k (by omega)
          rw [self_get (by omega)] at hb
          have hk2 : k < (names name (m + 2)).length := hk
          rw [List.getElem?_eq_getElem hk2] at hb
          rw [List.getElem?_append_left hk', List.getElem?_eq_getElem hk'] at hb
          exact hb
      have h4 : (Ts ++ [T])[(item name (m + 2)).self_.idxOf (item name (m + 2)).last]? = some T := by
        have := hbound (m + 2) (by omega)
        rw [self_last] at this
        exact this.trans h2
      have e := textTuple_eq (item name (m + 2)) (build := build) (F := lookTuple build ((items name n).map tupleText) fuel) (Ts := Ts ++ [T]) (fun a b => by cases fuel <;> rfl)
        (by rw [length_item, hlen]) (by show List.range (m + 2) ≠ []; simp) h1 h2 h3 h4 (ih1.trans hM) (ih1.trans hM)
      exact only_one e
    · rw [findTuple_none name n build (fuel + 1) Us (by omega) (by omega), filter_none _ _ _ (Or.inl (by omega))]
      exact ⟨rfl, fun h => absurd h hn⟩

/-- **C90** (the search): let `tOut` and `aOut` be what the two calls in the crate expand to. The compiler that looks for the impl of a tuple or array type in these texts, and in them for the impls which the texts
call, finds exactly the impls that C62 and C84 are about: for all component impls, good or bad; it finds one exactly if there are at most 32 components. -/
theorem C90_search {build : Build} {tOut aOut : TTs} (ht : Expands macros c_tuple_impls tOut) (ha : Expands macros c_array_impls aOut) :
    (∀ Ts : List (Mach (EnumLike.Rules.Val β)), tupleIn build tOut Ts = tupleOf build Ts ∧ ((tupleIn build tOut Ts).isSome ↔ Ts.length ≤ 32)) ∧
    (∀ uninit n (T : Mach (EnumLike.Rules.Val β)), arrayIn build uninit tOut aOut n T = arrayOf build uninit n T ∧ ((arrayIn build uninit tOut aOut n T).isSome ↔ n ≤ 32)) := by
  obtain ⟨ts, h1, rfl⟩ := (C85_crate.1 _).mp ht
  obtain ⟨as, h2, rfl⟩ := (C85_crate.2 _).mp ha
  rw [tupleItems_eq] at h1
  obtain rfl := Option.some.inj h1
  have h2' := h2
  rw [arrayItems_eq] at h2
  obtain rfl := Option.some.inj h2
  have hT : ∀ Ts : List (Mach (EnumLike.Rules.Val β)), tupleIn build (each (items (fun i => "A" ++ toString i) 32) tupleText) Ts = tupleOf build Ts := fun Ts => by
    unfold tupleIn
    rw [itemsOf_each itemsOf_tuple, tupleOf_eq]
    exact (lookTuple_eq names_distinct build Ts.length Ts (Nat.le_refl _)).1
  have hS : ∀ Ts : List (Mach (EnumLike.Rules.Val β)), (tupleOf build Ts).isSome ↔ Ts.length ≤ 32 := fun Ts => by
    constructor
    · intro h
      refine Nat.le_of_not_lt fun h' => ?_
      rw [C62_tuple_limit build Ts h'] at h; cases h
    · intro h
      obtain ⟨M, hM⟩ := (lookTuple_eq names_distinct build Ts.length Ts (Nat.le_refl _)).2 h
      rw [tupleOf_eq, hM]; rfl
  have hF : tupleIn build (each (items (fun i => "A" ++ toString i) 32) tupleText) = fun Ts : List (Mach (EnumLike.Rules.Val β)) => findTuple build (items (fun i => "A" ++ toString i) 32) Ts.length Ts := by
    funext Ts; rw [hT, tupleOf_eq]
  refine ⟨fun Ts => ⟨hT Ts, by rw [hT]; exact hS Ts⟩, fun uninit n T => ?_⟩
  have key : arrayIn build uninit (each (items (fun i => "A" ++ toString i) 32) tupleText) (each (aitems "A" 32) arrayText) n T = arrayOf build uninit n T ∧
      ((arrayOf build uninit n T).isSome ↔ n ≤ 32) := by
    unfold arrayIn
    rw [arrayOf_eq]
    by_cases h0 : n = 0
    · subst h0
      unfold findArray
      rw [if_pos rfl, if_pos rfl]
      exact ⟨rfl, by simp⟩
    · rw [if_neg h0, itemsOf_each itemsOf_array, List.filterMap_map,
        filterMap_filter _ (fun it => it.size == n) (aitems "A" 32) (by intro it _ hp; exact textArray_none it (by simpa using hp))]
      by_cases hn : n ≤ 32
      · obtain ⟨t, hM⟩ := Option.isSome_iff_exists.mp ((hS (List.replicate n T)).mpr (by simpa using hn))
        rw [tupleOf_eq, List.length_replicate] at hM
        have hA : findArray build uninit (items (fun i => "A" ++ toString i) 32) (aitems "A" 32) n T = some ((aitem "A" n).impl build uninit t) := by
          rw [findArray_eq _ _ _ _ _ _ _ (by omega) hn, hM]; rfl
        obtain ⟨it, hit, e⟩ := C88_array h2' h0 hA
        have hs : it.size = n := Decidable.byContradiction fun h => by rw [textArray_none it h] at e; cases e
        have hmem : it ∈ (aitems "A" 32).filter fun it => it.size == n := List.mem_filter.mpr ⟨hit, by simpa using hs⟩
        rw [afilter_one "A" 32 n (by omega) hn] at hmem ⊢
        obtain rfl := List.mem_singleton.mp hmem
        rw [hA]
        refine ⟨?_, by simp [hn]⟩
        rw [hF]
        exact only_one e
      · rw [findArray_none _ _ _ _ _ _ _ (by omega), afilter_none _ _ _ (by omega)]
        exact ⟨rfl, by simp [hn]⟩
  exact ⟨key.1, by rw [key.1]; exact key.2⟩

end Mac
end Source

/-! ## All the texts together -/

open Source Source.Like Source.Mac EnumLike EnumLike.Rules

set_option linter.constructorNameAsVariable false

variable {α β γ ω τ : Type} {build : Build} {tOut aOut : TTs}

/-- `m` is the impl of `EnumLike` of a type made from texts only: of the crate `enum_like` (`crate`: `i` is the `impl`, `enc` names the values); printed from the texts of the templates in `enum_like_derive` for a declaration
`d`, with generics (`derive`: `i` is the syntax tree of the printed tokens `ts`); or an item in `tOut` or `aOut`, the expansions of `tuple_impls!` and `array_impls!`. `user` is an impl written by the user, which has to keep the contract of the
trait. -/
inductive FullText (build : Build) (tOut aOut : TTs) : (γ : Type) → Mach γ → Prop
  | user {γ : Type} {m : Mach γ} : LawfulMach build m → FullText build tOut aOut γ m
  | crate {α β γ : Type} {T : Mach α} {S : Mach β} {m : Mach γ} (i : LImpl) (enc : γ → LV α β) : i ∈ likeImpls → FullText build tOut aOut α T → FullText build tOut aOut β S →
      (∀ a b, enc a = enc b → a = b) → (∀ v, OfType i.ty v ↔ ∃ a, enc a = v) → Computes i ⟨T, S, build⟩ enc m → FullText build tOut aOut γ m
  | derive (I : Macro.Interp) (num : Nat → Nat) (d : Macro.Item) (ts : Macro.Toks) (h : Macro.Header) (i : Macro.Impl) :
      (∀ t, (I t).2.num = .ok (num t)) → (∀ t, FullText build tOut aOut (I t).1 (I t).2) → d.data.Valid build → d.generics.Valid → Quote.deriveItem d = some ts → Macro.ParsesItem ts h i →
      FullText build tOut aOut (Macro.Value I d.data) (i.mach (I := I) build d.data)
  | tuple (I : Macro.Interp) (ts : List Nat) (M : Mach (Rules.Val (Leaf I))) : (∀ t, FullText build tOut aOut (I t).1 (I t).2) → tupleIn build tOut (ts.map (leafMach I)) = some M →
      FullText build tOut aOut (TupleVal I ts) (M.restrict _)
  | array (I : Macro.Interp) (t n : Nat) (M : Mach (Rules.Val (Leaf I))) : (∀ t, FullText build tOut aOut (I t).1 (I t).2) → arrayIn build true tOut aOut n (leafMach I t) = some M →
      FullText build tOut aOut (ArrayVal I t n) (M.restrict _)

/-- The printed tokens, with their header, have the syntax tree of C52. -/
theorem derive_body {d : Macro.Item} {ts : Macro.Toks} {h : Macro.Header} {i : Macro.Impl} (hg : d.generics.Valid) (hts : Quote.deriveItem d = some ts) (hp : Macro.ParsesItem ts h i) :
    ∃ body, Macro.derive d.data = some body ∧ Macro.Parses body i := by
  rw [Quote.C89_derive] at hts
  rcases hb : Macro.derive d.data with _ | body
  · simp [Macro.deriveItem, hb] at hts
  · have hts : Macro.implEnumLike d.data.name d.generics body = ts := by simpa [Macro.deriveItem, hb] using hts
    subst hts
    obtain ⟨-, body', h1, h2⟩ := hp
    rw [Macro.parseHeader_impl hg body] at h1
    obtain rfl := List.append_cancel_right (Prod.mk.inj (Option.some.inj h1)).2
    exact ⟨_, rfl, h2⟩

theorem FullText.whole (ht : Expands macros c_tuple_impls tOut) (ha : Expands macros c_array_impls aOut) {m : Mach γ} (h : FullText build tOut aOut γ m) : WholeText build γ m := by
  induction h with
  | user h => exact .user h
  | crate i enc hi _ _ hinj he hc hT hS => exact .crate i enc hi hT hS hinj he hc
  | derive I num d ts h i hnum _ hd hg hts hp ih =>
    obtain ⟨body, h1, h2⟩ := derive_body hg hts hp
    exact .derive I num d.data body i hnum ih hd h1 h2
  | tuple I ts M _ hM ih => exact .tuple I ts M ih (((C90_search ht ha).1 _).1.symm.trans hM)
  | array I t n M _ hM ih => exact .array I t n M ih (((C90_search ht ha).2 _ _ _).1.symm.trans hM)

/-- **C90** Every impl made from texts only keeps the contract of `EnumLike`, if its `NUM_VARIANTS` compiles. -/
theorem C90_lawful (ht : Expands macros c_tuple_impls tOut) (ha : Expands macros c_array_impls aOut) {m : Mach γ} (h : FullText build tOut aOut γ m) : LawfulMach build m :=
  C82_lawful (h.whole ht ha)

/-- **C90** `EnumVec`, all from texts: for every such type that the compiler accepts, every allowed history of calls (C01) returns what it returns on `Vec`s and leaves the same elements, or
stops with a failed allocation, after results like those of `Vec`s. -/
theorem C90_vec (ht : Expands macros c_tuple_impls tOut) (ha : Expands macros c_array_impls aOut) [DecidableEq α] {W n : Nat} {cs : List Const} {m : Mach α} {small : Bool} {alloc : Alloc}
    (h : FullText build tOut aOut α m) (hc : AcceptedText W cs build m n)
    (hfew : 32 < W → n ≤ 2 ^ 32) (hl : alloc.Lawful) (hbd : alloc.Bounded build (compiled W build small alloc m).epb) (hs : AllocSmall (compiled W build small alloc m)) (w : τ)
    (ops : List (Op τ α)) (hu : ∀ op ∈ ops, op.Usizes (compiled W build small alloc m)) (hal : AllowedRun (compiled W build small alloc m) ops (fun _ => .clean) (Vecs.start w)) :
    ∃ outs mem, textRun (compiled W build small alloc m) ops (Mem.start _ w) = some (outs, mem) ∧
      ((outs = (vecRun (.ofMach build m) ops (Vecs.start w)).1 ∧ mem.world = (vecRun (.ofMach build m) ops (Vecs.start w)).2.world ∧
          ∀ r, marksRun (compiled W build small alloc m) ops (fun _ => .clean) (Vecs.start w) r ≠ .dead → Is _ (mem.reg r) ((vecRun (.ofMach build m) ops (Vecs.start w)).2.reg r)) ∨
        ∃ pre op post, ops = pre ++ op :: post ∧ outs = (vecRun (.ofMach build m) pre (Vecs.start w)).1 ++ [.oom]) :=
  C82_vec (h.whole ht ha) hc hfew hl hbd hs w ops hu hal

open Source.SetText ESet in
/-- **C90** `EnumSet`, all from texts: `vals` are the values of the type in the order of their numbers. Every history of calls returns what it returns on sets of values, and has the same
effects, whatever the user's iterators and formatters do; only `from_bit_set` must be given numbers of values. -/
theorem C90_set (ht : Expands macros c_tuple_impls tOut) (ha : Expands macros c_array_impls aOut) [DecidableEq α] {σ : Type} {B : BitSet σ} (hB : B.Lawful) {m : Mach α} (h : FullText build tOut aOut α m)
    {n : Nat} (hn : m.num = .ok n) :
    ∃ (vals : List α) (num : α → Nat) (feed : List Nat → List Nat), vals.map m.toDiscr = (List.range n).map .ok ∧ (∀ a, a ∈ vals ∧ m.toDiscr a = .ok (num a)) ∧
      ∀ {ω : Type} (w : ω) (cs : List (Call σ ω α)), (∀ c ∈ cs, c.Valid B.iter n) →
        ∃ rs st, textAll B (.ofMach build m) cs (Store.start B w) = some (rs, st) ∧
          rs = (valCalls vals num B.iter feed cs (Vals.start w)).1 ∧ st.world = (valCalls vals num B.iter feed cs (Vals.start w)).2.world ∧
          ∀ r a, B.contains (st.set r).inner (num a) = (valCalls vals num B.iter feed cs (Vals.start w)).2.set r a :=
  C82_set hB (h.whole ht ha) hn

/-! ## Non-trivial cases -/

/-- The two calls in the crate do expand. -/
theorem exExpands : ∃ tOut aOut, Expands macros c_tuple_impls tOut ∧ Expands macros c_array_impls aOut := by
  obtain ⟨-, ⟨t, -, ht⟩, a, -, ha⟩ := C85_text
  exact ⟨t, a, ht, ha⟩

/-- `enum E<…> { A(bool, Option<bool>), B, C { x: Option<bool>, xx: bool }, D }`, with generics, as the templates print it; its field types are texts of the crate. -/
theorem exFull (tOut aOut : TTs) : ∃ i : Macro.Impl, FullText debug64 tOut aOut (Macro.Value Macro.exI Macro.exItem.data) (i.mach (I := Macro.exI) debug64 Macro.exItem.data) ∧
    (i.mach (I := Macro.exI) debug64 Macro.exItem.data).num = .ok 14 := by
  obtain ⟨ts, hts⟩ : ∃ ts, Quote.deriveItem Macro.exItem = some ts := ⟨_, (Quote.C89_derive _).trans rfl⟩
  obtain ⟨h, i, hp, -, -, -⟩ := Quote.C89_contract (Macro.exEnum_valid debug64) Macro.exItem_valid hts
  obtain ⟨body, hb, hpb⟩ := derive_body Macro.exItem_valid hts hp
  obtain ⟨j, hj, h2⟩ := Macro.C52_compiles (build := debug64) Macro.exI_ok (fun t => by unfold Macro.exNum; split <;> decide) (Macro.exEnum_valid debug64) hb (by simp [Macro.exEnum])
  obtain rfl := hj.unique hpb
  obtain ⟨n, hn⟩ := h2.mpr (by decide +kernel)
  obtain ⟨k, -, h3, h4⟩ := Macro.C52_derive (build := debug64) Macro.exI_ok (Macro.exEnum_valid debug64) hb
  obtain rfl := h3 j hj
  have h14 : n = 14 := (h4 n hn).1.trans (by decide +kernel)
  subst h14
  refine ⟨j, .derive Macro.exI Macro.exNum Macro.exItem ts h j (fun t => (Macro.exI_ok (build := debug64) t).1) (fun t => ?_) (Macro.exEnum_valid _) Macro.exItem_valid hts hp, hn⟩
  have hu : FullText debug64 tOut aOut Unit Mach.unit := .user (LawfulMach.of good_unit unit_consec)
  have hb : FullText debug64 tOut aOut Bool Mach.bool := .crate (T := Mach.unit) (S := Mach.unit) i_bool .bool (by simp [likeImpls]) hu hu (fun a b h => by cases h; rfl)
    (fun v => ⟨fun h => by cases h; exact ⟨_, rfl⟩, fun ⟨o, h⟩ => h ▸ .bool _⟩) (computes_bool _)
  cases t with
  | zero => exact hb
  | succ t =>
    exact .crate (T := Mach.bool) (S := Mach.unit) i_option encOption (by simp [likeImpls]) hb hu encOption_inj
      (fun v => ⟨fun h => by cases h <;> first | exact ⟨none, rfl⟩ | exact ⟨some _, rfl⟩, fun ⟨o, h⟩ => by subst h; cases o <;> first | exact .none | exact .some _⟩) (computes_option _)

/-- What is found for a triple. -/
theorem triple_num {T S U M : Mach (Rules.Val β)} {a b c : Nat} (ht : Expands macros c_tuple_impls tOut) (ha : Expands macros c_array_impls aOut) (hM : tupleIn debug64 tOut [T, S, U] = some M)
    (hT : T.num = .ok a) (hS : S.num = .ok b) (hU : U.num = .ok c) (hab : a * b < debug64.usizeLim) (habc : a * b * c < debug64.usizeLim) : M.num = .ok (a * b * c) := by
  have e := ((C90_search (β := β) (build := debug64) ht ha).1 [T, S, U]).1.symm.trans hM
  rw [tupleOf_eq] at e
  have h := findTuple_step (name := fun i => "A" ++ toString i) names_distinct debug64 2 0 [T, S] U rfl (by decide)
  rw [show [T, S] ++ [U] = [T, S, U] from rfl] at h
  rw [show [T, S, U].length = 2 + 1 from rfl, h] at e
  obtain rfl := Option.some.inj e
  have h1 : (pairImpl debug64 T S).num = .ok (a * b) := (pair_num hT hS).trans (if_pos hab)
  exact (pair_num h1 hU).trans (if_pos habc)

/-- `[(E, bool, E); 3]`, an array of triples of a derived enum: it has 392³ variants, and is accepted with blocks of 32 bits. -/
theorem exFullArray : ∃ (tOut aOut : TTs) (I : Macro.Interp) (M : Mach (Rules.Val (Leaf I))), Expands macros c_tuple_impls tOut ∧ Expands macros c_array_impls aOut ∧
    FullText debug64 tOut aOut (ArrayVal I 0 3) (M.restrict _) ∧ AcceptedText 32 consts_vec_u32 debug64 (M.restrict (ArrayHas 3 (IsLeaf I 0))) (392 * 392 * 392) := by
  obtain ⟨tOut, aOut, ht, ha⟩ := exExpands
  obtain ⟨i, h1, h2⟩ := exFull tOut aOut
  have hu : FullText debug64 tOut aOut Unit Mach.unit := .user (LawfulMach.of good_unit unit_consec)
  have hb : FullText debug64 tOut aOut Bool Mach.bool := .crate (T := Mach.unit) (S := Mach.unit) i_bool .bool (by simp [likeImpls]) hu hu (fun a b h => by cases h; rfl)
    (fun v => ⟨fun h => by cases h; exact ⟨_, rfl⟩, fun ⟨o, h⟩ => h ▸ .bool _⟩) (computes_bool _)
  let J : Macro.Interp := fun t => match t with
    | 0 => ⟨Macro.Value Macro.exI Macro.exItem.data, i.mach (I := Macro.exI) debug64 Macro.exItem.data⟩
    | _ + 1 => ⟨Bool, Mach.bool⟩
  have hJ : ∀ t, FullText debug64 tOut aOut (J t).1 (J t).2 := fun t => match t with
    | 0 => h1
    | _ + 1 => hb
  obtain ⟨P, hP⟩ := Option.isSome_iff_exists.mp (((C90_search (build := debug64) ht ha).1 ([0, 1, 0].map (leafMach J))).2.mpr (by simp))
  have hPn : P.num = .ok 392 := triple_num ht ha hP (show (leafMach J 0).num = .ok 14 from h2) (show (leafMach J 1).num = .ok 2 from rfl) (show (leafMach J 0).num = .ok 14 from h2) (by decide) (by decide)
  let I : Macro.Interp := fun _ => ⟨TupleVal J [0, 1, 0], P.restrict _⟩
  have hI : ∀ t, FullText debug64 tOut aOut (I t).1 (I t).2 := fun _ => .tuple J [0, 1, 0] P hJ hP
  obtain ⟨M, hM⟩ := Option.isSome_iff_exists.mp (((C90_search (build := debug64) ht ha).2 true 3 (leafMach I 0)).2.mpr (by simp))
  refine ⟨tOut, aOut, I, M, ht, ha, .array I 0 3 M hI hM, by simp [modules], ?_, (C79_compiles (W := 32) (by simp [modules]) debug64 (N := 392 * 392 * 392) (by decide)).1.mpr (by decide)⟩
  show M.num = .ok (392 * 392 * 392)
  rw [((C90_search (build := debug64) ht ha).2 true 3 (leafMach I 0)).1, arrayOf_eq, findArray_eq _ _ _ _ _ _ _ (by decide) (by decide)] at hM
  have hf : findTuple debug64 (items (fun i => "A" ++ toString i) 32) 3 (List.replicate 3 (leafMach I 0)) = tupleIn debug64 tOut (List.replicate 3 (leafMach I 0)) := by
    rw [((C90_search (build := debug64) ht ha).1 _).1, tupleOf_eq]; rfl
  rw [hf] at hM
  cases hQ : tupleIn debug64 tOut (List.replicate 3 (leafMach I 0)) with
  | none => rw [hQ] at hM; cases hM
  | some Q =>
    rw [hQ] at hM
    obtain rfl := Option.some.inj hM
    exact triple_num (T := leafMach I 0) (S := leafMach I 0) (U := leafMach I 0) (M := Q) ht ha hQ hPn hPn hPn (by decide) (by decide)

/-- Nothing is found for tuples of 33 components. -/
example {tOut aOut : TTs} (ht : Expands macros c_tuple_impls tOut) (ha : Expands macros c_array_impls aOut) : tupleIn debug64 tOut (List.replicate 33 (unitImpl (β := Unit))) = none := by
  have := ((C90_search (build := debug64) ht ha).1 (List.replicate 33 (unitImpl (β := Unit)))).2
  cases h : tupleIn debug64 tOut (List.replicate 33 (unitImpl (β := Unit))) with
  | none => rfl
  | some m => rw [h] at this; simp at this

/-- The items of a text. -/
example : (itemsOf (tts% "unsafe impl<A: EnumLike> EnumLike for [A; 1] { x } unsafe impl<A: EnumLike> EnumLike for [A; 2] { y }")) =
    [tts% "unsafe impl<A: EnumLike> EnumLike for [A; 1] { x }", tts% "unsafe impl<A: EnumLike> EnumLike for [A; 2] { y }"] := by decide +kernel

end EnumVecModel
