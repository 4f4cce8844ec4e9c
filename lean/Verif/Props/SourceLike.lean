import Verif.Lemmas.SourceLike
import Verif.Lemmas.MacroDerive
import Verif.Props.EnumLike
import Verif.Examples

/-!
# C80: the text of the impls of `EnumLike`

`Source/LikeText.lean` holds the text of the `impl` items of `enum_like/src/lib.rs`, letter by letter; `Source/LikeSyntax.lean` is a parser, `Source/LikeEval.lean` an interpreter.
-/

namespace EnumVecModel
open Source Source.Like EnumLike

set_option linter.constructorNameAsVariable false

variable {α β γ : Type}

/-! ## Specification -/

/-- The texts. -/
def likeTexts : List (LImpl × String) :=
  [(i_unit, i_unit.text), (i_bool, i_bool.text), (i_option, i_option.text), (i_result, i_result.text), (i_tuple1, i_tuple1.text), (i_pair, i_pair.text), (i_array0, i_array0.text),
   (i_packed8, i_packed8.text), (i_packed16, i_packed16.text), (i_values, i_values.text), (i_iterator, i_iterator.text)]

/-- The impls of `EnumLike`. -/
def likeImpls : List LImpl := [i_unit, i_bool, i_option, i_result, i_tuple1, i_pair, i_array0]

/-- The values of the types for which there are impls. -/
inductive OfType : LTy → LV α β → Prop
  | unit : OfType .unit .unit
  | bool (b : Bool) : OfType (.name .bool) (.bool b)
  | none : OfType (.app1 .Option .T) (.ctor0 .None)
  | some (a : α) : OfType (.app1 .Option .T) (.ctor .Some (.T a))
  | ok (a : α) : OfType (.app2 .Result .T .S) (.ctor .Ok (.T a))
  | err (b : β) : OfType (.app2 .Result .T .S) (.ctor .Err (.S b))
  | tup1 (a : α) : OfType (.tup1 .T) (.tup1 (.T a))
  | tup (a : α) (b : β) : OfType (.tup .T .S) (.tup (.T a) (.S b))
  | array0 : OfType (.array .T 0) .nil

/-- The impl `m` is lawful, if it compiles: `Lawful` and `Onto` are the contract of `trait EnumLike` (`RustText.lean`). -/
def LawfulMach (build : Build) (m : Mach γ) : Prop :=
  ∀ n, m.num = .ok n → Macro.Lawful build n (fun _ => True) m.toDiscr m.fromDiscr ∧ Macro.Onto n (fun _ => True) m.toDiscr m.fromDiscr

/-- Run `to_discr`, run `from_discr`. -/
def LImpl.to (i : LImpl) (τ : Types α β) (v : LV α β) : R (LV α β) := val (i.run τ 1 .to_discr [v])
def LImpl.from (i : LImpl) (τ : Types α β) (x : Nat) : R (LV α β) := val (i.run τ 1 .from_discr [.num x])

/-- What the text of an impl must do for the values of its type, if its `NUM_VARIANTS` is `n`. -/
structure LawfulText (i : LImpl) (τ : Types α β) (n : Nat) : Prop where
  fits : n < τ.build.usizeLim
  to : ∀ v, OfType i.ty v → ∃ k, k < n ∧ LImpl.to i τ v = some (.ok (.num k)) ∧ LImpl.from i τ k = some (.ok v)
  «from» : ∀ x, x < τ.build.usizeLim → (∃ v, OfType i.ty v ∧ LImpl.from i τ x = some (.ok v)) ∨ LImpl.from i τ x = some (.error .badDiscr)
  onto : ∀ x, x < n → ∃ v, OfType i.ty v ∧ LImpl.from i τ x = some (.ok v) ∧ LImpl.to i τ v = some (.ok (.num x))

/-- `m` is the impl of a type that is made by nesting the texts, from base impls that are lawful: `enc` names the values. -/
inductive TextImpl (build : Build) : (γ : Type) → Mach γ → Prop
  | base {γ : Type} {m : Mach γ} : LawfulMach build m → TextImpl build γ m
  | text {α β γ : Type} {T : Mach α} {S : Mach β} {m : Mach γ} (i : LImpl) (enc : γ → LV α β) : i ∈ likeImpls → TextImpl build α T → TextImpl build β S →
      (∀ a b, enc a = enc b → a = b) → (∀ v, OfType i.ty v ↔ ∃ a, enc a = v) → Computes i ⟨T, S, build⟩ enc m → TextImpl build γ m

/-! ## Theorems -/

/-- **C80** Every impl that is run is what the parser makes of its text. -/
theorem C80_text : ∀ p ∈ likeTexts, limplText p.2.toList = some p.1 := by
  intro p hp
  simp only [likeTexts, List.mem_cons, List.not_mem_nil, or_false] at hp
  rcases hp with rfl | rfl | rfl | rfl | rfl | rfl | rfl | rfl | rfl | rfl | rfl
  · exact i_unit.parses
  · exact i_bool.parses
  · exact i_option.parses
  · exact i_result.parses
  · exact i_tuple1.parses
  · exact i_pair.parses
  · exact i_array0.parses
  · exact i_packed8.parses
  · exact i_packed16.parses
  · exact i_values.parses
  · exact i_iterator.parses

/-- **C80** The headers: all are impls of `EnumLike`, for these types. -/
theorem C80_headers : (likeImpls.map fun i => (i.tr, i.ty)) =
    [(.EnumLike, .unit), (.EnumLike, .name .bool), (.EnumLike, .app1 .Option .T), (.EnumLike, .app2 .Result .T .S), (.EnumLike, .tup1 .T), (.EnumLike, .tup .T .S),
     (.EnumLike, .array .T 0)] := by decide

/-- **C80** The texts compute what the impls of the model (`Machine.lean`) compute, for any impls of `T` and `S`, good or bad, in every build: the same numbers, the same values, the
same panics. -/
theorem C80_impls (τ : Types α β) :
    Computes i_unit τ (fun _ => .unit) Mach.unit ∧
    Computes i_bool τ .bool Mach.bool ∧
    Computes i_option τ (fun o => match o with | none => .ctor0 .None | some a => .ctor .Some (.T a)) (Mach.option τ.build τ.T) ∧
    Computes i_result τ (fun r => match r with | .ok a => .ctor .Ok (.T a) | .error b => .ctor .Err (.S b)) (Mach.result τ.build τ.T τ.S) ∧
    Computes i_tuple1 τ (fun a => .tup1 (.T a)) (Mach.tuple1 τ.T) ∧
    Computes i_pair τ (fun p => .tup (.T p.1) (.S p.2)) (Mach.pair τ.build τ.T τ.S) ∧
    Computes i_array0 τ (fun _ : Unit => .nil) Mach.unit := by
  have h1 : (fun o => match o with | none => .ctor0 .None | some a => .ctor .Some (.T a) : Option α → LV α β) = encOption := by
    funext o; cases o <;> rfl
  have h2 : (fun r => match r with | .ok a => .ctor .Ok (.T a) | .error b => .ctor .Err (.S b) : Except β α → LV α β) = encResult := by
    funext o; cases o <;> rfl
  rw [h1, h2]
  exact ⟨computes_unit τ, computes_bool τ, computes_option τ, computes_result τ, computes_tuple1 τ, computes_pair τ, computes_array0 τ⟩

/-- A lawful impl, in natural numbers. -/
theorem LawfulMach.pure {build : Build} {m : Mach γ} (h : LawfulMach build m) {n : Nat} (hn : m.num = .ok n) :
    ∃ E : EnumLike γ, MGood build E m ∧ E.Consecutive := by
  have hf : Macro.FieldImpls build (fun _ => ⟨γ, m⟩) (fun _ => n) := fun _ => ⟨hn, (h n hn).1⟩
  obtain ⟨h1, h2, h3⟩ := Macro.fieldImpl hf 0
  exact ⟨_, ⟨h2, fun _ _ => h3⟩, Macro.fieldOnto hf (fun _ => (h n hn).2) 0⟩

/-- And back. -/
theorem LawfulMach.of {build : Build} {m : Mach γ} {E : EnumLike γ} (h : MGood build E m) (hc : E.Consecutive) : LawfulMach build m := by
  intro n hn
  have r := h.2 n hn
  have e : E.num = n := by have := hn.symm.trans r.num; simpa using this.symm
  have hr : ∀ x, x < build.usizeLim → ∀ a, E.fromDiscr x = some a → m.fromDiscr x = .ok a := fun x hx a ha => by rw [r.from x hx, ha]
  have hfit := r.fits
  rw [e] at hfit
  refine ⟨⟨hfit, fun a _ => ⟨E.toDiscr a, r.to a, e ▸ h.1.lt a, hr _ ?_ a (h.1.roundtrip a)⟩, fun x hx => ?_⟩, fun x hx => ?_⟩
  · have := h.1.lt a; omega
  · rcases he : E.fromDiscr x with _ | a
    · exact Or.inr (by rw [r.from x hx, he])
    · exact Or.inl ⟨a, trivial, hr x hx a he⟩
  · obtain ⟨a, h1, h2⟩ := hc x (e ▸ hx)
    exact ⟨a, trivial, hr x (by omega) a h1, by rw [r.to, h2]⟩

/-- What the text computes is lawful. -/
theorem lawful_text {i : LImpl} {τ : Types α β} {enc : γ → LV α β} {m : Mach γ} (h : Computes i τ enc m) (he : ∀ v, OfType i.ty v ↔ ∃ a, enc a = v) (hl : LawfulMach τ.build m) {n : Nat}
    (hn : m.num = .ok n) : LawfulText i τ n := by
  obtain ⟨⟨h1, h2, h3⟩, h4⟩ := hl n hn
  refine ⟨h1, fun v hv => ?_, fun x hx => ?_, fun x hx => ?_⟩
  · obtain ⟨a, rfl⟩ := (he v).mp hv
    obtain ⟨k, k1, k2, k3⟩ := h2 a trivial
    exact ⟨k, k2, (h.to 0 a).trans (by rw [k1]; rfl), (h.from 0 k).trans (by rw [k3]; rfl)⟩
  · rcases h3 x hx with ⟨a, -, ha⟩ | ha
    · exact Or.inl ⟨enc a, (he _).mpr ⟨a, rfl⟩, (h.from 0 x).trans (by rw [ha]; rfl)⟩
    · exact Or.inr ((h.from 0 x).trans (by rw [ha]; rfl))
  · obtain ⟨a, -, h5, h6⟩ := h4 x hx
    exact ⟨enc a, (he _).mpr ⟨a, rfl⟩, (h.from 0 x).trans (by rw [h5]; rfl), (h.to 0 a).trans (by rw [h6]; rfl)⟩

theorem lawful_option {build : Build} {T : Mach α} (hT : LawfulMach build T) : LawfulMach build (Mach.option build T) := by
  intro n hn
  obtain ⟨a, ha, -⟩ := bind_eq_ok hn
  obtain ⟨E, h1, h2⟩ := hT.pure ha
  exact LawfulMach.of (good_option h1) (option_consec h2) n hn

theorem lawful_result {build : Build} {T : Mach α} {S : Mach β} (hT : LawfulMach build T) (hS : LawfulMach build S) : LawfulMach build (Mach.result build T S) := by
  intro n hn
  obtain ⟨a, ha, hb⟩ := bind_eq_ok hn
  obtain ⟨b, hb, -⟩ := bind_eq_ok hb
  obtain ⟨E, h1, h2⟩ := hT.pure ha
  obtain ⟨E', h1', h2'⟩ := hS.pure hb
  exact LawfulMach.of (good_result h1 h1') (result_consec h2 h2') n hn

theorem lawful_pair {build : Build} {T : Mach α} {S : Mach β} (hT : LawfulMach build T) (hS : LawfulMach build S) : LawfulMach build (Mach.pair build T S) := by
  intro n hn
  obtain ⟨a, ha, hb⟩ := bind_eq_ok hn
  obtain ⟨b, hb, -⟩ := bind_eq_ok hb
  obtain ⟨E, h1, h2⟩ := hT.pure ha
  obtain ⟨E', h1', h2'⟩ := hS.pure hb
  exact LawfulMach.of (good_pair h1 h1') (pair_consec h2 h2') n hn

/-- **C80** If the impls of the type parameters are lawful, so is what is computed by the text of the impl: when `NUM_VARIANTS` compiles to `n`, then in every build `to_discr` maps every value
of the type, without overflow, to a number below `n` from which `from_discr` recovers it; every number below `n` is the number of a value; and for any other number `from_discr` returns a value of
the type or panics. -/
theorem C80_lawful {τ : Types α β} (hT : LawfulMach τ.build τ.T) (hS : LawfulMach τ.build τ.S) {i : LImpl} (hi : i ∈ likeImpls) {n : Nat}
    (hn : LImpl.const i τ .NUM_VARIANTS = some (.ok (.num n))) : LawfulText i τ n := by
  have key : ∀ {γ : Type} {enc : γ → LV α β} {m : Mach γ}, Computes i τ enc m → (∀ v, OfType i.ty v ↔ ∃ a, enc a = v) → LawfulMach τ.build m → LawfulText i τ n := by
    intro γ enc m hc he hl
    refine lawful_text hc he hl ?_
    have := hc.num.symm.trans hn
    rcases hm : m.num with e | k
    · rw [hm] at this; cases this
    · rw [hm] at this; cases this; rfl
  simp only [likeImpls, List.mem_cons, List.not_mem_nil, or_false] at hi
  rcases hi with rfl | rfl | rfl | rfl | rfl | rfl | rfl
  · exact key (computes_unit τ) (fun v => ⟨fun h => by cases h; exact ⟨(), rfl⟩, fun ⟨_, h⟩ => h ▸ .unit⟩) (LawfulMach.of good_unit unit_consec)
  · exact key (computes_bool τ) (fun v => ⟨fun h => by cases h; exact ⟨_, rfl⟩, fun ⟨_, h⟩ => h ▸ .bool _⟩) (LawfulMach.of good_bool bool_consec)
  · refine key (computes_option τ) (fun v => ⟨fun h => ?_, fun ⟨o, h⟩ => ?_⟩) (lawful_option hT)
    · cases h
      · exact ⟨none, rfl⟩
      · exact ⟨some _, rfl⟩
    · subst h
      cases o
      · exact .none
      · exact .some _
  · refine key (computes_result τ) (fun v => ⟨fun h => ?_, fun ⟨o, h⟩ => ?_⟩) (lawful_result hT hS)
    · cases h
      · exact ⟨.ok _, rfl⟩
      · exact ⟨.error _, rfl⟩
    · subst h
      cases o
      · exact .err _
      · exact .ok _
  · exact key (computes_tuple1 τ) (fun v => ⟨fun h => by cases h; exact ⟨_, rfl⟩, fun ⟨_, h⟩ => h ▸ .tup1 _⟩) hT
  · exact key (computes_pair τ) (fun v => ⟨fun h => by cases h; exact ⟨(_, _), rfl⟩, fun ⟨_, h⟩ => h ▸ .tup _ _⟩) (lawful_pair hT hS)
  · exact key (computes_array0 τ) (fun v => ⟨fun h => by cases h; exact ⟨(), rfl⟩, fun ⟨_, h⟩ => h ▸ .array0⟩) (LawfulMach.of good_unit unit_consec)

/-- **C80** So every type that is made by nesting these texts is lawful, in every build. -/
theorem C80_nested {build : Build} {m : Mach γ} (h : TextImpl build γ m) : LawfulMach build m := by
  induction h with
  | base h => exact h
  | @text α β γ T S m i enc hi _ _ hinj he hc hT hS =>
    intro n hn
    have hl : LawfulText i ⟨T, S, build⟩ n := C80_lawful hT hS hi (by rw [hc.num, hn]; rfl)
    have hto : ∀ a k, LImpl.to i ⟨T, S, build⟩ (enc a) = some (.ok (.num k)) → m.toDiscr a = .ok k := by
      intro a k h
      have := (hc.to 0 a).symm.trans h
      rcases hm : m.toDiscr a with e | j
      · rw [hm] at this; cases this
      · rw [hm] at this; cases this; rfl
    have hfrom : ∀ x a, LImpl.from i ⟨T, S, build⟩ x = some (.ok (enc a)) → m.fromDiscr x = .ok a := by
      intro x a h
      have := (hc.from 0 x).symm.trans h
      rcases hm : m.fromDiscr x with e | b
      · rw [hm] at this; cases this
      · rw [hm] at this
        exact congrArg _ (hinj _ _ (by simpa [Except.map] using this))
    refine ⟨⟨hl.fits, fun a _ => ?_, fun x hx => ?_⟩, fun x hx => ?_⟩
    · obtain ⟨k, h1, h2, h3⟩ := hl.to (enc a) ((he _).mpr ⟨a, rfl⟩)
      exact ⟨k, hto a k h2, h1, hfrom k a h3⟩
    · rcases hl.from x hx with ⟨v, hv, h1⟩ | h1
      · obtain ⟨a, rfl⟩ := (he v).mp hv
        exact Or.inl ⟨a, trivial, hfrom x a h1⟩
      · right
        have := (hc.from 0 x).symm.trans h1
        rcases hm : m.fromDiscr x with e | b
        · rw [hm] at this; simpa [Except.map] using this
        · rw [hm] at this; cases this
    · obtain ⟨v, hv, h1, h2⟩ := hl.onto x hx
      obtain ⟨a, rfl⟩ := (he v).mp hv
      exact ⟨a, trivial, hfrom x a h1, hto a x h2⟩

/-- **C80** The text of `Values<T>` and its iterator methods computes what the model of `T::values()` computes, in every build, for every state of the iterator (reachable or not), if the impl of
`T` does what `E` says. -/
theorem C80_values {E : EnumLike α} {τ : Types α β} (h : Refines τ.build τ.T E) :
    val (i_values.run τ 1 .of []) = some (.ok (encValues (Values.of E))) ∧
    ∀ v : Values, v.max < τ.build.usizeLim →
      i_iterator.run τ 1 .next [encValues v] = encStep (Values.next E v) ∧
      val (i_iterator.run τ 1 .size_hint [encValues v]) =
        some ((Values.sizeHint τ.build v).map fun p => .tup (.num p.1) (match p.2 with | none => .ctor0 .None | some n => .ctor .Some (.num n))) ∧
      val (i_iterator.run τ 1 .count [encValues v]) = some ((Values.count τ.build v).map .num) ∧
      val (i_iterator.run τ 2 .last [encValues v]) = some ((Values.last E v).map encOption) ∧
      ∀ n, i_iterator.run τ 2 .nth [encValues v, .num n] = encStep (Values.nth E τ.build n v) :=
  ⟨values_of τ h.num 0, fun v hv => ⟨values_next τ h 0 v hv, values_size_hint τ 0 v hv, values_count τ 0 v hv, values_last τ h 0 v hv, values_nth τ h 0 v hv⟩⟩

/-- **C80** The texts of `PackedU8` and `PackedU16`: `new` fails to compile, panics or packs, and `get` unpacks, as in the model. -/
theorem C80_packed {E : EnumLike α} {τ : Types α β} (h : Refines τ.build τ.T E) :
    (∀ a, val (i_packed8.run τ 1 .new [.T a]) = some ((Packed.new τ.build E 8 a).map encPacked)) ∧
    (∀ a, val (i_packed16.run τ 1 .new [.T a]) = some ((Packed.new τ.build E 16 a).map encPacked)) ∧
    (∀ p : Packed 8, val (i_packed8.run τ 1 .get [encPacked p]) = some ((match Packed.get E p with | some a => .ok a | none => .error .badDiscr : Except Fault α).map .T)) ∧
    ∀ p : Packed 16, val (i_packed16.run τ 1 .get [encPacked p]) = some ((match Packed.get E p with | some a => .ok a | none => .error .badDiscr : Except Fault α).map .T) :=
  ⟨packed8_new τ h 0, packed16_new τ h 0, packed8_get τ h 0, packed16_get τ h 0⟩

/-- **C80** `for x in T::values()` by the text: if the impl of `T` is lawful, with `n` values, the calls of `next` return the values with numbers 0, …, n - 1 in this order, then `None` for ever. -/
theorem C80_values_all {τ : Types α β} (hT : LawfulMach τ.build τ.T) {n : Nat} (hn : τ.T.num = .ok n) :
    ∃ s : Nat → LV α β, val (i_values.run τ 1 .of []) = some (.ok (s 0)) ∧
      (∀ k, k < n → ∃ a, τ.T.toDiscr a = .ok k ∧ i_iterator.run τ 1 .next [s k] = some (.ok (.ctor .Some (.T a), s (k + 1)))) ∧
      i_iterator.run τ 1 .next [s n] = some (.ok (.ctor0 .None, s n)) := by
  obtain ⟨E, hE, hc⟩ := hT.pure hn
  have r := hE.2 n hn
  have e : E.num = n := by have := hn.symm.trans r.num; simpa using this.symm
  have hlt := r.fits
  refine ⟨fun k => encValues ⟨k, n⟩, ?_, fun k hk => ?_, ?_⟩
  · rw [values_of τ r.num 0, Values.of, e]
  · obtain ⟨a, h1, h2⟩ := hc k (e ▸ hk)
    refine ⟨a, by rw [r.to, h2], ?_⟩
    rw [values_next τ r 0 ⟨k, n⟩ (e ▸ hlt)]
    simp only [Values.next, if_pos hk, h1]; rfl
  · rw [values_next τ r 0 ⟨n, n⟩ (e ▸ hlt)]
    simp only [Values.next, if_neg (Nat.lt_irrefl n)]; rfl

/-! ## Non-trivial cases -/

/-- The kernel runs the texts: `(bool, Option<bool>)`, whose second component is itself given by the text of `Option`. -/
example :
    LImpl.const i_pair ⟨Mach.bool, Mach.option debug64 Mach.bool, debug64⟩ .NUM_VARIANTS = some (.ok (.num 6)) ∧
    LImpl.to i_pair ⟨Mach.bool, Mach.option debug64 Mach.bool, debug64⟩ (.tup (.T true) (.S none)) = some (.ok (.num 5)) ∧
    LImpl.from i_pair ⟨Mach.bool, Mach.option debug64 Mach.bool, debug64⟩ 2 = some (.ok (.tup (.T false) (.S (some true)))) :=
  ⟨rfl, rfl, rfl⟩

/-- `Result<Option<bool>, [bool; 0]>`: four values. -/
theorem exTextImpl (build : Build) : TextImpl build (Except Unit (Option Bool)) (Mach.result build (Mach.option build Mach.bool) Mach.unit) := by
  have hb : TextImpl build Bool Mach.bool := .base (LawfulMach.of good_bool bool_consec)
  have ho : TextImpl build (Option Bool) (Mach.option build Mach.bool) :=
    .text (T := Mach.bool) (S := Mach.bool) i_option encOption (by simp [likeImpls]) hb hb
      (fun a b h => by cases a <;> cases b <;> simp_all [encOption])
      (fun v => ⟨fun h => by cases h <;> first | exact ⟨none, rfl⟩ | exact ⟨some _, rfl⟩, fun ⟨o, h⟩ => by subst h; cases o <;> first | exact .none | exact .some _⟩) (computes_option _)
  have ha : TextImpl build Unit Mach.unit :=
    .text (T := Mach.bool) (S := Mach.bool) i_array0 (fun _ => .nil) (by simp [likeImpls]) hb hb (fun _ _ _ => rfl)
      (fun v => ⟨fun h => by cases h; exact ⟨(), rfl⟩, fun ⟨_, h⟩ => h ▸ .array0⟩) (computes_array0 _)
  refine .text i_result encResult (by simp [likeImpls]) ho ha (fun a b h => ?_) (fun v => ⟨fun h => ?_, fun ⟨o, h⟩ => ?_⟩) (computes_result _)
  · cases a <;> cases b <;> simp_all [encResult]
  · cases h <;> first | exact ⟨.ok _, rfl⟩ | exact ⟨.error _, rfl⟩
  · subst h; cases o <;> first | exact .err _ | exact .ok _

example : (Mach.result debug64 (Mach.option debug64 Mach.bool) Mach.unit).num = .ok 4 := rfl

/-- A product that does not fit in a `usize` is a compile error, by the text. -/
example : LImpl.const i_pair (⟨⟨.ok (2 ^ 32), fun _ => .ok 0, fun _ => .ok ()⟩, ⟨.ok (2 ^ 32), fun _ => .ok 0, fun _ => .ok ()⟩, release64⟩ : Types Unit Unit) .NUM_VARIANTS =
    some (.error .overflow) := rfl

/-- `nth` with an argument near `usize::MAX` overflows: it panics in a debug build, and wraps in a release build, where it goes back to an earlier value. -/
example :
    i_iterator.run (⟨Mach.bool, Mach.bool, debug64⟩ : Types Bool Bool) 2 .nth [encValues ⟨1, 2⟩, .num (2 ^ 64 - 1)] = some (.error .overflow) ∧
    i_iterator.run (⟨Mach.bool, Mach.bool, release64⟩ : Types Bool Bool) 2 .nth [encValues ⟨1, 2⟩, .num (2 ^ 64 - 1)] = some (.ok (.ctor .Some (.T false), encValues ⟨1, 2⟩)) :=
  ⟨rfl, rfl⟩

/-- Operators of one precedence associate to the left, `*` binds tighter than `-`, `as` tighter still. -/
example : (lex 100 "n - x * max as u8 - 1 ".toList).bind (fun ts => (lparse 100 (.expr 0) ts).map (·.1)) =
    some (.bin .sub (.bin .sub (.var .n) (.bin .mul (.var .x) (.cast (.var .max) .u8))) (.num 1)) := by decide +kernel

end EnumVecModel
