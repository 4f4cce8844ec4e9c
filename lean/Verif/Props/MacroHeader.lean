import Verif.Lemmas.MacroHeader
import Verif.Props.Macro

/-!
# C59: `#[derive(EnumLike)]` on generic types

`deriveItem d` is the complete text printed by the macro (`MacroHeader.lean`). `ParsesItem ts h i` says that it is an impl with header `h` and body `i`, and `h.Applies args` that it
is an impl for the type `Name<args>` (`RustHeader.lean`).
-/

namespace EnumVecModel
namespace Macro

open EnumLike

variable {d : Item} {ts : Toks} {W : Universe}

/-- **C59**. The printed text has exactly one reading as a Rust impl; it is an impl of the declared type, its header is well-formed, and it implements `EnumLike` for exactly those instances
`Name<args>` of the type whose type arguments all implement `EnumLike`. -/
theorem C59_applies {build : Build} (hd : d.data.Valid build) (hg : d.generics.Valid) (hts : deriveItem d = some ts) :
    ∃ h i, ParsesItem ts h i ∧ (∀ h' i', ParsesItem ts h' i' → h' = h ∧ i' = i) ∧ h.self_ = d.data.name ∧ h.WellFormed ∧
      ∀ (W : Universe) (args : List W.Arg), h.Applies args ↔ d.generics.Instance args ∧ ∀ t, .ty t ∈ args → W.enumLike t := by
  rcases hb : derive d.data with _ | body
  · simp [deriveItem, hb] at hts
  · have hts : implEnumLike d.data.name d.generics body = ts := by simpa [deriveItem, hb] using hts
    subst hts
    obtain ⟨i, hi, -⟩ := C52_derive exI_ok hd hb
    have hn : isIdent d.data.name = true := hd.2 _ (by rcases d with ⟨_, _ | _ | _⟩ <;> simp [Input.name, Input.names])
    have hp : ParsesItem (implEnumLike d.data.name d.generics body) d.header i :=
      ⟨implEnumLike_ok hn hg (derive_ok hd.2 hb), body, parseHeader_impl hg body, hi⟩
    exact ⟨d.header, i, hp, fun h' i' hp' => hp'.unique hp, rfl, header_wf hg, fun W args => header_applies d args⟩

/-- **C59** (every instance). Let `I args` be the field types, with their impls, of the instance `Name<args>`. For every instance whose field types keep the contract, the printed impl
keeps it: the same text works for all arguments. -/
theorem C59_instances {build : Build} {I : List W.Arg → Interp} {num : List W.Arg → Nat → Nat} (hd : d.data.Valid build) (hg : d.generics.Valid)
    (hts : deriveItem d = some ts) {h : Header} {i : Impl} (hp : ParsesItem ts h i) (args : List W.Arg) (hI : FieldImpls build (I args) (num args)) (n : Nat)
    (hn : i.evalConst (I args) build = .ok n) :
    n = d.data.size (num args) ∧ Lawful build n (Input.Has (I := I args) d.data) (i.evalTo build d.data) (i.evalFrom build d.data) := by
  rcases hb : derive d.data with _ | body
  · simp [deriveItem, hb] at hts
  · have hts : implEnumLike d.data.name d.generics body = ts := by simpa [deriveItem, hb] using hts
    subst hts
    obtain ⟨j, hj, -, hl⟩ := C52_derive hI hd hb
    obtain ⟨-, body', h1, h2⟩ := hp
    rw [parseHeader_impl hg body] at h1
    obtain rfl := List.append_cancel_right (Prod.mk.inj (Option.some.inj h1)).2
    obtain rfl := hj.unique h2
    exact hl n hn

/-! ## Non-trivial cases -/

/-- `enum E<'a, T: B0 +, U = bool, const N: …,> where P0 { … }` -/
def exItem : Item :=
  ⟨⟨⟨[.life ['a'] ⟨[], false⟩, .type ['T'] ⟨[.other 0], true⟩ none, .type ['U'] ⟨[], false⟩ (some 0), .const ['N'] 2], true⟩, ⟨[0], false⟩⟩, exEnum⟩

theorem exItem_valid : exItem.generics.Valid := ⟨by decide, by decide, by decide⟩

/-- `unsafe impl<'a, T: B0 + EnumLike, U: EnumLike, const N: …,> EnumLike for E<'a, T, U, N,> where P0 {` -/
example : ∃ ts body, deriveItem exItem = some ts ∧ ts =
    [.unsafe_, .impl_, .lt, .life ['a'], .comma, .id ['T'], .colon, .bound 0, .plus, .enumLike, .comma, .id ['U'], .colon, .enumLike, .comma, .const_, .id ['N'], .colon, .ty 2,
      .comma, .gt, .enumLike, .for_, .id ['E'], .lt, .life ['a'], .comma, .id ['T'], .comma, .id ['U'], .comma, .id ['N'], .comma, .gt, .where_, .pred 0, .lbrace] ++ body ++ [.rbrace] :=
  ⟨_, _, rfl, rfl⟩

/-- One lifetime; the types are the numbers, even ones implement `EnumLike`, and `B0` holds for those below 10; all constants have all types; `P0` is `T ≠ U`. -/
def exW : Universe where
  Life := Unit
  Ty := Nat
  Val := Nat
  enumLike t := t % 2 = 0
  lifeBound _ _ _ := True
  tyBound _ _ t := t < 10
  hasType _ _ := True
  pred σ _ := σ.name ['T'] ≠ σ.name ['U']

/-- `E<'a, 4, 16, 7>` has the impl, `E<'a, 5, 16, 7>` is a type but does not have it, `E<'a, 14, 16, 7>` and `E<'a, 4, 4, 7>` are not types. -/
theorem exItem_cases : ∃ ts h i, deriveItem exItem = some ts ∧ ParsesItem ts h i ∧
    h.Applies (W := exW) [.life (), .ty (4 : Nat), .ty (16 : Nat), .val (7 : Nat)] ∧
    (exItem.generics.Instance (W := exW) [.life (), .ty (5 : Nat), .ty (16 : Nat), .val (7 : Nat)] ∧ ¬h.Applies (W := exW) [.life (), .ty (5 : Nat), .ty (16 : Nat), .val (7 : Nat)]) ∧
    ¬exItem.generics.Instance (W := exW) [.life (), .ty (14 : Nat), .ty (16 : Nat), .val (7 : Nat)] ∧
    ¬exItem.generics.Instance (W := exW) [.life (), .ty (4 : Nat), .ty (4 : Nat), .val (7 : Nat)] := by
  obtain ⟨ts, hts⟩ : ∃ ts, deriveItem exItem = some ts := ⟨_, rfl⟩
  obtain ⟨h, i, hp, -, -, -, ha⟩ := C59_applies (build := debug64) (exEnum_valid _) exItem_valid hts
  have inst : ∀ a b : Nat, exItem.generics.Instance (W := exW) [.life (), .ty a, .ty b, .val (7 : Nat)] ↔ a < 10 ∧ a ≠ b := by
    intro a b
    constructor
    · rintro ⟨σ, h1, h2, h3⟩
      obtain ⟨t, ht, hb⟩ := h2 (.type ['T'] ⟨[.other 0], true⟩ none) (by simp [exItem])
      obtain ⟨u, hu, -⟩ := h2 (.type ['U'] ⟨[], false⟩ (some 0)) (by simp [exItem])
      have h1' : t = a ∧ u = b := by
        have := h1
        simp only [exItem, List.map_cons, List.map_nil, GParam.arg, HArg.value, ht, hu, List.cons.injEq] at this
        exact ⟨GArg.ty.inj this.2.1, GArg.ty.inj this.2.2.1⟩
      obtain ⟨rfl, rfl⟩ := h1'
      refine ⟨hb (.other 0) (by simp), fun e => h3 0 (by simp [exItem]) ?_⟩
      rw [ht, hu, e]
    · rintro ⟨h1, h2⟩
      refine ⟨⟨fun _ => (), fun x => if x = ['T'] then .inl a else if x = ['U'] then .inl b else .inr (7 : Nat)⟩, rfl, fun p hp => ?_, fun p hp => ?_⟩
      · simp only [exItem, List.mem_cons, List.not_mem_nil, or_false] at hp
        rcases hp with rfl | rfl | rfl | rfl
        · intro b hb; cases hb
        · exact ⟨a, rfl, fun b hb => by obtain rfl := List.mem_singleton.mp hb; exact h1⟩
        · exact ⟨b, rfl, fun b hb => by cases hb⟩
        · exact ⟨(7 : Nat), rfl, trivial⟩
      · intro e
        exact h2 (Sum.inl.inj e)
  refine ⟨ts, h, i, hts, hp, (ha _ _).mpr ⟨(inst 4 16).mpr (by decide), fun t ht => ?_⟩, ⟨(inst 5 16).mpr (by decide), fun hh => ?_⟩, fun hh => ?_, fun hh => ?_⟩
  · simp only [List.mem_cons, List.not_mem_nil, or_false, reduceCtorEq, false_or] at ht
    rcases ht with ht | ht <;> (obtain rfl := GArg.ty.inj ht; rfl)
  · exact absurd (((ha _ _).mp hh).2 (5 : Nat) (by simp)) (show ¬(5 : Nat) % 2 = 0 by decide)
  · exact absurd ((inst 14 16).mp hh).1 (by decide)
  · exact ((inst 4 4).mp hh).2 rfl

end Macro
end EnumVecModel
