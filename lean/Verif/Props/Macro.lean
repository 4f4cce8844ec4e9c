import Verif.Lemmas.MacroDerive
import Verif.Lemmas.MacroIdent
import Verif.Examples

/-!
# C52: the text printed by `#[derive(EnumLike)]`

`derive d` is the list of tokens the macro prints for the declaration `d` (`Macro.lean`); `Parses ts i` says that the tokens are the body of an impl with syntax tree `i` by the
grammar of Rust, and `i.evalConst`, `i.evalTo`, `i.evalFrom` are its meaning (`RustText.lean`). `I` gives the types of the fields with their impls.
-/

namespace EnumVecModel
namespace Macro

open EnumLike

variable {build : Build} {I : Interp} {num : Nat → Nat} {d : Input} {ts : Toks}

/-- **C52**. If the impls of the field types keep the contract of `EnumLike`, so does the impl printed by the macro: the printed text has exactly one reading as Rust text, and
if its constant `NUM_VARIANTS` compiles, then it is the number of values of the type, and in a debug as in a release build `to_discr` maps every value of the declared type, without overflow, to a number below it
from which `from_discr` recovers the value, and `from_discr` returns only values of the declared type, or panics with `unreachable!()`. -/
theorem C52_derive (h : FieldImpls build I num) (hd : d.Valid build) (hts : derive d = some ts) :
    ∃ i, Parses ts i ∧ (∀ j, Parses ts j → j = i) ∧
      ∀ n, i.evalConst I build = .ok n → n = d.size num ∧ Lawful build n (Input.Has (I := I) d) (i.evalTo build d) (i.evalFrom build d) := by
  obtain ⟨α, E, m, enc, hm⟩ := derive_model h hd.1 hts
  obtain ⟨i, hp, hc, hto, hfrom⟩ := hm.means.out
  refine ⟨i, ⟨derive_ok hd.2 hts, hp⟩, fun j hj => hj.unique ⟨derive_ok hd.2 hts, hp⟩, fun n hn => ?_⟩
  rw [hc] at hn
  obtain ⟨⟨h1, h2, h3⟩, h4⟩ := C50_machine (fun α E m h => h) (hm.built true (GoodBase build) (fun t => (fieldImpl h t).2) (Or.inl rfl)) hn
  refine ⟨h1.trans hm.size, h2, fun o ho => ?_, fun x hx => ?_⟩
  · obtain ⟨a, rfl⟩ := (hm.has o).mp ho
    obtain ⟨k1, k2, k3⟩ := h3 a
    exact ⟨E.toDiscr a, by rw [hto, k1], k2, by rw [hfrom, k3]; rfl⟩
  · obtain ⟨k1, k2⟩ := h4 x hx
    rcases he : E.fromDiscr x with _ | a
    · exact Or.inr (by rw [hfrom, k2 he]; rfl)
    · exact Or.inl ⟨enc a, (hm.has _).mpr ⟨a, rfl⟩, by rw [hfrom, k1 a he]; rfl⟩

/-- **C52** (numbering). The number of a value is what `Input.number` says: fields are digits, first field least significant; data-less variants come first. -/
theorem C52_number (h : FieldImpls build I num) (hd : d.Valid build) (hts : derive d = some ts)
    {code : FieldVal I → Nat} (hcode : ∀ v : FieldVal I, (I v.1).2.toDiscr v.2 = .ok (code v)) :
    ∃ i, Parses ts i ∧ ∀ n, i.evalConst I build = .ok n → ∀ o, d.Has o → i.evalTo build d o = .ok (d.number num code o) := by
  obtain ⟨α, E, m, enc, hm⟩ := derive_model h hd.1 hts
  obtain ⟨i, hp, hc, hto, hfrom⟩ := hm.means.out
  refine ⟨i, ⟨derive_ok hd.2 hts, hp⟩, fun n hn o ho => ?_⟩
  rw [hc] at hn
  obtain ⟨⟨h1, h2, h3⟩, h4⟩ := C50_machine (fun α E m h => h) (hm.built true (GoodBase build) (fun t => (fieldImpl h t).2) (Or.inl rfl)) hn
  obtain ⟨a, rfl⟩ := (hm.has o).mp ho
  rw [hto, (h3 a).1, hm.number code hcode]

/-- **C52** (no gaps). If the field impls use all numbers below their `NUM_VARIANTS`, so does the printed impl; for an enum all other numbers panic. -/
theorem C52_onto (h : FieldImpls build I num) (ho : ∀ t, Onto (num t) (fun _ => True) (I t).2.toDiscr (I t).2.fromDiscr) (hd : d.Valid build) (hts : derive d = some ts) :
    ∃ i, Parses ts i ∧ ∀ n, i.evalConst I build = .ok n → Onto n (Input.Has (I := I) d) (i.evalTo build d) (i.evalFrom build d) ∧
      ∀ name vs, d = .enum name vs → ∀ x, n ≤ x → x < build.usizeLim → i.evalFrom (I := I) build d x = .error .badDiscr := by
  obtain ⟨α, E, m, enc, hm⟩ := derive_model h hd.1 hts
  obtain ⟨i, hp, hc, hto, hfrom⟩ := hm.means.out
  refine ⟨i, ⟨derive_ok hd.2 hts, hp⟩, fun n hn => ?_⟩
  rw [hc] at hn
  obtain ⟨⟨h1, h2, h3⟩, h4⟩ := C50_machine (fun α E m h => h) (hm.built true (GoodBase build) (fun t => (fieldImpl h t).2) (Or.inl rfl)) hn
  refine ⟨fun x hx => ?_, fun name vs he x hx hx' => ?_⟩
  · obtain ⟨a, ha, hb⟩ := hm.onto (fieldOnto h ho) x (h1 ▸ hx)
    refine ⟨enc a, (hm.has _).mpr ⟨a, rfl⟩, ?_, ?_⟩
    · rw [hfrom, (h4 x (Nat.lt_trans hx h2)).1 a ha]; rfl
    · rw [hto, (h3 a).1, hb]
  · rw [hfrom, (h4 x hx').2 (hm.invalid name vs he x (h1 ▸ hx))]; rfl

/-- **C52** (what compiles). Unless a field type or the enum itself is empty, the printed constant compiles exactly if the type has fewer than 2^64 (32-bit targets: 2^32) values. -/
theorem C52_compiles (h : FieldImpls build I num) (hpos : ∀ t, 0 < num t) (hd : d.Valid build) (hts : derive d = some ts) (hne : ∀ name, d ≠ .enum name []) :
    ∃ i, Parses ts i ∧ ((∃ n, i.evalConst I build = .ok n) ↔ d.size num < build.usizeLim) := by
  obtain ⟨α, E, m, enc, hm⟩ := derive_model h hd.1 hts
  obtain ⟨i, hp, hc, -, -⟩ := hm.means.out
  refine ⟨i, ⟨derive_ok hd.2 hts, hp⟩, ?_⟩
  rw [hc, ← hm.size]
  refine C50_compiles (B := fun α E m => 0 < E.num ∧ E.Contract ∧ Refines build m E) (fun α E m h => ⟨h.1, fun _ => h.2.2.num, h.2.1, fun _ _ => h.2.2⟩)
    (hm.built false _ (fun t => ⟨by rw [(fieldImpl h t).1]; exact hpos t, (fieldImpl h t).2⟩) (Or.inr ?_))
  cases d with
  | enum name vs => exact fun he => hne name (by rw [he])
  | struct => trivial
  | union => trivial

/-- **C52** (what is accepted). The macro panics for unions, and for enums with a variant that has `()` or `{}` without fields inside, and for nothing else. -/
theorem C52_accepts (d : Input) : derive d = none ↔
    match d with
    | .struct _ _ => False
    | .enum _ vs => ∃ v ∈ vs, v.fields = .named [] ∨ v.fields = .unnamed []
    | .union _ => True := by
  cases d with
  | struct => exact ⟨fun h => (by cases h), fun h => h.elim⟩
  | union => exact ⟨fun _ => trivial, fun _ => rfl⟩
  | enum name vs =>
    have h := enum_accepts name vs
    have hfe : ∀ v : Variant, (v.fields.decl = [] → v.fields = .unit) ↔ ¬(v.fields = .named [] ∨ v.fields = .unnamed []) := by
      intro v
      rcases v with ⟨_, fields, _⟩
      cases fields with
      | unit => simp
      | named fs => cases fs <;> simp [Fields.decl]
      | unnamed ts => cases ts <;> simp [Fields.decl]
    show derive (.enum name vs) = none ↔ ∃ v ∈ vs, v.fields = .named [] ∨ v.fields = .unnamed []
    constructor
    · intro hn
      by_cases he : ∃ v ∈ vs, v.fields = .named [] ∨ v.fields = .unnamed []
      · exact he
      · have : NoEmpty vs := fun v hv => (hfe v).mpr fun hh => he ⟨v, hv, hh⟩
        obtain ⟨ts, hts⟩ := h.mpr this
        rw [hn] at hts; cases hts
    · rintro ⟨v, hv, hh⟩
      rcases hts : derive (.enum name vs) with _ | ts
      · rfl
      · exact absurd hh ((hfe v).mp (h.mp ⟨ts, hts⟩ v hv))

/-! ## Non-trivial cases -/

/-- Type 0 is `bool`, all others are `Option<bool>`. -/
def exI : Interp
  | 0 => ⟨Bool, Mach.bool⟩
  | _ => ⟨Option Bool, Mach.option debug64 Mach.bool⟩

def exNum : Nat → Nat
  | 0 => 2
  | _ => 3

theorem exI_ok : FieldImpls build exI exNum := by
  intro t
  cases t with
  | zero => exact ⟨rfl, build.lt_usizeLim (by decide), fun a _ => by cases a <;> exact ⟨_, rfl, by decide, rfl⟩, fun x _ => Or.inl ⟨_, trivial, rfl⟩⟩
  | succ t =>
    refine ⟨rfl, build.lt_usizeLim (by decide : 3 < _), fun a _ => ?_, fun x _ => Or.inl ?_⟩
    · rcases a with _ | _ | _
      · exact ⟨2, rfl, (by decide : 2 < 3), rfl⟩
      · exact ⟨0, rfl, (by decide : 0 < 3), rfl⟩
      · exact ⟨1, rfl, (by decide : 1 < 3), rfl⟩
    · by_cases hx : x = 2
      · exact ⟨none, trivial, by subst hx; rfl⟩
      · exact ⟨some (x != 0), trivial, if_neg hx⟩

theorem exI_onto (t : Nat) : Onto (exNum t) (fun _ => True) (exI t).2.toDiscr (exI t).2.fromDiscr := by
  intro x hx
  cases t with
  | zero =>
    have : x = 0 ∨ x = 1 := by have : x < 2 := hx; omega
    rcases this with rfl | rfl <;> exact ⟨_, trivial, rfl, rfl⟩
  | succ t =>
    have : x = 0 ∨ x = 1 ∨ x = 2 := by have : x < 3 := hx; omega
    rcases this with rfl | rfl | rfl
    · exact ⟨some false, trivial, rfl, rfl⟩
    · exact ⟨some true, trivial, rfl, rfl⟩
    · exact ⟨none, trivial, rfl, rfl⟩

/-- `enum E { A(bool, Option<bool>), B, C { x: Option<bool>, xx: bool }, D }`: the variable bound to the field `x` is `xx`, the name of the other field. -/
def exEnum : Input := .enum ['E'] [⟨['A'], .unnamed [0, 1], none⟩, ⟨['B'], .unit, none⟩, ⟨['C'], .named [(['x'], 1), (['x', 'x'], 0)], none⟩, ⟨['D'], .unit, some 5⟩]

theorem exEnum_valid (build : Build) : exEnum.Valid build :=
  ⟨⟨by decide, build.lt_usizeLim (by decide), fun v hv => by
    simp only [List.mem_cons, List.not_mem_nil, or_false] at hv
    rcases hv with rfl | rfl | rfl | rfl
    · exact build.lt_usizeLim (by decide : 2 < _)
    · trivial
    · show ([['x'], ['x', 'x']] : List (List Char)).Nodup; decide
    · trivial⟩, by decide⟩

/-- The macro accepts it; the text it prints has a meaning for the values `E::A(true, None)`, `E::B`, `E::C { x: Some(true), xx: true }`, `E::D` in a debug build. -/
example : ∃ ts i, derive exEnum = some ts ∧ parseImpl 60 ts = some i ∧ i.evalConst exI debug64 = .ok 14 ∧
    i.evalTo (I := exI) debug64 exEnum ⟨['A'], [(.int 0, ⟨0, true⟩), (.int 1, ⟨1, none⟩)]⟩ = .ok 7 ∧
    i.evalTo (I := exI) debug64 exEnum ⟨['B'], []⟩ = .ok 0 ∧
    i.evalTo (I := exI) debug64 exEnum ⟨['C'], [(.id ['x'], ⟨1, some true⟩), (.id ['x', 'x'], ⟨0, true⟩)]⟩ = .ok 12 ∧
    i.evalTo (I := exI) debug64 exEnum ⟨['D'], []⟩ = .ok 1 := by
  refine ⟨_, _, rfl, rfl, ?_, ?_, ?_, ?_, ?_⟩ <;> decide +kernel

def exCode : FieldVal exI → Nat
  | ⟨0, b⟩ => Bool.toNat b
  | ⟨_ + 1, o⟩ => Option.elim (α := Bool) o 2 Bool.toNat

theorem exCode_ok (v : FieldVal exI) : (exI v.1).2.toDiscr v.2 = .ok (exCode v) := by
  rcases v with ⟨_ | t, a⟩
  · cases a <;> rfl
  · rcases a with _ | _ | _ <;> rfl

/-- The number in the specification. -/
example : exEnum.number exNum exCode ⟨['C'], [(.id ['x'], ⟨1, some true⟩), (.id ['x', 'x'], ⟨0, true⟩)]⟩ = 12 := by decide +kernel

/-- `struct S { a: bool, b: Option<bool>, c: bool }` -/
def exStruct : Input := .struct ['S'] (.named [(['a'], 0), (['b'], 1), (['c'], 0)])

example : exStruct.Valid release64 ∧ ∃ ts, derive exStruct = some ts ∧ ∃ i, parseImpl 60 ts = some i ∧ i.evalConst exI release64 = .ok 12 ∧
    i.evalTo (I := exI) release64 exStruct ⟨['S'], [(.id ['a'], ⟨0, true⟩), (.id ['b'], ⟨1, some true⟩), (.id ['c'], ⟨0, true⟩)]⟩ = .ok 9 := by
  refine ⟨⟨by show ([['a'], ['b'], ['c']] : List (List Char)).Nodup; decide, by decide⟩, _, rfl, _, rfl, ?_, ?_⟩ <;> decide +kernel

/-- The hypotheses of the theorems hold for both. -/
example (build : Build) : ∃ ts i, derive exEnum = some ts ∧ Parses ts i ∧ ∃ n, i.evalConst exI build = .ok n ∧
    Onto n (Input.Has (I := exI) exEnum) (i.evalTo build exEnum) (i.evalFrom build exEnum) := by
  obtain ⟨ts, hts⟩ : ∃ ts, derive exEnum = some ts := ⟨_, rfl⟩
  obtain ⟨i, hi, h⟩ := C52_onto exI_ok exI_onto (exEnum_valid build) hts
  obtain ⟨j, hj, hn⟩ := C52_compiles exI_ok (fun t => by cases t <;> simp [exNum]) (exEnum_valid build) hts (fun name => by simp [exEnum])
  obtain rfl := hi.unique hj
  obtain ⟨n, hn⟩ := hn.mpr (build.lt_usizeLim (by decide +kernel))
  exact ⟨ts, i, hts, hi, n, hn, (h n hn).1⟩

/-- `enum E { A {} , B }` is not accepted. -/
example : derive (.enum ['E'] [⟨['A'], .named [], none⟩, ⟨['B'], .unit, none⟩]) = none := rfl

end Macro
end EnumVecModel
