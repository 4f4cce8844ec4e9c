import Verif.Lemmas.Machine
import Verif.Props.EnumLike
import Verif.Examples

/-! # C50: machine arithmetic in the `EnumLike` impls -/

namespace EnumVecModel
namespace EnumLike

variable {α : Type} {E : EnumLike α} {m : Mach α} {build : Build} {empty : Bool} {B : (α : Type) → EnumLike α → Mach α → Prop}

/-- **C50**. Take any type made from the impls of the crate (and base impls that obey the contract and do not overflow). If it compiles, that is, if the
constant expression `NUM_VARIANTS` evaluates without overflow, then in every build no sum, product or difference in `to_discr` and `from_discr`
overflows: `NUM_VARIANTS` and `to_discr` have the value computed in natural numbers, and for every `usize` `x`, `from_discr(x)` returns or panics
as computed in natural numbers; and the contract of `EnumLike` holds. -/
theorem C50_machine (hB : ∀ α E m, B α E m → E.Contract ∧ Refines build m E) (h : MBuilt build empty B α E m) {n : Nat} (hn : m.num = .ok n) :
    (n = E.num ∧ n < build.usizeLim ∧ ∀ a, m.toDiscr a = .ok (E.toDiscr a) ∧ E.toDiscr a < n ∧ m.fromDiscr (E.toDiscr a) = .ok a) ∧
    ∀ x, x < build.usizeLim → (∀ a, E.fromDiscr x = some a → m.fromDiscr x = .ok a) ∧ (E.fromDiscr x = none → m.fromDiscr x = .error .badDiscr) := by
  obtain ⟨hc, hr⟩ := mbuilt_good (fun α E m h => ⟨(hB α E m h).1, fun _ _ => (hB α E m h).2⟩) h
  have r := hr n hn
  have hnum : n = E.num := by have := hn.symm.trans r.num; simpa using this
  refine ⟨⟨hnum, hnum ▸ r.fits, fun a => ⟨r.to a, hnum ▸ hc.lt a, ?_⟩⟩, fun x hx => ⟨fun a ha => ?_, fun ha => ?_⟩⟩
  · rw [r.from _ (Nat.lt_trans (hc.lt a) r.fits), hc.roundtrip a]
  · rw [r.from x hx, ha]
  · rw [r.from x hx, ha]

/-- **C50** (what compiles). If no enum in it is empty, a type made from the impls of the crate compiles exactly when its number of values, computed in
natural numbers, is below 2^64: no intermediate result of the constant expression overflows before the whole does. -/
theorem C50_compiles (hB : ∀ α E m, B α E m → 0 < E.num ∧ (E.num < build.usizeLim → m.num = .ok E.num) ∧ E.Contract ∧ ∀ n, m.num = .ok n → Refines build m E)
    (h : MBuilt build false B α E m) : (∃ n, m.num = .ok n) ↔ E.num < build.usizeLim := by
  constructor
  · rintro ⟨n, hn⟩
    exact ((mbuilt_good (fun α E m h => (hB α E m h).2.2) h).2 n hn).fits
  · intro hlt
    exact ⟨_, (mbuilt_fits (fun α E m h => ⟨(hB α E m h).1, (hB α E m h).2.1⟩) h).2 hlt⟩

/-- No base impls. -/
def MNoBase : (α : Type) → EnumLike α → Mach α → Prop := fun _ _ _ => False

/-! ## Non-trivial cases -/

/-- `enum { A(bool, Option<bool>), B, C(bool), D }` -/
abbrev exMEnum (build : Build) : List Mach.MVariant :=
  [⟨[⟨_, bool, Mach.bool⟩, ⟨_, option bool, Mach.option build Mach.bool⟩], none⟩, ⟨[], none⟩, ⟨[⟨_, bool, Mach.bool⟩], none⟩, ⟨[], none⟩]

theorem exMEnum_built (build : Build) : MBuilt build false MNoBase _ (Derive.enum (Mach.pureVars (exMEnum build))) (Mach.enum build (exMEnum build)) :=
  .enum (Or.inr (by simp)) fun v hv A hA => by
    simp only [exMEnum, List.mem_cons, List.not_mem_nil, or_false] at hv
    rcases hv with rfl | rfl | rfl | rfl <;> simp only [List.mem_cons, List.not_mem_nil, or_false] at hA
    · rcases hA with rfl | rfl
      · exact .bool
      · exact .option .bool
    · rcases hA with rfl
      exact .bool

example : (Mach.enum debug64 (exMEnum debug64)).num = .ok 10 := by rfl

/-- `[bool; 63]` compiles, `[bool; 64]` does not. -/
example : (∃ n, (Mach.array debug64 bool Mach.bool 63).num = .ok n) ∧ ¬∃ n, (Mach.array debug64 bool Mach.bool 64).num = .ok n := by
  have h : ∀ n, MBuilt debug64 false MNoBase _ (array bool n) (Mach.array debug64 bool Mach.bool n) := fun n => .array n .bool
  rw [C50_compiles (fun _ _ _ h => h.elim) (h 63), C50_compiles (fun _ _ _ h => h.elim) (h 64)]
  exact ⟨by decide +kernel, by decide +kernel⟩

/-- Necessity of the hypothesis: in `([bool; 40], [bool; 40])`, which does not compile, `to_discr` would overflow. -/
example : (Mach.pair debug64 (Mach.array debug64 bool Mach.bool 40) (Mach.array debug64 bool Mach.bool 40)).num = .error .overflow ∧
    (Mach.pair debug64 (Mach.array debug64 bool Mach.bool 40) (Mach.array debug64 bool Mach.bool 40)).toDiscr (fun _ => true, fun _ => true) =
      .error .overflow := by
  exact ⟨rfl, by decide +kernel⟩

/-- Why `C50_compiles` excludes empty enums: `struct S([bool; 40], [bool; 40], Void)` has no value at all, but does not compile. -/
abbrev exVoid : Mach.MComps :=
  [⟨_, array bool 40, Mach.array debug64 bool Mach.bool 40⟩, ⟨_, array bool 40, Mach.array debug64 bool Mach.bool 40⟩, ⟨_, Derive.enum [], Mach.enum debug64 []⟩]

example : (Derive.struct (Mach.pure exVoid)).num = 0 ∧ (Mach.struct debug64 exVoid).num = .error .overflow :=
  ⟨by decide +kernel, by decide +kernel⟩

end EnumLike
end EnumVecModel
