import Verif.Lemmas.SourceSet

/-!
# C81: the text of `enum_set`

`Source/SetText.lean` holds the text of all `impl` items of `enum_set/src/lib.rs`, letter by letter; `Source/LikeSyntax.lean` is the parser, `Source/SetEval.lean` the interpreter.
`textExec` and `textAll` (`Lemmas/SourceSet.lean`) run the text for a call and a history of calls; they have no value where the text has no meaning.
-/

namespace EnumVecModel
open Source Source.Like Source.SetText ESet
open Hostile (Impl Iter)

set_option linter.constructorNameAsVariable false

variable {σ ω α : Type} {B : BitSet σ} {h : Impl ω α}

/-- The texts. -/
def setTexts : List (SImpl × String) :=
  [(s_set, s_set.text), (s_default, s_default.text), (s_from_iter, s_from_iter.text), (s_extend, s_extend.text), (s_debug, s_debug.text), (s_wrap, s_wrap.text),
   (s_iterator, s_iterator.text), (s_into_iter, s_into_iter.text)]

/-- **C81** Every impl that is run is what the parser makes of its text, … -/
theorem C81_text : ∀ p ∈ setTexts, simplText p.2.toList = some p.1 := by
  intro p hp
  simp only [setTexts, List.mem_cons, List.not_mem_nil, or_false] at hp
  rcases hp with rfl | rfl | rfl | rfl | rfl | rfl | rfl | rfl
  · exact s_set.parses
  · exact s_default.parses
  · exact s_from_iter.parses
  · exact s_extend.parses
  · exact s_debug.parses
  · exact s_wrap.parses
  · exact s_iterator.parses
  · exact s_into_iter.parses

/-- **C81** … and these are their functions. -/
theorem C81_functions :
    (implsOf .set).flatMap (fun i => i.fns.map (·.name)) =
      [.into_bit_set, .get_ref, .from_bit_set, .new, .shrink_to_fit, .iter, .union, .intersection, .difference, .symmetric_difference, .union_with, .intersect_with, .difference_with,
       .symmetric_difference_with, .len, .is_empty, .clear, .contains, .is_disjoint, .is_subset, .is_superset, .insert, .remove, .default, .from_iter, .extend, .fmt, .into_iter] ∧
    (implsOf .wrap).flatMap (fun i => i.fns.map (·.name)) = [.new, .next, .size_hint] := by decide

/-- **C81** The text of every function does what the model of `EnumSet` does, for any implementation of `bit_set::BitSet`, lawful or not, any implementation of `EnumLike`, any iterator and any
formatter, which may panic, have side effects and answer differently each time: the same results, the same panics, the same effects. -/
theorem C81_calls (m : Store σ ω) (c : Call σ ω α) : textExec B h m c = some (exec B h m c) := textExec_eq m c

/-- **C81** So does every history, … -/
theorem C81_histories (cs : List (Call σ ω α)) (m : Store σ ω) : textAll B h cs m = some (execAll B h cs m) := textAll_eq B h cs m

/-- **C81** … which is that on sets of numbers (`EnumSetCodeSpec.lean`), if `BitSet` is lawful. -/
theorem C81_numbers (hB : B.Lawful) : ∃ feed : List Nat → List Nat, ∀ {ω α : Type} (h : Impl ω α) (w : ω) (cs : List (Call σ ω α)),
    ∃ rs m, textAll B h cs (Store.start B w) = some (rs, m) ∧
      rs = (numCalls B.iter feed h cs (Nums.start w)).1 ∧
      m.world = (numCalls B.iter feed h cs (Nums.start w)).2.world ∧
      (∀ r, B.iter (m.set r).inner = (numCalls B.iter feed h cs (Nums.start w)).2.set r) ∧
      ∀ i, (m.iter i).inner = (numCalls B.iter feed h cs (Nums.start w)).2.iter i := by
  obtain ⟨feed, hf⟩ := C68_numbers hB
  refine ⟨feed, fun h w cs => ?_⟩
  obtain ⟨h1, h2, h3, h4⟩ := hf h w cs
  exact ⟨_, _, textAll_eq B h cs _, h1, h2, h3, h4⟩

/-- **C81** The functions that have two names: `default()` is `new()`, `(&s).into_iter()` is `s.iter()`, `into_bit_set()` returns what `get_ref()` refers to. -/
theorem C81_aliases (m : Store σ ω) (r i : Nat) :
    assignSet B h m r .default [] = assignSet B h m r .new [] ∧
    assignIter B h m i .into_iter [obj (m.set r)] = assignIter B h m i .iter [obj (m.set r)] ∧
    onSet B h m r .into_bit_set [] = onSet B h m r .get_ref [] := ⟨rfl, rfl, rfl⟩

/-! ## Non-trivial cases -/

/-- The kernel runs the text, with a hostile implementation of `EnumLike` (`Props/EnumSetCode.lean`). -/
example : (textAll maskSet odd oddCalls (Store.start maskSet 0)).map (·.1) =
    some [.bool true, .bool true, .bool false, .bool true, .panic .user, .num 2, .unit, .item (some 501), .panic .badDiscr, .item none,
     .panic .user, .unit, .bits [3, 4, 5, 6, 7], .unit, .unit, .bits [1, 3, 6, 7], .unit, .item (some 2901), .item (some 3004), .item (some 3105),
     .ord .gt, .bool true, .panic .badDiscr] := by decide +kernel

example : ∃ feed : List Nat → List Nat, ∀ {ω α : Type} (h : Impl ω α) (w : ω) (cs : List (Call Nat ω α)),
    (textAll maskSet h cs (Store.start maskSet w)).map (·.1) = some (numCalls maskSet.iter feed h cs (Nums.start w)).1 := by
  obtain ⟨feed, hf⟩ := C81_numbers maskSet_lawful
  refine ⟨feed, fun h w cs => ?_⟩
  obtain ⟨rs, m, h1, h2, _⟩ := hf h w cs
  rw [h1, ← h2]; rfl

end EnumVecModel
