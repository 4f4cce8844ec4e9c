import Verif.Iter
import Verif.StorageApi
import Verif.Values
import Verif.Derive
import Verif.Examples
import Verif.Props.EnumSet

/-!
# The unit tests of the repository, run on the model

Not proofs of properties: evidence that the model computes what the code computes. Every `#[test]` of `/repo` is transcribed and
evaluated by the kernel; the tests of the vectors, which are the same text in all six modules, are evaluated for all six
block types. A test is a computation that ends with a fault if an `assert!` fails (`assert`).
-/

namespace EnumVecModel
namespace RepoTests
open EV EnumLike

/-- `assert!(b)`. -/
def assert {σ : Type} (b : Bool) : M σ Unit := if b then pure () else M.fail .index

/-- `for i in lo..hi { f(i) }`. -/
def forRange {σ : Type} (lo hi : Nat) (f : Nat → M σ Unit) : M σ Unit := (List.range' lo (hi - lo)).forM f

/-- `o.unwrap()`. -/
def unwrap {σ β : Type} : Option β → M σ β
  | some x => pure x
  | none => M.fail .index

/-- The test returned. -/
def passes {σ β : Type} (m : M σ β) (s : σ) : Bool :=
  match (m s).1 with
  | .ok _ => true
  | .error _ => false

/-- The six modules: block width, and whether the storage is a `SmallVec`. -/
def modules : List (Nat × Bool) := [(8, false), (16, false), (32, false), (64, false), (128, false), (32, true)]

/-- `EnumVec<T>` of a module, in the debug build that `cargo test` makes. -/
def inst {α : Type} (E : EnumLike α) (m : Nat × Bool) : Inst α :=
  ⟨m.1, E, debug64, m.2, stdAlloc (if m.2 then 4 else 0) m.1 true⟩

/-- A test that starts with `let mut v = EnumVec::new()` passes in all six modules. -/
def test {α β : Type} (E : EnumLike α) (t : (c : Inst α) → M (EV c.W) β) : Bool :=
  modules.all fun m => passes (t (inst E m)) (EV.new (inst E m))

/-! ## The test types -/

/-- `enum ABC` (vec_u32/mod.rs:1142-1147). -/
inductive ABC | A | B | C
  deriving DecidableEq

/-- `unsafe impl EnumLike for ABC` (lines 1149-1169). -/
def abc : EnumLike ABC where
  num := 3
  toDiscr | .A => 0 | .B => 1 | .C => 2
  fromDiscr | 0 => some .A | 1 => some .B | 2 => some .C | _ => none

/-- `struct Digit { x: u8 }` and its impl (lines 1292-1307): `from_discr` never fails. -/
def digit : EnumLike (BitVec 8) where
  num := 10
  toDiscr x := x.toNat
  fromDiscr x := some (BitVec.ofNat 8 x)

/-- `struct TwoDigits` (tens, ones) and its impl (lines 1349-1365). -/
def twoDigits : EnumLike (BitVec 8 × BitVec 8) where
  num := digit.num * digit.num
  toDiscr d := digit.toDiscr d.1 * digit.num + digit.toDiscr d.2
  fromDiscr x := do
    let tens ← digit.fromDiscr (x / digit.num)
    let ones ← digit.fromDiscr (x % digit.num)
    return (tens, ones)

/-- `struct ThreeDigits` (hundreds, tens, ones) and its impl (enum_like/src/lib.rs:739-769). -/
def threeDigits : EnumLike (BitVec 8 × BitVec 8 × BitVec 8) where
  num := digit.num * digit.num * digit.num
  toDiscr d := digit.toDiscr d.1 * digit.num * digit.num + digit.toDiscr d.2.1 * digit.num + digit.toDiscr d.2.2
  fromDiscr x := do
    let hundreds ← digit.fromDiscr (x / (digit.num * digit.num))
    let tens ← digit.fromDiscr (x / digit.num % digit.num)
    let ones ← digit.fromDiscr (x % digit.num)
    return (hundreds, tens, ones)

/-! ## enum_vec/src/*/mod.rs -/

/-- `abc_push_pop` (lines 1171-1185). -/
example : test abc (fun c => do
    push c .A; push c .B; push c .C; push c .A
    assert ((← unwrap (← pop c)) = .A)
    assert ((← unwrap (← pop c)) = .C)
    assert ((← unwrap (← pop c)) = .B)
    assert ((← unwrap (← pop c)) = .A)
    assert (← pop c).isNone) = true := by decide +kernel

/-- `option_abc` (lines 1187-1203). -/
example : test (.option abc) (fun c => do
    push c none; push c (some .A); push c (some .B); push c (some .C); push c (some .A)
    assert ((← unwrap (← unwrap (← pop c))) = .A)
    assert ((← unwrap (← unwrap (← pop c))) = .C)
    assert ((← unwrap (← unwrap (← pop c))) = .B)
    assert ((← unwrap (← unwrap (← pop c))) = .A)
    assert ((← unwrap (← pop c)) = none)
    assert ((← pop c) = none)) = true := by decide +kernel

/-- `get_set` (lines 1205-1224). -/
example : test abc (fun c => do
    forRange 0 10 fun _ => push c .A
    EV.set c 3 .C
    EV.set c 5 .B
    forRange 0 10 fun i => do
      let expected := if i = 3 then ABC.C else if i = 5 then .B else .A
      assert ((← unwrap (← EV.get c i)) = expected)) = true := by decide +kernel

/-- The block of assertions that occurs twice in `insert_remove` (lines 1244-1255, 1279-1290). -/
def checkInserted (c : Inst ABC) : M (EV c.W) Unit := do
  forRange 0 5 fun i => do assert ((← unwrap (← EV.get c i)) = .C)
  forRange 5 10 fun i => do assert ((← unwrap (← EV.get c i)) = .B)
  forRange 10 15 fun i => do assert ((← unwrap (← EV.get c i)) = .A)
  forRange 15 20 fun i => do assert ((← unwrap (← EV.get c i)) = .B)

/-- `insert_remove` (lines 1226-1290). -/
example : test abc (fun c => do
    forRange 0 10 fun _ => push c .B
    forRange 0 5 fun _ => EV.insert c 0 .C
    forRange 0 5 fun _ => EV.insert c 10 .A
    checkInserted c
    forRange 0 5 fun _ => do let _ ← EV.remove c 0
    forRange 0 5 fun _ => EV.insert c 0 .C
    forRange 0 5 fun _ => do let _ ← EV.remove c 15
    forRange 0 5 fun _ => EV.insert c 15 .B
    checkInserted c) = true := by decide +kernel

/-- `digit_test` (lines 1309-1333). -/
example : test digit (fun c => do
    for x in [3, 4, 5, 6, 3, 4, 5, 6, 3] do push c x
    for x in [3, 6, 5, 4, 3, 6, 5, 4, 3] do assert ((← unwrap (← pop c)) = x)
    assert (← pop c).isNone) = true := by decide +kernel

/-- `digit_uses_4_bits` (lines 1335-1346): the number pushed is too large, its low four bits are stored. -/
example : test digit (fun c => do
    push c 0x3B
    assert ((← unwrap (← pop c)) = 0x0B)) = true := by decide +kernel

/-- `two_digit_test` (lines 1367-1392). -/
example : test twoDigits (fun c => do
    let v := (List.range 10).map fun i => (BitVec.ofNat 8 i, BitVec.ofNat 8 (9 - i))
    for d in v do push c d
    forRange 0 10 fun i => do assert (v[i]? = some (← unwrap (← EV.get c i)))
    forRange 0 10 fun i => do
      let d ← unwrap (← EV.get c i)
      let d := ((d.1 + 3) % 10, (d.2 * 2 + 1) % 10)
      EV.set c i d
      assert ((← unwrap (← EV.get c i)) = d)) = true := by decide +kernel

/-- `from_vec` (lines 1394-1402). -/
example : test abc (fun c => do
    let a := [ABC.C, .A, .A, .B, .C]
    EV.extend c ⟨a.length, a, false⟩
    forRange 0 a.length fun i => do assert (a[i]? = some (← unwrap (← EV.get c i)))) = true := by decide +kernel

/-- `zero_sized` (lines 1404-1411, commented out: "It doesn't even compile"). -/
example : modules.all (fun m => (bitsConst debug64 m.1 (EnumLike.unit).num).isOk) = false := by decide +kernel

/-- `macro_enum_vec` (lines 1412-1423). -/
example : modules.all (fun m =>
    let c := inst abc m
    let a := [ABC.C, .A, .A, .B, .C]
    let b := fromSlice c a
    let d := fromElem c .C 10
    (b.bind (toVec c) = .ok a) && (d.bind (toVec c) = .ok (List.replicate 10 .C))) = true := by decide +kernel

/-- `clone_push_segfault` (lines 1425-1434). -/
example : modules.all (fun m =>
    let c := inst .bool m
    match fromVec c [false] with
    | .ok a =>
      match EV.clone c a with
      | .ok b => passes (push c true) b
      | .error _ => false
    | .error _ => false) = true := by decide +kernel

/-- `reserve_modifies_storage` (lines 1436-1454). -/
example : test .bool (fun c => do
    reserve c 1
    assert (len c (← M.read) = 0)
    assert (0 < (storageRef c (← M.read)).len)
    push c true
    assert (len c (← M.read) = 1)) = true := by decide +kernel

example : test .bool (fun c => do
    reserve c 1
    setRawUnchecked c 0 0
    setLen c 1
    assert (len c (← M.read) = 1)
    assert ((← unwrap (← pop c)) = false)) = true := by decide +kernel

/-- `storage_resize` (lines 1456-1466). -/
example : test .bool (fun c => do
    storageMut c (do
      assert ((← M.read).len = 0)
      RVec.resizeTo c.alloc 1 0#c.W
      assert ((← M.read).len = 1))
    push c false) = true := by decide +kernel

/-- `any_magic_constants` (lines 1468-1499), for every width of elements: an enum with `2^bits` variants has this width. The test computes
the masks in two ways and tries `haszero` on some blocks. The model has the masks the code uses. -/
def anyMagic (m : Nat × Bool) (bits : Nat) : Bool :=
  let c : Inst (Fin 2) := ⟨m.1, ⟨2 ^ bits, fun _ => 0, fun _ => none⟩, debug64, m.2, stdAlloc 0 m.1 true⟩
  let one : BitVec c.W := (List.range c.epb).foldl (fun r i => r ||| (1#c.W <<< (i * c.bits))) 0
  let high : BitVec c.W := (List.range c.epb).foldl (fun r i => r ||| (1#c.W <<< ((i + 1) * c.bits - 1))) 0
  c.bits == bits && one == oneMask c && high == highMask c &&
  hasZero c one == false && hasZero c high == false && hasZero c 0 == true && hasZero c (one - 1) == true &&
  hasZero c (high <<< 1) == true && hasZero c ((high <<< 1) - one) == false

/-- (Widths above 32 do not occur in a vector, `BITS_PER_ELEM` stops there.) -/
example : modules.all (fun m => (List.range' 1 (min m.1 32)).all fun bits => anyMagic m bits) = true := by decide +kernel

/-- `false_positive_any_all` (lines 1501-1518), 40 elements instead of 1000. -/
example : test (.option .bool) (fun c => do
    forRange 0 40 fun _ => do
      push c none
      assert (!(← EV.any c (some true)))
      assert (!(← EV.all c (some true)))
      assert (!(← EV.any c (some false)))
      assert (!(← EV.all c (some false)))
      assert (← EV.any c none)
      assert (← EV.all c none)) = true := by decide +kernel

example : modules.all (fun m =>
    let c := inst (.option .bool) m
    match fromVec c (List.replicate 100 none) with
    | .ok v => ((EV.any c (some false) v).1 = .ok false) && ((EV.any c (some true) v).1 = .ok false)
    | .error _ => false) = true := by decide +kernel

/-! ## enum_like/src/lib.rs -/

/-- `check_values_of` (enum_like/src/lib.rs:652-680, example/src/main.rs:63-90). -/
def checkValuesOf {α : Type} [DecidableEq α] (E : EnumLike α) (x : Nat) : Bool :=
  let rec go : Nat → Values → Option (List α)
    | 0, _ => none
    | fuel + 1, v =>
      match Values.next E v with
      | (.ok none, _) => some []
      | (.ok (some a), v) => (go fuel v).map (a :: ·)
      | (.error _, _) => none
  match go (E.num + 1) (Values.of E) with
  | none => false
  | some seen =>
    seen.all (fun a =>
      let idx := E.toDiscr a
      E.fromDiscr idx = some a && (E.fromDiscr idx).map E.toDiscr = some idx) &&
    seen.length == E.num && decide seen.Nodup && x == E.num

/-- `values_of` (lines 771-785). -/
example : (do
    assert ((← Values.next abc) = some .A)
    assert ((← Values.next abc) = some .B)
    assert ((← Values.next abc) = some .C)
    assert ((← Values.next abc) = none) : M Values Unit) (Values.of abc) = (.ok (), ⟨3, 3⟩) ∧
    Values.count debug64 (Values.of digit) = .ok 10 ∧ Values.count debug64 (Values.of twoDigits) = .ok 100 := by decide +kernel

/-- `check_builtin_impls` (lines 787-804). -/
example : (checkValuesOf .unit 1 && checkValuesOf .bool 2 && checkValuesOf (.option .unit) 2 && checkValuesOf (.option .bool) 3 &&
    checkValuesOf (.pair .unit .unit) 1 && checkValuesOf (.tuple1 .unit) 1 && checkValuesOf (.tuple1 .bool) 2 &&
    checkValuesOf (.pair .bool .bool) (2 * 2)) = true := by decide +kernel

example : (checkValuesOf (.result .unit .unit) 2 && checkValuesOf (.result .bool .unit) 3 && checkValuesOf (.result .unit .bool) 3 &&
    checkValuesOf (.result .bool .bool) 4) = true := by decide +kernel

/-- `check_test_impls` (lines 884-889). -/
example : (checkValuesOf abc 3 && checkValuesOf digit 10 && checkValuesOf twoDigits 100) = true := by decide +kernel

/-- `nested_option_bool` (lines 891-905). -/
example : checkValuesOf (.option (.option (.option .bool))) 5 = true ∧
    (List.range 5).map (EnumLike.option (.option (.option .bool))).fromDiscr =
      [some (some (some (some false))), some (some (some (some true))), some (some (some none)), some (some none), some none] := by
  decide +kernel

/-- `result_option_unit` (lines 907-915). -/
abbrev abomination : EnumLike (Except (Except (Option Bool) Unit) (Except Bool (Option Unit))) := EnumLike.result (.result (.option .unit) .bool) (.result .unit (.option .bool))

example : checkValuesOf abomination 8 = true ∧
    (Values.nth abomination debug64 1 (Values.of abomination)).1 = .ok (some (.ok (.ok none))) ∧
    Values.last abomination (Values.of abomination) = .ok (some (.error (.error none))) :=
  ⟨by decide +kernel, by decide +kernel, by decide +kernel⟩

/-- `packed_u8_u16` (lines 917-926); `b` is an `Option<ThreeDigits>`. -/
example : (Packed.new debug64 .bool 8 false).map (Packed.get .bool) = .ok (some false) ∧
    (do
      let b ← (Values.nth threeDigits debug64 123 (Values.of threeDigits)).1
      return decide (((Packed.new debug64 (.option threeDigits) 16 b).map (Packed.get (.option threeDigits))) = .ok (some b)) :
        Except Fault Bool) = .ok true := by decide +kernel

/-- `packed_u8_too_small` (lines 928-938, commented out, a test that must not compile). -/
example : (Packed.checkLimit debug64 (.option threeDigits) 8).isOk = false := by decide +kernel

/-- `as_bool_vec` (lines 811-823). -/
def asBoolVec (x n : Nat) : List Bool := (List.range n).map x.testBit

/-- `check_array_impls` (lines 806-864): all values of `[bool; n]` for small `n` … -/
example : (List.range 8).all (fun n =>
    (List.range (2 ^ n)).all (fun i => ((array .bool n).fromDiscr i).map List.ofFn = some (asBoolVec i n)) &&
    (array .bool n).num == 2 ^ n) = true := by decide +kernel

/-- … and some of the first and last ones for some larger `n` up to 32 (`C35`, `C37` are for all). -/
example : [8, 13, 16, 22, 23, 32].all (fun n =>
    (List.range 5 ++ List.range' (2 ^ n - 10) 10).all (fun i => ((array .bool n).fromDiscr i).map List.ofFn = some (asBoolVec i n)) &&
    (array .bool n).num == 2 ^ n) = true := by decide +kernel

/-- `check_tuple_array_equivalency` (lines 866-882). The components of a tuple are listed in reverse (`Tuple`). -/
example : (List.range (2 ^ 4)).all (fun i =>
    let va := (tuple [⟨Bool, .bool⟩, ⟨Bool, .bool⟩, ⟨Bool, .bool⟩, ⟨Bool, .bool⟩]).fromDiscr i
    let vb := (array (array .bool 2) 2).fromDiscr i
    match va, vb with
    | some (((a0, a1), a2), a3), some b => a0 = b 0 0 && a1 = b 0 1 && a2 = b 1 0 && a3 = b 1 1
    | _, _ => false) = true := by decide +kernel

/-! ## example/src/main.rs -/

section
open Derive

/-- A variant without fields, one with the fields `cs`. -/
abbrev uv : Derive.Variant := ⟨[], none⟩
abbrev dv (cs : Comps) : Derive.Variant := ⟨cs, none⟩

abbrev B : (α : Type) × EnumLike α := ⟨Bool, .bool⟩

/-- `unit_types` (lines 92-206): some of the types. -/
abbrev tyA : (α : Type) × EnumLike α := ⟨_, struct []⟩
abbrev tyD : (α : Type) × EnumLike α := ⟨_, Derive.enum [uv]⟩
abbrev tyE : (α : Type) × EnumLike α := ⟨_, Derive.enum [dv [tyD]]⟩
abbrev tyF : (α : Type) × EnumLike α := ⟨_, Derive.enum [dv [tyD, tyE]]⟩
abbrev tyG : (α : Type) × EnumLike α := ⟨_, Derive.enum [dv [tyD, tyE, tyF]]⟩
abbrev tyI : (α : Type) × EnumLike α := ⟨_, Derive.enum [dv [tyA, tyA, tyA, tyD, tyE, tyF, tyG, tyE]]⟩
abbrev tyJ8 : (α : Type) × EnumLike α := ⟨_, struct [tyA, tyA, tyA, tyD, tyE, tyF, tyG, tyE]⟩

/-- All values, as `for i in T::values()` sees them; `none` if it panics. -/
def allValues {α : Type} (E : EnumLike α) : Option (List α) := (List.range E.num).mapM E.fromDiscr

/-- `check_values_of` for types without decidable equality in the model: the discriminants of the values are `0..n`. -/
def checkDiscrs {α : Type} (E : EnumLike α) (x : Nat) : Bool := (allValues E).map (·.map E.toDiscr) == some (List.range x)

example : [tyA, tyD, tyE, tyF, tyG, tyI, tyJ8].all (fun T => checkDiscrs T.2 1) = true := by decide +kernel

/-- `never_types` (lines 208-267). -/
abbrev tyEmpty : (α : Type) × EnumLike α := ⟨_, Derive.enum []⟩
abbrev emptyVariants : List Derive.Variant := [dv [tyEmpty], dv [tyEmpty, tyEmpty], dv [tyEmpty], dv [tyEmpty, tyEmpty]]
abbrev tyTwoVar : (α : Type) × EnumLike α := ⟨_, Derive.enum ([dv [tyEmpty], uv] ++ emptyVariants.tail ++ [uv])⟩

example : (checkDiscrs tyEmpty.2 0 && checkDiscrs (tuple [tyEmpty, tyEmpty]) 0 && checkDiscrs (tuple [tyEmpty, tyEmpty, tyEmpty]) 0 &&
    checkDiscrs (Derive.enum emptyVariants) 0 && checkDiscrs (Derive.enum (emptyVariants ++ [uv])) 1 && checkDiscrs tyTwoVar.2 2 &&
    checkDiscrs (Derive.enum ([dv [tyEmpty], dv [B]] ++ emptyVariants.tail ++ [dv [tyTwoVar]])) (2 + 2)) = true := by decide +kernel

/-- `derive_clike_enum` (lines 270-301): explicit discriminants do not matter. -/
example : (checkDiscrs (Derive.enum [uv]) 1 && checkDiscrs (Derive.enum [⟨[], some 100⟩, uv]) 2 &&
    checkDiscrs (Derive.enum [⟨[], some 4⟩, ⟨[], some 2⟩, ⟨[], some 1⟩]) 3 && checkDiscrs (Derive.enum [uv, uv, uv, uv]) 4) = true := by
  decide +kernel

/-- `derive_rust_enum` (lines 303-315). -/
example : checkDiscrs (Derive.enum [uv, uv, uv, dv [B, B, B], dv [B, B]]) (3 + 2 * 2 * 2 + 2 * 2) = true := by decide +kernel

/-- `from_discr_invalid_value` (lines 317-327, `should_panic`). -/
example : ((Derive.enum [⟨[], some 4⟩, ⟨[], some 2⟩, ⟨[], some 1⟩]).fromDiscr 4).isNone = true := by decide +kernel

/-- `invalid_impl` (lines 329-355, `should_panic`): `BadOption`, where `Non` and `Som(false)` have the number 0. -/
def badOption {α : Type} (T : EnumLike α) : EnumLike (Option α) where
  num := 1 + T.num
  toDiscr | none => 0 | some x => 0 + T.toDiscr x
  fromDiscr | 0 => some none | x => (T.fromDiscr x).map some

example : checkValuesOf (badOption .bool) 3 = false := by decide +kernel

/-- `generics` (lines 357-370). -/
example : (checkDiscrs (Derive.enum [uv, dv [B]]) 3 &&
    checkDiscrs (struct [B, ⟨_, .unit⟩, ⟨_, .option .unit⟩]) (2 * 1 * 2)) = true := by decide +kernel

/-! ## enum_set/src/lib.rs, example/src/enum_set.rs -/

open ESet in
/-- `create` (enum_set/src/lib.rs:292-302). -/
example :
    let e := ESet.new maskSet
    let e1 := ESet.insert maskSet abc e .A
    let e2 := ESet.insert maskSet abc e1.2 .A
    let e3 := ESet.remove maskSet abc e2.2 .A
    let e4 := ESet.remove maskSet abc e3.2 .A
    ESet.contains maskSet abc e .A = false ∧ e1.1 = true ∧ e2.1 = false ∧ ESet.contains maskSet abc e2.2 .A = true ∧
      e3.1 = true ∧ e4.1 = false ∧ ESet.contains maskSet abc e4.2 .A = false := by decide +kernel

/-- `struct Card { number: Rank, suit: Suit }` (example/src/enum_set.rs:4-33). -/
abbrev card := struct [⟨_, finLike 13⟩, ⟨_, finLike 4⟩]

/-- Sets of numbers below 52 as bit masks. -/
def cardSet : ESet.BitSet Nat := { ESet.maskSet with len := fun s => ((List.range 52).filter s.testBit).length }

/-- The loop that deals one card to each player until the deck is empty (lines 50-60, 93-103): the four hands. -/
def deal (seed : Nat) : Nat → List (Fields [⟨_, finLike 13⟩, ⟨_, finLike 4⟩]) → List (ESet.EnumSet Nat) → List (ESet.EnumSet Nat)
  | 0, _, hands => hands
  | fuel + 1, deck, hands =>
    match deck[seed % deck.length]?, hands with
    | some c, h :: hs => deal seed fuel (deck.eraseIdx (seed % deck.length)) (hs ++ [(ESet.insert cardSet card h c).2])
    | _, _ => hands

/-- `card_deck_game` (lines 35-122). -/
example :
    let deck := (allValues card).getD []
    let empty := ESet.new cardSet
    let eall := ESet.extend cardSet card empty deck
    let e := deal 18917 52 deck [empty, empty, empty, empty]
    let a := deal (18917 + 4) 52 deck [empty, empty, empty, empty]
    ESet.len cardSet eall = 4 * 13 ∧ e.map (ESet.len cardSet) = [13, 13, 13, 13] ∧
      ESet.eq cardSet (e.foldl (ESet.unionWith cardSet) empty) eall = true ∧
      e.map (ESet.contains cardSet card · (0, 0, ())) = [false, false, false, true] ∧
      (List.zipWith (ESet.symmetricDifferenceWith cardSet) e a).map (ESet.len cardSet) = [22, 18, 14, 20] := by decide +kernel

/-- `bit_test` (example/src/bit.rs): `vec![Bit::X; 10].into_iter().collect::<EnumVec<Bit>>()`. -/
example : modules.all (fun m => (fromIter (inst abc m) ⟨10, List.replicate 10 .C, false⟩).bind (toVec (inst abc m)) =
    .ok (List.replicate 10 .C)) = true := by decide +kernel

end
end RepoTests
end EnumVecModel
