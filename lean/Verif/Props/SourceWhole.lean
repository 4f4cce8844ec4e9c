import Verif.Props.Source
import Verif.Props.SourceConst
import Verif.Props.SourceLike
import Verif.Props.SourceSet
import Verif.Props.EnumSetValues
import Verif.Props.MacroLawful
import Verif.Props.EndToEnd

/-!
# C82: the texts of the crates together

The element type is made by the texts of `enum_like` (C80) and the texts that the derive macro prints (C52), nested in any way; the constants of the module are those of its text (C79); the
methods of `EnumVec` (C78) and `EnumSet` (C81) are run from their texts.
-/

namespace EnumVecModel
open Source Source.Like EnumLike EnumLike.Rules

set_option linter.constructorNameAsVariable false

variable {α β γ ω τ : Type} {build : Build}

/-- `m` is the impl of `EnumLike` of a type made from texts: of the crate (`i` is the `impl`, `enc` names the values), or printed by the derive macro for a declaration `d` (`i` is the
syntax tree of the printed tokens `ts`), or printed by `tuple_impls!` and `array_impls!` (`M` is the impl that the compiler finds, C62). `user` is an impl written by the user, which has to keep the contract of the trait. -/
inductive WholeText (build : Build) : (γ : Type) → Mach γ → Prop
  | user {γ : Type} {m : Mach γ} : LawfulMach build m → WholeText build γ m
  | crate {α β γ : Type} {T : Mach α} {S : Mach β} {m : Mach γ} (i : LImpl) (enc : γ → LV α β) : i ∈ likeImpls → WholeText build α T → WholeText build β S →
      (∀ a b, enc a = enc b → a = b) → (∀ v, OfType i.ty v ↔ ∃ a, enc a = v) → Computes i ⟨T, S, build⟩ enc m → WholeText build γ m
  | derive (I : Macro.Interp) (num : Nat → Nat) (d : Macro.Input) (ts : Macro.Toks) (i : Macro.Impl) :
      (∀ t, (I t).2.num = .ok (num t)) → (∀ t, WholeText build (I t).1 (I t).2) → d.Valid build → Macro.derive d = some ts → Macro.Parses ts i →
      WholeText build (Macro.Value I d) (i.mach (I := I) build d)
  | tuple (I : Macro.Interp) (ts : List Nat) (M : Mach (Rules.Val (Leaf I))) : (∀ t, WholeText build (I t).1 (I t).2) → tupleOf build (ts.map (leafMach I)) = some M →
      WholeText build (TupleVal I ts) (M.restrict _)
  | array (I : Macro.Interp) (t n : Nat) (M : Mach (Rules.Val (Leaf I))) : (∀ t, WholeText build (I t).1 (I t).2) → arrayOf build true n (leafMach I t) = some M →
      WholeText build (ArrayVal I t n) (M.restrict _)

/-- **C82** Every impl made from texts keeps the contract of `EnumLike`, if its `NUM_VARIANTS` compiles. -/
theorem C82_lawful {m : Mach γ} (h : WholeText build γ m) : LawfulMach build m := by
  induction h with
  | user h => exact h
  | crate i enc hi _ _ hinj he hc hT hS => exact C80_nested (.text i enc hi (.base hT) (.base hS) hinj he hc)
  | derive I num d ts i hnum _ hd hts hi ih =>
    have hf : Macro.FieldImpls build I num := fun t => ⟨hnum t, (ih t _ (hnum t)).1⟩
    intro n hn
    obtain ⟨j, -, huniq, hlaw⟩ := Macro.C52_derive hf hd hts
    obtain rfl := huniq i hi
    obtain ⟨-, hl⟩ := hlaw n hn
    obtain ⟨j, hj, honto⟩ := Macro.C52_onto hf (fun t => (ih t _ (hnum t)).2) hd hts
    obtain rfl := huniq j hj
    refine ⟨⟨hl.fits, fun a _ => ?_, fun x hx => ?_⟩, fun x hx => ?_⟩
    · obtain ⟨k, h1, h2, h3⟩ := hl.to a.1 a.2
      refine ⟨k, h1, h2, ?_⟩
      simp only [Macro.Impl.mach, h3, a.2, dite_true]
    · rcases hl.from x hx with ⟨o, h1, h2⟩ | h1
      · exact .inl ⟨⟨o, h1⟩, trivial, by simp only [Macro.Impl.mach, h2, h1, dite_true]⟩
      · exact .inr (by simp only [Macro.Impl.mach, h1])
    · obtain ⟨o, h1, h2, h3⟩ := (honto n hn).1 x hx
      exact ⟨⟨o, h1⟩, trivial, by simp only [Macro.Impl.mach, h2, h1, dite_true], h3⟩
  | tuple I ts M _ hM ih =>
    have hl : ts.length ≤ 32 := Nat.le_of_not_lt fun h => by rw [C62_tuple_limit build _ (by simpa using h)] at hM; cases hM
    obtain ⟨M', h1, h2⟩ := (C84_lawful build I ih).1 ts hl
    rw [hM] at h1; cases h1; exact h2
  | array I t n M _ hM ih =>
    have hl : n ≤ 32 := Nat.le_of_not_lt fun h => by rw [C62_array_limit build true n _ h] at hM; cases hM
    obtain ⟨M', h1, h2⟩ := (C84_lawful build I ih).2 t n hl
    rw [hM] at h1; cases h1; exact h2

/-- The compiler accepts `EnumVec<T>` of the module with the constants `cs` and blocks of `W` bits: `NUM_VARIANTS` of `T` is `n`, and all constants of the text can be evaluated. -/
structure AcceptedText (W : Nat) (cs : List Const) (build : Build) (m : Mach α) (n : Nat) : Prop where
  module : (W, cs) ∈ modules
  num : m.num = .ok n
  consts : ∀ k ∈ cs, k.type ≠ .wild → ∃ v, constOf cs build n 4 k.name = some (.ok v)

theorem AcceptedText.accepted {W n : Nat} {cs : List Const} {m : Mach α} (h : AcceptedText W cs build m n) (hn : n < build.usizeLim) (hfew : 32 < W → n ≤ 2 ^ 32) : Accepted W build m := by
  obtain ⟨h1, h2⟩ := (C79_compiles h.module build hn).1.mp h.consts
  refine ⟨?_, n, bitsPerElem n, h.num, (C30_compiles build).mpr ⟨h1, h2, rfl⟩, hfew⟩
  have := h.module
  simp only [modules, List.mem_cons, Prod.mk.injEq, List.not_mem_nil, or_false] at this
  omega

theorem whole_ok {W n : Nat} {cs : List Const} {m : Mach α} {small : Bool} {alloc : Alloc} (h : WholeText build α m) (ha : AcceptedText W cs build m n) (hfew : 32 < W → n ≤ 2 ^ 32)
    (hl : alloc.Lawful) (hbd : alloc.Bounded build (compiled W build small alloc m).epb) : (compiled W build small alloc m).Ok := by
  have hlaw := (C82_lawful h n ha.num).1
  exact (C77_ok (B := fun _ E m => E.Contract ∧ Refines build m E) (empty := true) (fun _ _ _ h => h) (.base (lawful_refines ha.num hlaw)) (ha.accepted hlaw.fits hfew) hl hbd).1

/-- **C82** The constants of an accepted module are those with which the methods are run, and `b` bits per element are as few as possible. -/
theorem C82_consts {W n : Nat} {cs : List Const} {m : Mach α} {small : Bool} {alloc : Alloc} (h : WholeText build α m) (ha : AcceptedText W cs build m n) (hfew : 32 < W → n ≤ 2 ^ 32) :
    ∃ b, n ≤ 2 ^ b ∧ (∀ b', n ≤ 2 ^ b' → b ≤ b') ∧ 1 ≤ b ∧ b ≤ W ∧
      constOf cs build n 4 .BITS_PER_ELEM = some (.ok (.num .usize b)) ∧ constVal (compiled W build small alloc m) .BITS_PER_ELEM = some (.usz b) ∧
      constOf cs build n 4 .ELEMS_PER_BLOCK = some (.ok (.num .usize (W / b))) ∧ constVal (compiled W build small alloc m) .ELEMS_PER_BLOCK = some (.usz (W / b)) := by
  have hlaw := (C82_lawful h n ha.num).1
  obtain ⟨h1, h2⟩ := (C79_compiles ha.module build hlaw.fits).1.mp ha.consts
  have h3 : n ≤ 2 ^ 32 := by
    rcases Nat.lt_or_ge 32 W with hw | hw
    · exact hfew hw
    · exact Nat.le_trans (h2 hw) (Nat.pow_le_pow_right (by decide) hw)
  obtain ⟨b, k1, k2, k3, k4, -, -, -, k5, k6, -⟩ := C79_values ha.module build hlaw.fits h1 h2 h3
  have hb : (compiled W build small alloc m).bits = b := by
    have hs := bitsPerElem_spec n h1 h3
    have e : (compiled W build small alloc m).bits = bitsPerElem n := by
      show bitsPerElem (m.num.toOption.getD 0) = _; rw [ha.num]; rfl
    rw [e]
    refine Nat.le_antisymm ?_ (k2 _ hs.2.2.1)
    rcases Nat.lt_or_ge b (bitsPerElem n) with h | h
    · exact absurd k1 (Nat.not_le_of_lt (hs.2.2.2 b h))
    · exact h
  refine ⟨b, k1, k2, k3, k4, k5, ?_, k6, ?_⟩
  · show some (Val.usz (compiled W build small alloc m).bits) = _; rw [hb]
  · show some (Val.usz (W / (compiled W build small alloc m).bits)) = _; rw [hb]

/-- **C82** `EnumVec`, all from texts: for every such type that the compiler accepts, every allowed history of calls (C01) returns what it returns on `Vec`s and leaves the same elements, or
stops with a failed allocation, after results like those of `Vec`s. -/
theorem C82_vec [DecidableEq α] {W n : Nat} {cs : List Const} {m : Mach α} {small : Bool} {alloc : Alloc} (h : WholeText build α m) (ha : AcceptedText W cs build m n)
    (hfew : 32 < W → n ≤ 2 ^ 32) (hl : alloc.Lawful) (hbd : alloc.Bounded build (compiled W build small alloc m).epb) (hs : AllocSmall (compiled W build small alloc m)) (w : τ)
    (ops : List (Op τ α)) (hu : ∀ op ∈ ops, op.Usizes (compiled W build small alloc m)) (hal : AllowedRun (compiled W build small alloc m) ops (fun _ => .clean) (Vecs.start w)) :
    ∃ outs mem, textRun (compiled W build small alloc m) ops (Mem.start _ w) = some (outs, mem) ∧
      ((outs = (vecRun (.ofMach build m) ops (Vecs.start w)).1 ∧ mem.world = (vecRun (.ofMach build m) ops (Vecs.start w)).2.world ∧
          ∀ r, marksRun (compiled W build small alloc m) ops (fun _ => .clean) (Vecs.start w) r ≠ .dead → Is _ (mem.reg r) ((vecRun (.ofMach build m) ops (Vecs.start w)).2.reg r)) ∨
        ∃ pre op post, ops = pre ++ op :: post ∧ outs = (vecRun (.ofMach build m) pre (Vecs.start w)).1 ++ [.oom]) :=
  C78_like_vec (whole_ok h ha hfew hl hbd) hs w ops hu hal

/-- **C82** No proviso but memory, for programs of plain calls: no `insert` and `split_off`, no `remove` if blocks have unused bits, `append` only with `SmallVec` storage, honest iterators. -/
theorem C82_plain [DecidableEq α] {W n : Nat} {cs : List Const} {m : Mach α} {small : Bool} {alloc : Alloc} (h : WholeText build α m) (ha : AcceptedText W cs build m n)
    (hfew : 32 < W → n ≤ 2 ^ 32) (hl : alloc.Lawful) (hbd : alloc.Bounded build (compiled W build small alloc m).epb) (hs : AllocSmall (compiled W build small alloc m)) (w : τ)
    (ops : List (Op τ α)) (hu : ∀ op ∈ ops, op.Usizes (compiled W build small alloc m)) (hp : ∀ op ∈ ops, op.Plain (compiled W build small alloc m)) :
    ∃ outs mem, textRun (compiled W build small alloc m) ops (Mem.start _ w) = some (outs, mem) ∧
      ((outs = (vecRun (.ofMach build m) ops (Vecs.start w)).1 ∧ mem.world = (vecRun (.ofMach build m) ops (Vecs.start w)).2.world ∧
          ∀ r, Is _ (mem.reg r) ((vecRun (.ofMach build m) ops (Vecs.start w)).2.reg r)) ∨
        ∃ pre op post, ops = pre ++ op :: post ∧ outs = (vecRun (.ofMach build m) pre (Vecs.start w)).1 ++ [.oom]) := by
  obtain ⟨h1, h2⟩ := plain_allowed ops (fun _ => .clean) (Vecs.start w) hp (fun _ => nofun)
  obtain ⟨outs, mem, k1, k2⟩ := C82_vec h ha hfew hl hbd hs w ops hu h1
  refine ⟨outs, mem, k1, ?_⟩
  rcases k2 with ⟨k3, k4, k5⟩ | k3
  · exact Or.inl ⟨k3, k4, fun r => k5 r (h2 r)⟩
  · exact Or.inr k3

open Source.SetText ESet in
/-- **C82** `EnumSet`, all from texts: `vals` are the values of the type in the order of their numbers. Every history of calls returns what it returns on sets of values, and has the same
effects, whatever the user's iterators and formatters do; only `from_bit_set` must be given numbers of values. -/
theorem C82_set [DecidableEq α] {σ : Type} {B : BitSet σ} (hB : B.Lawful) {m : Mach α} (h : WholeText build α m) {n : Nat} (hn : m.num = .ok n) :
    ∃ (vals : List α) (num : α → Nat) (feed : List Nat → List Nat), vals.map m.toDiscr = (List.range n).map .ok ∧ (∀ a, a ∈ vals ∧ m.toDiscr a = .ok (num a)) ∧
      ∀ {ω : Type} (w : ω) (cs : List (Call σ ω α)), (∀ c ∈ cs, c.Valid B.iter n) →
        ∃ rs st, textAll B (.ofMach build m) cs (Store.start B w) = some (rs, st) ∧
          rs = (valCalls vals num B.iter feed cs (Vals.start w)).1 ∧ st.world = (valCalls vals num B.iter feed cs (Vals.start w)).2.world ∧
          ∀ r a, B.contains (st.set r).inner (num a) = (valCalls vals num B.iter feed cs (Vals.start w)).2.set r a := by
  obtain ⟨hlaw, honto⟩ := C82_lawful h n hn
  obtain ⟨hE, hr⟩ := lawful_refines hn hlaw
  have hnum : (EnumLike.ofMach build m).num = n := by have := hn.symm.trans hr.num; simpa using this.symm
  have hcons : (EnumLike.ofMach build m).Consecutive := fun x hx => by
    rw [hnum] at hx
    obtain ⟨a, -, h1, h2⟩ := honto x hx
    refine ⟨a, ?_, ?_⟩
    · show (if x < build.usizeLim then _ else _) = _
      rw [if_pos (Nat.lt_trans hx hlaw.fits), h1]; rfl
    · show (m.toDiscr a).toOption.getD 0 = _; rw [h2]; rfl
  obtain ⟨vals, hv⟩ := allValues_exists hcons
  obtain ⟨feed, hf⟩ := C83_values hB hE hv
  refine ⟨vals, (EnumLike.ofMach build m).toDiscr, feed, ?_, fun a => ⟨hv.mem hE a, hr.to a⟩, fun {ω} w cs hc => ?_⟩
  · rw [← hnum, ← show vals.map _ = List.range _ from hv, List.map_map]
    exact List.map_congr_left fun a _ => hr.to a
  · obtain ⟨k1, k2, k3, -⟩ := hf w cs (fun c hm => hnum ▸ hc c hm)
    rw [(ofMach_refines hr hE).2.2.2]
    exact ⟨_, _, C81_histories cs _, k1, k2, k3⟩

/-! ## Non-trivial cases -/

/-- The nested type of C80, `Result<Option<bool>, [bool; 0]>`, whose impls are texts. -/
theorem TextImpl.whole {m : Mach γ} (h : TextImpl build γ m) : WholeText build γ m := by
  induction h with
  | base h => exact .user h
  | text i enc hi _ _ hinj he hc hT hS => exact .crate i enc hi hT hS hinj he hc

theorem encOption_inj (a b : Option α) (h : (encOption a : LV α β) = encOption b) : a = b := by
  cases a <;> cases b <;> cases h <;> rfl

/-- A derived enum: `enum E { A(bool, Option<bool>), B, C { x: Option<bool>, xx: bool }, D }`, with the impl printed by the macro; its field types are texts too. -/
theorem exWhole : ∃ i : Macro.Impl, WholeText debug64 (Macro.Value Macro.exI Macro.exEnum) (i.mach (I := Macro.exI) debug64 Macro.exEnum) ∧
    AcceptedText 32 consts_vec_u32 debug64 (i.mach (I := Macro.exI) debug64 Macro.exEnum) 14 := by
  rcases hts : Macro.derive Macro.exEnum with _ | ts
  · exact absurd ((Macro.C52_accepts _).mp hts) (by simp [Macro.exEnum])
  obtain ⟨i, hp, h2⟩ := Macro.C52_compiles (build := debug64) Macro.exI_ok
    (fun t => by unfold Macro.exNum; split <;> decide) (Macro.exEnum_valid debug64) hts (by simp [Macro.exEnum])
  obtain ⟨n, hn⟩ := h2.mpr (by decide +kernel)
  obtain ⟨j, -, h3, h4⟩ := Macro.C52_derive (build := debug64) Macro.exI_ok (Macro.exEnum_valid debug64) hts
  obtain rfl := h3 i hp
  have h14 : n = 14 := (h4 n hn).1.trans (by decide +kernel)
  subst h14
  refine ⟨i, .derive Macro.exI Macro.exNum Macro.exEnum ts i (fun t => (Macro.exI_ok (build := debug64) t).1) (fun t => ?_) (Macro.exEnum_valid _) hts hp, by simp [modules], hn, ?_⟩
  · have hu : WholeText debug64 Unit Mach.unit := .user (LawfulMach.of good_unit unit_consec)
    have hb : WholeText debug64 Bool Mach.bool := .crate (T := Mach.unit) (S := Mach.unit) i_bool .bool (by simp [likeImpls]) hu hu (fun a b h => by cases h; rfl)
      (fun v => ⟨fun h => by cases h; exact ⟨_, rfl⟩, fun ⟨o, h⟩ => h ▸ .bool _⟩) (computes_bool _)
    cases t with
    | zero => exact hb
    | succ t =>
      exact .crate (T := Mach.bool) (S := Mach.unit) i_option encOption (by simp [likeImpls]) hb hu encOption_inj
        (fun v => ⟨fun h => by cases h <;> first | exact ⟨none, rfl⟩ | exact ⟨some _, rfl⟩, fun ⟨o, h⟩ => by subst h; cases o <;> first | exact .none | exact .some _⟩) (computes_option _)
  · exact (C79_compiles (W := 32) (by simp [modules]) debug64 (N := 14) (by decide)).1.mpr (by decide)

/-- `[(E, bool); 2]` for this `E`: an array of tuples of a derived enum, accepted with blocks of 16 bits; it has 28² variants. -/
theorem exWholeArray : ∃ (i : Macro.Impl) (I : Macro.Interp) (M : Mach (Rules.Val (Leaf I))), arrayOf debug64 true 2 (leafMach I 0) = some M ∧
    WholeText debug64 (ArrayVal I 0 2) (M.restrict _) ∧ AcceptedText 16 consts_vec_u16 debug64 (M.restrict (ArrayHas 2 (IsLeaf I 0))) 784 := by
  obtain ⟨i, h1, h2⟩ := exWhole
  have hu : WholeText debug64 Unit Mach.unit := .user (LawfulMach.of good_unit unit_consec)
  have hb : WholeText debug64 Bool Mach.bool := .crate (T := Mach.unit) (S := Mach.unit) i_bool .bool (by simp [likeImpls]) hu hu (fun a b h => by cases h; rfl)
    (fun v => ⟨fun h => by cases h; exact ⟨_, rfl⟩, fun ⟨o, h⟩ => h ▸ .bool _⟩) (computes_bool _)
  -- the types in the tuple
  let J : Macro.Interp := fun t => match t with
    | 0 => ⟨Macro.Value Macro.exI Macro.exEnum, i.mach (I := Macro.exI) debug64 Macro.exEnum⟩
    | _ + 1 => ⟨Bool, Mach.bool⟩
  have hJ : ∀ t, WholeText debug64 (J t).1 (J t).2 := fun t => match t with
    | 0 => h1
    | _ + 1 => hb
  obtain ⟨P, hP, -⟩ := (C84_lawful debug64 J fun t => C82_lawful (hJ t)).1 [0, 1] (by decide)
  have hPn : P.num = .ok 28 := by
    rw [tupleOf_eq, List.length_map] at hP
    unfold findTuple at hP
    obtain rfl := Option.some.inj hP
    exact (pair_num (show (leafMach J 0).num = .ok 14 from h2.num) (show (leafMach J 1).num = .ok 2 from rfl)).trans (by decide)
  -- the type of the items of the array
  let I : Macro.Interp := fun _ => ⟨TupleVal J [0, 1], P.restrict _⟩
  have hI : ∀ t, WholeText debug64 (I t).1 (I t).2 := fun _ => .tuple J [0, 1] P hJ hP
  obtain ⟨M, hM, -⟩ := (C84_lawful debug64 I fun t => C82_lawful (hI t)).2 0 2 (by decide)
  refine ⟨i, I, M, hM, .array I 0 2 M hI hM, by simp [modules], ?_, (C79_compiles (W := 16) (by simp [modules]) debug64 (N := 784) (by decide)).1.mpr (by decide)⟩
  show M.num = .ok 784
  rw [arrayOf_eq, findArray_eq _ _ _ _ _ _ _ (by decide) (by decide)] at hM
  unfold findTuple at hM
  obtain rfl := Option.some.inj hM
  exact (pair_num (show (leafMach I 0).num = .ok 28 from hPn) (show (leafMach I 0).num = .ok 28 from hPn)).trans (by decide)

open Source.SetText ESet in
/-- `C82_set` for `E`, and for sets of bits as `BitSet`. -/
example : ∃ i : Macro.Impl, ∃ vals : List (Macro.Value Macro.exI Macro.exEnum), vals.length = 14 ∧
    ∀ a b : Macro.Value Macro.exI Macro.exEnum, a ≠ b →
      (textAll maskSet (.ofMach debug64 (i.mach (I := Macro.exI) debug64 Macro.exEnum)) [.insert 0 a, .insert 0 b, .insert 0 a, .clone 0 1, .remove 1 a, .contains 1 a, .contains 0 a, .contains 1 b]
        (Store.start maskSet ())).map (·.1) = some [.bool true, .bool true, .bool false, .unit, .bool true, .bool false, .bool true, .bool true] := by
  classical
  obtain ⟨i, h1, h2⟩ := exWhole
  obtain ⟨vals, num, feed, h3, h4, h5⟩ := C82_set maskSet_lawful h1 h2.num
  refine ⟨i, vals, by simpa using congrArg List.length h3, fun a b hab => ?_⟩
  obtain ⟨rs, st, k1, k2, -⟩ := h5 () [.insert 0 a, .insert 0 b, .insert 0 a, .clone 0 1, .remove 1 a, .contains 1 a, .contains 0 a, .contains 1 b]
    (fun c hc => by simp at hc; rcases hc with rfl | rfl | rfl | rfl | rfl | rfl | rfl | rfl <;> trivial)
  rw [k1, Option.map_some, k2]
  simp [valCalls, valCall, Vals.start, put, hab, Ne.symm hab]

/-- `C82_plain` for `E`: pushing values and taking them back. -/
example : ∃ i : Macro.Impl, ∀ a b : Macro.Value Macro.exI Macro.exEnum, ∃ outs mem,
    textRun (compiled 32 debug64 false (stdAlloc 0 32) (i.mach (I := Macro.exI) debug64 Macro.exEnum)) [.push 0 a, .push 0 b, .push 0 a, .swapRemove 0 0, .toVec 0, .pop 0] (Mem.start _ ()) =
      some (outs, mem) ∧ (outs = [.unit, .unit, .unit, .val a, .list [a, b], .item (some b)] ∨ outs.getLast? = some .oom) := by
  classical
  obtain ⟨i, h1, h2⟩ := exWhole
  refine ⟨i, fun a b => ?_⟩
  have hs : AllocSmall (compiled 32 debug64 false (stdAlloc 0 32) (i.mach (I := Macro.exI) debug64 Macro.exEnum)) :=
    ⟨(exInst_small (W := 32) (n := 5) (by decide) debug64 false).fresh, (exInst_small (W := 32) (n := 5) (by decide) debug64 false).exact,
      (exInst_small (W := 32) (n := 5) (by decide) debug64 false).grow⟩
  obtain ⟨outs, mem, k1, k2⟩ := C82_plain (small := false) h1 h2 (fun h => absurd h (by decide)) (stdAlloc_lawful _ _ _)
    (stdAlloc_bounded (b := debug64) (by decide) (Nat.div_le_self _ _)) hs () [.push 0 a, .push 0 b, .push 0 a, .swapRemove 0 0, .toVec 0, .pop 0]
    (fun op hop => by simp at hop; rcases hop with rfl | rfl | rfl | rfl | rfl | rfl <;> first | trivial | (show (0 : Nat) < debug64.usizeLim; decide))
    (fun op hop => by simp at hop; rcases hop with rfl | rfl | rfl | rfl | rfl | rfl <;> trivial)
  refine ⟨outs, mem, k1, ?_⟩
  rcases k2 with ⟨k2, -⟩ | ⟨pre, op, post, -, k2⟩
  · exact Or.inl (k2.trans rfl)
  · exact Or.inr (by rw [k2, List.getLast?_concat])

end EnumVecModel
