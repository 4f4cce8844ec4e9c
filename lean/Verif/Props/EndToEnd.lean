import Verif.EndToEndSpec
import Verif.Props.Machine
import Verif.Props.Macro
import Verif.Props.Capacity
import Verif.Props.HostilePanic

/-! # From the declaration of a type to the running program (C77) -/

namespace EnumVecModel
open EnumLike

variable {α ω : Type} {E : EnumLike α} {m : Mach α} {build : Build} {empty small : Bool} {B : (α : Type) → EnumLike α → Mach α → Prop}
  {W : Nat} {alloc : Alloc}

theorem ofMach_refines (h : Refines build m E) (hE : E.Contract) : (EnumLike.ofMach build m).num = E.num ∧
    (EnumLike.ofMach build m).toDiscr = E.toDiscr ∧ (EnumLike.ofMach build m).Contract ∧
    (Hostile.Impl.ofMach build m : Hostile.Impl ω α) = .of (EnumLike.ofMach build m) := by
  have h1 : (EnumLike.ofMach build m).num = E.num := by show m.num.toOption.getD 0 = _; rw [h.num]; rfl
  have h2 : (EnumLike.ofMach build m).toDiscr = E.toDiscr := funext fun a => by
    show (m.toDiscr a).toOption.getD 0 = _; rw [h.to]; rfl
  refine ⟨h1, h2, ⟨fun a => by rw [h1, h2]; exact hE.lt a, fun a => ?_⟩, ?_⟩
  · rw [h2]
    have hlt := Nat.lt_trans (hE.lt a) h.fits
    show (if _ then _ else _) = _
    rw [if_pos hlt, h.from _ hlt, hE.roundtrip a]
    rfl
  · have h3 : ∀ x, (m.toDiscr x).toOption = some ((m.toDiscr x).toOption.getD 0) := fun x => by rw [h.to x]; rfl
    unfold Hostile.Impl.ofMach Hostile.Impl.of
    congr 1
    funext x w
    rw [h3 x]; rfl

/-- The impl of a type made from the impls of the crate is right if its constant has a value. -/
theorem mbuilt_refines (hB : ∀ α E m, B α E m → E.Contract ∧ Refines build m E) (h : MBuilt build empty B α E m) {n : Nat} (hn : m.num = .ok n) :
    E.Contract ∧ Refines build m E :=
  have key := mbuilt_good (fun α E m h => ⟨(hB α E m h).1, fun _ _ => (hB α E m h).2⟩) h
  ⟨key.1, key.2 n hn⟩

/-- **C77** If the compiler accepts `EnumVec<T>` for a type `T` made from the impls of the crate and of the derive macro (nested in any way, over base
impls that are right), all assumptions of the other theorems hold for it: elements have the least sufficient number of bits, which fits a block,
the contract of `EnumLike` holds, and the numbers are those of `E`, the impl in natural numbers. Only the allocator remains to be trusted. -/
theorem C77_ok (hB : ∀ α E m, B α E m → E.Contract ∧ Refines build m E) (h : MBuilt build empty B α E m) (ha : Accepted W build m)
    (hl : alloc.Lawful) (hbd : alloc.Bounded build (compiled W build small alloc m).epb) :
    (compiled W build small alloc m).Ok ∧ (compiled W build small alloc m).E.num = E.num ∧ (compiled W build small alloc m).E.toDiscr = E.toDiscr ∧
    E.num ≤ 2 ^ (compiled W build small alloc m).bits ∧ (∀ b, E.num ≤ 2 ^ b → (compiled W build small alloc m).bits ≤ b) ∧
    1 ≤ (compiled W build small alloc m).bits ∧ (compiled W build small alloc m).bits ≤ W := by
  obtain ⟨hW, n, b, hn, hb, hfew⟩ := ha
  obtain ⟨hE, hr⟩ := mbuilt_refines hB h hn
  obtain ⟨h1, h2, h3, -⟩ := ofMach_refines (ω := Unit) hr hE
  obtain ⟨k1, k2, -⟩ := (C30_compiles build).mp hb
  have hnum : n = E.num := by have := hn.symm.trans hr.num; simpa using this
  have hok : (compiled W build small alloc m).Ok := by
    refine ⟨⟨hW, ?_, ?_⟩, hl, hbd, fun _ => ?_, fun _ => h3⟩
    · show 1 < (EnumLike.ofMach build m).num; rw [h1, ← hnum]; exact k1
    · intro hw; show (EnumLike.ofMach build m).num ≤ _; rw [h1, ← hnum]; exact k2 hw
    · show (EnumLike.ofMach build m).num ≤ _
      rw [h1, ← hnum]
      rcases Nat.lt_or_ge 32 W with hw | hw
      · exact hfew hw
      · exact Nat.le_trans (k2 hw) (Nat.pow_le_pow_right (by decide) hw)
  have hw := C30_width_partial hok
  refine ⟨hok, h1, h2, ?_, fun b hb => hw.2.1 b ?_, hw.2.2.1, hw.2.2.2.1⟩
  · have := hw.1; rw [show (compiled W build small alloc m).E.num = E.num from h1] at this; exact this
  · rw [show (compiled W build small alloc m).E.num = E.num from h1]; exact hb

/-- **C77** Then the compiled program — `EnumVec`'s methods calling this impl, whatever it does — computes exactly what the model with the numbers
of `E` computes: from every state, for every history. No call of `to_discr` or `from_discr` overflows. -/
theorem C77_refines (hB : ∀ α E m, B α E m → E.Contract ∧ Refines build m E) (h : MBuilt build empty B α E m) (ha : Accepted W build m)
    (ops : List (Op ω α)) (mem : Mem (compiled W build small alloc m) ω) :
    Hostile.runAll (compiled W build small alloc m) (.ofMach build m) (ops.map .op) mem = runAll (compiled W build small alloc m) ops mem := by
  obtain ⟨-, n, b, hn, -, -⟩ := ha
  obtain ⟨hE, hr⟩ := mbuilt_refines hB h hn
  rw [(ofMach_refines (ω := ω) hr hE).2.2.2]
  exact Hostile.C56_faithful ops mem

theorem vecStep_congr [DecidableEq α] {E E' : EnumLike α} (h : E.toDiscr = E'.toDiscr) (v : Vecs α ω) (op : Op ω α) : vecStep E v op = vecStep E' v op := by
  cases op <;> first | rfl | (simp only [vecStep, h])

theorem vecRun_congr [DecidableEq α] {E E' : EnumLike α} (h : E.toDiscr = E'.toDiscr) : ∀ (ops : List (Op ω α)) (v : Vecs α ω), vecRun E ops v = vecRun E' ops v
  | [], _ => rfl
  | o :: os, v => by simp only [vecRun, vecStep_congr h, vecRun_congr h os]

/-- **C77** So for every such type the compiled program behaves like one over `Vec`s: every history of allowed calls (C01) returns what it returns
on `Vec`s, panics included, the closures see and do the same, and all variables that are not dead have the contents of the `Vec`s; unless memory
is refused. -/
theorem C77_vec [DecidableEq α] (hB : ∀ α E m, B α E m → E.Contract ∧ Refines build m E) (h : MBuilt build empty B α E m) (ha : Accepted W build m)
    (hl : alloc.Lawful) (hbd : alloc.Bounded build (compiled W build small alloc m).epb) (w : ω) (ops : List (Op ω α))
    (hal : AllowedRun (compiled W build small alloc m) ops (fun _ => .clean) (Vecs.start w))
    (ho : .oom ∉ (Hostile.runAll (compiled W build small alloc m) (.ofMach build m) (ops.map .op) (Mem.start _ w)).1) :
    (Hostile.runAll (compiled W build small alloc m) (.ofMach build m) (ops.map .op) (Mem.start _ w)).1 = (vecRun E ops (Vecs.start w)).1 ∧
    (Hostile.runAll (compiled W build small alloc m) (.ofMach build m) (ops.map .op) (Mem.start _ w)).2.world = (vecRun E ops (Vecs.start w)).2.world ∧
    ∀ r, marksRun (compiled W build small alloc m) ops (fun _ => .clean) (Vecs.start w) r ≠ .dead →
      Is _ ((Hostile.runAll (compiled W build small alloc m) (.ofMach build m) (ops.map .op) (Mem.start _ w)).2.reg r)
        ((vecRun E ops (Vecs.start w)).2.reg r) := by
  obtain ⟨hok, -, h2, -⟩ := C77_ok (small := small) hB h ha hl hbd
  rw [C77_refines hB h ha] at ho ⊢
  have he := Hostile.run_eq_runAll ops _ ho
  rw [← he] at ho ⊢
  rw [vecRun_congr h2.symm]
  rcases C01_history_partial hok w ops hal with h1 | ⟨_, _, _, -, h1, -⟩
  · exact h1
  · exact absurd (by rw [h1]; simp) ho

/-- **C77** No proviso but memory, for programs of plain calls: no `insert` and `split_off`, no `remove` if blocks have unused bits, `append` only with
`SmallVec` storage, honest iterators. -/
theorem C77_plain [DecidableEq α] (hB : ∀ α E m, B α E m → E.Contract ∧ Refines build m E) (h : MBuilt build empty B α E m) (ha : Accepted W build m)
    (hl : alloc.Lawful) (hbd : alloc.Bounded build (compiled W build small alloc m).epb) (w : ω) (ops : List (Op ω α))
    (hp : ∀ op ∈ ops, op.Plain (compiled W build small alloc m))
    (ho : .oom ∉ (Hostile.runAll (compiled W build small alloc m) (.ofMach build m) (ops.map .op) (Mem.start _ w)).1) :
    (Hostile.runAll (compiled W build small alloc m) (.ofMach build m) (ops.map .op) (Mem.start _ w)).1 = (vecRun E ops (Vecs.start w)).1 ∧
    (Hostile.runAll (compiled W build small alloc m) (.ofMach build m) (ops.map .op) (Mem.start _ w)).2.world = (vecRun E ops (Vecs.start w)).2.world ∧
    ∀ r, Is _ ((Hostile.runAll (compiled W build small alloc m) (.ofMach build m) (ops.map .op) (Mem.start _ w)).2.reg r)
        ((vecRun E ops (Vecs.start w)).2.reg r) := by
  obtain ⟨h1, h2⟩ := plain_allowed ops (fun _ => .clean) (Vecs.start w) hp (fun _ => nofun)
  obtain ⟨k1, k2, k3⟩ := C77_vec hB h ha hl hbd w ops h1 ho
  exact ⟨k1, k2, fun r => k3 r (h2 r)⟩

/-! ## Down to the text printed by the derive macro -/

/-- The impl `m` of `α` keeps the contract of `EnumLike`, if its constant has a value. -/
theorem lawful_refines {n : Nat} (hn : m.num = .ok n) (h : Macro.Lawful build n (fun _ : α => True) m.toDiscr m.fromDiscr) :
    (EnumLike.ofMach build m).Contract ∧ Refines build m (EnumLike.ofMach build m) := by
  have hnum : (EnumLike.ofMach build m).num = n := by show m.num.toOption.getD 0 = _; rw [hn]; rfl
  have hto : ∀ a, m.toDiscr a = .ok ((EnumLike.ofMach build m).toDiscr a) ∧ (EnumLike.ofMach build m).toDiscr a < n ∧
      m.fromDiscr ((EnumLike.ofMach build m).toDiscr a) = .ok a := fun a => by
    obtain ⟨k, h1, h2, h3⟩ := h.to a trivial
    have : (EnumLike.ofMach build m).toDiscr a = k := by show (m.toDiscr a).toOption.getD 0 = _; rw [h1]; rfl
    rw [this]; exact ⟨h1, h2, h3⟩
  have hfrom : ∀ x, x < build.usizeLim → (EnumLike.ofMach build m).fromDiscr x = (m.fromDiscr x).toOption := fun x hx => if_pos hx
  refine ⟨⟨fun a => by rw [hnum]; exact (hto a).2.1, fun a => ?_⟩, ?_, by rw [hnum]; exact h.fits, fun a => (hto a).1, fun x hx => ?_⟩
  · rw [hfrom _ (Nat.lt_trans (hto a).2.1 h.fits), (hto a).2.2]; rfl
  · rw [hnum]; exact hn
  · rw [hfrom x hx]
    rcases h.from x hx with ⟨a, -, h1⟩ | h1 <;> rw [h1] <;> rfl

/-- **C77** (derive). The impl that `#[derive(EnumLike)]` prints — the text, read by the grammar of Rust and executed with machine arithmetic — is one of
the impls for which the theorems above hold: whatever the declaration of the struct or enum, if the impls of the field types keep the contract, the
declaration is one the compiler accepts and the constant `NUM_VARIANTS` of the printed impl can be evaluated. -/
theorem C77_text {I : Macro.Interp} {num : Nat → Nat} {d : Macro.Input} {ts : Macro.Toks} {i : Macro.Impl} (h : Macro.FieldImpls build I num)
    (hd : d.Valid build) (hts : Macro.derive d = some ts) (hi : Macro.Parses ts i) {n : Nat} (hn : i.evalConst I build = .ok n) :
    (EnumLike.ofMach build (i.mach (I := I) build d)).Contract ∧
    Refines build (i.mach (I := I) build d) (EnumLike.ofMach build (i.mach (I := I) build d)) := by
  obtain ⟨j, -, huniq, hlaw⟩ := Macro.C52_derive h hd hts
  obtain rfl := huniq i hi
  obtain ⟨-, hl⟩ := hlaw n hn
  refine lawful_refines (n := n) hn ⟨hl.fits, fun a _ => ?_, fun x hx => ?_⟩
  · obtain ⟨k, h1, h2, h3⟩ := hl.to a.1 a.2
    refine ⟨k, h1, h2, ?_⟩
    simp only [Macro.Impl.mach, h3, a.2, dite_true]
  · rcases hl.from x hx with ⟨o, h1, h2⟩ | h1
    · exact .inl ⟨⟨o, h1⟩, trivial, by simp only [Macro.Impl.mach, h2, h1, dite_true]⟩
    · exact .inr (by simp only [Macro.Impl.mach, h1])

/-- **C77** (derive, histories). So a program over `EnumVec`s of a derived type, executing the printed text, behaves like one over `Vec`s of values of
the declared type, for all histories of allowed calls (C01), unless memory is refused. -/
theorem C77_derived {I : Macro.Interp} {num : Nat → Nat} {d : Macro.Input} {ts : Macro.Toks} {i : Macro.Impl} [DecidableEq (Macro.Value I d)]
    (h : Macro.FieldImpls build I num) (hd : d.Valid build) (hts : Macro.derive d = some ts) (hi : Macro.Parses ts i)
    (ha : Accepted W build (i.mach (I := I) build d))
    (hl : alloc.Lawful) (hbd : alloc.Bounded build (compiled W build small alloc (i.mach (I := I) build d)).epb) (w : ω)
    (ops : List (Op ω (Macro.Value I d)))
    (hal : AllowedRun (compiled W build small alloc (i.mach build d)) ops (fun _ => .clean) (Vecs.start w))
    (ho : .oom ∉ (Hostile.runAll (compiled W build small alloc (i.mach build d)) (.ofMach build (i.mach build d)) (ops.map .op) (Mem.start _ w)).1) :
    (Hostile.runAll (compiled W build small alloc (i.mach build d)) (.ofMach build (i.mach build d)) (ops.map .op) (Mem.start _ w)).1 =
      (vecRun (.ofMach build (i.mach build d)) ops (Vecs.start w)).1 ∧
    (Hostile.runAll (compiled W build small alloc (i.mach build d)) (.ofMach build (i.mach build d)) (ops.map .op) (Mem.start _ w)).2.world =
      (vecRun (.ofMach build (i.mach build d)) ops (Vecs.start w)).2.world ∧
    ∀ r, marksRun (compiled W build small alloc (i.mach build d)) ops (fun _ => .clean) (Vecs.start w) r ≠ .dead →
      Is _ ((Hostile.runAll (compiled W build small alloc (i.mach build d)) (.ofMach build (i.mach build d)) (ops.map .op) (Mem.start _ w)).2.reg r)
        ((vecRun (.ofMach build (i.mach build d)) ops (Vecs.start w)).2.reg r) := by
  obtain ⟨n, b, hn, hr⟩ := ha.2
  exact C77_vec (B := fun _ E m => E.Contract ∧ Refines build m E) (empty := true) (fun _ _ _ h => h) (.base (C77_text h hd hts hi hn)) ha hl hbd w ops hal ho

/-! ### A concrete case: `EnumVec<Option<(bool, bool)>>` with 32-bit blocks -/

/-- The impl of `Option<(bool, bool)>`. -/
abbrev exMach : Mach (Option (Bool × Bool)) := Mach.option debug64 (Mach.pair debug64 Mach.bool Mach.bool)

theorem exMach_built : MBuilt debug64 false MNoBase _ (option (pair bool bool)) exMach := .option (.pair .bool .bool)

theorem exMach_accepted : Accepted 32 debug64 exMach := ⟨by decide, 5, 3, rfl, rfl, nofun⟩

/-- A program over such values. -/
def exMachRun : List (Op Nat (Option (Bool × Bool))) :=
  [.push 0 none, .extend 0 ⟨2, [some (true, false), some (false, true), none], false⟩, .resize 0 45 (some (true, true)), .swapRemove 0 1,
   .forEach 0 (fun x n => (some (x.map Prod.swap), n + 1)), .any 0 none, .get 0 2, .hash 1, .clone 1 0, .eq 1 0, .truncate 1 3, .toVec 1, .set 1 9 none]

/-- All hypotheses of `C77_plain` are met, and this is what it says. -/
example : (Hostile.runAll (compiled 32 debug64 false (stdAlloc 0 32) exMach) (.ofMach debug64 exMach) (exMachRun.map .op) (Mem.start _ 0)).1 =
    [.unit, .unit, .unit, .val (some (true, false)), .unit, .bool true, .item (some (some (true, false))), .hash [], .unit, .bool true, .unit,
     .list [none, some (true, true), some (true, false)], .panic] := by
  have key := C77_plain (small := false) (alloc := stdAlloc 0 32) (fun _ _ _ h => h.elim) exMach_built exMach_accepted (stdAlloc_lawful _ _ _)
    (stdAlloc_bounded (b := debug64) (by decide) (Nat.div_le_self _ _)) 0 exMachRun (by
      simp only [exMachRun, List.mem_cons, List.not_mem_nil, or_false, forall_eq_or_imp, forall_eq, Op.Plain, true_and, and_true, List.length_cons]
      decide +kernel) (by decide +kernel)
  rw [key.1]
  decide +kernel

/-- A derived enum, `enum { A(bool, Option<bool>), B, C(bool), D }`, with 8-bit blocks: 10 values, two elements of 4 bits per block. -/
example : Accepted 8 debug64 (Mach.enum debug64 (exMEnum debug64)) := ⟨by decide, 10, 4, rfl, rfl, nofun⟩

/-- The derived enum of C52, `enum E { A(bool, Option<bool>), B, C { x: Option<bool>, xx: bool }, D }`, by the text printed for it: 14 values, 4 bits. -/
example : ∃ ts i, Macro.derive Macro.exEnum = some ts ∧ Macro.Parses ts i ∧ Accepted 32 debug64 (i.mach (I := Macro.exI) debug64 Macro.exEnum) := by
  rcases hts : Macro.derive Macro.exEnum with _ | ts
  · exact absurd ((Macro.C52_accepts _).mp hts) (by simp [Macro.exEnum])
  obtain ⟨i, hp, h2⟩ := Macro.C52_compiles (build := debug64) Macro.exI_ok
    (fun t => by unfold Macro.exNum; split <;> decide) (Macro.exEnum_valid debug64) hts (by simp [Macro.exEnum])
  obtain ⟨n, hn⟩ := h2.mpr (by decide +kernel)
  obtain ⟨j, -, h3, h4⟩ := Macro.C52_derive (build := debug64) Macro.exI_ok (Macro.exEnum_valid debug64) hts
  obtain rfl := h3 i hp
  have h14 : n = 14 := (h4 n hn).1.trans (by decide +kernel)
  subst h14
  exact ⟨ts, i, rfl, hp, by decide, 14, 4, hn, rfl, nofun⟩

/-- Rejected: `[bool; 64]` (too many values for `usize`), `[bool; 9]` with 8-bit blocks, `()`. -/
example : ¬ Accepted 32 debug64 (Mach.array debug64 bool Mach.bool 64) ∧ ¬ Accepted 8 debug64 (Mach.array debug64 bool Mach.bool 9) ∧
    ¬ Accepted 32 debug64 Mach.unit := by
  refine ⟨?_, ?_, ?_⟩ <;> rintro ⟨-, n, b, hn, hb, -⟩
  · have : (Mach.array debug64 bool Mach.bool 64).num = .error .overflow := by decide +kernel
    rw [this] at hn; cases hn
  · have : (Mach.array debug64 bool Mach.bool 9).num = .ok 512 := by decide +kernel
    rw [this] at hn; cases hn; cases hb
  · cases hn; cases hb

end EnumVecModel
