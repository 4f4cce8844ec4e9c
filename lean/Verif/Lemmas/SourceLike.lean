import Verif.Source.LikeEval
import Verif.Values
import Verif.Lemmas.Machine

/-! # Lemmas: running the text of `enum_like` -/

namespace EnumVecModel
namespace Source
namespace Like

set_option linter.constructorNameAsVariable false

open EnumLike (Mach)

variable {α β γ : Type}

/-- The result of a call. -/
def val (r : R (LV α β × LV α β)) : R (LV α β) := r.bind fun p => Option.some (.ok p.1)

/-- The text of the impl `i` computes what the impl `m` computes, where `enc` says which value of the language stands for which value of `m`. -/
structure Computes (i : LImpl) (τ : Types α β) (enc : γ → LV α β) (m : Mach γ) : Prop where
  num : i.const τ .NUM_VARIANTS = Option.some (m.num.map .num)
  to : ∀ d v, val (i.run τ (d + 1) .to_discr [enc v]) = Option.some ((m.toDiscr v).map .num)
  «from» : ∀ d x, val (i.run τ (d + 1) .from_discr [.num x]) = Option.some ((m.fromDiscr x).map enc)

theorem ofNum_eq (r : Except Fault Nat) : (ofNum r : R (LV α β)) = Option.some (r.map .num) := by cases r <;> rfl

theorem bind_some_ok {X Y : Type} (v : X) (f : X → R Y) : R.bind (Option.some (.ok v)) f = f v := rfl
theorem bind_some_error {X Y : Type} (e : Fault) (f : X → R Y) : R.bind (Option.some (.error e)) f = Option.some (.error e) := rfl

theorem find_fn (i : LImpl) (f : Sym) (fn : LFn) (h : i.fns.find? (fun k => k.name = f) = Option.some fn) : i.fnOf f = Option.some fn := h

theorem computes_unit (τ : Types α β) : Computes i_unit τ (fun _ => .unit) Mach.unit where
  num := rfl
  to _ _ := rfl
  «from» _ _ := rfl

/-- Unfold the interpreter. -/
macro "run" "[" ls:Lean.Parser.Tactic.simpLemma,* "]" : tactic => `(tactic| simp [LImpl.const, LImpl.constOf, LImpl.run, LImpl.fnOf, List.find?, bindArgs, Types.constCtx, leval, Env.get, matches?,
  binVal, methVal, toDiscrVal, callVal, pathVal, castVal, ofNum_eq, Except.map, R.bind, val, Bind.bind, Except.bind, Pure.pure, Except.pure, Functor.map, $ls,*])

theorem computes_bool (τ : Types α β) : Computes i_bool τ .bool Mach.bool where
  num := rfl
  to d v := by cases v <;> rfl
  «from» d x := by run [i_bool, Mach.bool]; by_cases h : x = 0 <;> simp [h]

/-- The values of `Option<T>`. -/
def encOption : Option α → LV α β
  | Option.none => .ctor0 .None
  | Option.some a => .ctor .Some (.T a)

theorem computes_option (τ : Types α β) : Computes i_option τ encOption (Mach.option τ.build τ.T) where
  num := by
    obtain ⟨T, S, B⟩ := τ
    cases h : T.num with
    | error e => run [i_option, Mach.option, h]
    | ok n => cases h' : uAdd B.const 1 n <;> run [i_option, Mach.option, h, h']
  to d v := by
    obtain ⟨T, S, B⟩ := τ
    cases v
    · cases h : T.num <;> run [i_option, Mach.option, h, encOption]
    · rename_i a
      cases h : T.toDiscr a <;> run [i_option, Mach.option, h, encOption]
  «from» d x := by
    obtain ⟨T, S, B⟩ := τ
    cases h : T.num
    · run [i_option, Mach.option, h, encOption]
    · rename_i n
      by_cases hx : x = n
      · run [i_option, Mach.option, h, hx, encOption]
      · cases h' : T.fromDiscr x <;> run [i_option, Mach.option, h, hx, h', encOption]

/-- The values of `Result<T, S>`. -/
def encResult : Except β α → LV α β
  | .ok a => .ctor .Ok (.T a)
  | .error b => .ctor .Err (.S b)

theorem computes_result (τ : Types α β) : Computes i_result τ encResult (Mach.result τ.build τ.T τ.S) where
  num := by
    obtain ⟨T, S, B⟩ := τ
    cases h : T.num with
    | error e => run [i_result, Mach.result, h]
    | ok n =>
      cases h1 : S.num with
      | error e => run [i_result, Mach.result, h, h1]
      | ok k => cases h' : uAdd B.const n k <;> run [i_result, Mach.result, h, h1, h']
  to d v := by
    obtain ⟨T, S, B⟩ := τ
    cases v with
    | ok a => cases h : T.toDiscr a <;> run [i_result, Mach.result, h, encResult]
    | error b =>
      cases h : T.num with
      | error e => run [i_result, Mach.result, h, encResult]
      | ok n =>
        cases h1 : S.toDiscr b with
        | error e => run [i_result, Mach.result, h, h1, encResult]
        | ok k => cases h' : uAdd B n k <;> run [i_result, Mach.result, h, h1, h', encResult]
  «from» d x := by
    obtain ⟨T, S, B⟩ := τ
    cases h : T.num with
    | error e => run [i_result, Mach.result, h, encResult]
    | ok n =>
      by_cases hx : x < n
      · cases h' : T.fromDiscr x <;> run [i_result, Mach.result, h, hx, h', encResult]
      · cases h1 : uSub B x n with
        | error e => run [i_result, Mach.result, h, hx, h1, encResult]
        | ok y => cases h' : S.fromDiscr y <;> run [i_result, Mach.result, h, hx, h1, h', encResult]

theorem computes_tuple1 (τ : Types α β) : Computes i_tuple1 τ (fun a => .tup1 (.T a)) (Mach.tuple1 τ.T) where
  num := by
    obtain ⟨T, S, B⟩ := τ
    cases h : T.num <;> run [i_tuple1, Mach.tuple1, h]
  to d v := by
    obtain ⟨T, S, B⟩ := τ
    cases h : T.toDiscr v <;> run [i_tuple1, Mach.tuple1, h]
  «from» d x := by
    obtain ⟨T, S, B⟩ := τ
    cases h : T.fromDiscr x <;> run [i_tuple1, Mach.tuple1, h]

theorem computes_pair (τ : Types α β) : Computes i_pair τ (fun p => .tup (.T p.1) (.S p.2)) (Mach.pair τ.build τ.T τ.S) where
  num := by
    obtain ⟨T, S, B⟩ := τ
    cases h : T.num with
    | error e => run [i_pair, Mach.pair, h]
    | ok n =>
      cases h1 : S.num with
      | error e => run [i_pair, Mach.pair, h, h1]
      | ok k => cases h' : uMul B.const n k <;> run [i_pair, Mach.pair, h, h1, h']
  to d v := by
    obtain ⟨T, S, B⟩ := τ
    obtain ⟨a, b⟩ := v
    cases h : T.toDiscr a with
    | error e => run [i_pair, Mach.pair, h]
    | ok i =>
      cases h1 : S.toDiscr b with
      | error e => run [i_pair, Mach.pair, h, h1]
      | ok j =>
        cases h2 : T.num with
        | error e => run [i_pair, Mach.pair, h, h1, h2]
        | ok n =>
          cases h3 : uMul B j n with
          | error e => run [i_pair, Mach.pair, h, h1, h2, h3]
          | ok k => cases h' : uAdd B i k <;> run [i_pair, Mach.pair, h, h1, h2, h3, h']
  «from» d x := by
    obtain ⟨T, S, B⟩ := τ
    cases h : T.num with
    | error e => run [i_pair, Mach.pair, h]
    | ok n =>
      cases h1 : EnumLike.uRem x n with
      | error e => run [i_pair, Mach.pair, h, h1]
      | ok i =>
        cases h2 : T.fromDiscr i with
        | error e => run [i_pair, Mach.pair, h, h1, h2]
        | ok a =>
          cases h3 : EnumLike.uDiv x n with
          | error e => run [i_pair, Mach.pair, h, h1, h2, h3]
          | ok j => cases h' : S.fromDiscr j <;> run [i_pair, Mach.pair, h, h1, h2, h3, h']

/-- `[T; 0]` is like `()`, with the value `[]`. -/
theorem computes_array0 (τ : Types α β) : Computes i_array0 τ (fun _ => .nil) Mach.unit where
  num := rfl
  to _ _ := rfl
  «from» _ _ := rfl

/-! ## `Values` -/

open EnumLike (Values Refines Packed)

/-- The struct `Values`. -/
def encValues (v : Values) : LV α β := .fld .current (.num v.current) (.fld .max (.num v.max) (.fld ._p .unit .recEnd))

/-- An iterator call of the model, as a result of the interpreter. -/
def encStep (r : Except Fault (Option α) × Values) : R (LV α β × LV α β) :=
  match r with
  | (.ok o, v) => Option.some (.ok (encOption o, encValues v))
  | (.error e, _) => Option.some (.error e)

theorem values_of {E : EnumLike α} (τ : Types α β) (h : τ.T.num = .ok E.num) (d : Nat) :
    val (i_values.run τ (d + 1) .of []) = Option.some (.ok (encValues (Values.of E))) := by
  obtain ⟨T, S, B⟩ := τ
  replace h : T.num = .ok E.num := h
  run [i_values, encValues, Values.of, h]

theorem values_next {E : EnumLike α} (τ : Types α β) (h : Refines τ.build τ.T E) (d : Nat) (v : Values) (hv : v.max < τ.build.usizeLim) :
    i_iterator.run τ (d + 1) .next [encValues v] = encStep (Values.next E v) := by
  obtain ⟨T, S, B⟩ := τ
  obtain ⟨c, m⟩ := v
  by_cases hc : c < m
  · have h1 := h.from c (Nat.lt_trans hc hv)
    have h2 : uAdd B c 1 = .ok (c + 1) := uAdd_ok (by simp only at hv; show c + 1 < B.usizeLim; omega)
    cases h3 : E.fromDiscr c <;> simp only [h3] at h1 <;>
      run [i_iterator, encValues, encStep, Values.next, h1, h2, h3, hc, LV.field, LV.setField, Env.set, encOption]
  · run [i_iterator, encValues, encStep, Values.next, hc, LV.field, LV.setField, Env.set, encOption]

theorem values_size_hint (τ : Types α β) (d : Nat) (v : Values) (hv : v.max < τ.build.usizeLim) :
    val (i_iterator.run τ (d + 1) .size_hint [encValues v]) =
      Option.some ((Values.sizeHint τ.build v).map fun p => .tup (.num p.1) (match p.2 with | Option.none => .ctor0 .None | Option.some n => .ctor .Some (.num n))) := by
  obtain ⟨T, S, B⟩ := τ
  obtain ⟨c, m⟩ := v
  cases h : uSub B m c with
  | error e => run [i_iterator, encValues, Values.sizeHint, h, LV.field]
  | ok n =>
    have hn : n % B.usizeLim = n := by
      refine Nat.mod_eq_of_lt ?_
      simp only at hv
      unfold uSub at h
      split at h
      · cases h; omega
      · split at h
        · cases h
        · cases h; exact Nat.mod_lt _ (by omega)
    run [i_iterator, encValues, Values.sizeHint, h, LV.field, hn]

theorem values_count (τ : Types α β) (d : Nat) (v : Values) (hv : v.max < τ.build.usizeLim) :
    val (i_iterator.run τ (d + 1) .count [encValues v]) = Option.some ((Values.count τ.build v).map .num) := by
  obtain ⟨T, S, B⟩ := τ
  obtain ⟨c, m⟩ := v
  cases h : uSub B m c with
  | error e => run [i_iterator, encValues, Values.count, h, LV.field]
  | ok n =>
    have hn : n % B.usizeLim = n := by
      refine Nat.mod_eq_of_lt ?_
      simp only at hv
      unfold uSub at h
      split at h
      · cases h; omega
      · split at h
        · cases h
        · cases h; exact Nat.mod_lt _ (by omega)
    run [i_iterator, encValues, Values.count, h, LV.field, hn]

theorem values_last {E : EnumLike α} (τ : Types α β) (h : Refines τ.build τ.T E) (d : Nat) (v : Values) (hv : v.max < τ.build.usizeLim) :
    val (i_iterator.run τ (d + 2) .last [encValues v]) = Option.some ((Values.last E v).map encOption) := by
  obtain ⟨T, S, B⟩ := τ
  obtain ⟨c, m⟩ := v
  by_cases hm : m = 0
  · run [i_iterator, encValues, Values.last, hm, LV.field, LV.setField, Env.set, encOption]
  · by_cases hc : c = m
    · run [i_iterator, encValues, Values.last, hm, hc, LV.field, LV.setField, Env.set, encOption]
    · have hlt : m - 1 < m := by omega
      have h1 := h.from (m - 1) (Nat.lt_trans hlt hv)
      have h2 : uAdd B (m - 1) 1 = .ok (m - 1 + 1) := uAdd_ok (by simp only at hv; show m - 1 + 1 < B.usizeLim; omega)
      have h4 : uSub B m 1 = .ok (m - 1) := uSub_ok (by omega)
      cases h3 : E.fromDiscr (m - 1) <;> simp only [h3] at h1 <;>
        run [i_iterator, encValues, Values.last, Values.next, hm, hc, hlt, h1, h2, h3, h4, LV.field, LV.setField, Env.set, encOption, callArgs]

theorem values_nth {E : EnumLike α} (τ : Types α β) (h : Refines τ.build τ.T E) (d : Nat) (v : Values) (hv : v.max < τ.build.usizeLim) (n : Nat) :
    i_iterator.run τ (d + 2) .nth [encValues v, .num n] = encStep (Values.nth E τ.build n v) := by
  obtain ⟨T, S, B⟩ := τ
  obtain ⟨c, m⟩ := v
  cases h4 : uAdd B c n with
  | error e => run [i_iterator, encValues, encStep, Values.nth, h4, LV.field, LV.setField, Env.set, encOption]
  | ok k =>
    by_cases hc : k < m
    · have h1 := h.from k (Nat.lt_trans hc hv)
      have h2 : uAdd B k 1 = .ok (k + 1) := uAdd_ok (by simp only at hv; show k + 1 < B.usizeLim; omega)
      cases h3 : E.fromDiscr k <;> simp only [h3] at h1 <;>
        run [i_iterator, encValues, encStep, Values.nth, Values.next, h1, h2, h3, h4, hc, LV.field, LV.setField, Env.set, encOption, callArgs]
    · run [i_iterator, encValues, encStep, Values.nth, h4, hc, LV.field, LV.setField, Env.set, encOption]

/-! ## `PackedU8`, `PackedU16` -/

/-- The structs `PackedU8`, `PackedU16`. -/
def encPacked {W : Nat} (p : Packed W) : LV α β := .fld .discr (.num p.discr.toNat) (.fld ._phantom .unit .recEnd)

theorem packed8_new {E : EnumLike α} (τ : Types α β) (h : Refines τ.build τ.T E) (d : Nat) (a : α) :
    val (i_packed8.run τ (d + 1) .new [.T a]) = Option.some ((Packed.new τ.build E 8 a).map encPacked) := by
  obtain ⟨T, S, B⟩ := τ
  have h1 : T.num = .ok E.num := h.num
  have h2 : T.toDiscr a = .ok (E.toDiscr a) := h.to a
  have hw : 8 < (if B.wide then 64 else 32) := by split <;> omega
  have hm : 2 ^ 8 % B.usizeLim = 256 := Nat.mod_eq_of_lt (B.lt_usizeLim (by omega))
  have hm' : 256 % B.usizeLim = 256 := hm
  have e1 : B.const.usizeLim = B.usizeLim := rfl
  have e2 : B.const.wide = B.wide := rfl
  cases h3 : uSub B.const 256 E.num with
  | error e => run [i_packed8, Packed.new, Packed.checkLimit, h1, h2, h3, hw, hm', e1, e2]
  | ok k =>
    by_cases hk : k ≤ 256 <;> run [i_packed8, Packed.new, Packed.checkLimit, h1, h2, h3, hw, hm', e1, e2, hk, encPacked]

theorem packed16_new {E : EnumLike α} (τ : Types α β) (h : Refines τ.build τ.T E) (d : Nat) (a : α) :
    val (i_packed16.run τ (d + 1) .new [.T a]) = Option.some ((Packed.new τ.build E 16 a).map encPacked) := by
  obtain ⟨T, S, B⟩ := τ
  have h1 : T.num = .ok E.num := h.num
  have h2 : T.toDiscr a = .ok (E.toDiscr a) := h.to a
  have hw : 16 < (if B.wide then 64 else 32) := by split <;> omega
  have hm' : 65536 % B.usizeLim = 65536 := Nat.mod_eq_of_lt (B.lt_usizeLim (by omega))
  have e1 : B.const.usizeLim = B.usizeLim := rfl
  have e2 : B.const.wide = B.wide := rfl
  cases h3 : uSub B.const 65536 E.num with
  | error e => run [i_packed16, Packed.new, Packed.checkLimit, h1, h2, h3, hw, hm', e1, e2]
  | ok k =>
    by_cases hk : k ≤ 65536 <;> run [i_packed16, Packed.new, Packed.checkLimit, h1, h2, h3, hw, hm', e1, e2, hk, encPacked]

theorem packed8_get {E : EnumLike α} (τ : Types α β) (h : Refines τ.build τ.T E) (d : Nat) (p : Packed 8) :
    val (i_packed8.run τ (d + 1) .get [encPacked p]) = Option.some ((match Packed.get E p with
      | Option.some a => .ok a
      | Option.none => .error .badDiscr : Except Fault α).map .T) := by
  obtain ⟨T, S, B⟩ := τ
  have hlt : p.discr.toNat < B.usizeLim := B.lt_usizeLim (by have := p.discr.isLt; omega)
  have h1 := h.from p.discr.toNat hlt
  have h2 := Nat.mod_eq_of_lt hlt
  cases h3 : E.fromDiscr p.discr.toNat <;> simp only [h3] at h1 <;> run [i_packed8, Packed.get, encPacked, LV.field, h1, h2, h3]

theorem packed16_get {E : EnumLike α} (τ : Types α β) (h : Refines τ.build τ.T E) (d : Nat) (p : Packed 16) :
    val (i_packed16.run τ (d + 1) .get [encPacked p]) = Option.some ((match Packed.get E p with
      | Option.some a => .ok a
      | Option.none => .error .badDiscr : Except Fault α).map .T) := by
  obtain ⟨T, S, B⟩ := τ
  have hlt : p.discr.toNat < B.usizeLim := B.lt_usizeLim (by have := p.discr.isLt; omega)
  have h1 := h.from p.discr.toNat hlt
  have h2 := Nat.mod_eq_of_lt hlt
  cases h3 : E.fromDiscr p.discr.toNat <;> simp only [h3] at h1 <;> run [i_packed16, Packed.get, encPacked, LV.field, h1, h2, h3]

end Like
end Source
end EnumVecModel
