import Verif.Lemmas.NumStep

set_option linter.unusedSectionVars false

/-! # A vector of numbers, whatever the implementation of `EnumLike` (C63) -/

namespace EnumVecModel
open EV

variable {α τ : Type}

/-- The same result without elements. -/
def Out.cast {β : Type} : Out α → Out β
  | .num n => .num n
  | .bool b => .bool b
  | .hash l => .hash l
  | .panic => .panic
  | .invalid => .invalid
  | .oom => .oom
  | .ub => .ub
  | _ => .unit

/-- There is no element in the result. -/
def Out.Plain : Out α → Prop
  | .val _ | .item _ | .list _ | .iter _ => False
  | _ => True

theorem Out.cast_inj {β : Type} {a b : Out α} (ha : a.Plain) (hb : b.Plain) (h : (a.cast : Out β) = b.cast) : a = b := by
  cases a <;> cases b <;> first | exact ha.elim | exact hb.elim | rfl | (simp [Out.cast] at h) <;> try rw [h]

theorem Fault.out_cast {β : Type} (e : Fault) : (e.out : Out β) = (e.out : Out α).cast := by cases e <;> rfl

theorem Fault.out_plain (e : Fault) : (e.out : Out α).Plain := by cases e <;> trivial

/-- The same variables, of the instance of numbers. -/
def Mem.nums {c : Inst α} (m : Mem c τ) : Mem c.nums τ := ⟨m.reg, m.world⟩

/-- The numbers as numbers. -/
def Vecs.vals {n : Nat} (v : Vecs (Fin n) τ) : Vecs Nat τ := ⟨fun r => (v.reg r).map Fin.val, v.world⟩

section
variable {c : Inst α}

theorem NumSame.exists {m : Mem c τ} {v : Vecs Nat τ} (h : NumSame c m v) : ∃ u : Vecs (Fin (2 ^ c.bits)) τ, v = u.vals := by
  refine ⟨⟨fun r => (h.reg r).exists.choose, v.world⟩, ?_⟩
  unfold Vecs.vals
  dsimp only
  have : (fun r => List.map Fin.val (h.reg r).exists.choose) = v.reg := funext fun r => (h.reg r).exists.choose_spec.symm
  rw [this]

theorem numSame_iff (hc : c.Sound) {m : Mem c τ} {u : Vecs (Fin (2 ^ c.bits)) τ} : NumSame c m u.vals ↔ Same c.nums m.nums u :=
  ⟨fun h => ⟨h.world, fun r => (h.reg r).is hc⟩, fun h => ⟨h.world, fun r => Is.isNums hc (h.reg r)⟩⟩

/-- The call of the instance of numbers is the same call. -/
structure StepEq (m : Mem c τ) (op : Op τ α) (op' : Op τ (Fin (2 ^ c.bits))) : Prop where
  out : (step c m op).1 = (step c.nums m.nums op').1.cast
  mem : (step c m op).2.nums = (step c.nums m.nums op').2
  plain : (step c.nums m.nums op').1.Plain

structure VecEq (c : Inst α) (u : Vecs (Fin (2 ^ c.bits)) τ) (op : Op τ α) (op' : Op τ (Fin (2 ^ c.bits))) : Prop where
  eq : numStep c.E u.vals op = ((vecStep c.nums.E u op').1.cast, (vecStep c.nums.E u op').2.vals)
  plain : (vecStep c.nums.E u op').1.Plain

theorem same_of_eq (hc : c.Sound) {m : Mem c τ} {u : Vecs (Fin (2 ^ c.bits)) τ} (h : NumSame c m u.vals) {op : Op τ α} {op' : Op τ (Fin (2 ^ c.bits))}
    (hb : op'.Borrows) (hoom : (step c m op).1 ≠ .oom) (h1 : StepEq m op op') (h2 : VecEq c u op op')
    (h3 : Agrees c.nums m.nums u op' ↔ NumAgrees c m u.vals op) : SameNumCall c m u.vals op ↔ NumAgrees c m u.vals op := by
  have key := C60_exact (nums_ok hc) ((numSame_iff hc).mp h) op' hb (fun he => hoom (by rw [h1.out, he]; rfl))
  rw [← h3, ← key]
  unfold SameNumCall SameCall
  rw [h2.eq, h1.out, numSame_iff hc, h1.mem]
  exact and_congr_left fun _ => ⟨Out.cast_inj h1.plain h2.plain, congrArg Out.cast⟩

theorem stepEq_call {β : Type} {m : Mem c τ} {op : Op τ α} {op' : Op τ (Fin (2 ^ c.bits))} {r : Nat} (f : M (EV c.W) β) {f' : M (EV c.W) β}
    (hf : f' = f) (out : β → Out (Fin (2 ^ c.bits))) (hp : ∀ b, (out b).Plain)
    (h1 : step c m op = m.call r f (fun b => (out b).cast)) (h2 : step c.nums m.nums op' = m.nums.call r f' out) : StepEq m op op' := by
  subst hf
  have e : m.nums.reg r = m.reg r := rfl
  rcases hx : f' (m.reg r) with ⟨e | b, s⟩
  · have e1 : m.call r f' (fun b => (out b).cast) = (e.out, { m with reg := upd m.reg r s }) := by unfold Mem.call; rw [hx]
    have e2 : m.nums.call r f' out = (e.out, { m.nums with reg := upd m.nums.reg r s }) := by unfold Mem.call; rw [show f' (m.nums.reg r) = _ from hx]
    rw [e1] at h1
    rw [e2] at h2
    refine ⟨?_, ?_, ?_⟩
    · rw [h1, h2]; exact Fault.out_cast e
    · rw [h1, h2]; rfl
    · rw [h2]; exact Fault.out_plain e
  · have e1 : m.call r f' (fun b => (out b).cast) = ((out b).cast, { m with reg := upd m.reg r s }) := by unfold Mem.call; rw [hx]
    have e2 : m.nums.call r f' out = (out b, { m.nums with reg := upd m.nums.reg r s }) := by unfold Mem.call; rw [show f' (m.nums.reg r) = _ from hx]
    rw [e1] at h1
    rw [e2] at h2
    refine ⟨?_, ?_, ?_⟩
    · rw [h1, h2]
    · rw [h1, h2]; rfl
    · rw [h2]; exact hp b

theorem stepEq_assign {m : Mem c τ} {op : Op τ α} {op' : Op τ (Fin (2 ^ c.bits))} {r : Nat} (f : Except Fault (EV c.W)) {f' : Except Fault (EV c.W)}
    (hf : f' = f) (h1 : step c m op = m.assign r f) (h2 : step c.nums m.nums op' = m.nums.assign r f') : StepEq m op op' := by
  subst hf
  rcases f' with e | s
  · refine ⟨?_, ?_, ?_⟩
    · rw [h1, h2]; exact Fault.out_cast e
    · rw [h1, h2]; rfl
    · rw [h2]; exact Fault.out_plain e
  · refine ⟨?_, ?_, ?_⟩
    · rw [h1, h2]; rfl
    · rw [h1, h2]; rfl
    · rw [h2]; trivial

theorem stepEq_ask {β : Type} {m : Mem c τ} {op : Op τ α} {op' : Op τ (Fin (2 ^ c.bits))} (f : Except Fault β) {f' : Except Fault β}
    (hf : f' = f) (out : β → Out (Fin (2 ^ c.bits))) (hp : ∀ b, (out b).Plain)
    (h1 : step c m op = m.ask f (fun b => (out b).cast)) (h2 : step c.nums m.nums op' = m.nums.ask f' out) : StepEq m op op' := by
  subst hf
  rcases f' with e | b
  · refine ⟨?_, ?_, ?_⟩
    · rw [h1, h2]; exact Fault.out_cast e
    · rw [h1, h2]; rfl
    · rw [h2]; exact Fault.out_plain e
  · refine ⟨?_, ?_, ?_⟩
    · rw [h1, h2]; rfl
    · rw [h1, h2]; rfl
    · rw [h2]; exact hp b

theorem vals_upd {n : Nat} (u : Vecs (Fin n) τ) (r : Nat) (l : List (Fin n)) :
    { u.vals with reg := upd u.vals.reg r (l.map Fin.val) } = Vecs.vals { u with reg := upd u.reg r l } := by
  unfold Vecs.vals
  dsimp only
  congr 1
  funext q
  unfold upd
  split <;> rfl

theorem vals_len {n : Nat} (u : Vecs (Fin n) τ) (r : Nat) : (u.vals.reg r).length = (u.reg r).length := List.length_map _

theorem VecEq.assign {u : Vecs (Fin (2 ^ c.bits)) τ} {op : Op τ α} {op' : Op τ (Fin (2 ^ c.bits))} {r : Nat} {l : List (Fin (2 ^ c.bits))}
    {ds : List Nat} {o : Out α} {o' : Out (Fin (2 ^ c.bits))} (ho : o = o'.cast) (hp : o'.Plain)
    (hl : ds = l.map Fin.val) (h1 : numStep c.E u.vals op = (o, { u.vals with reg := upd u.vals.reg r ds }))
    (h2 : vecStep c.nums.E u op' = (o', { u with reg := upd u.reg r l })) : VecEq c u op op' := by
  subst hl ho
  refine ⟨?_, ?_⟩
  · rw [h1, h2, vals_upd]
  · rw [h2]; exact hp

theorem VecEq.keep {u : Vecs (Fin (2 ^ c.bits)) τ} {op : Op τ α} {op' : Op τ (Fin (2 ^ c.bits))} {o : Out α} {o' : Out (Fin (2 ^ c.bits))}
    (ho : o = o'.cast) (hp : o'.Plain) (h1 : numStep c.E u.vals op = (o, u.vals)) (h2 : vecStep c.nums.E u op' = (o', u)) : VecEq c u op op' := by
  subst ho
  refine ⟨?_, ?_⟩
  · rw [h1, h2]
  · rw [h2]; exact hp

theorem map_enc (hr : ∀ x, c.E.toDiscr x < 2 ^ c.bits) (xs : List α) : xs.map c.E.toDiscr = (xs.map (c.enc hr)).map Fin.val := by
  rw [List.map_map]; rfl

theorem nums_unusedBits (s : EV c.W) (j : Nat) : unusedBits c.nums s j = unusedBits c s j := by
  unfold unusedBits; rw [nums_epb, nums_bits]

theorem map_val_inj {n : Nat} {a b : List (Fin n)} : a.map Fin.val = b.map Fin.val ↔ a = b :=
  List.map_inj_right (fun _ _ => Fin.val_inj.mp)

theorem NumSame.upd {m : Mem c τ} {v : Vecs Nat τ} (h : NumSame c m v) (r : Nat) {s : EV c.W} {l : List Nat} (hs : IsNums c s l) :
    NumSame c { m with reg := upd m.reg r s } { v with reg := EnumVecModel.upd v.reg r l } := by
  refine ⟨h.world, fun q => ?_⟩
  by_cases hq : q = r
  · subst hq; simpa only [upd_same] using hs
  · simpa only [upd_ne _ _ hq] using h.reg q

theorem NumSame.keep {m : Mem c τ} {v : Vecs Nat τ} (h : NumSame c m v) (r : Nat) : NumSame c { m with reg := EnumVecModel.upd m.reg r (m.reg r) } v := by
  refine ⟨h.world, fun q => ?_⟩
  by_cases hq : q = r
  · subst hq; simpa only [upd_same] using h.reg q
  · simpa only [upd_ne _ _ hq] using h.reg q

/-- **C63** Whatever the implementation of `EnumLike`, as long as its numbers fit in an element: in any state in which the `EnumVec`s store
the numbers in the lists, a call (that is not refused memory) gives exactly what it gives on vectors of numbers, and leaves all vectors and
closures like these, **if and only if** `NumAgrees`. -/
theorem C63_exact (hc : c.Sound) (hr : ∀ x, c.E.toDiscr x < 2 ^ c.bits) {m : Mem c τ} {v : Vecs Nat τ} (h : NumSame c m v) (op : Op τ α)
    (hb : op.Borrows) (hoom : (step c m op).1 ≠ .oom) : SameNumCall c m v op ↔ NumAgrees c m v op := by
  obtain ⟨u, rfl⟩ := h.exists
  cases op with
  | new r => exact same_of_eq hc h (op' := .new r) trivial hoom (stepEq_assign (.ok (EV.new c)) rfl rfl rfl) (.assign (l := []) (o' := .unit) rfl trivial rfl rfl rfl) Iff.rfl
  | withCapacity r n =>
    exact same_of_eq hc h (op' := .withCapacity r n) trivial hoom (stepEq_assign _ (congrFun (nums_withCapacity c) n) rfl rfl)
      (.assign (l := []) (o' := .unit) rfl trivial rfl rfl rfl) Iff.rfl
  | fromElem r x n =>
    exact same_of_eq hc h (op' := .fromElem r (c.enc hr x) n) trivial hoom (stepEq_assign _ (nums_fromElem hr x n) rfl rfl)
      (.assign (o' := .unit) rfl trivial (l := List.replicate n (c.enc hr x)) (by rw [List.map_replicate]; rfl) rfl rfl) Iff.rfl
  | fromVec r xs =>
    exact same_of_eq hc h (op' := .fromVec r (xs.map (c.enc hr))) trivial hoom (stepEq_assign _ (nums_fromVec hr xs) rfl rfl)
      (.assign (o' := .unit) rfl trivial (map_enc hr xs) rfl rfl) (by
        show ¬ c.nums.AtLimit (xs.map (c.enc hr)).length ↔ ¬ c.AtLimit xs.length
        rw [List.length_map, nums_atLimit])
  | fromSlice r xs =>
    exact same_of_eq hc h (op' := .fromSlice r (xs.map (c.enc hr))) trivial hoom (stepEq_assign _ (nums_fromSlice hr xs) rfl rfl)
      (.assign (o' := .unit) rfl trivial (map_enc hr xs) rfl rfl) (by
        show ¬ c.nums.AtLimit (xs.map (c.enc hr)).length ↔ ¬ c.AtLimit xs.length
        rw [List.length_map, nums_atLimit])
  | fromIter r it =>
    refine same_of_eq hc h (op' := .fromIter r (Inst.encSrc hr it)) trivial hoom (stepEq_assign _ (nums_fromIter hr it) rfl rfl) ?_ ?_
    · cases hp : it.panics with
      | true => exact .keep (o' := .panic) rfl trivial (if_pos hp) (if_pos hp)
      | false => exact .assign (o' := .unit) rfl trivial (map_enc hr it.items) (if_neg (by rw [hp]; decide)) (if_neg (by
          show ¬ it.panics = true; rw [hp]; decide))
    · show (if c.nums.AtLimit it.hint then (c.build.checked = true ∨ it.items.map (c.enc hr) = []) ∧ it.panics = true
        else it.hint ≤ (it.items.map (c.enc hr)).length ∨ it.panics = true) ↔
        (if c.AtLimit it.hint then (c.build.checked = true ∨ it.items = []) ∧ it.panics = true else it.hint ≤ it.items.length ∨ it.panics = true)
      simp only [nums_atLimit, List.length_map, List.map_eq_nil_iff]
  | clone r src =>
    exact same_of_eq hc h (op' := .clone r src) trivial hoom (stepEq_assign _ (nums_clone (m.reg src)) rfl rfl)
      (.assign (l := u.reg src) (o' := .unit) rfl trivial rfl rfl rfl) Iff.rfl
  | len r =>
    exact same_of_eq hc h (op' := .len r) trivial hoom ⟨rfl, rfl, trivial⟩
      (.keep (o' := .num (u.reg r).length) (by rw [vals_len]; rfl) trivial rfl rfl) Iff.rfl
  | isEmpty r =>
    refine same_of_eq hc h (op' := .isEmpty r) trivial hoom ⟨rfl, rfl, trivial⟩
      (.keep (o := .bool (u.vals.reg r).isEmpty) (o' := .bool (u.reg r).isEmpty) ?_ trivial rfl rfl) Iff.rfl
    show _ = Out.bool _
    rw [show (u.vals.reg r).isEmpty = (u.reg r).isEmpty from List.isEmpty_map]
  | get r i =>
    refine ⟨fun _ => trivial, fun _ => ?_⟩
    have hg := (h.reg r).get hc i
    unfold SameNumCall
    simp only [step, numStep, Mem.call, hg]
    cases (u.vals.reg r)[i]? with
    | none => exact ⟨rfl, h.keep r⟩
    | some d =>
      dsimp only
      cases c.E.fromDiscr d with
      | none => exact ⟨rfl, h.keep r⟩
      | some x => exact ⟨rfl, h.keep r⟩
  | set r i x =>
    refine same_of_eq hc h (op' := .set r i (c.enc hr x)) trivial hoom
      (stepEq_call _ (nums_set x (c.enc hr x) rfl i) (fun _ => .unit) (fun _ => trivial) rfl rfl) ?_ Iff.rfl
    by_cases hi : i < (u.reg r).length
    · exact .assign (l := (u.reg r).set i (c.enc hr x)) (o' := .unit) rfl trivial (by rw [List.map_set]; rfl)
        (if_pos (by rw [vals_len]; exact hi)) (if_pos hi)
    · exact .keep (o' := .panic) rfl trivial (if_neg (by rw [vals_len]; exact hi)) (if_neg hi)
  | push r x =>
    exact same_of_eq hc h (op' := .push r (c.enc hr x)) trivial hoom
      (stepEq_call _ (nums_push x (c.enc hr x) rfl) (fun _ => .unit) (fun _ => trivial) rfl rfl)
      (.assign (l := u.reg r ++ [c.enc hr x]) (o' := .unit) rfl trivial (by rw [List.map_append]; rfl) rfl rfl) Iff.rfl
  | pop r =>
    refine ⟨fun _ => trivial, fun _ => ?_⟩
    have hg := (h.reg r).pop hc
    unfold SameNumCall
    simp only [step, numStep, Mem.call, hg]
    cases hl : (u.vals.reg r).getLast? with
    | none => exact ⟨rfl, h.keep r⟩
    | some d =>
      dsimp only
      cases c.E.fromDiscr d with
      | none => exact ⟨rfl, h.keep r⟩
      | some x =>
        refine ⟨rfl, h.upd r ?_⟩
        have hlen : (m.reg r).num = _ := (h.reg r).len
        have := (h.reg r).take (n := (m.reg r).num - 1) (by omega)
        rwa [show (u.vals.reg r).take ((m.reg r).num - 1) = (u.vals.reg r).dropLast by rw [hlen, List.dropLast_eq_take]] at this
  | insert r i x =>
    refine same_of_eq hc h (op' := .insert r i (c.enc hr x)) trivial hoom
      (stepEq_call _ (nums_insert x (c.enc hr x) rfl i) (fun _ => .unit) (fun _ => trivial) rfl rfl) ?_ ?_
    · by_cases hi : i ≤ (u.reg r).length
      · exact .assign (l := (u.reg r).take i ++ c.enc hr x :: (u.reg r).drop i) (o' := .unit) rfl trivial
          (by rw [List.map_append, List.map_cons, List.map_take, List.map_drop]; rfl)
          (if_pos (by rw [vals_len]; exact hi)) (if_pos hi)
      · exact .keep (o' := .panic) rfl trivial (if_neg (by rw [vals_len]; exact hi)) (if_neg hi)
    · show _ ∧ _ ↔ _ ∧ _
      rw [nums_bits, vals_len]
      refine and_congr_right fun _ => or_congr_right (and_congr_right fun _ => ?_)
      rw [show (u.vals.reg r).drop i = ((u.reg r).drop i).map Fin.val from List.map_drop.symm, List.forall_mem_map]
      exact forall₂_congr fun y _ => ⟨fun e => by rw [e]; rfl, fun e => Fin.val_inj.mp e⟩
  | remove r i =>
    show SameNumCall c m u.vals (.remove r i) ↔ (∀ d, (u.vals.reg r)[i]? = some d → c.E.fromDiscr d = none) ∨ _
    cases hd : (u.vals.reg r)[i]? with
    | none =>
      refine ⟨fun _ => Or.inl nofun, fun _ => ?_⟩
      have hg := (h.reg r).get hc i
      rw [hd] at hg
      have hrm : EV.remove c i (m.reg r) = (.error .unwrapNone, m.reg r) := by unfold EV.remove; rw [M.bind_ok hg]; rfl
      unfold SameNumCall
      simp only [step, numStep, Mem.call, hrm, hd]
      exact ⟨rfl, h.keep r⟩
    | some d =>
      cases hx : c.E.fromDiscr d with
      | none =>
        refine ⟨fun _ => Or.inl fun d' e => ?_, fun _ => ?_⟩
        · cases e; exact hx
        have hg := (h.reg r).get hc i
        rw [hd] at hg
        dsimp only at hg
        rw [hx] at hg
        have hrm : EV.remove c i (m.reg r) = (.error .badDiscr, m.reg r) := by unfold EV.remove; rw [M.bind_error hg]
        unfold SameNumCall
        simp only [step, numStep, Mem.call, hrm, hd, hx]
        exact ⟨rfl, h.keep r⟩
      | some x =>
        rw [or_iff_right (fun e => by have := e d rfl; rw [hx] at this; cases this)]
        have hrm := nums_remove hc (h.reg r) hd hx
        have hud : ∃ y, (u.reg r)[i]? = some y ∧ y.val = d := by
          have : ((u.reg r).map Fin.val)[i]? = some d := hd
          rw [List.getElem?_map] at this
          rcases hy : (u.reg r)[i]? with _ | y <;> rw [hy] at this
          · cases this
          · exact ⟨y, rfl, Option.some.inj this⟩
        obtain ⟨y, hy, rfl⟩ := hud
        have e2 : vecStep c.nums.E u (.remove r i) = (.val y, { u with reg := upd u.reg r ((u.reg r).take i ++ (u.reg r).drop (i + 1)) }) := by
          simp only [vecStep, hy]
        have e3 : numStep c.E u.vals (.remove r i) = (.val x, Vecs.vals { u with reg := upd u.reg r ((u.reg r).take i ++ (u.reg r).drop (i + 1)) }) := by
          simp only [numStep, hd, hx]
          rw [← vals_upd, List.map_append, List.map_take, List.map_drop]
          rfl
        have h0 := (numSame_iff hc).mp h
        have hlt : i < (u.reg r).length := (List.getElem?_eq_some_iff.mp hy).1
        have hA : Agrees c.nums m.nums u (.remove r i) ↔ (if c.bits < c.W then ∀ (j d : Nat), i / c.epb < j → (u.vals.reg r)[(j + 1) * c.epb]? = some d → unusedBits c (m.reg r) j ||| d = d
            else if c.build.checked then (u.vals.reg r).length ≤ i + 2
            else ∀ k d e : Nat, ((u.vals.reg r).drop (i + 1))[k]? = some d → ((u.vals.reg r).drop (i + 2))[k]? = some e → d ||| e = e) := by
          show _ ∨ _ ↔ _
          rw [or_iff_right (by omega), nums_bits, nums_epb]
          have hm : ∀ k, (u.vals.reg r)[k]? = (u.reg r)[k]?.map Fin.val := fun k => List.getElem?_map ..
          have hm2 : ∀ k d, (u.vals.reg r)[k]? = some d ↔ ∃ y : Fin (2 ^ c.bits), (u.reg r)[k]? = some y ∧ y.val = d := fun k d => by
            rw [hm, Option.map_eq_some_iff]
          by_cases hw : c.bits < c.W
          · rw [if_pos hw, if_pos hw]
            constructor
            · intro H j d hj hd
              obtain ⟨y, hy, rfl⟩ := (hm2 _ _).mp hd
              have := H j y hj hy
              rw [nums_unusedBits] at this
              exact this
            · intro H j y hj hy
              rw [nums_unusedBits]
              exact H j y.val hj ((hm2 _ _).mpr ⟨y, hy, rfl⟩)
          · rw [if_neg hw, if_neg hw]
            show (if c.build.checked = true then _ else _) ↔ (if c.build.checked = true then _ else _)
            cases c.build.checked with
            | true => rw [if_pos rfl, if_pos rfl, vals_len]
            | false =>
              rw [if_neg (by decide), if_neg (by decide)]
              constructor
              · intro H k d e hd he
                rw [List.getElem?_drop, hm2] at hd he
                obtain ⟨y, hy, rfl⟩ := hd
                obtain ⟨z, hz, rfl⟩ := he
                exact H k y z (by rw [List.getElem?_drop]; exact hy) (by rw [List.getElem?_drop]; exact hz)
              · intro H k y z hy hz
                rw [List.getElem?_drop] at hy hz
                exact H k y.val z.val (by rw [List.getElem?_drop, hm2]; exact ⟨y, hy, rfl⟩) (by rw [List.getElem?_drop, hm2]; exact ⟨z, hz, rfl⟩)
        have hval : ∀ z, (EV.remove c.nums i (m.reg r)).1 = .ok z → z = y := fun z hz => Fin.val_inj.mp (nums_remove_val hc (h.reg r) hd hz)
        have e4 : SameNumCall c m u.vals (.remove r i) ↔ SameCall c.nums m.nums u (.remove r i) := by
          unfold SameNumCall SameCall
          rw [e2, e3, numSame_iff hc]
          simp only [step, Mem.call, hrm]
          rw [show m.nums.reg r = m.reg r from rfl]
          rcases hq : EV.remove c.nums i (m.reg r) with ⟨e | z, s⟩
          · refine ⟨fun hs => absurd hs.1 ?_, fun hs => absurd hs.1 ?_⟩
            · show Fault.out e ≠ _; cases e <;> exact nofun
            · show Fault.out e ≠ _; cases e <;> exact nofun
          · rw [hq] at hval
            rw [hval z rfl]
            exact ⟨fun hs => ⟨rfl, hs.2⟩, fun hs => ⟨rfl, hs.2⟩⟩
        rw [← hA, e4]
        refine C60_exact (nums_ok hc) h0 (.remove r i) trivial fun he => hoom ?_
        revert he
        simp only [step, Mem.call, hrm]
        rw [show m.nums.reg r = m.reg r from rfl]
        rcases EV.remove c.nums i (m.reg r) with ⟨e | z, s⟩
        · show Fault.out e = _ → Fault.out e = _; cases e <;> (intro he; first | rfl | cases he)
        · exact nofun
  | swap r i j =>
    refine same_of_eq hc h (op' := .swap r i j) trivial hoom
      (stepEq_call _ (congrFun (congrFun (nums_swap c) i) j) (fun _ => .unit) (fun _ => trivial) rfl rfl) ?_ Iff.rfl
    have hm : ∀ k, (u.vals.reg r)[k]? = (u.reg r)[k]?.map Fin.val := fun k => List.getElem?_map ..
    rcases hi : (u.reg r)[i]? with _ | d
    · exact .keep (o' := .panic) rfl trivial (by simp only [numStep, hm, hi]; rfl) (by simp only [vecStep, hi])
    · rcases hj : (u.reg r)[j]? with _ | e
      · exact .keep (o' := .panic) rfl trivial (by simp only [numStep, hm, hi, hj]; rfl) (by simp only [vecStep, hi, hj])
      · exact .assign (l := ((u.reg r).set i e).set j d) (o' := .unit) rfl trivial (by rw [List.map_set, List.map_set])
          (by simp only [numStep, hm, hi, hj]; rfl) (by simp only [vecStep, hi, hj])
  | swapRemove r i =>
    refine ⟨fun _ => trivial, fun _ => ?_⟩
    have hR := h.reg r
    have hlen : (m.reg r).num = (u.vals.reg r).length := hR.len
    cases hd : (u.vals.reg r)[i]? with
    | none =>
      have hi : (u.reg r).length ≤ i := by rw [← vals_len]; exact List.getElem?_eq_none_iff.mp hd
      obtain ⟨e, h1, h2⟩ := C10_swap_remove_oob (nums_ok hc) (hR.is hc) hi
      have h3 : swapRemove c i (m.reg r) = (.error e, m.reg r) := by
        revert h1
        unfold EV.swapRemove
        rw [M.read_bind, M.read_bind, nums_swap]
        show (M.lift (uSub c.build (m.reg r).num 1) >>= _) (m.reg r) = _ → (M.lift (uSub c.build (m.reg r).num 1) >>= _) (m.reg r) = _
        rw [M.bind_apply, M.bind_apply, M.lift_apply]
        rcases uSub c.build (m.reg r).num 1 with e' | k
        · intro h1; cases h1; rfl
        · dsimp only
          have hs : swap c i k (m.reg r) = (.error .unwrapNone, m.reg r) := by
            rw [← nums_swap]; exact C10_swap_oob (nums_ok hc) (hR.is hc) (Or.inl hi)
          rw [M.bind_error hs, M.bind_error hs]
          intro h1; cases h1; rfl
      unfold SameNumCall
      simp only [step, numStep, Mem.call, h3, hd]
      refine ⟨?_, h.keep r⟩
      rcases h2 with rfl | rfl <;> rfl
    | some d =>
      obtain ⟨hi, -⟩ := List.getElem?_eq_some_iff.mp hd
      have hl : ∃ e, (u.vals.reg r)[(u.vals.reg r).length - 1]? = some e := ⟨_, List.getElem?_eq_getElem (by omega)⟩
      obtain ⟨e, he⟩ := hl
      obtain ⟨s', h1, h2⟩ := swap_nums hc hR hd he
      have hsub : uSub c.build (len c (m.reg r)) 1 = .ok ((u.vals.reg r).length - 1) := by
        show uSub c.build (m.reg r).num 1 = _
        unfold uSub
        rw [if_pos (by omega), hlen]
      have hlast : (((u.vals.reg r).set i e).set ((u.vals.reg r).length - 1) d).getLast? = some d := by
        rw [List.getLast?_eq_getElem?, List.length_set, List.length_set, List.getElem?_set_self (by rw [List.length_set]; omega)]
      have hp := h2.pop hc
      rw [hlast] at hp
      dsimp only at hp
      have hl2 : (u.vals.reg r).getLast? = some e := by rw [List.getLast?_eq_getElem?]; exact he
      have hdrop : (((u.vals.reg r).set i e).set ((u.vals.reg r).length - 1) d).take ((u.vals.reg r).length - 1) = ((u.vals.reg r).set i e).dropLast := by
        rw [List.take_set_of_le (Nat.le_refl _), List.dropLast_eq_take, List.length_set]
      have hsn : s'.num = (u.vals.reg r).length := by have := h2.len; rw [List.length_set, List.length_set] at this; exact this
      unfold SameNumCall
      cases hx : c.E.fromDiscr d with
      | none =>
        rw [hx] at hp
        have h3 : swapRemove c i (m.reg r) = (.error .badDiscr, s') := by
          unfold EV.swapRemove
          rw [M.read_bind, hsub, M.lift_ok_bind, M.bind_ok h1, M.bind_error hp]
        simp only [step, numStep, Mem.call, h3, hd, hl2, hx]
        exact ⟨rfl, h.upd r h2⟩
      | some x =>
        rw [hx] at hp
        have h3 : swapRemove c i (m.reg r) = (.ok x, { s' with num := s'.num - 1 }) := by
          unfold EV.swapRemove
          rw [M.read_bind, hsub, M.lift_ok_bind, M.bind_ok h1, M.bind_ok hp]; rfl
        simp only [step, numStep, Mem.call, h3, hd, hl2, hx]
        refine ⟨trivial, h.upd r ?_⟩
        have := h2.take (n := s'.num - 1) (by rw [List.length_set, List.length_set]; omega)
        rwa [show (((u.vals.reg r).set i e).set ((u.vals.reg r).length - 1) d).take (s'.num - 1) = ((u.vals.reg r).set i e).dropLast by
          rw [hsn, hdrop]] at this
  | truncate r n =>
    exact same_of_eq hc h (op' := .truncate r n) trivial hoom (stepEq_call _ rfl (fun _ => .unit) (fun _ => trivial) rfl rfl)
      (.assign (l := (u.reg r).take n) (o' := .unit) rfl trivial (by rw [List.map_take]; rfl) rfl rfl) Iff.rfl
  | clear r =>
    exact same_of_eq hc h (op' := .clear r) trivial hoom (stepEq_call _ rfl (fun _ => .unit) (fun _ => trivial) rfl rfl)
      (.assign (l := []) (o' := .unit) rfl trivial rfl rfl rfl) Iff.rfl
  | resize r n x =>
    exact same_of_eq hc h (op' := .resize r n (c.enc hr x)) trivial hoom
      (stepEq_call _ (nums_resize hr n x) (fun _ => .unit) (fun _ => trivial) rfl rfl)
      (.assign (l := (u.reg r).take n ++ List.replicate (n - (u.reg r).length) (c.enc hr x)) (o' := .unit) rfl trivial
        (by rw [List.map_append, List.map_take, List.map_replicate, vals_len]; rfl) rfl rfl) Iff.rfl
  | reserve r n =>
    exact same_of_eq hc h (op' := .reserve r n) trivial hoom
      (stepEq_call _ (congrFun (nums_reserve c) n) (fun _ => .unit) (fun _ => trivial) rfl rfl)
      (.keep (o' := .unit) rfl trivial rfl rfl) (by
        show (c.nums.AtLimit ((u.reg r).length + n) → c.build.checked = false ∧ u.reg r = []) ↔
          (c.AtLimit ((u.vals.reg r).length + n) → c.build.checked = false ∧ u.vals.reg r = [])
        have : u.vals.reg r = [] ↔ u.reg r = [] := by rw [← List.length_eq_zero_iff, vals_len, List.length_eq_zero_iff]
        rw [nums_atLimit, vals_len, this])
  | shrinkToFit r =>
    exact same_of_eq hc h (op' := .shrinkToFit r) trivial hoom
      (stepEq_call _ (nums_shrinkToFit c) (fun _ => .unit) (fun _ => trivial) rfl rfl)
      (.keep (o' := .unit) rfl trivial rfl rfl) Iff.rfl
  | extend r it =>
    refine same_of_eq hc h (op' := .extend r (Inst.encSrc hr it)) trivial hoom
      (stepEq_call _ (nums_extend hr it) (fun _ => .unit) (fun _ => trivial) rfl rfl)
      (.assign (l := u.reg r ++ it.items.map (c.enc hr)) (o' := if it.panics then .panic else .unit) ?_ ?_
        (by rw [List.map_append, ← map_enc]; rfl) rfl rfl) ?_
    · cases it.panics <;> rfl
    · cases it.panics <;> trivial
    · show (if c.nums.AtLimit ((u.reg r).length + it.hint) then c.build.checked = true ∧ it.items.map (c.enc hr) = [] ∧ it.panics = true
        else it.hint ≤ (it.items.map (c.enc hr)).length) ↔
        (if c.AtLimit ((u.vals.reg r).length + it.hint) then c.build.checked = true ∧ it.items = [] ∧ it.panics = true else it.hint ≤ it.items.length)
      simp only [nums_atLimit, List.length_map, List.map_eq_nil_iff, vals_len]
  | append r o =>
    refine same_of_eq hc h (op' := .append r o) hb hoom ?_ ⟨?_, trivial⟩ ?_
    · have hx' : EV.append c.nums (m.nums.reg r, m.nums.reg o) = EV.append c (m.reg r, m.reg o) := by rw [nums_append]; rfl
      rcases hx : EV.append c (m.reg r, m.reg o) with ⟨e | b, p⟩ <;> rw [hx] at hx'
      · have e1 : step c m (.append r o) = (e.out, { m with reg := upd (upd m.reg r p.1) o p.2 }) := by simp only [step, hx]
        have e2 : step c.nums m.nums (.append r o) = (e.out, { m.nums with reg := upd (upd m.nums.reg r p.1) o p.2 }) := by simp only [step, hx']
        exact ⟨by rw [e1, e2]; exact Fault.out_cast e, by rw [e1, e2]; rfl, by rw [e2]; exact Fault.out_plain e⟩
      · have e1 : step c m (.append r o) = (.unit, { m with reg := upd (upd m.reg r p.1) o p.2 }) := by simp only [step, hx]
        have e2 : step c.nums m.nums (.append r o) = (.unit, { m.nums with reg := upd (upd m.nums.reg r p.1) o p.2 }) := by simp only [step, hx']
        exact ⟨by rw [e1, e2]; rfl, by rw [e1, e2]; rfl, by rw [e2]; trivial⟩
    · show (Out.unit, { u.vals with reg := upd (upd u.vals.reg r (u.vals.reg r ++ u.vals.reg o)) o [] }) =
        (Out.unit, Vecs.vals { u with reg := upd (upd u.reg r (u.reg r ++ u.reg o)) o [] })
      rw [← vals_upd (Vecs.mk (upd u.reg r (u.reg r ++ u.reg o)) u.world) o []]
      have := congrArg Vecs.reg (vals_upd u r (u.reg r ++ u.reg o))
      rw [List.map_append] at this
      rw [← this]; rfl
    · show _ ∨ _ ∨ _ ↔ _ ∨ _ ∨ _
      rw [nums_epb, vals_len, show u.vals.reg o = (u.reg o).map Fin.val from rfl, List.map_eq_nil_iff]
  | splitOff r at_ d =>
    refine same_of_eq hc h (op' := .splitOff r at_ d) trivial hoom ?_ ?_ ?_
    · have hx' : EV.splitOff c.nums at_ (m.nums.reg r) = EV.splitOff c at_ (m.reg r) := by rw [nums_splitOff]; rfl
      rcases hx : EV.splitOff c at_ (m.reg r) with ⟨e | b, p⟩ <;> rw [hx] at hx'
      · have e1 : step c m (.splitOff r at_ d) = (e.out, { m with reg := upd m.reg r p }) := by simp only [step, hx]
        have e2 : step c.nums m.nums (.splitOff r at_ d) = (e.out, { m.nums with reg := upd m.nums.reg r p }) := by simp only [step, hx']
        exact ⟨by rw [e1, e2]; exact Fault.out_cast e, by rw [e1, e2]; rfl, by rw [e2]; exact Fault.out_plain e⟩
      · have e1 : step c m (.splitOff r at_ d) = (.unit, { m with reg := upd (upd m.reg r p) d b }) := by simp only [step, hx]
        have e2 : step c.nums m.nums (.splitOff r at_ d) = (.unit, { m.nums with reg := upd (upd m.nums.reg r p) d b }) := by simp only [step, hx']
        exact ⟨by rw [e1, e2]; rfl, by rw [e1, e2]; rfl, by rw [e2]; trivial⟩
    · by_cases hi : at_ ≤ (u.reg r).length
      · have e2 : vecStep c.nums.E u (.splitOff r at_ d) = (.unit, { u with reg := upd (upd u.reg r ((u.reg r).take at_)) d ((u.reg r).drop at_) }) := if_pos hi
        have e1 : numStep c.E u.vals (.splitOff r at_ d) =
            (.unit, { u.vals with reg := upd (upd u.vals.reg r ((u.vals.reg r).take at_)) d ((u.vals.reg r).drop at_) }) :=
          if_pos (by rw [vals_len]; exact hi)
        refine ⟨?_, by rw [e2]; trivial⟩
        rw [e1, e2]
        show (Out.unit, _) = (Out.unit, Vecs.vals { u with reg := upd (upd u.reg r ((u.reg r).take at_)) d ((u.reg r).drop at_) })
        rw [← vals_upd (Vecs.mk (upd u.reg r ((u.reg r).take at_)) u.world) d ((u.reg r).drop at_)]
        have := congrArg Vecs.reg (vals_upd u r ((u.reg r).take at_))
        rw [List.map_take] at this
        rw [← this, List.map_drop]; rfl
      · exact .keep (o' := .panic) rfl trivial (if_neg (by rw [vals_len]; exact hi)) (if_neg hi)
    · show _ ≤ _ ↔ _ ≤ _
      rw [vals_len]
  | retain r f =>
    refine ⟨fun _ => trivial, fun _ => ?_⟩
    obtain ⟨s', q, h1, h2⟩ := retain_nums hc hr f (h.reg r) m.world
    rw [h.world] at h1 h2
    unfold SameNumCall
    simp only [step, numStep, Mem.callW, h.world, h1]
    revert h1 h2
    rcases numFilter c.E f (u.vals.reg r) u.vals.world with ⟨kept, w, _ | o⟩
    · rintro - ⟨rfl, h2⟩
      exact ⟨rfl, rfl, (h.upd r h2).reg⟩
    · rintro - ⟨⟨e, rfl, rfl⟩, h2⟩
      exact ⟨rfl, rfl, (h.upd r h2).reg⟩
  | forEach r f =>
    refine ⟨fun _ => trivial, fun _ => ?_⟩
    obtain ⟨s', q, h1, h2⟩ := forEach_nums hc hr f (h.reg r) m.world
    rw [h.world] at h1 h2
    unfold SameNumCall
    simp only [step, numStep, Mem.callW, h.world, h1]
    revert h1 h2
    rcases numMap c.E f (u.vals.reg r) u.vals.world with ⟨kept, w, _ | o⟩
    · rintro - ⟨rfl, h2⟩
      exact ⟨rfl, rfl, (h.upd r h2).reg⟩
    · rintro - ⟨⟨e, rfl, rfl⟩, h2⟩
      exact ⟨rfl, rfl, (h.upd r h2).reg⟩
  | eq r o =>
    refine same_of_eq hc h (op' := .eq r o) trivial hoom
      (stepEq_ask _ (congrFun (congrFun (nums_eq c) (m.reg r)) (m.reg o)) .bool (fun _ => trivial) rfl rfl)
      (.keep (o := .bool (u.vals.reg r == u.vals.reg o)) (o' := .bool (u.reg r == u.reg o)) ?_ trivial rfl rfl) Iff.rfl
    show Out.bool _ = Out.bool _
    congr 1
    rw [Bool.eq_iff_iff, beq_iff_eq, beq_iff_eq]
    exact map_val_inj
  | any r x =>
    refine same_of_eq hc h (op' := .any r (c.enc hr x)) trivial hoom
      (stepEq_call _ (nums_any x (c.enc hr x) rfl) .bool (fun _ => trivial) rfl rfl)
      (.keep (o := .bool ((u.vals.reg r).any (· == c.E.toDiscr x))) (o' := .bool ((u.reg r).any (· == c.enc hr x))) ?_ trivial rfl rfl) Iff.rfl
    show Out.bool _ = Out.bool _
    congr 1
    rw [Bool.eq_iff_iff, List.any_eq_true, List.any_eq_true]
    constructor
    · rintro ⟨d, h1, h2⟩
      obtain ⟨y, h3, rfl⟩ := List.mem_map.mp h1
      exact ⟨y, h3, beq_iff_eq.mpr (Fin.val_inj.mp (beq_iff_eq.mp h2))⟩
    · rintro ⟨y, h1, h2⟩
      exact ⟨y.val, List.mem_map_of_mem h1, by rw [beq_iff_eq.mp h2]; exact beq_iff_eq.mpr rfl⟩
  | all r x =>
    refine same_of_eq hc h (op' := .all r (c.enc hr x)) trivial hoom
      (stepEq_call _ (nums_all x (c.enc hr x) rfl) .bool (fun _ => trivial) rfl rfl)
      (.keep (o := .bool ((u.vals.reg r).all (· == c.E.toDiscr x))) (o' := .bool ((u.reg r).all (· == c.enc hr x))) ?_ trivial rfl rfl) Iff.rfl
    show Out.bool _ = Out.bool _
    congr 1
    rw [Bool.eq_iff_iff, List.all_eq_true, List.all_eq_true]
    constructor
    · intro H y h1
      exact beq_iff_eq.mpr (Fin.val_inj.mp (beq_iff_eq.mp (H y.val (List.mem_map_of_mem h1))))
    · intro H d h1
      obtain ⟨y, h3, rfl⟩ := List.mem_map.mp h1
      rw [beq_iff_eq.mp (H y h3)]; exact beq_iff_eq.mpr rfl
  | toVec r =>
    refine ⟨fun _ => trivial, fun _ => ?_⟩
    unfold SameNumCall
    simp only [step, numStep, Mem.ask, toVec_nums hc (h.reg r)]
    rcases (u.vals.reg r).mapM c.E.fromDiscr with _ | l <;> exact ⟨rfl, h⟩
  | iterate r calls =>
    refine ⟨fun _ => trivial, fun _ => ?_⟩
    unfold SameNumCall
    simp only [step, numStep, Mem.ask, iterate_nums hc (h.reg r)]
    rcases (iterSpecRun calls (u.vals.reg r)).1.mapM (IterOut.decode c.E) with _ | l <;> exact ⟨rfl, h⟩
  | hash r =>
    exact same_of_eq hc h (op' := .hash r) trivial hoom
      (stepEq_ask _ (congrFun (nums_hash c) (m.reg r)) .hash (fun _ => trivial) rfl rfl)
      (.keep (o' := .hash ((u.reg r).map Fin.val)) rfl trivial rfl rfl) Iff.rfl

/-- **C63** for histories: as long as no call is refused memory, all calls of a history give what they give on vectors of numbers, with the
same states after every call, **if and only if** all calls agree. -/
theorem C63_history (hc : c.Sound) (hr : ∀ x, c.E.toDiscr x < 2 ^ c.bits) : ∀ (ops : List (Op τ α)) {m : Mem c τ} {v : Vecs Nat τ}, NumSame c m v →
    (∀ op ∈ ops, op.Borrows) → .oom ∉ (runAll c ops m).1 → (SameNumRun c ops m v ↔ NumAgreesRun c ops m v)
  | [], _, _, _, _, _ => Iff.rfl
  | o :: os, m, v, h, hb, hoom => by
    have h1 : .oom ∉ (step c m o).1 :: (runAll c os (step c m o).2).1 := hoom
    have key := C63_exact hc hr h o (hb o List.mem_cons_self) fun he => h1 (he ▸ List.mem_cons_self)
    show _ ∧ _ ↔ _ ∧ _
    rw [key]
    refine and_congr_right fun ha => ?_
    exact C63_history hc hr os (key.mpr ha).2 (fun op hop => hb op (List.mem_cons_of_mem _ hop)) fun he => h1 (List.mem_cons_of_mem _ he)

theorem NumSame.start (hc : c.Sound) (w : τ) : NumSame c (Mem.start c w) (Vecs.start w) :=
  ⟨rfl, fun _ => Is.isNums hc (l := []) ((new_holds (nums_ok hc)).is (nums_ok hc))⟩

/-- **C63** from the start: all variables are empty, the histories begin in the same state. -/
theorem C63_start (hc : c.Sound) (hr : ∀ x, c.E.toDiscr x < 2 ^ c.bits) (w : τ) (ops : List (Op τ α)) (hb : ∀ op ∈ ops, op.Borrows)
    (hoom : .oom ∉ (runAll c ops (Mem.start c w)).1) :
    SameNumRun c ops (Mem.start c w) (Vecs.start w) ↔ NumAgreesRun c ops (Mem.start c w) (Vecs.start w) :=
  C63_history hc hr ops (.start hc w) hb hoom

/-- **C63** what all calls return, if all agree. -/
theorem C63_results (hc : c.Sound) (hr : ∀ x, c.E.toDiscr x < 2 ^ c.bits) : ∀ (ops : List (Op τ α)) {m : Mem c τ} {v : Vecs Nat τ}, NumSame c m v →
    (∀ op ∈ ops, op.Borrows) → .oom ∉ (runAll c ops m).1 → NumAgreesRun c ops m v →
    (runAll c ops m).1 = (numRun c.E ops v).1 ∧ NumSame c (runAll c ops m).2 (numRun c.E ops v).2
  | [], _, _, h, _, _, _ => ⟨rfl, h⟩
  | o :: os, m, v, h, hb, hoom, ha => by
    have h1 : .oom ∉ (step c m o).1 :: (runAll c os (step c m o).2).1 := hoom
    have key := (C63_exact hc hr h o (hb o List.mem_cons_self) fun he => h1 (he ▸ List.mem_cons_self)).mpr ha.1
    have ih := C63_results hc hr os key.2 (fun op hop => hb op (List.mem_cons_of_mem _ hop)) (fun he => h1 (List.mem_cons_of_mem _ he)) ha.2
    exact ⟨congr (congrArg List.cons key.1) ih.1, ih.2⟩

end

/-! ## Concrete histories -/

/-- `NumAgrees` can be decided, so the examples can be computed. -/
@[reducible] def numAgreesDec {c : Inst α} (hp : 0 < c.epb) (m : Mem c τ) (v : Vecs Nat τ) (op : Op τ α) : Decidable (NumAgrees c m v op) := by
  cases op
  case remove r i =>
    have : Decidable (∀ (j d : Nat), i / c.epb < j → (v.reg r)[(j + 1) * c.epb]? = some d → unusedBits c (m.reg r) j ||| d = d) :=
      decidable_of_iff (∀ j, j < (v.reg r).length → i / c.epb < j → ∀ d ∈ (v.reg r)[(j + 1) * c.epb]?, unusedBits c (m.reg r) j ||| d = d)
        ⟨fun h j y hj hy => h j (by
          obtain ⟨h1, -⟩ := List.getElem?_eq_some_iff.mp hy
          have h2 : (j + 1) * 1 ≤ (j + 1) * c.epb := Nat.mul_le_mul_left _ hp
          omega) hj y hy, fun h j _ hj y hy => h j y hj hy⟩
    have : Decidable (∀ k d e : Nat, ((v.reg r).drop (i + 1))[k]? = some d → ((v.reg r).drop (i + 2))[k]? = some e → d ||| e = e) :=
      decidable_of_iff (∀ k, k < (v.reg r).length → ∀ d ∈ ((v.reg r).drop (i + 1))[k]?, ∀ e ∈ ((v.reg r).drop (i + 2))[k]?, d ||| e = e)
        ⟨fun h k d e hd he => h k (by
          obtain ⟨h1, -⟩ := List.getElem?_eq_some_iff.mp hd
          rw [List.length_drop] at h1; omega) d hd e he, fun h k _ d hd e he => h k d e hd he⟩
    have : Decidable (∀ d, (v.reg r)[i]? = some d → c.E.fromDiscr d = none) :=
      decidable_of_iff (∀ d ∈ (v.reg r)[i]?, (c.E.fromDiscr d).isNone) ⟨fun h d hd => Option.isNone_iff_eq_none.mp (h d hd),
        fun h d hd => Option.isNone_iff_eq_none.mpr (h d hd)⟩
    exact inferInstanceAs (Decidable (_ ∨ _))
  case insert => exact inferInstanceAs (Decidable (_ ∧ _))
  case splitOff => exact inferInstanceAs (Decidable (_ ≤ _))
  case append => exact inferInstanceAs (Decidable (_ ∨ _ ∨ _))
  case extend r it => exact inferInstanceAs (Decidable (if c.AtLimit ((v.reg r).length + it.hint) then _ ∧ it.items = [] ∧ _ else it.hint ≤ it.items.length))
  case fromIter r it => exact inferInstanceAs (Decidable (if c.AtLimit it.hint then (_ ∨ it.items = []) ∧ _ else it.hint ≤ it.items.length ∨ _))
  case fromVec r xs => exact inferInstanceAs (Decidable ¬ c.AtLimit xs.length)
  case fromSlice r xs => exact inferInstanceAs (Decidable ¬ c.AtLimit xs.length)
  case reserve r n => exact inferInstanceAs (Decidable (c.AtLimit ((v.reg r).length + n) → _ ∧ v.reg r = []))
  all_goals exact isTrue trivial

def numAgreesRunDec {c : Inst α} (hp : 0 < c.epb) : (ops : List (Op τ α)) → (m : Mem c τ) → (v : Vecs Nat τ) → Decidable (NumAgreesRun c ops m v)
  | [], _, _ => isTrue trivial
  | o :: os, m, v =>
    have := numAgreesDec hp m v o
    have := numAgreesRunDec hp os (step c m o).2 (numStep c.E v o).2
    inferInstanceAs (Decidable (_ ∧ _))

/-- An implementation that forgets the lowest bit, and refuses to read 6 and 7. -/
def lossyLike : EnumLike (Fin 16) := ⟨8, fun x => x.val / 2, fun d => if h : d < 6 then some ⟨2 * d, by omega⟩ else none⟩

/-- In 32-bit blocks: 10 elements and two unused bits in a block. -/
def cLossy : Inst (Fin 16) := ⟨32, lossyLike, debug64, false, stdAlloc 0 32⟩

theorem cLossy_sound : cLossy.Sound :=
  ⟨⟨by simp [cLossy], by decide, fun _ => by decide⟩, stdAlloc_lawful _ _ _, stdAlloc_bounded (b := debug64) (W := 32) (by decide) (by decide),
    False.elim, False.elim⟩

theorem cLossy_fits : ∀ x, cLossy.E.toDiscr x < 2 ^ cLossy.bits := by decide

example : ¬ cLossy.E.Contract := fun h => by
  have := h.roundtrip 1
  revert this; decide

local instance (ops : List (Op τ (Fin 16))) (m : Mem cLossy τ) (v : Vecs Nat τ) : Decidable (NumAgreesRun cLossy ops m v) :=
  numAgreesRunDec (by decide) ops m v

/-- Values that are not read back, and values that cannot be read back at all. -/
def lossyHistory : List (Op Nat (Fin 16)) :=
  [.fromVec 0 [1, 4, 15, 7, 9], .get 0 0, .get 0 2, .toVec 0, .fromSlice 1 [0, 5, 14, 6, 8], .eq 0 1, .hash 0, .any 0 6, .insert 0 1 3,
    .iterate 0 [.next, .nextBack, .nth 1], .iterate 0 [.nth 5], .remove 0 3, .swapRemove 0 3, .toVec 0,
    .retain 0 fun x w => (some (x.val % 4 = 0), w + 1), .pop 0, .pop 0, .forEach 0 fun x w => (some (x + 3), w + 1), .set 0 2 12, .append 0 1,
    .remove 0 0, .hash 0]

example : (∀ op ∈ lossyHistory, op.Borrows) ∧ .oom ∉ (runAll cLossy lossyHistory (Mem.start cLossy 0)).1 ∧
    NumAgreesRun cLossy lossyHistory (Mem.start cLossy 0) (Vecs.start 0) := by decide +kernel

/-- What the calls return on numbers, and so, by C63, on `EnumVec`s. -/
example : (runAll cLossy lossyHistory (Mem.start cLossy 0)).1 = (numRun cLossy.E lossyHistory (Vecs.start 0)).1 :=
  (C63_results cLossy_sound cLossy_fits lossyHistory (.start cLossy_sound 0) (by decide +kernel) (by decide +kernel) (by decide +kernel)).1

example : (numRun cLossy.E lossyHistory (Vecs.start 0)).1.take 8 =
    [.unit, .item (some 0), .invalid, .invalid, .unit, .bool true, .hash [0, 2, 7, 3, 4], .bool true] := by decide +kernel

/-- A history that does not agree: `remove` mixes unused bits into an element. -/
def lossyBad : List (Op Nat (Fin 16)) :=
  [.fromVec 0 (List.replicate 22 11), .insert 0 0 11, .set 0 10 0, .set 0 20 0, .remove 0 0]

example : ¬ SameNumRun cLossy lossyBad (Mem.start cLossy 0) (Vecs.start 0) :=
  fun h => absurd ((C63_start cLossy_sound cLossy_fits 0 lossyBad (by decide +kernel) (by decide +kernel)).mp h) (by decide +kernel)

/-- If the number to be removed cannot be read, `remove` panics instead, and nothing is mixed. -/
example : SameNumRun cLossy (lossyBad.take 4 ++ [.set 0 0 15, .remove 0 0, .hash 0]) (Mem.start cLossy 0) (Vecs.start 0) :=
  (C63_start cLossy_sound cLossy_fits 0 _ (by decide +kernel) (by decide +kernel)).mpr (by decide +kernel)

end EnumVecModel
