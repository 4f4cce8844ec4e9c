import Verif.ValuesTextSpec
import Verif.Props.SourceFull

/-!
# C91: `T::values()` and packed values, all from texts
-/

namespace EnumVecModel
open Source Source.Like Source.Mac EnumLike EnumLike.Rules

set_option linter.constructorNameAsVariable false

variable {α β : Type} {tOut aOut : TTs}

theorem val_ok {r : R (LV α β × LV α β)} {v : LV α β} (h : val r = some (.ok v)) : ∃ s, r = some (.ok (v, s)) := by
  rcases r with _ | _ | ⟨a, s⟩
  · cases h
  · cases h
  · cases h; exact ⟨s, rfl⟩

theorem itemOf_enc (o : Option α) : itemOf (encOption o : LV α β) = some o := by cases o <;> rfl

/-- One call on an iterator. -/
theorem textOn_left {E : EnumLike α} (hE : E.Contract) {τ : Types α β} (h : Refines τ.build τ.T E) {l r : List α} (hl : AllValues E l) {v : Values} (hv : Left E l v r) (o : ValOp)
    (ho : ∀ n, o = .nth n → E.num + n < τ.build.usizeLim) : ∃ v', textOn τ (encValues v) o = some (.ok ((valSpec r o).1, encValues v')) ∧ Left E l v' (valSpec r o).2 := by
  obtain ⟨-, hs⟩ := C80_values h
  obtain ⟨h1, h2, h3, h4, h5⟩ := hs v (by rw [hv.max]; exact h.fits)
  cases o with
  | next =>
    obtain ⟨v', e, hl'⟩ := next_left hE hl hv
    refine ⟨v', ?_, hl'⟩
    show R.bind _ _ = _
    rw [h1, e]
    show (itemOf (encOption r.head?)).map _ = _
    rw [itemOf_enc]; rfl
  | nth n =>
    obtain ⟨v', e, hl'⟩ := nth_left hE hl hv τ.build (ho n rfl)
    refine ⟨v', ?_, hl'⟩
    show R.bind _ _ = _
    rw [h5, e]
    show (itemOf (encOption r[n]?)).map _ = _
    rw [itemOf_enc]; rfl
  | sizeHint =>
    refine ⟨v, ?_, hv⟩
    have hs : Values.sizeHint τ.build v = .ok (r.length, some r.length) := by
      unfold Values.sizeHint
      rw [sub_left hl hv]
    rw [hs] at h2
    obtain ⟨s, e⟩ := val_ok h2
    show R.bind _ _ = _
    rw [e]; rfl
  | count =>
    refine ⟨v, ?_, hv⟩
    rw [show Values.count τ.build v = .ok r.length from sub_left hl hv τ.build] at h3
    obtain ⟨s, e⟩ := val_ok h3
    show R.bind _ _ = _
    rw [e]; rfl
  | last =>
    refine ⟨v, ?_, hv⟩
    rw [last_left hE hl hv] at h4
    obtain ⟨s, e⟩ := val_ok h4
    show R.bind _ _ = _
    rw [e]
    show (itemOf (encOption r.getLast?)).map _ = _
    rw [itemOf_enc]; rfl

/-- A history of calls. -/
theorem textIters_left {E : EnumLike α} (hE : E.Contract) {τ : Types α β} (h : Refines τ.build τ.T E) {l : List α} (hl : AllValues E l) : (cs : List IterCall) → (f : Nat → LV α β) → (g : Nat → List α) →
    (∀ r k, .on r (.nth k) ∈ cs → E.num + k < τ.build.usizeLim) → (∀ r, ∃ v, f r = encValues v ∧ Left E l v (g r)) →
    ∃ f', textIters τ cs f = some (.ok ((listCalls l cs g).1, f')) ∧ ∀ r, ∃ v, f' r = encValues v ∧ Left E l v ((listCalls l cs g).2 r)
  | [], f, g, _, hf => ⟨f, rfl, hf⟩
  | c :: cs, f, g, hk, hf => by
    have step : ∃ f', textIter τ f c = some (.ok ((listCall l g c).1, f')) ∧ ∀ r, ∃ v, f' r = encValues v ∧ Left E l v ((listCall l g c).2 r) := by
      have set : ∀ {v : Values} {x : List α}, Left E l v x → ∀ r k, ∃ w, setVar f r (encValues v) k = encValues w ∧ Left E l w (setVar g r x k) := by
        intro v x hv r k
        unfold setVar
        by_cases hkr : k = r
        · rw [if_pos hkr, if_pos hkr]; exact ⟨v, rfl, hv⟩
        · rw [if_neg hkr, if_neg hkr]; exact hf k
      cases c with
      | values r =>
        obtain ⟨s, e⟩ := val_ok (C80_values h).1
        refine ⟨setVar f r (encValues (Values.of E)), ?_, set ⟨rfl, Nat.zero_le _, rfl⟩ r⟩
        show R.bind _ _ = _
        rw [e]; rfl
      | copy r s =>
        obtain ⟨v, e, hv⟩ := hf r
        refine ⟨setVar f s (f r), rfl, ?_⟩
        rw [e]
        exact set hv s
      | on r o =>
        obtain ⟨v, e, hv⟩ := hf r
        obtain ⟨v', e', hv'⟩ := textOn_left hE h hl hv o fun n hn => hk r n (by rw [hn]; exact List.mem_cons_self)
        refine ⟨setVar f r (encValues v'), ?_, set hv' r⟩
        show R.bind _ _ = _
        rw [e, e']; rfl
    obtain ⟨f1, e1, hf1⟩ := step
    obtain ⟨f2, e2, hf2⟩ := textIters_left hE h hl cs f1 _ (fun r k hm => hk r k (List.mem_cons_of_mem _ hm)) hf1
    refine ⟨f2, ?_, hf2⟩
    show R.bind _ _ = _
    rw [e1]
    show (textIters τ cs f1).bind _ = _
    rw [e2]; rfl

/-- The values of a lawful impl. -/
theorem LawfulMach.values {build : Build} {m : Mach α} (h : LawfulMach build m) {n : Nat} (hn : m.num = .ok n) :
    ∃ (E : EnumLike α) (vals : List α), E.Contract ∧ Refines build m E ∧ E.num = n ∧ AllValues E vals ∧ vals.map m.toDiscr = (List.range n).map .ok ∧ ∀ a, a ∈ vals := by
  obtain ⟨E, hE, hc⟩ := h.pure hn
  have r := hE.2 n hn
  have e : E.num = n := by have := hn.symm.trans r.num; simpa using this.symm
  obtain ⟨vals, hv⟩ := allValues_exists hc
  refine ⟨E, vals, hE.1, r, e, hv, ?_, hv.mem hE.1⟩
  rw [← e, ← show vals.map _ = List.range _ from hv, List.map_map]
  exact List.map_congr_left fun a _ => r.to a

/-- **C91** (`values()`): let the impl of `T` be made from texts only (C90), with `NUM_VARIANTS` = `n`. Then `T` has exactly `n` values, `vals`, numbered 0, …, n - 1, and the text of `T::values()` and its iterator methods does
on every history of calls, on any number of iterators and copies of them, what it does on lists of values; provided `n + k` fits in a `usize` for all calls `nth(k)` (otherwise it is false: C38). -/
theorem C91_values {τ : Types α β} (ht : Expands macros c_tuple_impls tOut) (ha : Expands macros c_array_impls aOut) (h : FullText τ.build tOut aOut α τ.T) {n : Nat} (hn : τ.T.num = .ok n) :
    ∃ vals : List α, vals.map τ.T.toDiscr = (List.range n).map .ok ∧ (∀ a, a ∈ vals) ∧ ∃ s, val (i_values.run τ 1 .of []) = some (.ok s) ∧
      ∀ cs : List IterCall, (∀ r k, .on r (.nth k) ∈ cs → n + k < τ.build.usizeLim) →
        ∃ f, textIters τ cs (fun _ => s) = some (.ok ((listCalls vals cs fun _ => vals).1, f)) := by
  obtain ⟨E, vals, hE, hr, rfl, hv, h1, h2⟩ := (C90_lawful ht ha h).values hn
  refine ⟨vals, h1, h2, _, (C80_values hr).1, fun cs hk => ?_⟩
  obtain ⟨f, e, -⟩ := textIters_left hE hr hv cs _ (fun _ => vals) hk fun _ => ⟨Values.of E, rfl, rfl, Nat.zero_le _, rfl⟩
  exact ⟨f, e⟩

/-- **C91** (packed values): let the impl of `T` be made from texts only, with `NUM_VARIANTS` = `n`. By the texts of `PackedU8` and `PackedU16`: if `T` has at most 2^8 (2^16) values, `new` never panics, the packed number is that of the
value (so the derived comparisons are those of the numbers), and `get` gives the value back; if it has more, nothing that calls `new` compiles. -/
theorem C91_packed {τ : Types α β} (ht : Expands macros c_tuple_impls tOut) (ha : Expands macros c_array_impls aOut) (h : FullText τ.build tOut aOut α τ.T) {n : Nat} (hn : τ.T.num = .ok n) (a : α) :
    ∀ p ∈ [(i_packed8, 8), (i_packed16, 16)],
      (n ≤ 2 ^ p.2 → ∃ s k, val (p.1.run τ 1 .new [.T a]) = some (.ok s) ∧ s.field .discr = some (.num k) ∧ τ.T.toDiscr a = .ok k ∧ val (p.1.run τ 1 .get [s]) = some (.ok (.T a))) ∧
      (2 ^ p.2 < n → val (p.1.run τ 1 .new [.T a]) = some (.error .overflow)) := by
  obtain ⟨E, vals, hE, hr, rfl, hv, h1, h2⟩ := (C90_lawful ht ha h).values hn
  obtain ⟨n8, n16, g8, g16⟩ := C80_packed hr
  have key : ∀ (i : LImpl) (B : Nat), (∀ a, val (i.run τ 1 .new [.T a]) = some ((Packed.new τ.build E B a).map encPacked)) →
      (∀ p : Packed B, val (i.run τ 1 .get [encPacked p]) = some ((match Packed.get E p with | some a => .ok a | none => .error .badDiscr : Except Fault α).map .T)) →
      (E.num ≤ 2 ^ B → ∃ s k, val (i.run τ 1 .new [.T a]) = some (.ok s) ∧ s.field .discr = some (.num k) ∧ τ.T.toDiscr a = .ok k ∧ val (i.run τ 1 .get [s]) = some (.ok (.T a))) ∧
      (2 ^ B < E.num → val (i.run τ 1 .new [.T a]) = some (.error .overflow)) := by
    intro i B hnew hget
    refine ⟨fun hB => ?_, fun hB => ?_⟩
    · obtain ⟨p, e1, e2⟩ := C39_roundtrip (build := τ.build) hE ((C39_compiles _ _ _).mpr hB) a
      refine ⟨encPacked p, p.discr.toNat, by rw [hnew, e1]; rfl, rfl, ?_, by rw [hget, e2]; rfl⟩
      rw [hr.to]
      unfold Packed.new at e1
      have hc : Packed.checkLimit τ.build E B = .ok (2 ^ B - E.num) := if_pos hB
      rw [hc] at e1
      have e1 : (if 2 ^ B - E.num ≤ 2 ^ B then Except.ok ⟨BitVec.ofNat B (E.toDiscr a)⟩ else Except.error Fault.index) = (Except.ok p : Except Fault (Packed B)) := e1
      rw [if_pos (Nat.sub_le _ _)] at e1
      have hlt := hE.lt a
      rw [← Except.ok.inj e1, BitVec.toNat_ofNat, Nat.mod_eq_of_lt (by omega)]
    · have hc : Packed.checkLimit τ.build E B = .error .overflow := by
        unfold Packed.checkLimit uSub
        rw [if_neg (by omega), if_pos (show τ.build.const.checked = true from rfl)]
      rw [hnew]
      unfold Packed.new
      rw [hc]; rfl
  intro p hp
  simp only [List.mem_cons, List.not_mem_nil, or_false] at hp
  rcases hp with rfl | rfl
  · exact key _ _ n8 g8
  · exact key _ _ n16 g16

/-! ## Non-trivial cases -/

/-- `C91_values` for the derived enum of C90, with 14 values: two iterators, one of them a copy of the other, and what they return. -/
example : ∃ (i : Macro.Impl) (vals : List (Macro.Value Macro.exI Macro.exItem.data)), vals.length = 14 ∧ ∃ s f,
    textIters (β := Unit) ⟨i.mach (I := Macro.exI) debug64 Macro.exItem.data, Mach.unit, debug64⟩ [.on 0 .next, .on 0 (.nth 2), .copy 0 1, .on 0 .last, .on 1 .next, .on 0 .count, .on 1 .sizeHint, .on 0 (.nth 30), .on 0 .next]
      (fun _ => s) = some (.ok ([some (.item vals[0]?), some (.item vals[3]?), none, some (.item vals[13]?), some (.item vals[4]?), some (.num 10), some (.hint 9 (some 9)), some (.item none), some (.item none)], f)) := by
  obtain ⟨tOut, aOut, ht, ha⟩ := exExpands
  obtain ⟨i, h1, h2⟩ := exFull tOut aOut
  obtain ⟨vals, h3, -, s, -, h4⟩ := C91_values (β := Unit) (τ := ⟨i.mach (I := Macro.exI) debug64 Macro.exItem.data, Mach.unit, debug64⟩) ht ha h1 h2
  have hl : vals.length = 14 := by simpa using congrArg List.length h3
  obtain ⟨f, e⟩ := h4 [.on 0 .next, .on 0 (.nth 2), .copy 0 1, .on 0 .last, .on 1 .next, .on 0 .count, .on 1 .sizeHint, .on 0 (.nth 30), .on 0 .next]
    (fun r k hk => by simp at hk; rcases hk with ⟨-, rfl⟩ | ⟨-, rfl⟩ <;> (show _ < debug64.usizeLim; decide))
  refine ⟨i, vals, hl, s, f, ?_⟩
  rw [e]
  match vals, hl with
  | [_, _, _, _, _, _, _, _, _, _, _, _, _, _], _ => rfl

/-- `C91_packed`: `E` fits in a `PackedU8`; the array of triples of C90 fits in neither. -/
example : ∃ (i : Macro.Impl), ∀ a : Macro.Value Macro.exI Macro.exItem.data, ∃ s,
    val (i_packed8.run (⟨i.mach (I := Macro.exI) debug64 Macro.exItem.data, Mach.unit, debug64⟩ : Types _ Unit) 1 .new [.T a]) = some (.ok s) ∧
    val (i_packed8.run (⟨i.mach (I := Macro.exI) debug64 Macro.exItem.data, Mach.unit, debug64⟩ : Types _ Unit) 1 .get [s]) = some (.ok (.T a)) := by
  obtain ⟨tOut, aOut, ht, ha⟩ := exExpands
  obtain ⟨i, h1, h2⟩ := exFull tOut aOut
  refine ⟨i, fun a => ?_⟩
  obtain ⟨s, -, h3, -, -, h4⟩ := (C91_packed (β := Unit) (τ := ⟨i.mach (I := Macro.exI) debug64 Macro.exItem.data, Mach.unit, debug64⟩) ht ha h1 h2 a (i_packed8, 8) (by simp)).1 (by decide)
  exact ⟨s, h3, h4⟩

example : ∃ (I : Macro.Interp) (M : Mach (Rules.Val (Leaf I))), ∀ a : ArrayVal I 0 3,
    val (i_packed16.run (⟨M.restrict _, Mach.unit, debug64⟩ : Types (ArrayVal I 0 3) Unit) 1 .new [.T a]) = some (.error .overflow) := by
  obtain ⟨tOut, aOut, I, M, ht, ha, h1, h2⟩ := exFullArray
  exact ⟨I, M, fun a => (C91_packed (β := Unit) (τ := ⟨M.restrict _, Mach.unit, debug64⟩) ht ha h1 h2.num a (i_packed16, 16) (by simp)).2 (by decide)⟩

end EnumVecModel
