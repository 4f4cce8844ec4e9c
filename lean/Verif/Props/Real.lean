import Verif.Lemmas.Real

set_option linter.unusedSectionVars false

/-! # C73: what every call really does, right or wrong -/

namespace EnumVecModel
open EV

variable {α τ : Type} {c : Inst α}

theorem real_of_agrees (hc : c.Sound) (hr : ∀ x, c.E.toDiscr x < 2 ^ c.bits) {m : Mem c τ} {v : Vecs Nat τ} (h : NumSame c m v) (op : Op τ α)
    (hb : op.Borrows) (hoom : (step c m op).1 ≠ .oom) (ha : NumAgrees c m v op) (he : realStep c m v op = numStep c.E v op) :
    (step c m op).1 = (realStep c m v op).1 ∧ NumSame c (step c m op).2 (realStep c m v op).2 := by
  rw [he]; exact (C63_exact hc hr h op hb hoom).mpr ha

theorem holds_nums (hc : c.Sound) {s : EV c.W} {l : List (Fin (2 ^ c.bits))} (h : Holds c.nums s l) : IsNums c s (l.map Fin.val) :=
  Is.isNums hc (h.is (nums_ok hc))

theorem real_insert (hc : c.Sound) (hr : ∀ x, c.E.toDiscr x < 2 ^ c.bits) {m : Mem c τ} {v : Vecs Nat τ} (h : NumSame c m v) (r i : Nat) (x : α)
    (hoom : (step c m (.insert r i x)).1 ≠ .oom) :
    (step c m (.insert r i x)).1 = (realStep c m v (.insert r i x)).1 ∧ NumSame c (step c m (.insert r i x)).2 (realStep c m v (.insert r i x)).2 := by
  obtain ⟨l, hl⟩ := (h.reg r).exists
  have hR := h.reg r
  rw [hl] at hR
  have hH := (hR.is hc).holds (nums_ok hc)
  have hk := nums_ok hc
  have hins := nums_insert x (c.enc hr x) rfl i
  have hd : (c.enc hr x).val = c.E.toDiscr x := rfl
  have hlen : (v.reg r).length = l.length := by rw [hl, List.length_map]
  by_cases hi : (v.reg r).length < i
  · have k1 := insert_beyond_iff hk hH (show l.length < i by omega) (c.enc hr x)
    have k2 := insert_beyond_holds hk hH (show l.length < i by omega) (c.enc hr x)
    rw [hins, nums_epb] at k1
    rw [hins] at k2
    have e : realStep c m v (.insert r i x) = (if c.build.checked = true ∧ 0 < i % c.epb ∧ c.build.usizeLim ≤ i - i % c.epb + c.epb then .panic else .unit,
        { v with reg := upd v.reg r (v.reg r ++ [c.E.toDiscr x]) }) := by
      simp only [realStep, realInsert, if_pos hi]
    have hn : ∀ s', Holds c.nums s' (l ++ [c.enc hr x]) → IsNums c s' (v.reg r ++ [c.E.toDiscr x]) := fun s' h' => by
      have := holds_nums hc h'
      rw [List.map_append] at this
      rw [hl]; exact this
    rw [e]
    simp only [step, Mem.call] at hoom ⊢
    rcases hx : EV.insert c i x (m.reg r) with ⟨e | _, s'⟩
    · rw [hx] at k1 k2 hoom
      rcases k1 with ⟨rfl, k1⟩ | rfl
      · rw [if_pos k1]
        refine ⟨rfl, h.upd r (hn s' ?_)⟩
        rcases k2 with k2 | k2
        · cases k2
        · exact k2
      · exact absurd rfl hoom
    · rw [hx] at k1 k2
      rw [if_neg k1]
      exact ⟨rfl, h.upd r (hn s' k2)⟩
  · by_cases hw : c.bits < c.W
    · refine real_of_agrees hc hr h _ trivial hoom ⟨by omega, Or.inl hw⟩ ?_
      simp only [realStep, realInsert, numStep]
      rw [if_neg hi, if_pos hw, if_pos (by omega)]
    · have hbw : c.nums.bits = c.nums.W := by
        rw [nums_bits]
        have := hc.bits_le
        show c.bits = c.W
        omega
      have e0 : realInsert c (v.reg r) i (c.E.toDiscr x) = if c.build.checked then (.panic, v.reg r ++ [c.E.toDiscr x])
          else (.unit, orEach (v.reg r ++ [c.E.toDiscr x]) ((v.reg r).take i ++ c.E.toDiscr x :: (v.reg r).drop i)) := by
        unfold realInsert
        rw [if_neg hi, if_neg hw]
      simp only [realStep]
      rw [e0]
      simp only [step, Mem.call] at hoom ⊢
      cases hck : c.build.checked with
      | true =>
        have k := insert_full_debug hk hbw hck hH (show i ≤ l.length by omega) (c.enc hr x)
        rw [hins] at k
        rcases hx : EV.insert c i x (m.reg r) with ⟨e | _, s'⟩
        · rw [hx] at k hoom
          rcases k with ⟨rfl, k⟩ | ⟨rfl, -⟩
          · refine ⟨rfl, h.upd r ?_⟩
            have := holds_nums hc k
            rw [List.map_append, ← hl] at this
            exact this
          · exact absurd rfl hoom
        · rw [hx] at k
          exact k.elim
      | false =>
        have k := insert_full_release hk hbw hck hH (show i ≤ l.length by omega) (c.enc hr x)
        rw [hins] at k
        rcases hx : EV.insert c i x (m.reg r) with ⟨e | _, s'⟩
        · rw [hx] at k hoom
          obtain ⟨rfl, -⟩ := k
          exact absurd rfl hoom
        · rw [hx] at k
          obtain ⟨k1, k2, k3⟩ := k
          refine ⟨rfl, h.upd r (isNums_of_raw hc (nums_safe k1) ?_ fun k d hkd => ?_)⟩
          · rw [k2]
            simp [orEach, hlen]; omega
          · rw [insertIdx_take_drop (show i ≤ l.length by omega)] at k3
            have hkd' : (orEach ((l ++ [c.enc hr x]).map Fin.val) ((l.take i ++ c.enc hr x :: l.drop i).map Fin.val))[k]? = some d := by
              simp only [List.map_append, List.map_cons, List.map_nil, List.map_take, List.map_drop, ← hl]; exact hkd
            unfold orEach at hkd'
            rw [List.getElem?_zipWith, List.getElem?_map, List.getElem?_map] at hkd'
            rcases h1 : (l ++ [c.enc hr x])[k]? with _ | y <;> rw [h1] at hkd'
            · cases hkd'
            rcases h2 : (l.take i ++ c.enc hr x :: l.drop i)[k]? with _ | z <;> rw [h2] at hkd'
            · cases hkd'
            obtain ⟨g1, rfl⟩ := List.getElem?_eq_some_iff.mp h1
            obtain ⟨g2, rfl⟩ := List.getElem?_eq_some_iff.mp h2
            rw [← nums_raw, k3 k g1 g2]
            exact Option.some.inj hkd'

theorem real_remove (hc : c.Sound) (hr : ∀ x, c.E.toDiscr x < 2 ^ c.bits) {m : Mem c τ} {v : Vecs Nat τ} (h : NumSame c m v) (r i : Nat)
    (hoom : (step c m (.remove r i)).1 ≠ .oom) :
    (step c m (.remove r i)).1 = (realStep c m v (.remove r i)).1 ∧ NumSame c (step c m (.remove r i)).2 (realStep c m v (.remove r i)).2 := by
  have hep := hc.epb_pos
  cases hd : (v.reg r)[i]? with
  | none => exact real_of_agrees hc hr h _ trivial hoom (Or.inl (by rw [hd]; exact nofun)) (by simp only [realStep, numStep, hd])
  | some d =>
    cases hx : c.E.fromDiscr d with
    | none => exact real_of_agrees hc hr h _ trivial hoom (Or.inl fun d' e => by rw [hd] at e; cases e; exact hx) (by simp only [realStep, numStep, hd, hx])
    | some x =>
      have hrm := nums_remove hc (h.reg r) hd hx
      obtain ⟨l, hl⟩ := (h.reg r).exists
      have hR := h.reg r
      rw [hl] at hR
      have hk := nums_ok hc
      have hH := (hR.is hc).holds hk
      have hlen : (v.reg r).length = l.length := by rw [hl, List.length_map]
      have hi : i < l.length := by rw [← hlen]; exact (List.getElem?_eq_some_iff.mp hd).1
      have hget : ∀ k d', (v.reg r)[k]? = some d' → ∃ h : k < l.length, (l[k]'h).val = d' := fun k d' hk' => by
        rw [hl, List.getElem?_map] at hk'
        rcases hy : l[k]? with _ | y <;> rw [hy] at hk'
        · cases hk'
        · obtain ⟨h1, rfl⟩ := List.getElem?_eq_some_iff.mp hy
          exact ⟨h1, Option.some.inj hk'⟩
      simp only [realStep, hd, hx, step, Mem.call]
      rw [hrm]
      by_cases hw : c.bits < c.W
      · rw [if_neg (fun e => e.1 hw)]
        obtain ⟨s', g1, g2, g3, -, -, g4, -⟩ := remove_raw hk (by rw [nums_bits]; exact hw) hH hi
        rw [g1]
        refine ⟨rfl, h.upd r (isNums_of_raw hc (nums_safe g2) ?_ fun k e hke => ?_)⟩
        · rw [g3, hH.len_eq]
          unfold realRemove
          rw [List.length_mapIdx, List.length_eraseIdx_of_lt (by omega)]
          omega
        · unfold realRemove at hke
          rw [List.getElem?_mapIdx, List.getElem?_eraseIdx] at hke
          simp only [if_pos hw] at hke
          have hkl : k < l.length - 1 := by
            rcases Nat.lt_or_ge k (l.length - 1) with hlt | hge
            · exact hlt
            · exfalso
              rw [if_neg (by omega), List.getElem?_eq_none (by omega)] at hke
              cases hke
          rw [← nums_raw, g4 k (by rw [hH.len_eq]; exact hkl)]
          by_cases hki : k < i
          · rw [if_pos hki] at hke ⊢
            have hdiv := Nat.div_le_div_right (c := c.epb) (Nat.le_of_lt hki)
            rcases hy : (v.reg r)[k]? with _ | y <;> rw [hy] at hke
            · cases hke
            obtain ⟨q1, q2⟩ := hget k y hy
            have hke' := Option.some.inj hke
            dsimp only at hke'
            rw [if_neg (by omega)] at hke'
            rw [hH.elems k q1, ← hke']; exact q2
          · rw [if_neg hki] at hke ⊢
            rcases hy : (v.reg r)[k + 1]? with _ | y <;> rw [hy] at hke
            · cases hke
            obtain ⟨q1, q2⟩ := hget (k + 1) y hy
            have hraw : raw c.nums (m.reg r) (k + 1) = y := by rw [hH.elems (k + 1) q1]; exact q2
            rw [hraw]
            have hke' := Option.some.inj hke
            dsimp only at hke'
            rw [← hke']
            unfold dirt
            rw [nums_epb, ← unusedBits_eq hk, nums_unusedBits]
            have hmod : (k % c.epb = c.epb - 1) ↔ (k + 1) % c.epb = 0 := by
              have := Nat.mod_lt k hep
              rw [Nat.add_mod]
              rcases Nat.lt_or_ge 1 c.epb with h1 | h1
              · rw [Nat.mod_eq_of_lt h1]
                constructor
                · intro e; rw [e, show c.epb - 1 + 1 = c.epb by omega, Nat.mod_self]
                · intro e
                  rcases Nat.lt_or_ge (k % c.epb + 1) c.epb with h2 | h2
                  · rw [Nat.mod_eq_of_lt h2] at e; omega
                  · omega
              · have : c.epb = 1 := by omega
                rw [this]; simp [Nat.mod_one]
            by_cases hcond : i / c.epb < k / c.epb ∧ (k + 1) % c.epb = 0
            · rw [if_pos ⟨hmod.mpr hcond.2, hcond.1⟩, if_pos hcond]
            · rw [if_neg (fun e => hcond ⟨e.2, hmod.mp e.1⟩), if_neg hcond, Nat.zero_or]
      · have hbw : c.nums.bits = c.nums.W := by
          rw [nums_bits]
          have := hc.bits_le
          show c.bits = c.W
          omega
        cases hck : c.build.checked with
        | true =>
          by_cases h2 : i + 2 < (v.reg r).length
          · rw [if_pos ⟨hw, rfl, h2⟩]
            obtain ⟨s', g1, g2⟩ := remove_full_debug hk hbw hck hH (show i + 2 < l.length by omega)
            rw [g1]
            refine ⟨rfl, h.upd r ?_⟩
            have := holds_nums hc g2
            have e : (v.reg r).getD (i + 1) 0 = (l[i + 1]'(by omega)).val := by
              rw [List.getD_eq_getElem?_getD, hl, List.getElem?_map, List.getElem?_eq_getElem (by omega)]; rfl
            rw [e, hl]
            rwa [List.map_dropLast, List.map_set] at this
          · rw [if_neg (fun e => h2 e.2.2)]
            have ha : NumAgrees c m v (.remove r i) := Or.inr (by rw [if_neg hw, if_pos hck]; omega)
            have key := (C63_exact hc hr h (.remove r i) trivial hoom).mpr ha
            unfold SameNumCall at key
            simp only [step, Mem.call, numStep, hd, hx] at key
            rw [hrm] at key
            have e : realRemove c (m.reg r) (v.reg r) i = (v.reg r).take i ++ (v.reg r).drop (i + 1) := by
              rw [← List.eraseIdx_eq_take_drop_succ]
              unfold realRemove
              refine List.ext_getElem? fun k => ?_
              rw [List.getElem?_mapIdx]
              simp only [if_neg hw]
              rcases hy : ((v.reg r).eraseIdx i)[k]? with _ | y
              · rfl
              · have hkl := (List.getElem?_eq_some_iff.mp hy).1
                rw [List.length_eraseIdx_of_lt (by omega)] at hkl
                show some (if i < k then _ else y) = some y
                rw [if_neg (by omega)]
            rw [e]
            exact key
        | false =>
          rw [if_neg (fun e => Bool.noConfusion (e.2.1))]
          obtain ⟨s', g1, g2, g3, g4⟩ := remove_full_release hk hbw hck hH hi
          rw [g1]
          refine ⟨rfl, h.upd r (isNums_of_raw hc (nums_safe g2) ?_ fun k e hke => ?_)⟩
          · rw [g3]
            unfold realRemove
            rw [List.length_mapIdx, List.length_eraseIdx_of_lt (by omega)]
            omega
          · unfold realRemove at hke
            rw [List.getElem?_mapIdx] at hke
            simp only [if_neg hw] at hke
            rcases hy : ((v.reg r).eraseIdx i)[k]? with _ | y <;> rw [hy] at hke
            · cases hke
            have hkl := (List.getElem?_eq_some_iff.mp hy).1
            rw [List.length_eraseIdx_of_lt (by omega)] at hkl
            have hk1 : k < l.length := by omega
            have hk2 : k < (l.eraseIdx i).length := by rw [List.length_eraseIdx_of_lt hi]; omega
            have hke' := Option.some.inj hke
            dsimp only at hke'
            rw [← nums_raw, g4 k hk1 hk2, ← hke']
            have e1 : (l.eraseIdx i)[k].val = y := by
              rw [hl, List.eraseIdx_eq_take_drop_succ, ← List.map_take, ← List.map_drop, ← List.map_append, ← List.eraseIdx_eq_take_drop_succ, List.getElem?_map, List.getElem?_eq_getElem hk2] at hy
              exact Option.some.inj hy
            have e2 : (v.reg r).getD k 0 = l[k].val := by
              rw [List.getD_eq_getElem?_getD, hl, List.getElem?_map, List.getElem?_eq_getElem hk1]; rfl
            show (if k = i then (l.eraseIdx i)[k].val else l[k].val ||| (l.eraseIdx i)[k].val) = _
            rw [e1, e2]
            by_cases hki : i < k
            · rw [if_neg (by omega), if_pos hki]
            · rw [if_neg hki]
              split
              · rfl
              · have hke2 : (l.eraseIdx i)[k] = l[k] := by rw [List.getElem_eraseIdx, dif_pos (by omega)]
                rw [← e1, hke2, Nat.or_self]

theorem real_extend (hc : c.Sound) (hr : ∀ x, c.E.toDiscr x < 2 ^ c.bits) {m : Mem c τ} {v : Vecs Nat τ} (h : NumSame c m v) (r : Nat) (it : Src α)
    (hoom : (step c m (.extend r it)).1 ≠ .oom) (hw : ¬ c.AtLimit ((v.reg r).length + it.hint)) :
    (step c m (.extend r it)).1 = (realStep c m v (.extend r it)).1 ∧ NumSame c (step c m (.extend r it)).2 (realStep c m v (.extend r it)).2 := by
  by_cases hfew : it.items.length < it.hint
  · obtain ⟨l, hl⟩ := (h.reg r).exists
    have hR := h.reg r
    rw [hl] at hR
    have hk := nums_ok hc
    have hH := (hR.is hc).holds hk
    have hlen : (v.reg r).length = l.length := by rw [hl, List.length_map]
    have key := extend_stale hk (Inst.encSrc hr it) hH (by rw [nums_atLimit, ← hlen]; exact hw) (by show (it.items.map _).length < _; rw [List.length_map]; exact hfew)
    rw [nums_extend] at key
    simp only [realStep, if_pos hfew]
    simp only [step, Mem.call] at hoom ⊢
    rcases hx : EV.extend c it (m.reg r) with ⟨e | _, s'⟩
    · rw [hx] at key hoom
      rcases key with rfl | ⟨he, g1, g2, g3⟩
      · exact absurd rfl hoom
      · refine ⟨?_, h.upd r (isNums_of_raw hc (nums_safe g1.toSafe) ?_ fun k d hd => ?_)⟩
        · rcases he with rfl | rfl <;> rfl
        · rw [g2]
          show l.length + it.hint = _
          simp only [List.length_append, List.length_map, List.length_range', hlen]
          omega
        · rw [← nums_raw]
          have e1 : v.reg r ++ it.items.map c.E.toDiscr = (l ++ it.items.map (c.enc hr)).map Fin.val := by rw [List.map_append, ← map_enc, ← hl]
          have e2 : (l ++ it.items.map (c.enc hr)).length = l.length + it.items.length := by rw [List.length_append, List.length_map]
          rw [e1, List.getElem?_append, List.length_map, e2] at hd
          by_cases hkl : k < l.length + it.items.length
          · rw [if_pos hkl, List.getElem?_map, List.getElem?_eq_getElem (by rw [e2]; exact hkl)] at hd
            rw [g1.elems k (by show k < (l ++ it.items.map (c.enc hr)).length; rw [e2]; exact hkl)]
            exact Option.some.inj hd
          · rw [if_neg hkl, List.getElem?_map] at hd
            rcases hy : (List.range' ((v.reg r).length + it.items.length) (it.hint - it.items.length))[k - (l.length + it.items.length)]? with _ | y <;> rw [hy] at hd
            · cases hd
            obtain ⟨q1, q2⟩ := List.getElem?_eq_some_iff.mp hy
            rw [List.length_range'] at q1
            rw [List.getElem_range'] at q2
            rw [g3 k (by show l.length + (it.items.map _).length ≤ k; rw [List.length_map]; omega) (by show k < l.length + it.hint; omega), nums_raw, ← slot_eq hc]
            rw [← Option.some.inj hd, ← q2]
            congr 1; omega
    · rw [hx] at key
      exact key.elim
  · refine real_of_agrees hc hr h _ trivial hoom ?_ (by simp only [realStep, if_neg hfew])
    show if c.AtLimit ((v.reg r).length + it.hint) then _ else _
    rw [if_neg hw]; omega

theorem real_fromIter (hc : c.Sound) (hr : ∀ x, c.E.toDiscr x < 2 ^ c.bits) {m : Mem c τ} {v : Vecs Nat τ} (h : NumSame c m v) (r : Nat) (it : Src α)
    (hoom : (step c m (.fromIter r it)).1 ≠ .oom) (hw : ¬ c.AtLimit it.hint) :
    (step c m (.fromIter r it)).1 = (realStep c m v (.fromIter r it)).1 ∧ NumSame c (step c m (.fromIter r it)).2 (realStep c m v (.fromIter r it)).2 := by
  by_cases hfew : it.items.length < it.hint
  · have key := fromIter_holds (nums_ok hc) (Inst.encSrc hr it) (by rw [nums_atLimit]; exact hw)
    rw [nums_fromIter] at key
    simp only [realStep, if_pos hfew]
    simp only [step, Mem.assign] at hoom ⊢
    rcases hx : EV.fromIter c it with e | s'
    · rw [hx] at key hoom
      rcases key with ⟨rfl, -⟩ | ⟨rfl, -⟩ | ⟨-, -, rfl⟩
      · exact absurd rfl hoom
      · exact ⟨rfl, h⟩
      · exact ⟨rfl, h⟩
    · rw [hx] at key
      have := key.2.1
      have e : (Inst.encSrc hr it).items.length = it.items.length := List.length_map _
      rw [e] at this
      exact absurd hfew (Nat.not_lt.mpr this)
  · refine real_of_agrees hc hr h _ trivial hoom ?_ (by simp only [realStep, if_neg hfew])
    show if c.AtLimit it.hint then _ else _
    rw [if_neg hw]; exact Or.inl (by omega)

/-- **C73** Whatever the implementation of `EnumLike`, as long as its numbers fit in an element: a call, right or wrong, gives the result that `realStep` gives, and leaves exactly the numbers of
`realStep` in all vectors. Only calls that have undefined behaviour or can lose the storage of a vector are excluded (`Sane`), and calls that are refused memory. -/
theorem C73_exact (hc : c.Sound) (hr : ∀ x, c.E.toDiscr x < 2 ^ c.bits) {m : Mem c τ} {v : Vecs Nat τ} (h : NumSame c m v) (op : Op τ α)
    (hb : op.Borrows) (hs : Sane c v op) (hoom : (step c m op).1 ≠ .oom) :
    (step c m op).1 = (realStep c m v op).1 ∧ NumSame c (step c m op).2 (realStep c m v op).2 := by
  cases op with
  | insert r i x => exact real_insert hc hr h r i x hoom
  | remove r i => exact real_remove hc hr h r i hoom
  | extend r it => exact real_extend hc hr h r it hoom hs
  | fromIter r it => exact real_fromIter hc hr h r it hoom hs
  | reserve r n => exact real_of_agrees hc hr h _ hb hoom (fun e => absurd e hs) rfl
  | splitOff r a d => exact real_of_agrees hc hr h _ hb hoom hs rfl
  | append r o => exact real_of_agrees hc hr h _ hb hoom hs rfl
  | fromVec r xs => exact real_of_agrees hc hr h _ hb hoom hs rfl
  | fromSlice r xs => exact real_of_agrees hc hr h _ hb hoom hs rfl
  | _ => exact real_of_agrees hc hr h _ hb hoom trivial rfl

/-- **C73** for histories: all results, and all numbers that are stored in the end. -/
theorem C73_history (hc : c.Sound) (hr : ∀ x, c.E.toDiscr x < 2 ^ c.bits) : ∀ (ops : List (Op τ α)) {m : Mem c τ} {v : Vecs Nat τ}, NumSame c m v →
    (∀ op ∈ ops, op.Borrows) → SaneRun c ops m v → .oom ∉ (runAll c ops m).1 →
    (runAll c ops m).1 = (realRun c ops m v).1 ∧ NumSame c (runAll c ops m).2 (realRun c ops m v).2
  | [], _, _, h, _, _, _ => ⟨rfl, h⟩
  | o :: os, m, v, h, hb, hs, hoom => by
    have h1 : .oom ∉ (step c m o).1 :: (runAll c os (step c m o).2).1 := hoom
    obtain ⟨g1, g2⟩ := C73_exact hc hr h o (hb o List.mem_cons_self) hs.1 fun he => h1 (he ▸ List.mem_cons_self)
    obtain ⟨g3, g4⟩ := C73_history hc hr os g2 (fun op hop => hb op (List.mem_cons_of_mem _ hop)) hs.2 fun he => h1 (List.mem_cons_of_mem _ he)
    exact ⟨by show (step c m o).1 :: _ = _ :: _; rw [g1, g3], g4⟩

/-- **C73** In particular from the start, where all vectors are empty. -/
theorem C73_start (hc : c.Sound) (hr : ∀ x, c.E.toDiscr x < 2 ^ c.bits) (w : τ) (ops : List (Op τ α)) (hb : ∀ op ∈ ops, op.Borrows)
    (hs : SaneRun c ops (Mem.start c w) ⟨fun _ => [], w⟩) (hoom : .oom ∉ (runAll c ops (Mem.start c w)).1) :
    (runAll c ops (Mem.start c w)).1 = (realRun c ops (Mem.start c w) ⟨fun _ => [], w⟩).1 ∧
    ∀ r, IsNums c ((runAll c ops (Mem.start c w)).2.reg r) ((realRun c ops (Mem.start c w) ⟨fun _ => [], w⟩).2.reg r) := by
  have h0 : NumSame c (Mem.start c w) ⟨fun _ => [], w⟩ := ⟨rfl, fun _ => isNums_of_raw hc (new_safe hc) rfl nofun⟩
  obtain ⟨h1, h2⟩ := C73_history hc hr ops h0 hb hs hoom
  exact ⟨h1, h2.reg⟩

end EnumVecModel
