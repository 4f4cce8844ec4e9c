import Verif.PanicSpec
import Verif.Props.Num
import Verif.Props.Ub

set_option linter.unusedSectionVars false

/-! # Exactly which calls panic (C64) -/

namespace EnumVecModel
open EV

variable {α τ : Type} {c : Inst α}

/-- `insert` beyond the end, with the condition under which it panics. -/
theorem insert_beyond_iff (hc : c.Ok) {s : EV c.W} {l : List α} (h : Holds c s l) {index : Nat} (hi : l.length < index) (x : α) :
    Runs (EV.insert c index x s)
      (fun _ _ => ¬ (c.build.checked = true ∧ 0 < index % c.epb ∧ c.build.usizeLim ≤ index - index % c.epb + c.epb))
      (fun e _ => e = .overflow ∧ c.build.checked = true ∧ 0 < index % c.epb ∧ c.build.usizeLim ≤ index - index % c.epb + c.epb ∨
        e = .capacity) := by
  have hlen := h.len_eq
  by_cases hov : index - index % c.epb + c.epb < c.build.usizeLim ∨ c.build.checked = false ∨ index % c.epb = 0
  · rw [insert_past hc h.toSafe (by omega) x hov]
    refine (push_holds hc h x).mono (fun _ _ _ hp => ?_) (fun _ _ h => Or.inr h.1)
    rcases hov with h1 | h1 | h1
    · omega
    · rw [h1] at hp; exact absurd hp.1 (by decide)
    · omega
  · have h1 : ¬ (index - index % c.epb + c.epb < c.build.usizeLim) := fun h => hov (Or.inl h)
    have h2 : c.build.checked = true := by
      cases hx : c.build.checked
      · exact absurd (Or.inr (Or.inl hx)) hov
      · rfl
    have h3 : ¬ index % c.epb = 0 := fun h => hov (Or.inr (Or.inr h))
    unfold EV.insert
    refine runs_seq (push_holds hc h x) (fun _ _ h => Or.inr h.1) ?_
    rintro _ s1 ⟨g1, g2, -⟩
    have e1 : uAdd c.build (index - index % c.epb) c.epb = .error .overflow := by
      unfold uAdd; rw [if_neg (by omega), h2]; rfl
    rw [M.read_bind]
    simp only [show index % c.epb > 0 by omega, if_true, e1]
    exact Or.inl ⟨rfl, h2, trivial, Nat.le_of_not_lt h1⟩

/-- How a call ends, if it does not return. -/
def Ends (op : Op τ α) (m : Mem c τ) (v : Vecs Nat τ) : Prop :=
  ((step c m op).1 = .panic ↔ op.Panics c v) ∧ ((step c m op).1 = .invalid ↔ op.Refused c v)

theorem Ends.of_num {op : Op τ α} {m : Mem c τ} {v : Vecs Nat τ} (h : (step c m op).1 = (numStep c.E v op).1)
    (h1 : (numStep c.E v op).1 = .panic ↔ op.Panics c v) (h2 : (numStep c.E v op).1 = .invalid ↔ op.Refused c v) : Ends op m v := by
  unfold Ends; rw [h]; exact ⟨h1, h2⟩

theorem Out.cast_panic {β : Type} (o : Out α) : (o.cast : Out β) = .panic ↔ o = .panic := by cases o <;> simp [Out.cast]

theorem Out.cast_invalid {β : Type} (o : Out α) : (o.cast : Out β) = .invalid ↔ o = .invalid := by cases o <;> simp [Out.cast]

theorem Ends.of_eq' {P Q : Prop} {op : Op τ α} {m : Mem c τ} {op' : Op τ (Fin (2 ^ c.bits))} (h : StepEq m op op') (hoom : (step c m op).1 ≠ .oom)
    (h1 : (step c.nums m.nums op').1 ≠ .oom → ((step c.nums m.nums op').1 = .panic ↔ P) ∧ ((step c.nums m.nums op').1 = .invalid ↔ Q)) :
    ((step c m op).1 = .panic ↔ P) ∧ ((step c m op).1 = .invalid ↔ Q) := by
  rw [h.out] at hoom ⊢
  rw [Out.cast_panic, Out.cast_invalid]
  exact h1 fun he => hoom (by rw [he]; rfl)

theorem Ends.of_eq {op : Op τ α} {m : Mem c τ} {v : Vecs Nat τ} {op' : Op τ (Fin (2 ^ c.bits))} (h : StepEq m op op') (hoom : (step c m op).1 ≠ .oom)
    (h1 : (step c.nums m.nums op').1 ≠ .oom → ((step c.nums m.nums op').1 = .panic ↔ op.Panics c v) ∧
      ((step c.nums m.nums op').1 = .invalid ↔ op.Refused c v)) : Ends op m v := by
  unfold Ends
  rw [h.out] at hoom ⊢
  rw [Out.cast_panic, Out.cast_invalid]
  exact h1 fun he => hoom (by rw [he]; rfl)

theorem numFilter_end (E : EnumLike α) (f : Closure τ α Bool) : ∀ (ds : List Nat) (w : τ) (o : Out α), (numFilter E f ds w).2.2 = some o → o = .panic ∨ o = .invalid
  | [], _, _, h => by cases h
  | d :: ds, w, o, h => by
    unfold numFilter at h
    split at h
    · cases h; exact Or.inr rfl
    · split at h
      · exact numFilter_end E f ds _ o h
      · exact numFilter_end E f ds _ o h
      · cases h; exact Or.inl rfl

theorem numMap_end (E : EnumLike α) (f : Closure τ α α) : ∀ (ds : List Nat) (w : τ) (o : Out α), (numMap E f ds w).2.2 = some o → o = .panic ∨ o = .invalid
  | [], _, _, h => by cases h
  | d :: ds, w, o, h => by
    unfold numMap at h
    split at h
    · cases h; exact Or.inr rfl
    · split at h
      · exact numMap_end E f ds _ o h
      · cases h; exact Or.inl rfl

theorem mapM_none {β γ : Type} (g : β → Option γ) : ∀ l : List β, l.mapM g = none ↔ ∃ x ∈ l, g x = none
  | [] => by simp
  | x :: l => by
    rw [List.mapM_cons]
    have ih := mapM_none g l
    cases hx : g x with
    | none => exact ⟨fun _ => ⟨x, List.mem_cons_self, hx⟩, fun _ => rfl⟩
    | some y =>
      cases hl : l.mapM g with
      | none =>
        obtain ⟨z, h1, h2⟩ := ih.mp hl
        exact ⟨fun _ => ⟨z, List.mem_cons_of_mem _ h1, h2⟩, fun _ => rfl⟩
      | some q =>
        refine ⟨fun h => (by cases h), fun ⟨z, h1, h2⟩ => ?_⟩
        rcases List.mem_cons.mp h1 with rfl | h1
        · rw [hx] at h2; cases h2
        · exact absurd (ih.mpr ⟨z, h1, h2⟩) (by rw [hl]; nofun)

theorem iterSpecRun_sub {β : Type} : ∀ (calls : List IterOp) (l : List β) (d : β), .item (some d) ∈ (iterSpecRun calls l).1 → d ∈ l
  | [], _, _, h => by cases h
  | o :: os, l, d, h => by
    rcases List.mem_cons.mp h with h | h
    · cases o with
      | next => exact List.mem_of_mem_head? (IterOut.item.inj h).symm
      | nextBack => exact List.mem_of_getLast? (IterOut.item.inj h).symm
      | nth n => exact List.mem_of_getElem? (IterOut.item.inj h).symm
      | sizeHint => cases h
    · have := iterSpecRun_sub os _ d h
      cases o with
      | next => exact List.mem_of_mem_tail this
      | nextBack => exact (List.dropLast_sublist _).subset this
      | nth n => exact List.mem_of_mem_drop this
      | sizeHint => exact this

theorem numFilter_valid (E : EnumLike α) (f : Closure τ α Bool) : ∀ (ds : List Nat), (∀ d ∈ ds, (E.fromDiscr d).isSome) → ∀ w : τ,
    (numFilter E f ds w).2.2 ≠ some .invalid
  | [], _, _ => nofun
  | d :: ds, hv, w => by
    have h1 := hv d List.mem_cons_self
    have ih := numFilter_valid E f ds fun d hd => hv d (List.mem_cons_of_mem _ hd)
    unfold numFilter
    cases hd : E.fromDiscr d with
    | none => rw [hd] at h1; cases h1
    | some x =>
      dsimp only
      rcases f x w with ⟨_ | _ | _, w'⟩
      · nofun
      · exact ih w'
      · exact ih w'

theorem numMap_valid (E : EnumLike α) (f : Closure τ α α) : ∀ (ds : List Nat), (∀ d ∈ ds, (E.fromDiscr d).isSome) → ∀ w : τ,
    (numMap E f ds w).2.2 ≠ some .invalid
  | [], _, _ => nofun
  | d :: ds, hv, w => by
    have h1 := hv d List.mem_cons_self
    have ih := numMap_valid E f ds fun d hd => hv d (List.mem_cons_of_mem _ hd)
    unfold numMap
    cases hd : E.fromDiscr d with
    | none => rw [hd] at h1; cases h1
    | some x =>
      dsimp only
      rcases f x w with ⟨_ | _, w'⟩
      · nofun
      · exact ih w'

/-- Adding elements at the limit. -/
theorem limit_ends (hc : c.Sound) {s : EV c.W} (hs : Safe c s) {it : Src α} (hw : c.AtLimit (s.num + it.hint)) :
    ∃ e s', extend c it s = (.error e, s') ∧ ((e.out : Out α) = .panic ↔ c.build.checked = true ∨ it.items = []) ∧ (e.out : Out α) ≠ .invalid := by
  have hp := hs.hint_pos hc hw
  cases hck : c.build.checked with
  | true => exact ⟨_, _, extend_limit_debug hw hck, iff_of_true rfl (Or.inl rfl), nofun⟩
  | false =>
    by_cases hi : it.items = []
    · refine ⟨_, _, extend_limit_nil hw hck hi hp, ?_⟩
      cases it.panics <;> exact ⟨iff_of_true rfl (Or.inr hi), nofun⟩
    · exact ⟨_, _, extend_limit_ub hw hck hi hp, iff_of_false nofun fun h => hi (h.resolve_left nofun), nofun⟩

theorem limit_ends_new (hc : c.Sound) {it : Src α} (hw : c.AtLimit it.hint) (m : Mem c τ) (r : Nat) :
    ((m.assign r (build c (new c) (extend c it))).1 = .panic ↔ c.build.checked = true ∨ it.items = []) ∧
      (m.assign r (build c (new c) (extend c it))).1 ≠ .invalid := by
  obtain ⟨e, s', h1, h2, h3⟩ := limit_ends hc (new_safe hc) (it := it) (by rw [show (new c : EV c.W).num = 0 from rfl, Nat.zero_add]; exact hw)
  unfold build Mem.assign
  rw [h1]
  exact ⟨h2, h3⟩

theorem fromVec_ends (hc : c.Sound) {xs : List α} (hw : c.AtLimit xs.length) (m : Mem c τ) (r : Nat) :
    ((m.assign r (build c (new c) (extend c ⟨xs.length, xs, false⟩))).1 = .panic ↔ c.build.checked = true ∧ c.AtLimit xs.length) ∧
      ((m.assign r (build c (new c) (extend c ⟨xs.length, xs, false⟩))).1 = .invalid ↔ False) := by
  obtain ⟨h1, h2⟩ := limit_ends_new hc (it := ⟨xs.length, xs, false⟩) hw m r
  refine ⟨h1.trans ⟨fun h => ⟨h.resolve_right fun hx => ?_, hw⟩, fun h => Or.inl h.1⟩, iff_of_false h2 id⟩
  replace hx : xs = [] := hx
  have := hw.2
  have := c.build.lt_usizeLim (n := 1) (by omega)
  rw [hx, List.length_nil] at *
  omega

theorem ends (hc : c.Sound) (hr : ∀ x, c.E.toDiscr x < 2 ^ c.bits) {m : Mem c τ} {v : Vecs Nat τ} (h : NumSame c m v) (op : Op τ α)
    (hb : op.Borrows) (hoom : (step c m op).1 ≠ .oom) : Ends op m v := by
  have key := fun ha => ((C63_exact hc hr h op hb hoom).mpr ha).1
  cases op with
  | new r => exact .of_num (key trivial) (iff_of_false nofun id) (iff_of_false nofun id)
  | withCapacity r n => exact .of_num (key trivial) (iff_of_false nofun id) (iff_of_false nofun id)
  | fromElem r x n => exact .of_num (key trivial) (iff_of_false nofun id) (iff_of_false nofun id)
  | fromVec r xs =>
    by_cases hw : c.AtLimit xs.length
    · exact fromVec_ends hc hw m r
    · exact .of_num (key hw) (iff_of_false nofun fun h => hw h.2) (iff_of_false nofun id)
  | fromSlice r xs =>
    by_cases hw : c.AtLimit xs.length
    · exact fromVec_ends hc hw m r
    · exact .of_num (key hw) (iff_of_false nofun fun h => hw h.2) (iff_of_false nofun id)
  | clone r src => exact .of_num (key trivial) (iff_of_false nofun id) (iff_of_false nofun id)
  | len r => exact .of_num (key trivial) (iff_of_false nofun id) (iff_of_false nofun id)
  | isEmpty r => exact .of_num (key trivial) (iff_of_false nofun id) (iff_of_false nofun id)
  | push r x => exact .of_num (key trivial) (iff_of_false nofun id) (iff_of_false nofun id)
  | truncate r n => exact .of_num (key trivial) (iff_of_false nofun id) (iff_of_false nofun id)
  | clear r => exact .of_num (key trivial) (iff_of_false nofun id) (iff_of_false nofun id)
  | resize r n x => exact .of_num (key trivial) (iff_of_false nofun id) (iff_of_false nofun id)
  | reserve r n =>
    have hn : (m.reg r).num = (v.reg r).length := (h.reg r).len
    by_cases hw : c.AtLimit ((v.reg r).length + n)
    · have e := reserve_limit (s := m.reg r) (k := n) (by rw [hn]; exact hw)
      show ((m.call r _ _).1 = _ ↔ _) ∧ ((m.call r _ _).1 = _ ↔ _)
      unfold Mem.call
      rw [e]
      cases hck : c.build.checked with
      | true => exact ⟨iff_of_true rfl ⟨hck, hw⟩, iff_of_false nofun id⟩
      | false => exact ⟨iff_of_false nofun (fun h => absurd (hck.symm.trans h.1) nofun), iff_of_false nofun id⟩
    · exact .of_num (key fun h => absurd h hw) (iff_of_false nofun fun h => hw h.2) (iff_of_false nofun id)
  | shrinkToFit r => exact .of_num (key trivial) (iff_of_false nofun id) (iff_of_false nofun id)
  | eq r o => exact .of_num (key trivial) (iff_of_false nofun id) (iff_of_false nofun id)
  | any r x => exact .of_num (key trivial) (iff_of_false nofun id) (iff_of_false nofun id)
  | all r x => exact .of_num (key trivial) (iff_of_false nofun id) (iff_of_false nofun id)
  | hash r => exact .of_num (key trivial) (iff_of_false nofun id) (iff_of_false nofun id)
  | fromIter r it =>
    by_cases hw : c.AtLimit it.hint
    · obtain ⟨h1, h2⟩ := limit_ends_new hc hw m r
      exact ⟨h1.trans (iff_of_eq (if_pos hw).symm), iff_of_false h2 id⟩
    have hif : (Op.fromIter r it : Op τ α).Panics c v ↔ (it.panics = true ∨ it.items.length < it.hint) := iff_of_eq (if_neg hw)
    unfold Ends
    rw [hif]
    refine Ends.of_eq' (op' := .fromIter r (Inst.encSrc hr it)) (stepEq_assign _ (nums_fromIter hr it) rfl rfl) hoom fun hoom => ?_
    have hlen : (Inst.encSrc hr it).items.length = it.items.length := List.length_map _
    show (_ ↔ (it.panics = true ∨ it.items.length < it.hint)) ∧ (_ ↔ False)
    rcases assign_cases (nums_ok hc) m.nums r (fromIter_holds (nums_ok hc) (Inst.encSrc hr it) (by rw [nums_atLimit]; exact hw)) with ⟨s, ⟨h1, h2, -⟩, e1⟩ | ⟨f, he, e1⟩
    · rw [show step c.nums m.nums (.fromIter r (Inst.encSrc hr it)) = _ from e1]
      have h1 : it.panics = false := h1
      have h2 : it.hint ≤ (Inst.encSrc hr it).items.length := h2
      exact ⟨iff_of_false nofun (by rw [h1]; simp; omega), iff_of_false nofun id⟩
    · rw [show step c.nums m.nums (.fromIter r (Inst.encSrc hr it)) = _ from e1] at hoom ⊢
      rcases he with ⟨rfl, -⟩ | ⟨rfl, h1⟩ | ⟨h1, -, rfl⟩
      · exact absurd rfl hoom
      · exact ⟨iff_of_true rfl (Or.inl h1), iff_of_false nofun id⟩
      · have h1 : (Inst.encSrc hr it).items.length < it.hint := h1
        exact ⟨iff_of_true rfl (Or.inr (by omega)), iff_of_false nofun id⟩
  | extend r it =>
    have hn : (m.reg r).num = (v.reg r).length := (h.reg r).len
    by_cases hw : c.AtLimit ((v.reg r).length + it.hint)
    · obtain ⟨e, s', h1, h2, h3⟩ := limit_ends hc (h.reg r).safe (it := it) (by rw [hn]; exact hw)
      have e1 : (step c m (.extend r it)).1 = e.out := by simp only [step, Mem.call, h1]
      unfold Ends
      rw [e1]
      exact ⟨h2.trans (iff_of_eq (if_pos hw).symm), iff_of_false h3 id⟩
    have hif : (Op.extend r it : Op τ α).Panics c v ↔ (it.panics = true ∨ it.items.length < it.hint) := iff_of_eq (if_neg hw)
    unfold Ends
    rw [hif]
    refine Ends.of_eq' (op' := .extend r (Inst.encSrc hr it)) (stepEq_call _ (nums_extend hr it) (fun _ => .unit) (fun _ => trivial) rfl rfl) hoom fun hoom => ?_
    have hlen : (Inst.encSrc hr it).items.length = it.items.length := List.length_map _
    show (_ ↔ (it.panics = true ∨ it.items.length < it.hint)) ∧ (_ ↔ False)
    obtain ⟨u, rfl⟩ := h.exists
    rcases call_cases (nums_ok hc) m.nums r (fun _ => Out.unit) (extend_holds (nums_ok hc) (Inst.encSrc hr it) (((h.reg r).is hc).holds (nums_ok hc)) (by rw [nums_atLimit]; rw [vals_len] at hw; exact hw)) with
      ⟨_, s, ⟨h1, h2, -⟩, e1⟩ | ⟨f, s, ⟨-, he⟩, e1⟩
    · rw [show step c.nums m.nums (.extend r (Inst.encSrc hr it)) = _ from e1]
      have h1 : it.panics = false := h1
      have h2 : it.hint ≤ (Inst.encSrc hr it).items.length := h2
      exact ⟨iff_of_false nofun (by rw [h1]; simp; omega), iff_of_false nofun id⟩
    · rw [show step c.nums m.nums (.extend r (Inst.encSrc hr it)) = _ from e1] at hoom ⊢
      rcases he with ⟨rfl, -⟩ | ⟨rfl, h1, -⟩ | ⟨h1, rfl, -⟩
      · exact absurd rfl hoom
      · exact ⟨iff_of_true rfl (Or.inl h1), iff_of_false nofun id⟩
      · have h1 : (Inst.encSrc hr it).items.length < it.hint := h1
        cases (Inst.encSrc hr it).panics <;> exact ⟨iff_of_true rfl (Or.inr (by omega)), iff_of_false nofun id⟩
  | get r i =>
    refine .of_num (key trivial) (iff_of_false ?_ id) ?_
    · simp only [numStep]
      cases (v.reg r)[i]? with
      | none => exact nofun
      | some d => dsimp only; cases c.E.fromDiscr d <;> exact nofun
    · simp only [numStep, Op.Refused, RefusedAt]
      cases (v.reg r)[i]? with
      | none => exact iff_of_false nofun nofun
      | some d =>
        dsimp only
        cases hd : c.E.fromDiscr d with
        | none => exact iff_of_true rfl ⟨d, rfl, hd⟩
        | some x => exact iff_of_false nofun fun ⟨d', h1, h2⟩ => by cases h1; rw [hd] at h2; cases h2
  | set r i x =>
    refine .of_num (key trivial) ?_ (iff_of_false ?_ id)
    · simp only [numStep, Op.Panics]
      split
      · exact iff_of_false nofun (by omega)
      · exact iff_of_true rfl (by omega)
    · simp only [numStep]; split <;> exact nofun
  | pop r =>
    refine .of_num (key trivial) (iff_of_false ?_ id) ?_
    · simp only [numStep]
      cases (v.reg r).getLast? with
      | none => exact nofun
      | some d => dsimp only; cases c.E.fromDiscr d <;> exact nofun
    · simp only [numStep, Op.Refused, RefusedAt]
      rw [List.getLast?_eq_getElem?]
      cases (v.reg r)[(v.reg r).length - 1]? with
      | none => exact iff_of_false nofun nofun
      | some d =>
        dsimp only
        cases hd : c.E.fromDiscr d with
        | none => exact iff_of_true rfl ⟨d, rfl, hd⟩
        | some x => exact iff_of_false nofun fun ⟨d', h1, h2⟩ => by cases h1; rw [hd] at h2; cases h2
  | swap r i j =>
    refine .of_num (key trivial) ?_ (iff_of_false ?_ id)
    · simp only [numStep, Op.Panics]
      rcases hi : (v.reg r)[i]? with _ | d
      · exact iff_of_true rfl (Or.inl (List.getElem?_eq_none_iff.mp hi))
      · rcases hj : (v.reg r)[j]? with _ | e
        · exact iff_of_true rfl (Or.inr (List.getElem?_eq_none_iff.mp hj))
        · have h1 := (List.getElem?_eq_some_iff.mp hi).1
          have h2 := (List.getElem?_eq_some_iff.mp hj).1
          exact iff_of_false nofun (by omega)
    · simp only [numStep]
      rcases (v.reg r)[i]? with _ | d
      · exact nofun
      · rcases (v.reg r)[j]? with _ | e <;> exact nofun
  | swapRemove r i =>
    rcases hi : (v.reg r)[i]? with _ | d
    · have h1 : (numStep c.E v (.swapRemove r i)).1 = .panic := by simp only [numStep, hi]
      exact .of_num (key trivial) (iff_of_true h1 (List.getElem?_eq_none_iff.mp hi))
        (iff_of_false (by rw [h1]; nofun) fun ⟨d, h2, _⟩ => by rw [hi] at h2; cases h2)
    · have hlt := (List.getElem?_eq_some_iff.mp hi).1
      have hl : ∃ e, (v.reg r).getLast? = some e := by
        rw [List.getLast?_eq_getElem?]; exact ⟨_, List.getElem?_eq_getElem (by omega)⟩
      obtain ⟨e, hl⟩ := hl
      cases hd : c.E.fromDiscr d with
      | none =>
        have h1 : (numStep c.E v (.swapRemove r i)).1 = .invalid := by simp only [numStep, hi, hl, hd]
        exact .of_num (key trivial) (iff_of_false (by rw [h1]; nofun) (Nat.not_le.mpr hlt)) (iff_of_true h1 ⟨d, hi, hd⟩)
      | some x =>
        have h1 : (numStep c.E v (.swapRemove r i)).1 = .val x := by simp only [numStep, hi, hl, hd]
        exact .of_num (key trivial) (iff_of_false (by rw [h1]; nofun) (Nat.not_le.mpr hlt))
          (iff_of_false (by rw [h1]; nofun) fun ⟨d', h2, h3⟩ => by rw [hi] at h2; cases h2; rw [hd] at h3; cases h3)
  | retain r f =>
    have := numFilter_end c.E f (v.reg r) v.world
    refine .of_num (key trivial) ?_ ?_
    all_goals
      simp only [numStep, Op.Panics, Op.Refused]
      revert this
      rcases numFilter c.E f (v.reg r) v.world with ⟨kept, w, _ | o⟩
      · exact fun _ => iff_of_false nofun nofun
      · intro _; exact (Option.some_inj).symm
  | forEach r f =>
    have := numMap_end c.E f (v.reg r) v.world
    refine .of_num (key trivial) ?_ ?_
    all_goals
      simp only [numStep, Op.Panics, Op.Refused]
      revert this
      rcases numMap c.E f (v.reg r) v.world with ⟨kept, w, _ | o⟩
      · exact fun _ => iff_of_false nofun nofun
      · intro _; exact (Option.some_inj).symm
  | toVec r =>
    have := mapM_none c.E.fromDiscr (v.reg r)
    refine .of_num (key trivial) (iff_of_false ?_ id) ?_
    · simp only [numStep]; split <;> exact nofun
    · simp only [numStep, Op.Refused, RefusedAt]
      have e : (∃ (i d : Nat), (v.reg r)[i]? = some d ∧ c.E.fromDiscr d = none) ↔ ∃ x ∈ v.reg r, c.E.fromDiscr x = none := by
        constructor
        · rintro ⟨i, d, h1, h2⟩; exact ⟨d, List.mem_of_getElem? h1, h2⟩
        · rintro ⟨d, h1, h2⟩
          obtain ⟨i, hi⟩ := List.mem_iff_getElem?.mp h1
          exact ⟨i, d, hi, h2⟩
      rw [e, ← this]
      rcases (v.reg r).mapM c.E.fromDiscr with _ | l
      · exact iff_of_true rfl rfl
      · exact iff_of_false nofun nofun
  | iterate r calls =>
    have := mapM_none (IterOut.decode c.E) (iterSpecRun calls (v.reg r)).1
    refine .of_num (key trivial) (iff_of_false ?_ id) ?_
    · simp only [numStep]; split <;> exact nofun
    · simp only [numStep, Op.Refused]
      have e : (∃ d, IterOut.item (some d) ∈ (iterSpecRun calls (v.reg r)).1 ∧ c.E.fromDiscr d = none) ↔
          ∃ x ∈ (iterSpecRun calls (v.reg r)).1, IterOut.decode c.E x = none := by
        constructor
        · rintro ⟨d, h1, h2⟩; exact ⟨_, h1, by show (c.E.fromDiscr d).map _ = _; rw [h2]; rfl⟩
        · rintro ⟨x, h1, h2⟩
          rcases x with (_ | d) | ⟨a, b⟩
          · cases h2
          · exact ⟨d, h1, Option.map_eq_none_iff.mp h2⟩
          · cases h2
      rw [e, ← this]
      rcases (iterSpecRun calls (v.reg r)).1.mapM (IterOut.decode c.E) with _ | l
      · exact iff_of_true rfl rfl
      · exact iff_of_false nofun nofun
  | splitOff r at_ d =>
    show (_ ↔ (v.reg r).length < at_) ∧ (_ ↔ False)
    by_cases hi : (v.reg r).length ≤ at_
    · rw [key hi]
      simp only [numStep]
      split
      · exact ⟨iff_of_false nofun (by omega), iff_of_false nofun id⟩
      · exact ⟨iff_of_true rfl (by omega), iff_of_false nofun id⟩
    · obtain ⟨u, rfl⟩ := h.exists
      rw [vals_len] at hi ⊢
      rcases C16_split_off_ub (nums_ok hc) ((h.reg r).is hc) (i := at_) (Nat.lt_of_not_le hi) with e1 | ⟨e1, -⟩ <;> rw [nums_splitOff] at e1
      · simp only [step, e1]
        exact ⟨iff_of_false nofun (by omega), iff_of_false nofun id⟩
      · simp only [step, e1] at hoom
        exact absurd rfl hoom
  | append r o =>
    show (_ ↔ False) ∧ (_ ↔ False)
    by_cases hi : c.small = true ∨ (v.reg r).length % c.epb ≠ 0 ∨ v.reg o = []
    · rw [key hi]
      exact ⟨iff_of_false nofun id, iff_of_false nofun id⟩
    · have h1 : c.small = false := by
        cases hx : c.small
        · rfl
        · exact absurd (Or.inl hx) hi
      have h2 : (v.reg r).length % c.epb = 0 := Decidable.byContradiction fun hx => hi (Or.inr (Or.inl hx))
      obtain ⟨u, rfl⟩ := h.exists
      rw [vals_len] at h2
      have key := C15_append_wrong (nums_ok hc) ((h.reg r).is hc) ((h.reg o).is hc) h1 (by rw [nums_epb]; exact h2)
      rw [nums_append] at key
      simp only [step] at hoom ⊢
      rcases hx : EV.append c (m.reg r, m.reg o) with ⟨e | b, p⟩
      · rw [hx] at key hoom
        obtain ⟨rfl, -⟩ := key
        exact absurd rfl hoom
      · exact ⟨iff_of_false nofun id, iff_of_false nofun id⟩
  | insert r i x =>
    obtain ⟨u, rfl⟩ := h.exists
    refine .of_eq (op' := .insert r i (c.enc hr x)) (stepEq_call _ (nums_insert x (c.enc hr x) rfl i) (fun _ => .unit) (fun _ => trivial) rfl rfl) hoom
      fun hoom => ?_
    show (_ ↔ c.build.checked = true ∧ if i ≤ (u.vals.reg r).length then c.bits = c.W else _) ∧ (_ ↔ False)
    rw [vals_len]
    have hR := (h.reg r).is hc
    by_cases hi : i ≤ (u.reg r).length
    · rw [if_pos hi]
      rcases Nat.lt_or_ge c.bits c.W with hw | hw
      · have := ((C60_exact (nums_ok hc) ((numSame_iff hc).mp h) (.insert r i (c.enc hr x)) trivial hoom).mpr
          ⟨hi, Or.inl (by rw [nums_bits]; exact hw)⟩).1
        rw [this, show vecStep c.nums.E u (.insert r i (c.enc hr x)) = (.unit, _) from if_pos hi]
        exact ⟨iff_of_false nofun (by omega), iff_of_false nofun id⟩
      · have hbw : c.bits = c.W := Nat.le_antisymm hc.bits_le hw
        have hbw' : c.nums.bits = c.nums.W := by rw [nums_bits]; exact hbw
        cases hck : c.build.checked with
        | true =>
          rcases call_cases (nums_ok hc) m.nums r (fun _ => Out.unit) (C06_fullwidth_debug (nums_ok hc) hbw' hck hR hi (c.enc hr x)) with
            ⟨_, _, hF, -⟩ | ⟨e, s, he, e1⟩
          · exact hF.elim
          · rw [show step c.nums m.nums (.insert r i (c.enc hr x)) = _ from e1] at hoom ⊢
            rcases he with ⟨rfl, -⟩ | ⟨rfl, -⟩
            · exact ⟨iff_of_true rfl ⟨rfl, hbw⟩, iff_of_false nofun id⟩
            · exact absurd rfl hoom
        | false =>
          rcases call_cases (nums_ok hc) m.nums r (fun _ => Out.unit) (C06_fullwidth_release_iff (nums_ok hc) hbw' hck hR hi (c.enc hr x)) with
            ⟨_, s, -, e1⟩ | ⟨e, s, ⟨rfl, -⟩, e1⟩
          · rw [show step c.nums m.nums (.insert r i (c.enc hr x)) = _ from e1]
            exact ⟨iff_of_false nofun (by simp), iff_of_false nofun id⟩
          · rw [show step c.nums m.nums (.insert r i (c.enc hr x)) = _ from e1] at hoom
            exact absurd rfl hoom
    · rw [if_neg hi]
      rcases call_cases (nums_ok hc) m.nums r (fun _ => Out.unit)
        (insert_beyond_iff (nums_ok hc) (hR.holds (nums_ok hc)) (Nat.lt_of_not_le hi) (c.enc hr x)) with ⟨_, s, h1, e1⟩ | ⟨e, s, he, e1⟩
      · rw [show step c.nums m.nums (.insert r i (c.enc hr x)) = _ from e1]
        rw [nums_epb] at h1
        exact ⟨iff_of_false nofun h1, iff_of_false nofun id⟩
      · rw [show step c.nums m.nums (.insert r i (c.enc hr x)) = _ from e1] at hoom ⊢
        rcases he with ⟨rfl, h1⟩ | rfl
        · rw [nums_epb] at h1
          exact ⟨iff_of_true rfl h1, iff_of_false nofun id⟩
        · exact absurd rfl hoom
  | remove r i =>
    show (_ ↔ _ ∨ _) ∧ (_ ↔ RefusedAt c.E (v.reg r) i)
    rcases hi : (v.reg r)[i]? with _ | d
    · have h1 := key (Or.inl fun d hd => by rw [hi] at hd; cases hd)
      simp only [numStep, hi] at h1
      rw [h1]
      exact ⟨iff_of_true rfl (Or.inl (List.getElem?_eq_none_iff.mp hi)), iff_of_false nofun fun ⟨d, h2, _⟩ => by rw [hi] at h2; cases h2⟩
    · have hlt := (List.getElem?_eq_some_iff.mp hi).1
      cases hd : c.E.fromDiscr d with
      | none =>
        have h1 := key (Or.inl fun d' hd' => by rw [hi] at hd'; cases hd'; exact hd)
        simp only [numStep, hi, hd] at h1
        rw [h1]
        exact ⟨iff_of_false nofun fun h2 => h2.elim (by omega) fun h2 => h2.2.2.2 ⟨d, hi, hd⟩, iff_of_true rfl ⟨d, hi, hd⟩⟩
      | some x =>
        have hn : ¬ RefusedAt c.E (v.reg r) i := fun ⟨d', h2, h3⟩ => by rw [hi] at h2; cases h2; rw [hd] at h3; cases h3
        have hrm := nums_remove hc (h.reg r) hi hd
        obtain ⟨u, rfl⟩ := h.exists
        have hR := (h.reg r).is hc
        rw [vals_len] at hlt ⊢
        have out : ∀ z s, EV.remove c.nums i (m.reg r) = (.ok z, s) → (step c m (.remove r i)).1 = .val x := by
          intro z s hz
          rw [hz] at hrm
          simp only [step, Mem.call, hrm, Except.map]
        have fin : (step c m (.remove r i)).1 = .val x → ¬ (c.build.checked = true ∧ c.bits = c.W ∧ i + 2 < (u.reg r).length) →
            ((step c m (.remove r i)).1 = .panic ↔ (u.reg r).length ≤ i ∨ c.build.checked = true ∧ c.bits = c.W ∧ i + 2 < (u.reg r).length ∧
              ¬ RefusedAt c.E (u.vals.reg r) i) ∧ ((step c m (.remove r i)).1 = .invalid ↔ RefusedAt c.E (u.vals.reg r) i) := by
          intro h1 h2
          rw [h1]
          exact ⟨iff_of_false nofun fun h3 => h3.elim (by omega) fun h3 => h2 ⟨h3.1, h3.2.1, h3.2.2.1⟩, iff_of_false nofun hn⟩
        rcases Nat.lt_or_ge c.bits c.W with hw | hw
        · obtain ⟨s', h1, -⟩ := C08_remove_iff (nums_ok hc) (by rw [nums_bits]; exact hw) hR hlt
          exact fin (out _ _ h1) (by omega)
        · have hbw : c.bits = c.W := Nat.le_antisymm hc.bits_le hw
          have hbw' : c.nums.bits = c.nums.W := by rw [nums_bits]; exact hbw
          have hep : c.nums.epb = 1 := epb_full (nums_ok hc) hbw'
          cases hck : c.build.checked with
          | true =>
            by_cases hl : (u.reg r).length ≤ i + 2
            · obtain ⟨s', h1, -⟩ := remove_near (nums_ok hc) (hR.holds (nums_ok hc)) hlt (by rw [hep, Nat.div_one]; omega)
              have := fin (out _ _ h1) (by omega)
              rw [hck] at this
              exact this
            · obtain ⟨s', h1, -⟩ := C08_remove_fullwidth_debug (nums_ok hc) hbw' hck hR (index := i) (by omega)
              have h2 : (step c m (.remove r i)).1 = .panic := by
                rw [h1] at hrm
                simp only [step, Mem.call, hrm, Except.map, Fault.out]
              rw [h2]
              exact ⟨iff_of_true rfl (Or.inr ⟨rfl, hbw, by omega, hn⟩), iff_of_false nofun hn⟩
          | false =>
            obtain ⟨s', h1, -⟩ := C08_remove_fullwidth_release_iff (nums_ok hc) hbw' hck hR hlt
            have := fin (out _ _ h1) (by rw [hck]; simp)
            rw [hck] at this
            exact this

/-- **C64** A call on well-formed vectors (that is not refused memory) panics, other than in `from_discr`, **if and only if** `Op.Panics`. -/
theorem C64_panics (hc : c.Sound) (hr : ∀ x, c.E.toDiscr x < 2 ^ c.bits) {m : Mem c τ} {v : Vecs Nat τ} (h : NumSame c m v) (op : Op τ α)
    (hb : op.Borrows) (hoom : (step c m op).1 ≠ .oom) : (step c m op).1 = .panic ↔ op.Panics c v := (ends hc hr h op hb hoom).1

/-- **C64** It panics in `from_discr` **if and only if** `Op.Refused`. -/
theorem C64_refused (hc : c.Sound) (hr : ∀ x, c.E.toDiscr x < 2 ^ c.bits) {m : Mem c τ} {v : Vecs Nat τ} (h : NumSame c m v) (op : Op τ α)
    (hb : op.Borrows) (hoom : (step c m op).1 ≠ .oom) : (step c m op).1 = .invalid ↔ op.Refused c v := (ends hc hr h op hb hoom).2

/-- **C64** It is undefined behaviour **if and only if** it is `split_off` before the end, or adds elements at the limit of C66 in a release build. -/
theorem C64_ub (hc : c.Sound) (hr : ∀ x, c.E.toDiscr x < 2 ^ c.bits) {m : Mem c τ} {v : Vecs Nat τ} (h : NumSame c m v) (op : Op τ α)
    (hb : op.Borrows) (hoom : (step c m op).1 ≠ .oom) : (step c m op).1 = .ub ↔ op.Undefined c v := by
  by_cases hz : ∃ r n x, op = .resize r n x
  · obtain ⟨r, n, x, rfl⟩ := hz
    refine iff_of_false ?_ id
    have key := resize_keeps hc n x (m.reg r) (h.reg r).safe
    show (m.call r _ _).1 ≠ _
    unfold Mem.call
    rcases hx : EV.resize c n x (m.reg r) with ⟨e | b, s'⟩ <;> rw [hx] at key
    · exact fun he => key.1 ((Fault.out_ub_iff e).mp he)
    · nofun
  have hb : (UOp.safe op : UOp c.W τ α).WellTyped c := by
    cases op with
    | resize r n x => exact absurd ⟨r, n, x, rfl⟩ hz
    | _ => exact hb
  refine ((C61_ub hc (fun r => (h.reg r).safe.real hc) (.safe op) hb (fun _ => hr)).2 hoom).trans ?_
  have hs := fun r => (h.reg r).safe.notShort
  have hl := fun r => (h.reg r).len
  have hcov := fun r => (h.reg r).safe.cover
  have hcov : ∀ r, EV.len c (m.reg r) ≤ slots c (m.reg r) := hcov
  have hne : ∀ {xs : List α}, c.Drops xs.length → xs ≠ [] := fun {xs} hd hx => by
    have := hd.2.2
    have := c.build.lt_usizeLim (n := 1) (by omega)
    rw [hx, List.length_nil] at *
    omega
  show op.Ub c m ↔ _
  cases op with
  | splitOff r i d => show i < _ ↔ i < _; rw [hl]
  | get r i => exact iff_of_false (fun ⟨h1, h2⟩ => by have := hcov r; omega) id
  | set r i x => exact iff_of_false (fun ⟨h1, h2⟩ => by have := hcov r; omega) id
  | push r x => exact iff_of_false (hs r) id
  | pop r => exact iff_of_false (hs r) id
  | insert r i x => exact iff_of_false (hs r) id
  | hash r => exact iff_of_false (hs r) id
  | remove r i => exact iff_of_false (fun h => hs r h.2.1) id
  | swapRemove r i => exact iff_of_false (fun h => hs r h.2) id
  | swap r i j => exact iff_of_false (fun h => by have := hcov r; have := h.1; have := h.2; omega) id
  | append r o => exact iff_of_false (fun h => hs o h.2) id
  | retain r f => exact iff_of_false (fun h => hs r h.1) id
  | forEach r f => exact iff_of_false (fun h => hs r h.1) id
  | toVec r => exact iff_of_false (fun h => hs r h.1) id
  | eq r o => exact iff_of_false (fun h => h.2.1.elim (hs r) (hs o)) id
  | iterate r calls =>
    refine iff_of_false ?_ id
    rintro ⟨pre, i, post, h1, h2, -⟩
    have h3 : i ∈ visited (EV.len c (m.reg r)) calls := by rw [h1]; simp
    unfold visited at h3
    obtain ⟨x, h4, h5⟩ := List.mem_filterMap.mp h3
    rcases x with (_ | j) | ⟨a, b⟩
    · cases h5
    · cases h5
      have := List.mem_range.mp (iterSpecRun_sub calls _ i h4)
      have := hcov r
      omega
    · cases h5
  | extend r it => show _ ∧ _ ↔ _ ∧ _; rw [hl]
  | fromIter r it => exact Iff.rfl
  | fromVec r xs => exact ⟨fun h => h.1, fun h => ⟨h, hne h⟩⟩
  | fromSlice r xs => exact ⟨fun h => h.1, fun h => ⟨h, hne h⟩⟩
  | resize r n x => exact absurd ⟨r, n, x, rfl⟩ hz
  | _ => exact Iff.rfl

/-- **C64** It returns **if and only if** none of these. -/
theorem C64_returns (hc : c.Sound) (hr : ∀ x, c.E.toDiscr x < 2 ^ c.bits) {m : Mem c τ} {v : Vecs Nat τ} (h : NumSame c m v) (op : Op τ α)
    (hb : op.Borrows) (hoom : (step c m op).1 ≠ .oom) : (step c m op).1.Returned ↔ ¬ op.Panics c v ∧ ¬ op.Refused c v ∧ ¬ op.Undefined c v := by
  rw [← C64_panics hc hr h op hb hoom, ← C64_refused hc hr h op hb hoom, ← C64_ub hc hr h op hb hoom]
  cases hx : (step c m op).1 <;> simp_all [Out.Returned]

/-- **C64** If all numbers in the vectors are those of values, then no call panics in `from_discr`. -/
theorem C64_valid {v : Vecs Nat τ} (hv : ∀ r, ∀ d ∈ v.reg r, (c.E.fromDiscr d).isSome) (op : Op τ α) : ¬ op.Refused c v := by
  have hat : ∀ r i, ¬ RefusedAt c.E (v.reg r) i := by
    rintro r i ⟨d, h1, h2⟩
    have := hv r d (List.mem_of_getElem? h1)
    rw [h2] at this; cases this
  cases op with
  | get r i => exact hat r i
  | pop r => exact hat r _
  | remove r i => exact hat r i
  | swapRemove r i => exact hat r i
  | toVec r => rintro ⟨i, h⟩; exact hat r i h
  | iterate r calls =>
    rintro ⟨d, h1, h2⟩
    have := hv r d (iterSpecRun_sub calls _ d h1)
    rw [h2] at this; cases this
  | retain r f => exact numFilter_valid c.E f _ (hv r) v.world
  | forEach r f => exact numMap_valid c.E f _ (hv r) v.world
  | _ => exact id

/-! ## Non-trivial cases -/

section
local instance (ops : List (Op τ (Fin 16))) (m : Mem cLossy τ) (v : Vecs Nat τ) : Decidable (NumAgreesRun cLossy ops m v) :=
  numAgreesRunDec (by decide) ops m v

local instance (ops : List (Op τ (Fin 200))) (m : Mem c200 τ) (v : Vecs Nat τ) : Decidable (NumAgreesRun c200 ops m v) :=
  numAgreesRunDec (by decide) ops m v

/-- The numbers 0, 2, 7, 3, 4, of which 7 cannot be read. -/
def lossyMem : Mem cLossy Nat := (runAll cLossy (lossyHistory.take 1) (Mem.start cLossy 0)).2

def lossyVecs : Vecs Nat Nat := (numRun cLossy.E (lossyHistory.take 1) (Vecs.start 0)).2

theorem lossy_same : NumSame cLossy lossyMem lossyVecs :=
  (C63_results cLossy_sound cLossy_fits (lossyHistory.take 1) (.start cLossy_sound 0) (by decide +kernel) (by decide +kernel) (by decide +kernel)).2

theorem lossy_reg : lossyVecs.reg 0 = [0, 2, 7, 3, 4] := by decide +kernel

/-- Reading all elements panics in `from_discr`, … -/
example : (step cLossy lossyMem (.toVec 0)).1 = .invalid :=
  (C64_refused cLossy_sound cLossy_fits lossy_same (.toVec 0) trivial (by decide +kernel)).mpr ⟨2, 7, by rw [lossy_reg]; rfl, rfl⟩

/-- … iterating from both ends does not unless the element is reached, … -/
example : (step cLossy lossyMem (.iterate 0 [.next, .nextBack, .next, .nextBack])).1.Returned :=
  (C64_returns cLossy_sound cLossy_fits lossy_same (.iterate 0 [.next, .nextBack, .next, .nextBack]) trivial (by decide +kernel)).mpr
    ⟨id, (by
      show ¬ ∃ d, _
      rw [lossy_reg]
      rintro ⟨d, h1, h2⟩
      have : d = 0 ∨ d = 4 ∨ d = 2 ∨ d = 3 := by
        simpa [iterSpecRun, iterSpec] using h1
      rcases this with rfl | rfl | rfl | rfl <;> cases h2), id⟩

/-- … and neither does `remove` after it. -/
example : (step cLossy lossyMem (.remove 0 3)).1.Returned :=
  (C64_returns cLossy_sound cLossy_fits lossy_same (.remove 0 3) trivial (by decide +kernel)).mpr
    ⟨by rintro (h | h)
        · rw [lossy_reg] at h; exact absurd h (by decide)
        · exact absurd h.2.1 (by decide),
      (by rintro ⟨d, h1, h2⟩; rw [lossy_reg] at h1; cases h1; cases h2), id⟩

/-- An iterator that promises more than it yields. -/
example : (step cLossy lossyMem (.extend 0 ⟨3, [1, 2], false⟩)).1 = .panic :=
  (C64_panics cLossy_sound cLossy_fits lossy_same (.extend 0 ⟨3, [1, 2], false⟩) trivial (by decide +kernel)).mpr (Or.inr (by decide))

/-- `insert` close to `usize::MAX`: a panic in a debug build (and the element has been pushed), though elsewhere beyond the end it returns. -/
example : (step cLossy lossyMem (.insert 0 (2 ^ 64 - 1) 5)).1 = .panic :=
  (C64_panics cLossy_sound cLossy_fits lossy_same (.insert 0 (2 ^ 64 - 1) 5) trivial (by decide +kernel)).mpr
    ⟨rfl, by rw [lossy_reg]; decide +kernel⟩

example : (step cLossy lossyMem (.insert 0 77 5)).1.Returned :=
  (C64_returns cLossy_sound cLossy_fits lossy_same (.insert 0 77 5) trivial (by decide +kernel)).mpr
    ⟨by rintro ⟨-, h⟩; rw [lossy_reg] at h; revert h; decide +kernel, id, id⟩

/-- Elements as wide as blocks, in a debug build: `remove` panics from the third last element on. -/
def wideMem : Mem c200 Nat := (runAll c200 [.fromVec 0 [7, 8, 9, 10]] (Mem.start c200 0)).2

def wideVecs : Vecs Nat Nat := (numRun c200.E [(.fromVec 0 [7, 8, 9, 10] : Op Nat (Fin 200))] (Vecs.start 0)).2

theorem wide_fits : ∀ x, c200.E.toDiscr x < 2 ^ c200.bits := fun x => Nat.lt_of_lt_of_le x.isLt (by decide)

theorem wide_same : NumSame c200 wideMem wideVecs :=
  (C63_results c200_ok.sound wide_fits [.fromVec 0 [7, 8, 9, 10]] (.start c200_ok.sound 0) (by decide +kernel) (by decide +kernel) (by decide +kernel)).2

theorem wide_reg : wideVecs.reg 0 = [7, 8, 9, 10] := by decide +kernel

example : (step c200 wideMem (.remove 0 1)).1 = .panic :=
  (C64_panics c200_ok.sound wide_fits wide_same (.remove 0 1) trivial (by decide +kernel)).mpr
    (Or.inr ⟨rfl, rfl, by rw [wide_reg]; decide, by rintro ⟨d, h1, h2⟩; rw [wide_reg] at h1; cases h1; revert h2; decide +kernel⟩)

example : (step c200 wideMem (.remove 0 2)).1.Returned :=
  (C64_returns c200_ok.sound wide_fits wide_same (.remove 0 2) trivial (by decide +kernel)).mpr
    ⟨by rintro (h | h)
        · rw [wide_reg] at h; exact absurd h (by decide)
        · have := h.2.2.1; rw [wide_reg] at this; exact absurd this (by decide),
      by rintro ⟨d, h1, h2⟩; rw [wide_reg] at h1; cases h1; revert h2; decide +kernel, id⟩

/-- All these numbers are those of values, so that nothing panics in `from_discr`. -/
example (op : Op Nat (Fin 200)) : ¬ op.Refused c200 wideVecs := by
  refine C64_valid (fun r d hd => ?_) op
  by_cases h0 : r = 0
  · subst h0
    rw [wide_reg] at hd
    simp only [List.mem_cons, List.not_mem_nil, or_false] at hd
    rcases hd with rfl | rfl | rfl | rfl <;> decide +kernel
  · have : wideVecs.reg r = [] := by
      show upd (fun _ => []) 0 _ r = []
      rw [upd_ne _ _ h0]
    rw [this] at hd; cases hd

example : (step c200 wideMem (.splitOff 0 2 1)).1 = .ub :=
  (C64_ub c200_ok.sound wide_fits wide_same (.splitOff 0 2 1) (by decide) (by decide +kernel)).mpr (by show 2 < _; rw [wide_reg]; decide)

end

end EnumVecModel
