import Verif.ExactSpec
import Verif.Props.InsertRemove
import Verif.Props.Bulk
import Verif.Props.History
import Verif.Lemmas.ValidHistory

set_option linter.unusedSectionVars false

/-! # Exactly which calls are calls of `Vec` (C60) -/

namespace EnumVecModel
open EV

variable {α τ : Type} {c : Inst α} [DecidableEq α]

omit [DecidableEq α] in
theorem Is.unique {s : EV c.W} {l l' : List α} (h : Is c s l) (h' : Is c s l') : l = l' := by
  refine List.ext_getElem? fun i => ?_
  have h1 := h.shows.2 i
  have h2 := h'.shows.2 i
  rw [h1] at h2
  exact Except.ok.inj (congrArg Prod.fst h2)

omit [DecidableEq α] in
theorem Same.upd_iff {m : Mem c τ} {v : Vecs α τ} (h : Same c m v) (r : Nat) (s : EV c.W) (l : List α) :
    Same c { m with reg := upd m.reg r s } { v with reg := upd v.reg r l } ↔ Is c s l := by
  refine ⟨fun h' => ?_, fun h' => ⟨h.world, fun q => ?_⟩⟩
  · have := h'.reg r
    simpa only [upd_same] using this
  · by_cases hq : q = r
    · subst hq; simpa only [upd_same] using h'
    · simpa only [upd_ne _ _ hq] using h.reg q

omit [DecidableEq α] in
theorem Same.sim (hc : c.Ok) {m : Mem c τ} {v : Vecs α τ} (h : Same c m v) : Sim c (fun _ => .dirty) m v :=
  ⟨h.world, fun r => (h.reg r).holds hc⟩

/-- No call but `append` leaves a variable unusable. -/
theorem marks_alive (v : Vecs α τ) (op : Op τ α)
    (ha : ∀ r o, op = .append r o → c.small = true ∨ (v.reg r).length % c.epb ≠ 0 ∨ v.reg o = []) (q : Nat) :
    marks c (fun _ => .dirty) v op q ≠ .dead := by
  cases op
  case append r o =>
    have := ha r o rfl
    simp only [marks, upd]
    repeat' split
    all_goals simp_all
  case truncate r n => cases n <;> simp [marks]
  all_goals
    simp only [marks, Inst.soil]
    repeat' split
    all_goals (try unfold upd)
    all_goals (repeat' split)
    all_goals simp

/-- A call that C01 allows, with marks that only say "usable", is the same call, if it leaves no variable unusable. -/
theorem sameCall_of_allowed (hc : c.Ok) {m : Mem c τ} {v : Vecs α τ} (h : Same c m v) (op : Op τ α)
    (hoom : (step c m op).1 ≠ .oom) (ha : Allowed c (fun _ => .dirty) v op)
    (hm : ∀ r o, op = .append r o → c.small = true ∨ (v.reg r).length % c.epb ≠ 0 ∨ v.reg o = []) : SameCall c m v op := by
  rcases step_ok hc (h.sim hc) op ha with ⟨h1, -⟩ | ⟨h1, -, -, h2⟩
  · exact absurd h1 hoom
  · exact ⟨h1, h2.world, fun q => ((h2.reg q).holds (marks_alive v op hm q)).is hc⟩

/-- `filterSpec` and `filterRest` share the list between them. -/
theorem filter_rest_le (f : Closure τ α Bool) : ∀ (l : List α) (w : τ),
    (filterSpec f l w).1.length + (filterRest f l w).length ≤ l.length
  | [], _ => by simp [filterSpec, filterRest]
  | x :: xs, w => by
    unfold filterSpec filterRest
    rcases hx : f x w with ⟨_ | b, w'⟩
    · simp
    · have := filter_rest_le f xs w'
      cases b <;> simp <;> omega

/-- If nothing is missing, nothing was dropped. -/
theorem filter_rest_eq (f : Closure τ α Bool) : ∀ (l : List α) (w : τ),
    (filterSpec f l w).1.length + (filterRest f l w).length = l.length → (filterSpec f l w).1 ++ filterRest f l w = l
  | [], _, _ => by simp [filterSpec, filterRest]
  | x :: xs, w, h => by
    unfold filterSpec filterRest at h ⊢
    rcases hx : f x w with ⟨_ | b, w'⟩
    · rfl
    · rw [hx] at h
      have h1 := filter_rest_le f xs w'
      cases b with
      | false => simp only [List.length_cons] at h; omega
      | true =>
        simp only [List.length_cons] at h
        exact congrArg (x :: ·) (filter_rest_eq f xs w' (by omega))

/-- `collect` at the limit. -/
theorem fromIter_limit (hc : c.Ok) {m : Mem c τ} {v : Vecs α τ} (h : Same c m v) {it : Src α} (hw : c.AtLimit it.hint) {r : Nat} :
    SameCall c m v (.fromIter r it) ↔ (c.build.checked = true ∨ it.items = []) ∧ it.panics = true := by
  have hw' : c.AtLimit ((new c : EV c.W).num + it.hint) := by rw [show (new c : EV c.W).num = 0 from rfl, Nat.zero_add]; exact hw
  have hpos := (new_safe hc).hint_pos hc hw'
  unfold SameCall
  have hv : ∀ {s : EV c.W} {e : Fault}, extend c it (new c) = (.error e, s) → step c m (.fromIter r it) = (e.out, m) := fun {s e} hx => by
    simp only [step, Mem.assign, EV.fromIter, build, hx]
  cases hck : c.build.checked with
  | true =>
    rw [hv (extend_limit_debug hw' hck)]
    simp only [vecStep]
    cases hp : it.panics with
    | true => exact ⟨fun _ => ⟨Or.inl trivial, rfl⟩, fun _ => ⟨rfl, h⟩⟩
    | false => exact ⟨fun hs => absurd hs.1 nofun, fun hs => absurd hs.2 nofun⟩
  | false =>
    by_cases hi : it.items = []
    · rw [hv (extend_limit_nil hw' hck hi hpos)]
      simp only [vecStep]
      cases hp : it.panics with
      | true => exact ⟨fun _ => ⟨Or.inr hi, rfl⟩, fun _ => ⟨rfl, h⟩⟩
      | false => exact ⟨fun hs => absurd hs.1 nofun, fun hs => absurd hs.2 nofun⟩
    · rw [hv (extend_limit_ub hw' hck hi hpos)]
      simp only [vecStep]
      refine ⟨fun hs => ?_, fun hs => absurd (hs.1.resolve_left nofun) hi⟩
      have h5 := hs.1
      cases hp : it.panics <;> rw [hp] at h5 <;> cases h5

/-- **C60** In any state in which the two programs agree, a call (that is not refused memory) gives exactly what it gives
on `Vec`s and leaves all vectors and closures as `Vec` leaves them **if and only if** `Agrees`. -/
theorem C60_exact (hc : c.Ok) {m : Mem c τ} {v : Vecs α τ} (h : Same c m v) (op : Op τ α) (hb : op.Borrows)
    (hoom : (step c m op).1 ≠ .oom) : SameCall c m v op ↔ Agrees c m v op := by
  cases op with
  | insert r i x =>
    have hr := h.reg r
    show SameCall c m v (.insert r i x) ↔ _ ∧ _
    by_cases hi : i ≤ (v.reg r).length
    · rcases Nat.lt_or_ge c.bits c.W with hw | hw
      · exact ⟨fun _ => ⟨hi, Or.inl hw⟩, fun _ => sameCall_of_allowed hc h _ hoom ⟨trivial, fun _ _ _ => nofun, hi, Or.inl hw⟩ nofun⟩
      · have hbw : c.bits = c.W := Nat.le_antisymm hc.bits_le hw
        have hv : vecStep c.E v (.insert r i x) =
            (.unit, { v with reg := upd v.reg r ((v.reg r).take i ++ x :: (v.reg r).drop i) }) := if_pos hi
        unfold SameCall
        rw [hv]
        cases hck : c.build.checked with
        | true =>
          refine ⟨fun hs => ?_, fun hs => ?_⟩
          · rcases call_cases hc m r (fun _ => Out.unit) (C06_fullwidth_debug hc hbw hck hr hi x) with ⟨_, _, hF, -⟩ | ⟨e, s, he, e1⟩
            · exact hF.elim
            · rw [show step c m (.insert r i x) = _ from e1] at hs hoom
              rcases he with ⟨rfl, -⟩ | ⟨rfl, -⟩
              · exact absurd hs.1 nofun
              · exact absurd rfl hoom
          · rcases hs.2 with h1 | ⟨h1, -⟩
            · omega
            · cases h1
        | false =>
          rcases call_cases hc m r (fun _ => Out.unit) (C06_fullwidth_release_iff hc hbw hck hr hi x) with
            ⟨_, s, ⟨-, -, -, h4⟩, e1⟩ | ⟨e, s, ⟨rfl, -⟩, e1⟩
          · rw [show step c m (.insert r i x) = _ from e1, h.upd_iff, h4]
            exact ⟨fun hs => ⟨hi, Or.inr ⟨rfl, hs.2⟩⟩, fun hs => ⟨rfl, (hs.2.resolve_left (by omega)).2⟩⟩
          · rw [show step c m (.insert r i x) = _ from e1] at hoom
            exact absurd rfl hoom
    · refine ⟨fun hs => ?_, fun hs => absurd hs.1 hi⟩
      exfalso
      have hv : vecStep c.E v (.insert r i x) = (.panic, v) := if_neg hi
      unfold SameCall at hs
      rw [hv] at hs
      rcases call_cases hc m r (fun _ => Out.unit) (insert_beyond hc (hr.holds hc) (Nat.lt_of_not_le hi) x) with ⟨_, s, -, e1⟩ | ⟨e, s, he, e1⟩
      · rw [show step c m (.insert r i x) = _ from e1] at hs
        exact absurd hs.1 nofun
      · rw [show step c m (.insert r i x) = _ from e1] at hs hoom
        rcases he with ⟨rfl, h1, -⟩ | ⟨rfl, -⟩
        · have h2 := hs.2.reg r
          simp only [upd_same] at h2
          have := congrArg List.length (h2.unique (h1.is hc))
          simp at this
        · exact absurd rfl hoom
  | remove r i =>
    have hr := h.reg r
    show SameCall c m v (.remove r i) ↔ _ ∨ _
    by_cases hi : i < (v.reg r).length
    · have hv : vecStep c.E v (.remove r i) =
          (.val (v.reg r)[i], { v with reg := upd v.reg r ((v.reg r).take i ++ (v.reg r).drop (i + 1)) }) := by
        simp only [vecStep, List.getElem?_eq_getElem hi]
      have hor : ∀ P : Prop, ((v.reg r).length ≤ i ∨ P ↔ P) := fun P => or_iff_right (by omega)
      rw [hor]
      unfold SameCall
      rw [hv]
      rcases Nat.lt_or_ge c.bits c.W with hw | hw
      · rw [if_pos hw]
        obtain ⟨s', h1, -, -, h2⟩ := C08_remove_iff hc hw hr hi
        rw [show step c m (.remove r i) = _ from call_ok hc m r .val h1, h.upd_iff, h2]
        refine ⟨fun hs j y hj hy => ?_, fun hs => ⟨rfl, fun j hj hlt => hs j _ hlt (List.getElem?_eq_getElem hj)⟩⟩
        obtain ⟨hj', rfl⟩ := List.getElem?_eq_some_iff.mp hy
        exact hs.2 j hj' hj
      · have hbw : c.bits = c.W := Nat.le_antisymm hc.bits_le hw
        have hep : c.epb = 1 := epb_full hc hbw
        rw [if_neg (by omega)]
        cases hck : c.build.checked with
        | true =>
          rw [if_pos rfl]
          by_cases hn : (v.reg r).length ≤ i + 2
          · refine ⟨fun _ => hn, fun _ => ?_⟩
            obtain ⟨s', h1, h2, -⟩ := remove_near hc (hr.holds hc) hi (by rw [hep, Nat.div_one]; omega)
            rw [show step c m (.remove r i) = _ from call_ok hc m r .val h1, h.upd_iff, ← List.eraseIdx_eq_take_drop_succ]
            exact ⟨rfl, h2.is hc⟩
          · refine ⟨fun hs => ?_, fun hs => absurd hs hn⟩
            obtain ⟨s', h1, -⟩ := C08_remove_fullwidth_debug hc hbw hck hr (index := i) (by omega)
            rw [show step c m (.remove r i) = _ from call_error hc m r .val h1] at hs
            exact absurd hs.1 nofun
        | false =>
          rw [if_neg (by decide)]
          obtain ⟨s', h1, -, -, -, -, -, h2⟩ := C08_remove_fullwidth_release_iff hc hbw hck hr hi
          rw [show step c m (.remove r i) = _ from call_ok hc m r .val h1, h.upd_iff, ← List.eraseIdx_eq_take_drop_succ, h2]
          refine ⟨fun hs k y z hy hz => ?_, fun hs => ⟨rfl, fun k y z hk hy hz => ?_⟩⟩
          · rw [List.getElem?_drop] at hy hz
            exact hs.2 (i + 1 + k) y z (by omega) hy (by rwa [show i + 1 + k + 1 = i + 2 + k by omega])
          · refine hs (k - (i + 1)) y z ?_ ?_
            · rw [List.getElem?_drop, show i + 1 + (k - (i + 1)) = k by omega]; exact hy
            · rw [List.getElem?_drop, show i + 2 + (k - (i + 1)) = k + 1 by omega]; exact hz
    · refine ⟨fun _ => Or.inl (by omega), fun _ => ?_⟩
      exact sameCall_of_allowed hc h _ hoom ⟨trivial, fun _ _ _ => nofun, Or.inl (by omega)⟩ nofun
  | splitOff r at_ d =>
    show SameCall c m v (.splitOff r at_ d) ↔ (v.reg r).length ≤ at_
    by_cases hi : (v.reg r).length ≤ at_
    · exact ⟨fun _ => hi, fun _ => sameCall_of_allowed hc h _ hoom ⟨trivial, fun _ _ _ => nofun, hi⟩ nofun⟩
    · refine ⟨fun hs => ?_, fun hs => absurd hs hi⟩
      exfalso
      have hv : vecStep c.E v (.splitOff r at_ d) = (.unit, _) := if_pos (by omega)
      unfold SameCall at hs
      rw [hv] at hs
      rcases C16_split_off_ub hc (h.reg r) (i := at_) (by omega) with e1 | ⟨e1, -⟩
      · simp only [step, e1] at hs
        exact absurd hs.1 nofun
      · simp only [step, e1] at hoom
        exact absurd rfl hoom
  | append r o =>
    have hne : r ≠ o := hb
    show SameCall c m v (.append r o) ↔ _
    by_cases hi : c.small = true ∨ (v.reg r).length % c.epb ≠ 0 ∨ v.reg o = []
    · refine ⟨fun _ => hi, fun _ => sameCall_of_allowed hc h _ hoom ⟨hb, fun _ _ _ => nofun, trivial⟩ fun r' o' he => ?_⟩
      injection he with h1 h2
      rw [← h1, ← h2]; exact hi
    · refine ⟨fun hs => ?_, fun hs => absurd hs hi⟩
      exfalso
      have h1 : c.small = false := by
        cases hx : c.small
        · rfl
        · exact absurd (Or.inl hx) hi
      have h2 : (v.reg r).length % c.epb = 0 := Decidable.byContradiction fun hx => hi (Or.inr (Or.inl hx))
      have h3 : v.reg o ≠ [] := fun hx => hi (Or.inr (Or.inr hx))
      have key := C15_append_wrong hc (h.reg r) (h.reg o) h1 h2
      unfold SameCall at hs
      simp only [step, vecStep] at hs hoom
      rcases hx : EV.append c (m.reg r, m.reg o) with ⟨e | b, p⟩
      · rw [hx] at key hs hoom
        obtain ⟨rfl, -⟩ := key
        exact absurd rfl hoom
      · rw [hx] at key hs
        have h4 := hs.2.reg o
        simp only [upd_same] at h4
        have h5 := h4.shows.1
        rw [key.2.1] at h5
        exact h3 (List.length_eq_zero_iff.mp h5)
  | extend r it =>
    show SameCall c m v (.extend r it) ↔ if c.AtLimit ((v.reg r).length + it.hint) then c.build.checked = true ∧ it.items = [] ∧ it.panics = true
      else it.hint ≤ it.items.length
    by_cases hw : c.AtLimit ((v.reg r).length + it.hint)
    · rw [if_pos hw]
      have hn : (m.reg r).num = (v.reg r).length := ((h.reg r).holds hc).len_eq
      have hw' : c.AtLimit ((m.reg r).num + it.hint) := by rw [hn]; exact hw
      unfold SameCall
      have hpos := ((h.reg r).holds hc).toSafe.hint_pos hc hw'
      cases hck : c.build.checked with
      | true =>
        have e : step c m (.extend r it) = (.panic, m) := by
          simp only [step, Mem.call, extend_limit_debug hw' hck, upd_self]
          rfl
        rw [e]
        simp only [vecStep]
        refine ⟨fun hs => ?_, fun hs => ?_⟩
        · have h3 := (h.reg r).unique (by have := hs.2.reg r; simpa only [upd_same] using this)
          have h4 : it.items = [] := by simpa using h3
          refine ⟨trivial, h4, ?_⟩
          have h5 := hs.1
          cases hp : it.panics
          · rw [hp] at h5; cases h5
          · rfl
        · obtain ⟨-, h4, h5⟩ := hs
          rw [h4, h5, List.append_nil, upd_self]
          exact ⟨rfl, h⟩
      | false =>
        refine ⟨fun hs => ?_, fun hs => absurd hs.1 nofun⟩
        exfalso
        by_cases hi : it.items = []
        · have e := extend_limit_nil hw' hck hi hpos
          simp only [step, Mem.call, e, vecStep] at hs
          have h3 := hs.2.reg r
          simp only [upd_same, hi, List.append_nil] at h3
          have h4 := (h3.holds hc).len_eq
          replace h4 : (m.reg r).num + it.hint = _ := h4
          omega
        · have e := extend_limit_ub hw' hck hi hpos
          simp only [step, Mem.call, e, vecStep] at hs
          have h5 := hs.1
          cases hp : it.panics <;> rw [hp] at h5 <;> cases h5
    rw [if_neg hw]
    by_cases hi : it.hint ≤ it.items.length
    · exact ⟨fun _ => hi, fun _ => sameCall_of_allowed hc h _ hoom ⟨trivial, fun _ _ _ => nofun, hi, hw⟩ nofun⟩
    · refine ⟨fun hs => ?_, fun hs => absurd hs hi⟩
      exfalso
      unfold SameCall at hs
      rcases call_cases hc m r (fun _ => Out.unit) (extend_holds hc it ((h.reg r).holds hc) hw) with ⟨_, s, hok, -⟩ | ⟨e, s, ⟨-, he⟩, e1⟩
      · exact hi hok.2.1
      · rw [show step c m (.extend r it) = _ from e1] at hs hoom
        rcases he with ⟨rfl, -⟩ | ⟨-, -, h1, -⟩ | ⟨h1, -, -, h2⟩
        · exact absurd rfl hoom
        · exact hi h1
        · have h3 := hs.2.reg r
          simp only [vecStep, upd_same] at h3
          have h4 := h3.shows.1
          rw [show EV.len c s = _ from h2, List.length_append] at h4
          omega
  | fromIter r it =>
    show SameCall c m v (.fromIter r it) ↔ if c.AtLimit it.hint then (c.build.checked = true ∨ it.items = []) ∧ it.panics = true
      else it.hint ≤ it.items.length ∨ it.panics = true
    by_cases hw : c.AtLimit it.hint
    · rw [if_pos hw, fromIter_limit hc h hw]
    rw [if_neg hw]
    by_cases hi : it.hint ≤ it.items.length
    · exact ⟨fun _ => Or.inl hi, fun _ => sameCall_of_allowed hc h _ hoom ⟨trivial, fun _ _ _ => nofun, hi, hw⟩ nofun⟩
    · have key := fromIter_holds hc it hw
      unfold SameCall
      simp only [step, vecStep] at hoom ⊢
      rcases assign_cases hc m r key with ⟨s, hok, -⟩ | ⟨e, he, e1⟩
      · exact absurd hok.2.1 hi
      · rw [e1] at hoom ⊢
        rcases he with ⟨rfl, -⟩ | ⟨rfl, h1⟩ | ⟨-, h1, rfl⟩
        · exact absurd rfl hoom
        · rw [if_pos h1]
          exact ⟨fun _ => Or.inr h1, fun _ => ⟨rfl, h⟩⟩
        · rw [h1]
          exact ⟨fun hs => absurd hs.1 nofun, fun hs => absurd (hs.resolve_left hi) nofun⟩
  | reserve r k =>
    show SameCall c m v (.reserve r k) ↔ (c.AtLimit ((v.reg r).length + k) → c.build.checked = false ∧ v.reg r = [])
    by_cases hw : c.AtLimit ((v.reg r).length + k)
    · have hn : (m.reg r).num = (v.reg r).length := ((h.reg r).holds hc).len_eq
      have hw' : c.AtLimit ((m.reg r).num + k) := by rw [hn]; exact hw
      have e := reserve_limit hw'
      unfold SameCall
      cases hck : c.build.checked with
      | true =>
        rw [hck, if_pos rfl] at e
        refine ⟨fun hs => ?_, fun hs => absurd (hs hw).1 nofun⟩
        simp only [step, Mem.call, e, vecStep] at hs
        cases hs.1
      | false =>
        rw [hck, if_neg nofun] at e
        simp only [step, Mem.call, e, vecStep]
        refine ⟨fun hs _ => ⟨trivial, ?_⟩, fun hs => ?_⟩
        · have h3 := ((hs.2.reg r).holds hc).toSafe.cover
          simp only [upd_same] at h3
          replace h3 : (m.reg r).num ≤ 0 * c.epb := h3
          exact List.length_eq_zero_iff.mp (by omega)
        · have h3 := (hs hw).2
          refine ⟨trivial, h.world, fun q => ?_⟩
          by_cases hq : q = r
          · subst hq
            simp only [upd_same]
            rw [h3] at hn ⊢
            have hsafe := ((h.reg q).holds hc).toSafe
            refine (is_iff hc).mpr ⟨⟨?_, ?_, ?_⟩, hn, fun i hi => absurd hi (Nat.not_lt_zero _)⟩
            · show (m.reg q).num ≤ _
              rw [hn]; exact Nat.zero_le _
            · exact Nat.zero_le _
            · exact hsafe.capBound
          · simp only [upd_ne _ _ hq]; exact h.reg q
    · exact ⟨fun _ hw' => absurd hw' hw, fun _ => sameCall_of_allowed hc h _ hoom ⟨trivial, fun _ _ _ => nofun, hw⟩ nofun⟩
  | fromVec r xs =>
    show SameCall c m v (.fromVec r xs) ↔ ¬ c.AtLimit xs.length
    by_cases hw : c.AtLimit xs.length
    · exact ⟨fun hs => by have := (fromIter_limit (it := ⟨xs.length, xs, false⟩) hc h hw (r := r)).mp hs; simp at this, fun h => absurd hw h⟩
    · exact ⟨fun _ => hw, fun _ => sameCall_of_allowed hc h _ hoom ⟨trivial, fun _ _ _ => nofun, hw⟩ nofun⟩
  | fromSlice r xs =>
    show SameCall c m v (.fromSlice r xs) ↔ ¬ c.AtLimit xs.length
    by_cases hw : c.AtLimit xs.length
    · exact ⟨fun hs => by have := (fromIter_limit (it := ⟨xs.length, xs, false⟩) hc h hw (r := r)).mp hs; simp at this, fun h => absurd hw h⟩
    · exact ⟨fun _ => hw, fun _ => sameCall_of_allowed hc h _ hoom ⟨trivial, fun _ _ _ => nofun, hw⟩ nofun⟩
  | retain r f =>
    show SameCall c m v (.retain r f) ↔ _ ∨ _
    cases hi : (filterSpec f (v.reg r) v.world).2.2 with
    | true => exact ⟨fun _ => Or.inl rfl, fun _ => sameCall_of_allowed hc h _ hoom ⟨trivial, fun _ _ _ => nofun, hi⟩ nofun⟩
    | false =>
      obtain ⟨s', e1, h1⟩ := C17_retain hc f (h.reg r) m.world
      rw [h.world, hi] at e1 h1
      rw [if_neg (by decide)] at e1 h1
      have hle := filter_rest_le f (v.reg r) v.world
      have e2 : vecStep c.E v (.retain r f) = (.panic, ⟨upd v.reg r ((filterSpec f (v.reg r) v.world).1 ++
          filterRest f (v.reg r) v.world), (filterSpec f (v.reg r) v.world).2.1⟩) := by
        simp only [vecStep]
        generalize filterSpec f (v.reg r) v.world = q at hi ⊢
        obtain ⟨q1, q2, q3⟩ := q
        simp only at hi; subst hi; rfl
      unfold SameCall
      rw [e2]
      simp only [step, Mem.callW, h.world, e1]
      have hlen : (filterSpec f (v.reg r) v.world).1.length ≤ (v.reg r).length := by omega
      refine ⟨fun hs => Or.inr ?_, fun hs => ⟨rfl, rfl, fun q => ?_⟩⟩
      · have h2 := hs.2.reg r
        simp only [upd_same] at h2
        have h3 := h1.unique h2
        have h4 := congrArg List.length h3
        simp only [List.length_append, List.length_drop] at h4
        exact filter_rest_eq f _ _ (by omega)
      · by_cases hq : q = r
        · subst hq
          simp only [upd_same]
          have h3 := hs.resolve_left (by decide)
          have h4 : (v.reg q).drop (filterSpec f (v.reg q) v.world).1.length = filterRest f (v.reg q) v.world := by
            have := List.drop_left (l₁ := (filterSpec f (v.reg q) v.world).1) (l₂ := filterRest f (v.reg q) v.world)
            rwa [h3] at this
          rw [h4] at h1
          exact h1
        · simp only [upd_ne _ _ hq]; exact h.reg q
  | _ => exact ⟨fun _ => trivial, fun _ => sameCall_of_allowed hc h _ hoom ⟨hb, fun _ _ _ => nofun, trivial⟩ nofun⟩

/-- **C60** for histories: as long as no call is refused memory, all calls of a history give what they give on `Vec`s, with the
same states after every call, **if and only if** all calls agree. -/
theorem C60_history (hc : c.Ok) : ∀ (ops : List (Op τ α)) {m : Mem c τ} {v : Vecs α τ}, Same c m v → (∀ op ∈ ops, op.Borrows) →
    .oom ∉ (runAll c ops m).1 → (SameRun c ops m v ↔ AgreesRun c ops m v)
  | [], _, _, _, _, _ => Iff.rfl
  | o :: os, m, v, h, hb, hoom => by
    have h1 : .oom ∉ (step c m o).1 :: (runAll c os (step c m o).2).1 := hoom
    have key := C60_exact hc h o (hb o List.mem_cons_self) fun he => h1 (he ▸ List.mem_cons_self)
    show _ ∧ _ ↔ _ ∧ _
    rw [key]
    refine and_congr_right fun ha => ?_
    exact C60_history hc os (key.mpr ha).2 (fun op hop => hb op (List.mem_cons_of_mem _ hop)) fun he => h1 (List.mem_cons_of_mem _ he)

/-- **C60** from the start: all variables are empty, the histories begin in the same state. -/
theorem C60_start (hc : c.Ok) (w : τ) (ops : List (Op τ α)) (hb : ∀ op ∈ ops, op.Borrows)
    (hoom : .oom ∉ (runAll c ops (Mem.start c w)).1) :
    SameRun c ops (Mem.start c w) (Vecs.start w) ↔ AgreesRun c ops (Mem.start c w) (Vecs.start w) :=
  C60_history hc ops ⟨rfl, fun _ => (new_holds hc).is hc⟩ hb hoom

/-! ## Concrete histories -/

omit [DecidableEq α] in
theorem covered_iff (old new : List α) : c.Covered old new ↔ ∀ p ∈ old.zip new, c.E.toDiscr p.1 ||| c.E.toDiscr p.2 = c.E.toDiscr p.2 := by
  refine ⟨fun h p hp => ?_, fun h k y z hy hz => h (y, z) ?_⟩
  · obtain ⟨k, hk⟩ := List.mem_iff_getElem?.mp hp
    rw [List.getElem?_zip_eq_some] at hk
    exact h k _ _ hk.1 hk.2
  · exact List.mem_iff_getElem?.mpr ⟨k, List.getElem?_zip_eq_some.mpr ⟨hy, hz⟩⟩

instance (old new : List α) : Decidable (c.Covered old new) := decidable_of_iff _ (covered_iff old new).symm

/-- `Agrees` can be decided, so the examples can be computed. -/
@[reducible] def agreesDec (hp : 0 < c.epb) (m : Mem c τ) (v : Vecs α τ) (op : Op τ α) : Decidable (Agrees c m v op) := by
  cases op
  case remove r i =>
    have : Decidable (∀ (j : Nat) (y : α), i / c.epb < j → (v.reg r)[(j + 1) * c.epb]? = some y →
        unusedBits c (m.reg r) j ||| c.E.toDiscr y = c.E.toDiscr y) :=
      decidable_of_iff (∀ j, j < (v.reg r).length → i / c.epb < j → ∀ y ∈ (v.reg r)[(j + 1) * c.epb]?,
          unusedBits c (m.reg r) j ||| c.E.toDiscr y = c.E.toDiscr y)
        ⟨fun h j y hj hy => h j (by
          obtain ⟨h1, -⟩ := List.getElem?_eq_some_iff.mp hy
          have h2 : (j + 1) * 1 ≤ (j + 1) * c.epb := Nat.mul_le_mul_left _ hp
          omega) hj y hy, fun h j _ hj y hy => h j y hj hy⟩
    exact inferInstanceAs (Decidable (_ ∨ _))
  case insert => exact inferInstanceAs (Decidable (_ ∧ _))
  case splitOff => exact inferInstanceAs (Decidable (_ ≤ _))
  case append => exact inferInstanceAs (Decidable (_ ∨ _ ∨ _))
  case extend r it => exact inferInstanceAs (Decidable (if c.AtLimit ((v.reg r).length + it.hint) then _ ∧ it.items = [] ∧ _ else it.hint ≤ it.items.length))
  case fromIter r it => exact inferInstanceAs (Decidable (if c.AtLimit it.hint then (_ ∨ it.items = []) ∧ _ else it.hint ≤ it.items.length ∨ _))
  case fromVec r xs => exact inferInstanceAs (Decidable ¬ c.AtLimit xs.length)
  case fromSlice r xs => exact inferInstanceAs (Decidable ¬ c.AtLimit xs.length)
  case reserve r n => exact inferInstanceAs (Decidable (c.AtLimit ((v.reg r).length + n) → _ ∧ v.reg r = []))
  case retain => exact inferInstanceAs (Decidable (_ ∨ _))
  all_goals exact isTrue trivial

def agreesRunDec (hp : 0 < c.epb) : (ops : List (Op τ α)) → (m : Mem c τ) → (v : Vecs α τ) → Decidable (AgreesRun c ops m v)
  | [], _, _ => isTrue trivial
  | o :: os, m, v =>
    have := agreesDec hp m v o
    have := agreesRunDec hp os (step c m o).2 (vecStep c.E v o).2
    inferInstanceAs (Decidable (_ ∧ _))

instance : (op : Op τ α) → Decidable op.Borrows := fun op => by
  cases op <;> first | exact isTrue trivial | exact inferInstanceAs (Decidable (_ ≠ _))

local instance (m : Mem c8 τ) (v : Vecs (Fin 8) τ) (op : Op τ (Fin 8)) : Decidable (Agrees c8 m v op) := agreesDec (by decide) m v op
local instance (ops : List (Op τ (Fin 8))) (m : Mem c8 τ) (v : Vecs (Fin 8) τ) : Decidable (AgreesRun c8 ops m v) :=
  agreesRunDec (by decide) ops m v

/-- The history of C01's counterexample: memory suffices; the calls before `remove` agree, `remove` does not. -/
example : (∀ op ∈ badHistory, op.Borrows) ∧ .oom ∉ (runAll c8 badHistory (Mem.start c8 0)).1 ∧
    AgreesRun c8 (badHistory.take 4) (Mem.start c8 0) (Vecs.start 0) ∧
    ¬ AgreesRun c8 (badHistory.take 5) (Mem.start c8 0) (Vecs.start 0) := by decide +kernel

/-- So it is not the history of `Vec`s, by C60 and not by computation. -/
example : ¬ SameRun c8 badHistory (Mem.start c8 0) (Vecs.start 0) :=
  fun h => absurd ((C60_start c8_ok 0 badHistory (by decide +kernel) (by decide +kernel)).mp h) (by decide +kernel)

/-- A history that C01 does not allow, since bits are left where `remove` finds them, but whose calls all agree: the element that
moves there has those bits. -/
def luckyHistory : List (Op Nat (Fin 8)) :=
  [.fromVec 0 (List.replicate 22 7), .insert 0 0 7, .set 0 10 0, .set 0 20 3, .remove 0 0, .get 0 9, .get 0 19, .toVec 0]

example : ¬ AllowedRun c8 luckyHistory (fun _ => .clean) (Vecs.start 0) ∧
    AgreesRun c8 luckyHistory (Mem.start c8 0) (Vecs.start 0) := by decide +kernel

example : SameRun c8 luckyHistory (Mem.start c8 0) (Vecs.start 0) :=
  (C60_start c8_ok 0 luckyHistory (by decide +kernel) (by decide +kernel)).mpr (by decide +kernel)

local instance (ops : List (Op τ (Fin 200))) (m : Mem c200r τ) (v : Vecs (Fin 200) τ) : Decidable (AgreesRun c200r ops m v) :=
  agreesRunDec (by decide) ops m v

/-- Elements as wide as blocks, release build: `insert` agrees if it is in front of equal elements. -/
example : AgreesRun c200r [.fromVec 0 [8, 12, 12], .insert 0 1 12] (Mem.start c200r 0) (Vecs.start 0) ∧
    ¬ AgreesRun c200r [.fromVec 0 [8, 12, 1], .insert 0 0 9] (Mem.start c200r 0) (Vecs.start 0) := by decide +kernel

/-- The second is a wrong history indeed, computed. -/
example : (run c200r [.fromVec 0 [8, 12, 1], .insert 0 0 9, .toVec 0] (Mem.start c200r 0)).1 ≠
    (vecRun c200r.E [.fromVec 0 [8, 12, 1], .insert 0 0 9, .toVec 0] (Vecs.start 0)).1 := by decide +kernel

end EnumVecModel
