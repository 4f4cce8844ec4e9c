import Verif.History
import Verif.Lemmas.SafeRun
import Verif.Lemmas.Near
import Verif.Lemmas.Api
import Verif.Lemmas.Iteration

set_option linter.unusedSectionVars false

/-! # One call of an allowed history behaves like on `Vec`s -/

namespace EnumVecModel
open EV

variable {α τ : Type} {c : Inst α}

theorem upd_same {β : Type} (f : Nat → β) (r : Nat) (x : β) : upd f r x r = x := by simp [upd]

theorem upd_ne {β : Type} (f : Nat → β) {r q : Nat} (x : β) (h : q ≠ r) : upd f r x q = f q := by simp [upd, h]

theorem upd_self {β : Type} (f : Nat → β) (r : Nat) : upd f r (f r) = f := by
  funext k; unfold upd; split
  · next h => rw [h]
  · rfl

/-- What a mark says about a variable. -/
def RegInv (c : Inst α) (s : EV c.W) (l : List α) : Mark → Prop
  | .clean => Holds c s l ∧ Clean c s
  | .dirty => Holds c s l
  | .dead => s.storage.data = [] ∧ (s.storage.cap + 1) * c.epb + 4 < c.build.usizeLim

theorem RegInv.holds {s : EV c.W} {l : List α} {k : Mark} (h : RegInv c s l k) (hk : k ≠ .dead) : Holds c s l := by
  cases k with
  | clean => exact h.1
  | dirty => exact h
  | dead => exact absurd rfl hk

theorem RegInv.tidy {s s' : EV c.W} {l l' : List α} {k : Mark} (h : RegInv c s l k) (hk : k ≠ .dead)
    (h' : Holds c s' l') (ht : Tidy c s s') : RegInv c s' l' k := by
  cases k with
  | clean => exact ⟨h', h.2.tidy ht⟩
  | dirty => exact h'
  | dead => exact absurd rfl hk

theorem RegInv.soil {s' : EV c.W} {l' : List α} {k : Mark} (hk : k ≠ .dead) (h' : Holds c s' l') :
    RegInv c s' l' (c.soil k) := by
  unfold Inst.soil
  split
  · next ht =>
    cases k with
    | clean => exact ⟨h', Clean.of_dvd _ ht⟩
    | dirty => exact h'
    | dead => exact absurd rfl hk
  · exact h'

/-- The relation between the two programs. -/
structure Sim (c : Inst α) (k : Nat → Mark) (m : Mem c τ) (v : Vecs α τ) : Prop where
  world : m.world = v.world
  reg : ∀ r, RegInv c (m.reg r) (v.reg r) (k r)

theorem Sim.upd {k : Nat → Mark} {m : Mem c τ} {v : Vecs α τ} (h : Sim c k m v) (r : Nat) {s : EV c.W} {l : List α}
    {q : Mark} (hr : RegInv c s l q) :
    Sim c (upd k r q) { m with reg := upd m.reg r s } { v with reg := upd v.reg r l } where
  world := h.world
  reg i := by
    by_cases hi : i = r
    · subst hi; simp only [upd_same]; exact hr
    · simp only [upd_ne _ _ hi]; exact h.reg i

theorem Sim.updW {k : Nat → Mark} {m : Mem c τ} {v : Vecs α τ} (h : Sim c k m v) (r : Nat) {s : EV c.W} {l : List α}
    (w : τ) (hr : RegInv c s l (k r)) :
    Sim c k ⟨EnumVecModel.upd m.reg r s, w⟩ ⟨EnumVecModel.upd v.reg r l, w⟩ where
  world := rfl
  reg i := by
    by_cases hi : i = r
    · subst hi; simp only [upd_same]; exact hr
    · simp only [upd_ne _ _ hi]; exact h.reg i

theorem Sim.upd1 {k : Nat → Mark} {m : Mem c τ} {v : Vecs α τ} (h : Sim c k m v) (r : Nat) {s : EV c.W} {l : List α}
    (hr : RegInv c s l (k r)) :
    Sim c k { m with reg := EnumVecModel.upd m.reg r s } { v with reg := EnumVecModel.upd v.reg r l } := by
  have := h.upd r hr; rwa [upd_self] at this

/-- The vector changed but the list did not. -/
theorem Sim.upd0 {k : Nat → Mark} {m : Mem c τ} {v : Vecs α τ} (h : Sim c k m v) (r : Nat) {s : EV c.W}
    (hr : RegInv c s (v.reg r) (k r)) : Sim c k { m with reg := EnumVecModel.upd m.reg r s } v := by
  have := h.upd1 r hr; rwa [upd_self] at this

variable [DecidableEq α]

/-- The call behaves like on `Vec`s, or memory is exhausted. -/
def StepOk (c : Inst α) (k : Nat → Mark) (m : Mem c τ) (v : Vecs α τ) (op : Op τ α) : Prop :=
  ((step c m op).1 = .oom ∧ OomReason c m op) ∨
  ((step c m op).1 = (vecStep c.E v op).1 ∧ (step c m op).1 ≠ .oom ∧ (step c m op).1 ≠ .ub ∧
    Sim c (marks c k v op) (step c m op).2 (vecStep c.E v op).2)

section
variable (hc : c.Ok)
include hc

omit [DecidableEq α] in
theorem assign_cases (m : Mem c τ) (r : Nat) {e : Except Fault (EV c.W)} {Q : EV c.W → Prop} {E : Fault → Prop}
    (h : Res e Q E) :
    (∃ s, Q s ∧ m.assign r e = (.unit, { m with reg := upd m.reg r s })) ∨
    (∃ f, E f ∧ m.assign r e = (f.out, m)) := by
  cases e with
  | ok s => exact Or.inl ⟨s, h, rfl⟩
  | error f => exact Or.inr ⟨f, h, rfl⟩

omit [DecidableEq α] in
theorem call_cases {β : Type} (m : Mem c τ) (r : Nat) {f : M (EV c.W) β} (out : β → Out α)
    {Q : β → EV c.W → Prop} {E : Fault → EV c.W → Prop} (h : Runs (f (m.reg r)) Q E) :
    (∃ b s, Q b s ∧ m.call r f out = (out b, { m with reg := upd m.reg r s })) ∨
    (∃ e s, E e s ∧ m.call r f out = (e.out, { m with reg := upd m.reg r s })) := by
  unfold Mem.call
  match hx : f (m.reg r), h with
  | (.ok b, s), h => exact Or.inl ⟨b, s, h, rfl⟩
  | (.error e, s), h => exact Or.inr ⟨e, s, h, rfl⟩

omit [DecidableEq α] in
theorem call_ok {β : Type} (m : Mem c τ) (r : Nat) {f : M (EV c.W) β} (out : β → Out α) {b : β} {s : EV c.W}
    (h : f (m.reg r) = (.ok b, s)) : m.call r f out = (out b, { m with reg := upd m.reg r s }) := by
  unfold Mem.call; rw [h]

omit [DecidableEq α] in
theorem call_error {β : Type} (m : Mem c τ) (r : Nat) {f : M (EV c.W) β} (out : β → Out α) {e : Fault} {s : EV c.W}
    (h : f (m.reg r) = (.error e, s)) : m.call r f out = (e.out, { m with reg := upd m.reg r s }) := by
  unfold Mem.call; rw [h]

variable {k : Nat → Mark} {m : Mem c τ} {v : Vecs α τ}

theorem stepOk_assign (h : Sim c k m v) (op : Op τ α) (r : Nat) (e : Except Fault (EV c.W)) (l : List α) (q : Mark)
    (he : Res e (fun s => RegInv c s l q) (fun f => f = .capacity ∧ OomReason c m op))
    (h1 : step c m op = m.assign r e) (h2 : vecStep c.E v op = (.unit, { v with reg := upd v.reg r l }))
    (h3 : marks c k v op = upd k r q) : StepOk c k m v op := by
  unfold StepOk
  rw [h1, h2, h3]
  rcases assign_cases hc m r he with ⟨s, hs, e1⟩ | ⟨f, ⟨rfl, hf⟩, e1⟩
  · rw [e1]; exact Or.inr ⟨rfl, nofun, nofun, h.upd r hs⟩
  · rw [e1]; exact Or.inl ⟨rfl, hf⟩

/-- A `&mut self` call that may fail only for lack of memory. -/
theorem stepOk_call {β : Type} (h : Sim c k m v) (op : Op τ α) (r : Nat) (f : M (EV c.W) β) (out : β → Out α) (o : Out α)
    (l : List α) (q : Mark)
    (hf : Runs (f (m.reg r)) (fun b s => out b = o ∧ RegInv c s l q) (fun e _ => e = .capacity ∧ OomReason c m op))
    (h1 : step c m op = m.call r f out) (h2 : vecStep c.E v op = (o, { v with reg := upd v.reg r l }))
    (h3 : marks c k v op = upd k r q) (ho : o ≠ .oom ∧ o ≠ .ub) : StepOk c k m v op := by
  unfold StepOk
  rw [h1, h2, h3]
  rcases call_cases hc m r out hf with ⟨b, s, ⟨rfl, hs⟩, e1⟩ | ⟨e, s, ⟨rfl, hs⟩, e1⟩
  · rw [e1]; exact Or.inr ⟨rfl, ho.1, ho.2, h.upd r hs⟩
  · rw [e1]; exact Or.inl ⟨rfl, hs⟩

/-- A call that panics, or a query. -/
theorem stepOk_same (h : Sim c k m v) (op : Op τ α) (o : Out α) (m' : Mem c τ)
    (h1 : step c m op = (o, m')) (hm : m' = m) (h2 : vecStep c.E v op = (o, v)) (h3 : marks c k v op = k)
    (ho : o ≠ .oom ∧ o ≠ .ub) : StepOk c k m v op := by
  subst hm
  unfold StepOk
  rw [h1, h2, h3]
  exact Or.inr ⟨rfl, ho.1, ho.2, h⟩

omit hc [DecidableEq α] in
theorem upd_mem (m : Mem c τ) (r : Nat) : ({ m with reg := upd m.reg r (m.reg r) } : Mem c τ) = m := by
  rw [upd_self]

omit [DecidableEq α] in
theorem iter_yields {s : EV c.W} {l : List α} (h : Is c s l) : Yields c s l (EV.iter c s) l := by
  have : len c s = l.length := h.shows.1
  refine ⟨rfl, Nat.zero_le _, Nat.le_of_eq this, ?_⟩
  show l = List.drop 0 (List.take (len c s) l)
  rw [this]; simp

omit [DecidableEq α] in
theorem Runs.of_eq {β σ : Type} {r : Except Fault β × σ} {b : β} {s : σ} {Q : β → σ → Prop} {E : Fault → σ → Prop}
    (h : r = (.ok b, s)) (hq : Q b s) : Runs r Q E := by rw [h]; exact hq

theorem step_ok (h : Sim c k m v) (op : Op τ α) (ha : Allowed c k v op) : StepOk c k m v op := by
  obtain ⟨hb, hd, ha⟩ := ha
  have hlive : ∀ r, op.revives = false → r ∈ op.uses → k r ≠ .dead := fun r h1 h2 => hd h1 r h2
  have hlen : ∀ r, k r ≠ .dead → EV.len c (m.reg r) = (v.reg r).length := fun r hr => ((h.reg r).holds hr).len_eq
  cases op with
  | new r => exact stepOk_assign hc h _ r (.ok (EV.new c)) [] .clean (show RegInv c (EV.new c) [] .clean from ⟨new_holds hc, new_clean hc⟩) rfl rfl rfl
  | withCapacity r n =>
    refine stepOk_assign hc h _ r _ [] .clean ?_ rfl rfl rfl
    have h1 := withCapacity_holds hc n
    cases hx : EV.withCapacity c n with
    | ok s =>
      rw [hx] at h1
      exact ⟨h1.1, (withCapacity_clean hc hx).1⟩
    | error e => rw [hx] at h1; exact h1
  | fromElem r x n =>
    refine stepOk_assign hc h _ r _ _ (if n ≤ 4 * c.epb then .clean else c.soil .clean) ?_ rfl rfl rfl
    refine (fromElem_holds hc x n).mono ?_ (fun _ h => h)
    rintro s ⟨h1, -, h2, -⟩
    split
    · next hn => exact ⟨h1, h2 hn⟩
    · exact RegInv.soil nofun h1
  | fromVec r xs =>
    refine stepOk_assign hc h _ r _ xs .clean ?_ rfl rfl rfl
    exact (fromVec_holds hc xs ha).mono (fun s hs => ⟨hs.1, hs.2.2⟩) (fun _ h => h)
  | fromSlice r xs =>
    refine stepOk_assign hc h _ r _ xs .clean ?_ rfl rfl rfl
    rw [fromSlice_eq hc]
    exact (fromVec_holds hc xs ha).mono (fun s hs => ⟨hs.1, hs.2.2⟩) (fun _ h => h)
  | fromIter r it =>
    have h1 := fromIter_holds hc it (show _ ∧ _ from ha).2
    cases hp : it.panics with
    | false =>
      refine stepOk_assign hc h _ r _ it.items .clean ?_ rfl ?_ ?_
      · refine h1.mono (fun s hs => ⟨hs.2.2.1, hs.2.2.2.2⟩) ?_
        rintro e (h2 | ⟨-, h2⟩ | ⟨h2, -⟩)
        · exact h2
        · rw [hp] at h2; cases h2
        · exact absurd (show _ ∧ _ from ha).1 (by omega)
      · simp [vecStep, hp]
      · simp [marks, hp]
    | true =>
      unfold StepOk
      cases hx : EV.fromIter c it with
      | ok s => rw [hx] at h1; exact absurd h1.1 (by simp [hp])
      | error e =>
        rw [hx] at h1
        have h2 : e = .capacity ∧ Refused c ((max it.hint it.items.length) / c.epb + 1) ∨ e = .user := by
          rcases h1 with h2 | ⟨h2, -⟩ | ⟨-, h2, -⟩
          · exact Or.inl h2
          · exact Or.inr h2
          · rw [hp] at h2; cases h2
        simp only [step, vecStep, marks, hp, Mem.assign, hx]
        rcases h2 with ⟨rfl, h2⟩ | rfl
        · exact Or.inl ⟨rfl, h2⟩
        · exact Or.inr ⟨rfl, nofun, nofun, h⟩
  | clone r src =>
    have hl := hlive src rfl (by simp [Op.uses])
    refine stepOk_assign hc h _ r _ (v.reg src) (k src) ?_ rfl rfl rfl
    refine (clone_holds hc ((h.reg src).holds hl)).mono ?_ (fun _ h => h)
    rintro s ⟨h1, h2⟩
    exact (h.reg src).tidy hl h1 (Tidy.of_data h2)
  | len r =>
    have hl := hlive r rfl (by simp [Op.uses])
    refine stepOk_same hc h _ (.num (EV.len c (m.reg r))) m rfl rfl ?_ rfl ⟨nofun, nofun⟩
    simp only [vecStep, hlen r hl]
  | isEmpty r =>
    have hl := hlive r rfl (by simp [Op.uses])
    refine stepOk_same hc h _ (.bool (EV.isEmpty c (m.reg r))) m rfl rfl ?_ rfl ⟨nofun, nofun⟩
    simp only [vecStep, EV.isEmpty, hlen r hl]
    cases v.reg r <;> simp
  | get r i =>
    have hl := hlive r rfl (by simp [Op.uses])
    exact stepOk_same hc h _ _ _ (call_ok hc m r .item (get_holds hc ((h.reg r).holds hl) i)) (upd_mem m r) rfl rfl
      ⟨nofun, nofun⟩
  | set r i x =>
    have hl := hlive r rfl (by simp [Op.uses])
    have hh := (h.reg r).holds hl
    by_cases hi : i < (v.reg r).length
    · obtain ⟨e1, h1⟩ := set_lt hc hh x hi
      refine stepOk_call hc h _ r _ (fun _ => .unit) .unit ((v.reg r).set i x) (k r) (Runs.of_eq hc e1 ⟨rfl, ?_⟩) rfl ?_
        (upd_self _ _).symm
        ⟨nofun, nofun⟩
      · refine (h.reg r).tidy hl h1 (putRaw_tidy hc ?_ (hc.contract.lt x))
        have := hh.cover; have := hh.len_eq; omega
      · simp only [vecStep, if_pos hi]
    · exact stepOk_same hc h _ _ _ (call_error hc m r _ (set_ge hc hh x (by omega))) (upd_mem m r)
        (by simp only [vecStep, if_neg hi]; rfl) rfl ⟨nofun, nofun⟩
  | push r x =>
    have hl := hlive r rfl (by simp [Op.uses])
    have hh := (h.reg r).holds hl
    refine stepOk_call hc h _ r _ (fun _ => .unit) .unit _ (k r) ?_ rfl rfl (upd_self _ _).symm ⟨nofun, nofun⟩
    refine (push_holds hc hh x).mono (fun _ s hs => ⟨rfl, (h.reg r).tidy hl hs.1 hs.2.1⟩) ?_
    rintro e s ⟨h1, -, h2⟩
    exact ⟨h1, by rw [← hlen r hl] at h2; exact h2⟩
  | pop r =>
    have hl := hlive r rfl (by simp [Op.uses])
    obtain ⟨s', e1, h1, h2⟩ := pop_holds hc ((h.reg r).holds hl)
    refine stepOk_call hc h _ r _ .item _ _ (k r) (Runs.of_eq hc e1 ⟨rfl, ?_⟩) rfl rfl (upd_self _ _).symm ⟨nofun, nofun⟩
    exact (h.reg r).tidy hl h1 (Tidy.of_data (by rw [h2]))
  | insert r i x =>
    have hl := hlive r rfl (by simp [Op.uses])
    have hh := (h.reg r).holds hl
    obtain ⟨hi, ha⟩ := ha
    have hlist : (v.reg r).insertIdx i x = (v.reg r).take i ++ x :: (v.reg r).drop i :=
      insertIdx_take_drop hi x
    by_cases hn : c.nearInsert (v.reg r).length i
    · refine stepOk_call hc h _ r _ (fun _ => .unit) .unit ((v.reg r).insertIdx i x) (k r) ?_ rfl ?_ ?_ ⟨nofun, nofun⟩
      · refine (insert_near hc hh hi hn.1 hn.2 x).mono (fun _ s hs => ⟨rfl, (h.reg r).tidy hl hs.1 hs.2.1⟩) ?_
        rintro e s ⟨h1, -, h2⟩
        exact ⟨h1, by rw [← hlen r hl] at h2; exact h2⟩
      · simp only [vecStep, if_pos hi, hlist]
      · simp only [marks, if_pos hn, upd_self]
    · refine stepOk_call hc h _ r _ (fun _ => .unit) .unit ((v.reg r).insertIdx i x) (c.soil (k r)) ?_ rfl ?_ ?_
        ⟨nofun, nofun⟩
      · refine (insert_holds hc (ha.resolve_right hn) hh hi x).mono (fun _ s hs => ⟨rfl, RegInv.soil hl hs.1⟩) ?_
        rintro e s ⟨h1, -, h2⟩
        exact ⟨h1, by rw [← hlen r hl] at h2; exact h2⟩
      · simp only [vecStep, if_pos hi, hlist]
      · simp only [marks, if_neg hn]
  | remove r i =>
    have hl := hlive r rfl (by simp [Op.uses])
    have hh := (h.reg r).holds hl
    by_cases hi : i < (v.reg r).length
    · have key : ∃ s', EV.remove c i (m.reg r) = (.ok (v.reg r)[i], s') ∧ RegInv c s' ((v.reg r).eraseIdx i) (k r) := by
        rcases ha with ha | ha | ⟨hb, ha⟩
        · omega
        · obtain ⟨s', e1, h1, -, h2⟩ := remove_near hc hh hi ha
          exact ⟨s', e1, (h.reg r).tidy hl h1 h2⟩
        · have hcl : Clean c (m.reg r) := by
            rcases ha with ha | ha
            · exact Clean.of_dvd _ ha
            · have := h.reg r; rw [ha] at this; exact this.2
          obtain ⟨s', e1, h1, -, h2⟩ := remove_holds hc hb hh hi (RemoveOk.of_clean hc hcl i)
          exact ⟨s', e1, (h.reg r).tidy hl h1 (h2 hcl)⟩
      obtain ⟨s', e1, h1⟩ := key
      refine stepOk_call hc h _ r _ .val _ _ (k r) (Runs.of_eq hc e1 ⟨rfl, h1⟩) rfl ?_ (upd_self _ _).symm ⟨nofun, nofun⟩
      simp only [vecStep, List.getElem?_eq_getElem hi, List.eraseIdx_eq_take_drop_succ]
    · refine stepOk_same hc h _ _ _ (call_error hc m r _ (remove_oob hc hh (by omega))) (upd_mem m r) ?_ rfl ⟨nofun, nofun⟩
      simp only [vecStep, List.getElem?_eq_none (Nat.le_of_not_lt hi)]; rfl
  | swap r i j =>
    have hl := hlive r rfl (by simp [Op.uses])
    have hh := (h.reg r).holds hl
    by_cases hi : i < (v.reg r).length
    · by_cases hj : j < (v.reg r).length
      · obtain ⟨s', e1, h1, h2, -⟩ := swap_holds hc hh hi hj
        refine stepOk_call hc h _ r _ (fun _ => .unit) .unit _ (k r) (Runs.of_eq hc e1 ⟨rfl, (h.reg r).tidy hl h1 h2⟩) rfl ?_
          (upd_self _ _).symm ⟨nofun, nofun⟩
        simp only [vecStep, List.getElem?_eq_getElem hi, List.getElem?_eq_getElem hj]
      · refine stepOk_same hc h _ _ _ (call_error hc m r _ (swap_oob hc hh (Or.inr (Nat.le_of_not_lt hj)))) (upd_mem m r) ?_ rfl
          ⟨nofun, nofun⟩
        simp only [vecStep, List.getElem?_eq_none (Nat.le_of_not_lt hj), List.getElem?_eq_getElem hi]; rfl
    · refine stepOk_same hc h _ _ _ (call_error hc m r _ (swap_oob hc hh (Or.inl (Nat.le_of_not_lt hi)))) (upd_mem m r) ?_ rfl
        ⟨nofun, nofun⟩
      simp only [vecStep, List.getElem?_eq_none (Nat.le_of_not_lt hi)]; rfl
  | swapRemove r i =>
    have hl := hlive r rfl (by simp [Op.uses])
    have hh := (h.reg r).holds hl
    by_cases hi : i < (v.reg r).length
    · obtain ⟨s', e1, h1, h2, -⟩ := swapRemove_holds hc hh hi
      refine stepOk_call hc h _ r _ .val _ _ (k r) (Runs.of_eq hc e1 ⟨rfl, (h.reg r).tidy hl h1 h2⟩) rfl ?_
        (upd_self _ _).symm ⟨nofun, nofun⟩
      have hne : v.reg r ≠ [] := by intro h0; rw [h0] at hi; simp at hi
      simp only [vecStep, List.getElem?_eq_getElem hi, List.getLast?_eq_some_getLast hne, List.getLast_eq_getElem,
        List.dropLast_eq_take, List.length_set]
    · obtain ⟨e, e1, he⟩ := swapRemove_oob hc hh (Nat.le_of_not_lt hi)
      refine stepOk_same hc h _ _ _ (call_error hc m r _ e1) (upd_mem m r) ?_ rfl ?_
      · simp only [vecStep, List.getElem?_eq_none (Nat.le_of_not_lt hi)]
        rcases he with rfl | rfl <;> rfl
      · rcases he with rfl | rfl <;> exact ⟨nofun, nofun⟩
  | truncate r n =>
    have e1 := truncate_eq hc (m.reg r) n
    by_cases hdead : k r = .dead
    · have hn : n = 0 := by
        cases n with
        | zero => rfl
        | succ n => exact absurd hdead (hlive r rfl (by simp [Op.uses]))
      subst hn
      have hr := h.reg r
      rw [hdead] at hr
      refine stepOk_call hc h _ r _ (fun _ => .unit) .unit [] .clean (Runs.of_eq hc e1 ⟨rfl, ?_⟩) rfl ?_ ?_ ⟨nofun, nofun⟩
      · refine ⟨⟨⟨by simp, ?_, hr.2⟩, by simp, fun i hi => absurd hi (by simp)⟩, ?_⟩
        · show (m.reg r).storage.data.length ≤ _; rw [hr.1]; simp
        · intro j; unfold waste; rw [blk_ge _ (by show (m.reg r).storage.data.length ≤ _; rw [hr.1]; simp), fld_zero]
      · simp [vecStep]
      · simp only [marks, if_pos hdead]
    · refine stepOk_call hc h _ r _ (fun _ => .unit) .unit ((v.reg r).take n) (k r) (Runs.of_eq hc e1 ⟨rfl, ?_⟩) rfl rfl ?_
        ⟨nofun, nofun⟩
      · exact (h.reg r).tidy hdead (((h.reg r).holds hdead).take hc n) (Tidy.of_data rfl)
      · cases n with
        | zero => simp only [marks, if_neg hdead, upd_self]
        | succ n => exact (upd_self _ _).symm
  | clear r =>
    have e1 := clear_eq hc (m.reg r)
    by_cases hdead : k r = .dead
    · have hr := h.reg r
      rw [hdead] at hr
      refine stepOk_call hc h _ r _ (fun _ => .unit) .unit [] .clean (Runs.of_eq hc e1 ⟨rfl, ?_⟩) rfl rfl ?_ ⟨nofun, nofun⟩
      · refine ⟨⟨⟨by simp, ?_, hr.2⟩, by simp, fun i hi => absurd hi (by simp)⟩, ?_⟩
        · show (m.reg r).storage.data.length ≤ _; rw [hr.1]; simp
        · intro j; unfold waste; rw [blk_ge _ (by show (m.reg r).storage.data.length ≤ _; rw [hr.1]; simp), fld_zero]
      · simp only [marks, if_pos hdead]
    · refine stepOk_call hc h _ r _ (fun _ => .unit) .unit [] (k r) (Runs.of_eq hc e1 ⟨rfl, ?_⟩) rfl rfl ?_ ⟨nofun, nofun⟩
      · exact (h.reg r).tidy hdead (((h.reg r).holds hdead).clear hc) (Tidy.of_data rfl)
      · simp only [marks, if_neg hdead, upd_self]
  | resize r n x =>
    have hl := hlive r rfl (by simp [Op.uses])
    have hh := (h.reg r).holds hl
    have key := resize_holds hc hh n x
    by_cases hn : n ≤ (v.reg r).length + 4 * c.epb
    · refine stepOk_call hc h _ r _ (fun _ => .unit) .unit _ (k r) ?_ rfl rfl ?_ ⟨nofun, nofun⟩
      · refine key.mono (fun _ s hs => ⟨rfl, (h.reg r).tidy hl hs.1 (hs.2.2.1 hn)⟩) ?_
        rintro e s ⟨h1, -, -, h2, -, h3⟩
        exact ⟨h1, by simp only [OomReason, hlen r hl]; exact ⟨h2, h3⟩⟩
      · simp only [marks, if_pos hn, upd_self]
    · refine stepOk_call hc h _ r _ (fun _ => .unit) .unit _ (c.soil (k r)) ?_ rfl rfl ?_ ⟨nofun, nofun⟩
      · refine key.mono (fun _ s hs => ⟨rfl, RegInv.soil hl hs.1⟩) ?_
        rintro e s ⟨h1, -, -, h2, -, h3⟩
        exact ⟨h1, by simp only [OomReason, hlen r hl]; exact ⟨h2, h3⟩⟩
      · simp only [marks, if_neg hn]
  | reserve r n =>
    have hl := hlive r rfl (by simp [Op.uses])
    have hh := (h.reg r).holds hl
    refine stepOk_call hc h _ r _ (fun _ => .unit) .unit (v.reg r) (k r) ?_ rfl ?_ (upd_self _ _).symm ⟨nofun, nofun⟩
    · refine (reserve_holds hc hh ha).mono (fun _ s hs => ⟨rfl, (h.reg r).tidy hl hs.1 hs.2.1⟩) ?_
      rintro e s ⟨h1, -, h2⟩
      exact ⟨h1, h2⟩
    · simp only [vecStep, upd_self]
  | shrinkToFit r =>
    have hl := hlive r rfl (by simp [Op.uses])
    obtain ⟨s', e1, h1, h2, -⟩ := shrinkToFit_holds hc ((h.reg r).holds hl)
    refine stepOk_call hc h _ r _ (fun _ => .unit) .unit (v.reg r) (k r) (Runs.of_eq hc e1 ⟨rfl, (h.reg r).tidy hl h1 h2⟩) rfl ?_
      (upd_self _ _).symm ⟨nofun, nofun⟩
    simp only [vecStep, upd_self]
  | extend r it =>
    have hl := hlive r rfl (by simp [Op.uses])
    have hh := (h.reg r).holds hl
    obtain ⟨ha, hw⟩ := (show it.hint ≤ it.items.length ∧ ¬ c.AtLimit ((v.reg r).length + it.hint) from ha)
    have key := extend_holds hc it hh hw
    unfold StepOk
    simp only [step, vecStep, marks]
    rcases call_cases hc m r (fun _ => Out.unit) key with ⟨_, s, ⟨h1, h2, h3, h4, -⟩, e1⟩ | ⟨e, s, ⟨h1, h2⟩, e1⟩
    · rw [e1]
      simp only [h1]
      exact Or.inr ⟨rfl, nofun, nofun, h.upd1 r ((h.reg r).tidy hl h3 h4)⟩
    · rw [e1]
      rcases h2 with ⟨rfl, h2, -⟩ | ⟨rfl, h2, -, h3⟩ | ⟨h2, -⟩
      · exact Or.inl ⟨rfl, by simp only [OomReason, hlen r hl]; exact h2⟩
      · simp only [h2]
        exact Or.inr ⟨rfl, nofun, nofun, h.upd1 r ((h.reg r).tidy hl h3 h1)⟩
      · omega
  | append r o =>
    have hl := hlive r rfl (by simp [Op.uses])
    have hlo := hlive o rfl (by simp [Op.uses])
    have hne : r ≠ o := hb
    have key := append_holds hc ((h.reg r).holds hl) ((h.reg o).holds hlo)
    unfold StepOk
    simp only [step, vecStep, marks]
    match hx : EV.append c (m.reg r, m.reg o), key with
    | (.error e, p), ⟨h1, h2, _⟩ =>
      subst h1
      exact Or.inl ⟨rfl, by simp only [OomReason, hlen r hl, hlen o hlo]; exact h2⟩
    | (.ok _, p), ⟨h1, h2, _, _, h3⟩ =>
      refine Or.inr ⟨rfl, nofun, nofun, ?_⟩
      have g1 : RegInv c p.1 (v.reg r ++ v.reg o)
          (if (v.reg r).length % c.epb ≠ 0 ∨ k o = .clean then k r else .dirty) := by
        split
        · next hor =>
          cases hk : k r with
          | clean =>
            have hr := h.reg r; rw [hk] at hr
            refine ⟨h1, h2 hr.2 ?_⟩
            rcases hor with hor | hor
            · exact Or.inl hor
            · have ho := h.reg o; rw [hor] at ho; exact Or.inr ho.2
          | dirty => exact h1
          | dead => exact absurd hk hl
        · exact h1
      have g2 : RegInv c p.2 [] (if c.small = true ∨ (v.reg r).length % c.epb ≠ 0 then k o
          else if v.reg o = [] then .clean else .dead) := by
        split at h3
        · next hor => rw [if_pos hor]; exact (h.reg o).tidy hlo h3.1 h3.2
        · next hor =>
          rw [if_neg hor]
          obtain ⟨a1, a2, a3⟩ := h3
          have hcap : (p.2.storage.cap + 1) * c.epb + 4 < c.build.usizeLim := by
            rw [a3]; exact ((h.reg o).holds hlo).capBound
          split
          · next h0 =>
            rw [h0] at a2
            refine ⟨⟨⟨by rw [a2]; simp, by rw [a1]; simp, hcap⟩, a2, fun i hi => absurd hi (by simp)⟩, ?_⟩
            intro j; unfold waste; rw [blk_ge _ (by rw [a1]; simp), fld_zero]
          · exact ⟨a1, hcap⟩
      exact (h.upd r g1).upd o g2
  | splitOff r at_ d =>
    have hl := hlive r rfl (by simp [Op.uses])
    have hh := (h.reg r).holds hl
    have ha : (v.reg r).length ≤ at_ := ha
    unfold StepOk
    simp only [step, vecStep, marks]
    by_cases hat : at_ = (v.reg r).length
    · subst hat
      rw [if_pos (Nat.le_refl _), if_pos rfl]
      match hx : EV.splitOff c (v.reg r).length (m.reg r), splitOff_end hc hh with
      | (.error e, s), ⟨h1, _, h2⟩ => subst h1; exact Or.inl ⟨rfl, h2⟩
      | (.ok o, s), ⟨h1, h2, h3, h4, _⟩ =>
        refine Or.inr ⟨rfl, nofun, nofun, ?_⟩
        have e1 : (v.reg r).take (v.reg r).length = v.reg r := List.take_length
        have e2 : (v.reg r).drop (v.reg r).length = [] := List.drop_length
        rw [e1, e2, upd_self]
        have g := (h.upd0 r (s := s) (by rw [h2]; exact h.reg r)).upd d (q := .clean) (s := o) (l := []) ⟨h3, h4⟩
        exact g
    · have hlt : (m.reg r).num < at_ := by rw [hh.len_eq]; omega
      rw [if_neg (by omega), if_neg hat, splitOff_oob hc _ hlt]
      refine Or.inr ⟨rfl, nofun, nofun, ?_⟩
      exact h.upd0 r (h.reg r)
  | retain r f =>
    have hl := hlive r rfl (by simp [Op.uses])
    have ha : (filterSpec f (v.reg r) v.world).2.2 = true := ha
    obtain ⟨s', e1, h1, h2, -⟩ := retain_holds hc f ((h.reg r).holds hl) m.world
    rw [h.world, ha] at e1 h1
    unfold StepOk
    simp only [step, marks, Mem.callW, h.world, e1]
    have e2 : filterSpec f (v.reg r) v.world =
      ((filterSpec f (v.reg r) v.world).1, (filterSpec f (v.reg r) v.world).2.1, true) := by rw [← ha]
    have e3 : vecStep c.E v (.retain r f) =
        (.unit, ⟨upd v.reg r (filterSpec f (v.reg r) v.world).1, (filterSpec f (v.reg r) v.world).2.1⟩) := by
      simp only [vecStep]; rw [e2]
    rw [e3]
    exact Or.inr ⟨rfl, nofun, nofun, h.updW r _ ((h.reg r).tidy hl h1 h2)⟩
  | forEach r f =>
    have hl := hlive r rfl (by simp [Op.uses])
    obtain ⟨s', e1, h1, h2, -⟩ := forEach_holds hc f ((h.reg r).holds hl) m.world
    rw [h.world] at e1 h1
    unfold StepOk
    simp only [step, vecStep, marks, Mem.callW, h.world, e1]
    have h3 := h.updW r (mapSpec f (v.reg r) v.world).2.1 ((h.reg r).tidy hl h1 h2)
    generalize mapSpec f (v.reg r) v.world = q at *
    obtain ⟨q1, q2, q3⟩ := q
    cases q3
    · exact Or.inr ⟨rfl, nofun, nofun, h3⟩
    · exact Or.inr ⟨rfl, nofun, nofun, h3⟩
  | eq r o =>
    have hl := hlive r rfl (by simp [Op.uses])
    have hlo := hlive o rfl (by simp [Op.uses])
    obtain ⟨b, e1, h1⟩ := eq_holds hc ((h.reg r).holds hl) ((h.reg o).holds hlo)
    refine stepOk_same hc h _ (.bool b) m (by simp only [step, Mem.ask, e1]) rfl ?_ rfl ⟨nofun, nofun⟩
    simp only [vecStep, Prod.mk.injEq, and_true]
    congr 1
    rw [Bool.eq_iff_iff, h1]; simp
  | any r x =>
    have hl := hlive r rfl (by simp [Op.uses])
    obtain ⟨b, e1, h1⟩ := any_holds hc ((h.reg r).holds hl) x
    refine stepOk_same hc h _ (.bool b) _ (call_ok hc m r .bool e1) (upd_mem m r) ?_ rfl ⟨nofun, nofun⟩
    simp only [vecStep, Prod.mk.injEq, and_true]
    congr 1
    rw [Bool.eq_iff_iff, h1]; simp
  | all r x =>
    have hl := hlive r rfl (by simp [Op.uses])
    obtain ⟨b, e1, h1⟩ := all_holds hc ((h.reg r).holds hl) x
    refine stepOk_same hc h _ (.bool b) _ (call_ok hc m r .bool e1) (upd_mem m r) ?_ rfl ⟨nofun, nofun⟩
    simp only [vecStep, Prod.mk.injEq, and_true]
    congr 1
    rw [Bool.eq_iff_iff, h1]; simp
  | toVec r =>
    have hl := hlive r rfl (by simp [Op.uses])
    have hi := ((h.reg r).holds hl).is hc
    have e1 : EV.toVec c (m.reg r) = .ok (v.reg r) :=
      collect_spec hc hi _ (iter_yields hc hi) (by rw [hlen r hl]; omega)
    exact stepOk_same hc h _ (.list (v.reg r)) m (by simp only [step, Mem.ask, e1]) rfl rfl rfl ⟨nofun, nofun⟩
  | iterate r calls =>
    have hl := hlive r rfl (by simp [Op.uses])
    have hi := ((h.reg r).holds hl).is hc
    obtain ⟨t', e1, -⟩ := iterRun_spec hc hi calls (iter_yields hc hi)
    exact stepOk_same hc h _ (.iter (iterSpecRun calls (v.reg r)).1) m (by simp only [step, Mem.ask, e1]) rfl rfl rfl
      ⟨nofun, nofun⟩
  | hash r =>
    have hl := hlive r rfl (by simp [Op.uses])
    have e1 := hash_holds hc ((h.reg r).holds hl)
    exact stepOk_same hc h _ (.hash ((v.reg r).map c.E.toDiscr)) m (by simp only [step, Mem.ask, e1]) rfl rfl rfl
      ⟨nofun, nofun⟩

end
end EnumVecModel
