import Verif.Recover
import Verif.Lemmas.History

set_option linter.unusedSectionVars false

/-! # Failed allocations and changing allocators -/

namespace EnumVecModel
open EV

variable {α τ : Type} {c : Inst α}

theorem Inst.Fits.withAlloc {strict : Prop} (hc : c.Fits strict) {a : Alloc} (h1 : a.Lawful) (h2 : a.Bounded c.build c.epb) :
    (c.withAlloc a).Fits strict :=
  ⟨hc.compiles, h1, h2, hc.few, hc.contract⟩

theorem Holds.withAlloc {s : EV c.W} {l : List α} (a : Alloc) (h : Holds c s l) : Holds (c.withAlloc a) s l :=
  ⟨⟨h.cover, h.capLen, h.capBound⟩, h.len_eq, h.elems⟩

theorem Holds.dropAlloc {s : EV c.W} {l : List α} {a : Alloc} (h : Holds (c.withAlloc a) s l) : Holds c s l :=
  ⟨⟨h.cover, h.capLen, h.capBound⟩, h.len_eq, h.elems⟩

theorem RegInv.withAlloc {s : EV c.W} {l : List α} {k : Mark} (a : Alloc) (h : RegInv c s l k) :
    RegInv (c.withAlloc a) s l k := by
  cases k with
  | clean => exact ⟨h.1.withAlloc a, h.2⟩
  | dirty => exact Holds.withAlloc a h
  | dead => exact h

theorem RegInv.dropAlloc {s : EV c.W} {l : List α} {k : Mark} {a : Alloc} (h : RegInv (c.withAlloc a) s l k) :
    RegInv c s l k := by
  cases k with
  | clean => exact ⟨Holds.dropAlloc h.1, h.2⟩
  | dirty => exact Holds.dropAlloc (a := a) h
  | dead => exact h

theorem Sim.withAlloc {k : Nat → Mark} {m : Mem c τ} {v : Vecs α τ} (a : Alloc) (h : Sim c k m v) :
    Sim (c.withAlloc a) k ⟨m.reg, m.world⟩ v := ⟨h.world, fun r => (h.reg r).withAlloc a⟩

theorem Sim.dropAlloc {k : Nat → Mark} {a : Alloc} {m : Mem (c.withAlloc a) τ} {v : Vecs α τ}
    (h : Sim (c.withAlloc a) k m v) : Sim c k ⟨m.reg, m.world⟩ v := ⟨h.world, fun r => (h.reg r).dropAlloc⟩

variable [DecidableEq α] (hc : c.Ok) {k : Nat → Mark} {m : Mem c τ} {v : Vecs α τ}

theorem not_oom_vecStep (op : Op τ α) : (vecStep c.E v op).1 ≠ .oom := by
  cases op <;> simp only [vecStep] <;> (try split) <;> nofun

include hc

theorem step_oom (h : Sim c k m v) (op : Op τ α) (ha : Allowed c k v op) (ho : (step c m op).1 = .oom) :
    ∃ v', OomEffect v op v' ∧ Sim c (oomMarks c k v op) (step c m op).2 v' := by
  obtain ⟨hb, hd, ha'⟩ := id ha
  have hlive : ∀ r, op.revives = false → r ∈ op.uses → k r ≠ .dead := fun r h1 h2 => hd h1 r h2
  have hlen : ∀ r, k r ≠ .dead → EV.len c (m.reg r) = (v.reg r).length := fun r hr => ((h.reg r).holds hr).len_eq
  have hassign : ∀ r e, (m.assign r e).1 = .oom → (m.assign r e).2 = m := by
    intro r e h1
    cases e with
    | ok s => cases h1
    | error f => rfl
  cases op with
  | new r => cases ho
  | withCapacity r n => exact ⟨v, rfl, by rw [show (step c m (.withCapacity r n)).2 = m from hassign r _ ho]; exact h⟩
  | fromElem r x n => exact ⟨v, rfl, by rw [show (step c m (.fromElem r x n)).2 = m from hassign r _ ho]; exact h⟩
  | fromVec r xs => exact ⟨v, rfl, by rw [show (step c m (.fromVec r xs)).2 = m from hassign r _ ho]; exact h⟩
  | fromSlice r xs => exact ⟨v, rfl, by rw [show (step c m (.fromSlice r xs)).2 = m from hassign r _ ho]; exact h⟩
  | fromIter r it => exact ⟨v, rfl, by rw [show (step c m (.fromIter r it)).2 = m from hassign r _ ho]; exact h⟩
  | clone r src => exact ⟨v, rfl, by rw [show (step c m (.clone r src)).2 = m from hassign r _ ho]; exact h⟩
  | push r x =>
    have hl := hlive r rfl (by simp [Op.uses])
    refine ⟨v, rfl, ?_⟩
    rcases call_cases hc m r (fun _ => Out.unit) (push_holds hc ((h.reg r).holds hl) x) with
      ⟨_, s, -, e1⟩ | ⟨e, s, ⟨-, rfl, -⟩, e1⟩
    · simp only [step, e1] at ho; cases ho
    · simp only [step, e1]; exact h.upd0 r (h.reg r)
  | insert r i x =>
    have hl := hlive r rfl (by simp [Op.uses])
    have hh := (h.reg r).holds hl
    obtain ⟨hi, ha'⟩ := ha'
    refine ⟨v, rfl, ?_⟩
    have key : Runs (EV.insert c i x (m.reg r)) (fun _ _ => True) (fun _ s' => s' = m.reg r) := by
      by_cases hn : c.nearInsert (v.reg r).length i
      · exact (insert_near hc hh hi hn.1 hn.2 x).mono (fun _ _ _ => trivial) (fun _ _ h => h.2.1)
      · exact (insert_holds hc (ha'.resolve_right hn) hh hi x).mono (fun _ _ _ => trivial) (fun _ _ h => h.2.1)
    rcases call_cases hc m r (fun _ => Out.unit) key with ⟨_, s, -, e1⟩ | ⟨e, s, rfl, e1⟩
    · simp only [step, e1] at ho; cases ho
    · simp only [step, e1]; exact h.upd0 r (h.reg r)
  | resize r n x =>
    have hl := hlive r rfl (by simp [Op.uses])
    have hh := (h.reg r).holds hl
    rcases call_cases hc m r (fun _ => Out.unit) (resize_holds hc hh n x) with
      ⟨_, s, -, e1⟩ | ⟨e, s, ⟨-, -, ht, -, ⟨j, hj, h1⟩, -⟩, e1⟩
    · simp only [step, e1] at ho; cases ho
    · refine ⟨_, ⟨j, hj, rfl⟩, ?_⟩
      simp only [step, e1, oomMarks, marks]
      split
      · next hn => exact h.upd1 r ((h.reg r).tidy hl h1 (ht hn))
      · exact h.upd r (RegInv.soil hl h1)
  | reserve r n =>
    have hl := hlive r rfl (by simp [Op.uses])
    refine ⟨v, rfl, ?_⟩
    rcases call_cases hc m r (fun _ => Out.unit) (reserve_holds hc ((h.reg r).holds hl) ha') with
      ⟨_, s, -, e1⟩ | ⟨e, s, ⟨-, rfl, -⟩, e1⟩
    · simp only [step, e1] at ho; cases ho
    · simp only [step, e1]; exact h.upd0 r (h.reg r)
  | extend r it =>
    have hl := hlive r rfl (by simp [Op.uses])
    obtain ⟨ha', hw⟩ := (show it.hint ≤ it.items.length ∧ ¬ c.AtLimit ((v.reg r).length + it.hint) from ha')
    rcases call_cases hc m r (fun _ => Out.unit) (extend_holds hc it ((h.reg r).holds hl) hw) with
      ⟨_, s, -, e1⟩ | ⟨e, s, ⟨h1, h2⟩, e1⟩
    · simp only [step, e1] at ho; cases ho
    · rcases h2 with ⟨rfl, -, rfl | ⟨-, j, -, -, h3⟩⟩ | ⟨rfl, -⟩ | ⟨h2, -⟩
      · refine ⟨_, ⟨0, rfl⟩, ?_⟩
        simp only [step, e1, oomMarks]
        rw [List.take_zero, List.append_nil]
        exact h.upd1 r (h.reg r)
      · refine ⟨_, ⟨j, rfl⟩, ?_⟩
        simp only [step, e1, oomMarks]
        exact h.upd1 r ((h.reg r).tidy hl h3 h1)
      · simp only [step, e1] at ho; cases ho
      · omega
  | append r o =>
    have hl := hlive r rfl (by simp [Op.uses])
    have hlo := hlive o rfl (by simp [Op.uses])
    have hne : r ≠ o := hb
    have key := append_holds hc ((h.reg r).holds hl) ((h.reg o).holds hlo)
    refine ⟨v, rfl, ?_⟩
    simp only [step, oomMarks] at ho ⊢
    match hx : EV.append c (m.reg r, m.reg o), key with
    | (.error e, p), ⟨_, _, h1, h2, h3, h4⟩ =>
      have g := (h.upd0 r ((h.reg r).tidy hl h1 h3)).upd0 o (s := p.2) ((h.reg o).tidy hlo h2 h4)
      exact g
    | (.ok _, p), _ => rw [hx] at ho; cases ho
  | splitOff r at_ d =>
    have hl := hlive r rfl (by simp [Op.uses])
    have hh := (h.reg r).holds hl
    have ha' : (v.reg r).length ≤ at_ := ha'
    refine ⟨v, rfl, ?_⟩
    simp only [step, oomMarks] at ho ⊢
    by_cases hat : at_ = (v.reg r).length
    · subst hat
      match hx : EV.splitOff c (v.reg r).length (m.reg r), splitOff_end hc hh with
      | (.error e, s), ⟨_, h1, _⟩ => subst h1; exact h.upd0 r (h.reg r)
      | (.ok o, s), _ => rw [hx] at ho; cases ho
    · have hlt : (m.reg r).num < at_ := by rw [hh.len_eq]; omega
      rw [splitOff_oob hc _ hlt] at ho
      cases ho
  | _ =>
    rcases step_ok hc h _ ha with ⟨-, h1⟩ | ⟨-, h1, -⟩
    · exact h1.elim
    · exact absurd ho h1

omit hc in
theorem explained (hc : c.Ok) : ∀ (ps : List (Alloc × Op τ α)) {k : Nat → Mark} {m : Mem c τ} {v : Vecs α τ},
    (∀ p ∈ ps, p.1.Lawful ∧ p.1.Bounded c.build c.epb) → Sim c k m v → Explained c ps k m v
  | [], k, m, v, _, h => ⟨h.world, fun r hr => ((h.reg r).holds hr).is hc⟩
  | (a, op) :: ps, k, m, v, hp, h => by
    refine ⟨⟨h.world, fun r hr => ((h.reg r).holds hr).is hc⟩, fun ha => ?_⟩
    obtain ⟨p1, p2⟩ := hp (a, op) (by simp)
    have hca := hc.withAlloc p1 p2
    have hps : ∀ p ∈ ps, p.1.Lawful ∧ p.1.Bounded c.build c.epb := fun p hp' => hp p (by simp [hp'])
    have hs := h.withAlloc a
    have haa : Allowed (c.withAlloc a) k v op := ha
    rcases step_ok hca hs op haa with ⟨h1, h2⟩ | ⟨h1, h2, -, h3⟩
    · obtain ⟨v', h4, h5⟩ := step_oom hca hs op haa h1
      exact Or.inr ⟨h1, h2, v', h4, explained hc ps hps h5.dropAlloc⟩
    · exact Or.inl ⟨h1, h2, explained hc ps hps h3.dropAlloc⟩

end EnumVecModel
