import Verif.Lemmas.Frame

set_option linter.unusedSectionVars false

/-! # Memory safety of one call of a history -/

namespace EnumVecModel
open EV

variable {α τ : Type} {c : Inst α}

/-- What a mark says about memory safety. -/
def SafeReg (c : Inst α) (s : EV c.W) : Mark → Prop
  | .dead => s.storage.data = [] ∧ (s.storage.cap + 1) * c.epb + 4 < c.build.usizeLim
  | _ => Safe c s

theorem SafeReg.safe {s : EV c.W} {k : Mark} (h : SafeReg c s k) (hk : k ≠ .dead) : Safe c s := by
  cases k with
  | clean => exact h
  | dirty => exact h
  | dead => exact absurd rfl hk

theorem Safe.reg {s : EV c.W} (h : Safe c s) {k : Mark} (hk : k ≠ .dead) : SafeReg c s k := by
  cases k with
  | clean => exact h
  | dirty => exact h
  | dead => exact absurd rfl hk

theorem soil_ne {k : Mark} (hk : k ≠ .dead) : c.soil k ≠ .dead := by
  unfold Inst.soil; split
  · exact hk
  · nofun

/-- All variables are as their marks say. -/
def SafeMem (c : Inst α) (k : Nat → Mark) (m : Mem c τ) : Prop := ∀ r, SafeReg c (m.reg r) (k r)

theorem SafeMem.upd {k : Nat → Mark} {m m' : Mem c τ} (h : SafeMem c k m) {r : Nat} {s : EV c.W} {q : Mark}
    (hm : m'.reg = EnumVecModel.upd m.reg r s) (hs : SafeReg c s q) : SafeMem c (EnumVecModel.upd k r q) m' := by
  intro i
  rw [hm]
  by_cases hi : i = r
  · subst hi; simp only [upd_same]; exact hs
  · simp only [upd_ne _ _ hi]; exact h i

theorem SafeMem.upd1 {k : Nat → Mark} {m m' : Mem c τ} (h : SafeMem c k m) {r : Nat} {s : EV c.W}
    (hm : m'.reg = EnumVecModel.upd m.reg r s) (hs : SafeReg c s (k r)) : SafeMem c k m' := by
  have := h.upd hm hs; rwa [upd_self] at this

theorem Fault.out_ub {e : Fault} (h : e ≠ .ub) : (e.out : Out α) ≠ .ub := by
  cases e <;> simp_all [Fault.out]

theorem Fault.out_isUnit (e : Fault) : (e.out : Out α).isUnit = false := by cases e <;> rfl

section
variable {strict : Prop} (hc : c.Fits strict)
include hc

theorem item_keeps {t : It c.W} (h : Safe c t.v) (x : Nat) :
    Runs (item c x t) (fun _ t' => t'.v = t.v) (fun e t' => e ≠ .ub ∧ t'.v = t.v) := by
  have e := get_safe hc h x
  unfold item
  by_cases hx : x < t.v.num
  · rw [if_pos hx] at e
    rw [e]
    cases c.E.fromDiscr (raw c t.v x) with
    | some a => exact rfl
    | none => exact ⟨nofun, rfl⟩
  · rw [if_neg hx] at e
    rw [e]
    exact ⟨nofun, rfl⟩

theorem mapItem_keeps {t : It c.W} (h : Safe c t.v) (x : Option Nat) :
    Runs (mapItem c x t) (fun _ t' => t'.v = t.v) (fun e t' => e ≠ .ub ∧ t'.v = t.v) := by
  unfold mapItem
  cases x with
  | none => exact rfl
  | some x => exact runs_seq (item_keeps hc h x) (fun _ _ h => h) (fun _ _ h => h)

theorem rangeNext_v (t : It c.W) : (rangeNext c t).2.v = t.v := by unfold rangeNext; split <;> rfl
theorem rangeNextBack_v (t : It c.W) : (rangeNextBack c t).2.v = t.v := by unfold rangeNextBack; split <;> rfl
theorem rangeNth_v (n : Nat) (t : It c.W) : (rangeNth c n t).2.v = t.v := by unfold rangeNth; split <;> rfl

theorem next_keeps {t : It c.W} (h : Safe c t.v) :
    Runs (EV.next c t) (fun _ t' => t'.v = t.v) (fun e t' => e ≠ .ub ∧ t'.v = t.v) := by
  have e := rangeNext_v hc t
  have := mapItem_keeps hc (t := (rangeNext c t).2) (by rw [e]; exact h) (rangeNext c t).1
  rwa [e] at this

theorem nextBack_keeps {t : It c.W} (h : Safe c t.v) :
    Runs (EV.nextBack c t) (fun _ t' => t'.v = t.v) (fun e t' => e ≠ .ub ∧ t'.v = t.v) := by
  have e := rangeNextBack_v hc t
  have := mapItem_keeps hc (t := (rangeNextBack c t).2) (by rw [e]; exact h) (rangeNextBack c t).1
  rwa [e] at this

theorem nth_keeps (n : Nat) {t : It c.W} (h : Safe c t.v) :
    Runs (EV.nth c n t) (fun _ t' => t'.v = t.v) (fun e t' => e ≠ .ub ∧ t'.v = t.v) := by
  have e := rangeNth_v hc n t
  have := mapItem_keeps hc (t := (rangeNth c n t).2) (by rw [e]; exact h) (rangeNth c n t).1
  rwa [e] at this

theorem iterStep_keeps {t : It c.W} (h : Safe c t.v) (o : IterOp) :
    Runs (iterStep c o t) (fun _ t' => t'.v = t.v) (fun e t' => e ≠ .ub ∧ t'.v = t.v) := by
  cases o with
  | next => exact runs_seq (next_keeps hc h) (fun _ _ h => h) (fun _ _ h => h)
  | nextBack => exact runs_seq (nextBack_keeps hc h) (fun _ _ h => h) (fun _ _ h => h)
  | nth n => exact runs_seq (nth_keeps hc n h) (fun _ _ h => h) (fun _ _ h => h)
  | sizeHint => exact rfl

theorem iterRun_keeps : ∀ (os : List IterOp) {t : It c.W}, Safe c t.v →
    Runs (iterRun c os t) (fun _ t' => t'.v = t.v) (fun e t' => e ≠ .ub ∧ t'.v = t.v)
  | [], t, _ => rfl
  | o :: os, t, h => by
    refine runs_seq (iterStep_keeps hc h o) (fun _ _ h => h) (fun _ t' h' => ?_)
    refine runs_seq ((iterRun_keeps os (t := t') (by rw [h']; exact h))) ?_ ?_
    · rintro e s ⟨h1, h2⟩; exact ⟨h1, h2.trans h'⟩
    · intro _ s h2; exact h2.trans h'

theorem collect_keeps : ∀ (n : Nat) {t : It c.W}, Safe c t.v →
    Runs (collect c n t) (fun _ t' => t'.v = t.v) (fun e t' => e ≠ .ub ∧ t'.v = t.v)
  | 0, t, _ => rfl
  | n + 1, t, h => by
    unfold collect
    refine runs_seq (next_keeps hc h) (fun _ _ h => h) (fun x t' h' => ?_)
    cases x with
    | none => exact h'
    | some x =>
      refine runs_seq ((collect_keeps n (t := t') (by rw [h']; exact h))) ?_ ?_
      · rintro e s ⟨h1, h2⟩; exact ⟨h1, h2.trans h'⟩
      · intro _ s h2; exact h2.trans h'

theorem toVec_keeps {s : EV c.W} (h : Safe c s) : EV.toVec c s ≠ .error .ub := by
  have := collect_keeps hc (len c s + 1) (t := iter c s) h
  unfold EV.toVec
  match hx : collect c (len c s + 1) (iter c s), this with
  | (.ok _, _), _ => simp
  | (.error e, _), h' => simp [h'.1]

theorem splitOff_keeps {s : EV c.W} (h : Safe c s) {i : Nat} (hi : len c s ≤ i) :
    Runs (splitOff c i s) (fun o s' => Safe c s' ∧ Safe c o ∧ Clean c o ∧ Valid c o ∧ s' = s)
      (fun e s' => e ≠ .ub ∧ e ≠ .badDiscr ∧ s' = s) := by
  unfold splitOff
  split
  · next hle =>
    have : len c s = i := by omega
    subst this
    rw [Nat.sub_self]
    dsimp only
    cases hx : EV.withCapacity c 0 with
    | error e =>
      dsimp only
      have := withCapacity_holds hc 0
      rw [hx] at this
      exact ⟨by rw [this.1]; simp, by rw [this.1]; simp, rfl⟩
    | ok o =>
      have h1 := withCapacity_keeps hc 0
      rw [hx] at h1
      have h2 := withCapacity_clean hc hx
      have hn : o.num = 0 := by
        unfold EV.withCapacity at hx; split at hx <;> simp at hx; rw [← hx]
      have ho : ({ o with num := 0 } : EV c.W) = o := by cases o; simp_all
      show Runs (.ok ({ o with num := 0 } : EV c.W), { s with num := len c s }) _ _
      rw [ho]
      exact ⟨h, h1, h2.1, h2.2, rfl⟩
  · exact ⟨by simp, by simp, rfl⟩

theorem call_safe {β : Type} {m : Mem c τ} {r : Nat} {f : M (EV c.W) β} {out : β → Out α} (hf : Keeps c f)
    (hs : Safe c (m.reg r)) (ho : ∀ b, out b ≠ .ub) :
    (m.call r f out).1 ≠ .ub ∧ ∃ s, (m.call r f out).2.reg = upd m.reg r s ∧ Safe c s := by
  unfold Mem.call
  match hx : f (m.reg r), hf _ hs with
  | (.ok b, s), h => exact ⟨ho b, s, rfl, h⟩
  | (.error e, s), h => exact ⟨Fault.out_ub h.1, s, rfl, h.2⟩

theorem assign_safe {m : Mem c τ} {r : Nat} {v : Except Fault (EV c.W)} (hv : Res v (fun s => Safe c s) (fun e => e ≠ .ub)) :
    (m.assign r v).1 ≠ .ub ∧
      ((m.assign r v).1.isUnit = true ∧ (∃ s, (m.assign r v).2.reg = upd m.reg r s ∧ Safe c s) ∨
       (m.assign r v).1.isUnit = false ∧ (m.assign r v).2 = m) := by
  unfold Mem.assign
  cases v with
  | ok s => exact ⟨nofun, Or.inl ⟨rfl, s, rfl, hv⟩⟩
  | error e => exact ⟨Fault.out_ub hv, Or.inr ⟨Fault.out_isUnit e, rfl⟩⟩

variable {k : Nat → Mark} {m : Mem c τ}

/-- An assignment. -/
theorem safe_assign (h : SafeMem c k m) (op : Op τ α) (r : Nat) (v : Except Fault (EV c.W)) (q : Mark) (hq : q ≠ .dead)
    (hv : Res v (fun s => Safe c s) (fun e => e ≠ .ub)) (h1 : step c m op = m.assign r v)
    (h2 : runMarks c k m op = if (step c m op).1.isUnit then upd k r q else k) :
    (step c m op).1 ≠ .ub ∧ SafeMem c (runMarks c k m op) (step c m op).2 := by
  rw [h2, h1]
  obtain ⟨g1, ⟨g2, s, g3, g4⟩ | ⟨g2, g3⟩⟩ := assign_safe hc (m := m) (r := r) hv
  · rw [if_pos g2]; exact ⟨g1, h.upd g3 (g4.reg hq)⟩
  · rw [if_neg (by rw [g2]; simp)]; exact ⟨g1, by rw [g3]; exact h⟩

/-- A method call on a state where it is safe. -/
theorem safe_call_at {β : Type} (h : SafeMem c k m) (op : Op τ α) (r : Nat) (f : M (EV c.W) β) (out : β → Out α)
    (hf : SafeRun c (f (m.reg r))) (ho : ∀ b, out b ≠ .ub) (h1 : step c m op = m.call r f out)
    {q : Mark} (hq : q ≠ .dead) (h2 : runMarks c k m op = upd k r q) :
    (step c m op).1 ≠ .ub ∧ SafeMem c (runMarks c k m op) (step c m op).2 := by
  rw [h2, h1]
  unfold Mem.call
  rcases hx : f (m.reg r) with ⟨e | b, s⟩ <;> rw [hx] at hf
  · exact ⟨Fault.out_ub hf.1, h.upd rfl (hf.2.reg hq)⟩
  · exact ⟨ho b, h.upd rfl (Safe.reg hf hq)⟩

/-- A method call. -/
theorem safe_call {β : Type} (h : SafeMem c k m) (op : Op τ α) (r : Nat) (f : M (EV c.W) β) (out : β → Out α)
    (hl : k r ≠ .dead) (hf : Keeps c f) (ho : ∀ b, out b ≠ .ub) (h1 : step c m op = m.call r f out)
    {q : Mark} (hq : q ≠ .dead) (h2 : runMarks c k m op = upd k r q) :
    (step c m op).1 ≠ .ub ∧ SafeMem c (runMarks c k m op) (step c m op).2 := by
  rw [h2, h1]
  obtain ⟨g1, s, g2, g3⟩ := call_safe hc hf ((h r).safe hl) ho
  exact ⟨g1, h.upd g2 (g3.reg hq)⟩

theorem anyBlocks_keeps (v : BitVec c.W) : ∀ n i, Keeps c (anyBlocks c v n i)
  | 0, _ => Keeps.pure false
  | n + 1, i => by
    unfold anyBlocks
    refine (block_keeps hc i).bind fun b => ?_
    split
    · exact Keeps.pure true
    · exact anyBlocks_keeps v n (i + 1)

theorem allBlocks_keeps (u v : BitVec c.W) : ∀ n i, Keeps c (allBlocks c u v n i)
  | 0, _ => Keeps.pure true
  | n + 1, i => by
    unfold allBlocks
    refine (block_keeps hc i).bind fun b => ?_
    split
    · exact Keeps.pure false
    · exact allBlocks_keeps u v n (i + 1)

theorem any_keeps (x : α) : Keeps c (EV.any c x) := by
  unfold EV.any
  refine Keeps.read fun s hs => ?_
  split
  · exact hs
  · refine ((Keeps.lift (blkMul_ne _ _ _)).bind fun v => (anyBlocks_keeps hc v _ _).bind fun f => ?_) s hs
    split
    · exact Keeps.pure true
    · dsimp only
      split
      · refine (block_keeps hc _).bind fun b => ?_
        split
        · exact Keeps.pure true
        · exact Keeps.pure false
      · exact Keeps.pure false

theorem all_keeps (x : α) : Keeps c (EV.all c x) := by
  unfold EV.all
  refine Keeps.read fun s hs => ?_
  split
  · exact hs
  · refine ((Keeps.lift (blkMul_ne _ _ _)).bind fun v => (allBlocks_keeps hc _ v _ _).bind fun f => ?_) s hs
    split
    · exact Keeps.pure false
    · dsimp only
      split
      · refine (block_keeps hc _).bind fun b => ?_
        split
        · exact Keeps.pure false
        · exact Keeps.pure true
      · exact Keeps.pure true

theorem ask_safe {β : Type} {v : Except Fault β} {out : β → Out α} (m : Mem c τ) (hv : v ≠ .error .ub)
    (ho : ∀ b, out b ≠ .ub) : (m.ask v out).1 ≠ .ub ∧ (m.ask v out).2 = m := by
  unfold Mem.ask
  cases v with
  | ok b => exact ⟨ho b, rfl⟩
  | error e => exact ⟨Fault.out_ub (fun h => hv (by rw [h])), rfl⟩

theorem callW_safe (h : SafeMem c k m) (r : Nat) (f : M (EV c.W × τ) Unit) (hl : k r ≠ .dead) (hf : Keeps1 c f) :
    (m.callW r f).1 ≠ .ub ∧ SafeMem c k (m.callW r f).2 := by
  unfold Mem.callW
  match hx : f (m.reg r, m.world), hf (m.reg r, m.world) ((h r).safe hl) with
  | (.ok b, p), h' => exact ⟨nofun, h.upd1 rfl (Safe.reg h' hl)⟩
  | (.error e, p), h' => exact ⟨Fault.out_ub h'.1, h.upd1 rfl (Safe.reg h'.2 hl)⟩

theorem step_safe (h : SafeMem c k m) (op : Op τ α) (ha : SafeUse c k m op) :
    (step c m op).1 ≠ .ub ∧ SafeMem c (runMarks c k m op) (step c m op).2 := by
  obtain ⟨hb, hd, ha⟩ := ha
  have hlive : ∀ r, op.revives = false → r ∈ op.uses → k r ≠ .dead := fun r h1 h2 => hd h1 r h2
  have hks : ∀ {r : Nat}, k = upd k r (k r) := fun {r} => (upd_self k r).symm
  cases op with
  | new r => exact safe_assign hc h _ r (.ok (EV.new c)) .clean nofun (new_safe hc) rfl rfl
  | withCapacity r n => exact safe_assign hc h _ r _ .clean nofun (withCapacity_keeps hc n) rfl rfl
  | fromElem r x n =>
    refine safe_assign hc h _ r _ (if n ≤ 4 * c.epb then .clean else c.soil .clean) ?_
      (build_keeps hc (extendWithValue_keeps hc x n)) rfl rfl
    split
    · nofun
    · exact soil_ne nofun
  | fromVec r xs => exact safe_assign hc h _ r _ .clean nofun (build_extend_keeps hc _ ha) rfl rfl
  | fromSlice r xs => exact safe_assign hc h _ r _ .clean nofun (build_extend_keeps hc _ ha) rfl rfl
  | fromIter r it => exact safe_assign hc h _ r _ .clean nofun (build_extend_keeps hc _ ha) rfl rfl
  | clone r src =>
    have hl := hlive src rfl (by simp [Op.uses])
    exact safe_assign hc h _ r _ (k src) hl (clone_keeps hc ((h src).safe hl)) rfl rfl
  | len r => exact ⟨nofun, h⟩
  | isEmpty r => exact ⟨nofun, h⟩
  | get r i =>
    have hl := hlive r rfl (by simp [Op.uses])
    exact safe_call hc h _ r _ .item hl (get_keeps hc i) (by simp) rfl hl hks
  | set r i x =>
    have hl := hlive r rfl (by simp [Op.uses])
    exact safe_call hc h _ r _ _ hl (set_keeps hc i x) (by simp) rfl hl hks
  | push r x =>
    have hl := hlive r rfl (by simp [Op.uses])
    exact safe_call hc h _ r _ _ hl (push_keeps hc x) (by simp) rfl hl hks
  | pop r =>
    have hl := hlive r rfl (by simp [Op.uses])
    exact safe_call hc h _ r _ .item hl (pop_keeps hc) (by simp) rfl hl hks
  | insert r i x =>
    have hl := hlive r rfl (by simp [Op.uses])
    by_cases hn : c.nearInsert (EV.len c (m.reg r)) i
    · exact safe_call hc h _ r _ _ hl (insert_keeps hc i x) (by simp) rfl hl (by simp only [runMarks, if_pos hn]; exact hks)
    · exact safe_call hc h _ r _ _ hl (insert_keeps hc i x) (by simp) rfl (soil_ne (c := c) hl) (by simp only [runMarks, if_neg hn])
  | remove r i =>
    have hl := hlive r rfl (by simp [Op.uses])
    exact safe_call hc h _ r _ .val hl (remove_keeps hc i) (by simp) rfl hl hks
  | swap r i j =>
    have hl := hlive r rfl (by simp [Op.uses])
    exact safe_call hc h _ r _ _ hl (swap_keeps hc i j) (by simp) rfl hl hks
  | swapRemove r i =>
    have hl := hlive r rfl (by simp [Op.uses])
    exact safe_call hc h _ r _ .val hl (swapRemove_keeps hc i) (by simp) rfl hl hks
  | truncate r n =>
    by_cases hdead : k r = .dead
    · have hn : n = 0 := by
        cases n with
        | zero => rfl
        | succ n => exact absurd hdead (hlive r rfl (by simp [Op.uses]))
      subst hn
      have hr := h r
      rw [hdead] at hr
      have e1 : step c m (.truncate r 0) = (.unit, { m with reg := upd m.reg r { m.reg r with num := 0 } }) := by
        simp only [step, Mem.call, truncate_eq hc (m.reg r) 0, Nat.zero_min]
      rw [e1]
      simp only [runMarks, if_pos hdead]
      refine ⟨nofun, h.upd rfl ?_⟩
      exact ⟨by simp, by show (m.reg r).storage.data.length ≤ _; rw [hr.1]; simp, hr.2⟩
    · refine safe_call hc h _ r _ _ hdead (truncate_keeps hc n) (by simp) rfl hdead ?_
      cases n with
      | zero => simp only [runMarks, if_neg hdead]; exact hks
      | succ n => exact hks
  | clear r =>
    by_cases hdead : k r = .dead
    · have hr := h r
      rw [hdead] at hr
      have e1 : step c m (.clear r) = (.unit, { m with reg := upd m.reg r { m.reg r with num := 0 } }) := by
        simp only [step, Mem.call, clear_eq hc (m.reg r)]
      rw [e1]
      simp only [runMarks, if_pos hdead]
      refine ⟨nofun, h.upd rfl ?_⟩
      exact ⟨by simp, by show (m.reg r).storage.data.length ≤ _; rw [hr.1]; simp, hr.2⟩
    · exact safe_call hc h _ r _ _ hdead (clear_keeps hc) (by simp) rfl hdead
        (by simp only [runMarks, if_neg hdead]; exact hks)
  | resize r n x =>
    have hl := hlive r rfl (by simp [Op.uses])
    by_cases hn : n ≤ EV.len c (m.reg r) + 4 * c.epb
    · exact safe_call hc h _ r _ _ hl (resize_keeps hc n x) (by simp) rfl hl (by simp only [runMarks, if_pos hn]; exact hks)
    · exact safe_call hc h _ r _ _ hl (resize_keeps hc n x) (by simp) rfl (soil_ne (c := c) hl) (by simp only [runMarks, if_neg hn])
  | reserve r n =>
    have hl := hlive r rfl (by simp [Op.uses])
    exact safe_call_at hc h _ r _ _ (reserve_keeps hc ((h r).safe hl) ha) (by simp) rfl hl hks
  | shrinkToFit r =>
    have hl := hlive r rfl (by simp [Op.uses])
    exact safe_call hc h _ r _ (fun _ => .unit) hl (shrinkToFit_keeps hc) (by simp) rfl hl hks
  | extend r it =>
    have hl := hlive r rfl (by simp [Op.uses])
    exact safe_call_at hc h _ r _ _ (extend_keeps hc it ((h r).safe hl) ha) (by simp) rfl hl hks
  | append r o =>
    have hl := hlive r rfl (by simp [Op.uses])
    have hlo := hlive o rfl (by simp [Op.uses])
    have key := append_keeps hc ((h r).safe hl) ((h o).safe hlo)
    rcases hx : EV.append c (m.reg r, m.reg o) with ⟨e | u, p⟩
    · rw [hx] at key
      obtain ⟨g1, g2, g3⟩ := key
      have e1 : step c m (.append r o) = (e.out, { m with reg := upd (upd m.reg r p.1) o p.2 }) := by
        simp only [step, hx]
      have e2 : runMarks c k m (.append r o) = k := by
        simp only [runMarks]; rw [if_neg]; rw [e1, Fault.out_isUnit]; simp
      rw [e2, e1]
      exact ⟨Fault.out_ub g1, (h.upd1 (m' := ⟨upd m.reg r p.1, m.world⟩) rfl (g2.reg hl)).upd1 rfl (g3.reg hlo)⟩
    · rw [hx] at key
      obtain ⟨g1, g2, g3⟩ := key
      have e1 : step c m (.append r o) = (.unit, { m with reg := upd (upd m.reg r p.1) o p.2 }) := by
        simp only [step, hx]
      simp only [runMarks]
      rw [if_pos (by rw [e1]; rfl), e1]
      refine ⟨nofun, (h.upd (m' := ⟨upd m.reg r p.1, m.world⟩) rfl (g1.reg ?_)).upd rfl ?_⟩
      · split
        · exact hl
        · nofun
      · split
        · next hor => exact (g2 (hor.elim Or.inl (fun h => Or.inr (Or.inl h)))).reg hlo
        · next hor =>
          split
          · next h0 => exact g2 (Or.inr (Or.inr h0))
          · exact g3 hor
  | splitOff r at_ d =>
    have hl := hlive r rfl (by simp [Op.uses])
    have ha : EV.len c (m.reg r) ≤ at_ := ha
    have key := splitOff_keeps hc ((h r).safe hl) ha
    rcases hx : EV.splitOff c at_ (m.reg r) with ⟨e | o, p⟩
    · rw [hx] at key
      obtain ⟨g1, _, g2⟩ := key
      have e1 : step c m (.splitOff r at_ d) = (e.out, { m with reg := upd m.reg r p }) := by simp only [step, hx]
      have e2 : runMarks c k m (.splitOff r at_ d) = k := by
        simp only [runMarks]; rw [if_neg]; rw [e1, Fault.out_isUnit]; simp
      rw [e2, e1]
      exact ⟨Fault.out_ub g1, h.upd1 rfl (g2 ▸ h r)⟩
    · rw [hx] at key
      obtain ⟨g1, g2, _⟩ := key
      have e1 : step c m (.splitOff r at_ d) = (.unit, { m with reg := upd (upd m.reg r p) d o }) := by
        simp only [step, hx]
      simp only [runMarks]
      rw [if_pos (by rw [e1]; rfl), e1]
      exact ⟨nofun, (h.upd1 (m' := ⟨upd m.reg r p, m.world⟩) rfl (g1.reg hl)).upd rfl g2⟩
  | retain r f =>
    have hl := hlive r rfl (by simp [Op.uses])
    exact callW_safe hc h r _ hl (retain_keeps hc f)
  | forEach r f =>
    have hl := hlive r rfl (by simp [Op.uses])
    exact callW_safe hc h r _ hl (forEach_keeps hc f)
  | eq r o =>
    have hl := hlive r rfl (by simp [Op.uses])
    have hlo := hlive o rfl (by simp [Op.uses])
    obtain ⟨b, e1, -⟩ := eq_safe hc ((h r).safe hl) ((h o).safe hlo)
    obtain ⟨g1, g2⟩ := ask_safe hc (v := EV.eq c (m.reg r) (m.reg o)) (out := .bool) m (by rw [e1]; simp) (by simp)
    exact ⟨g1, by simp only [step]; rw [g2]; exact h⟩
  | any r x =>
    have hl := hlive r rfl (by simp [Op.uses])
    exact safe_call hc h _ r _ .bool hl (any_keeps hc x) (by simp) rfl hl hks
  | all r x =>
    have hl := hlive r rfl (by simp [Op.uses])
    exact safe_call hc h _ r _ .bool hl (all_keeps hc x) (by simp) rfl hl hks
  | toVec r =>
    have hl := hlive r rfl (by simp [Op.uses])
    obtain ⟨g1, g2⟩ := ask_safe hc (out := .list) m (toVec_keeps hc ((h r).safe hl)) (by simp)
    exact ⟨g1, by simp only [step]; rw [g2]; exact h⟩
  | iterate r calls =>
    have hl := hlive r rfl (by simp [Op.uses])
    have key := iterRun_keeps hc calls (t := EV.iter c (m.reg r)) ((h r).safe hl)
    have : (iterRun c calls (EV.iter c (m.reg r))).1 ≠ .error .ub := by
      match hx : iterRun c calls (EV.iter c (m.reg r)), key with
      | (.ok _, _), _ => simp
      | (.error e, _), h' => simp [h'.1]
    obtain ⟨g1, g2⟩ := ask_safe hc (out := .iter) m this (by simp)
    exact ⟨g1, by simp only [step]; rw [g2]; exact h⟩
  | hash r =>
    have hl := hlive r rfl (by simp [Op.uses])
    obtain ⟨g1, g2⟩ := ask_safe hc (v := EV.hash c (m.reg r)) (out := .hash) m (by rw [hash_safe hc ((h r).safe hl)]; simp) (by simp)
    exact ⟨g1, by simp only [step]; rw [g2]; exact h⟩

end
end EnumVecModel
