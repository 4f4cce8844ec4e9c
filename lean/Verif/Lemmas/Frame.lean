import Verif.Lemmas.History

/-! # Which variables a call modifies -/

namespace EnumVecModel
open EV

variable {α τ : Type} {c : Inst α}

theorem getRaw_state (i : Nat) (s : EV c.W) : (EV.getRaw c i s).2 = s := by
  unfold EV.getRaw
  rw [M.read_bind]
  split
  · rfl
  · rw [M.bind_apply]
    unfold getRawUnchecked
    cases rawUnchecked c s i <;> rfl

theorem get_state (i : Nat) (s : EV c.W) : (EV.get c i s).2 = s := by
  have h := getRaw_state i s
  unfold EV.get
  rw [M.bind_apply]
  match hx : EV.getRaw c i s with
  | (.error e, s') => rw [hx] at h; exact h
  | (.ok none, s') => rw [hx] at h; exact h
  | (.ok (some x), s') =>
    rw [hx] at h
    simp only at h ⊢
    unfold fromDiscr
    cases c.E.fromDiscr x <;> exact h

theorem block_state (i : Nat) (s : EV c.W) : (block c i s).2 = s := by
  unfold block; split <;> rfl

theorem anyBlocks_state (x : BitVec c.W) : ∀ (n i : Nat) (s : EV c.W), (anyBlocks c x n i s).2 = s
  | 0, _, s => rfl
  | n + 1, i, s => by
    unfold anyBlocks
    have h := block_state (c := c) i s
    rw [M.bind_apply]
    match hx : block c i s with
    | (.error e, s') => rw [hx] at h; exact h
    | (.ok b, s') =>
      rw [hx] at h
      simp only at h ⊢
      subst h
      split
      · rfl
      · exact anyBlocks_state x n (i + 1) _

theorem any_state (x : α) (s : EV c.W) : (EV.any c x s).2 = s := by
  unfold EV.any
  rw [M.read_bind]
  split
  · rfl
  · dsimp only
    cases hm : blkMul c.build.checked (BitVec.ofNat c.W (c.E.toDiscr x)) (oneMask c) with
    | error e => rfl
    | ok xm =>
      rw [M.lift_ok_bind, M.bind_apply]
      have h := anyBlocks_state xm (blockIndex c (len c s)).1 0 s
      match hx : anyBlocks c xm (blockIndex c (len c s)).1 0 s with
      | (.error e, s') => rw [hx] at h; exact h
      | (.ok f, s') =>
        rw [hx] at h
        simp only at h ⊢
        subst h
        split
        · rfl
        · split
          · rw [M.bind_apply]
            have h := block_state (c := c) (blockIndex c (len c s')).1 s'
            match hx : block c (blockIndex c (len c s')).1 s' with
            | (.error e, s'') => rw [hx] at h; exact h
            | (.ok b, s'') =>
              rw [hx] at h
              simp only at h ⊢
              subst h
              split <;> rfl
          · rfl

theorem allBlocks_state (y x : BitVec c.W) : ∀ (n i : Nat) (s : EV c.W), (allBlocks c y x n i s).2 = s
  | 0, _, s => rfl
  | n + 1, i, s => by
    unfold allBlocks
    have h := block_state (c := c) i s
    rw [M.bind_apply]
    match hx : block c i s with
    | (.error e, s') => rw [hx] at h; exact h
    | (.ok b, s') =>
      rw [hx] at h
      simp only at h ⊢
      subst h
      split
      · rfl
      · exact allBlocks_state y x n (i + 1) _

theorem all_state (x : α) (s : EV c.W) : (EV.all c x s).2 = s := by
  unfold EV.all
  rw [M.read_bind]
  split
  · rfl
  · dsimp only
    cases hm : blkMul c.build.checked (BitVec.ofNat c.W (c.E.toDiscr x)) (oneMask c) with
    | error e => rfl
    | ok xm =>
      rw [M.lift_ok_bind, M.bind_apply]
      have h := allBlocks_state (BitVec.allOnes c.W >>> (c.W % c.bits)) xm (blockIndex c (len c s)).1 0 s
      match hx : allBlocks c (BitVec.allOnes c.W >>> (c.W % c.bits)) xm (blockIndex c (len c s)).1 0 s with
      | (.error e, s') => rw [hx] at h; exact h
      | (.ok f, s') =>
        rw [hx] at h
        simp only at h ⊢
        subst h
        split
        · rfl
        · split
          · rw [M.bind_apply]
            have h := block_state (c := c) (blockIndex c (len c s')).1 s'
            match hx : block c (blockIndex c (len c s')).1 s' with
            | (.error e, s'') => rw [hx] at h; exact h
            | (.ok b, s'') =>
              rw [hx] at h
              simp only at h ⊢
              subst h
              split <;> rfl
          · rfl

theorem call_frame {β : Type} (m : Mem c τ) (r : Nat) (f : M (EV c.W) β) (out : β → Out α) {q : Nat} (h : q ≠ r) :
    (m.call r f out).2.reg q = m.reg q := by
  unfold Mem.call; split <;> exact upd_ne _ _ h

theorem call_read {β : Type} (m : Mem c τ) (r : Nat) (f : M (EV c.W) β) (out : β → Out α) (q : Nat)
    (h : (f (m.reg r)).2 = m.reg r) : (m.call r f out).2.reg q = m.reg q := by
  unfold Mem.call
  split
  · next hx => rw [hx] at h; simp only at h ⊢; rw [h, upd_self]
  · next hx => rw [hx] at h; simp only at h ⊢; rw [h, upd_self]

/-- A call modifies only the variables it may modify, whatever state they are in. -/
theorem step_frame (m : Mem c τ) (op : Op τ α) {q : Nat} (h : q ∉ op.writes) : (step c m op).2.reg q = m.reg q := by
  cases op <;> simp only [Op.writes, List.mem_cons, List.not_mem_nil, or_false, not_or, not_false_eq_true] at h <;>
    simp only [step]
  case get r i => exact call_read m r _ _ q (get_state i _)
  case any r x => exact call_read m r _ _ q (any_state x _)
  case all r x => exact call_read m r _ _ q (all_state x _)
  case append r o => split <;> simp [upd, h]
  case splitOff r i d => split <;> simp [upd, h]
  all_goals first
    | exact call_frame m _ _ _ h
    | (unfold Mem.callW; split <;> exact upd_ne _ _ h)
    | (unfold Mem.assign; split <;> first | rfl | exact upd_ne _ _ h)
    | (unfold Mem.ask; split <;> rfl)

theorem runAll_frame : ∀ (ops : List (Op τ α)) (m : Mem c τ) {q : Nat}, (∀ op ∈ ops, q ∉ op.writes) →
    (runAll c ops m).2.reg q = m.reg q
  | [], _, _, _ => rfl
  | o :: os, m, _, h =>
    (runAll_frame os _ fun op ho => h op (List.mem_cons_of_mem _ ho)).trans (step_frame m o (h o List.mem_cons_self))

end EnumVecModel
