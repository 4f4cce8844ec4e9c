import Verif.Lemmas.Granted
import Verif.Props.Readable
import Verif.Props.Foot
import Verif.Props.Recover
import Verif.Props.Stateful

/-! # C74: what every call does, whether or not memory is refused -/

namespace EnumVecModel
open EV

variable {α τ : Type} {c : Inst α}

theorem assign_refused {m : Mem c τ} {r : Nat} {e : Except Fault (EV c.W)} (h : (m.assign r e).1 = .oom) : (m.assign r e).2 = m := by
  cases e with
  | ok s => cases h
  | error f => rfl

theorem fault_oom {e : Fault} (h : (e.out : Out α) = .oom) : e = .capacity := by cases e <;> first | rfl | cases h

/-- A method of one vector that does nothing if memory is refused. -/
theorem call_refused {β : Type} {m : Mem c τ} {v : Vecs Nat τ} (h : NumSame c m v) {r : Nat} {f : M (EV c.W) β} {out : β → Out α} (hout : ∀ b, out b ≠ .oom)
    (hf : ∀ s', f (m.reg r) = (.error .capacity, s') → s' = m.reg r) (ho : (m.call r f out).1 = .oom) : NumSame c (m.call r f out).2 v := by
  unfold Mem.call at ho ⊢
  rcases hx : f (m.reg r) with ⟨e | b, s'⟩ <;> rw [hx] at ho <;> dsimp only at ho ⊢
  · rw [fault_oom ho] at hx
    rw [hf s' hx]; exact h.keep r
  · exact absurd ho (hout b)

theorem push_refused (hc : c.Sound) {s s' : EV c.W} (h : Safe c s) (x : α) (hx : push c x s = (.error .capacity, s')) : s' = s := by
  have := push_any hc h x
  rw [hx] at this
  exact this.2.1

theorem insert_refused (hc : c.Sound) {s s' : EV c.W} (h : Safe c s) (i : Nat) (x : α) (hx : EV.insert c i x s = (.error .capacity, s')) : s' = s := by
  have k1 := insert_foot hc h i x
  have k2 := push_foot hc h x
  rw [hx] at k1
  rw [FootRun.refused k1] at k2
  have h1 := k2.2.mpr rfl
  rcases hp : push c x s with ⟨e | b, s1⟩ <;> rw [hp] at h1
  · rw [Except.error.inj h1] at hp
    unfold EV.insert at hx
    rw [M.bind_error hp] at hx
    rw [← (Prod.mk.inj hx).2]
    exact push_refused hc h x hp
  · cases h1

theorem map_enc_take (hr : ∀ x, c.E.toDiscr x < 2 ^ c.bits) (xs : List α) (k : Nat) : ((xs.map (c.enc hr)).take k).map Fin.val = (xs.take k).map c.E.toDiscr := by
  rw [← List.map_take, List.map_map]; rfl

/-- **C74** What a call that is refused memory leaves. -/
theorem C74_refused (hc : c.Sound) (hr : ∀ x, c.E.toDiscr x < 2 ^ c.bits) {m : Mem c τ} {v : Vecs Nat τ} (h : NumSame c m v) (op : Op τ α)
    (hb : op.Borrows) (hs : Sane c v op) (ho : (step c m op).1 = .oom) : NumSame c (step c m op).2 (refusedStep c m v op) := by
  have hsafe : ∀ r, Safe c (m.reg r) := fun r => (h.reg r).safe
  have hk := nums_ok hc
  have quiet : ∀ {o : Op τ α}, Foot.step c m.lens m.foots o = (true, m.foots) → (step c m o).1 ≠ .oom := fun {o} e he => by
    have := (C65_refused hc hsafe o).mp he
    rw [e] at this; cases this
  cases op with
  | new r => cases ho
  | withCapacity r n => rw [show (step c m (.withCapacity r n)).2 = m from assign_refused ho]; exact h
  | fromElem r x n => rw [show (step c m (.fromElem r x n)).2 = m from assign_refused ho]; exact h
  | fromVec r xs => rw [show (step c m (.fromVec r xs)).2 = m from assign_refused ho]; exact h
  | fromSlice r xs => rw [show (step c m (.fromSlice r xs)).2 = m from assign_refused ho]; exact h
  | fromIter r it => rw [show (step c m (.fromIter r it)).2 = m from assign_refused ho]; exact h
  | clone r src => rw [show (step c m (.clone r src)).2 = m from assign_refused ho]; exact h
  | push r x => exact call_refused h nofun (fun s' => push_refused hc (hsafe r) x) ho
  | insert r i x => exact call_refused h nofun (fun s' => insert_refused hc (hsafe r) i x) ho
  | reserve r n =>
    refine call_refused h nofun (fun s' hx => ?_) ho
    have := reserve_safe (k := n) hc (hsafe r) (by rw [show (m.reg r).num = _ from (h.reg r).len]; exact hs)
    rw [hx] at this
    exact this.2.1
  | shrinkToFit r =>
    have := (C65_refused hc hsafe (.shrinkToFit r)).mp ho
    cases this
  | resize r n x =>
    obtain ⟨l, hl⟩ := (h.reg r).exists
    have hR := h.reg r
    rw [hl] at hR
    have hH := (hR.is hc).holds hk
    have hlen : (v.reg r).length = l.length := by rw [hl, List.length_map]
    have hnum : (m.reg r).num = (v.reg r).length := (h.reg r).len
    have key := resize_holds hk hH n (c.enc hr x)
    rw [nums_resize] at key
    simp only [step, Mem.call] at ho ⊢
    rcases hx : EV.resize c n x (m.reg r) with ⟨e | _, s'⟩ <;> rw [hx] at key ho
    · have he := fault_oom ho
      subst he
      obtain ⟨-, -, -, hn, ⟨k, hk', g⟩, -⟩ := key
      refine h.upd r ?_
      have hd : s'.num = (m.reg r).num + Foot.repeatedDone c (m.reg r).num (n - (m.reg r).num) (m.reg r).foot := by
        unfold EV.resize at hx
        rw [M.read_bind, if_pos (show n > EV.len c (m.reg r) by show (m.reg r).num < n; omega)] at hx
        exact extendWithValue_done hc (hsafe r) x _ hx
      have e1 := g.len_eq
      rw [List.length_append, List.length_replicate] at e1
      have hke : k = Foot.repeatedDone c (v.reg r).length (n - (v.reg r).length) (m.foots r) := by
        show _ = Foot.repeatedDone c _ _ (m.reg r).foot
        rw [← hnum]
        omega
      have := holds_nums hc g
      rw [List.map_append, List.map_replicate, hke, ← hl] at this
      exact this
    · cases ho
  | extend r it =>
    have hw : ¬ c.AtLimit ((v.reg r).length + it.hint) := hs
    obtain ⟨l, hl⟩ := (h.reg r).exists
    have hR := h.reg r
    rw [hl] at hR
    have hH := (hR.is hc).holds hk
    have hlen : (v.reg r).length = l.length := by rw [hl, List.length_map]
    have hnum : (m.reg r).num = (v.reg r).length := (h.reg r).len
    have key := extend_holds hk (Inst.encSrc hr it) hH (by rw [nums_atLimit, ← hlen]; exact hw)
    rw [nums_extend] at key
    simp only [step, Mem.call] at ho ⊢
    rcases hx : EV.extend c it (m.reg r) with ⟨e | _, s'⟩ <;> rw [hx] at key ho
    · have he := fault_oom ho
      subst he
      have hd := extend_done hc (hsafe r) it (by rw [hnum]; exact hw) hx
      refine h.upd r ?_
      have fin : ∀ k, k ≤ it.items.length → Holds c.nums s' (l ++ (Inst.encSrc hr it).items.take k) →
          IsNums c s' (v.reg r ++ (it.items.take (Foot.extendDone c (v.reg r).length it.hint it.items.length (m.foots r))).map c.E.toDiscr) := by
        intro k hkl g
        have e1 : s'.num = _ := g.len_eq
        have e0 : (Inst.encSrc hr it).items.length = it.items.length := List.length_map _
        rw [List.length_append, List.length_take, e0] at e1
        have hke : k = Foot.extendDone c (v.reg r).length it.hint it.items.length (m.foots r) := by
          show _ = Foot.extendDone c _ _ _ (m.reg r).foot
          rw [← hnum]
          omega
        have := holds_nums hc g
        rw [List.map_append, ← hl] at this
        rw [← hke]
        have e2 : ((Inst.encSrc hr it).items.take k).map Fin.val = (it.items.take k).map c.E.toDiscr := map_enc_take hr it.items k
        rw [e2] at this
        exact this
      rcases key with ⟨-, ⟨-, -, rfl | ⟨-, j, hj1, hj2, h3⟩⟩ | ⟨he, -⟩ | ⟨-, he, -⟩⟩
      · exact fin 0 (Nat.zero_le _) (by rw [List.take_zero, List.append_nil]; exact hH)
      · exact fin j (by rw [show (Inst.encSrc hr it).items.length = it.items.length from List.length_map _] at hj1; omega) h3
      · cases he
      · revert he; split <;> exact nofun
    · cases ho
  | append r o =>
    obtain ⟨l, hl⟩ := (h.reg r).exists
    obtain ⟨l', hl'⟩ := (h.reg o).exists
    have hR := h.reg r
    have hO := h.reg o
    rw [hl] at hR
    rw [hl'] at hO
    have key := append_holds hk ((hR.is hc).holds hk) ((hO.is hc).holds hk)
    rw [nums_append] at key
    simp only [step] at ho ⊢
    rcases hx : EV.append c (m.reg r, m.reg o) with ⟨e | _, p⟩
    · rw [hx] at key
      obtain ⟨-, -, g1, g2, -⟩ := key
      have e1 := (h.upd r (holds_nums hc g1)).upd o (holds_nums hc g2)
      rw [← hl, ← hl'] at e1
      have e2 : upd (upd v.reg r (v.reg r)) o (v.reg o) = v.reg := funext fun q => by
        unfold upd
        split
        · next e => rw [e]
        · split
          · next e => rw [e]
          · rfl
      rw [e2] at e1
      exact e1
    · rw [hx] at ho; cases ho
  | splitOff r at_ d =>
    have hat : (v.reg r).length ≤ at_ := hs
    have hnum : (m.reg r).num = (v.reg r).length := (h.reg r).len
    simp only [step] at ho ⊢
    by_cases he : at_ = (v.reg r).length
    · obtain ⟨l, hl⟩ := (h.reg r).exists
      have hR := h.reg r
      rw [hl] at hR
      have key := splitOff_end hk ((hR.is hc).holds hk)
      rw [nums_splitOff, show l.length = at_ by rw [he, hl, List.length_map]] at key
      rcases hx : EV.splitOff c at_ (m.reg r) with ⟨e | b, s'⟩ <;> rw [hx] at key ho
      · rw [show s' = m.reg r from key.2.1]; exact h.keep r
      · cases ho
    · rw [splitOff_oob hc _ (show (m.reg r).num < at_ by omega)] at ho
      cases ho
  | _ => exact absurd ho (quiet rfl)

/-- **C74** One call, whatever the allocator does: the result and the numbers in all vectors are those of `fullStep`. -/
theorem C74_exact (hc : c.Sound) (hr : ∀ x, c.E.toDiscr x < 2 ^ c.bits) {m : Mem c τ} {v : Vecs Nat τ} (h : NumSame c m v) (op : Op τ α)
    (hb : op.Borrows) (hs : Sane c v op) :
    (step c m op).1 = (fullStep c m v op).1 ∧ NumSame c (step c m op).2 (fullStep c m v op).2 := by
  have key := C65_refused hc (fun r => (h.reg r).safe) op
  rw [h.lens] at key
  unfold fullStep
  by_cases hf : (Foot.step c (fun r => (v.reg r).length) m.foots op).1 = true
  · rw [if_pos hf]
    exact C73_exact hc hr h op hb hs fun he => by rw [key.mp he] at hf; cases hf
  · rw [if_neg hf]
    have ho := key.mpr (by simpa using hf)
    exact ⟨ho, C74_refused hc hr h op hb hs ho⟩

set_option smartUnfolding false in
theorem rawUnchecked_alloc (a : Alloc) (s : EV c.W) (i : Nat) : rawUnchecked (c.withAlloc a) s i = rawUnchecked c s i := by with_unfolding_all rfl

theorem NumSame.withAlloc {m : Mem c τ} {v : Vecs Nat τ} (a : Alloc) (h : NumSame c m v) : NumSame (c.withAlloc a) (⟨m.reg, m.world⟩ : Mem (c.withAlloc a) τ) v :=
  ⟨h.world, fun r => ⟨⟨(h.reg r).safe.cover, (h.reg r).safe.capLen, (h.reg r).safe.capBound⟩, (h.reg r).len, fun i d hd => by rw [rawUnchecked_alloc]; exact (h.reg r).at_ i d hd⟩⟩

theorem NumSame.dropAlloc {a : Alloc} {m : Mem (c.withAlloc a) τ} {v : Vecs Nat τ} (h : NumSame (c.withAlloc a) m v) : NumSame c (⟨m.reg, m.world⟩ : Mem c τ) v :=
  ⟨h.world, fun r => ⟨⟨(h.reg r).safe.cover, (h.reg r).safe.capLen, (h.reg r).safe.capBound⟩, (h.reg r).len, fun i d hd => by rw [← rawUnchecked_alloc a]; exact (h.reg r).at_ i d hd⟩⟩

theorem sane_withAlloc (a : Alloc) {v : Vecs Nat τ} {op : Op τ α} (h : Sane c v op) : Sane (c.withAlloc a) v op := by
  cases op <;> exact h

/-- **C74** Histories: each call may have an allocator of its own, and the program goes on after every panic and every refused request. All results, and all numbers in the end, are known. -/
theorem C74_history (hc : c.Sound) (hr : ∀ x, c.E.toDiscr x < 2 ^ c.bits) : ∀ (ps : List (Alloc × Op τ α)) {m : Mem c τ} {v : Vecs Nat τ}, NumSame c m v →
    (∀ p ∈ ps, p.1.Lawful ∧ p.1.Bounded c.build c.epb) → (∀ p ∈ ps, p.2.Borrows) → SaneFull c ps m v →
    (runWith c ps m).1 = (fullRun c ps m v).1 ∧ NumSame c (runWith c ps m).2 (fullRun c ps m v).2
  | [], _, _, h, _, _, _ => ⟨rfl, h⟩
  | (a, o) :: os, m, v, h, ha, hb, hs => by
    obtain ⟨a1, a2⟩ := ha (a, o) List.mem_cons_self
    obtain ⟨g1, g2⟩ := C74_exact (c := c.withAlloc a) (hc.withAlloc a1 a2) hr (h.withAlloc a) o (hb (a, o) List.mem_cons_self) (sane_withAlloc a hs.1)
    obtain ⟨g3, g4⟩ := C74_history hc hr os g2.dropAlloc (fun p hp => ha p (List.mem_cons_of_mem _ hp)) (fun p hp => hb p (List.mem_cons_of_mem _ hp)) hs.2
    refine ⟨?_, g4⟩
    show (stepWith c m a o).1 :: (runWith c os (stepWith c m a o).2).1 = (fullStepWith c m v a o).1 :: _
    rw [show (runWith c os (stepWith c m a o).2).1 = _ from g3, show (stepWith c m a o).1 = _ from g1]; rfl

/-- **C74** The same for an allocator whose answers depend on a hidden state: the call is the call with some allocator without state that answers every request as this one does in some state. -/
theorem C74_stateful {ω : Type} {S : SAlloc ω} (hc : c.Sound) (hS : S.Lawful) (hB : S.Bounded c.build c.epb) (hr : ∀ x, c.E.toDiscr x < 2 ^ c.bits) {m : Mem c τ} {v : Vecs Nat τ}
    (h : NumSame c m v) (t : ω) (op : Op τ α) (hb : op.Borrows) (hs : Sane c v op) :
    ∃ a : Alloc, a.Follows S ∧ (Stateful.step c S m t op).1 = (fullStepWith c m v a op).1 ∧ NumSame c (Stateful.step c S m t op).2.1 (fullStepWith c m v a op).2 := by
  obtain ⟨a, h1, h2⟩ := C67_call hS m t op
  obtain ⟨g1, g2⟩ := C74_exact (c := c.withAlloc a) (hc.withAlloc (h1.lawful hS) (h1.bounded hB)) hr (h.withAlloc a) op hb (sane_withAlloc a hs)
  obtain ⟨e1, e2⟩ := Prod.mk.inj h2
  exact ⟨a, h1, by rw [← e1]; exact g1, by rw [← e2]; exact g2.dropAlloc⟩

/-- **C45** Exactly what happens in a program that goes on after refused requests, right calls and wrong ones: from the start. -/
theorem C45_exact (hc : c.Sound) (hr : ∀ x, c.E.toDiscr x < 2 ^ c.bits) (w : τ) (ps : List (Alloc × Op τ α)) (ha : ∀ p ∈ ps, p.1.Lawful ∧ p.1.Bounded c.build c.epb)
    (hb : ∀ p ∈ ps, p.2.Borrows) (hs : SaneFull c ps (Mem.start c w) ⟨fun _ => [], w⟩) :
    (runWith c ps (Mem.start c w)).1 = (fullRun c ps (Mem.start c w) ⟨fun _ => [], w⟩).1 ∧
    ∀ r, IsNums c ((runWith c ps (Mem.start c w)).2.reg r) ((fullRun c ps (Mem.start c w) ⟨fun _ => [], w⟩).2.reg r) := by
  obtain ⟨h1, h2⟩ := C74_history hc hr ps (start_nums hc w) ha hb hs
  exact ⟨h1, h2.reg⟩

/-! ## A concrete case: three-bit elements, ten in a block, an allocator that grants four blocks -/

def fourRun : List (Alloc × Op Nat (Fin 5)) :=
  [(c5.alloc, .fromElem 0 2 15), (fourAlloc, .extend 0 ⟨3, List.replicate 60 1, false⟩), (fourAlloc, .len 0), (fourAlloc, .get 0 39),
   (fourAlloc, .truncate 0 15), (fourAlloc, .resize 0 90 4), (fourAlloc, .len 0), (noAlloc, .clone 1 0), (noAlloc, .len 1), (c5.alloc, .insert 0 100 3), (c5.alloc, .len 0)]

example : (fullRun c5 fourRun (Mem.start _ 0) ⟨fun _ => [], 0⟩).1 =
    [.unit, .oom, .num 40, .item (some 1), .unit, .oom, .num 20, .oom, .num 0, .unit, .num 21] := by decide +kernel

example : (runWith c5 fourRun (Mem.start c5 0)).1 = (fullRun c5 fourRun (Mem.start _ 0) ⟨fun _ => [], 0⟩).1 := by
  refine (C45_exact (c := c5) c5_ok.sound (fin_fits _ _ c5_ok) 0 fourRun ?_ ?_ ?_).1
  · intro p hp
    have h1 : c5.alloc.Lawful ∧ c5.alloc.Bounded c5.build c5.epb := ⟨c5_ok.lawful, c5_ok.bounded⟩
    have h2 : fourAlloc.Lawful ∧ fourAlloc.Bounded c5.build c5.epb := fourAlloc_ok (by decide)
    have h3 : noAlloc.Lawful ∧ noAlloc.Bounded c5.build c5.epb := noAlloc_ok (by decide)
    simp only [fourRun, List.mem_cons, List.not_mem_nil, or_false] at hp
    rcases hp with rfl | rfl | rfl | rfl | rfl | rfl | rfl | rfl | rfl | rfl | rfl <;> assumption
  · intro p hp
    simp only [fourRun, List.mem_cons, List.not_mem_nil, or_false] at hp
    rcases hp with rfl | rfl | rfl | rfl | rfl | rfl | rfl | rfl | rfl | rfl | rfl <;> exact trivial
  · exact ⟨trivial, (by decide +kernel : ¬ c5.AtLimit _), trivial, trivial, trivial, trivial, trivial, trivial, trivial, trivial, trivial, trivial⟩

end EnumVecModel
