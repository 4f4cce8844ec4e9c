import Verif.Lemmas.Threads
import Verif.Lemmas.Api
import Verif.Props.History

/-! # Several threads (C75) -/

namespace EnumVecModel
open EV

variable {α σ : Type} {c : Inst α}

theorem ofThread_same {β : Type} (t : Nat) (x : β) (ps : List (Nat × β)) : ofThread t ((t, x) :: ps) = x :: ofThread t ps := by
  simp [ofThread]

theorem ofThread_other {β : Type} {t t' : Nat} (h : t' ≠ t) (x : β) (ps : List (Nat × β)) : ofThread t ((t', x) :: ps) = ofThread t ps := by
  simp [ofThread, h]

theorem threads_alone (t : Nat) (K : Nat → Prop) : ∀ (ps : List (Nat × Op σ α)) {m : Mem c (Nat → σ)} {m' : Mem c σ}, m.world t = m'.world →
    (∀ r, K r → m.reg r = m'.reg r) → (∀ p ∈ ps, p.1 ≠ t → ∀ r, K r → r ∉ p.2.writes) →
    (∀ p ∈ ps, p.1 = t → (∀ r ∈ p.2.uses, K r) ∧ ∀ r ∈ p.2.writes, K r) →
    ofThread t (runThreads c ps m).1 = (runAll c (ofThread t ps) m').1 ∧
    (runThreads c ps m).2.world t = (runAll c (ofThread t ps) m').2.world ∧
    ∀ r, K r → (runThreads c ps m).2.reg r = (runAll c (ofThread t ps) m').2.reg r
  | [], _, _, hw, hK, _, _ => ⟨rfl, hw, hK⟩
  | (t', o) :: ps, m, m', hw, hK, ho, ht => by
    have hso : ∀ p ∈ ps, p.1 ≠ t → ∀ r, K r → r ∉ p.2.writes := fun p hp => ho p (List.mem_cons_of_mem _ hp)
    have hst : ∀ p ∈ ps, p.1 = t → (∀ r ∈ p.2.uses, K r) ∧ ∀ r ∈ p.2.writes, K r := fun p hp => ht p (List.mem_cons_of_mem _ hp)
    by_cases h : t' = t
    · subst h
      have hm := ht _ List.mem_cons_self rfl
      have key := step_local (c := c) (t := t') o hw (fun r hr => hK r (hm.1 r hr)) (fun r hr => hK r (hm.2 r hr))
      have ih := threads_alone t' K ps (m := (step c m (o.own t')).2) (m' := (step c m' o).2) (by rw [key.world, upd_same])
        (fun r hr => by
          by_cases hq : r ∈ o.writes
          · exact key.reg r hq
          · rw [step_frame m (o.own t') (by rw [own_writes]; exact hq), step_frame m' o hq]; exact hK r hr) hso hst
      rw [ofThread_same t' o ps]
      simp only [runThreads, runAll]
      rw [ofThread_same, key.out, ih.1]
      exact ⟨rfl, ih.2.1, ih.2.2⟩
    · have hm := ho _ List.mem_cons_self h
      have key := step_local (c := c) (t := t') o (m := m) (m' := ⟨m.reg, m.world t'⟩) rfl (fun _ _ => rfl) (fun _ _ => rfl)
      have ih := threads_alone t K ps (m := (step c m (o.own t')).2) (m' := m') (by rw [key.world, upd_ne _ _ (Ne.symm h)]; exact hw)
        (fun r hr => by rw [step_frame m (o.own t') (by rw [own_writes]; exact hm r hr)]; exact hK r hr) hso hst
      rw [ofThread_other h o ps]
      simp only [runThreads]
      rw [ofThread_other h]
      exact ih

/-- **C75** In every schedule that obeys Rust's borrowing rules every thread gets from its calls exactly the results it gets if it runs alone,
its closures see and do the same, and the variables no other thread writes end as if it had run alone: down to the last bit of the storage.
This holds from every state, for every `EnumLike` and allocation function and whatever the calls do (also panics, refused allocations and
the calls that are not those of `Vec`). -/
theorem C75_schedule (ps : List (Nat × Op σ α)) (h : Borrowed ps) (m : Mem c (Nat → σ)) (t : Nat) :
    ofThread t (runThreads c ps m).1 = (runAll c (ofThread t ps) ⟨m.reg, m.world t⟩).1 ∧
    (runThreads c ps m).2.world t = (runAll c (ofThread t ps) (⟨m.reg, m.world t⟩ : Mem c σ)).2.world ∧
    ∀ r, (∀ p ∈ ps, p.1 ≠ t → r ∉ p.2.writes) →
      (runThreads c ps m).2.reg r = (runAll c (ofThread t ps) (⟨m.reg, m.world t⟩ : Mem c σ)).2.reg r :=
  threads_alone t (fun r => ∀ p ∈ ps, p.1 ≠ t → r ∉ p.2.writes) ps rfl (fun _ _ => rfl) (fun p hp hn r hr => hr p hp hn)
    fun q hq hqt => ⟨fun r hr p hp hn hw => (h p hp q hq (by rw [hqt]; exact hn) r hw).1 hr,
      fun r hr p hp hn hw => (h p hp q hq (by rw [hqt]; exact hn) r hw).2 hr⟩

theorem runThreads_frame {q : Nat} : ∀ (ps : List (Nat × Op σ α)) (m : Mem c (Nat → σ)), (∀ p ∈ ps, q ∉ p.2.writes) →
    (runThreads c ps m).2.reg q = m.reg q
  | [], _, _ => rfl
  | (t, o) :: ps, m, h => (runThreads_frame ps _ fun p hp => h p (List.mem_cons_of_mem _ hp)).trans
      (step_frame m (o.own t) (by rw [own_writes]; exact h _ List.mem_cons_self))

theorem mem_ofThread {β : Type} {t : Nat} {x : β} {ps : List (Nat × β)} : x ∈ ofThread t ps ↔ (t, x) ∈ ps := by
  simp only [ofThread, List.mem_map, List.mem_filter, beq_iff_eq]
  constructor
  · rintro ⟨⟨t', y⟩, ⟨h1, h2⟩, h3⟩
    simp only at h2 h3
    rw [← h2, ← h3]; exact h1
  · exact fun h => ⟨(t, x), ⟨h, rfl⟩, rfl⟩

/-- **C75** The order in which the calls of different threads are made does not matter: two schedules of the same threads give every thread
the same results and end in the same state. -/
theorem C75_any_schedule (ps qs : List (Nat × Op σ α)) (h : Borrowed ps) (hs : ∀ t, ofThread t ps = ofThread t qs) (m : Mem c (Nat → σ)) :
    (∀ t, ofThread t (runThreads c ps m).1 = ofThread t (runThreads c qs m).1) ∧ (runThreads c ps m).2 = (runThreads c qs m).2 := by
  have hmem : ∀ p : Nat × Op σ α, p ∈ qs ↔ p ∈ ps := fun p => by
    rw [show p = (p.1, p.2) from rfl, ← mem_ofThread, ← mem_ofThread, hs]
  have hq : Borrowed qs := fun p hp q hq => h p ((hmem p).mp hp) q ((hmem q).mp hq)
  have key := fun t => And.intro (C75_schedule ps h m t) (C75_schedule qs hq m t)
  refine ⟨fun t => by rw [(key t).1.1, (key t).2.1, hs], ?_⟩
  have hworld : (runThreads c ps m).2.world = (runThreads c qs m).2.world := funext fun t => by rw [(key t).1.2.1, (key t).2.2.1, hs]
  have hreg : (runThreads c ps m).2.reg = (runThreads c qs m).2.reg := funext fun r => by
    by_cases hr : ∃ p ∈ ps, r ∈ p.2.writes
    · obtain ⟨p, hp, hw⟩ := hr
      rw [(key p.1).1.2.2 r fun q hq hn hx => (h p hp q hq (Ne.symm hn) r hw).2 hx,
        (key p.1).2.2.2 r fun q hq hn hx => (h p hp q ((hmem q).mp hq) (Ne.symm hn) r hw).2 hx, hs]
    · have hn : ∀ p ∈ ps, r ∉ p.2.writes := fun p hp hw => hr ⟨p, hp, hw⟩
      rw [runThreads_frame ps m hn, runThreads_frame qs m fun p hp => hn p ((hmem p).mp hp)]
  rcases hx : (runThreads c ps m).2 with ⟨a, b⟩
  rcases hy : (runThreads c qs m).2 with ⟨a', b'⟩
  rw [hx, hy] at hworld hreg
  simp only at hworld hreg
  rw [hworld, hreg]

/-- **C75** In particular two calls that do not touch what the other writes can be swapped: same results, same state. -/
theorem C75_commute (o o' : Op σ α) (h : ∀ r ∈ o.writes, r ∉ o'.uses ∧ r ∉ o'.writes) (h' : ∀ r ∈ o'.writes, r ∉ o.uses ∧ r ∉ o.writes)
    (m : Mem c (Nat → σ)) :
    (step c (step c m (o.own 0)).2 (o'.own 1)).1 = (step c m (o'.own 1)).1 ∧
    (step c (step c m (o'.own 1)).2 (o.own 0)).1 = (step c m (o.own 0)).1 ∧
    (step c (step c m (o.own 0)).2 (o'.own 1)).2 = (step c (step c m (o'.own 1)).2 (o.own 0)).2 := by
  have hb : Borrowed [(0, o), (1, o')] := by
    intro p hp q hq hn r hr
    simp only [List.mem_cons, List.not_mem_nil, or_false] at hp hq
    rcases hp with rfl | rfl <;> rcases hq with rfl | rfl
    · exact absurd rfl hn
    · exact h r hr
    · exact h' r hr
    · exact absurd rfl hn
  obtain ⟨h1, h2⟩ := C75_any_schedule [(0, o), (1, o')] [(1, o'), (0, o)] hb (fun t => by
    by_cases h0 : t = 0
    · subst h0; rfl
    · by_cases h1 : t = 1
      · subst h1; rfl
      · simp [ofThread, Ne.symm h0, Ne.symm h1]) m
  have h3 := h1 0
  have h4 := h1 1
  simp only [runThreads, ofThread, List.filter, List.map, Nat.reduceBEq, beq_self_eq_true, List.cons.injEq, and_true] at h3 h4
  exact ⟨h4, h3.symm, h2⟩

/-! ### A concrete case

Three threads over 3-bit elements: thread 0 appends to variable 0 and removes from it, thread 1 changes variable 1 with a counting closure,
thread 2 clones variable 9 into variable 2; all read variable 9. -/
def threadRun : List (Nat × Op Nat (Fin 8)) :=
  [(1, .fromElem 1 3 25), (0, .push 0 7), (2, .clone 2 9), (0, .insert 0 0 5), (1, .forEach 1 fun x n => (some (x + 1), n + 1)), (0, .eq 0 9),
   (2, .retain 2 fun x n => (some (x < 4), n + 10)), (1, .any 9 6), (0, .remove 0 0), (1, .all 1 4), (2, .toVec 2), (0, .get 9 11)]

/-- The same threads one after the other. -/
def threadRunSorted : List (Nat × Op Nat (Fin 8)) :=
  (ofThread 2 threadRun).map (2, ·) ++ (ofThread 0 threadRun).map (0, ·) ++ (ofThread 1 threadRun).map (1, ·)

theorem threadRun_borrowed : Borrowed threadRun := by decide +kernel

theorem threadRun_sorted (t : Nat) : ofThread t threadRun = ofThread t threadRunSorted := by
  by_cases h0 : t = 0
  · subst h0; rfl
  by_cases h1 : t = 1
  · subst h1; rfl
  by_cases h2 : t = 2
  · subst h2; rfl
  · simp [threadRunSorted, threadRun, ofThread, Ne.symm h0, Ne.symm h1, Ne.symm h2]

example (m : Mem c8 (Nat → Nat)) : (runThreads c8 threadRun m).2 = (runThreads c8 threadRunSorted m).2 :=
  (C75_any_schedule threadRun threadRunSorted threadRun_borrowed threadRun_sorted m).2

/-- The results really are those of elements. -/
example : ofThread 1 (runThreads c8 threadRun ⟨fun _ => v12, fun _ => 0⟩).1 = [.unit, .unit, .bool (l12.any (· == 6)), .bool true] ∧
    (runThreads c8 threadRun ⟨fun _ => v12, fun _ => 0⟩).2.world 1 = 25 ∧
    (runThreads c8 threadRun ⟨fun _ => v12, fun _ => 0⟩).2.world 2 = 120 := by decide +kernel

/-- Without the borrowing rule the order matters. -/
example : ¬ Borrowed ([(0, .push 0 1), (1, .len 0)] : List (Nat × Op Nat (Fin 8))) ∧
    ofThread 1 (runThreads c8 ([(0, .push 0 1), (1, .len 0)] : List (Nat × Op Nat (Fin 8))) ⟨fun _ => EV.new c8, fun _ => 0⟩).1 ≠
      ofThread 1 (runThreads c8 ([(1, .len 0), (0, .push 0 1)] : List (Nat × Op Nat (Fin 8))) ⟨fun _ => EV.new c8, fun _ => 0⟩).1 := by
  constructor
  · intro h
    exact absurd (h (0, .push 0 1) (by simp) (1, .len 0) (by simp) (by simp) 0 (by simp [Op.writes])).1 (by simp [Op.uses])
  · decide +kernel

end EnumVecModel
