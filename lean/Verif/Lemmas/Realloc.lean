import Verif.Lemmas.Api
import Verif.Lemmas.Near

set_option linter.unusedSectionVars false

/-! # Calls that do not consult the allocator -/

namespace EnumVecModel
open EV

variable {α : Type}

section
variable (c : Inst α) (a : Alloc)

theorem rawUnchecked_wa (s : EV c.W) (i : Nat) : rawUnchecked (c.withAlloc a) s i = rawUnchecked c s i := by
  unfold rawUnchecked
  have h : s.storage.data[(blockIndex (c.withAlloc a) i).1]? = s.storage.data[(blockIndex c i).1]? := rfl
  rw [h]
  cases s.storage.data[(blockIndex c i).1]? <;> rfl

theorem getRawUnchecked_wa (i : Nat) : getRawUnchecked (c.withAlloc a) i = getRawUnchecked c i := by
  funext s
  exact congrArg (fun r => (r, s)) (rawUnchecked_wa c a s i)

theorem setRawUnchecked_wa (i d : Nat) : setRawUnchecked (c.withAlloc a) i d = setRawUnchecked c i d := by
  funext s
  unfold setRawUnchecked
  have h : s.storage.data[(blockIndex (c.withAlloc a) i).1]? = s.storage.data[(blockIndex c i).1]? := rfl
  rw [h]
  cases s.storage.data[(blockIndex c i).1]? <;> rfl

theorem setRaw_wa (i d : Nat) : setRaw (c.withAlloc a) i d = setRaw c i d := by
  unfold setRaw
  rw [setRawUnchecked_wa]
  rfl

theorem set_wa (i : Nat) (x : α) : EV.set (c.withAlloc a) i x = EV.set c i x := setRaw_wa c a i _

theorem block_wa (i : Nat) : block (c.withAlloc a) i = block c i := by
  funext s
  unfold block
  cases s.storage.data[i]? <;> rfl

theorem shiftUp_wa (v z : BitVec c.W) : shiftUp (c.withAlloc a) v z = shiftUp c v z := by
  unfold shiftUp
  have h : blkShl (c.withAlloc a).build.checked v (c.withAlloc a).bits = blkShl c.build.checked v c.bits := rfl
  simp only [h]
  cases blkShl c.build.checked v c.bits <;> rfl

theorem insertSlowStep_wa : insertSlowStep (c.withAlloc a) = insertSlowStep c := by
  funext i prev
  unfold insertSlowStep
  rw [getRawUnchecked_wa, setRawUnchecked_wa]

theorem insertFastStep_wa : insertFastStep (c.withAlloc a) = insertFastStep c := by
  funext i prev
  unfold insertFastStep
  rw [block_wa]
  simp only [shiftUp_wa]
  rfl

end

section
variable {c : Inst α} (hc : c.Ok)
include hc

theorem capacity_eq {s : EV c.W} (h : Safe c s) : capacity c s = s.storage.cap * c.epb := by
  have := h.room hc
  unfold capacity satMul
  omega

theorem lt_capacity_iff {s : EV c.W} (h : Safe c s) (n : Nat) : n < capacity c s ↔ n / c.epb + 1 ≤ s.storage.cap := by
  rw [capacity_eq hc h, ← Nat.div_lt_iff_lt_mul hc.epb_pos]
  omega

theorem blocks_succ (n : Nat) : c.blocks (n + 1) = n / c.epb + 1 := by
  have := hc.epb_pos
  unfold Inst.blocks
  have e : n + 1 + c.epb - 1 = n + c.epb := by omega
  rw [e, Nat.add_div_right _ this]

theorem growIfNeeded_indep {s : EV c.W} (h : Safe c s) (hcap : s.num < capacity c s) (a : Alloc) :
    growIfNeeded (c.withAlloc a) s = growIfNeeded c s := by
  unfold growIfNeeded
  show (if len c s % c.epb = 0 ∧ blocksForElements c (len c s) = s.storage.len then _ else _) =
    (if len c s % c.epb = 0 ∧ blocksForElements c (len c s) = s.storage.len then _ else _)
  by_cases hif : len c s % c.epb = 0 ∧ blocksForElements c (len c s) = s.storage.len
  · rw [if_pos hif, if_pos hif]
    have h1 : blocksForElements c s.num = c.blocks s.num := h.blocks_eq hc
    have h2 : s.num % c.epb = 0 := hif.1
    have h3 : blocksForElements c s.num = s.storage.len := hif.2
    rw [h1, blocks_of_dvd hc h2] at h3
    have h4 := (lt_capacity_iff hc h _).mp hcap
    have h5 : s.storage.len + 1 ≤ s.storage.cap := by omega
    have h6 : ∀ b : Alloc, RVec.push b s.storage 0 = .ok { s.storage with data := s.storage.data ++ [0] } := fun b => by
      unfold RVec.push RVec.reserve; rw [if_pos h5]
    have h7 : RVec.push (c.withAlloc a).alloc s.storage 0 = _ := h6 a
    simp only [h6]
  · rw [if_neg hif, if_neg hif]

theorem push_indep {s : EV c.W} (h : Safe c s) (hcap : s.num < capacity c s) (x : α) (a : Alloc) :
    push (c.withAlloc a) x s = push c x s := by
  have h1 := growIfNeeded_indep hc h hcap a
  unfold push
  show M.bind (growIfNeeded (c.withAlloc a)) _ s = M.bind (growIfNeeded c) _ s
  simp only [set_wa]
  unfold M.bind
  rw [h1]

theorem not_atLimit_of_cap {s : EV c.W} (h : Safe c s) {n : Nat} (hcap : n < capacity c s) : ¬ c.AtLimit n := by
  rintro ⟨h1, h2⟩
  have h3 := (lt_capacity_iff hc h _).mp hcap
  have h4 := h.capBound
  rw [h1] at h3 h4
  rw [Nat.div_one] at h3
  omega

theorem reserve_indep {s : EV c.W} (h : Safe c s) {k : Nat} (hcap : s.num + k < capacity c s) (a : Alloc) :
    reserve (c.withAlloc a) k s = reserve c k s := by
  unfold reserve
  have h1 : RVec.resize a s.storage ((s.num + k) / c.epb + 1) 0 = RVec.resize c.alloc s.storage ((s.num + k) / c.epb + 1) 0 := by
    have h2 := (lt_capacity_iff hc h _).mp hcap
    unfold RVec.resize
    by_cases hn : (s.num + k) / c.epb + 1 ≤ s.storage.len
    · rw [if_pos hn, if_pos hn]
    · rw [if_neg hn, if_neg hn]
      unfold RVec.reserve
      have : s.storage.len + ((s.num + k) / c.epb + 1 - s.storage.len) ≤ s.storage.cap := by omega
      rw [if_pos this, if_pos this]
  show (if s.num + k < c.build.usizeLim then _ else _) = (if s.num + k < c.build.usizeLim then _ else _)
  by_cases hk : s.num + k < c.build.usizeLim
  · rw [if_pos hk, if_pos hk]
    have e1 := reserve_sum hc hk (not_atLimit_of_cap hc h hcap)
    have e2 : uAdd (c.withAlloc a).build ((len (c.withAlloc a) s + k) / (c.withAlloc a).epb) 1 = .ok ((s.num + k) / c.epb + 1) := e1
    have e3 : uAdd c.build ((len c s + k) / c.epb) 1 = .ok ((s.num + k) / c.epb + 1) := e1
    have h2 : RVec.resize (c.withAlloc a).alloc s.storage ((s.num + k) / c.epb + 1) 0 =
      RVec.resize c.alloc s.storage ((s.num + k) / c.epb + 1) 0 := h1
    simp only [e2, e3, h2]
    rcases RVec.resize c.alloc s.storage ((s.num + k) / c.epb + 1) 0 with _ | _ <;> rfl
  · rw [if_neg hk, if_neg hk]

theorem insert_indep {s : EV c.W} (h : Safe c s) (hcap : s.num < capacity c s) (index : Nat) (x : α) (a : Alloc) :
    EV.insert (c.withAlloc a) index x s = EV.insert c index x s := by
  have h1 := push_indep hc h hcap x a
  unfold EV.insert
  show M.bind (push (c.withAlloc a) x) _ s = M.bind (push c x) _ s
  simp only [insertSlowStep_wa, insertFastStep_wa]
  unfold M.bind
  rw [h1]
  rfl

theorem extendRest_indep (panics : Bool) (a : Alloc) : ∀ (items l : List α) (s : EV c.W), Holds c s l →
    l.length + items.length ≤ capacity c s →
    extendRest (c.withAlloc a) panics items s = extendRest c panics items s
  | [], _, _, _, _ => rfl
  | x :: items, l, s, h, hcap => by
    have hl := h.len_eq
    simp only [List.length_cons] at hcap
    have h1 := push_indep hc h.toSafe (x := x) (by omega) a
    unfold extendRest
    show M.bind (push (c.withAlloc a) x) _ s = M.bind (push c x) _ s
    unfold M.bind
    rw [h1]
    have h2 := push_holds hc h x
    match hp : push c x s, h2 with
    | (.ok _, s'), h2 =>
      have h3 : s.storage.cap ≤ s'.storage.cap := h2.2.2.1
      refine extendRest_indep panics a items (l ++ [x]) s' h2.1 ?_
      rw [capacity_eq hc h2.1.toSafe]
      rw [capacity_eq hc h.toSafe] at hcap
      have := Nat.mul_le_mul_right c.epb h3
      simp; omega
    | (.error e, s'), h2 => rfl

theorem extend_indep (it : Src α) {s : EV c.W} {l : List α} (h : Holds c s l) (hh : it.hint ≤ it.items.length)
    (hcap : l.length + it.hint < capacity c s) (hcap2 : l.length + it.items.length ≤ capacity c s) (a : Alloc) :
    extend (c.withAlloc a) it s = extend c it s := by
  have hl := h.len_eq
  have h1 := reserve_indep hc h.toSafe (k := it.hint) (by omega) a
  unfold extend
  show M.bind (reserve (c.withAlloc a) it.hint) _ s = M.bind (reserve c it.hint) _ s
  unfold M.bind
  rw [h1]
  have h2 := reserve_holds hc h (not_atLimit_of_cap hc h.toSafe hcap)
  match hr : reserve c it.hint s, h2 with
  | (.error e, s'), h2 => rfl
  | (.ok _, s1), h2 =>
    obtain ⟨g1, g2, g3, g4, g5, g6⟩ := h2
    have hn1 : s1.num = l.length := g1.len_eq
    have hadd : uAdd c.build s1.num it.hint = .ok (s1.num + it.hint) := by
      unfold uAdd; rw [if_pos (by omega)]
    show (M.lift (uAdd c.build s1.num it.hint) >>= fun n => M.write { s1 with num := n } >>= fun _ =>
        extendHinted (c.withAlloc a) it.panics it.hint s.num it.items >>= fun rest =>
          extendRest (c.withAlloc a) it.panics rest : M (EV c.W) Unit) s1 =
      (M.lift (uAdd c.build s1.num it.hint) >>= fun n => M.write { s1 with num := n } >>= fun _ =>
        extendHinted c it.panics it.hint s.num it.items >>= fun rest =>
          extendRest c it.panics rest : M (EV c.W) Unit) s1
    rw [hadd, M.lift_ok_bind, M.lift_ok_bind, M.write_bind, M.write_bind]
    have hcov : s1.num + it.hint ≤ s1.storage.data.length * c.epb := by
      rw [g3]
      have e : (s.num + it.hint) < ((s.num + it.hint) / c.epb + 1) * c.epb := by
        rw [Nat.add_mul, Nat.one_mul, Nat.mul_comm]
        have := Nat.div_add_mod (s.num + it.hint) c.epb
        have := Nat.mod_lt (s.num + it.hint) hc.epb_pos
        omega
      omega
    have hpre : HoldsPre c (⟨s1.storage, s1.num + it.hint⟩ : EV c.W) l :=
      ⟨⟨hcov, g1.capLen, g1.capBound⟩, by show l.length ≤ s1.num + it.hint; omega,
        fun i hi => by rw [raw_congr (s := (⟨s1.storage, s1.num + it.hint⟩ : EV c.W)) (t := s1) rfl i]; exact g1.elems i hi⟩
    have hx := extendHinted_holds hc it.panics it.hint it.items l _ hpre (by show _ ≤ s1.num + it.hint; omega)
    have hsame : ∀ (n pos : Nat) (items : List α) (t : EV c.W),
        extendHinted (c.withAlloc a) it.panics n pos items t = extendHinted c it.panics n pos items t := by
      intro n
      induction n with
      | zero => intro pos items t; rfl
      | succ n ih =>
        intro pos items t
        cases items with
        | nil => rfl
        | cons y items =>
          show M.bind (EV.set (c.withAlloc a) pos y) (fun _ => extendHinted (c.withAlloc a) it.panics n (pos + 1) items) t =
            M.bind (EV.set c pos y) (fun _ => extendHinted c it.panics n (pos + 1) items) t
          rw [set_wa]
          unfold M.bind
          match EV.set c pos y t with
          | (.ok _, t') => exact ih _ _ _
          | (.error e, t') => rfl
    rw [hl]
    show M.bind (extendHinted (c.withAlloc a) it.panics it.hint l.length it.items) _ _ =
      M.bind (extendHinted c it.panics it.hint l.length it.items) _ _
    unfold M.bind
    rw [hsame]
    match hq : extendHinted c it.panics it.hint l.length it.items ⟨s1.storage, s1.num + it.hint⟩, hx with
    | (.error e, t), _ => rfl
    | (.ok rest, t), hx =>
      obtain ⟨x1, x2, x3, x4, x5⟩ := hx
      have e1 : t.num = l.length + it.hint := by rw [x4.num]; show s1.num + it.hint = _; omega
      have hh2 : Holds c t (l ++ it.items.take it.hint) := x3.holds (by rw [e1]; simp; omega)
      refine extendRest_indep hc it.panics a rest _ t hh2 ?_
      have e2 : capacity c t = capacity c s1 := by unfold capacity; rw [x4.cap]
      have e3 : capacity c s ≤ capacity c s1 := by
        rw [capacity_eq hc h.toSafe, capacity_eq hc g1.toSafe]
        exact Nat.mul_le_mul_right _ g5
      rw [e2, x1]; simp; omega

end
end EnumVecModel
