import Verif.Unsafe
import Verif.Props.Safety
import Verif.Lemmas.Api

/-! # Unsafe calls in histories (C53) -/

namespace EnumVecModel
open EV

variable {α τ : Type} {c : Inst α}

/-- A `Vec` that obeys its own invariants. -/
structure RVec.Fine {W : Nat} (B : Build) (n : Nat) (v : RVec W) : Prop where
  capLen : v.data.length ≤ v.cap
  capBound : (v.cap + 1) * n + 4 < B.usizeLim

theorem reserve_fine {strict : Prop} (hc : c.Fits strict) {v : RVec c.W} (h : v.Fine c.build c.epb) (n : Nat) :
    Res (v.reserve c.alloc n) (fun v' => v'.data = v.data ∧ v.data.length + n ≤ v'.cap ∧ (v'.cap + 1) * c.epb + 4 < c.build.usizeLim) (fun e => e ≠ .ub) := by
  unfold RVec.reserve
  split
  · exact ⟨rfl, by assumption, h.capBound⟩
  · split
    · exact ⟨rfl, hc.lawful.grow_ge _ _ _ (by assumption), hc.bounded.grow _ _ _ (by assumption)⟩
    · exact nofun

theorem orKeep_fine {v : RVec c.W} (h : v.Fine c.build c.epb) {x : Except Fault (RVec c.W)} (hx : Res x (RVec.Fine c.build c.epb) (fun e => e ≠ .ub)) :
    (orKeep v x).1 ≠ .error .ub ∧ (orKeep v x).2.Fine c.build c.epb := by
  cases x with
  | ok v' => exact ⟨nofun, hx⟩
  | error e => exact ⟨fun he => hx (by cases he; rfl), h⟩

theorem storageOp_fine {strict : Prop} (hc : c.Fits strict) (o : StorageOp c.W) {v : RVec c.W} (h : v.Fine c.build c.epb) :
    (o.run c.alloc v).1 ≠ .error .ub ∧ (o.run c.alloc v).2.Fine c.build c.epb := by
  cases o with
  | push w =>
    refine orKeep_fine h ?_
    have hr := reserve_fine hc h 1
    unfold RVec.push
    cases hx : v.reserve c.alloc 1 with
    | ok v' =>
      rw [hx] at hr
      obtain ⟨h1, h2, h3⟩ := hr
      exact ⟨by show (v'.data ++ [w]).length ≤ v'.cap; rw [h1, List.length_append]; exact h2, h3⟩
    | error e => rw [hx] at hr; exact hr
  | truncate n =>
    have := h.capLen
    exact ⟨nofun, ⟨by show (v.data.take n).length ≤ v.cap; rw [List.length_take]; omega, h.capBound⟩⟩
  | set j w =>
    show (RVec.setIndex j w v).1 ≠ _ ∧ (RVec.setIndex j w v).2.Fine c.build c.epb
    unfold RVec.setIndex
    split
    · exact ⟨nofun, ⟨by show (v.data.set j w).length ≤ v.cap; rw [List.length_set]; exact h.capLen, h.capBound⟩⟩
    · exact ⟨nofun, h⟩
  | resize n w =>
    refine orKeep_fine h ?_
    unfold RVec.resize
    split
    · have := h.capLen
      exact ⟨by show (v.data.take n).length ≤ v.cap; rw [List.length_take]; omega, h.capBound⟩
    · rename_i hn
      have hr := reserve_fine hc h (n - v.len)
      cases hx : v.reserve c.alloc (n - v.len) with
      | ok v' =>
        rw [hx] at hr
        obtain ⟨h1, h2, h3⟩ := hr
        exact ⟨by show (v'.data ++ List.replicate (n - v.len) w).length ≤ v'.cap; rw [h1, List.length_append, List.length_replicate]; exact h2, h3⟩
      | error e => rw [hx] at hr; exact hr
  | extendFromSlice ws =>
    refine orKeep_fine h ?_
    have hr := reserve_fine hc h ws.length
    unfold RVec.extendFromSlice
    cases hx : v.reserve c.alloc ws.length with
    | ok v' =>
      rw [hx] at hr
      obtain ⟨h1, h2, h3⟩ := hr
      exact ⟨by show (v'.data ++ ws).length ≤ v'.cap; rw [h1, List.length_append]; exact h2, h3⟩
    | error e => rw [hx] at hr; exact hr
  | reserve n =>
    refine orKeep_fine h ?_
    have hr := reserve_fine hc h n
    cases hx : v.reserve c.alloc n with
    | ok v' =>
      rw [hx] at hr
      obtain ⟨h1, h2, h3⟩ := hr
      exact ⟨by rw [h1]; omega, h3⟩
    | error e => rw [hx] at hr; exact hr
  | shrinkToFit =>
    refine ⟨nofun, ⟨hc.lawful.shrink_ge _ _ h.capLen, ?_⟩⟩
    have h1 : c.alloc.shrinkTo v.cap v.len ≤ v.cap := hc.bounded.shrink _ _ h.capLen
    have h2 : (c.alloc.shrinkTo v.cap v.len + 1) * c.epb ≤ (v.cap + 1) * c.epb := Nat.mul_le_mul_right _ (by omega)
    exact Nat.lt_of_le_of_lt (Nat.add_le_add_right h2 4) h.capBound

theorem storageOps_fine {strict : Prop} (hc : c.Fits strict) : ∀ (os : List (StorageOp c.W)) {v : RVec c.W}, v.Fine c.build c.epb →
    (StorageOp.runAll c.alloc os v).1 ≠ .error .ub ∧ (StorageOp.runAll c.alloc os v).2.Fine c.build c.epb
  | [], _, h => ⟨nofun, h⟩
  | o :: os, v, h => by
    obtain ⟨h1, h2⟩ := storageOp_fine hc o h
    unfold StorageOp.runAll
    rw [M.bind_apply]
    rcases hx : o.run c.alloc v with ⟨e | b, v'⟩
    · rw [hx] at h1 h2
      exact ⟨fun he => h1 (by cases he; rfl), h2⟩
    · rw [hx] at h2
      exact storageOps_fine hc os h2

theorem uop_safe {strict : Prop} (hc : c.Fits strict) {k : Nat → Mark} {m : Mem c τ} (h : SafeMem c k m) (o : UOp c.W τ α) (hu : o.Use c k m) :
    (ustep c m o).1 ≠ .ub ∧ SafeMem c (umarks c k m o) (ustep c m o).2 := by
  obtain ⟨hk, hd, hs⟩ := hu
  have fin : ∀ {β : Type} (r : Nat) (f : M (EV c.W) β) (out : β → Out α), k r ≠ .dead → (∀ b, out b ≠ .ub) → (f (m.reg r)).1 ≠ .error .ub → Safe c (f (m.reg r)).2 →
      (m.call r f out).1 ≠ .ub ∧ SafeMem c k (m.call r f out).2 := by
    intro β r f out hkr ho h1 h2
    unfold Mem.call
    rcases hx : f (m.reg r) with ⟨e | b, s⟩ <;> rw [hx] at h1 h2
    · exact ⟨Fault.out_ub fun he => h1 (by rw [he]), h.upd1 rfl (Safe.reg h2 hkr)⟩
    · exact ⟨ho b, h.upd1 rfl (Safe.reg h2 hkr)⟩
  cases o with
  | safe op => exact step_safe hc h op hs
  | getRaw r i =>
    refine fin r _ _ (hd r rfl) nofun ?_ ((h r).safe (hd r rfl))
    show rawUnchecked c (m.reg r) i ≠ _
    rw [rawUnchecked_eq hc _ hk]; nofun
  | setRaw r i d =>
    have e := setRawUnchecked_ok hc (m.reg r) d hk
    refine fin r _ _ (hd r rfl) nofun ?_ ?_
    · rw [e]; nofun
    · rw [e]; exact putRaw_safe hc ((h r).safe (hd r rfl)) i d
  | setLen r n =>
    have hsf := (h r).safe (hd r rfl)
    exact fin r _ _ (hd r rfl) nofun nofun ⟨hk, hsf.capLen, hsf.capBound⟩
  | storageMut r ops =>
    have hsf := (h r).safe (hd r rfl)
    obtain ⟨h1, h2⟩ := storageOps_fine hc ops (v := (m.reg r).storage) ⟨hsf.capLen, hsf.capBound⟩
    exact fin r _ _ (hd r rfl) nofun h1 ⟨hk, h2.capLen, h2.capBound⟩

/-- **C53 (partial)** Memory safety of programs that also call the unsafe methods, in any mixture with the safe ones, going on after panics: if every unsafe call keeps the
contract `UOp.Contract` there is no undefined behaviour, whatever numbers are stored, also with an `EnumLike` impl that breaks its contract. Proviso for the safe calls and full claim as for C28. -/
theorem C53_unsafe_partial (hc : c.Sound) (w : τ) (os : List (UOp c.W τ α)) (ha : UAlong c os (fun _ => .clean) (Mem.start c w)) :
    .ub ∉ (urun c os (Mem.start c w)).1 ∧
    ∀ r, umarksAll c os (fun _ => .clean) (Mem.start c w) r ≠ .dead → Safe c ((urun c os (Mem.start c w)).2.reg r) := by
  have key : ∀ (os : List (UOp c.W τ α)) {k : Nat → Mark} {m : Mem c τ}, SafeMem c k m → UAlong c os k m →
      .ub ∉ (urun c os m).1 ∧ SafeMem c (umarksAll c os k m) (urun c os m).2 := by
    intro os
    induction os with
    | nil => intro k m h _; exact ⟨by simp [urun], h⟩
    | cons o os ih =>
      intro k m h ha
      obtain ⟨h1, h2⟩ := uop_safe hc h o ha.1
      obtain ⟨h3, h4⟩ := ih h2 ha.2
      refine ⟨?_, h4⟩
      simp only [urun, List.mem_cons, not_or]
      exact ⟨fun h => h1 h.symm, h3⟩
  obtain ⟨h1, h2⟩ := key os (start_safe hc w) ha
  exact ⟨h1, fun r hr => (h2 r).safe hr⟩

/-- **C53** (the contract is exact). From a well-formed state, an unsafe call keeps the contract exactly if neither it nor any `get` after it is undefined behaviour. -/
theorem C53_contract (hc : c.Sound) {m : Mem c τ} (hm : ∀ r, Safe c (m.reg r)) (o : UOp c.W τ α) {r : Nat} (ho : o.var = some r) :
    o.Contract c m ↔ (ustep c m o).1 ≠ .ub ∧ ∀ i, (EV.get c i ((ustep c m o).2.reg r)).1 ≠ .error .ub := by
  constructor
  · intro hk
    have hu : o.Use c (fun _ => .clean) m := by
      refine ⟨hk, fun _ _ => nofun, ?_⟩
      cases o with
      | safe => cases ho
      | _ => trivial
    obtain ⟨h1, h2⟩ := uop_safe hc (k := fun _ => .clean) (fun r => hm r) o hu
    have hs : Safe c ((ustep c m o).2.reg r) := (h2 r).safe (by cases o <;> first | (cases ho; done) | exact fun h => nomatch h)
    refine ⟨h1, fun i he => ?_⟩
    have := get_keeps hc i _ hs
    unfold SafeRun Runs at this
    rcases hx : EV.get c i ((ustep c m o).2.reg r) with ⟨e | b, s⟩
    · rw [hx] at this he
      cases he
      exact this.1 rfl
    · rw [hx] at he; cases he
  · rintro ⟨h1, h2⟩
    -- reading the last element when there is no storage for it
    have last : ∀ s : EV c.W, (∀ i, (EV.get c i s).1 ≠ .error .ub) → s.num ≤ s.storage.data.length * c.epb := by
      intro s hg
      rcases Nat.lt_or_ge (s.storage.data.length * c.epb) s.num with hlt | hge
      · exfalso
        apply hg (s.storage.data.length * c.epb)
        have hr : getRaw c (s.storage.data.length * c.epb) s = (.error .ub, s) := by
          unfold getRaw
          rw [M.read_bind, if_neg (show ¬ s.storage.data.length * c.epb ≥ len c s from Nat.not_le.mpr hlt)]
          have h2 : getRawUnchecked c (s.storage.data.length * c.epb) s = (.error .ub, s) := Prod.ext (rawUnchecked_ub hc s (Nat.le_refl _)) rfl
          simp only [M.bind_apply, h2]
        unfold EV.get
        simp only [M.bind_apply, hr]
      · exact hge
    have hreg : ∀ {β : Type} (f : M (EV c.W) β) (out : β → Out α), (m.call r f out).2.reg r = (f (m.reg r)).2 := by
      intro β f out
      unfold Mem.call
      rcases f (m.reg r) with ⟨_ | _, s⟩ <;> exact if_pos rfl
    cases o with
    | safe => cases ho
    | getRaw r' i =>
      cases ho
      refine Nat.lt_of_not_le fun hle => h1 ?_
      show (m.call r (getRawUnchecked c i) .num).1 = .ub
      have h2 : getRawUnchecked c i (m.reg r) = (.error .ub, m.reg r) := Prod.ext (rawUnchecked_ub hc _ hle) rfl
      unfold Mem.call
      rw [h2]; rfl
    | setRaw r' i d =>
      cases ho
      refine Nat.lt_of_not_le fun hle => h1 ?_
      have hlt : (m.reg r).storage.data.length ≤ i / c.epb := (Nat.le_div_iff_mul_le hc.epb_pos).mpr hle
      have h2 : setRawUnchecked c i d (m.reg r) = (.error .ub, m.reg r) := by
        unfold setRawUnchecked blockIndex
        simp only [List.getElem?_eq_none hlt]
      show (m.call r (setRawUnchecked c i d) _).1 = .ub
      unfold Mem.call
      rw [h2]; rfl
    | setLen r' n =>
      cases ho
      have := last _ h2
      have e : (ustep c m (.setLen r n : UOp c.W τ α)).2.reg r = { m.reg r with num := n } := hreg _ _
      rw [e] at this
      exact this
    | storageMut r' ops =>
      cases ho
      have := last _ h2
      have e : (ustep c m (.storageMut r ops : UOp c.W τ α)).2.reg r = { m.reg r with storage := (StorageOp.runAll c.alloc ops (m.reg r).storage).2 } := hreg _ _
      rw [e] at this
      exact this

/-! ## A non-trivial case: bulk append through the raw API, garbage written by hand, a shrunk and a grown storage, a refused index, and safe calls in between. -/

def unsafeHistory : List (UOp c8.W Nat (Fin 8)) :=
  [.safe (.fromVec 0 (List.replicate 12 7)), .getRaw 0 19, .setRaw 0 15 3, .setRaw 0 14 1000, .setLen 0 20, .safe (.toVec 0), .storageMut 0 [.push 0xdeadbeef#32, .set 1 5#32, .set 9 0#32, .truncate 0],
   .setLen 0 25, .safe (.toVec 0), .safe (.insert 0 3 1), .safe (.append 1 0), .safe (.clear 0), .storageMut 1 [.truncate 3, .shrinkToFit, .resize 5 1#32], .setLen 1 3, .safe (.toVec 1)]

example : UAlong c8 unsafeHistory (fun _ => .clean) (Mem.start c8 0) := by decide +kernel

example : (urun c8 unsafeHistory (Mem.start c8 0)).1.length = 15 ∧ .panic ∈ (urun c8 unsafeHistory (Mem.start c8 0)).1 := by decide +kernel

/-- A call outside the contract. -/
example : (urun c8 ([.safe (.fromVec 0 (List.replicate 12 7)), .setLen 0 21, .safe (.get 0 20)] : List (UOp c8.W Nat (Fin 8))) (Mem.start c8 0)).1 = [.unit, .unit, .ub] := by decide +kernel

end EnumVecModel
