import Verif.Lemmas.Caps
import Verif.Lemmas.Recover
import Verif.InlineSpec

set_option linter.unusedSectionVars false

/-! # Capacities along histories, and histories that fit in the initial capacity -/

namespace EnumVecModel
open EV

variable {α τ : Type} {c : Inst α}

/-! ### one call -/

/-- The variables that a call overwrites by a new vector. -/
def Op.assigns : Op τ α → List Nat
  | .new r | .withCapacity r _ | .fromElem r _ _ | .fromVec r _ | .fromSlice r _ | .fromIter r _ | .clone r _ => [r]
  | .splitOff _ _ d => [d]
  | _ => []

/-- Calls that may grow a vector. -/
def Op.grows : Op τ α → Bool
  | .fromElem _ _ _ | .fromVec _ _ | .fromSlice _ _ | .fromIter _ _ | .push _ _ | .insert _ _ _ | .resize _ _ _ | .reserve _ _
  | .extend _ _ | .append _ _ => true
  | _ => false

section
variable {R : Nat → Nat → Prop} (hR : CapRel R) {m : Mem c τ}
include hR

omit hR in
theorem assign_other (m : Mem c τ) {r q : Nat} (h : q ≠ r) (v : Except Fault (EV c.W)) : (m.assign r v).2.reg q = m.reg q := by
  unfold Mem.assign
  cases v
  · rfl
  · exact upd_ne _ _ h

theorem call_cap {β : Type} (m : Mem c τ) (r q : Nat) {f : M (EV c.W) β} (out : β → Out α) (h : Caps R f) :
    R (m.reg q).storage.cap ((m.call r f out).2.reg q).storage.cap := by
  have := h (m.reg r)
  unfold Mem.call
  by_cases hq : q = r
  · subst hq
    rcases hx : f (m.reg q) with ⟨_ | _, s⟩ <;> rw [hx] at this <;> simp only [upd_same] <;> exact this
  · rcases hx : f (m.reg r) with ⟨_ | _, s⟩ <;> simp only [upd_ne _ _ hq] <;> exact hR.refl _

theorem callW_cap (m : Mem c τ) (r q : Nat) {f : M (EV c.W × τ) Unit} (h : CapsOf cap1 R f) :
    R (m.reg q).storage.cap ((m.callW r f).2.reg q).storage.cap := by
  have := h (m.reg r, m.world)
  unfold Mem.callW
  by_cases hq : q = r
  · subst hq
    rcases hx : f (m.reg q, m.world) with ⟨_ | _, s⟩ <;> rw [hx] at this <;> simp only [upd_same] <;> exact this
  · rcases hx : f (m.reg r, m.world) with ⟨_ | _, s⟩ <;> simp only [upd_ne _ _ hq] <;> exact hR.refl _

theorem ask_cap {β : Type} (m : Mem c τ) (q : Nat) (v : Except Fault β) (out : β → Out α) :
    R (m.reg q).storage.cap ((m.ask v out).2.reg q).storage.cap := by
  unfold Mem.ask
  cases v <;> exact hR.refl _

/-- A call changes the capacities of the variables it does not assign or shrink only by growing. -/
theorem step_cap (m : Mem c τ) (op : Op τ α) (hg : op.grows = true → Grows c.alloc R) (q : Nat) (h1 : q ∉ op.assigns) (h2 : op ≠ .shrinkToFit q) :
    R (m.reg q).storage.cap ((step c m op).2.reg q).storage.cap := by
  cases op with
  | new r => simp only [step, assign_other m (show q ≠ r by simpa [Op.assigns] using h1)]; exact hR.refl _
  | withCapacity r n => simp only [step, assign_other m (show q ≠ r by simpa [Op.assigns] using h1)]; exact hR.refl _
  | fromElem r x n => simp only [step, assign_other m (show q ≠ r by simpa [Op.assigns] using h1)]; exact hR.refl _
  | fromVec r xs => simp only [step, assign_other m (show q ≠ r by simpa [Op.assigns] using h1)]; exact hR.refl _
  | fromSlice r xs => simp only [step, assign_other m (show q ≠ r by simpa [Op.assigns] using h1)]; exact hR.refl _
  | fromIter r it => simp only [step, assign_other m (show q ≠ r by simpa [Op.assigns] using h1)]; exact hR.refl _
  | clone r src => simp only [step, assign_other m (show q ≠ r by simpa [Op.assigns] using h1)]; exact hR.refl _
  | len r => exact hR.refl _
  | isEmpty r => exact hR.refl _
  | get r i => exact call_cap hR m r q _ (get_caps c hR i)
  | set r i x => exact call_cap hR m r q _ (set_caps c hR i x)
  | push r x => exact call_cap hR m r q _ (push_caps hR (hg rfl) x)
  | pop r => exact call_cap hR m r q _ (pop_caps c hR)
  | insert r i x => exact call_cap hR m r q _ (insert_caps hR (hg rfl) i x)
  | remove r i => exact call_cap hR m r q _ (remove_caps c hR i)
  | swap r i j => exact call_cap hR m r q _ (swap_caps c hR i j)
  | swapRemove r i => exact call_cap hR m r q _ (swapRemove_caps c hR i)
  | truncate r n => exact call_cap hR m r q _ (truncate_caps c hR n)
  | clear r => exact call_cap hR m r q _ (clear_caps c hR)
  | resize r n x => exact call_cap hR m r q _ (resize_caps hR (hg rfl) n x)
  | reserve r n => exact call_cap hR m r q _ (reserve_caps hR (hg rfl) n)
  | shrinkToFit r =>
    have hq : q ≠ r := fun h => h2 (by rw [h])
    simp only [step, Mem.call]
    rcases EV.shrinkToFit c (m.reg r) with ⟨_ | _, s⟩ <;> simp only [upd_ne _ _ hq] <;> exact hR.refl _
  | extend r it => exact call_cap hR m r q _ (extend_caps hR (hg rfl) it)
  | append r o =>
    have g1 := append_cap1 hR (hg rfl) (m.reg r, m.reg o)
    have g2 := append_cap2 (c := c) hR (m.reg r, m.reg o)
    have key : ∀ p : EV c.W × EV c.W, R (cap1 (m.reg r, m.reg o)) (cap1 p) → R (cap2 (m.reg r, m.reg o)) (cap2 p) →
        R (m.reg q).storage.cap (upd (upd m.reg r p.1) o p.2 q).storage.cap := by
      intro p a1 a2
      by_cases ho : q = o
      · subst ho; rw [upd_same]; exact a2
      · rw [upd_ne _ _ ho]
        by_cases hr : q = r
        · subst hr; rw [upd_same]; exact a1
        · rw [upd_ne _ _ hr]; exact hR.refl _
    simp only [step]
    rcases hx : EV.append c (m.reg r, m.reg o) with ⟨_ | _, p⟩ <;> rw [hx] at g1 g2 <;> exact key p g1 g2
  | splitOff r at_ d =>
    have g := splitOff_caps (c := c) hR at_ (m.reg r)
    have hd : q ≠ d := by simpa [Op.assigns] using h1
    have key : ∀ s : EV c.W, R (m.reg r).storage.cap s.storage.cap → R (m.reg q).storage.cap (upd m.reg r s q).storage.cap := by
      intro s hs
      by_cases hr : q = r
      · subst hr; rw [upd_same]; exact hs
      · rw [upd_ne _ _ hr]; exact hR.refl _
    simp only [step]
    rcases hx : EV.splitOff c at_ (m.reg r) with ⟨_ | _, s⟩ <;> rw [hx] at g
    · exact key s g
    · simp only [upd_ne _ _ hd]; exact key s g
  | retain r f => exact callW_cap hR m r q (retain_caps c hR f)
  | forEach r f => exact callW_cap hR m r q (forEach_caps c hR f)
  | eq r o => exact ask_cap hR m q _ _
  | any r x => exact call_cap hR m r q _ (any_caps c hR x)
  | all r x => exact call_cap hR m r q _ (all_caps c hR x)
  | toVec r => exact ask_cap hR m q _ _
  | iterate r calls => exact ask_cap hR m q _ _
  | hash r => exact ask_cap hR m q _ _

end

/-! ### allocators used to show that the allocator does not matter -/

/-- Never grows. -/
def Alloc.refuser (a : Alloc) : Alloc := { a with grow := fun _ _ => none }

/-- Grows up to `F` blocks. -/
def Alloc.granter (a : Alloc) (F : Nat) : Alloc := { a with grow := fun _ n => if n ≤ F then some F else none }

theorem refuser_grows (a : Alloc) : Grows a.refuser (· = ·) := fun _ _ _ _ h => nomatch h

theorem granter_lawful {a : Alloc} (h : a.Lawful) (F : Nat) : (a.granter F).Lawful :=
  ⟨h.exact_ge, fun cap n k hk => by
    simp only [Alloc.granter] at hk
    split at hk
    · cases hk; assumption
    · (cases hk), h.shrink_ge⟩

theorem granter_bounded {a : Alloc} {B : Build} {n F : Nat} (h : a.Bounded B n) (hF : (F + 1) * n + 4 < B.usizeLim) : (a.granter F).Bounded B n :=
  ⟨h.fresh, h.exact, fun cap n k hk => by
    simp only [Alloc.granter] at hk
    split at hk
    · cases hk; exact hF
    · (cases hk), h.shrink⟩

theorem refuser_lawful {a : Alloc} (h : a.Lawful) : a.refuser.Lawful := ⟨h.exact_ge, nofun, h.shrink_ge⟩

theorem refuser_bounded {a : Alloc} {B : Build} {n : Nat} (h : a.Bounded B n) : a.refuser.Bounded B n := ⟨h.fresh, h.exact, nofun, h.shrink⟩

/-! ### more calls that do not depend on the allocator -/

section
variable (hc : c.Ok)
include hc

omit hc in
theorem appendStep_wa (a : Alloc) (n : Nat) : appendStep (c.withAlloc a) n = appendStep c n := by
  funext i u
  unfold appendStep
  simp only [getRawUnchecked_wa, setRawUnchecked_wa]

theorem append_indep {s o : EV c.W} {l m : List α} (h : Holds c s l) (ho : Holds c o m) (hcap : l.length + m.length < capacity c s)
    (a : Alloc) : append (c.withAlloc a) (s, o) = append c (s, o) := by
  have hl := h.len_eq
  have hm := ho.len_eq
  have hep := hc.epb_pos
  have e0 : len c s % c.epb = l.length % c.epb := by rw [show len c s = l.length from hl]
  unfold append
  rw [M.read_bind, M.read_bind]
  by_cases hal : l.length % c.epb = 0
  · rw [if_pos (show len c (s, o).1 % c.epb = 0 from e0.trans hal), if_pos (show len (c.withAlloc a) (s, o).1 % (c.withAlloc a).epb = 0 from e0.trans hal)]
    obtain ⟨s1, a1, a2, a3, a4, a5, a6⟩ := fixStorage_safe hc h.toSafe
    obtain ⟨o1, b1, b2, b3, b4, b5, b6⟩ := fixStorage_safe hc ho.toSafe
    have hfit : s1.storage.len + o1.storage.data.length ≤ s1.storage.cap := by
      have h1 := (lt_capacity_iff hc h.toSafe _).mp hcap
      have e : (l.length + m.length) / c.epb = l.length / c.epb + m.length / c.epb := by
        have hdm := Nat.div_add_mod l.length c.epb
        conv => lhs; rw [show l.length = c.epb * (l.length / c.epb) by omega]
        rw [Nat.mul_add_div hep]
      have h2 := blocks_le_div hc m.length
      show s1.storage.data.length + _ ≤ _
      rw [a5, b5, hl, hm, blocks_of_dvd hc hal, a4]
      omega
    have happ : appendStorage (c.withAlloc a) (s1, o1) = appendStorage c (s1, o1) := by
      have hx : ∀ b : Alloc, RVec.extendFromSlice b s1.storage o1.storage.data =
          .ok { s1.storage with data := s1.storage.data ++ o1.storage.data } := fun b => by
        unfold RVec.extendFromSlice RVec.reserve; rw [if_pos hfit]
      unfold appendStorage
      simp only [hx]
      rfl
    rw [M.bind_ok (onFst_eq a1 o), M.bind_ok (onSnd_eq b1 s1)]
    rw [M.bind_ok (onFst_eq (show fixStorage (c.withAlloc a) s = _ from a1) o),
      M.bind_ok (onSnd_eq (show fixStorage (c.withAlloc a) o = _ from b1) s1)]
    rw [M.bind_apply, M.bind_apply, happ]
    rfl
  · rw [if_neg (show ¬ len c (s, o).1 % c.epb = 0 from fun h => hal (e0.symm.trans h)),
      if_neg (show ¬ len (c.withAlloc a) (s, o).1 % (c.withAlloc a).epb = 0 from fun h => hal (e0.symm.trans h))]
    have hres := reserve_indep hc h.toSafe (k := o.num) (by rw [hl, hm]; exact hcap) a
    have hres' : (onFst (reserve (c.withAlloc a) (len (c.withAlloc a) (s, o).2)) : M (EV c.W × EV c.W) Unit) (s, o) =
        onFst (reserve c (len c (s, o).2)) (s, o) := by
      unfold onFst
      show ((reserve (c.withAlloc a) o.num s).1, (reserve (c.withAlloc a) o.num s).2, _) = _
      rw [hres]
      rfl
    rw [M.bind_apply, M.bind_apply, hres', appendStep_wa]
    rfl

/-- The allocator the call is made with does not matter. -/
def Indep (c : Inst α) (m : Mem c τ) (op : Op τ α) : Prop := ∀ g : Nat → Nat → Option Nat, stepWith c m { c.alloc with grow := g } op = step c m op

omit hc in
theorem indep_call {β : Type} {op : Op τ α} (m : Mem c τ) (r : Nat) (f : (d : Inst α) → M (EV d.W) β) (out : β → Out α)
    (h1 : ∀ (d : Inst α) (m : Mem d τ), step d m op = m.call r (f d) out)
    (h2 : ∀ a, f (c.withAlloc a) (m.reg r) = f c (m.reg r)) : Indep c m op := fun g => by
  unfold stepWith
  rw [h1, h1]
  have := h2 { c.alloc with grow := g }
  unfold Mem.call
  dsimp only
  rw [this]
  rcases f c (m.reg r) with ⟨_ | _, s⟩ <;> rfl

omit hc in
theorem indep_assign {op : Op τ α} (m : Mem c τ) (r : Nat) (f : (d : Inst α) → Except Fault (EV d.W))
    (h1 : ∀ (d : Inst α) (m : Mem d τ), step d m op = m.assign r (f d))
    (h2 : ∀ g : Nat → Nat → Option Nat, f (c.withAlloc { c.alloc with grow := g }) = f c) : Indep c m op := fun g => by
  unfold stepWith
  rw [h1, h1]
  have := h2 g
  dsimp only
  rw [this]
  unfold Mem.assign
  rcases f c with _ | s <;> rfl

theorem extendNew_indep (it : Src α) (hh : it.hint ≤ it.items.length) (hcap : it.items.length < c.alloc.fresh * c.epb)
    (g : Nat → Nat → Option Nat) : fromIter (c.withAlloc { c.alloc with grow := g }) it = fromIter c it := by
  have e : capacity c (EV.new c) = c.alloc.fresh * c.epb := capacity_eq hc (new_holds hc).toSafe
  have := extend_indep hc it (new_holds hc) hh (by rw [e]; simp; omega) (by rw [e]; simp; omega) { c.alloc with grow := g }
  unfold fromIter build
  have h2 : EV.new (c.withAlloc { c.alloc with grow := g }) = EV.new c := rfl
  rw [h2]
  rw [this]
  rcases extend c it (EV.new c) with ⟨_ | _, s⟩ <;> rfl

theorem extendWithValue_small (x : α) {n : Nat} (hn : n ≤ 4 * c.epb) : extendWithValue c x n = extend c (repeatTake x n) := by
  unfold extendWithValue; rw [if_pos hn]

variable [DecidableEq α] {k : Nat → Mark} {m : Mem c τ} {v : Vecs α τ} {F : Nat}

theorem fits_indep (h : Sim c k m v) (hF : c.alloc.fresh = F) (hcap : ∀ r, (m.reg r).storage.cap = F) (op : Op τ α)
    (ha : Allowed c k v op) (hf : FitsIn c (F * c.epb) v op) (hgr : op.grows = true) : Indep c m op := by
  obtain ⟨hb, hd, ha'⟩ := id ha
  have hh : ∀ r, op.revives = false → r ∈ op.uses → Holds c (m.reg r) (v.reg r) := fun r h1 h2 => (h.reg r).holds (hd h1 r h2)
  have hC : ∀ r, Holds c (m.reg r) (v.reg r) → capacity c (m.reg r) = F * c.epb := fun r hr => by
    rw [capacity_eq hc hr.toSafe, hcap]
  cases op with
  | fromElem r x n =>
    obtain ⟨f1, f2⟩ := hf
    refine indep_assign m r (fun d => EV.fromElem d x n) (fun _ _ => rfl) fun g => ?_
    have := extendNew_indep hc (repeatTake x n) (by simp [repeatTake]) (by simp [repeatTake, hF]; exact f1) g
    unfold fromElem
    rw [extendWithValue_small hc x f2]
    have e2 : extendWithValue (c.withAlloc { c.alloc with grow := g }) x n = extend (c.withAlloc { c.alloc with grow := g }) (repeatTake x n) := by
      unfold extendWithValue; rw [if_pos (show n ≤ 4 * (c.withAlloc { c.alloc with grow := g }).epb from f2)]
    rw [e2]
    exact this
  | fromVec r xs =>
    exact indep_assign m r (fun d => EV.fromVec d xs) (fun _ _ => rfl) fun g =>
      extendNew_indep hc ⟨xs.length, xs, false⟩ (Nat.le_refl _) (by rw [hF]; exact hf) g
  | fromSlice r xs =>
    exact indep_assign m r (fun d => EV.fromSlice d xs) (fun _ _ => rfl) fun g =>
      extendNew_indep hc ⟨xs.length, xs, false⟩ (Nat.le_refl _) (by rw [hF]; exact hf) g
  | fromIter r it =>
    exact indep_assign m r (fun d => EV.fromIter d it) (fun _ _ => rfl) fun g =>
      extendNew_indep hc it (show _ ∧ _ from ha').1 (by rw [hF]; exact hf) g
  | push r x =>
    have hr := hh r rfl (by simp [Op.uses])
    exact indep_call m r (fun d => EV.push d x) _ (fun _ _ => rfl) fun a =>
      push_indep hc hr.toSafe (by rw [hC r hr, hr.len_eq]; exact hf) x a
  | insert r i x =>
    have hr := hh r rfl (by simp [Op.uses])
    exact indep_call m r (fun d => EV.insert d i x) _ (fun _ _ => rfl) fun a =>
      insert_indep hc hr.toSafe (by rw [hC r hr, hr.len_eq]; exact hf) i x a
  | resize r n x =>
    have hr := hh r rfl (by simp [Op.uses])
    obtain ⟨f1, f2⟩ := hf
    have hl : len c (m.reg r) = (v.reg r).length := hr.len_eq
    refine indep_call m r (fun d => EV.resize d n x) _ (fun _ _ => rfl) fun a => ?_
    unfold EV.resize
    rw [M.read_bind, M.read_bind]
    by_cases hn : n > len c (m.reg r)
    · rw [if_pos hn, if_pos (show n > len (c.withAlloc a) (m.reg r) from hn), extendWithValue_small hc x (by omega)]
      have e2 : extendWithValue (c.withAlloc a) x (n - len (c.withAlloc a) (m.reg r)) =
          extend (c.withAlloc a) (repeatTake x (n - len (c.withAlloc a) (m.reg r))) := by
        unfold extendWithValue
        rw [if_pos (show n - len (c.withAlloc a) (m.reg r) ≤ 4 * (c.withAlloc a).epb by
          show n - len c (m.reg r) ≤ 4 * c.epb; omega)]
      rw [e2]
      exact extend_indep hc (repeatTake x (n - len c (m.reg r))) hr (by simp [repeatTake]) (by rw [hC r hr]; simp only [repeatTake]; omega)
        (by rw [hC r hr]; simp only [repeatTake, List.length_replicate]; omega) a
    · rw [if_neg hn, if_neg (show ¬ n > len (c.withAlloc a) (m.reg r) from hn)]
      rfl
  | reserve r n =>
    have hr := hh r rfl (by simp [Op.uses])
    exact indep_call m r (fun d => EV.reserve d n) _ (fun _ _ => rfl) fun a =>
      reserve_indep hc hr.toSafe (by rw [hC r hr, hr.len_eq]; exact hf) a
  | extend r it =>
    have hr := hh r rfl (by simp [Op.uses])
    have ha' : it.hint ≤ it.items.length := (show _ ∧ _ from ha').1
    have hf : (v.reg r).length + it.items.length < F * c.epb := hf
    exact indep_call m r (fun d => EV.extend d it) _ (fun _ _ => rfl) fun a =>
      extend_indep hc it hr ha' (by rw [hC r hr]; omega) (by rw [hC r hr]; omega) a
  | append r o =>
    have hr := hh r rfl (by simp [Op.uses])
    have ho := hh o rfl (by simp [Op.uses])
    intro g
    have := append_indep hc hr ho (by rw [hC r hr]; exact hf) { c.alloc with grow := g }
    unfold stepWith
    simp only [step]
    rw [this]
    rcases append c (m.reg r, m.reg o) with ⟨_ | _, p⟩ <;> rfl
  | _ => cases hgr

/-- A call that fits does not fail for lack of memory. -/
theorem fits_not_oom (h : Sim c k m v) (hin : c.alloc.Inline F) (hcap : ∀ r, (m.reg r).storage.cap = F) (op : Op τ α)
    (ha : Allowed c k v op) (hf : FitsIn c (F * c.epb) v op) : (step c m op).1 ≠ .oom := by
  have hep := hc.epb_pos
  have hFb : (F + 1) * c.epb + 4 < c.build.usizeLim := by rw [← hin.fresh]; exact hc.bounded.fresh
  have hh : ∀ r, op.revives = false → r ∈ op.uses → Holds c (m.reg r) (v.reg r) := fun r h1 h2 => (h.reg r).holds (ha.2.1 h1 r h2)
  by_cases hgr : op.grows = true
  · have hi := fits_indep hc h hin.fresh hcap op ha hf hgr (c.alloc.granter F).grow
    have hc' : (c.withAlloc (c.alloc.granter F)).Ok := hc.withAlloc (granter_lawful hc.lawful F) (granter_bounded hc.bounded hFb)
    have hno : ∀ n, n ≤ F → ¬ Refused (c.withAlloc (c.alloc.granter F)) n := by
      rintro n hn (h1 | ⟨cap, k, h1, h2, h3⟩)
      · have h4 : n * c.epb ≤ (F + 1) * c.epb := Nat.mul_le_mul_right _ (by omega)
        have h6 : c.build.usizeLim ≤ n * c.epb := h1
        omega
      · have : (if k ≤ F then some F else none) = none := h3
        rw [if_pos (by omega)] at this; cases this
    have hdiv : ∀ n, n < F * c.epb → n / c.epb + 1 ≤ F := fun n hn => (Nat.div_lt_iff_lt_mul hep).mpr hn
    have hlen : ∀ r, op.revives = false → r ∈ op.uses → len c (m.reg r) = (v.reg r).length := fun r h1 h2 => (hh r h1 h2).len_eq
    rcases step_ok hc' (h.withAlloc _) op ha with ⟨-, h2⟩ | ⟨-, h2, -⟩
    · exfalso
      cases op with
      | fromElem r x n =>
        rcases h2 with h2 | h2
        · exact hno _ (hdiv _ (by simpa using hf.1)) h2
        · have := hf.2; have h3 : 4 * c.epb < n := h2.1; omega
      | fromVec r xs => exact hno _ (hdiv _ hf) h2
      | fromSlice r xs => exact hno _ (hdiv _ hf) h2
      | fromIter r it =>
        have h3 : it.hint ≤ it.items.length := (show _ ∧ _ from ha.2.2).1
        refine hno _ (hdiv _ ?_) h2
        rw [Nat.max_eq_right h3]; exact hf
      | push r x =>
        have hl := hlen r rfl (by simp [Op.uses])
        refine hno _ ?_ h2
        show c.blocks (len c (m.reg r) + 1) ≤ F
        rw [blocks_succ hc, hl]; exact hdiv _ hf
      | insert r i x =>
        have hl := hlen r rfl (by simp [Op.uses])
        refine hno _ ?_ h2
        show c.blocks (len c (m.reg r) + 1) ≤ F
        rw [blocks_succ hc, hl]; exact hdiv _ hf
      | resize r n x =>
        have hl := hlen r rfl (by simp [Op.uses])
        obtain ⟨h1, h2⟩ := h2
        have h1 : len c (m.reg r) < n := h1
        rcases h2 with h2 | h2
        · refine hno _ (hdiv _ ?_) h2
          show len c (m.reg r) + (n - len c (m.reg r)) < _
          have := hf.1; omega
        · have := hf.2
          have h3 : 4 * c.epb < n - len c (m.reg r) := h2.1
          omega
      | reserve r n =>
        have hl := hlen r rfl (by simp [Op.uses])
        refine hno _ (hdiv _ ?_) h2
        show len c (m.reg r) + n < _
        rw [hl]; exact hf
      | extend r it =>
        have hl := hlen r rfl (by simp [Op.uses])
        have h3 : it.hint ≤ it.items.length := (show _ ∧ _ from ha.2.2).1
        refine hno _ (hdiv _ ?_) h2
        show len c (m.reg r) + max it.hint it.items.length < _
        rw [hl, Nat.max_eq_right h3]; exact hf
      | append r o =>
        have hl := hlen r rfl (by simp [Op.uses])
        have hl2 := hlen o rfl (by simp [Op.uses])
        refine hno _ (hdiv _ ?_) h2
        show len c (m.reg r) + len c (m.reg o) < _
        rw [hl, hl2]; exact hf
      | _ => cases hgr
    · rw [← hi]; exact h2
  · rcases step_ok hc h op ha with ⟨-, h2⟩ | ⟨-, h2, -⟩
    · exfalso
      cases op with
      | withCapacity r n =>
        obtain ⟨k, h3, h4⟩ := h2
        have : c.blocks n ≤ F := by
          have hf : n ≤ F * c.epb := hf
          unfold Inst.blocks
          refine Nat.le_of_lt_succ ((Nat.div_lt_iff_lt_mul hep).mpr ?_)
          rw [Nat.succ_mul]; omega
        rw [hin.exact k (by omega)] at h4; cases h4
      | clone r src =>
        have hs := hh src rfl (by simp [Op.uses])
        have := hs.capLen
        rw [hcap] at this
        have h2 : c.alloc.exact (m.reg src).storage.data.length = none := h2
        rw [hin.exact _ this] at h2; cases h2
      | splitOff r i d =>
        have h2 : c.alloc.exact 0 = none := h2
        rw [hin.exact 0 (Nat.zero_le _)] at h2; cases h2
      | _ => first | exact h2 | exact hgr rfl
    · exact h2

omit hc [DecidableEq α] in
theorem build_cap {d : Inst α} {f : M (EV d.W) Unit} (hf : Caps (· = ·) f) {s s' : EV d.W} (h : build d s f = .ok s') :
    s'.storage.cap = s.storage.cap := by
  have := hf s
  unfold build at h
  rcases hx : f s with ⟨_ | _, t⟩ <;> rw [hx] at h this
  · cases h
  · cases h; exact this.symm

omit hc [DecidableEq α] in
theorem assign_cap {d : Inst α} {m : Mem d τ} {r : Nat} {e : Except Fault (EV d.W)} {F : Nat} (hm : (m.reg r).storage.cap = F)
    (he : ∀ s, e = .ok s → s.storage.cap = F) : ((m.assign r e).2.reg r).storage.cap = F := by
  unfold Mem.assign
  cases e with
  | error _ => exact hm
  | ok s => simp only [upd_same]; exact he s rfl

/-- A call that fits leaves the capacities. -/
theorem fits_cap (h : Sim c k m v) (hin : c.alloc.Inline F) (hcap : ∀ r, (m.reg r).storage.cap = F) (op : Op τ α)
    (ha : Allowed c k v op) (hf : FitsIn c (F * c.epb) v op) (q : Nat) : ((step c m op).2.reg q).storage.cap = F := by
  have hep := hc.epb_pos
  have hh : ∀ r, op.revives = false → r ∈ op.uses → Holds c (m.reg r) (v.reg r) := fun r h1 h2 => (h.reg r).holds (ha.2.1 h1 r h2)
  by_cases hgr : op.grows = true
  · have hi := fits_indep hc h hin.fresh hcap op ha hf hgr c.alloc.refuser.grow
    rw [← hi]
    by_cases hq : q ∈ op.assigns
    · have e0 : (EV.new (c.withAlloc c.alloc.refuser)).storage.cap = F := hin.fresh
      have gr : Grows (c.withAlloc c.alloc.refuser).alloc (· = ·) := refuser_grows c.alloc
      show ((step (c.withAlloc c.alloc.refuser) ⟨m.reg, m.world⟩ op).2.reg q).storage.cap = F
      cases op with
      | fromElem r x n =>
        have : q = r := by simpa [Op.assigns] using hq
        subst this
        simp only [step]
        exact assign_cap (d := c.withAlloc c.alloc.refuser) (m := ⟨m.reg, m.world⟩) (e := EV.fromElem _ x n) (hcap q) fun s hs => (build_cap (extendWithValue_caps capRel_eq gr x n) hs).trans e0
      | fromVec r xs =>
        have : q = r := by simpa [Op.assigns] using hq
        subst this
        simp only [step]
        exact assign_cap (d := c.withAlloc c.alloc.refuser) (m := ⟨m.reg, m.world⟩) (e := EV.fromVec _ xs) (hcap q) fun s hs => (build_cap (extend_caps capRel_eq gr _) hs).trans e0
      | fromSlice r xs =>
        have : q = r := by simpa [Op.assigns] using hq
        subst this
        simp only [step]
        exact assign_cap (d := c.withAlloc c.alloc.refuser) (m := ⟨m.reg, m.world⟩) (e := EV.fromSlice _ xs) (hcap q) fun s hs => (build_cap (extend_caps capRel_eq gr _) hs).trans e0
      | fromIter r it =>
        have : q = r := by simpa [Op.assigns] using hq
        subst this
        simp only [step]
        exact assign_cap (d := c.withAlloc c.alloc.refuser) (m := ⟨m.reg, m.world⟩) (e := EV.fromIter _ it) (hcap q) fun s hs => (build_cap (extend_caps capRel_eq gr _) hs).trans e0
      | _ => first | (cases hq; done) | cases hgr
    · have := step_cap (c := c.withAlloc c.alloc.refuser) capRel_eq ⟨m.reg, m.world⟩ op (fun _ => refuser_grows c.alloc) q hq
        (by rintro rfl; cases hgr)
      exact this.symm.trans (hcap q)
  · by_cases hq : q ∈ op.assigns
    · cases op with
      | new r =>
        have : q = r := by simpa [Op.assigns] using hq
        subst this
        exact assign_cap (hcap q) fun s hs => by cases hs; exact hin.fresh
      | withCapacity r n =>
        have : q = r := by simpa [Op.assigns] using hq
        subst this
        refine assign_cap (hcap q) fun s hs => ?_
        have hn : blocksForElements c n ≤ F := by
          have hf : n ≤ F * c.epb := hf
          have h1 : blocksForElements c n ≤ (n + c.epb - 1) / c.epb := by
            unfold blocksForElements satAdd
            exact Nat.div_le_div_right (by omega)
          refine Nat.le_trans h1 (Nat.le_of_lt_succ ((Nat.div_lt_iff_lt_mul hep).mpr ?_))
          rw [Nat.succ_mul]; omega
        unfold EV.withCapacity RVec.withCapacity at hs
        rw [hin.exact _ hn] at hs
        cases hs; rfl
      | clone r src =>
        have : q = r := by simpa [Op.assigns] using hq
        subst this
        refine assign_cap (hcap q) fun s hs => ?_
        have hs' := (hh src rfl (by simp [Op.uses])).capLen
        rw [hcap] at hs'
        unfold EV.clone RVec.clone RVec.len at hs
        rw [hin.exact _ hs'] at hs
        cases hs; rfl
      | splitOff r i d =>
        have : q = d := by simpa [Op.assigns] using hq
        subst this
        have hr := hh r rfl (by simp [Op.uses])
        have ha : (v.reg r).length ≤ i := ha.2.2
        simp only [step]
        by_cases hi : i = (v.reg r).length
        · subst hi
          have hw : EV.withCapacity c 0 = .ok ⟨⟨[], F⟩, 0⟩ := by
            unfold EV.withCapacity RVec.withCapacity
            rw [hin.exact _ (show blocksForElements c 0 ≤ F by
              have : blocksForElements c 0 = 0 := by
                unfold blocksForElements satAdd
                exact Nat.div_eq_of_lt (by omega)
              omega)]
          have hl : len c (m.reg r) = (v.reg r).length := hr.len_eq
          have hx : EV.splitOff c (v.reg r).length (m.reg r) = (.ok ⟨⟨[], F⟩, 0⟩, { m.reg r with num := (v.reg r).length }) := by
            unfold EV.splitOff
            simp only [hl, Nat.le_refl, if_true, Nat.sub_self, hw]
            rfl
          rw [hx]
          simp only [upd_same]
        · have hx := splitOff_oob hc (m.reg r) (show (m.reg r).num < i by rw [hr.len_eq]; omega)
          rw [hx]
          simp only
          by_cases hqr : q = r
          · subst hqr; rw [upd_same]; exact hcap q
          · rw [upd_ne _ _ hqr]; exact hcap q
      | _ => first | (cases hq; done) | exact absurd rfl hgr
    · by_cases hsh : op = .shrinkToFit q
      · subst hsh
        have hr := hh q rfl (by simp [Op.uses])
        obtain ⟨s', h1, h2, -, -, h5, h6⟩ := shrinkToFit_holds hc hr
        simp only [step]
        rw [call_ok hc m q _ h1]
        simp only [upd_same]
        rw [h6, hcap]
        refine hin.shrink _ ?_
        have h7 := hr.capLen
        have h8 := hr.toSafe.blocks_le hc
        rw [hcap] at h7
        rw [hr.len_eq] at h8
        omega
      · have := step_cap capRel_eq m op (fun h => absurd h hgr) q hq hsh
        exact this.symm.trans (hcap q)

end
end EnumVecModel
