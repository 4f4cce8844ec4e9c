import Verif.Lemmas.SafeHistory

set_option linter.unusedSectionVars false

/-! # Validity of discriminants along a history -/

namespace EnumVecModel
open EV

variable {α τ : Type} {c : Inst α}

/-- What a mark says about the discriminants. -/
def ValidReg (c : Inst α) (s : EV c.W) : Mark → Prop
  | .clean => Safe c s ∧ Valid c s ∧ Clean c s
  | .dirty => Safe c s ∧ Valid c s
  | .dead => s.storage.data = [] ∧ (s.storage.cap + 1) * c.epb + 4 < c.build.usizeLim

theorem ValidReg.live {s : EV c.W} {k : Mark} (h : ValidReg c s k) (hk : k ≠ .dead) : Safe c s ∧ Valid c s := by
  cases k with
  | clean => exact ⟨h.1, h.2.1⟩
  | dirty => exact h
  | dead => exact absurd rfl hk

theorem ValidReg.safe {s : EV c.W} {k : Mark} (h : ValidReg c s k) : SafeReg c s k := by
  cases k with
  | clean => exact h.1
  | dirty => exact h.1
  | dead => exact h

theorem ValidReg.tidy {s s' : EV c.W} {k : Mark} (h : ValidReg c s k) (hk : k ≠ .dead) (h' : Safe c s')
    (ht : Tidy c s s') : ValidReg c s' k := by
  cases k with
  | clean => exact ⟨h', ht.valid h.2.1, h.2.2.tidy ht⟩
  | dirty => exact ⟨h', ht.valid h.2⟩
  | dead => exact absurd rfl hk

theorem ValidReg.soil {s' : EV c.W} {k : Mark} (hk : k ≠ .dead) (h' : Safe c s') (hv : Valid c s') :
    ValidReg c s' (c.soil k) := by
  unfold Inst.soil
  split
  · next ht =>
    cases k with
    | clean => exact ⟨h', hv, Clean.of_dvd _ ht⟩
    | dirty => exact ⟨h', hv⟩
    | dead => exact absurd rfl hk
  · exact ⟨h', hv⟩

/-- All variables are as their marks say. -/
def ValidMem (c : Inst α) (k : Nat → Mark) (m : Mem c τ) : Prop := ∀ r, ValidReg c (m.reg r) (k r)

theorem ValidMem.upd {k : Nat → Mark} {m m' : Mem c τ} (h : ValidMem c k m) {r : Nat} {s : EV c.W} {q : Mark}
    (hm : m'.reg = EnumVecModel.upd m.reg r s) (hs : ValidReg c s q) : ValidMem c (EnumVecModel.upd k r q) m' := by
  intro i
  rw [hm]
  by_cases hi : i = r
  · subst hi; simp only [upd_same]; exact hs
  · simp only [upd_ne _ _ hi]; exact h i

theorem ValidMem.upd1 {k : Nat → Mark} {m m' : Mem c τ} (h : ValidMem c k m) {r : Nat} {s : EV c.W}
    (hm : m'.reg = EnumVecModel.upd m.reg r s) (hs : ValidReg c s (k r)) : ValidMem c k m' := by
  have := h.upd hm hs; rwa [upd_self] at this

theorem Fault.out_invalid {e : Fault} (h : e ≠ .badDiscr) : (e.out : Out α) ≠ .invalid := by
  cases e <;> simp_all [Fault.out]

section
variable (hc : c.Ok)
include hc

/-- No storage: nothing invalid. -/
theorem ValidReg.empty {s : EV c.W} (h1 : s.storage.data = []) (h2 : (s.storage.cap + 1) * c.epb + 4 < c.build.usizeLim)
    (h3 : s.num = 0) : ValidReg c s .clean := by
  have hb : ∀ j, blk s j = 0 := fun j => blk_ge s (by rw [h1]; simp)
  exact ⟨⟨by rw [h3]; simp, by rw [h1]; simp, h2⟩, fun i => by unfold raw; rw [hb, fld_zero]; exact E_pos hc,
    fun j => by unfold waste; rw [hb, fld_zero]⟩

theorem insert_beyond {s : EV c.W} {l : List α} (h : Holds c s l) {index : Nat} (hi : l.length < index) (x : α) :
    Runs (EV.insert c index x s) (fun _ s' => Holds c s' (l ++ [x]) ∧ Tidy c s s')
      (fun e s' => e = .overflow ∧ Holds c s' (l ++ [x]) ∧ Tidy c s s' ∨ e = .capacity ∧ s' = s) := by
  have hlen := h.len_eq
  by_cases hov : index - index % c.epb + c.epb < c.build.usizeLim ∨ c.build.checked = false ∨ index % c.epb = 0
  · rw [insert_past hc h.toSafe (by omega) x hov]
    exact (push_holds hc h x).mono (fun _ _ h => ⟨h.1, h.2.1⟩) (fun _ _ h => Or.inr ⟨h.1, h.2.1⟩)
  · have h1 : ¬ (index - index % c.epb + c.epb < c.build.usizeLim) := fun h => hov (Or.inl h)
    have h2 : c.build.checked = true := by
      cases hx : c.build.checked
      · exact absurd (Or.inr (Or.inl hx)) hov
      · rfl
    have h3 : ¬ index % c.epb = 0 := fun h => hov (Or.inr (Or.inr h))
    unfold EV.insert
    refine runs_seq (push_holds hc h x) (fun _ _ h => Or.inr ⟨h.1, h.2.1⟩) ?_
    rintro _ s1 ⟨g1, g2, -⟩
    have e1 : uAdd c.build (index - index % c.epb) c.epb = .error .overflow := by
      unfold uAdd; rw [if_neg (by omega), h2]; rfl
    rw [M.read_bind]
    simp only [show index % c.epb > 0 by omega, if_true, e1]
    exact Or.inl ⟨rfl, g1, g2⟩

variable {k : Nat → Mark} {m : Mem c τ}

theorem valid_assign (h : ValidMem c k m) (op : Op τ α) (r : Nat) (v : Except Fault (EV c.W)) (q : Mark)
    (hv : Res v (fun s => ValidReg c s q) (fun e => e ≠ .badDiscr)) (h1 : step c m op = m.assign r v)
    (h2 : runMarks c k m op = if (step c m op).1.isUnit then upd k r q else k) :
    (step c m op).1 ≠ .invalid ∧ ValidMem c (runMarks c k m op) (step c m op).2 := by
  rw [h2, h1]
  rcases assign_cases hc m r hv with ⟨s, hs, e1⟩ | ⟨f, hf, e1⟩
  · rw [e1, if_pos (show Out.isUnit Out.unit = true from rfl)]; exact ⟨nofun, h.upd rfl hs⟩
  · rw [e1, if_neg (by rw [Fault.out_isUnit]; simp)]; exact ⟨Fault.out_invalid hf, h⟩

theorem valid_call {β : Type} (h : ValidMem c k m) (op : Op τ α) (r : Nat) (f : M (EV c.W) β) (out : β → Out α)
    (q : Mark) (ho : ∀ b, out b ≠ .invalid)
    (hf : Runs (f (m.reg r)) (fun _ s => ValidReg c s q) (fun e s => e ≠ .badDiscr ∧ ValidReg c s q))
    (h1 : step c m op = m.call r f out) (h2 : runMarks c k m op = upd k r q) :
    (step c m op).1 ≠ .invalid ∧ ValidMem c (runMarks c k m op) (step c m op).2 := by
  rw [h2, h1]
  rcases call_cases hc m r out hf with ⟨b, s, hs, e1⟩ | ⟨e, s, hs, e1⟩
  · rw [e1]; exact ⟨ho b, h.upd rfl hs⟩
  · rw [e1]; exact ⟨Fault.out_invalid hs.1, h.upd rfl hs.2⟩

theorem valid_same (h : ValidMem c k m) (op : Op τ α) (h1 : (step c m op).1 ≠ .invalid)
    (h2 : (step c m op).2.reg = m.reg) (h3 : runMarks c k m op = k) :
    (step c m op).1 ≠ .invalid ∧ ValidMem c (runMarks c k m op) (step c m op).2 := by
  rw [h3]
  exact ⟨h1, fun r => by rw [h2]; exact h r⟩

theorem remove_oob' {s : EV c.W} (h : Safe c s) {i : Nat} (hi : s.num ≤ i) :
    EV.remove c i s = (.error .unwrapNone, s) := by
  unfold EV.remove
  rw [M.bind_apply, get_safe hc h, if_neg (by omega)]
  rfl

theorem step_valid (hE : c.E.Consecutive) (h : ValidMem c k m) (op : Op τ α) (ha : ValidUse c k m op) :
    (step c m op).1 ≠ .invalid ∧ ValidMem c (runMarks c k m op) (step c m op).2 := by
  obtain ⟨⟨hb, hd, hsplit⟩, ha⟩ := ha
  have hlive : ∀ r, op.revives = false → r ∈ op.uses → k r ≠ .dead := fun r h1 h2 => hd h1 r h2
  have hks : ∀ {r : Nat}, k = upd k r (k r) := fun {r} => (upd_self k r).symm
  have hh : ∀ {r}, k r ≠ .dead → ∃ l, Holds c (m.reg r) l := fun {r} hr =>
    Valid.holds hc hE ((h r).live hr).1 ((h r).live hr).2
  cases op with
  | new r =>
    exact valid_assign hc h _ r (.ok (EV.new c)) .clean
      (show ValidReg c (EV.new c) .clean from ⟨new_safe hc, new_valid hc, new_clean hc⟩) rfl rfl
  | withCapacity r n =>
    refine valid_assign hc h _ r _ .clean ?_ rfl rfl
    have h1 := withCapacity_holds hc n
    cases hx : EV.withCapacity c n with
    | ok s =>
      rw [hx] at h1
      exact ⟨h1.1.toSafe, (withCapacity_clean hc hx).2, (withCapacity_clean hc hx).1⟩
    | error e => rw [hx] at h1; show e ≠ _; rw [h1.1]; nofun
  | fromElem r x n =>
    refine valid_assign hc h _ r _ (if n ≤ 4 * c.epb then .clean else c.soil .clean) ?_ rfl rfl
    refine (fromElem_holds hc x n).mono ?_ (fun _ h => by rw [h.1]; nofun)
    rintro s ⟨h1, h2, h3, -⟩
    split
    · next hn => exact ⟨h1.toSafe, h2, h3 hn⟩
    · exact ValidReg.soil nofun h1.toSafe h2
  | fromVec r xs =>
    refine valid_assign hc h _ r _ .clean ?_ rfl rfl
    by_cases hw : c.AtLimit xs.length
    · rw [show EV.fromVec c xs = _ from build_limit_debug (it := ⟨xs.length, xs, false⟩) hsplit hw]; nofun
    exact (fromVec_holds hc xs hw).mono (fun s hs => ⟨hs.1.toSafe, hs.2⟩) (fun _ h => by rw [h.1]; nofun)
  | fromSlice r xs =>
    refine valid_assign hc h _ r _ .clean ?_ rfl rfl
    rw [fromSlice_eq hc]
    by_cases hw : c.AtLimit xs.length
    · rw [show EV.fromVec c xs = _ from build_limit_debug (it := ⟨xs.length, xs, false⟩) hsplit hw]; nofun
    exact (fromVec_holds hc xs hw).mono (fun s hs => ⟨hs.1.toSafe, hs.2⟩) (fun _ h => by rw [h.1]; nofun)
  | fromIter r it =>
    refine valid_assign hc h _ r _ .clean ?_ rfl rfl
    by_cases hw : c.AtLimit it.hint
    · rw [show EV.fromIter c it = _ from build_limit_debug hsplit hw]; nofun
    refine (fromIter_holds hc it hw).mono (fun s hs => ⟨hs.2.2.1.toSafe, hs.2.2.2⟩) ?_
    rintro e (⟨rfl, -⟩ | ⟨rfl, -⟩ | ⟨-, -, rfl⟩) <;> nofun
  | clone r src =>
    have hl := hlive src rfl (by simp [Op.uses])
    obtain ⟨l, hl'⟩ := hh hl
    refine valid_assign hc h _ r _ (k src) ?_ rfl rfl
    refine (clone_holds hc hl').mono ?_ (fun _ h => by rw [h.1]; nofun)
    rintro s ⟨h1, h2⟩
    exact (h src).tidy hl h1.toSafe (Tidy.of_data h2)
  | len r => exact valid_same hc h _ nofun rfl rfl
  | isEmpty r => exact valid_same hc h _ nofun rfl rfl
  | get r i =>
    have hl := hlive r rfl (by simp [Op.uses])
    obtain ⟨l, hl'⟩ := hh hl
    exact valid_call hc h _ r _ .item (k r) (by simp) (Runs.of_eq hc (get_holds hc hl' i) (h r)) rfl hks
  | set r i x =>
    have hl := hlive r rfl (by simp [Op.uses])
    obtain ⟨l, hl'⟩ := hh hl
    refine valid_call hc h _ r _ (fun _ => .unit) (k r) (by simp) ?_ rfl hks
    by_cases hi : i < l.length
    · obtain ⟨e1, h1⟩ := set_lt hc hl' x hi
      refine Runs.of_eq hc e1 ((h r).tidy hl h1.toSafe (putRaw_tidy hc ?_ (hc.contract.lt x)))
      have := hl'.cover; have := hl'.len_eq; omega
    · rw [set_ge hc hl' x (by omega)]
      exact ⟨nofun, h r⟩
  | push r x =>
    have hl := hlive r rfl (by simp [Op.uses])
    obtain ⟨l, hl'⟩ := hh hl
    refine valid_call hc h _ r _ (fun _ => .unit) (k r) (by simp) ?_ rfl hks
    exact (push_holds hc hl' x).mono (fun _ s hs => (h r).tidy hl hs.1.toSafe hs.2.1)
      (fun e s hs => ⟨by rw [hs.1]; nofun, by rw [hs.2.1]; exact h r⟩)
  | pop r =>
    have hl := hlive r rfl (by simp [Op.uses])
    obtain ⟨l, hl'⟩ := hh hl
    obtain ⟨s', e1, h1, h2⟩ := pop_holds hc hl'
    exact valid_call hc h _ r _ .item (k r) (by simp)
      (Runs.of_eq hc e1 ((h r).tidy hl h1.toSafe (Tidy.of_data (by rw [h2])))) rfl hks
  | insert r i x =>
    have hl := hlive r rfl (by simp [Op.uses])
    obtain ⟨l, hl'⟩ := hh hl
    have hlen : EV.len c (m.reg r) = l.length := hl'.len_eq
    have hsoil : ∀ {s' : EV c.W}, ValidReg c s' (k r) → ValidReg c s' (c.soil (k r)) := fun {s'} hs =>
      ValidReg.soil hl (hs.live hl).1 (hs.live hl).2
    have ha : c.bits < c.W ∨ c.nearInsert (EV.len c (m.reg r)) i ∨ EV.len c (m.reg r) < i := ha
    -- the mark is unchanged for `insert` beyond the end and near the end
    have key : c.nearInsert (EV.len c (m.reg r)) i ∨ EV.len c (m.reg r) < i →
        Runs (EV.insert c i x (m.reg r)) (fun _ s => ValidReg c s (k r)) (fun e s => e ≠ .badDiscr ∧ ValidReg c s (k r)) := by
      intro hor
      by_cases hi : EV.len c (m.reg r) < i
      · refine (insert_beyond hc hl' (by omega) x).mono (fun _ s hs => (h r).tidy hl hs.1.toSafe hs.2) ?_
        rintro e s (⟨rfl, h1, h2⟩ | ⟨rfl, rfl⟩)
        · exact ⟨nofun, (h r).tidy hl h1.toSafe h2⟩
        · exact ⟨nofun, h r⟩
      · have hn := hor.resolve_right hi
        rw [hlen] at hn hi
        exact (insert_near hc hl' (by omega) hn.1 hn.2 x).mono (fun _ s hs => (h r).tidy hl hs.1.toSafe hs.2.1)
          (fun e s hs => ⟨by rw [hs.1]; nofun, by rw [hs.2.1]; exact h r⟩)
    by_cases hn : c.nearInsert (EV.len c (m.reg r)) i
    · exact valid_call hc h _ r _ (fun _ => .unit) (k r) (by simp) (key (Or.inl hn)) rfl
        (by simp only [runMarks, if_pos hn]; exact hks)
    · refine valid_call hc h _ r _ (fun _ => .unit) (c.soil (k r)) (by simp) ?_ rfl (by simp only [runMarks, if_neg hn])
      by_cases hi : EV.len c (m.reg r) < i
      · exact (key (Or.inr hi)).mono (fun _ _ hs => hsoil hs) (fun _ _ hs => ⟨hs.1, hsoil hs.2⟩)
      · have hb' : c.bits < c.W := by
          rcases ha with ha | ha | ha
          · exact ha
          · exact absurd ha hn
          · exact absurd ha hi
        rw [hlen] at hi
        exact (insert_holds hc hb' hl' (by omega) x).mono
          (fun _ s hs => ValidReg.soil hl hs.1.toSafe (hs.2.2.2.2 ((h r).live hl).2))
          (fun e s hs => ⟨by rw [hs.1]; nofun, by rw [hs.2.1]; exact hsoil (h r)⟩)
  | remove r i =>
    have hl := hlive r rfl (by simp [Op.uses])
    obtain ⟨l, hl'⟩ := hh hl
    have hlen : EV.len c (m.reg r) = l.length := hl'.len_eq
    have ha : EV.len c (m.reg r) ≤ i ∨ c.nearRemove (EV.len c (m.reg r)) i ∨
      c.bits < c.W ∧ (c.tight ∨ k r = .clean) := ha
    rw [hlen] at ha
    refine valid_call hc h _ r _ .val (k r) (by simp) ?_ rfl hks
    by_cases hi : i < l.length
    · rcases ha with ha | ha | ⟨hb, ha⟩
      · omega
      · obtain ⟨s', e1, h1, -, h2⟩ := remove_near hc hl' hi ha
        exact Runs.of_eq hc e1 ((h r).tidy hl h1.toSafe h2)
      · have hcl : Clean c (m.reg r) := by
          rcases ha with ha | ha
          · exact Clean.of_dvd _ ha
          · have := h r; rw [ha] at this; exact this.2.2
        obtain ⟨s', e1, h1, -, h2⟩ := remove_holds hc hb hl' hi (RemoveOk.of_clean hc hcl i)
        exact Runs.of_eq hc e1 ((h r).tidy hl h1.toSafe (h2 hcl))
    · rw [remove_oob hc hl' (by omega)]
      exact ⟨nofun, h r⟩
  | swap r i j =>
    have hl := hlive r rfl (by simp [Op.uses])
    obtain ⟨l, hl'⟩ := hh hl
    refine valid_call hc h _ r _ (fun _ => .unit) (k r) (by simp) ?_ rfl hks
    by_cases hij : i < l.length ∧ j < l.length
    · obtain ⟨s', e1, h1, h2, -⟩ := swap_holds hc hl' hij.1 hij.2
      exact Runs.of_eq hc e1 ((h r).tidy hl h1.toSafe h2)
    · rw [swap_oob hc hl' (by omega)]
      exact ⟨nofun, h r⟩
  | swapRemove r i =>
    have hl := hlive r rfl (by simp [Op.uses])
    obtain ⟨l, hl'⟩ := hh hl
    refine valid_call hc h _ r _ .val (k r) (by simp) ?_ rfl hks
    by_cases hi : i < l.length
    · obtain ⟨s', e1, h1, h2, -⟩ := swapRemove_holds hc hl' hi
      exact Runs.of_eq hc e1 ((h r).tidy hl h1.toSafe h2)
    · obtain ⟨e, e1, he⟩ := swapRemove_oob hc hl' (Nat.le_of_not_lt hi)
      rw [e1]
      exact ⟨by rcases he with rfl | rfl <;> nofun, h r⟩
  | truncate r n =>
    have e1 := truncate_eq hc (m.reg r) n
    by_cases hdead : k r = .dead
    · have hn : n = 0 := by
        cases n with
        | zero => rfl
        | succ n => exact absurd hdead (hlive r rfl (by simp [Op.uses]))
      subst hn
      have hr := h r
      rw [hdead] at hr
      exact valid_call hc h _ r _ (fun _ => .unit) .clean (by simp)
        (Runs.of_eq hc e1 (ValidReg.empty hc hr.1 hr.2 (by simp))) rfl
        (by simp only [runMarks, if_pos hdead])
    · refine valid_call hc h _ r _ (fun _ => .unit) (k r) (by simp) (Runs.of_eq hc e1 ?_) rfl ?_
      · exact (h r).tidy hdead (((h r).live hdead).1.setNum hc (Nat.min_le_right _ _)) (Tidy.of_data rfl)
      · cases n with
        | zero => simp only [runMarks, if_neg hdead]; exact hks
        | succ n => exact hks
  | clear r =>
    have e1 := clear_eq hc (m.reg r)
    by_cases hdead : k r = .dead
    · have hr := h r
      rw [hdead] at hr
      exact valid_call hc h _ r _ (fun _ => .unit) .clean (by simp)
        (Runs.of_eq hc e1 (ValidReg.empty hc hr.1 hr.2 rfl)) rfl
        (by simp only [runMarks, if_pos hdead])
    · refine valid_call hc h _ r _ (fun _ => .unit) (k r) (by simp) (Runs.of_eq hc e1 ?_) rfl ?_
      · exact (h r).tidy hdead (((h r).live hdead).1.setNum hc (Nat.zero_le _)) (Tidy.of_data rfl)
      · simp only [runMarks, if_neg hdead]; exact hks
  | resize r n x =>
    have hl := hlive r rfl (by simp [Op.uses])
    obtain ⟨l, hl'⟩ := hh hl
    have hlen : EV.len c (m.reg r) = l.length := hl'.len_eq
    have key := resize_holds hc hl' n x
    by_cases hn : n ≤ EV.len c (m.reg r) + 4 * c.epb
    · refine valid_call hc h _ r _ (fun _ => .unit) (k r) (by simp) ?_ rfl (by simp only [runMarks, if_pos hn]; exact hks)
      rw [hlen] at hn
      refine key.mono (fun _ s hs => (h r).tidy hl hs.1.toSafe (hs.2.2.1 hn)) ?_
      rintro e s ⟨h1, -, h2, -, ⟨_, -, h3⟩, -⟩
      exact ⟨by rw [h1]; nofun, (h r).tidy hl h3.toSafe (h2 hn)⟩
    · refine valid_call hc h _ r _ (fun _ => .unit) (c.soil (k r)) (by simp) ?_ rfl (by simp only [runMarks, if_neg hn])
      refine key.mono (fun _ s hs => ValidReg.soil hl hs.1.toSafe (hs.2.1 ((h r).live hl).2)) ?_
      rintro e s ⟨h1, h2, -, -, ⟨_, -, h3⟩, -⟩
      exact ⟨by rw [h1]; nofun, ValidReg.soil hl h3.toSafe (h2 ((h r).live hl).2)⟩
  | reserve r n =>
    have hl := hlive r rfl (by simp [Op.uses])
    obtain ⟨l, hl'⟩ := hh hl
    refine valid_call hc h _ r _ (fun _ => .unit) (k r) (by simp) ?_ rfl hks
    by_cases hw : c.AtLimit (EV.len c (m.reg r) + n)
    · rw [reserve_limit_debug hsplit hw]; exact ⟨nofun, h r⟩
    exact (reserve_holds hc hl' (k := n) (by rw [← show EV.len c (m.reg r) = l.length from hl'.len_eq]; exact hw)).mono (fun _ s hs => (h r).tidy hl hs.1.toSafe hs.2.1)
      (fun e s hs => ⟨by rw [hs.1]; nofun, by rw [hs.2.1]; exact h r⟩)
  | shrinkToFit r =>
    have hl := hlive r rfl (by simp [Op.uses])
    obtain ⟨l, hl'⟩ := hh hl
    obtain ⟨s', e1, h1, h2, -⟩ := shrinkToFit_holds hc hl'
    exact valid_call hc h _ r _ (fun _ => .unit) (k r) (by simp)
      (Runs.of_eq hc e1 ((h r).tidy hl h1.toSafe h2)) rfl hks
  | extend r it =>
    have hl := hlive r rfl (by simp [Op.uses])
    obtain ⟨l, hl'⟩ := hh hl
    refine valid_call hc h _ r _ (fun _ => .unit) (k r) (by simp) ?_ rfl hks
    by_cases hw : c.AtLimit (EV.len c (m.reg r) + it.hint)
    · have hck : c.build.checked = true := by
        cases hck : c.build.checked
        · exact absurd ⟨hck, hw⟩ hsplit
        · rfl
      rw [extend_limit_debug hw hck]; exact ⟨nofun, h r⟩
    refine ((extend_holds hc it hl' (by rw [← show EV.len c (m.reg r) = l.length from hl'.len_eq]; exact hw)).and
      (extend_keeps hc it hl'.toSafe hsplit)).mono ?_ ?_
    · rintro _ s ⟨hs, hs'⟩
      exact (h r).tidy hl hs' hs.2.2.2.1
    · rintro e s ⟨⟨h1, h2⟩, -, h3⟩
      refine ⟨?_, (h r).tidy hl h3 h1⟩
      rcases h2 with ⟨rfl, -⟩ | ⟨rfl, -⟩ | ⟨-, h2, -⟩
      · nofun
      · nofun
      · rw [h2]; split <;> nofun
  | append r o =>
    have hl := hlive r rfl (by simp [Op.uses])
    have hlo := hlive o rfl (by simp [Op.uses])
    have hne : r ≠ o := hb
    obtain ⟨l, hl'⟩ := hh hl
    obtain ⟨lo, hlo'⟩ := hh hlo
    have hlen : EV.len c (m.reg r) = l.length := hl'.len_eq
    have hleno : EV.len c (m.reg o) = lo.length := hlo'.len_eq
    have key := append_holds hc hl' hlo'
    rcases hx : EV.append c (m.reg r, m.reg o) with ⟨e | u, p⟩
    · rw [hx] at key
      obtain ⟨g1, -, g2, g3, g4, g5⟩ := key
      have e1 : step c m (.append r o) = (e.out, { m with reg := upd (upd m.reg r p.1) o p.2 }) := by
        simp only [step, hx]
      have e2 : runMarks c k m (.append r o) = k := by
        simp only [runMarks]; rw [if_neg]; rw [e1, Fault.out_isUnit]; simp
      rw [e2, e1]
      exact ⟨Fault.out_invalid (by rw [g1]; nofun),
        (h.upd1 (m' := ⟨upd m.reg r p.1, m.world⟩) rfl ((h r).tidy hl g2.toSafe g4)).upd1 rfl
          ((h o).tidy hlo g3.toSafe g5)⟩
    · rw [hx] at key
      obtain ⟨g1, g2, g3, -, g4⟩ := key
      have e1 : step c m (.append r o) = (.unit, { m with reg := upd (upd m.reg r p.1) o p.2 }) := by
        simp only [step, hx]
      simp only [runMarks]
      rw [if_pos (by rw [e1]; rfl), e1]
      rw [hlen, hleno]
      have gv := g3 ((h r).live hl).2 ((h o).live hlo).2
      refine ⟨nofun, (h.upd (m' := ⟨upd m.reg r p.1, m.world⟩) rfl ?_).upd rfl ?_⟩
      · split
        · next hor =>
          cases hk : k r with
          | clean =>
            have hr := h r; rw [hk] at hr
            refine ⟨g1.toSafe, gv, g2 hr.2.2 ?_⟩
            rcases hor with hor | hor
            · exact Or.inl hor
            · have ho := h o; rw [hor] at ho; exact Or.inr ho.2.2
          | dirty => exact ⟨g1.toSafe, gv⟩
          | dead => exact absurd hk hl
        · exact ⟨g1.toSafe, gv⟩
      · split at g4
        · next hor => rw [if_pos hor]; exact (h o).tidy hlo g4.1.toSafe g4.2
        · next hor =>
          rw [if_neg hor]
          obtain ⟨a1, a2, a3⟩ := g4
          have hcap : (p.2.storage.cap + 1) * c.epb + 4 < c.build.usizeLim := by rw [a3]; exact hlo'.capBound
          split
          · next h0 => exact ValidReg.empty hc a1 hcap (by rw [a2, h0])
          · exact ⟨a1, hcap⟩
  | splitOff r at_ d =>
    have hl := hlive r rfl (by simp [Op.uses])
    have hs : EV.len c (m.reg r) ≤ at_ := hsplit
    have key := splitOff_keeps hc ((h r).live hl).1 hs
    rcases hx : EV.splitOff c at_ (m.reg r) with ⟨e | o, p⟩
    · rw [hx] at key
      obtain ⟨g1, g3, g2⟩ := key
      have e1 : step c m (.splitOff r at_ d) = (e.out, { m with reg := upd m.reg r p }) := by simp only [step, hx]
      have e2 : runMarks c k m (.splitOff r at_ d) = k := by
        simp only [runMarks]; rw [if_neg]; rw [e1, Fault.out_isUnit]; simp
      rw [e2, e1]
      exact ⟨Fault.out_invalid g3, h.upd1 rfl (g2 ▸ h r)⟩
    · rw [hx] at key
      obtain ⟨g1, g2, g3, g4, g5⟩ := key
      have e1 : step c m (.splitOff r at_ d) = (.unit, { m with reg := upd (upd m.reg r p) d o }) := by
        simp only [step, hx]
      simp only [runMarks]
      rw [if_pos (by rw [e1]; rfl), e1]
      exact ⟨nofun, (h.upd1 (m' := ⟨upd m.reg r p, m.world⟩) rfl (by rw [g5]; exact h r)).upd rfl ⟨g2, g4, g3⟩⟩
  | retain r f =>
    have hl := hlive r rfl (by simp [Op.uses])
    obtain ⟨l, hl'⟩ := hh hl
    obtain ⟨s', e1, h1, h2, -⟩ := retain_holds hc f hl' m.world
    have e2 : (step c m (.retain r f)).1 ≠ .invalid ∧ (step c m (.retain r f)).2.reg = upd m.reg r s' := by
      simp only [step, Mem.callW, e1]
      by_cases hf : (filterSpec f l m.world).2.2 = true
      · rw [if_pos hf]; exact ⟨nofun, rfl⟩
      · rw [if_neg hf]; exact ⟨nofun, rfl⟩
    exact ⟨e2.1, h.upd1 e2.2 ((h r).tidy hl h1.toSafe h2)⟩
  | forEach r f =>
    have hl := hlive r rfl (by simp [Op.uses])
    obtain ⟨l, hl'⟩ := hh hl
    obtain ⟨s', e1, h1, h2, -⟩ := forEach_holds hc f hl' m.world
    have e2 : (step c m (.forEach r f)).1 ≠ .invalid ∧ (step c m (.forEach r f)).2.reg = upd m.reg r s' := by
      simp only [step, Mem.callW, e1]
      by_cases hf : (mapSpec f l m.world).2.2 = true
      · rw [if_pos hf]; exact ⟨nofun, rfl⟩
      · rw [if_neg hf]; exact ⟨nofun, rfl⟩
    exact ⟨e2.1, h.upd1 e2.2 ((h r).tidy hl h1.toSafe h2)⟩
  | eq r o =>
    have hl := hlive r rfl (by simp [Op.uses])
    have hlo := hlive o rfl (by simp [Op.uses])
    obtain ⟨b, e1, h1⟩ := eq_safe hc ((h r).live hl).1 ((h o).live hlo).1
    exact valid_same hc h _ (by simp only [step, Mem.ask, e1]; nofun) (by simp only [step, Mem.ask, e1]) rfl
  | any r x =>
    have hl := hlive r rfl (by simp [Op.uses])
    obtain ⟨b, e1, h1⟩ := any_safe hc ((h r).live hl).1 x
    exact valid_call hc h _ r _ .bool (k r) (by simp) (Runs.of_eq hc e1 (h r)) rfl hks
  | all r x =>
    have hl := hlive r rfl (by simp [Op.uses])
    obtain ⟨b, e1, h1⟩ := all_safe hc ((h r).live hl).1 x
    exact valid_call hc h _ r _ .bool (k r) (by simp) (Runs.of_eq hc e1 (h r)) rfl hks
  | toVec r =>
    have hl := hlive r rfl (by simp [Op.uses])
    obtain ⟨l, hl'⟩ := hh hl
    have hi := hl'.is hc
    have e1 : EV.toVec c (m.reg r) = .ok l :=
      collect_spec hc hi _ (iter_yields hc hi) (by have : EV.len c (m.reg r) = l.length := hl'.len_eq; omega)
    exact valid_same hc h _ (by simp only [step, Mem.ask, e1]; nofun) (by simp only [step, Mem.ask, e1]) rfl
  | iterate r calls =>
    have hl := hlive r rfl (by simp [Op.uses])
    obtain ⟨l, hl'⟩ := hh hl
    have hi := hl'.is hc
    obtain ⟨t', e1, -⟩ := iterRun_spec hc hi calls (iter_yields hc hi)
    exact valid_same hc h _ (by simp only [step, Mem.ask, e1]; nofun) (by simp only [step, Mem.ask, e1]) rfl
  | hash r =>
    have hl := hlive r rfl (by simp [Op.uses])
    have e1 := hash_safe hc ((h r).live hl).1
    exact valid_same hc h _ (by simp only [step, Mem.ask, e1]; nofun) (by simp only [step, Mem.ask, e1]) rfl

end
end EnumVecModel
