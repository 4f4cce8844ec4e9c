import Verif.Lemmas.AccessTouch

/-! # Block accesses of the iterators -/

namespace EnumVecModel
open EV
variable {α : Type}

namespace Access
section
variable (c : Inst α)

theorem mapItem_erases (o : Option Nat) (p : LV c.W × (Nat × Nat)) : ErasesAt dropC (mapItem c o) (M.ofIt (EV.mapItem c o)) p := by
  cases o with
  | none => rfl
  | some x =>
    have hg := get_erases c p.1 x
    unfold ErasesAt at hg
    have hg : EV.get c x p.1.1 = ((Access.get c x p.1).1, (Access.get c x p.1).2.1) := hg
    unfold ErasesAt M.ofIt EV.mapItem mapItem
    dsimp only
    rcases hx : Access.get c x p.1 with ⟨e | _ | a, q⟩
    · have h0 : (onFst (Access.get c x) : M (LV c.W × (Nat × Nat)) _) p = (.error e, (q, p.2)) := by rw [onFst_apply, hx]
      have h1 : EV.item c x ⟨p.1.1, p.2.1, p.2.2⟩ = (.error e, ⟨q.1, p.2.1, p.2.2⟩) := by unfold EV.item; dsimp only; rw [hg, hx]
      rw [M.bind_error h0, M.bind_error h1]
    · have h0 : (onFst (Access.get c x) : M (LV c.W × (Nat × Nat)) _) p = (.ok none, (q, p.2)) := by rw [onFst_apply, hx]
      have h1 : EV.item c x ⟨p.1.1, p.2.1, p.2.2⟩ = (.error .unwrapNone, ⟨q.1, p.2.1, p.2.2⟩) := by unfold EV.item; dsimp only; rw [hg, hx]
      rw [M.bind_ok h0, M.bind_error h1]
      rfl
    · have h0 : (onFst (Access.get c x) : M (LV c.W × (Nat × Nat)) _) p = (.ok (some a), (q, p.2)) := by rw [onFst_apply, hx]
      have h1 : EV.item c x ⟨p.1.1, p.2.1, p.2.2⟩ = (.ok a, ⟨q.1, p.2.1, p.2.2⟩) := by unfold EV.item; dsimp only; rw [hg, hx]
      rw [M.bind_ok h0, M.bind_ok h1]
      rfl

theorem range_erases {f : M (Nat × Nat) (Option Nat)} {g : It c.W → Option Nat × It c.W}
    (h : ∀ v lo hi, f (lo, hi) = (.ok (g ⟨v, lo, hi⟩).1, ((g ⟨v, lo, hi⟩).2.lo, (g ⟨v, lo, hi⟩).2.hi)) ∧ (g ⟨v, lo, hi⟩).2.v = v) (p : LV c.W × (Nat × Nat)) :
    ErasesAt dropC (onSnd f >>= mapItem c) (M.ofIt fun t => EV.mapItem c (g t).1 (g t).2) p := by
  obtain ⟨q, lo, hi⟩ := p
  obtain ⟨h1, h2⟩ := h q.1 lo hi
  have e : (onSnd f >>= mapItem c) (q, (lo, hi)) = mapItem c (g ⟨q.1, lo, hi⟩).1 (q, ((g ⟨q.1, lo, hi⟩).2.lo, (g ⟨q.1, lo, hi⟩).2.hi)) := by
    have h0 : (onSnd f : M (LV c.W × (Nat × Nat)) _) (q, (lo, hi)) = (.ok (g ⟨q.1, lo, hi⟩).1, (q, ((g ⟨q.1, lo, hi⟩).2.lo, (g ⟨q.1, lo, hi⟩).2.hi))) := by
      show ((f (lo, hi)).1, (q, (f (lo, hi)).2)) = _
      rw [h1]
    rw [M.bind_ok h0]
  have h3 := mapItem_erases c (g ⟨q.1, lo, hi⟩).1 (q, ((g ⟨q.1, lo, hi⟩).2.lo, (g ⟨q.1, lo, hi⟩).2.hi))
  unfold ErasesAt at h3 ⊢
  rw [e, ← h3]
  unfold M.ofIt
  dsimp only
  have e2 : (⟨q.1, (g ⟨q.1, lo, hi⟩).2.lo, (g ⟨q.1, lo, hi⟩).2.hi⟩ : It c.W) = (g ⟨q.1, lo, hi⟩).2 := by
    rcases hg : (g ⟨q.1, lo, hi⟩).2 with ⟨v, l, r⟩
    rw [hg] at h2
    dsimp only at h2 ⊢
    rw [h2]
  rw [e2]

theorem next_erases (p : LV c.W × (Nat × Nat)) : ErasesAt dropC (next c) (M.ofIt (EV.next c)) p :=
  range_erases c (g := EV.rangeNext c) (fun v lo hi => by unfold Access.rangeNext EV.rangeNext; dsimp only; split <;> exact ⟨rfl, rfl⟩) p

theorem nextBack_erases (p : LV c.W × (Nat × Nat)) : ErasesAt dropC (nextBack c) (M.ofIt (EV.nextBack c)) p :=
  range_erases c (g := EV.rangeNextBack c) (fun v lo hi => by unfold Access.rangeNextBack EV.rangeNextBack; dsimp only; split <;> exact ⟨rfl, rfl⟩) p

theorem nth_erases (n : Nat) (p : LV c.W × (Nat × Nat)) : ErasesAt dropC (nth c n) (M.ofIt (EV.nth c n)) p :=
  range_erases c (g := EV.rangeNth c n) (fun v lo hi => by unfold Access.rangeNth EV.rangeNth; dsimp only; split <;> exact ⟨rfl, rfl⟩) p

theorem ofIt_bind {W : Nat} {β γ : Type} (m : M (It W) β) (f : β → M (It W) γ) : M.ofIt (m >>= f) = M.ofIt m >>= fun b => M.ofIt (f b) := by
  funext p
  rcases hm : m ⟨p.1, p.2.1, p.2.2⟩ with ⟨e | b, q⟩
  · have h0 : M.ofIt m p = (.error e, (q.v, (q.lo, q.hi))) := by unfold M.ofIt; rw [hm]
    rw [M.bind_error h0]
    unfold M.ofIt
    rw [M.bind_error hm]
  · have h0 : M.ofIt m p = (.ok b, (q.v, (q.lo, q.hi))) := by unfold M.ofIt; rw [hm]
    rw [M.bind_ok h0]
    unfold M.ofIt
    rw [M.bind_ok hm]

theorem collect_erases : ∀ (n : Nat) (p : LV c.W × (Nat × Nat)), ErasesAt dropC (collect c n) (M.ofIt (EV.collect c n)) p
  | 0, _ => rfl
  | n + 1, p => by
    unfold Access.collect EV.collect
    rw [ofIt_bind]
    refine ErasesAt.bind (next_erases c p) fun o q _ => ?_
    cases o with
    | none => rfl
    | some x =>
      dsimp only
      rw [ofIt_bind]
      exact ErasesAt.bind (collect_erases n q) fun _ _ _ => rfl

theorem plain_local {τ β : Type} (m : M τ β) : Local (View.plain τ) m := by
  intro t
  refine ⟨fun k => k.elim, fun k => k.elim, fun u hu => ?_⟩
  obtain rfl : t = u := hu.rest
  exact ⟨rfl, ⟨rfl, rfl, fun k => k.elim⟩⟩

theorem mapItem_local (o : Option Nat) : Local ((view c.W).prod (.plain (Nat × Nat))) (mapItem c o) := by
  cases o with
  | none => exact .pure _
  | some x => exact .bind (get_local c x).onFst fun a => .bind (.unwrap a) fun _ => .pure _

theorem next_local : Local ((view c.W).prod (.plain (Nat × Nat))) (next c) := .bind (plain_local _).onSnd (mapItem_local c)
theorem nextBack_local : Local ((view c.W).prod (.plain (Nat × Nat))) (nextBack c) := .bind (plain_local _).onSnd (mapItem_local c)
theorem nth_local (n : Nat) : Local ((view c.W).prod (.plain (Nat × Nat))) (nth c n) := .bind (plain_local _).onSnd (mapItem_local c)

theorem collect_local : ∀ n, Local ((view c.W).prod (.plain (Nat × Nat))) (collect c n)
  | 0 => .pure _
  | n + 1 => .bind (next_local c) fun o => by
    cases o with
    | none => exact .pure _
    | some x => exact .bind (collect_local n) fun _ => .pure _

end

section
variable {c : Inst α} {K : Nat ⊕ Empty → Prop} {p : LV c.W × (Nat × Nat)}

theorem plain_tr {τ β : Type} {m : M τ β} {t : τ} {K : Empty → Prop} : Tr (View.plain τ) K m t 0 0 fun b q => m t = (.ok b, q) :=
  ⟨fun k => k.elim, Nat.le_refl _, fun b h => ⟨Nat.le_refl _, Prod.ext h rfl⟩⟩

theorem mapItem_tr {o : Option Nat} (hK : ∀ x, o = some x → x < p.1.1.num → K (.inl (x / c.epb))) : Tr ((view c.W).prod (.plain (Nat × Nat))) K (mapItem c o) p 0 o.toList.length
    fun b q => q.2 = p.2 ∧ Keeps p.1 q.1 ∧ b.isSome = o.isSome := by
  cases o with
  | none => exact (Tr.pure _).weak (Nat.le_refl _) (Nat.le_refl _) fun b q h => by obtain ⟨rfl, rfl⟩ := h; exact ⟨rfl, Keeps.refl _, rfl⟩
  | some x =>
    refine (Tr.bind (lo := 0) (hi := 1) (lo' := 0) (hi' := 0) (J := fun _ q => Keeps p.1 q.1 ∧ q.2 = p.2) ?_ fun a q hq => ?_).weak (Nat.le_refl _) (Nat.le_refl _) fun _ _ h => h
    · refine ((get_tr (c := c) (s := p.1) (i := x) fun h => hK x rfl h).onFst (U := .plain (Nat × Nat))).weak (Nat.zero_le _) (by split <;> omega) fun _ _ h => ⟨?_, h.2⟩
      exact h.1.1
    · refine Tr.bind (Tr.unwrap a) (lo' := 0) (hi' := 0) fun b q' hb => (Tr.pure _).weak (Nat.le_refl _) (Nat.le_refl _) fun b' q'' h => ?_
      obtain ⟨rfl, rfl⟩ := h
      obtain ⟨-, rfl⟩ := hb
      exact ⟨hq.2, hq.1, rfl⟩

theorem range_tr {f : M (Nat × Nat) (Option Nat)} {o : Option Nat} {r : Nat × Nat} (hf : f p.2 = (.ok o, r)) (hK : ∀ x, o = some x → x < p.1.1.num → K (.inl (x / c.epb))) :
    Tr ((view c.W).prod (.plain (Nat × Nat))) K (onSnd f >>= mapItem c) p 0 o.toList.length fun b q => Keeps p.1 q.1 ∧ q.2 = r ∧ b.isSome = o.isSome := by
  refine (Tr.bind (lo := 0) (hi := 0) (lo' := 0) (hi' := o.toList.length) (Tr.onSnd (V := view c.W) (plain_tr (m := f))) fun b q hq => ?_).weak (Nat.le_refl _) (Nat.le_of_eq (Nat.zero_add _)) fun _ _ h => h
  obtain ⟨h1, h2⟩ := hq
  rw [hf] at h1
  obtain ⟨h3, h4⟩ := Prod.mk.inj h1
  obtain rfl := Except.ok.inj h3
  refine (mapItem_tr (p := q) fun x hx hn => hK x hx (by rw [← h2]; exact hn)).weak (Nat.le_refl _) (Nat.le_refl _) fun b q' h => ?_
  exact ⟨by rw [← h2]; exact h.2.1, h.1.trans h4.symm, h.2.2⟩

theorem next_tr (hK : p.2.1 < p.2.2 → p.2.1 < p.1.1.num → K (.inl (p.2.1 / c.epb))) :
    Tr ((view c.W).prod (.plain (Nat × Nat))) K (next c) p 0 (if p.2.1 < p.2.2 then 1 else 0)
      fun b q => Keeps p.1 q.1 ∧ (if p.2.1 < p.2.2 then q.2 = (p.2.1 + 1, p.2.2) else b = none) := by
  by_cases h : p.2.1 < p.2.2
  · rw [if_pos h]
    refine (range_tr (f := Access.rangeNext) (o := some p.2.1) (r := (p.2.1 + 1, p.2.2)) (by unfold Access.rangeNext; rw [if_pos h]) fun x hx hn => by
      obtain rfl := Option.some.inj hx
      exact hK h hn).weak (Nat.le_refl _) (Nat.le_refl _) fun b q hq => ⟨hq.1, by rw [if_pos h]; exact hq.2.1⟩
  · rw [if_neg h]
    refine (range_tr (f := Access.rangeNext) (o := none) (r := p.2) (by unfold Access.rangeNext; rw [if_neg h]) fun x hx => by cases hx).weak (Nat.le_refl _) (Nat.le_refl _) fun b q hq => ⟨hq.1, by
      rw [if_neg h]
      cases b with
      | none => rfl
      | some _ => cases hq.2.2⟩

theorem nextBack_tr (hK : p.2.1 < p.2.2 → p.2.2 - 1 < p.1.1.num → K (.inl ((p.2.2 - 1) / c.epb))) :
    Tr ((view c.W).prod (.plain (Nat × Nat))) K (nextBack c) p 0 1 fun _ _ => True := by
  by_cases h : p.2.1 < p.2.2
  · exact (range_tr (f := Access.rangeNextBack) (o := some (p.2.2 - 1)) (r := (p.2.1, p.2.2 - 1)) (by unfold Access.rangeNextBack; rw [if_pos h]) fun x hx hn => by
      obtain rfl := Option.some.inj hx
      exact hK h hn).weak (Nat.le_refl _) (Nat.le_refl _) fun b q hq => trivial
  · exact (range_tr (f := Access.rangeNextBack) (o := none) (r := p.2) (by unfold Access.rangeNextBack; rw [if_neg h]) fun x hx => by cases hx).weak (Nat.le_refl _) (Nat.zero_le _) fun b q hq => trivial

theorem nth_tr {n : Nat} (hK : p.2.1 + n < p.2.2 → p.2.1 + n < p.1.1.num → K (.inl ((p.2.1 + n) / c.epb))) :
    Tr ((view c.W).prod (.plain (Nat × Nat))) K (nth c n) p 0 1 fun _ _ => True := by
  by_cases h : p.2.1 + n < c.build.usizeLim ∧ p.2.1 + n < p.2.2
  · exact (range_tr (f := Access.rangeNth c n) (o := some (p.2.1 + n)) (r := (p.2.1 + n + 1, p.2.2)) (by unfold Access.rangeNth; rw [if_pos h]) fun x hx hn => by
      obtain rfl := Option.some.inj hx
      exact hK h.2 hn).weak (Nat.le_refl _) (Nat.le_refl _) fun b q hq => trivial
  · exact (range_tr (f := Access.rangeNth c n) (o := none) (r := (p.2.2, p.2.2)) (by unfold Access.rangeNth; rw [if_neg h]) fun x hx => by cases hx).weak (Nat.le_refl _) (Nat.zero_le _) fun b q hq => trivial

theorem collect_tr : ∀ (n : Nat) (p : LV c.W × (Nat × Nat)), (∀ x, p.2.1 ≤ x → x < p.2.2 → x < p.1.1.num → K (.inl (x / c.epb))) →
    Tr ((view c.W).prod (.plain (Nat × Nat))) K (collect c n) p 0 (p.2.2 - p.2.1) fun _ _ => True
  | 0, _, _ => (Tr.pure _).weak (Nat.le_refl _) (Nat.zero_le _) fun _ _ _ => trivial
  | n + 1, p, hK => by
    unfold Access.collect
    by_cases h : p.2.1 < p.2.2
    · refine (Tr.bind (lo' := 0) (hi' := p.2.2 - (p.2.1 + 1)) (next_tr fun h1 h2 => hK _ (Nat.le_refl _) h1 h2) fun b q hq => ?_).weak (Nat.le_refl _)
        (by rw [if_pos h]; omega) fun _ _ h => h
      rw [if_pos h] at hq
      obtain ⟨h1, h2⟩ := hq
      cases b with
      | none => exact (Tr.pure _).weak (Nat.le_refl _) (Nat.zero_le _) fun _ _ _ => trivial
      | some x =>
        have e1 : q.2.1 = p.2.1 + 1 := by rw [h2]
        have e2 : q.2.2 = p.2.2 := by rw [h2]
        refine (Tr.bind (lo' := 0) (hi' := 0) (collect_tr n q fun x h3 h4 h5 => hK x (by omega) (by omega) (by rw [← h1.1]; exact h5)) fun xs q' _ =>
          (Tr.pure _).weak (Nat.le_refl _) (Nat.le_refl _) fun _ _ _ => trivial).weak (Nat.le_refl _) (by omega) fun _ _ h => h
    · refine (Tr.bind (lo' := 0) (hi' := 0) (next_tr fun h1 h2 => hK _ (Nat.le_refl _) h1 h2) fun b q hq => ?_).weak (Nat.le_refl _)
        (by rw [if_neg h]; omega) fun _ _ h => h
      rw [if_neg h] at hq
      obtain ⟨-, rfl⟩ := hq
      exact (Tr.pure _).weak (Nat.le_refl _) (Nat.zero_le _) fun _ _ _ => trivial

end
end Access
end EnumVecModel
