import Verif.AccessSpec
import Verif.Lemmas.AccessCost

/-! # From the logs to what is accessed -/

namespace EnumVecModel
open EV
variable {α τ σ σ' β γ : Type}

namespace Access

/-- After a local call from two states that agree on `K`, including all logged places, the states agree on `K`. -/
theorem Local.agree {V : View σ} {m : M σ β} (h : Local V m) {K : V.Key → Prop} {s u : σ} (hK : ∀ k ∈ V.log (m s).2, K k) (h1 : V.rest s = V.rest u) (h2 : V.log s = V.log u)
    (h3 : ∀ k, K k → V.blk s k = V.blk u k) :
    (m u).1 = (m s).1 ∧ V.rest (m s).2 = V.rest (m u).2 ∧ ∀ k, K k → V.blk (m s).2 k = V.blk (m u).2 k := by
  obtain ⟨e1, e2⟩ := (h s).same u ⟨h1, h2, fun k hk => h3 k (hK k hk)⟩
  refine ⟨e1, e2.rest, fun k hk => ?_⟩
  by_cases hk1 : k ∈ V.log (m s).2
  · exact e2.blk k hk1
  · have hk2 : k ∉ V.log (m u).2 := by rw [← e2.log]; exact hk1
    have law := V.law (m s).2 (m u).2 k e2.rest
    rcases (h s).keep k hk1 with h4 | h4
    · rcases (h u).keep k hk2 with h5 | h5
      · rw [h4, h5, h3 k hk]
      · rw [h5, law.2 h5]
    · rw [h4, law.1 h4]

theorem rest_iff {W : Nat} {s u : LV W} : (view W).rest s = (view W).rest u ↔ s.1.num = u.1.num ∧ s.1.storage.cap = u.1.storage.cap ∧ s.1.storage.data.length = u.1.storage.data.length := by
  show (_, _, _) = (_, _, _) ↔ _
  rw [Prod.mk.injEq, Prod.mk.injEq]

theorem touches_of_log {W : Nat} {m : M (LV W) β} {m0 : M (EV W) β} {K : Nat → Prop} {s : EV W} (hl : Local (view W) m) (he : ∀ p, ErasesAt drop1 m m0 p)
    (ht : ∀ k ∈ (m (s, [])).2.2, K k) : Touches K m0 s := by
  have es : ∀ u : EV W, m0 u = ((m (u, [])).1, (m (u, [])).2.1) := fun u => he (u, [])
  refine ⟨fun k hk => ?_, fun u hu => ?_⟩
  · rw [es]
    exact (hl (s, [])).keep k fun h => hk (ht k h)
  · rw [es, es]
    obtain ⟨h1, h2, h3⟩ := hl.agree (K := K) (s := (s, [])) (u := (u, [])) ht (rest_iff.2 ⟨hu.len, hu.cap, hu.blocks⟩) rfl hu.block
    obtain ⟨a, b, d⟩ := rest_iff.1 h2
    exact ⟨h1, a, b, d, h3⟩

theorem touches_of {W : Nat} {m : M (LV W) β} {m0 : M (EV W) β} {K : Nat → Prop} {s : EV W} {lo hi : Nat} {J : β → LV W → Prop} (hl : Local (view W) m) (he : ∀ p, ErasesAt drop1 m m0 p)
    (ht : Tr (view W) K m (s, []) lo hi J) : Touches K m0 s :=
  touches_of_log hl he fun k hk => (ht.sub k hk).resolve_left (by
    show ¬ k ∈ []
    exact List.not_mem_nil)

theorem logs_of {W : Nat} {m : M (LV W) β} {m0 : M (EV W) β} {s : EV W} (hl : Local (view W) m) (he : ∀ p, ErasesAt drop1 m m0 p) : Logs m m0 s :=
  ⟨he (s, []), touches_of_log hl he fun _ hk => hk⟩

theorem count_le {W : Nat} {m : M (LV W) β} {K : Nat → Prop} {s : EV W} {lo hi : Nat} {J : β → LV W → Prop} (ht : Tr (view W) K m (s, []) lo hi J) : (accesses m s).length ≤ hi := by
  have : (m (s, [])).2.2.length ≤ 0 + hi := ht.high
  unfold accesses
  omega

theorem count_ge {W : Nat} {m : M (LV W) β} {m0 : M (EV W) β} {K : Nat → Prop} {s : EV W} {lo hi : Nat} {J : β → LV W → Prop} (he : ∀ p, ErasesAt drop1 m m0 p) (ht : Tr (view W) K m (s, []) lo hi J)
    {b : β} (hb : (m0 s).1 = .ok b) : lo ≤ (accesses m s).length := by
  have e : (m0 s).1 = (m (s, [])).1 := congrArg Prod.fst (he (s, []))
  have : 0 + lo ≤ (m (s, [])).2.2.length := (ht.post b (e ▸ hb)).1
  unfold accesses
  omega

theorem touchesWith_of_log {W : Nat} {m : M (LV W × τ) β} {m0 : M (EV W × τ) β} {K : Nat → Prop} {s : EV W} {t : τ}
    (hl : Local ((view W).prod (.plain τ)) m) (he : ∀ p, ErasesAt dropC m m0 p) (ht : ∀ k ∈ ((view W).prod (.plain τ)).log (m ((s, []), t)).2, Sum.elim K (fun _ => False) k) : TouchesWith K m0 s t := by
  have es : ∀ u : EV W, m0 (u, t) = ((m ((u, []), t)).1, ((m ((u, []), t)).2.1.1, (m ((u, []), t)).2.2)) := fun u => he ((u, []), t)
  refine ⟨fun k hk => ?_, fun u hu => ?_⟩
  · rw [es]
    have := (hl ((s, []), t)).keep (.inl k) fun h => hk (ht _ h)
    have : ((m ((s, []), t)).2.1.1.storage.data[k]?).map Sum.inl = ((s.storage.data[k]?).map Sum.inl : Option (BitVec W ⊕ Empty)) ∨
        ((m ((s, []), t)).2.1.1.storage.data[k]?).map Sum.inl = (none : Option (BitVec W ⊕ Empty)) := this
    rcases this with h | h
    · refine .inl ?_
      have := congrArg (Option.map (fun x : BitVec W ⊕ Empty => x.elim id (fun e => e.elim))) h
      simpa [Option.map_map, Function.comp_def] using this
    · exact .inr (by simpa using h)
  · rw [es, es]
    have hr : ((view W).prod (.plain τ)).rest ((s, []), t) = ((view W).prod (.plain τ)).rest ((u, []), t) := by
      show ((view W).rest (s, []), t) = ((view W).rest (u, []), t)
      rw [rest_iff (s := (s, [])) (u := (u, [])) |>.2 ⟨hu.len, hu.cap, hu.blocks⟩]
    obtain ⟨h1, h2, h3⟩ := hl.agree (K := Sum.elim K fun _ => False) (s := ((s, []), t)) (u := ((u, []), t)) ht hr rfl (by
      intro k hk
      cases k with
      | inl k => exact congrArg (Option.map Sum.inl) (hu.block k hk)
      | inr k => exact hk.elim)
    obtain ⟨h2, h4⟩ := Prod.mk.inj h2
    obtain ⟨a, b, d⟩ := rest_iff.1 h2
    refine ⟨h1, h4.symm, a, b, d, fun k hk => ?_⟩
    have h : ((m ((s, []), t)).2.1.1.storage.data[k]?).map Sum.inl = (((m ((u, []), t)).2.1.1.storage.data[k]?).map Sum.inl : Option (BitVec W ⊕ Empty)) := h3 (.inl k) hk
    have := congrArg (Option.map (fun x : BitVec W ⊕ Empty => x.elim id (fun e => e.elim))) h
    simpa [Option.map_map, Function.comp_def] using this

theorem touchesWith_of {W : Nat} {m : M (LV W × τ) β} {m0 : M (EV W × τ) β} {K : Nat → Prop} {s : EV W} {t : τ} {lo hi : Nat} {J : β → LV W × τ → Prop}
    (hl : Local ((view W).prod (.plain τ)) m) (he : ∀ p, ErasesAt dropC m m0 p) (ht : Tr ((view W).prod (.plain τ)) (Sum.elim K fun _ => False) m ((s, []), t) lo hi J) : TouchesWith K m0 s t :=
  touchesWith_of_log hl he fun k hk => (ht.sub k hk).resolve_left (by
    show ¬ k ∈ []
    exact List.not_mem_nil)

theorem logsWith_of {W : Nat} {m : M (LV W × τ) β} {m0 : M (EV W × τ) β} {s : EV W} {t : τ} (hl : Local ((view W).prod (.plain τ)) m) (he : ∀ p, ErasesAt dropC m m0 p) : LogsWith m m0 s t :=
  ⟨he ((s, []), t), touchesWith_of_log hl he fun k hk => by
    cases k with
    | inl k => exact mem_inl.1 hk
    | inr k => exact k.elim⟩

theorem countWith_le {W : Nat} {m : M (LV W × τ) β} {K : Nat ⊕ Empty → Prop} {s : EV W} {t : τ} {lo hi : Nat} {J : β → LV W × τ → Prop} (ht : Tr ((view W).prod (.plain τ)) K m ((s, []), t) lo hi J) :
    (accessesWith m s t).length ≤ hi := by
  have := ht.high
  rw [prod_log_length, prod_log_length] at this
  have : (m ((s, []), t)).2.1.2.length + 0 ≤ 0 + 0 + hi := this
  unfold accessesWith
  omega

theorem countWith_ge {W : Nat} {m : M (LV W × τ) β} {m0 : M (EV W × τ) β} {K : Nat ⊕ Empty → Prop} {s : EV W} {t : τ} {lo hi : Nat} {J : β → LV W × τ → Prop} (he : ∀ p, ErasesAt dropC m m0 p)
    (ht : Tr ((view W).prod (.plain τ)) K m ((s, []), t) lo hi J) {b : β} (hb : (m0 (s, t)).1 = .ok b) : lo ≤ (accessesWith m s t).length := by
  have e : (m0 (s, t)).1 = (m ((s, []), t)).1 := congrArg Prod.fst (he ((s, []), t))
  have := (ht.post b (e ▸ hb)).1
  rw [prod_log_length, prod_log_length] at this
  have : 0 + 0 + lo ≤ (m ((s, []), t)).2.1.2.length + 0 := this
  unfold accessesWith
  omega

theorem touches2_of_log {W : Nat} {m : M (LV W × LV W) β} {m0 : M (EV W × EV W) β} {K : Nat ⊕ Nat → Prop} {s t : EV W}
    (hl : Local ((view W).prod (view W)) m) (he : ∀ p, ErasesAt drop2 m m0 p) (ht : ∀ k ∈ ((view W).prod (view W)).log (m ((s, []), (t, []))).2, K k) :
    Touches2 (fun k => K (.inl k)) (fun k => K (.inr k)) m0 s t := by
  have es : ∀ u v : EV W, m0 (u, v) = ((m ((u, []), (v, []))).1, ((m ((u, []), (v, []))).2.1.1, (m ((u, []), (v, []))).2.2.1)) := fun u v => he ((u, []), (v, []))
  have unl : ∀ x y : Option (BitVec W), x.map Sum.inl = (y.map Sum.inl : Option (BitVec W ⊕ BitVec W)) → x = y := fun x y h => by
    cases x <;> cases y <;> simp_all
  have unr : ∀ x y : Option (BitVec W), x.map Sum.inr = (y.map Sum.inr : Option (BitVec W ⊕ BitVec W)) → x = y := fun x y h => by
    cases x <;> cases y <;> simp_all
  refine ⟨⟨fun k hk => ?_, fun k hk => ?_⟩, fun u v hu hv => ?_⟩
  · rw [es]
    rcases (hl ((s, []), (t, []))).keep (.inl k) fun h => hk (ht _ h) with h | h
    · exact .inl (unl _ _ h)
    · exact .inr (unl _ none h)
  · rw [es]
    rcases (hl ((s, []), (t, []))).keep (.inr k) fun h => hk (ht _ h) with h | h
    · exact .inl (unr _ _ h)
    · exact .inr (unr _ none h)
  · rw [es, es]
    have hr : ((view W).prod (view W)).rest ((s, []), (t, [])) = ((view W).prod (view W)).rest ((u, []), (v, [])) := by
      show ((view W).rest (s, []), (view W).rest (t, [])) = ((view W).rest (u, []), (view W).rest (v, []))
      rw [rest_iff (s := (s, [])) (u := (u, [])) |>.2 ⟨hu.len, hu.cap, hu.blocks⟩, rest_iff (s := (t, [])) (u := (v, [])) |>.2 ⟨hv.len, hv.cap, hv.blocks⟩]
    obtain ⟨h1, h2, h3⟩ := hl.agree (K := K) (s := ((s, []), (t, []))) (u := ((u, []), (v, []))) ht hr rfl (by
      intro k hk
      cases k with
      | inl k => exact congrArg (Option.map Sum.inl) (hu.block k hk)
      | inr k => exact congrArg (Option.map Sum.inr) (hv.block k hk))
    obtain ⟨h2, h4⟩ := Prod.mk.inj h2
    obtain ⟨a, b, d⟩ := rest_iff.1 h2
    obtain ⟨a', b', d'⟩ := rest_iff.1 h4
    exact ⟨h1, ⟨a, b, d, fun k hk => unl _ _ (h3 (.inl k) hk)⟩, a', b', d', fun k hk => unr _ _ (h3 (.inr k) hk)⟩

theorem touches2_of {W : Nat} {m : M (LV W × LV W) β} {m0 : M (EV W × EV W) β} {K : Nat ⊕ Nat → Prop} {s t : EV W} {lo hi : Nat} {J : β → LV W × LV W → Prop}
    (hl : Local ((view W).prod (view W)) m) (he : ∀ p, ErasesAt drop2 m m0 p) (ht : Tr ((view W).prod (view W)) K m ((s, []), (t, [])) lo hi J) :
    Touches2 (fun k => K (.inl k)) (fun k => K (.inr k)) m0 s t :=
  touches2_of_log hl he fun k hk => (ht.sub k hk).resolve_left (by
    show ¬ k ∈ []
    exact List.not_mem_nil)

theorem logs2_of {W : Nat} {m : M (LV W × LV W) β} {m0 : M (EV W × EV W) β} {s t : EV W} (hl : Local ((view W).prod (view W)) m) (he : ∀ p, ErasesAt drop2 m m0 p) : Logs2 m m0 s t :=
  ⟨he ((s, []), (t, [])), touches2_of_log (K := Sum.elim _ _) hl he fun k hk => by
    cases k with
    | inl k => exact mem_inl.1 hk
    | inr k => exact mem_inr.1 hk⟩

theorem count2_le {W : Nat} {m : M (LV W × LV W) β} {K : Nat ⊕ Nat → Prop} {s t : EV W} {lo hi : Nat} {J : β → LV W × LV W → Prop} (ht : Tr ((view W).prod (view W)) K m ((s, []), (t, [])) lo hi J) :
    (accesses2 m s t).1.length + (accesses2 m s t).2.length ≤ hi := by
  have := ht.high
  rw [prod_log_length, prod_log_length] at this
  have : (m ((s, []), (t, []))).2.1.2.length + (m ((s, []), (t, []))).2.2.2.length ≤ 0 + 0 + hi := this
  unfold accesses2
  dsimp only
  omega

theorem count2_ge {W : Nat} {m : M (LV W × LV W) β} {m0 : M (EV W × EV W) β} {K : Nat ⊕ Nat → Prop} {s t : EV W} {lo hi : Nat} {J : β → LV W × LV W → Prop} (he : ∀ p, ErasesAt drop2 m m0 p)
    (ht : Tr ((view W).prod (view W)) K m ((s, []), (t, [])) lo hi J) {b : β} (hb : (m0 (s, t)).1 = .ok b) : lo ≤ (accesses2 m s t).1.length + (accesses2 m s t).2.length := by
  have e : (m0 (s, t)).1 = (m ((s, []), (t, []))).1 := congrArg Prod.fst (he ((s, []), (t, [])))
  have := (ht.post b (e ▸ hb)).1
  rw [prod_log_length, prod_log_length] at this
  have : 0 + 0 + lo ≤ (m ((s, []), (t, []))).2.1.2.length + (m ((s, []), (t, []))).2.2.2.length := this
  unfold accesses2
  dsimp only
  omega

end Access
end EnumVecModel
