import Verif.Lemmas.AccessLocal

/-! # Block accesses: which and how many -/

namespace EnumVecModel
open EV
variable {α τ σ σ' β γ : Type}

namespace Access

/-- From `s`, `m` logs only places in `K`, at most `hi` of them, at least `lo` if it returns; and if it returns, `J` holds afterwards. -/
structure Tr (V : View σ) (K : V.Key → Prop) (m : M σ β) (s : σ) (lo hi : Nat) (J : β → σ → Prop) : Prop where
  sub : ∀ k ∈ V.log (m s).2, k ∈ V.log s ∨ K k
  high : (V.log (m s).2).length ≤ (V.log s).length + hi
  post : ∀ b, (m s).1 = .ok b → (V.log s).length + lo ≤ (V.log (m s).2).length ∧ J b (m s).2

section
variable {V : View σ} {K : V.Key → Prop} {s : σ} {lo hi lo' hi' : Nat}

theorem Tr.weak {m : M σ β} {J J' : β → σ → Prop} (h : Tr V K m s lo hi J) (h1 : lo' ≤ lo) (h2 : hi ≤ hi') (hJ : ∀ b q, J b q → J' b q) : Tr V K m s lo' hi' J' :=
  ⟨h.sub, by have := h.high; omega, fun b hb => by
    obtain ⟨h3, h4⟩ := h.post b hb
    exact ⟨by omega, hJ _ _ h4⟩⟩

theorem Tr.pure (b : β) : Tr V K (Pure.pure b : M σ β) s 0 0 fun b' q => b' = b ∧ q = s :=
  ⟨fun _ h => .inl h, Nat.le_refl _, fun _ h => ⟨Nat.le_refl _, (Except.ok.inj h).symm, rfl⟩⟩

theorem Tr.fail (e : Fault) {J : β → σ → Prop} : Tr V K (M.fail e : M σ β) s lo hi J :=
  ⟨fun _ h => .inl h, Nat.le_add_right _ _, fun _ h => by cases h⟩

theorem Tr.lift (r : Except Fault β) : Tr V K (M.lift r : M σ β) s 0 0 fun b q => r = .ok b ∧ q = s :=
  ⟨fun _ h => .inl h, Nat.le_refl _, fun _ h => ⟨Nat.le_refl _, h, rfl⟩⟩

theorem Tr.unwrap (o : Option β) : Tr V K (M.unwrap o : M σ β) s 0 0 fun b q => o = some b ∧ q = s := by
  cases o with
  | none => exact .fail _
  | some b => exact (Tr.pure b).weak (Nat.le_refl _) (Nat.le_refl _) fun _ _ h => ⟨by rw [h.1], h.2⟩

theorem Tr.bind {m : M σ β} {f : β → M σ γ} {J : β → σ → Prop} {J' : γ → σ → Prop} (h : Tr V K m s lo hi J)
    (hf : ∀ b q, J b q → Tr V K (f b) q lo' hi' J') : Tr V K (m >>= f) s (lo + lo') (hi + hi') J' := by
  obtain ⟨a1, a2, a3⟩ := h
  rcases hm : m s with ⟨e | b, q⟩
  · rw [hm] at a1 a2
    refine ⟨?_, ?_, ?_⟩ <;> rw [M.bind_error hm]
    · exact a1
    · dsimp only at a2 ⊢; omega
    · intro b hb; cases hb
  · rw [hm] at a1 a2 a3
    obtain ⟨a4, a5⟩ := a3 b rfl
    obtain ⟨b1, b2, b3⟩ := hf b q a5
    refine ⟨?_, ?_, ?_⟩ <;> rw [M.bind_ok hm]
    · intro k hk
      rcases b1 k hk with h | h
      · exact a1 k h
      · exact .inr h
    · dsimp only at a2; omega
    · intro b' hb
      obtain ⟨b4, b5⟩ := b3 b' hb
      exact ⟨by dsimp only at a4; omega, b5⟩

theorem Tr.loop {body : Nat → β → M σ β} {l h : Nat} (I : Nat → β → σ → Prop)
    (hb : ∀ i b s, I i b s → Tr V K (body i b) s l h (I (i + 1))) :
    ∀ (n i : Nat) (b : β) (s : σ), I i b s → Tr V K (EnumVecModel.loop body n i b) s (n * l) (n * h) (I (i + n))
  | 0, i, b, s, hI => (Tr.pure b).weak (by omega) (by omega) fun _ _ h => by obtain ⟨rfl, rfl⟩ := h; exact hI
  | n + 1, i, b, s, hI => by
    refine (Tr.bind (hb i b s hI) fun b' q hq => Tr.loop I hb n (i + 1) b' q hq).weak ?_ ?_ ?_
    · rw [Nat.add_mul]; omega
    · rw [Nat.add_mul]; omega
    · intro b q hq
      rw [show i + (n + 1) = i + 1 + n by omega]
      exact hq

/-- The same, where the body only needs to behave while the index is in the range. -/
theorem Tr.loopIn {body : Nat → β → M σ β} {l h : Nat} (e : Nat) (I : Nat → β → σ → Prop)
    (hb : ∀ i b s, i < e → I i b s → Tr V K (body i b) s l h (I (i + 1))) :
    ∀ (n i : Nat) (b : β) (s : σ), i + n ≤ e → I i b s → Tr V K (EnumVecModel.loop body n i b) s (n * l) (n * h) (I (i + n))
  | 0, i, b, s, _, hI => (Tr.pure b).weak (by omega) (by omega) fun _ _ h => by obtain ⟨rfl, rfl⟩ := h; exact hI
  | n + 1, i, b, s, he, hI => by
    refine (Tr.bind (hb i b s (by omega) hI) fun b' q hq => Tr.loopIn e I hb n (i + 1) b' q (by omega) hq).weak ?_ ?_ ?_
    · rw [Nat.add_mul]; omega
    · rw [Nat.add_mul]; omega
    · intro b q hq
      rw [show i + (n + 1) = i + 1 + n by omega]
      exact hq

theorem Tr.ite {p : Prop} [Decidable p] {m m' : M σ β} {J : β → σ → Prop} (h : p → Tr V K m s lo hi J) (h' : ¬p → Tr V K m' s lo hi J) :
    Tr V K (if p then m else m') s lo hi J := by
  split
  · exact h ‹_›
  · exact h' ‹_›

/-- Places, weakened. -/
theorem Tr.mono {K' : V.Key → Prop} {m : M σ β} {J : β → σ → Prop} (h : Tr V K m s lo hi J) (hK : ∀ k, K k → K' k) : Tr V K' m s lo hi J :=
  ⟨fun k hk => (h.sub k hk).imp_right (hK k), h.high, h.post⟩

end

theorem prod_log_length (V : View σ) (U : View σ') (q : σ × σ') : ((V.prod U).log q).length = (V.log q.1).length + (U.log q.2).length := by
  show ((V.log q.1).map Sum.inl ++ (U.log q.2).map Sum.inr : List (V.Key ⊕ U.Key)).length = _
  simp

theorem Tr.onFst {V : View σ} {U : View σ'} {K : (V.prod U).Key → Prop} {m : M σ β} {p : σ × σ'} {lo hi : Nat} {J : β → σ → Prop}
    (h : Tr V (fun k => K (.inl k)) m p.1 lo hi J) : Tr (V.prod U) K (onFst m) p lo hi fun b q => J b q.1 ∧ q.2 = p.2 := by
  have e := prod_log_length V U
  refine ⟨fun k hk => ?_, ?_, fun b hb => ?_⟩
  · cases k with
    | inl k =>
      rcases h.sub k (mem_inl.1 hk) with h | h
      · exact .inl (mem_inl.2 h)
      · exact .inr h
    | inr k =>
      have h : k ∈ U.log p.2 := (mem_inr (V := V) (U := U) (p := (EV.onFst m p).2)).1 hk
      exact .inl (mem_inr.2 h)
  · have := h.high
    rw [e, e]
    show (V.log (m p.1).2).length + (U.log p.2).length ≤ _
    omega
  · obtain ⟨h1, h2⟩ := h.post b hb
    refine ⟨?_, h2, rfl⟩
    rw [e, e]
    show _ ≤ (V.log (m p.1).2).length + (U.log p.2).length
    omega

theorem Tr.onSnd {V : View σ} {U : View σ'} {K : (V.prod U).Key → Prop} {m : M σ' β} {p : σ × σ'} {lo hi : Nat} {J : β → σ' → Prop}
    (h : Tr U (fun k => K (.inr k)) m p.2 lo hi J) : Tr (V.prod U) K (onSnd m) p lo hi fun b q => J b q.2 ∧ q.1 = p.1 := by
  have e := prod_log_length V U
  refine ⟨fun k hk => ?_, ?_, fun b hb => ?_⟩
  · cases k with
    | inr k =>
      have hk : k ∈ U.log (m p.2).2 := (mem_inr (V := V) (U := U) (p := (EV.onSnd m p).2)).1 hk
      rcases h.sub k hk with h | h
      · exact .inl (mem_inr.2 h)
      · exact .inr h
    | inl k =>
      have h : k ∈ V.log p.1 := (mem_inl (V := V) (U := U) (p := (EV.onSnd m p).2)).1 hk
      exact .inl (mem_inl.2 h)
  · have := h.high
    rw [e, e]
    show (V.log p.1).length + (U.log (m p.2).2).length ≤ _
    omega
  · obtain ⟨h1, h2⟩ := h.post b hb
    refine ⟨?_, h2, rfl⟩
    rw [e, e]
    show _ ≤ (V.log p.1).length + (U.log (m p.2).2).length
    omega

theorem Tr.call {V : View σ} {K : (V.prod (View.plain τ)).Key → Prop} (f : Closure τ α β) (x : α) (p : σ × τ) : Tr (V.prod (View.plain τ)) K (EV.call f x) p 0 0 fun _ q => q.1 = p.1 := by
  have e : (EV.call f x p).2.1 = p.1 := by
    unfold EV.call
    rcases f x p.2 with ⟨_ | _, t⟩ <;> rfl
  have el : (V.prod (View.plain τ)).log (EV.call f x p).2 = (V.prod (View.plain τ)).log p := by
    show ((V.log (EV.call f x p).2.1).map Sum.inl ++ [].map Sum.inr : List (V.Key ⊕ Empty)) = _
    rw [e]
    rfl
  exact ⟨fun k hk => .inl (el ▸ hk), by rw [el]; exact Nat.le_refl _, fun _ _ => ⟨by rw [el]; exact Nat.le_refl _, e⟩⟩

/-! ## The methods -/

section
variable (c : Inst α)

/-- What stays: length and number of blocks. -/
def Keeps {W : Nat} (s q : LV W) : Prop := q.1.num = s.1.num ∧ q.1.storage.data.length = s.1.storage.data.length

theorem Keeps.trans {W : Nat} {s q r : LV W} (h1 : Keeps s q) (h2 : Keeps q r) : Keeps s r := ⟨h2.1.trans h1.1, h2.2.trans h1.2⟩
theorem Keeps.refl {W : Nat} (s : LV W) : Keeps s s := ⟨rfl, rfl⟩

variable {c} {K : Nat → Prop} {s : LV c.W}

theorem len_tr : Tr (view c.W) K (len c) s 0 0 fun b q => b = s.1.num ∧ q = s :=
  ⟨fun _ h => .inl h, Nat.le_refl _, fun _ h => ⟨Nat.le_refl _, (Except.ok.inj h).symm, rfl⟩⟩

theorem setLen_tr (n : Nat) : Tr (view c.W) K (setLen c n) s 0 0 fun _ q => q.1.num = n ∧ q.1.storage.data.length = s.1.storage.data.length :=
  ⟨fun _ h => .inl h, Nat.le_refl _, fun _ _ => ⟨Nat.le_refl _, rfl, rfl⟩⟩

theorem one_tr {m : M (EV c.W) β} {k : Nat} (hk : K k) (hm : ∀ v, (m v).2.num = v.num ∧ (m v).2.storage.data.length = v.storage.data.length) :
    Tr (view c.W) K (touch [k] >>= fun _ => onFst m) s 1 1 fun _ q => Keeps s q := by
  have e : (touch [k] >>= fun _ => onFst m : M (LV c.W) β) s = ((m s.1).1, ((m s.1).2, s.2 ++ [k])) := rfl
  refine ⟨?_, ?_, fun b _ => ?_⟩ <;> rw [e]
  · intro j hj
    rcases List.mem_append.1 hj with h | h
    · exact .inl h
    · obtain rfl := List.mem_singleton.1 h
      exact .inr hk
  · show (s.2 ++ [k]).length ≤ s.2.length + 1
    simp
  · refine ⟨?_, hm _⟩
    show s.2.length + 1 ≤ (s.2 ++ [k]).length
    simp

theorem getRawUnchecked_tr {i : Nat} (h : K (i / c.epb)) : Tr (view c.W) K (getRawUnchecked c i) s 1 1 fun _ q => Keeps s q :=
  one_tr h fun _ => ⟨rfl, rfl⟩

theorem block_tr {i : Nat} (h : K i) : Tr (view c.W) K (block c i) s 1 1 fun _ q => Keeps s q :=
  one_tr h fun v => by unfold EV.block; split <;> exact ⟨rfl, rfl⟩

theorem setBlock_tr {i : Nat} (b : BitVec c.W) (h : K i) : Tr (view c.W) K (setBlock c i b) s 1 1 fun _ q => Keeps s q :=
  one_tr h fun v => ⟨rfl, by
    show (v.storage.data.set i b).length = _
    rw [List.length_set]⟩

theorem setRawUnchecked_tr {i : Nat} (d : Nat) (h : K (i / c.epb)) : Tr (view c.W) K (setRawUnchecked c i d) s 1 1 fun _ q => Keeps s q :=
  one_tr h fun v => by
    unfold EV.setRawUnchecked
    split
    · exact ⟨rfl, List.length_set⟩
    · exact ⟨rfl, rfl⟩

theorem getRaw_tr {i : Nat} (h : i < s.1.num → K (i / c.epb)) :
    Tr (view c.W) K (getRaw c i) s (if i < s.1.num then 1 else 0) (if i < s.1.num then 1 else 0) fun b q => Keeps s q ∧ (b.isSome ↔ i < s.1.num) := by
  unfold getRaw
  refine (Tr.bind len_tr fun n q hn => ?_).weak (Nat.le_of_eq (Nat.zero_add _).symm) (Nat.le_of_eq (Nat.zero_add _)) fun _ _ h => h
  obtain ⟨rfl, rfl⟩ := hn
  refine .ite (fun h1 => ?_) fun h1 => ?_
  · rw [if_neg (by omega)]
    refine (Tr.pure _).weak (Nat.le_refl _) (Nat.le_refl _) fun _ _ h => ?_
    obtain ⟨rfl, rfl⟩ := h
    exact ⟨.refl _, by simp; omega⟩
  · rw [if_pos (by omega)]
    refine .bind (lo' := 0) (hi' := 0) (getRawUnchecked_tr (h (by omega))) fun b q hq => (Tr.pure _).weak (Nat.le_refl _) (Nat.le_refl _) fun _ _ h => ?_
    obtain ⟨rfl, rfl⟩ := h
    exact ⟨hq, by simp; omega⟩

theorem setRaw_tr {i d : Nat} (h : i < s.1.num → K (i / c.epb)) :
    Tr (view c.W) K (setRaw c i d) s 1 (if i < s.1.num then 1 else 0) fun _ q => Keeps s q ∧ i < s.1.num := by
  unfold setRaw
  refine (Tr.bind len_tr fun n q hn => ?_).weak (Nat.le_of_eq (Nat.zero_add _).symm) (Nat.le_of_eq (Nat.zero_add _)) fun _ _ h => h
  obtain ⟨rfl, rfl⟩ := hn
  refine .ite (fun h1 => ?_) fun h1 => ?_
  · exact (Tr.bind (lo := 0) (hi := 0) (J := fun _ _ => False) (.fail _) fun _ _ h => h.elim).weak (Nat.le_of_eq (Nat.zero_add _).symm) (Nat.le_of_eq (Nat.zero_add _)) fun _ _ h => h
  · rw [if_pos (by omega)]
    exact (setRawUnchecked_tr d (h (by omega))).weak (Nat.le_refl _) (Nat.le_refl _) fun _ _ h => ⟨h, by omega⟩

theorem fromDiscr_tr {V : View σ} {K : V.Key → Prop} {s : σ} (x : Nat) : Tr V K (fromDiscr c x) s 0 0 fun _ q => q = s := by
  unfold fromDiscr
  cases c.E.fromDiscr x with
  | some a => exact (Tr.pure _).weak (Nat.le_refl _) (Nat.le_refl _) fun _ _ h => h.2
  | none => exact .fail _

theorem get_tr {i : Nat} (h : i < s.1.num → K (i / c.epb)) :
    Tr (view c.W) K (get c i) s (if i < s.1.num then 1 else 0) (if i < s.1.num then 1 else 0) fun b q => Keeps s q ∧ (b.isSome ↔ i < s.1.num) := by
  unfold get
  refine (Tr.bind (lo' := 0) (hi' := 0) (getRaw_tr h) fun b q hb => ?_).weak (Nat.le_refl _) (Nat.le_refl _) fun _ _ h => h
  cases b with
  | none => exact (Tr.pure _).weak (Nat.le_refl _) (Nat.le_refl _) fun _ _ h => by obtain ⟨rfl, rfl⟩ := h; exact hb
  | some x => exact (Tr.bind (fromDiscr_tr x) fun a q' h => (Tr.pure _).weak (Nat.le_refl _) (Nat.le_refl _) fun _ _ h' => by
      obtain ⟨rfl, rfl⟩ := h'
      subst h
      exact ⟨hb.1, by simpa using hb.2⟩)

theorem set_tr {i : Nat} {x : α} (h : i < s.1.num → K (i / c.epb)) :
    Tr (view c.W) K (set c i x) s 1 (if i < s.1.num then 1 else 0) fun _ q => Keeps s q ∧ i < s.1.num := setRaw_tr h

/-- `get(i).unwrap()` -/
theorem getUnwrap_tr {i : Nat} {f : α → M (LV c.W) β} {lo hi : Nat} {J : β → LV c.W → Prop} (h : i < s.1.num → K (i / c.epb))
    (hf : ∀ x q, Keeps s q → i < s.1.num → Tr (view c.W) K (f x) q lo hi J) : Tr (view c.W) K (get c i >>= fun x => M.unwrap x >>= f) s (1 + lo) (1 + hi) J := by
  by_cases hi' : i < s.1.num
  · refine .bind ((get_tr h).weak (lo' := 1) (hi' := 1) ?_ ?_ fun _ _ h => h) fun b q hb => ?_
    · rw [if_pos hi']; exact Nat.le_refl _
    · rw [if_pos hi']; exact Nat.le_refl _
    · exact (Tr.bind (Tr.unwrap b) fun x q' hq => by
        obtain ⟨-, rfl⟩ := hq
        exact hf x _ hb.1 hi').weak (Nat.le_of_eq (Nat.zero_add _).symm) (Nat.le_of_eq (Nat.zero_add _)) fun _ _ h => h
  · refine (Tr.bind (lo' := 1 + lo) (hi' := hi) ((get_tr h).weak (lo' := 0) (hi' := 1) (Nat.zero_le _) ?_ fun _ _ h => h) (fun b q hb => ?_)).weak (by omega) (Nat.le_refl _) fun _ _ h => h
    · rw [if_neg hi']; exact Nat.zero_le _
    · cases b with
      | some x => exact absurd (hb.2.1 rfl) hi'
      | none =>
        exact (Tr.bind (lo := 0) (hi := 0) (J := fun _ _ => False) (.fail _) fun _ _ h => h.elim).weak (Nat.le_of_eq (Nat.zero_add _).symm) (Nat.le_of_eq (Nat.zero_add _)) fun _ _ h => h

/-! ### Steps without accesses -/

theorem Tr.readLen {f : Nat → M (LV c.W) γ} {lo hi : Nat} {J : γ → LV c.W → Prop} (h : Tr (view c.W) K (f s.1.num) s lo hi J) : Tr (view c.W) K (len c >>= f) s lo hi J := ⟨h.sub, h.high, h.post⟩

theorem Tr.writeLen {n : Nat} {f : Unit → M (LV c.W) γ} {lo hi : Nat} {J : γ → LV c.W → Prop} (h : Tr (view c.W) K (f ()) ({ s.1 with num := n }, s.2) lo hi J) :
    Tr (view c.W) K (setLen c n >>= f) s lo hi J := ⟨h.sub, h.high, h.post⟩

theorem Tr.liftB {V : View σ} {K : V.Key → Prop} {s : σ} {r : Except Fault β} {f : β → M σ γ} {lo hi : Nat} {J : γ → σ → Prop} (h : ∀ b, r = .ok b → Tr V K (f b) s lo hi J) :
    Tr V K (M.lift r >>= f) s lo hi J := by
  cases r with
  | error e => exact ⟨fun _ h => .inl h, Nat.le_add_right _ _, fun _ h => by cases h⟩
  | ok b => exact h b rfl

theorem Tr.unwrapB {V : View σ} {K : V.Key → Prop} {s : σ} {r : Option β} {f : β → M σ γ} {lo hi : Nat} {J : γ → σ → Prop} (h : ∀ b, r = some b → Tr V K (f b) s lo hi J) :
    Tr V K (M.unwrap r >>= f) s lo hi J := by
  cases r with
  | none => exact ⟨fun _ h => .inl h, Nat.le_add_right _ _, fun _ h => by cases h⟩
  | some b => exact h b rfl

theorem Tr.failB {V : View σ} {K : V.Key → Prop} {s : σ} {e : Fault} {f : β → M σ γ} {lo hi : Nat} {J : γ → σ → Prop} : Tr V K (M.fail e >>= f) s lo hi J :=
  ⟨fun _ h => .inl h, Nat.le_add_right _ _, fun _ h => by cases h⟩

theorem Tr.ret {V : View σ} {K : V.Key → Prop} {s : σ} {b : β} {hi : Nat} {J : β → σ → Prop} (h : J b s) : Tr V K (Pure.pure b : M σ β) s 0 hi J :=
  ⟨fun _ h => .inl h, Nat.le_add_right _ _, fun _ hb => ⟨Nat.le_refl _, by obtain rfl := Except.ok.inj hb; exact h⟩⟩

/-- The last call. -/
theorem Tr.of {V : View σ} {K : V.Key → Prop} {s : σ} {m : M σ β} {lo hi lo' hi' : Nat} {J J' : β → σ → Prop} (h : Tr V K m s lo hi J) (hJ : ∀ b q, J b q → J' b q) (h1 : lo' ≤ lo := by omega)
    (h2 : hi ≤ hi' := by omega) : Tr V K m s lo' hi' J' := h.weak h1 h2 hJ

/-! ### Growing and shrinking -/

theorem truncate_tr (n : Nat) : Tr (view c.W) K (truncate c n) s 0 0 fun _ q => q.1.num = min n s.1.num ∧ q.1.storage.data.length = s.1.storage.data.length := by
  refine .readLen (.ite (fun h => ?_) fun h => ?_)
  · exact (setLen_tr n).of fun _ _ h' => ⟨by omega, h'.2⟩
  · exact .ret ⟨by omega, rfl⟩

/-- Appended blocks. -/
theorem add_tr {m : M (LV c.W) Unit} {a b : Nat} (h : (∃ e, m s = (.error e, s)) ∨ ∃ v, m s = (.ok (), (v, s.2 ++ List.range' a b)))
    (hK : ∀ k, a ≤ k → k < a + b → K k) : Tr (view c.W) K m s b b fun _ _ => True := by
  rcases h with ⟨e, h⟩ | ⟨v, h⟩ <;> refine ⟨?_, ?_, fun x hx => ?_⟩ <;> rw [h] at *
  · exact fun _ h => .inl h
  · exact Nat.le_add_right _ _
  · cases hx
  · intro k hk
    rcases List.mem_append.1 hk with h | h
    · exact .inl h
    · obtain ⟨h1, h2⟩ := List.mem_range'_1.1 h
      exact .inr (hK k h1 h2)
  · show (s.2 ++ List.range' a b).length ≤ s.2.length + b
    simp
  · refine ⟨?_, trivial⟩
    show s.2.length + b ≤ (s.2 ++ List.range' a b).length
    simp

theorem Tr.and {V : View σ} {K : V.Key → Prop} {s : σ} {m : M σ β} {lo hi : Nat} {J J' : β → σ → Prop} (h : Tr V K m s lo hi J) (h' : ∀ b q, m s = (.ok b, q) → J' b q) :
    Tr V K m s lo hi fun b q => J b q ∧ J' b q :=
  ⟨h.sub, h.high, fun b hb => ⟨(h.post b hb).1, (h.post b hb).2, h' b _ (Prod.ext hb rfl)⟩⟩

theorem resizeStorage_tr {n : Nat} {x : BitVec c.W} (hK : ∀ k, s.1.storage.data.length ≤ k → k < n → K k) :
    Tr (view c.W) K (resizeStorage c n x) s (n - s.1.storage.data.length) (n - s.1.storage.data.length) fun _ q => q.1.num = s.1.num ∧ q.1.storage.data.length = n := by
  refine (Tr.and (add_tr (a := s.1.storage.data.length) (b := n - s.1.storage.data.length) ?_ fun k h1 h2 => hK k h1 (by omega)) (J' := fun _ q => q.1.num = s.1.num ∧ q.1.storage.data.length = n) ?_).of fun _ _ h => h.2
  · unfold resizeStorage
    rcases RVec.resize c.alloc s.1.storage n x with e | st
    · exact .inl ⟨e, rfl⟩
    · exact .inr ⟨_, rfl⟩
  · intro b q h
    unfold resizeStorage at h
    rcases hr : RVec.resize c.alloc s.1.storage n x with e | st <;> rw [hr] at h
    · cases (Prod.mk.inj h).1
    · obtain rfl := (Prod.mk.inj h).2
      refine ⟨rfl, ?_⟩
      show st.data.length = n
      unfold RVec.resize RVec.truncate RVec.len RVec.reserve RVec.len at hr
      split at hr
      · obtain rfl := Except.ok.inj hr
        show (s.1.storage.data.take n).length = n
        rw [List.length_take]; omega
      · split at hr
        · rename_i st' hr'
          obtain rfl := Except.ok.inj hr
          have : st'.data = s.1.storage.data := by
            split at hr'
            · rw [Except.ok.inj hr']
            · split at hr'
              · rw [← Except.ok.inj hr']
              · cases hr'
          show (st'.data ++ List.replicate (n - s.1.storage.data.length) x).length = n
          rw [this, List.length_append, List.length_replicate]; omega
        · cases hr

theorem growIfNeeded_tr (hlim : s.1.num < c.build.usizeLim) (hep : 0 < c.epb) (hK : K (s.1.num / c.epb)) :
    Tr (view c.W) K (growIfNeeded c) s 0 (if s.1.num = s.1.storage.data.length * c.epb then 1 else 0)
      fun _ q => q.1.num = s.1.num ∧ s.1.storage.data.length ≤ q.1.storage.data.length := by
  have hb : s.1.num % c.epb = 0 → blocksForElements c s.1.num = s.1.num / c.epb := by
    intro h0
    refine Nat.le_antisymm ?_ (Nat.div_le_div_right (by unfold satAdd; omega))
    unfold blocksForElements satAdd
    obtain ⟨k, hk⟩ := Nat.dvd_of_mod_eq_zero h0
    rw [hk, Nat.mul_div_cancel_left _ hep]
    refine Nat.le_trans (Nat.div_le_div_right (Nat.min_le_left _ _)) ?_
    rw [Nat.mul_add_div hep, Nat.div_eq_of_lt (by omega)]
    exact Nat.le_refl _
  by_cases hg : EV.len c s.1 % c.epb = 0 ∧ blocksForElements c (EV.len c s.1) = s.1.storage.len
  · have hg' : s.1.num % c.epb = 0 ∧ blocksForElements c s.1.num = s.1.storage.data.length := hg
    have hl : s.1.storage.data.length = s.1.num / c.epb := by rw [← hg'.2, hb hg'.1]
    have hmul : s.1.num = s.1.storage.data.length * c.epb := by
      rw [hl]
      exact (Nat.div_mul_cancel (Nat.dvd_of_mod_eq_zero hg'.1)).symm
    rw [if_pos hmul]
    have e : growIfNeeded c s = match RVec.push c.alloc s.1.storage 0 with
      | .ok st => (.ok (), ({ s.1 with storage := st }, s.2 ++ [s.1.storage.len]))
      | .error e => (.error e, s) := by
        unfold growIfNeeded
        rw [if_pos hg]
        rfl
    refine (Tr.and (add_tr (a := s.1.storage.data.length) (b := 1) ?_ fun k h1 h2 => ?_) (J' := fun _ q => q.1.num = s.1.num ∧ s.1.storage.data.length ≤ q.1.storage.data.length) ?_).of fun _ _ h => h.2
    · rw [e]
      rcases RVec.push c.alloc s.1.storage 0 with x | st
      · exact .inl ⟨x, rfl⟩
      · exact .inr ⟨_, rfl⟩
    · obtain rfl : k = s.1.num / c.epb := by omega
      exact hK
    · intro b q h
      rw [e] at h
      rcases hr : RVec.push c.alloc s.1.storage 0 with x | st <;> rw [hr] at h
      · cases (Prod.mk.inj h).1
      · obtain rfl := (Prod.mk.inj h).2
        refine ⟨rfl, ?_⟩
        show _ ≤ st.data.length
        unfold RVec.push RVec.reserve RVec.len at hr
        split at hr
        · rename_i st' hr'
          obtain rfl := Except.ok.inj hr
          have : st'.data = s.1.storage.data := by
            split at hr'
            · rw [Except.ok.inj hr']
            · split at hr'
              · rw [← Except.ok.inj hr']
              · cases hr'
          show _ ≤ (st'.data ++ [0]).length
          rw [this, List.length_append]; omega
        · cases hr
  · have e : growIfNeeded c s = (.ok (), s) := by
      unfold growIfNeeded
      rw [if_neg hg]
    refine ⟨?_, ?_, fun _ _ => ?_⟩ <;> rw [e]
    · exact fun _ h => .inl h
    · exact Nat.le_add_right _ _
    · exact ⟨Nat.le_refl _, rfl, Nat.le_refl _⟩

theorem push_tr {x : α} (hlim : s.1.num < c.build.usizeLim) (hep : 0 < c.epb) (hK : K (s.1.num / c.epb)) :
    Tr (view c.W) K (push c x) s 1 (if s.1.num = s.1.storage.data.length * c.epb then 2 else 1)
      fun _ q => q.1.num = s.1.num + 1 ∧ s.1.num + 1 < c.build.usizeLim ∧ s.1.storage.data.length ≤ q.1.storage.data.length := by
  refine (Tr.bind (growIfNeeded_tr hlim hep hK) (lo' := 1) (hi' := 1) (J' := fun _ q => q.1.num = s.1.num + 1 ∧ s.1.num + 1 < c.build.usizeLim ∧ s.1.storage.data.length ≤ q.1.storage.data.length)
    fun _ q hq => .readLen ?_).of (fun _ _ h => h) (by omega) (by split <;> omega)
  rw [hq.1]
  show Tr (view c.W) K (if s.1.num + 1 < c.build.usizeLim then setLen c (s.1.num + 1) >>= fun _ => set c s.1.num x else M.fail .capacity >>= fun _ => set c s.1.num x) q 1 1 _
  refine .ite (fun h => .writeLen ?_) fun h => .failB
  refine (set_tr fun _ => hK).of (fun _ _ h' => ⟨h'.1.1, h, ?_⟩) (Nat.le_refl _) (by split <;> omega)
  rw [h'.1.2]
  exact hq.2

theorem pop_tr (hK : 0 < s.1.num → K ((s.1.num - 1) / c.epb)) :
    Tr (view c.W) K (pop c) s 0 (min 1 s.1.num) fun _ q => q.1.num = s.1.num - 1 := by
  refine .readLen ?_
  show Tr (view c.W) K (if s.1.num == 0 then Pure.pure none else get c (s.1.num - 1) >>= fun x => M.unwrap x >>= fun x => len c >>= fun l => setLen c (l - 1) >>= fun _ => Pure.pure (some x))
    s _ _ _
  refine .ite (fun h => ?_) fun h => ?_
  · have h : s.1.num = 0 := by simpa using h
    exact .ret (by omega)
  · have h : s.1.num ≠ 0 := by simpa using h
    exact (getUnwrap_tr (lo := 0) (hi := 0) (J := fun _ q => q.1.num = s.1.num - 1) (fun _ => hK (by omega)) fun x q hq _ => .readLen (by
      refine .writeLen (f := fun _ => Pure.pure (some x)) ?_
      exact Tr.ret (by
        show q.1.num - 1 = _
        rw [hq.1]))).of (fun _ _ h => h) (Nat.zero_le _) (by omega)

theorem swap_tr {a b : Nat} (ha : a < s.1.num → K (a / c.epb)) (hb : b < s.1.num → K (b / c.epb)) :
    Tr (view c.W) K (swap c a b) s 4 4 fun _ q => Keeps s q ∧ a < s.1.num ∧ b < s.1.num := by
  unfold swap
  by_cases h1 : a < s.1.num
  · refine (Tr.bind (lo' := 3) (hi' := 3) (getRaw_tr ha) fun x q hq => .unwrapB fun x _ => ?_).of (fun _ _ h => h) (by rw [if_pos h1]; omega) (by rw [if_pos h1]; omega)
    by_cases h2 : b < q.1.num
    · have h2' : b < s.1.num := by rw [← hq.1.1]; exact h2
      refine (Tr.bind (lo' := 2) (hi' := 2) (getRaw_tr fun h => hb h2') fun y q2 hq2 => .unwrapB fun y _ => ?_).of (fun _ _ h => h) (by rw [if_pos h2]; omega) (by rw [if_pos h2]; omega)
      refine (Tr.bind (lo' := 1) (hi' := 1) (setRaw_tr fun h => ha h1) fun _ q3 hq3 => ?_).of (fun _ _ h => h) (by omega) (by split <;> omega)
      refine (setRaw_tr fun h => hb h2').of (fun _ _ h => ⟨((hq.1.trans hq2.1).trans hq3.1).trans h.1, h1, h2'⟩) (by omega) (by split <;> omega)
    · refine (Tr.bind (lo' := 3) (hi' := 3) (getRaw_tr fun h => absurd h h2) fun y q2 hq2 => .unwrapB fun y hy => ?_).of (fun _ _ h => h) (by omega) (by rw [if_neg h2]; omega)
      rw [hy] at hq2
      exact absurd (hq2.2.1 rfl) h2
  · refine (Tr.bind (lo' := 4) (hi' := 4) (getRaw_tr ha) fun x q hq => .unwrapB fun x hx => ?_).of (fun _ _ h => h) (by omega) (by rw [if_neg h1]; omega)
    rw [hx] at hq
    exact absurd (hq.2.1 rfl) h1

theorem swapRemove_tr {i : Nat} (hi : i < s.1.num → K (i / c.epb)) (hl : 0 < s.1.num → K ((s.1.num - 1) / c.epb)) :
    Tr (view c.W) K (swapRemove c i) s 4 5 fun _ q => q.1.num = s.1.num - 1 := by
  refine .readLen (.liftB fun last hlast => ?_)
  by_cases h0 : 1 ≤ s.1.num
  · unfold uSub at hlast
    rw [if_pos h0] at hlast
    obtain rfl := Except.ok.inj hlast
    refine (Tr.bind (lo' := 0) (hi' := 1) (swap_tr hi fun _ => hl h0) fun _ q hq => ?_).of (fun _ _ h => h)
    have := Tr.bind (lo' := 0) (hi' := 0) (J' := fun (_ : α) q => q.1.num = s.1.num - 1) (pop_tr (c := c) (K := K) (s := q) fun _ => by rw [hq.1.1]; exact hl h0)
      (f := fun x => M.unwrap x) fun x q2 hq2 => (Tr.unwrap x).of fun _ _ h => by
        obtain ⟨-, rfl⟩ := h
        exact hq.1.1 ▸ hq2
    exact this.of fun _ _ h => h
  · refine (Tr.bind (lo' := 0) (hi' := 1) (swap_tr hi fun h => absurd h (by omega)) fun _ q hq => ?_).of (fun _ _ h => h)
    exact absurd hq.2.2 (by omega)

/-! ### `insert` and `remove` -/

theorem insertSlowStep_tr {i : Nat} (d : Nat) (h : K (i / c.epb)) : Tr (view c.W) K (insertSlowStep c i d) s 2 2 fun _ q => Keeps s q := by
  refine .bind (lo' := 1) (hi' := 1) (getRawUnchecked_tr h) fun x q hq => ?_
  exact .bind (lo' := 0) (hi' := 0) (setRawUnchecked_tr d h) fun _ q2 hq2 => .ret (hq.trans hq2)

theorem insertFastStep_tr {i : Nat} (b : BitVec c.W) (h : K i) : Tr (view c.W) K (insertFastStep c i b) s 2 2 fun _ q => Keeps s q := by
  refine .bind (lo' := 1) (hi' := 1) (block_tr h) fun x q hq => .liftB fun r _ => ?_
  exact .bind (lo' := 0) (hi' := 0) (setBlock_tr _ h) fun _ q2 hq2 => .ret (hq.trans hq2)

theorem uAdd_le {B : Build} {a b r : Nat} (h : uAdd B a b = .ok r) : r ≤ a + b := by
  unfold uAdd at h
  split at h
  · rw [← Except.ok.inj h]; exact Nat.le_refl _
  · split at h
    · cases h
    · rw [← Except.ok.inj h]; exact Nat.mod_le _ _

theorem uMul_le {B : Build} {a b r : Nat} (h : uMul B a b = .ok r) : r ≤ a * b := by
  unfold uMul at h
  split at h
  · rw [← Except.ok.inj h]; exact Nat.le_refl _
  · split at h
    · cases h
    · rw [← Except.ok.inj h]; exact Nat.mod_le _ _

theorem insert_tr {i : Nat} {x : α} (hlim : s.1.num < c.build.usizeLim) (hep : 0 < c.epb) (hK : K (s.1.num / c.epb)) (hK2 : ∀ k, i / c.epb ≤ k → k ≤ s.1.num / c.epb → K k) :
    Tr (view c.W) K (insert c i x) s 1 (2 + 2 * c.epb + 2 * (s.1.num / c.epb + 1 - i / c.epb)) fun _ q => q.1.num = s.1.num + 1 := by
  have hpush := push_tr (c := c) (x := x) (K := K) hlim hep hK
  unfold insert
  refine (Tr.bind (lo' := 0) (hi' := 2 * c.epb + 2 * (s.1.num / c.epb + 1 - i / c.epb)) hpush fun _ q hq => .readLen ?_).of (fun _ _ h => h) (by omega) (by split <;> omega)
  have hmod := Nat.mod_lt i hep
  refine .bind (lo := 0) (hi := 2 * c.epb) (lo' := 0) (J := fun r q' => Keeps q q' ∧ i ≤ r.1) ?_ fun r q' hr => ?_
  · refine .ite (fun h => .liftB fun b hb => ?_) fun h => .ret ⟨.refl _, Nat.le_refl _⟩
    have hb := uAdd_le hb
    have hloop := Tr.loopIn (V := view c.W) (K := K) (l := 2) (h := 2) (body := insertSlowStep c) (max i (min b q.1.num)) (fun j _ q' => i ≤ j ∧ Keeps q q') (fun j d q' hj hq' =>
      (insertSlowStep_tr d (hK2 _ (Nat.div_le_div_right hq'.1) (Nat.div_le_div_right (by have := hq.1; omega)))).of fun _ _ h => ⟨by omega, hq'.2.trans h⟩)
      (min b q.1.num - i) i (c.E.toDiscr x) q (by omega) ⟨Nat.le_refl _, .refl _⟩
    refine (Tr.bind (lo' := 0) (hi' := 0) hloop fun prev q2 hq2 => .ret ⟨hq2.2, Nat.le_max_left _ _⟩).of (fun _ _ h => h) (by omega) (by omega)
  · obtain ⟨j, prev⟩ := r
    obtain ⟨hr1, hr2⟩ := hr
    refine .readLen ?_
    show Tr (view c.W) K (if j < q'.1.num then loop (insertFastStep c) ((blockIndex c (q'.1.num - 1)).1 + 1 - (blockIndex c j).1) (blockIndex c j).1 (BitVec.ofNat c.W prev) >>= fun _ => Pure.pure () else Pure.pure ()) q' _ _ _
    have hn : q'.1.num = s.1.num + 1 := by rw [hr1.1]; exact hq.1
    have hdiv : i / c.epb ≤ j / c.epb := Nat.div_le_div_right hr2
    refine .ite (fun h => ?_) fun h => .ret hn
    have hloop := Tr.loopIn (V := view c.W) (K := K) (l := 2) (h := 2) (body := insertFastStep c) (max (j / c.epb) (s.1.num / c.epb + 1)) (fun k _ q2 => j / c.epb ≤ k ∧ Keeps q' q2) (fun k d q2 hk hq2 =>
      (insertFastStep_tr d (hK2 _ (by omega) (by omega))).of fun _ _ h => ⟨by omega, hq2.2.trans h⟩)
      (s.1.num / c.epb + 1 - j / c.epb) (j / c.epb) (BitVec.ofNat c.W prev) q' (by omega) ⟨Nat.le_refl _, .refl _⟩
    unfold blockIndex
    dsimp only
    rw [hn, Nat.add_sub_cancel]
    refine (Tr.bind (lo' := 0) (hi' := 0) hloop fun prev q2 hq2 => .ret ?_).of (fun _ _ h => h) (by omega) (by omega)
    rw [hq2.2.1, hn]

theorem removeSlowStep_tr {i : Nat} (u : Unit) (h : K (i / c.epb)) (h' : K ((i + 1) / c.epb)) : Tr (view c.W) K (removeSlowStep c i u) s 2 2 fun _ q => Keeps s q := by
  refine .bind (lo' := 1) (hi' := 1) (getRawUnchecked_tr h') fun x q hq => ?_
  exact (setRawUnchecked_tr x h).of fun _ _ h => hq.trans h

theorem removeFastStep_tr {i : Nat} (b : BitVec c.W) (h : K i) : Tr (view c.W) K (removeFastStep c i b) s 2 2 fun _ q => Keeps s q := by
  refine .bind (lo' := 1) (hi' := 1) (block_tr h) fun x q hq => .liftB fun r _ => ?_
  exact .bind (lo' := 0) (hi' := 0) (setBlock_tr _ h) fun _ q2 hq2 => .ret (hq.trans hq2)

theorem sub_bounds {A I J L k : Nat} (h1 : I ≤ J) (h2 : J ≤ L) (h3 : L ≤ A) (h4 : k < L + 1 - J) : I ≤ L - k ∧ L - k ≤ A := by omega

theorem remove_tr {i : Nat} (hep : 0 < c.epb) (hK : ∀ k, i < s.1.num → i / c.epb ≤ k → k ≤ (s.1.num - 1) / c.epb → K k) :
    Tr (view c.W) K (remove c i) s 2 (2 + 2 * c.epb + 2 * ((s.1.num - 1) / c.epb + 1 - i / c.epb)) fun _ q => q.1.num = s.1.num - 1 := by
  unfold remove
  refine (getUnwrap_tr (lo := 1) (hi := 1 + 2 * c.epb + 2 * ((s.1.num - 1) / c.epb + 1 - i / c.epb)) (J := fun _ q => q.1.num = s.1.num - 1)
    (fun h => hK _ h (Nat.le_refl _) (Nat.div_le_div_right (by omega))) fun x q hq hlt => ?_).of (fun _ _ h => h)
  have hK := fun k => hK k hlt
  refine .readLen (.liftB fun b hb => ?_)
  have hb := uMul_le hb
  have hb : b ≤ i / c.epb * c.epb + c.epb := by
    have : (1 + (blockIndex c i).1) * c.epb = i / c.epb * c.epb + c.epb := by
      show (1 + i / c.epb) * c.epb = _
      rw [Nat.add_mul]; omega
    omega
  have hi := Nat.div_mul_le_self i c.epb
  have hn : q.1.num = s.1.num := hq.1
  have hloop := Tr.loopIn (V := view c.W) (K := K) (l := 2) (h := 2) (body := removeSlowStep c) (max i (min (q.1.num - 1) b)) (fun j _ q' => i ≤ j ∧ Keeps q q') (fun j d q' hj hq' =>
    (removeSlowStep_tr d (hK _ (Nat.div_le_div_right hq'.1) (Nat.div_le_div_right (by omega))) (hK _ (Nat.div_le_div_right (by omega)) (Nat.div_le_div_right (by omega)))).of
      fun _ _ h => ⟨by omega, hq'.2.trans h⟩)
    (min (q.1.num - 1) b - i) i () q (by omega) ⟨Nat.le_refl _, .refl _⟩
  refine (Tr.bind (lo' := 1) (hi' := 1 + 2 * ((s.1.num - 1) / c.epb + 1 - i / c.epb)) hloop fun prev q2 hq2 => .readLen ?_).of (fun _ _ h => h) (by omega) (by omega)
  have hn2 : q2.1.num = s.1.num := by rw [hq2.2.1, hn]
  generalize hj : max i (min (q.1.num - 1) b) = j
  have hij : i ≤ j := by omega
  refine .bind (lo' := 0) (hi' := 2 * ((s.1.num - 1) / c.epb + 1 - i / c.epb)) (getRawUnchecked_tr (hK _ (Nat.div_le_div_right (by omega)) (by rw [hn2]; exact Nat.le_refl _))) fun prev q3 hq3 => .readLen ?_
  refine .writeLen (.readLen ?_)
  have hn3 : q3.1.num = s.1.num := by rw [hq3.1, hn2]
  dsimp only
  rw [hn3]
  refine .ite (fun h => ?_) fun h => .ret rfl
  have hd : (s.1.num - 1 - 1) / c.epb ≤ (s.1.num - 1) / c.epb := Nat.div_le_div_right (by omega)
  have hd2 : i / c.epb ≤ j / c.epb := Nat.div_le_div_right hij
  have hd3 : j / c.epb ≤ (s.1.num - 1 - 1) / c.epb := Nat.div_le_div_right (by omega)
  unfold blockIndex
  dsimp only
  have hloop := Tr.loopIn (V := view c.W) (K := K) (l := 2) (h := 2) (body := fun k prev => removeFastStep c ((s.1.num - 1 - 1) / c.epb - k) prev) ((s.1.num - 1 - 1) / c.epb + 1 - j / c.epb)
    (fun _ _ q' => q'.1.num = s.1.num - 1) (fun k d q' hk hq' => (removeFastStep_tr d (hK _ (sub_bounds hd2 hd3 hd hk).1 (sub_bounds hd2 hd3 hd hk).2)).of fun _ _ h => h.1.trans hq')
    ((s.1.num - 1 - 1) / c.epb + 1 - j / c.epb) 0 (BitVec.ofNat c.W prev) ({ q3.1 with num := s.1.num - 1 }, q3.2) (by omega) rfl
  exact (Tr.bind (lo' := 0) (hi' := 0) hloop fun prev q2 hq2 => .ret hq2).of (fun _ _ h => h) (by omega) (by omega)

/-! ### `extend` -/

theorem reserve_tr {n : Nat} (hfit : s.1.num + n < c.build.usizeLim → (s.1.num + n) / c.epb + 1 < c.build.usizeLim) (hK : ∀ k, s.1.storage.data.length ≤ k → K k) :
    Tr (view c.W) K (reserve c n) s ((s.1.num + n) / c.epb + 1 - s.1.storage.data.length) ((s.1.num + n) / c.epb + 1 - s.1.storage.data.length)
      fun _ q => q.1.num = s.1.num ∧ q.1.storage.data.length = (s.1.num + n) / c.epb + 1 ∧ s.1.num + n < c.build.usizeLim := by
  refine .readLen (.ite (fun h => .liftB fun b hb => ?_) fun h => .fail _)
  unfold uAdd at hb
  rw [if_pos (hfit h)] at hb
  obtain rfl := Except.ok.inj hb
  exact (resizeStorage_tr fun k h1 _ => hK k h1).of (fun _ _ h' => ⟨h'.1, h'.2, h⟩)

theorem extendHinted_tr (pan : Bool) : ∀ (n pos : Nat) (items : List α) (s : LV c.W), (∀ j, pos ≤ j → j < pos + n → K (j / c.epb)) →
    Tr (view c.W) K (extendHinted c pan n pos items) s n n fun r q => Keeps s q ∧ r.length + n = items.length
  | 0, pos, items, s, _ => by
    unfold extendHinted
    exact .ret ⟨.refl _, rfl⟩
  | n + 1, pos, [], s, _ => by
    unfold extendHinted
    exact .fail _
  | n + 1, pos, x :: items, s, hK => by
    unfold extendHinted
    refine (Tr.bind (lo' := n) (hi' := n) (set_tr fun _ => hK _ (Nat.le_refl _) (by omega)) fun _ q hq => ?_).of (fun _ _ h => h) (by omega) (by split <;> omega)
    exact (extendHinted_tr pan n (pos + 1) items q fun j h1 h2 => hK j (by omega) (by omega)).of fun _ _ h => ⟨hq.1.trans h.1, by rw [List.length_cons]; omega⟩

theorem extendRest_tr (hep : 0 < c.epb) (pan : Bool) : ∀ (items : List α) (s : LV c.W), s.1.num < c.build.usizeLim → (∀ k, s.1.num / c.epb ≤ k → K k) →
    Tr (view c.W) K (extendRest c pan items) s items.length (2 * items.length) fun _ q => q.1.num = s.1.num + items.length ∧ s.1.storage.data.length ≤ q.1.storage.data.length
  | [], s, _, _ => by
    unfold extendRest
    refine .ite (fun _ => .fail _) fun _ => .ret ⟨rfl, Nat.le_refl _⟩
  | x :: items, s, hlim, hK => by
    unfold extendRest
    refine (Tr.bind (lo' := items.length) (hi' := 2 * items.length) (push_tr hlim hep (hK _ (Nat.le_refl _))) fun _ q hq => ?_).of (fun _ _ h => h)
      (by rw [List.length_cons]; omega) (by rw [List.length_cons]; split <;> omega)
    exact (extendRest_tr hep pan items q (by omega) fun k hk => hK k (Nat.le_trans (Nat.div_le_div_right (by omega)) hk)).of fun _ _ h => ⟨by rw [h.1, hq.1, List.length_cons]; omega, Nat.le_trans hq.2.2 h.2⟩

/-- `extend`: one access per block added by `reserve`, one for each announced item, and at most two for each other item. -/
theorem extend_tr {it : Src α} (hep : 0 < c.epb) (hfit : s.1.num + it.hint < c.build.usizeLim → (s.1.num + it.hint) / c.epb + 1 < c.build.usizeLim) (hcov : s.1.num / c.epb ≤ s.1.storage.data.length)
    (hK : ∀ k, s.1.num / c.epb ≤ k → K k) :
    Tr (view c.W) K (extend c it) s it.items.length ((s.1.num + it.hint) / c.epb + 1 - s.1.storage.data.length + it.hint + 2 * (it.items.length - it.hint))
      fun _ q => q.1.num = s.1.num + it.items.length ∧ (s.1.num + it.hint) / c.epb + 1 ≤ q.1.storage.data.length := by
  unfold extend
  refine .readLen ?_
  refine (Tr.bind (lo' := it.items.length) (hi' := it.hint + 2 * (it.items.length - it.hint)) (reserve_tr hfit fun k hk => hK k (by omega)) fun _ q hq => .readLen (.liftB fun n hn => ?_)).of
    (fun _ _ h => h)
  obtain rfl : n = s.1.num + it.hint := by
    unfold uAdd at hn
    rw [hq.1, if_pos hq.2.2] at hn
    exact (Except.ok.inj hn).symm
  refine .writeLen ?_
  by_cases hle : it.hint ≤ it.items.length
  · refine (Tr.bind (lo' := it.items.length - it.hint) (hi' := 2 * (it.items.length - it.hint)) (extendHinted_tr it.panics it.hint s.1.num it.items _ fun j h1 _ => hK _ (Nat.div_le_div_right h1)) fun rest q2 hq2 => ?_).of
      (fun _ _ h => h)
    have hn2 : q2.1.num = s.1.num + it.hint := hq2.1.1
    refine (extendRest_tr hep it.panics rest q2 (by omega) fun k hk => hK k (Nat.le_trans (Nat.div_le_div_right (by omega)) hk)).of (fun _ _ h => ?_)
    have hb2 : q2.1.storage.data.length = q.1.storage.data.length := hq2.1.2
    exact ⟨by omega, by omega⟩
  · refine (Tr.bind (lo' := it.items.length) (hi' := 2 * (it.items.length - it.hint)) (extendHinted_tr it.panics it.hint s.1.num it.items _ fun j h1 _ => hK _ (Nat.div_le_div_right h1)) fun rest q2 hq2 => ?_).of
      (fun _ _ h => h)
    omega

/-! ### `extend_with_value` -/

theorem blocksForElements_mul {n : Nat} (hep : 0 < c.epb) (hn : n < c.build.usizeLim) (h0 : n % c.epb = 0) : blocksForElements c n = n / c.epb := by
  refine Nat.le_antisymm ?_ (Nat.div_le_div_right (by unfold satAdd; omega))
  unfold blocksForElements satAdd
  obtain ⟨k, hk⟩ := Nat.dvd_of_mod_eq_zero h0
  rw [hk, Nat.mul_div_cancel_left _ hep]
  refine Nat.le_trans (Nat.div_le_div_right (Nat.min_le_left _ _)) ?_
  rw [Nat.mul_add_div hep, Nat.div_eq_of_lt (by omega)]
  exact Nat.le_refl _

theorem fixStorage_tr : Tr (view c.W) K (fixStorage c) s 0 0 fun _ q => q.1.num = s.1.num ∧ q.1.storage.data.length = min (blocksForElements c s.1.num) s.1.storage.data.length :=
  ⟨fun _ h => .inl h, Nat.le_refl _, fun _ _ => ⟨Nat.le_refl _, rfl, by
    show (s.1.storage.data.take (blocksForElements c s.1.num)).length = _
    rw [List.length_take]⟩⟩

theorem reserveStorage_tr (n : Nat) : Tr (view c.W) K (reserveStorage c n) s 0 0 fun _ q => Keeps s q := by
  have e : (∃ x, reserveStorage c n s = (.error x, s)) ∨ ∃ k, reserveStorage c n s = (.ok (), ({ s.1 with storage := { s.1.storage with cap := k } }, s.2)) := by
    unfold reserveStorage RVec.reserve
    by_cases h : s.1.storage.len + n ≤ s.1.storage.cap
    · rw [if_pos h]; exact .inr ⟨_, rfl⟩
    · rw [if_neg h]
      cases c.alloc.grow s.1.storage.cap (s.1.storage.len + n) with
      | some k => exact .inr ⟨k, rfl⟩
      | none => exact .inl ⟨_, rfl⟩
  rcases e with ⟨x, e⟩ | ⟨k, e⟩ <;> refine ⟨?_, ?_, fun b hb => ?_⟩ <;> rw [e] at *
  · exact fun _ h => .inl h
  · exact Nat.le_refl _
  · cases hb
  · exact fun _ h => .inl h
  · exact Nat.le_refl _
  · exact ⟨Nat.le_refl _, rfl, rfl⟩

theorem fillStep_tr {n i : Nat} {v : BitVec c.W} {u : Unit} (hK : ∀ k, s.1.storage.data.length ≤ k → K k) :
    Tr (view c.W) K (fillStep c n v i u) s n n fun _ q => q.1.num = s.1.num ∧ q.1.storage.data.length = s.1.storage.data.length + n := by
  have := resizeStorage_tr (c := c) (s := s) (K := K) (n := s.1.storage.data.length + n) (x := v) fun k h _ => hK k h
  rw [Nat.add_sub_cancel_left] at this
  exact ⟨this.sub, this.high, this.post⟩

theorem extendWithValue_small_tr {x : α} {n : Nat} (hep : 0 < c.epb) (h : n ≤ 4 * c.epb) (hfit : s.1.num + n + 1 < c.build.usizeLim) (hcov : s.1.num ≤ s.1.storage.data.length * c.epb)
    (hK : ∀ k, s.1.num / c.epb ≤ k → K k) :
    Tr (view c.W) K (extendWithValue c x n) s n ((s.1.num + n) / c.epb + 1 - s.1.storage.data.length + n) fun _ q => q.1.num = s.1.num + n := by
  unfold extendWithValue
  rw [if_pos h]
  have hd : s.1.num / c.epb ≤ s.1.storage.data.length := Nat.div_le_of_le_mul (by rw [Nat.mul_comm]; exact hcov)
  have hle := Nat.div_le_self (s.1.num + n) c.epb
  have e1 : (repeatTake x n).hint = n := rfl
  have e2 : (repeatTake x n).items.length = n := List.length_replicate
  exact (extend_tr (it := repeatTake x n) hep (fun _ => by rw [e1]; omega) hd hK).of (fun _ _ h => by rw [h.1, e2]) (by omega) (by rw [e1, e2]; omega)

theorem extendWithValue_big_tr {x : α} {n : Nat} (hep : 0 < c.epb) (h : ¬ n ≤ 4 * c.epb) (hfit : s.1.num + n + 1 < c.build.usizeLim) (hcov : s.1.num ≤ s.1.storage.data.length * c.epb)
    (hK : ∀ k, s.1.num / c.epb ≤ k → K k) :
    Tr (view c.W) K (extendWithValue c x n) s (((n - (c.epb - s.1.num % c.epb)) / c.epb) ^ 2) (((n - (c.epb - s.1.num % c.epb)) / c.epb) ^ 2 + 2 * c.epb + 1)
      fun _ q => q.1.num = s.1.num + n := by
  have hd : s.1.num / c.epb ≤ s.1.storage.data.length := Nat.div_le_of_le_mul (by rw [Nat.mul_comm]; exact hcov)
  have hmod := Nat.mod_lt s.1.num hep
  have hdm := Nat.div_add_mod s.1.num c.epb
  unfold extendWithValue
  rw [if_neg h]
  refine .readLen ?_
  generalize hf : c.epb - s.1.num % c.epb = f
  have hNf : s.1.num + f = (s.1.num / c.epb + 1) * c.epb := by rw [Nat.add_mul, Nat.mul_comm]; omega
  have hq0 : (s.1.num + f) / c.epb = s.1.num / c.epb + 1 := by rw [hNf, Nat.mul_div_cancel _ hep]
  have hm0 : (s.1.num + f) % c.epb = 0 := by rw [hNf, Nat.mul_mod_left]
  generalize hcb : (n - f) / c.epb = cb
  have hcb3 : 3 ≤ cb := by
    rw [← hcb, Nat.le_div_iff_mul_le hep]
    omega
  have hcbm : cb * c.epb ≤ n - f := by rw [← hcb]; exact Nat.div_mul_le_self _ _
  have hcbl : n - f < cb * c.epb + c.epb := by rw [← hcb]; exact Nat.lt_div_mul_add hep
  have hle := Nat.div_le_self (s.1.num + f) c.epb
  have hnew : (s.1.num + f) / c.epb + 1 - s.1.storage.data.length ≤ 2 := by omega
  have hsq : cb ^ 2 = cb * cb := Nat.pow_two cb
  have e1 : ∀ n, (repeatTake x n).hint = n := fun _ => rfl
  have e2 : ∀ n, (repeatTake x n).items.length = n := fun _ => List.length_replicate
  refine (Tr.bind (lo' := cb ^ 2) (hi' := cb ^ 2 + (n - (f + cb * c.epb))) (extend_tr (it := repeatTake x f) hep (fun _ => by rw [e1]; omega) hd hK) fun _ q hq => .readLen ?_).of (fun _ _ h => h) (by omega)
    (by rw [e1, e2]; omega)
  rw [e2, e1] at hq
  refine (Tr.bind (lo' := cb ^ 2) (hi' := cb ^ 2 + (n - (f + cb * c.epb))) fixStorage_tr fun _ q2 hq2 => ?_).of (fun _ _ h => h)
  have hn2 : q2.1.num = s.1.num + f := by rw [hq2.1, hq.1]
  have hb2 : q2.1.storage.data.length = s.1.num / c.epb + 1 := by
    rw [hq2.2, hq.1, blocksForElements_mul hep (by omega) hm0]
    omega
  refine (Tr.bind (lo' := cb ^ 2) (hi' := cb ^ 2 + (n - (f + cb * c.epb))) (reserveStorage_tr _) fun _ q3 hq3 => ?_).of (fun _ _ h => h)
  have hn3 : q3.1.num = s.1.num + f := by rw [hq3.1, hn2]
  have hb3 : q3.1.storage.data.length = s.1.num / c.epb + 1 := by rw [hq3.2, hb2]
  rw [hcb]
  have hloop := fun v : BitVec c.W => Tr.loop (V := view c.W) (K := K) (l := cb) (h := cb) (body := fillStep c cb v) (fun i _ q => q.1.num = s.1.num + f ∧ q.1.storage.data.length = s.1.num / c.epb + 1 + i * cb)
    (fun i u q hq => (fillStep_tr fun k hk => hK k (by omega)).of fun _ _ h => ⟨by omega, by rw [h.2, hq.2, Nat.add_mul]; omega⟩) cb 0 () q3 ⟨hn3, by omega⟩
  refine (Tr.bind (lo' := 0) (hi' := n - (f + cb * c.epb)) (hloop _) fun _ q4 hq4 => .liftB fun m hm => ?_).of (fun _ _ h => h) (Nat.le_of_eq hsq) (Nat.le_of_eq (congrArg (· + (n - (f + cb * c.epb))) hsq.symm))
  rw [Nat.zero_add] at hq4
  obtain rfl : m = s.1.num + f + cb * c.epb := by
    unfold uAdd at hm
    rw [hq.1, if_pos (by omega)] at hm
    exact (Except.ok.inj hm).symm
  refine .writeLen ?_
  have hbig : cb + 1 ≤ cb * cb := by
    have : 3 * cb ≤ cb * cb := Nat.mul_le_mul_right cb hcb3
    omega
  have hdiv : ∀ r, r < c.epb → (s.1.num + f + cb * c.epb + r) / c.epb = s.1.num / c.epb + 1 + cb := by
    intro r hr
    rw [hNf, ← Nat.add_mul, Nat.mul_comm, Nat.mul_add_div hep, Nat.div_eq_of_lt hr]
    rfl
  have hr := hdiv (n - (f + cb * c.epb)) (by omega)
  have hr0 : (s.1.num + f + cb * c.epb) / c.epb = s.1.num / c.epb + 1 + cb := hdiv 0 hep
  have hle2 := Nat.div_le_self s.1.num c.epb
  have hle3 := Nat.le_mul_of_pos_right cb hep
  have hfit2 : s.1.num / c.epb + 1 + cb + 1 < c.build.usizeLim := by omega
  refine (extend_tr (s := ({ q4.1 with num := s.1.num + f + cb * c.epb }, q4.2)) (it := repeatTake x (n - (f + cb * c.epb))) hep (fun _ => by
      show (s.1.num + f + cb * c.epb + (n - (f + cb * c.epb))) / c.epb + 1 < _
      rw [hr]; exact hfit2) (by
      show (s.1.num + f + cb * c.epb) / c.epb ≤ q4.1.storage.data.length
      rw [hr0, hq4.2]; omega) fun k hk => hK k (by
      have hk : (s.1.num + f + cb * c.epb) / c.epb ≤ k := hk
      omega)).of (fun _ _ h => ?_) (by omega) ?_
  · have h : _ = s.1.num + f + cb * c.epb + (repeatTake x (n - (f + cb * c.epb))).items.length := h.1
    rw [h, e2]; omega
  · show (s.1.num + f + cb * c.epb + (n - (f + cb * c.epb))) / c.epb + 1 - q4.1.storage.data.length + (n - (f + cb * c.epb)) + 2 * ((repeatTake x (n - (f + cb * c.epb))).items.length - (n - (f + cb * c.epb))) ≤ _
    rw [hr, hq4.2, e2]; omega

/-! ### `retain` and `for_each` -/

theorem retain_tr (f : Closure τ α Bool) {p : LV c.W × τ} {K : Nat → Prop} (hK : ∀ i, i < p.1.1.num → K (i / c.epb)) :
    Tr ((view c.W).prod (.plain τ)) (Sum.elim K fun _ => False) (retain c f) p p.1.1.num (2 * p.1.1.num) fun _ q => q.1.1.num ≤ p.1.1.num := by
  unfold retain
  refine (Tr.bind (lo := 0) (hi := 0) (Tr.onFst len_tr) fun n q hq => ?_).of (fun _ _ h => h) (Nat.le_of_eq (Nat.zero_add _).symm) (Nat.le_of_eq (Nat.zero_add _))
  obtain ⟨⟨rfl, hq1⟩, hq2⟩ := hq
  obtain rfl : q = p := Prod.ext hq1 hq2
  have hloop := Tr.loopIn (V := (view c.W).prod (.plain τ)) (K := Sum.elim K fun _ => False) (l := 1) (h := 2) (body := retainStep c f) q.1.1.num
    (fun i j q' => j ≤ i ∧ Keeps q.1 q'.1) (fun i j q' hi hI => ?_) q.1.1.num 0 0 q (by omega) ⟨Nat.le_refl _, .refl _⟩
  · refine (Tr.bind (lo' := 0) (hi' := 0) hloop fun j q2 hq2 => ?_).of (fun _ _ h => h)
    exact (Tr.onFst (setLen_tr j)).of fun _ _ h => by have := h.1.1; omega
  · unfold retainStep
    have hn : q'.1.1.num = q.1.1.num := hI.2.1
    refine (Tr.bind (lo' := 0) (hi' := 1) (Tr.onFst (get_tr (K := K) fun h => hK i hi)) fun x q2 hq2 => .unwrapB fun x _ => ?_).of (fun _ _ h => h) (by rw [if_pos (by omega)]; omega)
      (by rw [if_pos (by omega)]; omega)
    refine (Tr.bind (lo' := 0) (hi' := 1) (Tr.call f x q2) fun k q3 hq3 => ?_).of (fun _ _ h => h)
    refine .ite (fun _ => ?_) fun _ => .ret ⟨by omega, ?_⟩
    · refine (Tr.bind (lo' := 0) (hi' := 0) (Tr.onFst (set_tr (K := K) fun h => hK j (by omega))) fun _ q4 hq4 => .ret ⟨by omega, ?_⟩).of (fun _ _ h => h) (by omega) (by split <;> omega)
      exact (hI.2.trans hq2.1.1).trans (hq3 ▸ hq4.1.1)
    · rw [hq3]; exact hI.2.trans hq2.1.1

theorem forEach_tr (f : Closure τ α α) {p : LV c.W × τ} {K : Nat → Prop} (hK : ∀ i, i < p.1.1.num → K (i / c.epb)) :
    Tr ((view c.W).prod (.plain τ)) (Sum.elim K fun _ => False) (forEach c f) p (2 * p.1.1.num) (2 * p.1.1.num) fun _ q => Keeps p.1 q.1 := by
  unfold forEach
  refine (Tr.bind (lo := 0) (hi := 0) (Tr.onFst len_tr) fun n q hq => ?_).of (fun _ _ h => h) (Nat.le_of_eq (Nat.zero_add _).symm) (Nat.le_of_eq (Nat.zero_add _))
  obtain ⟨⟨rfl, hq1⟩, hq2⟩ := hq
  obtain rfl : q = p := Prod.ext hq1 hq2
  have hloop := Tr.loopIn (V := (view c.W).prod (.plain τ)) (K := Sum.elim K fun _ => False) (l := 2) (h := 2) (body := forEachStep c f) q.1.1.num
    (fun i _ q' => Keeps q.1 q'.1) (fun i j q' hi hI => ?_) q.1.1.num 0 () q (by omega) (.refl _)
  · exact hloop.of fun _ _ h => h
  · unfold forEachStep
    have hn : q'.1.1.num = q.1.1.num := hI.1
    refine (Tr.bind (lo' := 1) (hi' := 1) (Tr.onFst (get_tr (K := K) fun h => hK i hi)) fun x q2 hq2 => .unwrapB fun x _ => ?_).of (fun _ _ h => h) (by rw [if_pos (by omega)]; omega)
      (by rw [if_pos (by omega)]; omega)
    refine (Tr.bind (lo' := 1) (hi' := 1) (Tr.call f x q2) fun k q3 hq3 => ?_).of (fun _ _ h => h)
    exact (Tr.onFst (set_tr (K := K) fun h => hK i (by omega))).of (fun _ _ hq4 => (hI.trans hq2.1.1).trans (hq3 ▸ hq4.1.1)) (by omega) (by split <;> omega)

/-! ### `any`, `all`, `eq`, `hash`, `clone` -/

theorem anyBlocks_tr (m : BitVec c.W) : ∀ (n i : Nat) (s : LV c.W), (∀ k, i ≤ k → k < i + n → K k) → Tr (view c.W) K (anyBlocks c m n i) s 0 n fun _ q => Keeps s q
  | 0, _, s, _ => .ret (.refl _)
  | n + 1, i, s, hK => by
    unfold anyBlocks
    refine (Tr.bind (lo' := 0) (hi' := n) (block_tr (hK i (by omega) (by omega))) fun b q hq => ?_).of (fun _ _ h => h)
    refine .ite (fun _ => .ret hq) fun _ => ?_
    exact (anyBlocks_tr m n (i + 1) q fun k h1 h2 => hK k (by omega) (by omega)).of fun _ _ h => hq.trans h

theorem allBlocks_tr (v m : BitVec c.W) : ∀ (n i : Nat) (s : LV c.W), (∀ k, i ≤ k → k < i + n → K k) → Tr (view c.W) K (allBlocks c v m n i) s 0 n fun _ q => Keeps s q
  | 0, _, s, _ => .ret (.refl _)
  | n + 1, i, s, hK => by
    unfold allBlocks
    refine (Tr.bind (lo' := 0) (hi' := n) (block_tr (hK i (by omega) (by omega))) fun b q hq => ?_).of (fun _ _ h => h)
    refine .ite (fun _ => .ret hq) fun _ => ?_
    exact (allBlocks_tr v m n (i + 1) q fun k h1 h2 => hK k (by omega) (by omega)).of fun _ _ h => hq.trans h

theorem any_tr {x : α} (hep : 0 < c.epb) (hK : ∀ k, k * c.epb < s.1.num → K k) : Tr (view c.W) K (any c x) s 0 ((s.1.num + (c.epb - 1)) / c.epb) fun _ q => Keeps s q := by
  have hdm := Nat.div_add_mod s.1.num c.epb
  have hlow : s.1.num / c.epb ≤ (s.1.num + (c.epb - 1)) / c.epb := Nat.div_le_div_right (by omega)
  have hup : s.1.num % c.epb ≠ 0 → s.1.num / c.epb + 1 ≤ (s.1.num + (c.epb - 1)) / c.epb := fun h => by
    rw [Nat.le_div_iff_mul_le hep, Nat.add_mul, Nat.mul_comm]; omega
  unfold any
  refine .readLen (.ite (fun _ => .ret (.refl _)) fun h0 => .liftB fun xm _ => ?_)
  have hlt : ∀ k, k < s.1.num / c.epb → K k := fun k hk => hK k (by
    have := (Nat.le_div_iff_mul_le hep).1 hk
    rw [Nat.succ_mul] at this; omega)
  refine (Tr.bind (lo' := 0) (hi' := if s.1.num % c.epb ≠ 0 then 1 else 0) (anyBlocks_tr xm (s.1.num / c.epb) 0 s fun k _ h => hlt k (by omega)) fun found q hq => ?_).of (fun _ _ h => h) (by omega)
    (by split <;> omega)
  refine .ite (fun _ => .ret hq) fun _ => ?_
  by_cases h1 : s.1.num % c.epb = 0
  · have h2 : ¬ (blockIndex c s.1.num).2 ≠ 0 := by
      show ¬ (s.1.num % c.epb) * c.bits ≠ 0
      rw [h1, Nat.zero_mul]
      exact fun h => h rfl
    rw [if_neg h2]
    exact .ret hq
  · rw [if_pos h1]
    refine .ite (fun _ => ?_) fun _ => .ret hq
    refine (Tr.bind (lo' := 0) (hi' := 0) (block_tr (hK _ ?_)) fun b q2 hq2 => ?_).of (fun _ _ h => h)
    · show s.1.num / c.epb * c.epb < s.1.num
      rw [Nat.mul_comm]; omega
    · exact .ite (fun _ => .ret (hq.trans hq2)) fun _ => .ret (hq.trans hq2)

theorem all_tr {x : α} (hep : 0 < c.epb) (hK : ∀ k, k * c.epb < s.1.num → K k) : Tr (view c.W) K (all c x) s 0 ((s.1.num + (c.epb - 1)) / c.epb) fun _ q => Keeps s q := by
  have hdm := Nat.div_add_mod s.1.num c.epb
  have hlow : s.1.num / c.epb ≤ (s.1.num + (c.epb - 1)) / c.epb := Nat.div_le_div_right (by omega)
  have hup : s.1.num % c.epb ≠ 0 → s.1.num / c.epb + 1 ≤ (s.1.num + (c.epb - 1)) / c.epb := fun h => by
    rw [Nat.le_div_iff_mul_le hep, Nat.add_mul, Nat.mul_comm]; omega
  unfold all
  refine .readLen (.ite (fun _ => .ret (.refl _)) fun h0 => .liftB fun xm _ => ?_)
  have hlt : ∀ k, k < s.1.num / c.epb → K k := fun k hk => hK k (by
    have := (Nat.le_div_iff_mul_le hep).1 hk
    rw [Nat.succ_mul] at this; omega)
  refine (Tr.bind (lo' := 0) (hi' := if s.1.num % c.epb ≠ 0 then 1 else 0) (allBlocks_tr _ xm (s.1.num / c.epb) 0 s fun k _ h => hlt k (by omega)) fun found q hq => ?_).of (fun _ _ h => h) (by omega)
    (by split <;> omega)
  refine .ite (fun _ => .ret hq) fun _ => ?_
  by_cases h1 : s.1.num % c.epb = 0
  · have h2 : ¬ (blockIndex c s.1.num).2 ≠ 0 := by
      show ¬ (s.1.num % c.epb) * c.bits ≠ 0
      rw [h1, Nat.zero_mul]
      exact fun h => h rfl
    rw [if_neg h2]
    exact .ret hq
  · rw [if_pos h1]
    refine .ite (fun _ => ?_) fun _ => .ret hq
    refine (Tr.bind (lo' := 0) (hi' := 0) (block_tr (hK _ ?_)) fun b q2 hq2 => ?_).of (fun _ _ h => h)
    · show s.1.num / c.epb * c.epb < s.1.num
      rw [Nat.mul_comm]; omega
    · exact .ite (fun _ => .ret (hq.trans hq2)) fun _ => .ret (hq.trans hq2)

theorem eqLoop_tr {K : Nat ⊕ Nat → Prop} : ∀ (n i : Nat) (p : LV c.W × LV c.W), (∀ j, i ≤ j → j < i + n → K (.inl (j / c.epb)) ∧ K (.inr (j / c.epb))) →
    Tr ((view c.W).prod (view c.W)) K (eqLoop c n i) p 0 (2 * n) fun _ _ => True
  | 0, _, p, _ => .ret trivial
  | n + 1, i, p, hK => by
    unfold eqLoop
    have hk := hK i (by omega) (by omega)
    refine (Tr.bind (lo' := 0) (hi' := 1 + 2 * n) (Tr.onFst (getRawUnchecked_tr (K := fun k => K (.inl k)) hk.1)) fun x q _ => ?_).of (fun _ _ h => h)
    refine (Tr.bind (lo' := 0) (hi' := 2 * n) (Tr.onSnd (getRawUnchecked_tr (K := fun k => K (.inr k)) hk.2)) fun y q _ => ?_).of (fun _ _ h => h)
    refine .ite (fun _ => .ret trivial) fun _ => ?_
    exact (eqLoop_tr n (i + 1) q fun k h1 h2 => hK k (by omega) (by omega)).of fun _ _ h => h

theorem eq_tr {K : Nat ⊕ Nat → Prop} {p : LV c.W × LV c.W} (hK : p.1.1.num = p.2.1.num → ∀ j, j < p.1.1.num → K (.inl (j / c.epb)) ∧ K (.inr (j / c.epb))) :
    Tr ((view c.W).prod (view c.W)) K (eq c) p 0 (if p.1.1.num = p.2.1.num then 2 * p.1.1.num else 0) fun _ _ => True := by
  unfold eq
  refine (Tr.bind (lo := 0) (hi := 0) (Tr.onFst len_tr) fun n q hq => ?_).of (fun _ _ h => h) (Nat.le_of_eq (Nat.zero_add _).symm) (Nat.le_of_eq (Nat.zero_add _))
  obtain ⟨⟨rfl, hq1⟩, hq2⟩ := hq
  obtain rfl : q = p := Prod.ext hq1 hq2
  refine (Tr.bind (lo := 0) (hi := 0) (Tr.onSnd len_tr) fun n q' hq => ?_).of (fun _ _ h => h) (Nat.le_of_eq (Nat.zero_add _).symm) (Nat.le_of_eq (Nat.zero_add _))
  obtain ⟨⟨rfl, hq1⟩, hq2⟩ := hq
  obtain rfl : q' = q := Prod.ext hq2 hq1
  refine .ite (fun h => ?_) fun h => .ret trivial
  rw [if_pos h]
  exact (eqLoop_tr _ 0 q' fun j _ hj => hK h j (by omega)).of fun _ _ _ => trivial

theorem hashLoop_tr : ∀ (n i : Nat) (s : LV c.W), (∀ j, i ≤ j → j < i + n → K (j / c.epb)) → Tr (view c.W) K (hashLoop c n i) s n n fun _ _ => True
  | 0, _, s, _ => .ret trivial
  | n + 1, i, s, hK => by
    unfold hashLoop
    refine (Tr.bind (lo' := n) (hi' := n) (getRawUnchecked_tr (hK i (by omega) (by omega))) fun x q hq => ?_).of (fun _ _ h => h)
    exact Tr.bind (lo' := 0) (hi' := 0) (hashLoop_tr n (i + 1) q fun k h1 h2 => hK k (by omega) (by omega)) fun _ _ _ => .ret trivial

theorem hash_tr (hK : ∀ j, j < s.1.num → K (j / c.epb)) : Tr (view c.W) K (hash c) s s.1.num s.1.num fun _ _ => True :=
  .readLen (hashLoop_tr s.1.num 0 s fun j _ h => hK j (by omega))

theorem clone_tr (hK : ∀ k, k < s.1.storage.data.length → K k) : Tr (view c.W) K (clone c) s s.1.storage.data.length s.1.storage.data.length fun _ _ => True := by
  rcases hc : EV.clone c s.1 with e | v <;> have e : clone c s = _ := (by unfold clone; rw [hc]) <;> refine ⟨?_, ?_, fun b hb => ?_⟩ <;> rw [e] at *
  · exact fun _ h => .inl h
  · exact Nat.le_add_right _ _
  · cases hb
  · intro k hk
    rcases List.mem_append.1 hk with h | h
    · exact .inl h
    · exact .inr (hK k (List.mem_range.1 h))
  · show (s.2 ++ List.range s.1.storage.data.length).length ≤ s.2.length + s.1.storage.data.length
    simp
  · refine ⟨?_, trivial⟩
    show s.2.length + s.1.storage.data.length ≤ (s.2 ++ List.range s.1.storage.data.length).length
    simp

theorem shrinkToFit_tr : Tr (view c.W) K (shrinkToFit c) s 0 0 fun _ _ => True :=
  ⟨fun _ h => .inl h, Nat.le_refl _, fun _ _ => ⟨Nat.le_refl _, trivial⟩⟩

/-! ### `append` -/

theorem copyStorage_tr {K : Nat ⊕ Nat → Prop} {p : LV c.W × LV c.W} (h1 : ∀ k, p.1.1.storage.data.length ≤ k → K (.inl k)) (h2 : ∀ k, k < p.2.1.storage.data.length → K (.inr k)) :
    Tr ((view c.W).prod (view c.W)) K (copyStorage c) p (2 * p.2.1.storage.data.length) (2 * p.2.1.storage.data.length) fun _ _ => True := by
  have e : ∀ q : LV c.W × LV c.W, (((view c.W).prod (view c.W)).log q).length = q.1.2.length + q.2.2.length := prod_log_length _ _
  rcases hx : RVec.extendFromSlice c.alloc p.1.1.storage p.2.1.storage.data with x | st
  · have e2 : copyStorage c p = (.error x, p) := by unfold copyStorage; rw [hx]
    refine ⟨?_, ?_, fun b hb => ?_⟩ <;> rw [e2] at *
    · exact fun _ h => .inl h
    · exact Nat.le_add_right _ _
    · cases hb
  · have e2 : copyStorage c p = (.ok (), (({ p.1.1 with storage := st }, p.1.2 ++ List.range' p.1.1.storage.len p.2.1.storage.len), (p.2.1, p.2.2 ++ List.range p.2.1.storage.len))) := by
      unfold copyStorage; rw [hx]
    refine ⟨?_, ?_, fun b hb => ?_⟩ <;> rw [e2] at *
    · intro k hk
      cases k with
      | inl k =>
        rcases List.mem_append.1 ((mem_inl (V := view c.W) (U := view c.W)).1 hk) with h | h
        · exact .inl ((mem_inl (V := view c.W) (U := view c.W)).2 h)
        · exact .inr (h1 k (List.mem_range'_1.1 h).1)
      | inr k =>
        rcases List.mem_append.1 ((mem_inr (V := view c.W) (U := view c.W)).1 hk) with h | h
        · exact .inl ((mem_inr (V := view c.W) (U := view c.W)).2 h)
        · exact .inr (h2 k (List.mem_range.1 h))
    · rw [e, e]
      dsimp only
      rw [List.length_append, List.length_append, List.length_range', List.length_range]
      show _ + p.2.1.storage.data.length + (_ + p.2.1.storage.data.length) ≤ _
      omega
    · refine ⟨?_, trivial⟩
      rw [e, e]
      dsimp only
      rw [List.length_append, List.length_append, List.length_range', List.length_range]
      show _ ≤ _ + p.2.1.storage.data.length + (_ + p.2.1.storage.data.length)
      omega

theorem dropBlocks_tr {K : Nat → Prop} : Tr (view c.W) K (dropBlocks c) s 0 0 fun _ _ => True :=
  ⟨fun _ h => .inl h, Nat.le_refl _, fun _ _ => ⟨Nat.le_refl _, trivial⟩⟩

theorem appendStorage_tr {K : Nat ⊕ Nat → Prop} {p : LV c.W × LV c.W} (h1 : ∀ k, p.1.1.storage.data.length ≤ k → K (.inl k)) (h2 : ∀ k, k < p.2.1.storage.data.length → K (.inr k)) :
    Tr ((view c.W).prod (view c.W)) K (appendStorage c) p (2 * p.2.1.storage.data.length) (2 * p.2.1.storage.data.length) fun _ _ => True := by
  rw [appendStorage_eq]
  refine .bind (lo' := 0) (hi' := 0) (copyStorage_tr h1 h2) fun _ q _ => .ite (fun _ => ?_) fun _ => ?_
  · exact (Tr.onSnd (truncate_tr 0)).of fun _ _ _ => trivial
  · exact (Tr.onSnd dropBlocks_tr).of fun _ _ _ => trivial

/-- `append` at a multiple of the elements per block: the blocks of the other vector are read and the new blocks written. -/
theorem append_aligned_tr {K : Nat ⊕ Nat → Prop} {p : LV c.W × LV c.W} (h0 : p.1.1.num % c.epb = 0) (hep : 0 < c.epb) (hlim : p.1.1.num < c.build.usizeLim)
    (hcov : p.1.1.num ≤ p.1.1.storage.data.length * c.epb) (hcov2 : p.2.1.num ≤ p.2.1.storage.data.length * c.epb) (hroom : p.2.1.num + c.epb ≤ c.build.usizeLim)
    (h1 : ∀ k, p.1.1.num / c.epb ≤ k → K (.inl k)) (h2 : ∀ k, k * c.epb < p.2.1.num → K (.inr k)) :
    Tr ((view c.W).prod (view c.W)) K (append c) p (2 * ((p.2.1.num + (c.epb - 1)) / c.epb)) (2 * ((p.2.1.num + (c.epb - 1)) / c.epb)) fun _ _ => True := by
  have hd : p.1.1.num / c.epb ≤ p.1.1.storage.data.length := Nat.div_le_of_le_mul (by rw [Nat.mul_comm]; exact hcov)
  have hb2 : blocksForElements c p.2.1.num = (p.2.1.num + (c.epb - 1)) / c.epb := by
    unfold blocksForElements satAdd
    rw [Nat.min_eq_left (by omega)]
  have hd2 : (p.2.1.num + (c.epb - 1)) / c.epb ≤ p.2.1.storage.data.length := by
    rw [Nat.div_le_iff_le_mul_add_pred hep, Nat.mul_comm]; omega
  unfold append
  refine (Tr.bind (lo := 0) (hi := 0) (Tr.onSnd len_tr) fun n q hq => ?_).of (fun _ _ h => h) (Nat.le_of_eq (Nat.zero_add _).symm) (Nat.le_of_eq (Nat.zero_add _))
  obtain ⟨⟨rfl, hq1⟩, hq2⟩ := hq
  obtain rfl : q = p := Prod.ext hq2 hq1
  refine (Tr.bind (lo := 0) (hi := 0) (Tr.onFst len_tr) fun n q' hq => ?_).of (fun _ _ h => h) (Nat.le_of_eq (Nat.zero_add _).symm) (Nat.le_of_eq (Nat.zero_add _))
  obtain ⟨⟨rfl, hq1⟩, hq2⟩ := hq
  obtain rfl : q' = q := Prod.ext hq1 hq2
  rw [if_pos h0]
  refine (Tr.bind (lo := 0) (hi := 0) (Tr.onFst fixStorage_tr) fun _ q1 hq1 => ?_).of (fun _ _ h => h) (Nat.le_of_eq (Nat.zero_add _).symm) (Nat.le_of_eq (Nat.zero_add _))
  refine (Tr.bind (lo := 0) (hi := 0) (Tr.onSnd fixStorage_tr) fun _ q2 hq2 => ?_).of (fun _ _ h => h) (Nat.le_of_eq (Nat.zero_add _).symm) (Nat.le_of_eq (Nat.zero_add _))
  have l1 : q2.1.1.storage.data.length = q'.1.1.num / c.epb := by
    rw [hq2.2, hq1.1.2, blocksForElements_mul hep hlim h0]; exact Nat.min_eq_left hd
  have l2 : q2.2.1.storage.data.length = (q'.2.1.num + (c.epb - 1)) / c.epb := by
    rw [hq2.1.2, hq1.2, hb2]; exact Nat.min_eq_left hd2
  rw [← l2]
  refine (Tr.bind (lo' := 0) (hi' := 0) (appendStorage_tr (fun k hk => h1 k (by rw [← l1]; exact hk)) fun k hk => h2 k ?_) fun _ q3 hq3 => ?_).of (fun _ _ h => h)
  · have hk : k + 1 ≤ (q'.2.1.num + (c.epb - 1)) / c.epb := by rw [← l2]; exact hk
    have := (Nat.le_div_iff_mul_le hep).1 hk
    rw [Nat.add_mul] at this; omega
  · refine (Tr.bind (lo := 0) (hi := 0) (lo' := 0) (hi' := 0) (Tr.onFst len_tr) fun n q4 hq4 => .liftB fun m _ => ?_).of (fun _ _ h => h)
    exact (Tr.onFst (setLen_tr m)).of fun _ _ _ => trivial

/-- `append` otherwise: element by element. -/
theorem append_unaligned_tr {K : Nat ⊕ Nat → Prop} {p : LV c.W × LV c.W} (h0 : p.1.1.num % c.epb ≠ 0) (hfit : p.1.1.num + p.2.1.num < c.build.usizeLim → (p.1.1.num + p.2.1.num) / c.epb + 1 < c.build.usizeLim)
    (hcov : p.1.1.num ≤ p.1.1.storage.data.length * c.epb) (h1 : ∀ k, p.1.1.num / c.epb ≤ k → K (.inl k)) (h2 : ∀ k, k * c.epb < p.2.1.num → K (.inr k)) :
    Tr ((view c.W).prod (view c.W)) K (append c) p (2 * p.2.1.num) ((p.1.1.num + p.2.1.num) / c.epb + 1 - p.1.1.storage.data.length + 2 * p.2.1.num) fun _ _ => True := by
  have hd : p.1.1.num / c.epb ≤ p.1.1.storage.data.length := Nat.div_le_of_le_mul (by rw [Nat.mul_comm]; exact hcov)
  unfold append
  refine (Tr.bind (lo := 0) (hi := 0) (Tr.onSnd len_tr) fun n q hq => ?_).of (fun _ _ h => h) (Nat.le_of_eq (Nat.zero_add _).symm) (Nat.le_of_eq (Nat.zero_add _))
  obtain ⟨⟨rfl, hq1⟩, hq2⟩ := hq
  obtain rfl : q = p := Prod.ext hq2 hq1
  refine (Tr.bind (lo := 0) (hi := 0) (Tr.onFst len_tr) fun n q' hq => ?_).of (fun _ _ h => h) (Nat.le_of_eq (Nat.zero_add _).symm) (Nat.le_of_eq (Nat.zero_add _))
  obtain ⟨⟨rfl, hq1⟩, hq2⟩ := hq
  obtain rfl : q' = q := Prod.ext hq1 hq2
  rw [if_neg h0]
  refine (Tr.bind (lo' := 2 * q'.2.1.num) (hi' := 2 * q'.2.1.num) (Tr.onFst (reserve_tr (K := fun k => K (.inl k)) hfit fun k hk => h1 k (by omega))) fun _ q1 hq1 => .liftB fun n hn => ?_).of (fun _ _ h => h)
  refine (Tr.bind (lo := 0) (hi := 0) (Tr.onFst (setLen_tr n)) fun _ q2 hq2 => ?_).of (fun _ _ h => h) (Nat.le_of_eq (Nat.zero_add _).symm) (Nat.le_of_eq (Nat.zero_add _))
  have hloop := Tr.loopIn (V := (view c.W).prod (view c.W)) (K := K) (l := 2) (h := 2) (body := appendStep c q'.1.1.num) q'.2.1.num (fun _ _ _ => True) (fun i u q hi _ => ?_) q'.2.1.num 0 () q2 (by omega) trivial
  · refine (Tr.bind (lo' := 0) (hi' := 0) hloop fun _ q3 _ => ?_).of (fun _ _ h => h)
    exact (Tr.onSnd (truncate_tr 0)).of fun _ _ _ => trivial
  · unfold appendStep
    refine .bind (lo := 1) (hi := 1) (lo' := 1) (hi' := 1) (Tr.onSnd (getRawUnchecked_tr (K := fun k => K (.inr k)) (h2 _ (Nat.lt_of_le_of_lt (Nat.div_mul_le_self _ _) hi)))) fun d q3 _ => ?_
    exact (Tr.onFst (setRawUnchecked_tr (K := fun k => K (.inl k)) d (h1 _ (Nat.div_le_div_right (by omega))))).of fun _ _ _ => trivial

end
end Access
end EnumVecModel
