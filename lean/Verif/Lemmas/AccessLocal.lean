import Verif.Lemmas.Access

/-! # Block accesses: only the logged blocks matter -/

namespace EnumVecModel
open EV
variable {α τ σ σ' β γ : Type}

namespace Access

/-- What a state consists of: blocks at places, a log of places, and the rest. -/
structure View (σ : Type) where
  Key : Type
  Blk : Type
  Rest : Type
  log : σ → List Key
  blk : σ → Key → Option Blk
  rest : σ → Rest
  law : ∀ s u k, rest s = rest u → (blk s k = none ↔ blk u k = none)

/-- The states differ only in blocks outside `K`. -/
structure Same (V : View σ) (K : List V.Key) (s u : σ) : Prop where
  rest : V.rest s = V.rest u
  log : V.log s = V.log u
  blk : ∀ k ∈ K, V.blk s k = V.blk u k

/-- `m` reads and writes only blocks it logs. -/
structure LocalAt (V : View σ) (m : M σ β) (s : σ) : Prop where
  mono : ∀ k ∈ V.log s, k ∈ V.log (m s).2
  keep : ∀ k, k ∉ V.log (m s).2 → V.blk (m s).2 k = V.blk s k ∨ V.blk (m s).2 k = none
  same : ∀ u, Same V (V.log (m s).2) s u → (m u).1 = (m s).1 ∧ Same V (V.log (m s).2) (m s).2 (m u).2

def Local (V : View σ) (m : M σ β) : Prop := ∀ s, LocalAt V m s

section
variable {V : View σ}

theorem Same.symm {K : List V.Key} {s u : σ} (h : Same V K s u) : Same V K u s := ⟨h.rest.symm, h.log.symm, fun k hk => (h.blk k hk).symm⟩

theorem Local.of_const {r : Except Fault β} : Local V (fun s => (r, s)) := fun _ => ⟨fun _ h => h, fun _ _ => .inl rfl, fun _ h => ⟨rfl, h⟩⟩
theorem Local.pure (b : β) : Local V (Pure.pure b : M σ β) := Local.of_const
theorem Local.fail (e : Fault) : Local V (M.fail e : M σ β) := Local.of_const
theorem Local.lift (r : Except Fault β) : Local V (M.lift r : M σ β) := Local.of_const
theorem Local.unwrap (o : Option β) : Local V (M.unwrap o : M σ β) := by cases o <;> exact Local.of_const

theorem Local.bind {m : M σ β} {f : β → M σ γ} (h : Local V m) (hf : ∀ b, Local V (f b)) : Local V (m >>= f) := by
  intro s
  obtain ⟨m1, k1, s1⟩ := h s
  rcases hm : m s with ⟨e | b, q⟩
  · rw [hm] at m1 k1 s1
    refine ⟨?_, ?_, ?_⟩ <;> rw [M.bind_error hm]
    · exact m1
    · exact k1
    · intro u hu
      obtain ⟨e1, e2⟩ := s1 u hu
      rcases hu' : m u with ⟨x, u'⟩
      rw [hu'] at e1 e2
      obtain rfl : x = .error e := e1
      rw [M.bind_error hu']
      exact ⟨rfl, e2⟩
  · rw [hm] at m1 k1 s1
    obtain ⟨m2, k2, s2⟩ := hf b q
    refine ⟨?_, ?_, ?_⟩ <;> rw [M.bind_ok hm]
    · exact fun k hk => m2 k (m1 k hk)
    · intro k hk
      rcases k2 k hk with h2 | h2
      · rw [h2]; exact k1 k fun h => hk (m2 k h)
      · exact .inr h2
    · intro u hu
      obtain ⟨e1, e2⟩ := s1 u ⟨hu.rest, hu.log, fun k hk => hu.blk k (m2 k hk)⟩
      have ku := (h u).keep
      rcases hu' : m u with ⟨x, u'⟩
      rw [hu'] at e1 e2 ku
      obtain rfl : x = .ok b := e1
      rw [M.bind_ok hu']
      refine s2 u' ⟨e2.rest, e2.log, fun k hk => ?_⟩
      by_cases hk1 : k ∈ V.log q
      · exact e2.blk k hk1
      · have hk2 : k ∉ V.log u' := by rw [← e2.log]; exact hk1
        have := V.law q u' k e2.rest
        rcases k1 k hk1 with h3 | h3 <;> rcases ku k hk2 with h4 | h4
        · dsimp only at h3 h4
          rw [h3, h4]; exact hu.blk k hk
        · dsimp only at h4
          rw [h4, this.2 h4]
        · dsimp only at h3
          rw [h3, this.1 h3]
        · dsimp only at h3
          rw [h3, this.1 h3]

theorem Local.loop {body : Nat → β → M σ β} (h : ∀ i b, Local V (body i b)) : ∀ (n i : Nat) (b : β), Local V (EnumVecModel.loop body n i b)
  | 0, _, b => Local.pure b
  | n + 1, i, b => Local.bind (h i b) fun b' => Local.loop h n (i + 1) b'

theorem Local.ite {p : Prop} [Decidable p] {m m' : M σ β} (h : Local V m) (h' : Local V m') : Local V (if p then m else m') := by
  split
  · exact h
  · exact h'

end

/-- Two states. -/
def View.prod (V : View σ) (U : View σ') : View (σ × σ') where
  Key := V.Key ⊕ U.Key
  Blk := V.Blk ⊕ U.Blk
  Rest := V.Rest × U.Rest
  log p := (V.log p.1).map .inl ++ (U.log p.2).map .inr
  blk p
    | .inl k => (V.blk p.1 k).map .inl
    | .inr k => (U.blk p.2 k).map .inr
  rest p := (V.rest p.1, U.rest p.2)
  law s u k h := by
    obtain ⟨h1, h2⟩ := Prod.mk.inj h
    cases k with
    | inl k => simpa using V.law s.1 u.1 k h1
    | inr k => simpa using U.law s.2 u.2 k h2

/-- A state without blocks. -/
def View.plain (τ : Type) : View τ where
  Key := Empty
  Blk := Empty
  Rest := τ
  log _ := []
  blk _ _ := none
  rest t := t
  law _ _ _ _ := Iff.rfl

/-- A vector with its log. -/
def view (W : Nat) : View (LV W) where
  Key := Nat
  Blk := BitVec W
  Rest := Nat × Nat × Nat
  log p := p.2
  blk p i := p.1.storage.data[i]?
  rest p := (p.1.num, p.1.storage.cap, p.1.storage.data.length)
  law s u k h := by
    obtain ⟨-, h⟩ := Prod.mk.inj h
    obtain ⟨-, h⟩ := Prod.mk.inj h
    rw [List.getElem?_eq_none_iff, List.getElem?_eq_none_iff, h]

theorem Same.prod {V : View σ} {U : View σ'} {K : List (V.prod U).Key} {s u : σ × σ'} (h : Same (V.prod U) K s u) {K1 : List V.Key} {K2 : List U.Key}
    (h1 : ∀ k ∈ K1, Sum.inl k ∈ K) (h2 : ∀ k ∈ K2, Sum.inr k ∈ K) : Same V K1 s.1 u.1 ∧ Same U K2 s.2 u.2 := by
  obtain ⟨a, b, d⟩ := h
  obtain ⟨a1, a2⟩ := Prod.mk.inj a
  have b : (V.log s.1).map .inl ++ (U.log s.2).map .inr = ((V.log u.1).map .inl ++ (U.log u.2).map .inr : List (V.Key ⊕ U.Key)) := b
  have bl := congrArg (List.filterMap Sum.getLeft?) b
  have br := congrArg (List.filterMap Sum.getRight?) b
  simp only [List.filterMap_append, List.filterMap_map] at bl br
  have e1 : ∀ l : List V.Key, l.filterMap (Sum.getLeft? ∘ (Sum.inl : _ → V.Key ⊕ U.Key)) = l := fun l => by
    rw [show (Sum.getLeft? ∘ (Sum.inl : _ → V.Key ⊕ U.Key)) = some from rfl, List.filterMap_some]
  have e2 : ∀ l : List U.Key, l.filterMap (Sum.getLeft? ∘ (Sum.inr : _ → V.Key ⊕ U.Key)) = [] := fun l => by
    rw [show (Sum.getLeft? ∘ (Sum.inr : _ → V.Key ⊕ U.Key)) = fun _ => none from rfl]; simp
  have e3 : ∀ l : List V.Key, l.filterMap (Sum.getRight? ∘ (Sum.inl : _ → V.Key ⊕ U.Key)) = [] := fun l => by
    rw [show (Sum.getRight? ∘ (Sum.inl : _ → V.Key ⊕ U.Key)) = fun _ => none from rfl]; simp
  have e4 : ∀ l : List U.Key, l.filterMap (Sum.getRight? ∘ (Sum.inr : _ → V.Key ⊕ U.Key)) = l := fun l => by
    rw [show (Sum.getRight? ∘ (Sum.inr : _ → V.Key ⊕ U.Key)) = some from rfl, List.filterMap_some]
  rw [e1, e1, e2, e2, List.append_nil, List.append_nil] at bl
  rw [e3, e3, e4, e4, List.nil_append, List.nil_append] at br
  refine ⟨⟨a1, bl, fun k hk => ?_⟩, ⟨a2, br, fun k hk => ?_⟩⟩
  · have : (V.blk s.1 k).map Sum.inl = ((V.blk u.1 k).map Sum.inl : Option (V.Blk ⊕ U.Blk)) := d _ (h1 k hk)
    cases hs : V.blk s.1 k <;> cases hu : V.blk u.1 k <;> rw [hs, hu] at this <;> simp at this <;> try rfl
    rw [this]
  · have : (U.blk s.2 k).map Sum.inr = ((U.blk u.2 k).map Sum.inr : Option (V.Blk ⊕ U.Blk)) := d _ (h2 k hk)
    cases hs : U.blk s.2 k <;> cases hu : U.blk u.2 k <;> rw [hs, hu] at this <;> simp at this <;> try rfl
    rw [this]

theorem mem_inl {V : View σ} {U : View σ'} {p : σ × σ'} {k : V.Key} : (Sum.inl k : V.Key ⊕ U.Key) ∈ (V.prod U).log p ↔ k ∈ V.log p.1 := by
  show Sum.inl k ∈ ((V.log p.1).map .inl ++ (U.log p.2).map .inr : List (V.Key ⊕ U.Key)) ↔ _
  simp

theorem mem_inr {V : View σ} {U : View σ'} {p : σ × σ'} {k : U.Key} : (Sum.inr k : V.Key ⊕ U.Key) ∈ (V.prod U).log p ↔ k ∈ U.log p.2 := by
  show Sum.inr k ∈ ((V.log p.1).map .inl ++ (U.log p.2).map .inr : List (V.Key ⊕ U.Key)) ↔ _
  simp

theorem Same.mk2 {V : View σ} {U : View σ'} {K : List (V.prod U).Key} {s u : σ × σ'} {K1 : List V.Key} {K2 : List U.Key} (h1 : Same V K1 s.1 u.1) (h2 : Same U K2 s.2 u.2)
    (e1 : ∀ k, (Sum.inl k : V.Key ⊕ U.Key) ∈ K → k ∈ K1) (e2 : ∀ k, (Sum.inr k : V.Key ⊕ U.Key) ∈ K → k ∈ K2) : Same (V.prod U) K s u := by
  refine ⟨?_, ?_, fun k hk => ?_⟩
  · show (V.rest s.1, U.rest s.2) = (V.rest u.1, U.rest u.2)
    rw [h1.rest, h2.rest]
  · show (V.log s.1).map .inl ++ (U.log s.2).map .inr = ((V.log u.1).map .inl ++ (U.log u.2).map .inr : List (V.Key ⊕ U.Key))
    rw [h1.log, h2.log]
  · cases k with
    | inl k => exact congrArg (Option.map Sum.inl) (h1.blk k (e1 k hk))
    | inr k => exact congrArg (Option.map Sum.inr) (h2.blk k (e2 k hk))

theorem LocalAt.onFst {V : View σ} {U : View σ'} {m : M σ β} {p : σ × σ'} (h : LocalAt V m p.1) : LocalAt (V.prod U) (EV.onFst m) p := by
  obtain ⟨m1, k1, s1⟩ := h
  refine ⟨fun k hk => ?_, fun k hk => ?_, fun u hu => ?_⟩
  · cases k with
    | inl k => exact mem_inl.2 (m1 k (mem_inl.1 hk))
    | inr k =>
      have h : k ∈ U.log p.2 := mem_inr.1 hk
      exact mem_inr.2 h
  · cases k with
    | inl k =>
      rcases k1 k fun h => hk (mem_inl.2 h) with h | h
      · exact .inl (congrArg (Option.map Sum.inl) h)
      · exact .inr (congrArg (Option.map Sum.inl) h)
    | inr k => exact .inl rfl
  · have hu1 := hu.prod (K1 := V.log (m p.1).2) (K2 := U.log p.2) (fun k hk => mem_inl.2 hk) fun k hk => mem_inr.2 hk
    obtain ⟨e1, e2⟩ := s1 u.1 hu1.1
    exact ⟨e1, e2.mk2 hu1.2 (fun _ => mem_inl.1) fun _ => mem_inr.1⟩

theorem LocalAt.onSnd {V : View σ} {U : View σ'} {m : M σ' β} {p : σ × σ'} (h : LocalAt U m p.2) : LocalAt (V.prod U) (EV.onSnd m) p := by
  obtain ⟨m1, k1, s1⟩ := h
  refine ⟨fun k hk => ?_, fun k hk => ?_, fun u hu => ?_⟩
  · cases k with
    | inr k => exact mem_inr.2 (m1 k (mem_inr.1 hk))
    | inl k =>
      have h : k ∈ V.log p.1 := mem_inl.1 hk
      exact mem_inl.2 h
  · cases k with
    | inr k =>
      rcases k1 k fun h => hk (mem_inr.2 h) with h | h
      · exact .inl (congrArg (Option.map Sum.inr) h)
      · exact .inr (congrArg (Option.map Sum.inr) h)
    | inl k => exact .inl rfl
  · have hu1 := hu.prod (K1 := V.log p.1) (K2 := U.log (m p.2).2) (fun k hk => mem_inl.2 hk) fun k hk => mem_inr.2 hk
    obtain ⟨e1, e2⟩ := s1 u.2 hu1.2
    exact ⟨e1, Same.mk2 hu1.1 e2 (fun _ => mem_inl.1) fun _ => mem_inr.1⟩

theorem Local.onFst {V : View σ} {U : View σ'} {m : M σ β} (h : Local V m) : Local (V.prod U) (EV.onFst m) := fun p => (h p.1).onFst
theorem Local.onSnd {V : View σ} {U : View σ'} {m : M σ' β} (h : Local U m) : Local (V.prod U) (EV.onSnd m) := fun p => (h p.2).onSnd

theorem Local.call {V : View σ} (f : Closure τ α β) (x : α) : Local (V.prod (View.plain τ)) (EV.call f x) := by
  have key : Local (View.plain τ) (fun t => match f x t with | (some r, t) => (.ok r, t) | (none, t) => (.error .user, t) : M τ β) := by
    intro t
    refine ⟨fun k => k.elim, fun k => k.elim, fun u hu => ?_⟩
    obtain rfl : t = u := hu.rest
    exact ⟨rfl, ⟨rfl, rfl, fun k => k.elim⟩⟩
  have e : EV.call f x = EV.onSnd (σ := σ) (fun t => match f x t with | (some r, t) => (.ok r, t) | (none, t) => (.error .user, t) : M τ β) := by
    funext p
    unfold EV.call EV.onSnd
    dsimp only
    rcases f x p.2 with ⟨_ | _, _⟩ <;> rfl
  rw [e]
  exact key.onSnd

/-! ## The methods -/

section
variable (c : Inst α)

theorem same_iff {W : Nat} {K : List Nat} {s u : LV W} : Same (view W) K s u ↔ s.1.num = u.1.num ∧ s.1.storage.cap = u.1.storage.cap ∧
    s.1.storage.data.length = u.1.storage.data.length ∧ s.2 = u.2 ∧ ∀ k ∈ K, s.1.storage.data[k]? = u.1.storage.data[k]? := by
  constructor
  · rintro ⟨h1, h2, h3⟩
    obtain ⟨a, h1⟩ := Prod.mk.inj h1
    obtain ⟨b, h1⟩ := Prod.mk.inj h1
    exact ⟨a, b, h1, h2, h3⟩
  · rintro ⟨a, b, d, h2, h3⟩
    refine ⟨?_, h2, h3⟩
    show (_, _, _) = (_, _, _)
    rw [a, b, d]

/-- The clauses of `LocalAt` for a vector. -/
theorem local_iff {W : Nat} {m : M (LV W) β} {s : LV W} (h1 : ∀ k ∈ s.2, k ∈ (m s).2.2)
    (h2 : ∀ k, k ∉ (m s).2.2 → (m s).2.1.storage.data[k]? = s.1.storage.data[k]? ∨ (m s).2.1.storage.data[k]? = none)
    (h3 : ∀ u : EV W, u.num = s.1.num → u.storage.cap = s.1.storage.cap → u.storage.data.length = s.1.storage.data.length →
      (∀ k ∈ (m s).2.2, u.storage.data[k]? = s.1.storage.data[k]?) → (m (u, s.2)).1 = (m s).1 ∧
      (m (u, s.2)).2.1.num = (m s).2.1.num ∧ (m (u, s.2)).2.1.storage.cap = (m s).2.1.storage.cap ∧
      (m (u, s.2)).2.1.storage.data.length = (m s).2.1.storage.data.length ∧ (m (u, s.2)).2.2 = (m s).2.2 ∧
      ∀ k ∈ (m s).2.2, (m (u, s.2)).2.1.storage.data[k]? = (m s).2.1.storage.data[k]?) : LocalAt (view W) m s := by
  refine ⟨h1, h2, fun u hu => ?_⟩
  obtain ⟨a, b, d, e, f⟩ := same_iff.1 hu
  obtain ⟨u, t⟩ := u
  obtain rfl : s.2 = t := e
  obtain ⟨g1, g2, g3, g4, g5, g6⟩ := h3 u a.symm b.symm d.symm fun k hk => (f k hk).symm
  exact ⟨g1, same_iff.2 ⟨g2.symm, g3.symm, g4.symm, g5.symm, fun k hk => (g6 k hk).symm⟩⟩

theorem len_local : Local (view c.W) (len c) := fun s =>
  ⟨fun _ h => h, fun _ _ => .inl rfl, fun u hu => ⟨by
    have := (same_iff.1 hu).1
    show Except.ok (EV.len c u.1) = Except.ok (EV.len c s.1)
    unfold EV.len
    rw [this], hu⟩⟩

theorem setLen_local (n : Nat) : Local (view c.W) (setLen c n) := fun s =>
  ⟨fun _ h => h, fun _ _ => .inl rfl, fun u hu => ⟨rfl, by
    obtain ⟨-, h⟩ := same_iff.1 hu
    exact same_iff.2 ⟨rfl, h⟩⟩⟩

theorem getRawUnchecked_local (i : Nat) : Local (view c.W) (getRawUnchecked c i) := fun s => by
  have e : ∀ s : LV c.W, getRawUnchecked c i s = (rawUnchecked c s.1 i, (s.1, s.2 ++ [(blockIndex c i).1])) := fun _ => rfl
  refine local_iff ?_ ?_ ?_
  · rw [e]; exact fun k hk => List.mem_append_left _ hk
  · rw [e]; exact fun k _ => .inl rfl
  · rw [e]
    intro u h1 h2 h3 h4
    rw [e]
    refine ⟨?_, h1, h2, h3, rfl, h4⟩
    show rawUnchecked c u i = rawUnchecked c s.1 i
    unfold rawUnchecked
    rw [h4 _ (List.mem_append_right _ (List.mem_singleton.2 rfl))]

theorem block_local (i : Nat) : Local (view c.W) (block c i) := fun s => by
  have e : ∀ s : LV c.W, block c i s = ((EV.block c i s.1).1, ((EV.block c i s.1).2, s.2 ++ [i])) := fun _ => rfl
  have e2 : ∀ s : EV c.W, (EV.block c i s).2 = s := fun s => by unfold EV.block; split <;> rfl
  simp only [e2] at e
  refine local_iff ?_ ?_ ?_
  · rw [e]; exact fun k hk => List.mem_append_left _ hk
  · rw [e]; exact fun k _ => .inl rfl
  · rw [e]
    intro u h1 h2 h3 h4
    rw [e]
    refine ⟨?_, h1, h2, h3, rfl, h4⟩
    show (EV.block c i u).1 = (EV.block c i s.1).1
    unfold EV.block
    rw [h4 _ (List.mem_append_right _ (List.mem_singleton.2 rfl))]
    cases s.1.storage.data[i]? <;> rfl

/-- Write one logged block. -/
theorem set_local (i : Nat) (r : Option (BitVec c.W) → Except Fault β) (g : Option (BitVec c.W) → BitVec c.W) : Local (view c.W) (fun s =>
    (r s.1.storage.data[i]?, ({ s.1 with storage := { s.1.storage with data := s.1.storage.data.set i (g s.1.storage.data[i]?) } }, s.2 ++ [i]))) := fun s => by
  refine local_iff ?_ ?_ ?_
  · exact fun k hk => List.mem_append_left _ hk
  · intro k hk
    dsimp only at hk ⊢
    rw [List.getElem?_set_ne fun h => hk (List.mem_append_right _ (List.mem_singleton.2 h.symm))]
    exact .inl rfl
  · intro u h1 h2 h3 h4
    dsimp only at h4 ⊢
    rw [h4 i (List.mem_append_right _ (List.mem_singleton.2 rfl))]
    refine ⟨rfl, h1, h2, by rw [List.length_set, List.length_set, h3], rfl, fun k hk => ?_⟩
    rw [List.getElem?_set, List.getElem?_set, h3, h4 k hk]

theorem setBlock_local (i : Nat) (b : BitVec c.W) : Local (view c.W) (setBlock c i b) := set_local c i (fun _ => .ok ()) fun _ => b

theorem setRawUnchecked_local (i d : Nat) : Local (view c.W) (setRawUnchecked c i d) := by
  have := set_local c (blockIndex c i).1 (fun | some _ => (.ok () : Except Fault Unit) | none => .error .ub)
    (fun | some block => block &&& ~~~(c.mask <<< (blockIndex c i).2) ||| (BitVec.ofNat c.W d <<< (blockIndex c i).2) | none => 0)
  refine (funext fun s => ?_ : setRawUnchecked c i d = _) ▸ this
  show ((EV.setRawUnchecked c i d s.1).1, ((EV.setRawUnchecked c i d s.1).2, s.2 ++ [(blockIndex c i).1])) = _
  unfold EV.setRawUnchecked
  cases h : s.1.storage.data[(blockIndex c i).1]? with
  | some b => rfl
  | none =>
    dsimp only
    rw [List.set_eq_of_length_le (by simpa using h)]

theorem getRaw_local (i : Nat) : Local (view c.W) (getRaw c i) :=
  .bind (len_local c) fun _ => .ite (.pure _) (.bind (getRawUnchecked_local c i) fun _ => .pure _)

theorem setRaw_local (i d : Nat) : Local (view c.W) (setRaw c i d) :=
  .bind (len_local c) fun _ => .ite (.bind (.fail _) fun _ => setRawUnchecked_local c i d) (setRawUnchecked_local c i d)

theorem fromDiscr_local {V : View σ} (x : Nat) : Local V (fromDiscr c x) := by
  unfold fromDiscr
  cases c.E.fromDiscr x with
  | some a => exact .pure a
  | none => exact .fail _

theorem get_local (i : Nat) : Local (view c.W) (get c i) := .bind (getRaw_local c i) fun x => by
  cases x with
  | none => exact .pure _
  | some d => exact .bind (fromDiscr_local c d) fun _ => .pure _

theorem set_local' (i : Nat) (x : α) : Local (view c.W) (set c i x) := setRaw_local c i _

/-- What a call does to the shape of a vector, as a function of length, capacity and number of blocks: the result, the new length and capacity, how many blocks are
kept, the blocks appended, the log. -/
structure Shape (W : Nat) (β : Type) where
  result : Except Fault β
  num : Nat
  cap : Nat
  keep : Nat
  add : List (BitVec W)
  log : List Nat

/-- The call. -/
def Shape.run {W : Nat} (f : Nat → Nat → Nat → Shape W β) : M (LV W) β := fun s =>
  let r := f s.1.num s.1.storage.cap s.1.storage.data.length
  (r.result, (⟨⟨s.1.storage.data.take r.keep ++ r.add, r.cap⟩, r.num⟩, s.2 ++ r.log))

theorem Shape.local {W : Nat} (f : Nat → Nat → Nat → Shape W β) (h : ∀ a b n j, j < (f a b n).add.length → min (f a b n).keep n + j ∈ (f a b n).log) : Local (view W) (Shape.run f) := fun s => by
  have h := h s.1.num s.1.storage.cap s.1.storage.data.length
  refine local_iff ?_ ?_ ?_
  · exact fun k hk => List.mem_append_left _ hk
  · intro k hk
    dsimp only [Shape.run] at hk ⊢
    generalize f s.1.num s.1.storage.cap s.1.storage.data.length = r at *
    by_cases hk1 : k < (s.1.storage.data.take r.keep).length
    · rw [List.getElem?_append_left hk1]
      rw [List.length_take] at hk1
      rw [List.getElem?_take_of_lt (by omega)]
      exact .inl rfl
    · refine .inr ?_
      rw [List.getElem?_append_right (by omega), List.getElem?_eq_none_iff]
      rw [List.length_take] at hk1 ⊢
      by_cases hj : k - min r.keep s.1.storage.data.length < r.add.length
      · have := h _ hj
        rw [show min r.keep s.1.storage.data.length + (k - min r.keep s.1.storage.data.length) = k by omega] at this
        exact absurd (List.mem_append_right _ this) hk
      · omega
  · intro u h1 h2 h3 h4
    dsimp only [Shape.run] at h4 ⊢
    rw [h1, h2, h3]
    generalize f s.1.num s.1.storage.cap s.1.storage.data.length = r at *
    refine ⟨rfl, rfl, rfl, by rw [List.length_append, List.length_append, List.length_take, List.length_take, h3], rfl, fun k hk => ?_⟩
    have hl : (u.storage.data.take r.keep).length = (s.1.storage.data.take r.keep).length := by rw [List.length_take, List.length_take, h3]
    by_cases hk1 : k < (s.1.storage.data.take r.keep).length
    · rw [List.getElem?_append_left hk1, List.getElem?_append_left (by omega)]
      rw [List.length_take] at hk1
      rw [List.getElem?_take_of_lt (by omega), List.getElem?_take_of_lt (by omega)]
      exact h4 k hk
    · rw [List.getElem?_append_right (by omega), List.getElem?_append_right (by omega), hl]

/-- Nothing happens. -/
def Shape.none {W : Nat} (r : Except Fault β) (a b n : Nat) : Shape W β := ⟨r, a, b, n, [], []⟩

theorem resizeStorage_local (n : Nat) (x : BitVec c.W) : Local (view c.W) (resizeStorage c n x) := by
  have := Shape.local (W := c.W) (fun a b l => if n ≤ l then ⟨.ok (), a, b, n, [], []⟩
    else if n ≤ b then ⟨.ok (), a, b, l, List.replicate (n - l) x, List.range' l (n - l)⟩
    else match c.alloc.grow b n with
      | some k => ⟨.ok (), a, k, l, List.replicate (n - l) x, List.range' l (n - l)⟩
      | none => Shape.none (.error .capacity) a b l) (by
    intro a b l j hj
    split
    · rename_i h; rw [if_pos h] at hj; cases hj
    · rename_i h
      rw [if_neg h] at hj
      split
      · rename_i h2
        rw [if_pos h2] at hj
        simp only [List.length_replicate] at hj
        simp [List.mem_range'_1, hj]
      · rename_i h2
        rw [if_neg h2] at hj
        cases hg : c.alloc.grow b n with
        | none => rw [hg] at hj; cases hj
        | some k =>
          rw [hg] at hj
          simp only [List.length_replicate] at hj
          simp [List.mem_range'_1, hj])
  refine (funext fun s => ?_ : resizeStorage c n x = _) ▸ this
  unfold resizeStorage Shape.run RVec.resize RVec.reserve RVec.truncate RVec.len
  dsimp only
  by_cases h : n ≤ s.1.storage.data.length
  · rw [if_pos h, if_pos h, Nat.sub_eq_zero_of_le h]
    simp
  · rw [if_neg h, if_neg h, show s.1.storage.data.length + (n - s.1.storage.data.length) = n by omega]
    by_cases h2 : n ≤ s.1.storage.cap
    · rw [if_pos h2, if_pos h2]
      simp
    · rw [if_neg h2, if_neg h2]
      cases c.alloc.grow s.1.storage.cap n with
      | none => simp [Shape.none]
      | some k => simp

theorem reserveStorage_local (n : Nat) : Local (view c.W) (reserveStorage c n) := by
  have := Shape.local (W := c.W) (fun a b l => if l + n ≤ b then Shape.none (.ok ()) a b l
    else match c.alloc.grow b (l + n) with
      | some k => ⟨.ok (), a, k, l, [], []⟩
      | none => Shape.none (.error .capacity) a b l) (by
    intro a b l j hj
    split
    · rename_i h; rw [if_pos h] at hj; cases hj
    · rename_i h
      rw [if_neg h] at hj
      cases hg : c.alloc.grow b (l + n) <;> rw [hg] at hj <;> cases hj)
  refine (funext fun s => ?_ : reserveStorage c n = _) ▸ this
  unfold reserveStorage Shape.run RVec.reserve RVec.len
  dsimp only
  by_cases h : s.1.storage.data.length + n ≤ s.1.storage.cap
  · rw [if_pos h, if_pos h]
    simp [Shape.none]
  · rw [if_neg h, if_neg h]
    cases c.alloc.grow s.1.storage.cap (s.1.storage.data.length + n) <;> simp [Shape.none]

theorem growIfNeeded_local : Local (view c.W) (growIfNeeded c) := by
  have := Shape.local (W := c.W) (fun a b l => if a % c.epb = 0 ∧ blocksForElements c a = l then
      if l + 1 ≤ b then ⟨.ok (), a, b, l, [0], [l]⟩
      else match c.alloc.grow b (l + 1) with
        | some k => ⟨.ok (), a, k, l, [0], [l]⟩
        | none => Shape.none (.error .capacity) a b l
    else Shape.none (.ok ()) a b l) (by
    intro a b l j hj
    split
    · rename_i h
      rw [if_pos h] at hj
      split
      · rename_i h2
        rw [if_pos h2] at hj
        obtain rfl : j = 0 := by simpa using hj
        simp
      · rename_i h2
        rw [if_neg h2] at hj
        cases hg : c.alloc.grow b (l + 1) with
        | none => rw [hg] at hj; cases hj
        | some k =>
          rw [hg] at hj
          obtain rfl : j = 0 := by simpa using hj
          simp
    · rename_i h
      rw [if_neg h] at hj
      cases hj)
  refine (funext fun s => ?_ : growIfNeeded c = _) ▸ this
  unfold growIfNeeded Shape.run RVec.push RVec.reserve RVec.len EV.len
  dsimp only
  by_cases h : s.1.num % c.epb = 0 ∧ blocksForElements c s.1.num = s.1.storage.data.length
  · rw [if_pos h, if_pos h]
    by_cases h2 : s.1.storage.data.length + 1 ≤ s.1.storage.cap
    · rw [if_pos h2, if_pos h2]
      simp
    · rw [if_neg h2, if_neg h2]
      cases c.alloc.grow s.1.storage.cap (s.1.storage.data.length + 1) <;> simp [Shape.none]
  · rw [if_neg h, if_neg h]
    simp [Shape.none]

theorem fixStorage_local : Local (view c.W) (fixStorage c) := by
  have := Shape.local (W := c.W) (fun a b _ => ⟨.ok (), a, b, blocksForElements c a, [], []⟩) (fun _ _ _ _ h => by cases h)
  refine (funext fun s => ?_ : fixStorage c = _) ▸ this
  show ((.ok () : Except Fault Unit), _) = _
  simp [Shape.run, EV.fixStorage, RVec.truncate, EV.len]

theorem shrinkStorage_local : Local (view c.W) (shrinkStorage c) := by
  have := Shape.local (W := c.W) (fun a b l => ⟨.ok (), a, c.alloc.shrinkTo b l, l, [], []⟩) (fun _ _ _ _ h => by cases h)
  refine (funext fun s => ?_ : shrinkStorage c = _) ▸ this
  show ((.ok () : Except Fault Unit), _) = _
  simp [Shape.run, RVec.shrinkToFit, RVec.len]

theorem clone_local : Local (view c.W) (clone c) := fun s => by
  have e : ∀ s : LV c.W, clone c s = match c.alloc.exact s.1.storage.data.length with
    | some k => (.ok ⟨⟨s.1.storage.data, k⟩, s.1.num⟩, (s.1, s.2 ++ List.range s.1.storage.data.length))
    | none => (.error .capacity, s) := fun s => by
      unfold clone EV.clone RVec.clone RVec.len
      cases c.alloc.exact s.1.storage.data.length <;> rfl
  refine local_iff ?_ ?_ ?_
  · rw [e]
    cases c.alloc.exact s.1.storage.data.length
    · exact fun _ h => h
    · exact fun _ h => List.mem_append_left _ h
  · rw [e]
    cases c.alloc.exact s.1.storage.data.length <;> exact fun _ _ => .inl rfl
  · rw [e]
    intro u h1 h2 h3 h4
    rw [e]
    rw [h3]
    cases hx : c.alloc.exact s.1.storage.data.length with
    | none => rw [hx] at h4; exact ⟨rfl, h1, h2, h3, rfl, h4⟩
    | some k =>
      rw [hx] at h4
      have hd : u.storage.data = s.1.storage.data := by
        refine List.ext_getElem? fun i => ?_
        by_cases hi : i < s.1.storage.data.length
        · exact h4 i (List.mem_append_right _ (List.mem_range.2 hi))
        · rw [List.getElem?_eq_none (by omega), List.getElem?_eq_none (by omega)]
      refine ⟨?_, h1, h2, h3, rfl, h4⟩
      dsimp only
      rw [hd, h1]

theorem reserve_local (n : Nat) : Local (view c.W) (reserve c n) :=
  .bind (len_local c) fun _ => .ite (.bind (.lift _) fun _ => resizeStorage_local c _ 0) (.fail _)

theorem shrinkToFit_local : Local (view c.W) (shrinkToFit c) := .bind (fixStorage_local c) fun _ => shrinkStorage_local c

theorem truncate_local (n : Nat) : Local (view c.W) (truncate c n) := .bind (len_local c) fun _ => .ite (setLen_local c n) (.pure ())

theorem clear_local : Local (view c.W) (clear c) := truncate_local c 0

theorem push_local (x : α) : Local (view c.W) (push c x) :=
  .bind (growIfNeeded_local c) fun _ => .bind (len_local c) fun _ => .ite (.bind (setLen_local c _) fun _ => set_local' c _ x) (.bind (.fail _) fun _ => set_local' c _ x)

theorem pop_local : Local (view c.W) (pop c) :=
  .bind (len_local c) fun _ => .ite (.pure _) (.bind (get_local c _) fun x => .bind (.unwrap x) fun _ => .bind (len_local c) fun _ => .bind (setLen_local c _) fun _ => .pure _)

theorem swap_local (a b : Nat) : Local (view c.W) (swap c a b) :=
  .bind (getRaw_local c a) fun x => .bind (.unwrap x) fun _ => .bind (getRaw_local c b) fun y => .bind (.unwrap y) fun _ =>
    .bind (setRaw_local c a _) fun _ => setRaw_local c b _

theorem swapRemove_local (i : Nat) : Local (view c.W) (swapRemove c i) :=
  .bind (len_local c) fun _ => .bind (.lift _) fun _ => .bind (swap_local c i _) fun _ => .bind (pop_local c) fun x => .unwrap x

theorem insert_local (i : Nat) (x : α) : Local (view c.W) (insert c i x) :=
  .bind (push_local c x) fun _ => .bind (len_local c) fun _ => .bind
    (.ite (.bind (.lift _) fun _ => .bind (.loop (fun i _ => .bind (getRawUnchecked_local c i) fun _ => .bind (setRawUnchecked_local c i _) fun _ => .pure _) _ _ _) fun _ => .pure _) (.pure _))
    fun (_, _) => .bind (len_local c) fun _ => .ite
      (.bind (.loop (fun j _ => .bind (block_local c j) fun _ => .bind (.lift _) fun _ => .bind (setBlock_local c j _) fun _ => .pure _) _ _ _) fun _ => .pure _) (.pure _)

theorem remove_local (i : Nat) : Local (view c.W) (remove c i) :=
  .bind (get_local c i) fun x => .bind (.unwrap x) fun _ => .bind (len_local c) fun _ => .bind (.lift _) fun _ =>
    .bind (.loop (fun j _ => .bind (getRawUnchecked_local c (j + 1)) fun _ => setRawUnchecked_local c j _) _ _ _) fun _ => .bind (len_local c) fun _ =>
    .bind (getRawUnchecked_local c _) fun _ => .bind (len_local c) fun _ => .bind (setLen_local c _) fun _ => .bind (len_local c) fun _ => .ite
      (.bind (.loop (fun _ _ => .bind (block_local c _) fun _ => .bind (.lift _) fun _ => .bind (setBlock_local c _ _) fun _ => .pure _) _ _ _) fun _ => .pure _) (.pure _)

theorem retain_local (f : Closure τ α Bool) : Local ((view c.W).prod (.plain τ)) (retain c f) :=
  .bind (len_local c).onFst fun _ => .bind (.loop (fun i j => .bind (get_local c i).onFst fun x => .bind (.unwrap x) fun x => .bind (.call f x) fun _ =>
    .ite (.bind (set_local' c j x).onFst fun _ => .pure _) (.pure _)) _ _ _) fun n => (setLen_local c n).onFst

theorem forEach_local (f : Closure τ α α) : Local ((view c.W).prod (.plain τ)) (forEach c f) :=
  .bind (len_local c).onFst fun _ => .loop (fun i _ => .bind (get_local c i).onFst fun x => .bind (.unwrap x) fun x => .bind (.call f x) fun x => (set_local' c i x).onFst) _ _ _

theorem extendHinted_local (pan : Bool) : ∀ (n pos : Nat) (items : List α), Local (view c.W) (extendHinted c pan n pos items)
  | 0, _, items => .pure items
  | n + 1, pos, x :: items => .bind (set_local' c pos x) fun _ => extendHinted_local pan n (pos + 1) items
  | _ + 1, _, [] => .fail _

theorem extendRest_local (pan : Bool) : ∀ items : List α, Local (view c.W) (extendRest c pan items)
  | [] => .ite (.fail _) (.pure _)
  | x :: items => .bind (push_local c x) fun _ => extendRest_local pan items

theorem extend_local (it : Src α) : Local (view c.W) (extend c it) :=
  .bind (len_local c) fun _ => .bind (reserve_local c _) fun _ => .bind (len_local c) fun _ => .bind (.lift _) fun _ => .bind (setLen_local c _) fun _ =>
    .bind (extendHinted_local c _ _ _ _) fun _ => extendRest_local c _ _

theorem fillStep_local (n : Nat) (v : BitVec c.W) (i : Nat) (u : Unit) : Local (view c.W) (fillStep c n v i u) := fun s => by
  have h := resizeStorage_local c (s.1.storage.len + n) v s
  refine ⟨h.mono, h.keep, fun u hu => ?_⟩
  have h2 := h.same u hu
  have e : u.1.storage.len = s.1.storage.len := (same_iff.1 hu).2.2.1.symm
  show (resizeStorage c (u.1.storage.len + n) v u).1 = _ ∧ Same (view c.W) _ _ (resizeStorage c (u.1.storage.len + n) v u).2
  rw [e]
  exact h2

theorem extendWithValue_local (x : α) (n : Nat) : Local (view c.W) (extendWithValue c x n) :=
  .ite (extend_local c _) (.bind (len_local c) fun _ => .bind (extend_local c _) fun _ => .bind (len_local c) fun _ => .bind (fixStorage_local c) fun _ =>
    .bind (reserveStorage_local c _) fun _ => .bind (.loop (fillStep_local c _ _) _ _ _) fun _ => .bind (.lift _) fun _ => .bind (setLen_local c _) fun _ => extend_local c _)

theorem resize_local (n : Nat) (x : α) : Local (view c.W) (resize c n x) :=
  .bind (len_local c) fun _ => .ite (extendWithValue_local c x _) (truncate_local c n)

theorem anyBlocks_local (m : BitVec c.W) : ∀ n i : Nat, Local (view c.W) (anyBlocks c m n i)
  | 0, _ => .pure _
  | n + 1, i => .bind (block_local c i) fun _ => .ite (.pure _) (anyBlocks_local m n (i + 1))

theorem any_local (x : α) : Local (view c.W) (any c x) :=
  .bind (len_local c) fun _ => .ite (.pure _) (.bind (.lift _) fun _ => .bind (anyBlocks_local c _ _ _) fun _ => .ite (.pure _)
    (.ite (.bind (block_local c _) fun _ => .ite (.pure _) (.pure _)) (.pure _)))

theorem allBlocks_local (v m : BitVec c.W) : ∀ n i : Nat, Local (view c.W) (allBlocks c v m n i)
  | 0, _ => .pure _
  | n + 1, i => .bind (block_local c i) fun _ => .ite (.pure _) (allBlocks_local v m n (i + 1))

theorem all_local (x : α) : Local (view c.W) (all c x) :=
  .bind (len_local c) fun _ => .ite (.pure _) (.bind (.lift _) fun _ => .bind (allBlocks_local c _ _ _ _) fun _ => .ite (.pure _)
    (.ite (.bind (block_local c _) fun _ => .ite (.pure _) (.pure _)) (.pure _)))

theorem hashLoop_local : ∀ n i : Nat, Local (view c.W) (hashLoop c n i)
  | 0, _ => .pure _
  | n + 1, i => .bind (getRawUnchecked_local c i) fun _ => .bind (hashLoop_local n (i + 1)) fun _ => .pure _

theorem hash_local : Local (view c.W) (hash c) := .bind (len_local c) fun _ => hashLoop_local c _ 0

theorem eqLoop_local : ∀ n i : Nat, Local ((view c.W).prod (view c.W)) (eqLoop c n i)
  | 0, _ => .pure _
  | n + 1, i => .bind (getRawUnchecked_local c i).onFst fun _ => .bind (getRawUnchecked_local c i).onSnd fun _ => .ite (.pure _) (eqLoop_local n (i + 1))

theorem eq_local : Local ((view c.W).prod (view c.W)) (eq c) := .bind (len_local c).onFst fun _ => .bind (len_local c).onSnd fun _ => .ite (eqLoop_local c _ 0) (.pure _)

/-- The first part of `appendStorage`: the blocks are copied. -/
def copyStorage : M (LV c.W × LV c.W) Unit := fun p =>
  match RVec.extendFromSlice c.alloc p.1.1.storage p.2.1.storage.data with
  | .error e => (.error e, p)
  | .ok st => (.ok (), (({ p.1.1 with storage := st },
      p.1.2 ++ List.range' p.1.1.storage.len p.2.1.storage.len), (p.2.1, p.2.2 ++ List.range p.2.1.storage.len)))

/-- The second part: `other` loses its blocks. -/
def dropBlocks : M (LV c.W) Unit := fun p => (.ok (), ({ p.1 with storage := { p.1.storage with data := [] } }, p.2))

theorem appendStorage_eq : appendStorage c = copyStorage c >>= fun _ => if c.small then onSnd (clear c) else onSnd (dropBlocks c) := by
  funext p
  rw [M.bind_apply]
  unfold appendStorage copyStorage
  rcases RVec.extendFromSlice c.alloc p.1.1.storage p.2.1.storage.data with _ | st
  · rfl
  · dsimp only
    by_cases h : c.small <;> simp only [h] <;> rfl

theorem dropBlocks_local : Local (view c.W) (dropBlocks c) := by
  have := Shape.local (W := c.W) (fun a b _ => ⟨.ok (), a, b, 0, [], []⟩) (fun _ _ _ _ h => by cases h)
  refine (funext fun s => ?_ : dropBlocks c = _) ▸ this
  simp [Shape.run, dropBlocks]

/-- What `copyStorage` does, from the capacity and the numbers of blocks. -/
theorem copyStorage_cases (n l : Nat) (cap : Nat) : (∃ k L, (∀ j, l ≤ j → j < l + n → j ∈ L) ∧ ∀ p : LV c.W × LV c.W, p.1.1.storage.data.length = l → p.2.1.storage.data.length = n → p.1.1.storage.cap = cap →
      copyStorage c p = (.ok (), ((⟨⟨p.1.1.storage.data ++ p.2.1.storage.data, k⟩, p.1.1.num⟩, p.1.2 ++ L), (p.2.1, p.2.2 ++ List.range n)))) ∨
    ∃ e, ∀ p : LV c.W × LV c.W, p.1.1.storage.data.length = l → p.2.1.storage.data.length = n → p.1.1.storage.cap = cap → copyStorage c p = (.error e, p) := by
  by_cases h : l + n ≤ cap
  · refine .inl ⟨cap, List.range' l n, fun j h1 h2 => List.mem_range'_1.2 ⟨h1, h2⟩, fun p h1 h2 h3 => ?_⟩
    subst h1 h2 h3
    unfold copyStorage RVec.extendFromSlice RVec.reserve RVec.len
    rw [if_pos h]
  · cases hg : c.alloc.grow cap (l + n) with
    | some k =>
      refine .inl ⟨k, List.range' l n, fun j h1 h2 => List.mem_range'_1.2 ⟨h1, h2⟩, fun p h1 h2 h3 => ?_⟩
      subst h1 h2 h3
      unfold copyStorage RVec.extendFromSlice RVec.reserve RVec.len
      rw [if_neg h, hg]
    | none =>
      refine .inr ⟨.capacity, fun p h1 h2 h3 => ?_⟩
      subst h1 h2 h3
      unfold copyStorage RVec.extendFromSlice RVec.reserve RVec.len
      rw [if_neg h, hg]

theorem copyStorage_local : Local ((view c.W).prod (view c.W)) (copyStorage c) := by
  intro p
  rcases copyStorage_cases c p.2.1.storage.data.length p.1.1.storage.data.length p.1.1.storage.cap with ⟨k, L, hL, H⟩ | ⟨e, H⟩
  · have e := H p rfl rfl rfl
    refine ⟨?_, ?_, ?_⟩
    · rw [e]
      intro k hk
      cases k with
      | inl k => exact mem_inl.2 (List.mem_append_left _ (mem_inl.1 hk))
      | inr k => exact mem_inr.2 (List.mem_append_left _ (mem_inr.1 hk))
    · rw [e]
      intro k hk
      cases k with
      | inr k => exact .inl rfl
      | inl k =>
        have key : ∀ k : Nat, k ∉ p.1.2 ++ L → (p.1.1.storage.data ++ p.2.1.storage.data)[k]? = (p.1.1.storage.data)[k]? ∨
            (p.1.1.storage.data ++ p.2.1.storage.data)[k]? = none := by
          intro k hk
          by_cases h1 : k < p.1.1.storage.data.length
          · exact .inl (List.getElem?_append_left h1)
          · by_cases h2 : k < p.1.1.storage.data.length + p.2.1.storage.data.length
            · exact absurd (List.mem_append_right _ (hL k (by omega) h2)) hk
            · exact .inr (List.getElem?_eq_none (by rw [List.length_append]; omega))
        rcases key k fun h => hk (mem_inl.2 h) with h | h
        · exact .inl (congrArg (Option.map Sum.inl) h)
        · exact .inr (congrArg (Option.map Sum.inl) h)
    · rw [e]
      intro u hu
      obtain ⟨g1, g2⟩ := hu.prod (K1 := p.1.2 ++ L) (K2 := p.2.2 ++ List.range p.2.1.storage.data.length) (fun k hk => mem_inl.2 hk) fun k hk => mem_inr.2 hk
      have f1 := same_iff.1 g1
      have f2 := same_iff.1 g2
      have hd : u.2.1.storage.data = p.2.1.storage.data := by
        refine List.ext_getElem? fun i => ?_
        by_cases hi : i < p.2.1.storage.data.length
        · exact (f2.2.2.2.2 i (List.mem_append_right _ (List.mem_range.2 hi))).symm
        · rw [List.getElem?_eq_none (by have := f2.2.2.1; omega), List.getElem?_eq_none (by omega)]
      rw [H u f1.2.2.1.symm f2.2.2.1.symm f1.2.1.symm]
      refine ⟨rfl, Same.mk2 (K1 := p.1.2 ++ L) (K2 := p.2.2 ++ List.range p.2.1.storage.data.length) (same_iff.2 ⟨f1.1, rfl, ?_, ?_, ?_⟩) (same_iff.2 ⟨f2.1, f2.2.1, f2.2.2.1, ?_, f2.2.2.2.2⟩) (fun _ => mem_inl.1) fun _ => mem_inr.1⟩
      · show (p.1.1.storage.data ++ p.2.1.storage.data).length = (u.1.1.storage.data ++ u.2.1.storage.data).length
        rw [List.length_append, List.length_append, f1.2.2.1, f2.2.2.1]
      · show p.1.2 ++ L = u.1.2 ++ L
        rw [f1.2.2.2.1]
      · intro k hk
        show (p.1.1.storage.data ++ p.2.1.storage.data)[k]? = (u.1.1.storage.data ++ u.2.1.storage.data)[k]?
        rw [List.getElem?_append, List.getElem?_append, hd, f1.2.2.1, f1.2.2.2.2 k hk]
      · show p.2.2 ++ _ = u.2.2 ++ _
        rw [f2.2.2.2.1]
  · have e := H p rfl rfl rfl
    refine ⟨?_, ?_, ?_⟩
    · rw [e]; exact fun _ h => h
    · rw [e]; exact fun _ _ => .inl rfl
    · rw [e]
      intro u hu
      obtain ⟨g1, g2⟩ := hu.prod (K1 := []) (K2 := []) (fun k hk => by cases hk) fun k hk => by cases hk
      have f1 := same_iff.1 g1
      have f2 := same_iff.1 g2
      rw [H u f1.2.2.1.symm f2.2.2.1.symm f1.2.1.symm]
      exact ⟨rfl, hu⟩

theorem append_local : Local ((view c.W).prod (view c.W)) (append c) :=
  .bind (len_local c).onSnd fun _ => .bind (len_local c).onFst fun _ => .ite
    (.bind (fixStorage_local c).onFst fun _ => .bind (fixStorage_local c).onSnd fun _ =>
      .bind (appendStorage_eq c ▸ .bind (copyStorage_local c) fun _ => .ite (clear_local c).onSnd (dropBlocks_local c).onSnd) fun _ =>
      .bind (len_local c).onFst fun _ => .bind (.lift _) fun _ => (setLen_local c _).onFst)
    (.bind (reserve_local c _).onFst fun _ => .bind (.lift _) fun _ => .bind (setLen_local c _).onFst fun _ =>
      .bind (.loop (fun i _ => .bind (getRawUnchecked_local c i).onSnd fun _ => (setRawUnchecked_local c _ _).onFst) _ _ _) fun _ => (clear_local c).onSnd)

end

end Access
end EnumVecModel
