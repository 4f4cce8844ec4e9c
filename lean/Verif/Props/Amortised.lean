import Verif.Props.Inline

/-! # Cost of growing: reallocations are rare and move little (C51) -/

set_option linter.unusedSectionVars false

namespace EnumVecModel
open EV

variable {α τ : Type} [DecidableEq α] {c : Inst α}

/-! ## Specification -/

/-- The allocator grows geometrically: at least to the double (`std::vec::Vec`), or to a power of two (`SmallVec`). -/
def Alloc.Geometric (a : Alloc) : Prop :=
  ∀ cap n k, cap < n → a.grow cap n = some k → 2 * cap ≤ k ∨ ∃ j, k = 2 ^ j

/-- The allocator does not give much more than the double when one more block is needed (8 is the minimum of `Vec<u8>`). -/
def Alloc.Modest (a : Alloc) : Prop := ∀ cap k, a.grow cap (cap + 1) = some k → k ≤ max 8 (2 * cap)

/-- How many calls of a history change the capacity of the storage of variable `q`. -/
def growths (c : Inst α) (q : Nat) : List (Op τ α) → Mem c τ → Nat
  | [], _ => 0
  | o :: os, m =>
    (if ((step c m o).2.reg q).storage.cap = (m.reg q).storage.cap then 0 else 1) + growths c q os (step c m o).2

/-- The sum of the storage capacities (in blocks) from which these calls start: a bound on the number of blocks that growing moves. -/
def moved (c : Inst α) (q : Nat) : List (Op τ α) → Mem c τ → Nat
  | [], _ => 0
  | o :: os, m =>
    (if ((step c m o).2.reg q).storage.cap = (m.reg q).storage.cap then 0 else (m.reg q).storage.cap) +
      moved c q os (step c m o).2

/-- The call may do anything, except assign to `q` and shrink it. -/
def Op.keeps (q : Nat) (op : Op τ α) : Prop := q ∉ op.assigns ∧ op ≠ .shrinkToFit q

/-! ## Proof -/

/-- Number of binary digits. -/
def digits (n : Nat) : Nat := if n = 0 then 0 else Nat.log2 n + 1

theorem lt_two_pow_digits (n : Nat) : n < 2 ^ digits n := by
  unfold digits; split
  · subst n; decide
  · exact Nat.lt_log2_self

theorem two_pow_digits_le {n : Nat} (h : n ≠ 0) : 2 ^ digits n ≤ 2 * n := by
  unfold digits; rw [if_neg h, Nat.pow_succ]
  have := Nat.log2_self_le h
  omega

theorem digits_le {n d : Nat} (h : 2 ^ d ≤ n) : d + 1 ≤ digits n := by
  have := Nat.lt_of_le_of_lt h (lt_two_pow_digits n)
  exact (Nat.pow_lt_pow_iff_right (by decide)).mp this

theorem digits_lt_of_double {a b : Nat} (h : 2 * a ≤ b) (hlt : a < b) : digits a < digits b := by
  by_cases ha : a = 0
  · subst ha; exact digits_le (d := 0) (by simp only [Nat.pow_zero]; omega)
  · have h1 := two_pow_digits_le ha
    exact digits_le (Nat.le_trans h1 h)

theorem digits_lt_of_pow {a j : Nat} (hlt : a < 2 ^ j) : digits a < digits (2 ^ j) := by
  have h1 := digits_le (Nat.le_refl (2 ^ j))
  by_cases ha : a = 0
  · subst ha; exact digits_le (d := 0) (by simp only [Nat.pow_zero]; omega)
  · have h2 : 2 ^ (digits a) < 2 ^ (j + 1) := by
      have := two_pow_digits_le ha; rw [Nat.pow_succ]; omega
    have := (Nat.pow_lt_pow_iff_right (by decide)).mp h2
    omega

theorem capRel_digits : CapRel fun a b => a = b ∨ digits a < digits b where
  refl _ := .inl rfl
  trans h1 h2 := by
    rcases h1 with rfl | h1
    · exact h2
    · rcases h2 with rfl | h2
      · exact .inr h1
      · exact .inr (Nat.lt_trans h1 h2)

theorem geometric_grows {a : Alloc} (hl : a.Lawful) (hg : a.Geometric) : Grows a fun a b => a = b ∨ digits a < digits b := by
  intro cap n k hn hk
  have hge := hl.grow_ge _ _ _ hk
  rcases hg cap n k hn hk with h | ⟨j, rfl⟩
  · exact .inr (digits_lt_of_double h (by omega))
  · exact .inr (digits_lt_of_pow (by omega))

theorem growths_digits (hc : c.Sound) (hg : c.alloc.Geometric) (q : Nat) : ∀ (ops : List (Op τ α)) (m : Mem c τ), (∀ o ∈ ops, o.keeps q) →
    growths c q ops m + digits (m.reg q).storage.cap ≤ digits ((runAll c ops m).2.reg q).storage.cap ∧
    moved c q ops m + 2 ^ digits (m.reg q).storage.cap ≤ 2 ^ digits ((runAll c ops m).2.reg q).storage.cap
  | [], m, _ => ⟨by simp [growths, runAll], by simp [moved, runAll]⟩
  | o :: os, m, h => by
    have ho := h o (by simp)
    obtain ⟨h1, h2⟩ := growths_digits hc hg q os (step c m o).2 fun o' h' => h o' (by simp [h'])
    have hs := step_cap capRel_digits m o (fun _ => geometric_grows hc.lawful hg) q ho.1 ho.2
    unfold growths moved runAll
    dsimp only
    by_cases he : ((step c m o).2.reg q).storage.cap = (m.reg q).storage.cap
    · rw [if_pos he, if_pos he]
      rw [he] at h1 h2
      omega
    · rw [if_neg he, if_neg he]
      rcases hs with hs | hs
      · exact absurd hs.symm he
      · have h3 : 2 ^ (digits (m.reg q).storage.cap + 1) ≤ 2 ^ digits ((step c m o).2.reg q).storage.cap :=
          Nat.pow_le_pow_right (by decide) hs
        have h4 := lt_two_pow_digits (m.reg q).storage.cap
        rw [Nat.pow_succ] at h3
        omega

/-- **C51** With an allocator that grows geometrically, in any history of calls that neither assign to nor shrink variable `q`, from
any state and also with panics and failed allocations, only `k` calls change the capacity of `q`, where `2^k` is at most twice the final
capacity, and all of them together move less than twice the final capacity. -/
theorem C51_amortised (hc : c.Sound) (hg : c.alloc.Geometric) (q : Nat) (ops : List (Op τ α)) (m : Mem c τ)
    (h : ∀ o ∈ ops, o.keeps q) (hk : growths c q ops m ≠ 0) :
    2 ^ growths c q ops m ≤ 2 * ((runAll c ops m).2.reg q).storage.cap ∧
    moved c q ops m < 2 * ((runAll c ops m).2.reg q).storage.cap := by
  obtain ⟨h1, h2⟩ := growths_digits hc hg q ops m h
  have h0 : ((runAll c ops m).2.reg q).storage.cap ≠ 0 := by
    intro h0
    rw [h0] at h1
    have : digits 0 = 0 := rfl
    omega
  have h3 := two_pow_digits_le h0
  have h4 : 2 ^ growths c q ops m ≤ 2 ^ digits ((runAll c ops m).2.reg q).storage.cap := Nat.pow_le_pow_right (by decide) (by omega)
  have h5 := Nat.one_le_two_pow (n := digits (m.reg q).storage.cap)
  omega

theorem reserve_one_cap {a : Alloc} {W : Nat} {v v' : RVec W} (h : RVec.reserve a v 1 = .ok v') :
    v'.cap = v.cap ∨ v.cap < v.len + 1 ∧ a.grow v.cap (v.len + 1) = some v'.cap := by
  unfold RVec.reserve at h
  split at h
  · cases h; exact .inl rfl
  · next hn =>
    rcases hk : a.grow v.cap (v.len + 1) with _ | k <;> rw [hk] at h <;> cases h
    exact .inr ⟨by omega, rfl⟩

/-- What one `push` does to the capacity. -/
theorem push_cap_le (hc : c.Ok) (hm : c.alloc.Modest) {s : EV c.W} (h : Safe c s) (x : α) :
    (push c x s).2.storage.cap ≤ max s.storage.cap (max 8 (2 * c.blocks s.num)) := by
  have hp := push_raw hc h x
  by_cases hb : c.blocks (s.num + 1) ≤ s.storage.cap
  · rcases hx : push c x s with ⟨e | u, s'⟩ <;> rw [hx] at hp
    · rw [hp.2.1]; exact Nat.le_max_left _ _
    · rw [hp.2.2.2.2.1 hb]; exact Nat.le_max_left _ _
  · have key : (growIfNeeded c s).2.storage.cap ≤ max s.storage.cap (max 8 (2 * c.blocks s.num)) := by
      unfold growIfNeeded
      simp only [len, h.blocks_eq hc]
      split
      · next hif =>
        rcases hr : RVec.reserve c.alloc s.storage 1 with e | v'
        · simp only [RVec.push, hr]; exact Nat.le_max_left _ _
        · simp only [RVec.push, hr]
          rcases reserve_one_cap hr with hv | ⟨hgt, hk⟩
          · rw [hv]; exact Nat.le_max_left _ _
          · have e' : s.storage.len = s.storage.cap := by
              have := h.capLen; unfold RVec.len at hgt ⊢; omega
            rw [e'] at hk
            have := hm _ _ hk
            rw [hif.2]
            omega
      · exact Nat.le_max_left _ _
    have hcaps : ∀ s : EV c.W, (push c x s).2.storage.cap = (growIfNeeded c s).2.storage.cap := by
      intro s
      unfold push
      rw [M.bind_apply]
      rcases growIfNeeded c s with ⟨e | _, s1⟩
      · rfl
      · refine (Caps.readBind capRel_eq (fun s => ?_) s1).symm
        split
        · rw [M.write_bind]; exact set_caps c capRel_eq s.num x ⟨s.storage, s.num + 1⟩
        · rfl
    rw [hcaps]; exact key

theorem pushes_cap (hc : c.Ok) (hm : c.alloc.Modest) (q : Nat) (B : Nat) : ∀ (xs : List α) (m : Mem c τ), Safe c (m.reg q) →
    (m.reg q).storage.cap ≤ B → 8 ≤ B → 2 * c.blocks ((m.reg q).num + xs.length) ≤ B →
    ((runAll c (xs.map (Op.push q)) m).2.reg q).storage.cap ≤ B
  | [], _, _, h, _, _ => h
  | x :: xs, m, hs, h, h8, hb => by
    have hp := push_raw hc hs x
    have hcap := push_cap_le hc hm hs x
    have hmono : ∀ a b, a ≤ b → c.blocks a ≤ c.blocks b := fun a b hab => by
      unfold Inst.blocks; exact Nat.div_le_div_right (by omega)
    have hb0 : c.blocks (m.reg q).num ≤ c.blocks ((m.reg q).num + (x :: xs).length) := hmono _ _ (by omega)
    have e : (step c m (Op.push q x)).2.reg q = (push c x (m.reg q)).2 := by
      simp only [step, Mem.call]
      rcases push c x (m.reg q) with ⟨_ | _, s⟩ <;> exact upd_same _ _ _
    have hsafe : Safe c (push c x (m.reg q)).2 ∧ (push c x (m.reg q)).2.num ≤ (m.reg q).num + 1 := by
      rcases hx : push c x (m.reg q) with ⟨_ | _, s⟩ <;> rw [hx] at hp
      · obtain ⟨-, rfl, -⟩ := hp; exact ⟨hs, by simp⟩
      · exact ⟨hp.1, by simp [hp.2.1]⟩
    show ((runAll c (xs.map (Op.push q)) (step c m (Op.push q x)).2).2.reg q).storage.cap ≤ B
    refine pushes_cap hc hm q B xs _ (by rw [e]; exact hsafe.1) (by rw [e]; omega) h8 ?_
    rw [e]
    refine Nat.le_trans (Nat.mul_le_mul_left 2 (hmono _ ((m.reg q).num + (x :: xs).length) ?_)) hb
    simp only [List.length_cons]
    omega

/-- **C51** `n` calls of `push` on a new vector, with an allocator that about doubles: the capacity (in blocks) ends at most at
`B = max(initial, 8, 2 * ⌈n / elements per block⌉)`, at most `k` of the calls reallocate where `2^k ≤ 2 B`, and together they move less
than `2 B` blocks: constant amortised cost per `push`. -/
theorem C51_pushes (hc : c.Ok) (hg : c.alloc.Geometric) (hm : c.alloc.Modest) (w : τ) (q : Nat) (xs : List α) :
    let B := max c.alloc.fresh (max 8 (2 * ((xs.length + c.epb - 1) / c.epb)))
    ((runAll c (xs.map (Op.push q)) (Mem.start c w)).2.reg q).storage.cap ≤ B ∧
    2 ^ growths c q (xs.map (Op.push q)) (Mem.start c w) ≤ 2 * B ∧
    moved c q (xs.map (Op.push q)) (Mem.start c w) < 2 * B := by
  intro B
  have hsafe : Safe c ((Mem.start c w).reg q) := (new_holds hc).toSafe
  have hB : ((runAll c (xs.map (Op.push q)) (Mem.start c w)).2.reg q).storage.cap ≤ B := by
    refine pushes_cap hc hm q B xs _ hsafe (Nat.le_max_left _ _) (by show 8 ≤ max _ (max 8 _); omega) ?_
    have e : ((Mem.start c w).reg q).num = 0 := rfl
    rw [e, Nat.zero_add]
    show 2 * ((xs.length + c.epb - 1) / c.epb) ≤ max _ (max 8 _)
    omega
  refine ⟨hB, ?_⟩
  have hkeep : ∀ o ∈ xs.map (Op.push (τ := τ) q), o.keeps q := by
    intro o ho
    obtain ⟨x, -, rfl⟩ := List.mem_map.mp ho
    exact ⟨by simp [Op.assigns], by simp⟩
  obtain ⟨h1, h2⟩ := growths_digits hc.sound hg q (xs.map (Op.push q)) (Mem.start c w) hkeep
  have h8 : 8 ≤ B := by show 8 ≤ max _ (max 8 _); omega
  by_cases h0 : ((runAll c (xs.map (Op.push q)) (Mem.start c w)).2.reg q).storage.cap = 0
  · have hd : digits 0 = 0 := rfl
    rw [h0, hd] at h1 h2
    have : growths c q (xs.map (Op.push q)) (Mem.start c w) = 0 := by omega
    rw [this]
    have h5 := Nat.one_le_two_pow (n := digits ((Mem.start c w).reg q).storage.cap)
    omega
  · have h3 := two_pow_digits_le h0
    have h4 : 2 ^ growths c q (xs.map (Op.push q)) (Mem.start c w) ≤ 2 ^ digits ((runAll c (xs.map (Op.push q)) (Mem.start c w)).2.reg q).storage.cap :=
      Nat.pow_le_pow_right (by decide) (by omega)
    have h5 := Nat.one_le_two_pow (n := digits ((Mem.start c w).reg q).storage.cap)
    omega

/-- The growth of `std::vec::Vec` is geometric and modest. -/
theorem stdAlloc_geometric (fresh W : Nat) : (stdAlloc fresh W).Geometric ∧ (stdAlloc fresh W).Modest := by
  constructor
  · intro cap n k _ h
    simp only [stdAlloc] at h; split at h <;> simp at h; omega
  · intro cap k h
    simp only [stdAlloc] at h; split at h <;> simp at h; omega

/-- 200 pushes of 3-bit elements (10 per block): 20 blocks, 6 reallocations (to 1, 2, 4, 8, 16, 32 blocks) moving 31 blocks. -/
example : c8.Ok ∧ c8.alloc.Geometric ∧ c8.alloc.Modest ∧
    growths (τ := Unit) c8 0 ((List.replicate 200 5).map (Op.push 0)) (Mem.start c8 ()) = 6 ∧
    moved (τ := Unit) c8 0 ((List.replicate 200 5).map (Op.push 0)) (Mem.start c8 ()) = 31 ∧
    ((runAll (τ := Unit) c8 ((List.replicate 200 5).map (Op.push 0)) (Mem.start c8 ())).2.reg 0).storage.cap = 32 :=
  ⟨c8_ok, (stdAlloc_geometric _ _).1, (stdAlloc_geometric _ _).2, by decide +kernel, by decide +kernel, by decide +kernel⟩

end EnumVecModel
