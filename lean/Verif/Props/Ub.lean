import Verif.Lemmas.Ub
import Verif.Examples

/-! # Exactly which calls are undefined behaviour (C61) -/

namespace EnumVecModel
open EV

variable {α τ : Type} {c : Inst α}

/-- **C61** A call, safe or unsafe, in any state (vectors whose storage is too short included), is undefined behaviour exactly under the condition in
`UOp.Ub`, unless memory is refused before; and it leaves vectors again, so that the theorem applies to the next call. No assumption on the `EnumLike` impl, except for
`retain` and `for_each` that what `to_discr` returns has room in an element. -/
theorem C61_ub (hc : c.Sound) {m : Mem c τ} (hm : ∀ r, Real c (m.reg r)) (o : UOp c.W τ α) (ho : o.WellTyped c)
    (he : o.Edits → ∀ x, c.E.toDiscr x < 2 ^ c.bits) :
    (∀ r, Real c ((ustep c m o).2.reg r)) ∧ ((ustep c m o).1 ≠ .oom → ((ustep c m o).1 = .ub ↔ o.Ub c m)) :=
  ustep_ub hc m hm o ho he

/-- **C61** for whole programs, from the start: there is undefined behaviour exactly if a call meets the condition in the state it is made in (and is not refused memory). -/
theorem C61_history (hc : c.Sound) (w : τ) (os : List (UOp c.W τ α)) (ho : ∀ o ∈ os, o.WellTyped c)
    (he : ∀ o ∈ os, o.Edits → ∀ x, c.E.toDiscr x < 2 ^ c.bits) :
    .ub ∈ (urun c os (Mem.start c w)).1 ↔
      ∃ pre o post, os = pre ++ o :: post ∧ (ustep c (urun c pre (Mem.start c w)).2 o).1 ≠ .oom ∧ o.Ub c (urun c pre (Mem.start c w)).2 := by
  have key : ∀ (os : List (UOp c.W τ α)) (m : Mem c τ), (∀ r, Real c (m.reg r)) → (∀ o ∈ os, o.WellTyped c) →
      (∀ o ∈ os, o.Edits → ∀ x, c.E.toDiscr x < 2 ^ c.bits) →
      (.ub ∈ (urun c os m).1 ↔ ∃ pre o post, os = pre ++ o :: post ∧ (ustep c (urun c pre m).2 o).1 ≠ .oom ∧ o.Ub c (urun c pre m).2) := by
    intro os
    induction os with
    | nil =>
      intro m _ _ _
      refine iff_of_false (by simp [urun]) ?_
      rintro ⟨pre, o, post, h, -⟩
      cases pre <;> cases h
    | cons o os ih =>
      intro m hm ho he
      obtain ⟨h1, h2⟩ := C61_ub hc hm o (ho o List.mem_cons_self) (he o List.mem_cons_self)
      have := ih (ustep c m o).2 h1 (fun o h => ho o (List.mem_cons_of_mem _ h)) (fun o h => he o (List.mem_cons_of_mem _ h))
      rw [show urun c (o :: os) m = ((ustep c m o).1 :: (urun c os (ustep c m o).2).1, (urun c os (ustep c m o).2).2) from rfl]
      rw [List.mem_cons, this]
      constructor
      · rintro (h | ⟨pre, o', post, h3, h4⟩)
        · have hne : (ustep c m o).1 ≠ .oom := by rw [← h]; nofun
          exact ⟨[], o, os, rfl, hne, (h2 hne).mp h.symm⟩
        · exact ⟨o :: pre, o', post, by rw [h3]; rfl, h4⟩
      · rintro ⟨_ | ⟨o', pre⟩, o'', post, h3, h4, h5⟩
        · cases h3
          exact Or.inl ((h2 h4).mpr h5).symm
        · cases h3
          exact Or.inr ⟨pre, o'', post, rfl, h4, h5⟩
  exact key os _ (fun _ => Safe.real hc (new_safe hc)) ho he

/-- **C61** What breaks a vector: after a safe call on well-formed vectors that is not itself undefined behaviour (see above), the storage of a vector is too
short exactly if it was given to `append`, the storage is a `Vec`, the other length was a multiple of the number of elements per block and the vector was not empty; or in a release
build with one element per block, if it was not empty and `reserve` was called for a total of `usize::MAX` elements, or `extend` with that size hint and an iterator without items. -/
theorem C61_breaks (hc : c.Sound) {m : Mem c τ} (hm : ∀ r, Safe c (m.reg r)) (op : Op τ α) (hb : op.Borrows) (hu : (step c m op).1 ≠ .ub) (r : Nat) :
    Short c ((step c m op).2.reg r) ↔
      (∃ q, op = .append q r ∧ c.small = false ∧ EV.len c (m.reg q) % c.epb = 0 ∧ 0 < EV.len c (m.reg r) ∧ (step c m op).1 = .unit) ∨
      (∃ n, op = .reserve r n ∧ c.Drops (EV.len c (m.reg r) + n) ∧ 0 < EV.len c (m.reg r)) ∨
      (∃ it, op = .extend r it ∧ c.Drops (EV.len c (m.reg r) + it.hint)) := by
  have hstart : ∀ it : Src α, c.Drops it.hint → (∃ e s', extend c it (new c) = (.error e, s')) := fun it hd => by
    have hd' : c.AtLimit ((new c : EV c.W).num + it.hint) := by rw [show (new c : EV c.W).num = 0 from rfl, Nat.zero_add]; exact hd.2
    have hp := (new_safe hc).hint_pos hc hd'
    by_cases hi : it.items = []
    · exact ⟨_, _, extend_limit_nil hd' hd.1 hi hp⟩
    · exact ⟨_, _, extend_limit_ub hd' hd.1 hi hp⟩
  have hassign : ∀ (q : Nat) (it : Src α), c.Drops it.hint → (m.assign q (build c (new c) (extend c it))).2 = m := fun q it hd => by
    obtain ⟨e, s', h⟩ := hstart it hd
    unfold build Mem.assign
    rw [h]
  by_cases hlim : (∃ q n, op = .reserve q n ∧ c.Drops (EV.len c (m.reg q) + n)) ∨ (∃ q it, op = .extend q it ∧ c.Drops (EV.len c (m.reg q) + it.hint)) ∨
      (∃ q it, op = .fromIter q it ∧ c.Drops it.hint) ∨ (∃ q xs, op = .fromVec q xs ∧ c.Drops xs.length) ∨ (∃ q xs, op = .fromSlice q xs ∧ c.Drops xs.length)
  · rcases hlim with ⟨q, n, rfl, hd⟩ | ⟨q, it, rfl, hd⟩ | ⟨q, it, rfl, hd⟩ | ⟨q, xs, rfl, hd⟩ | ⟨q, xs, rfl, hd⟩
    · have e := reserve_limit (s := m.reg q) hd.2
      rw [hd.1, if_neg nofun] at e
      have e2 : (step c m (.reserve q n)).2.reg = upd m.reg q { m.reg q with storage := (m.reg q).storage.truncate 0 } := by
        simp only [step, Mem.call, e]
      rw [e2]
      by_cases hr : r = q
      · subst hr
        rw [upd_same]
        have : Short c { m.reg r with storage := (m.reg r).storage.truncate 0 } ↔ 0 < EV.len c (m.reg r) := by
          show 0 * c.epb < _ ↔ _
          rw [Nat.zero_mul]; exact Iff.rfl
        rw [this]
        refine ⟨fun h => Or.inr (Or.inl ⟨n, rfl, hd, h⟩), ?_⟩
        rintro (⟨_, h, _⟩ | ⟨_, h, -, h1⟩ | ⟨_, h, _⟩)
        · cases h
        · exact h1
        · cases h
      · rw [upd_ne _ _ hr]
        refine iff_of_false (hm r).notShort ?_
        rintro (⟨_, h, _⟩ | ⟨_, h, _⟩ | ⟨_, h, _⟩) <;> cases h
        exact hr rfl
    · have hp := (hm q).hint_pos hc hd.2
      have hi : it.items = [] := Decidable.byContradiction fun hi => hu (by
        simp only [step, Mem.call, extend_limit_ub (s := m.reg q) hd.2 hd.1 hi hp]; rfl)
      have e2 : (step c m (.extend q it)).2.reg = upd m.reg q ⟨(m.reg q).storage.truncate 0, (m.reg q).num + it.hint⟩ := by
        simp only [step, Mem.call, extend_limit_nil (s := m.reg q) hd.2 hd.1 hi hp]
      rw [e2]
      by_cases hr : r = q
      · subst hr
        rw [upd_same]
        refine iff_of_true ?_ (Or.inr (Or.inr ⟨it, rfl, hd⟩))
        show 0 * c.epb < (m.reg r).num + it.hint
        rw [Nat.zero_mul]; omega
      · rw [upd_ne _ _ hr]
        refine iff_of_false (hm r).notShort ?_
        rintro (⟨_, h, _⟩ | ⟨_, h, _⟩ | ⟨_, h, _⟩) <;> cases h
        exact hr rfl
    · rw [show (step c m (.fromIter q it)).2 = m from hassign q it hd]
      refine iff_of_false (hm r).notShort ?_
      rintro (⟨_, h, _⟩ | ⟨_, h, _⟩ | ⟨_, h, _⟩) <;> cases h
    · rw [show (step c m (.fromVec q xs)).2 = m from hassign q ⟨xs.length, xs, false⟩ hd]
      refine iff_of_false (hm r).notShort ?_
      rintro (⟨_, h, _⟩ | ⟨_, h, _⟩ | ⟨_, h, _⟩) <;> cases h
    · rw [show (step c m (.fromSlice q xs)).2 = m from hassign q ⟨xs.length, xs, false⟩ hd]
      refine iff_of_false (hm r).notShort ?_
      rintro (⟨_, h, _⟩ | ⟨_, h, _⟩ | ⟨_, h, _⟩) <;> cases h
  have hrest : (((∃ q, op = .append q r ∧ c.small = false ∧ EV.len c (m.reg q) % c.epb = 0 ∧ 0 < EV.len c (m.reg r) ∧ (step c m op).1 = .unit) ∨
      (∃ n, op = .reserve r n ∧ c.Drops (EV.len c (m.reg r) + n) ∧ 0 < EV.len c (m.reg r)) ∨
      (∃ it, op = .extend r it ∧ c.Drops (EV.len c (m.reg r) + it.hint))) ↔
      ∃ q, op = .append q r ∧ c.small = false ∧ EV.len c (m.reg q) % c.epb = 0 ∧ 0 < EV.len c (m.reg r) ∧ (step c m op).1 = .unit) := by
    refine ⟨?_, Or.inl⟩
    rintro (h | ⟨n, h, h1, -⟩ | ⟨it, h, h1⟩)
    · exact h
    · exact absurd (Or.inl ⟨r, n, h, h1⟩) hlim
    · exact absurd (Or.inr (Or.inl ⟨r, it, h, h1⟩)) hlim
  rw [hrest]
  by_cases hsp : ∃ q i d, op = .splitOff q i d ∧ i < EV.len c (m.reg q)
  · obtain ⟨q, i, d, rfl, hi⟩ := hsp
    refine iff_of_false ?_ (by rintro ⟨_, h, _⟩; cases h)
    obtain ⟨k1, k2, -⟩ := splitOff_any hc (Safe.real hc (hm q)) i
    have k3 := k2 hi
    revert hu
    show (match EV.splitOff c i (m.reg q) with
      | (.ok o, s) => ((.unit, { m with reg := upd (upd m.reg q s) d o }) : Out α × Mem c τ)
      | (.error e, s) => (e.out, { m with reg := upd m.reg q s })).1 ≠ .ub → ¬ Short c ((match EV.splitOff c i (m.reg q) with
      | (.ok o, s) => ((.unit, { m with reg := upd (upd m.reg q s) d o }) : Out α × Mem c τ)
      | (.error e, s) => (e.out, { m with reg := upd m.reg q s })).2.reg r)
    rcases hx : EV.splitOff c i (m.reg q) with ⟨e | b, s⟩ <;> rw [hx] at k1 k3
    · intro _
      obtain rfl : s = m.reg q := k3
      show ¬ Short c (upd m.reg q (m.reg q) r)
      rw [upd_self]
      exact (hm r).notShort
    · exact absurd ((k1.2 nofun).mpr hi) nofun
  · have hs : SafeUse c (fun _ => .clean) m op := by
      refine ⟨hb, fun _ _ _ => nofun, ?_⟩
      cases op with
      | splitOff q i d => exact Nat.le_of_not_lt fun hi => hsp ⟨q, i, d, rfl, hi⟩
      | reserve q n => exact fun hd => hlim (Or.inl ⟨q, n, rfl, hd⟩)
      | extend q it => exact fun hd => hlim (Or.inr (Or.inl ⟨q, it, rfl, hd⟩))
      | fromIter q it => exact fun hd => hlim (Or.inr (Or.inr (Or.inl ⟨q, it, rfl, hd⟩)))
      | fromVec q xs => exact fun hd => hlim (Or.inr (Or.inr (Or.inr (Or.inl ⟨q, xs, rfl, hd⟩))))
      | fromSlice q xs => exact fun hd => hlim (Or.inr (Or.inr (Or.inr (Or.inr ⟨q, xs, rfl, hd⟩))))
      | _ => trivial
    have hmem := (step_safe hc (k := fun _ => .clean) (fun r => hm r) op hs).2 r
    constructor
    · intro hsh
      have hd : runMarks c (fun _ => .clean) m op r = .dead := by
        cases hk : runMarks c (fun _ => .clean) m op r with
        | dead => rfl
        | _ => exact absurd hsh (hmem.safe (by rw [hk]; nofun)).notShort
      have hclean : c.soil .clean ≠ .dead := soil_ne nofun
      have hu1 : ∀ (q : Nat) (k : Mark), k ≠ .dead → upd (fun _ => Mark.clean) q k r ≠ .dead := by
        intro q k hk
        unfold upd
        split <;> first | exact hk | nofun
      cases op with
      | append q o =>
        unfold runMarks at hd
        dsimp only at hd
        split at hd
        · next hun =>
          by_cases hro : r = o
          · subst hro
            rw [upd_same] at hd
            split at hd
            · cases hd
            · next hn =>
              split at hd
              · cases hd
              · next hl =>
                have hun' : (step c m (.append q r : Op τ α)).1 = .unit := by
                  revert hun
                  cases (step c m (.append q r : Op τ α)).1 <;> simp [Out.isUnit]
                refine ⟨q, rfl, ?_, Nat.eq_zero_of_not_pos fun h => hn (Or.inr (by omega)), Nat.pos_of_ne_zero hl, hun'⟩
                cases hsm : c.small with
                | false => rfl
                | true => exact absurd (Or.inl hsm) hn
          · rw [upd_ne _ _ hro] at hd
            exfalso
            refine hu1 q _ ?_ hd
            split <;> nofun
        · cases hd
      | truncate q n => cases n <;> cases hd
      | _ =>
        exfalso
        unfold runMarks at hd
        dsimp only at hd
        first
          | (cases hd; done)
          | (split at hd <;> first | (cases hd; done) | exact hu1 _ _ hclean hd | exact hu1 _ Mark.clean nofun hd | exact hu1 _ _ (by split <;> first | exact hclean | exact (nofun : Mark.clean ≠ .dead)) hd)
    · rintro ⟨q, rfl, h1, h2, h3, h4⟩
      have hne : (step c m (.append q r)).2.reg r = (append c (m.reg q, m.reg r)).2.2 := by
        show (match EV.append c (m.reg q, m.reg r) with
          | (.ok _, p) => ((.unit, { m with reg := upd (upd m.reg q p.1) r p.2 }) : Out α × Mem c τ)
          | (.error e, p) => (e.out, { m with reg := upd (upd m.reg q p.1) r p.2 })).2.reg r = _
        rcases EV.append c (m.reg q, m.reg r) with ⟨e | b, p⟩ <;> exact upd_same _ _ _
      rw [hne]
      revert h4
      show (match EV.append c (m.reg q, m.reg r) with
          | (.ok _, p) => ((.unit, { m with reg := upd (upd m.reg q p.1) r p.2 }) : Out α × Mem c τ)
          | (.error e, p) => (e.out, { m with reg := upd (upd m.reg q p.1) r p.2 })).1 = .unit → _
      rcases hx : EV.append c (m.reg q, m.reg r) with ⟨e | b, p⟩
      · intro h; cases e <;> cases h
      · intro _
        obtain ⟨k1, k2⟩ := append_leaves hc h1 h2 hx
        show p.2.storage.data.length * c.epb < p.2.num
        rw [k1, k2]
        show 0 * c.epb < _
        rw [Nat.zero_mul]
        exact h3

/-! ## A non-trivial case: a vector of 15 elements with storage for 10. -/

def shorten : List (UOp c8.W Nat (Fin 8)) := [.safe (.fromVec 0 [0, 1, 2, 3, 4, 5, 6, 7, 0, 1]), .safe (.shrinkToFit 0), .setLen 0 15, .safe (.fromVec 1 [7])]

/-- The state after that. -/
def short : Mem c8 Nat := (urun c8 shorten (Mem.start c8 0)).2

theorem short_real (r : Nat) : Real c8 (short.reg r) := by
  have hs : c8.Sound := ⟨c8_ok.compiles, c8_ok.lawful, c8_ok.bounded, nofun, nofun⟩
  have key : ∀ (os : List (UOp c8.W Nat (Fin 8))) (m : Mem c8 Nat), (∀ o ∈ os, o.WellTyped c8 ∧ ¬ o.Edits) → (∀ r, Real c8 (m.reg r)) →
      ∀ r, Real c8 ((urun c8 os m).2.reg r) := by
    intro os
    induction os with
    | nil => exact fun m _ h => h
    | cons o os ih =>
      intro m ho h
      have h1 := ho o List.mem_cons_self
      exact ih _ (fun o h => ho o (List.mem_cons_of_mem _ h)) (C61_ub hs h o h1.1 (fun h => absurd h h1.2)).1
  refine key shorten _ (fun o ho => ?_) (fun _ => Safe.real c8_ok (new_safe c8_ok)) r
  unfold shorten at ho
  simp only [List.mem_cons, List.not_mem_nil, or_false] at ho
  rcases ho with rfl | rfl | rfl | rfl
  · exact ⟨trivial, id⟩
  · exact ⟨trivial, id⟩
  · exact ⟨show 15 < Build.usizeLim _ by decide, id⟩
  · exact ⟨trivial, id⟩

example : Short c8 (short.reg 0) ∧ numbers c8 (short.reg 0) = [0, 1, 2, 3, 4, 5, 6, 7, 0, 1] := by unfold Short; decide +kernel

/-- Calls in this state, and whether they are undefined behaviour. `retain` and `for_each` are not if the closure panics in time; with another closure they are; `eq` is not if
there is a difference in time; iterators are when they reach the end of the storage. -/
def shortCalls : List (UOp c8.W Nat (Fin 8) × Bool) :=
  [(.safe (.get 0 9), false), (.safe (.get 0 10), true), (.safe (.get 0 15), false), (.safe (.push 0 1), true), (.safe (.pop 0), true), (.safe (.reserve 0 1), false),
   (.safe (.swap 0 2 9), false), (.safe (.swap 0 2 12), true), (.safe (.swap 0 2 15), false), (.safe (.swap 0 12 15), true), (.safe (.remove 0 15), false), (.safe (.remove 0 2), true), (.safe (.insert 0 99 1), true),
   (.safe (.append 0 1), false), (.safe (.append 2 0), false), (.safe (.append 1 0), true), (.safe (.splitOff 1 0 2), true), (.safe (.splitOff 1 1 2), false),
   (.safe (.retain 0 fun x n => (if x = 7 then none else some true, n + 1)), false), (.safe (.retain 0 fun _ n => (some false, n + 1)), true),
   (.safe (.forEach 0 fun x n => (if n = 9 then none else some x, n + 1)), false), (.safe (.forEach 0 fun x n => (if n = 10 then none else some x, n + 1)), true),
   (.safe (.toVec 0), true), (.safe (.eq 0 1), false), (.safe (.eq 0 0), true), (.safe (.hash 0), true), (.safe (.any 0 1), false),
   (.safe (.iterate 0 [.next, .nth 7, .next, .sizeHint]), false), (.safe (.iterate 0 [.next, .nth 8, .next, .sizeHint]), true), (.safe (.iterate 0 [.nextBack]), true),
   (.safe (.clear 0), false), (.safe (.extend 0 ⟨1, [1, 2], false⟩), false), (.getRaw 0 9, false), (.getRaw 0 10, true), (.setRaw 1 9 3, false), (.setRaw 1 10 3, true), (.setLen 0 99, false)]

example : ∀ p ∈ shortCalls, (ustep c8 short p.1).1 ≠ .oom ∧ ((ustep c8 short p.1).1 = .ub ↔ p.2 = true) := by decide +kernel

/-- The condition says the same. -/
example : (UOp.safe (.swap 0 2 12)).Ub c8 short ∧ ¬ (UOp.safe (.swap 0 2 15)).Ub c8 short ∧ (UOp.safe (.append 1 0)).Ub c8 short ∧ ¬ (UOp.safe (.append 2 0)).Ub c8 short ∧
    (UOp.safe (.remove 0 2)).Ub c8 short ∧ ¬ (UOp.safe (.retain 0 fun x n => (if x = 7 then none else some true, n + 1))).Ub c8 short ∧
    (UOp.safe (.retain 0 fun _ n => (some false, n + 1))).Ub c8 short := by
  unfold UOp.Ub Op.Ub Short ReadsAt
  decide +kernel

/-- A program with undefined behaviour, without unsafe calls. -/
example : (urun c8 ([.safe (.fromVec 0 [1, 2]), .safe (.append 1 0), .safe (.len 0), .safe (.get 0 2), .safe (.get 0 1)] : List (UOp c8.W Nat (Fin 8))) (Mem.start c8 0)).1 =
    [.unit, .unit, .num 2, .item none, .ub] := by decide +kernel

end EnumVecModel
