import Verif.EnumSetSpec
import Verif.Lemmas.Values

/-! # C43, C44: `EnumSet` -/

namespace EnumVecModel
namespace ESet

variable {σ α : Type} {B : BitSet σ} {E : EnumLike α}

/-- The `EnumSet` holds exactly the discriminants of the members of `p`. -/
def Rep (B : BitSet σ) (E : EnumLike α) (s : EnumSet σ) (p : VSet α) : Prop :=
  ∀ x, B.contains s.inner x = true ↔ ∃ a, E.toDiscr a = x ∧ p a

theorem Rep.mem {s : EnumSet σ} {p : VSet α} (hE : E.Contract) (h : Rep B E s p) (a : α) :
    B.contains s.inner (E.toDiscr a) = true ↔ p a := by
  rw [h]
  exact ⟨fun ⟨b, hb, hp⟩ => EnumLike.toDiscr_inj hE hb ▸ hp, fun hp => ⟨a, rfl, hp⟩⟩

theorem rep_upd {R : Nat → EnumSet σ} {S : Nat → VSet α} (h : ∀ i, Rep B E (R i) (S i)) {r : Nat} {s : EnumSet σ} {p : VSet α}
    (hs : Rep B E s p) (i : Nat) : Rep B E (upd R r s i) (upd S r p i) := by
  unfold upd
  split
  · exact hs
  · exact h i

theorem insert_rep (hB : B.Lawful) {s : EnumSet σ} {p : VSet α} (h : Rep B E s p) (a : α) :
    Rep B E (insert B E s a).2 fun b => b = a ∨ p b := by
  intro x
  show B.contains (B.insert s.inner (E.toDiscr a)).2 x = true ↔ _
  rw [hB.insert_mem, h x]
  constructor
  · rintro (rfl | ⟨b, hb, hp⟩)
    · exact ⟨a, rfl, .inl rfl⟩
    · exact ⟨b, hb, .inr hp⟩
  · rintro ⟨b, hb, rfl | hp⟩
    · exact .inl hb.symm
    · exact .inr ⟨b, hb, hp⟩

theorem remove_rep (hB : B.Lawful) (hE : E.Contract) {s : EnumSet σ} {p : VSet α} (h : Rep B E s p) (a : α) :
    Rep B E (remove B E s a).2 fun b => b ≠ a ∧ p b := by
  intro x
  show B.contains (B.remove s.inner (E.toDiscr a)).2 x = true ↔ _
  rw [hB.remove_mem, h x]
  constructor
  · rintro ⟨hx, b, hb, hp⟩
    exact ⟨b, hb, fun e => hx (by rw [← hb, e]), hp⟩
  · rintro ⟨b, hb, hne, hp⟩
    exact ⟨fun e => hne (EnumLike.toDiscr_inj hE (hb.trans e)), b, hb, hp⟩

theorem extend_rep (hB : B.Lawful) (as : List α) {s : EnumSet σ} {p : VSet α} (h : Rep B E s p) :
    Rep B E (extend B E s as) fun b => b ∈ as ∨ p b := by
  induction as generalizing s p with
  | nil =>
    intro x
    show B.contains s.inner x = true ↔ _
    rw [h x]
    simp
  | cons a as ih =>
    intro x
    show B.contains (extend B E (insert B E s a).2 as).inner x = true ↔ _
    rw [ih (insert_rep hB h a) x]
    constructor
    · rintro ⟨b, hb, h1 | rfl | h2⟩
      · exact ⟨b, hb, .inl (List.mem_cons_of_mem _ h1)⟩
      · exact ⟨b, hb, .inl List.mem_cons_self⟩
      · exact ⟨b, hb, .inr h2⟩
    · rintro ⟨b, hb, h1 | h2⟩
      · rcases List.mem_cons.1 h1 with rfl | h1
        · exact ⟨b, hb, .inr (.inl rfl)⟩
        · exact ⟨b, hb, .inl h1⟩
      · exact ⟨b, hb, .inr (.inr h2)⟩

theorem empty_rep {s : EnumSet σ} (h : ∀ x, B.contains s.inner x = false) : Rep B E s fun _ => False := by
  intro x
  rw [h x]
  simp

theorem union_rep (hB : B.Lawful) {s t : EnumSet σ} {p q : VSet α} (h : Rep B E s p) (h' : Rep B E t q) :
    Rep B E (unionWith B s t) fun b => p b ∨ q b := by
  intro x
  show B.contains (B.unionWith s.inner t.inner) x = true ↔ _
  rw [hB.unionWith, Bool.or_eq_true, h x, h' x]
  constructor
  · rintro (⟨b, hb, hp⟩ | ⟨b, hb, hp⟩)
    · exact ⟨b, hb, .inl hp⟩
    · exact ⟨b, hb, .inr hp⟩
  · rintro ⟨b, hb, hp | hp⟩
    · exact .inl ⟨b, hb, hp⟩
    · exact .inr ⟨b, hb, hp⟩

/-- The common part of the other three. -/
theorem point_rep (hE : E.Contract) {s t u : EnumSet σ} {p q r : VSet α} (h : Rep B E s p) (h' : Rep B E t q)
    (hu : ∀ a, B.contains u.inner (E.toDiscr a) = true ↔ r a)
    (hn : ∀ x, B.contains s.inner x = false → B.contains t.inner x = false → B.contains u.inner x = false) : Rep B E u r := by
  intro x
  constructor
  · intro hx
    have : B.contains s.inner x = true ∨ B.contains t.inner x = true := by
      cases hs : B.contains s.inner x
      · cases ht : B.contains t.inner x
        · rw [hn x hs ht] at hx; cases hx
        · exact .inr rfl
      · exact .inl rfl
    rcases this with h1 | h1
    · obtain ⟨a, rfl, _⟩ := (h x).1 h1
      exact ⟨a, rfl, (hu a).1 hx⟩
    · obtain ⟨a, rfl, _⟩ := (h' x).1 h1
      exact ⟨a, rfl, (hu a).1 hx⟩
  · rintro ⟨a, rfl, hr⟩
    exact (hu a).2 hr

theorem intersect_rep (hB : B.Lawful) (hE : E.Contract) {s t : EnumSet σ} {p q : VSet α} (h : Rep B E s p) (h' : Rep B E t q) :
    Rep B E (intersectWith B s t) fun b => p b ∧ q b := by
  apply point_rep hE h h'
  · intro a
    show B.contains (B.intersectWith s.inner t.inner) _ = true ↔ _
    rw [hB.intersectWith, Bool.and_eq_true, h.mem hE, h'.mem hE]
  · intro x h1 h2
    show B.contains (B.intersectWith s.inner t.inner) _ = _
    rw [hB.intersectWith, h1, h2]; rfl

theorem difference_rep (hB : B.Lawful) (hE : E.Contract) {s t : EnumSet σ} {p q : VSet α} (h : Rep B E s p) (h' : Rep B E t q) :
    Rep B E (differenceWith B s t) fun b => p b ∧ ¬ q b := by
  apply point_rep hE h h'
  · intro a
    show B.contains (B.differenceWith s.inner t.inner) _ = true ↔ _
    rw [hB.differenceWith, Bool.and_eq_true, h.mem hE, ← h'.mem hE]
    simp
  · intro x h1 h2
    show B.contains (B.differenceWith s.inner t.inner) _ = _
    rw [hB.differenceWith, h1, h2]; rfl

theorem bne_iff {a b : Bool} : (a != b) = true ↔ ¬ (a = true ↔ b = true) := by cases a <;> cases b <;> decide

theorem symmDifference_rep (hB : B.Lawful) (hE : E.Contract) {s t : EnumSet σ} {p q : VSet α} (h : Rep B E s p)
    (h' : Rep B E t q) : Rep B E (symmetricDifferenceWith B s t) fun b => ¬ (p b ↔ q b) := by
  apply point_rep hE h h'
  · intro a
    show B.contains (B.symmetricDifferenceWith s.inner t.inner) _ = true ↔ _
    rw [hB.symmetricDifferenceWith, bne_iff, h.mem hE, h'.mem hE]
  · intro x h1 h2
    show B.contains (B.symmetricDifferenceWith s.inner t.inner) _ = _
    rw [hB.symmetricDifferenceWith, h1, h2]; rfl

/-! ## Iterators -/

theorem collect_map (hE : E.Contract) (l : List α) : (collect E ((l.map E.toDiscr).length + 1) ⟨l.map E.toDiscr⟩).1 = .ok l := by
  induction l with
  | nil => rfl
  | cons a l ih =>
    have hn : next E (⟨(a :: l).map E.toDiscr⟩ : WrapIter) = (.ok (some a), ⟨l.map E.toDiscr⟩) := by
      unfold next
      simp only [List.map_cons, hE.roundtrip]
    cases hc : collect E ((l.map E.toDiscr).length + 1) ⟨l.map E.toDiscr⟩ with
    | mk r t =>
      rw [hc] at ih
      have ih : r = .ok l := ih
      subst ih
      show ((next E >>= fun o => match o with
        | some a => collect E ((l.map E.toDiscr).length + 1) >>= fun rest => pure (a :: rest)
        | none => pure []) (⟨(a :: l).map E.toDiscr⟩ : WrapIter)).1 = _
      rw [M.bind_ok hn]
      show ((collect E ((l.map E.toDiscr).length + 1) >>= fun rest => pure (a :: rest)) ⟨l.map E.toDiscr⟩).1 = _
      rw [M.bind_ok hc]
      rfl

theorem items_of_lists (hE : E.Contract) {xs : List Nat} {q : Nat → Prop} {p : VSet α} (hl : Lists xs q)
    (h1 : ∀ x, q x → ∃ a, E.toDiscr a = x) (h2 : ∀ a, q (E.toDiscr a) ↔ p a) : Items E p (all E ⟨xs⟩) := by
  have : ∀ ys : List Nat, (∀ y ∈ ys, ∃ a, E.toDiscr a = y) → ∃ l : List α, l.map E.toDiscr = ys := by
    intro ys
    induction ys with
    | nil => intro _; exact ⟨[], rfl⟩
    | cons y ys ih =>
      intro h
      obtain ⟨a, ha⟩ := h y List.mem_cons_self
      obtain ⟨l, hl⟩ := ih fun z hz => h z (List.mem_cons_of_mem _ hz)
      exact ⟨a :: l, by rw [List.map_cons, ha, hl]⟩
  obtain ⟨l, rfl⟩ := this xs fun y hy => h1 y ((hl.2 y).1 hy)
  refine ⟨l, ?_, hl.1, ?_, fun a => ?_⟩
  · show Out.items _ = _
    rw [collect_map hE]
  · exact List.Pairwise.of_map _ (fun a b hab e => absurd (congrArg _ e) (Nat.ne_of_lt hab)) hl.1
  · rw [← h2, ← hl.2]
    constructor
    · intro h; exact List.mem_map_of_mem h
    · intro h
      obtain ⟨b, hb, e⟩ := List.mem_map.1 h
      exact EnumLike.toDiscr_inj hE e ▸ hb

/-! ## Histories -/

theorem step_right (hB : B.Lawful) (hE : E.Contract) {R : Nat → EnumSet σ} {S : Nat → VSet α} (h : ∀ i, Rep B E (R i) (S i))
    (o : Op α) : Right E S o (step B E R o).1 ∧ ∀ i, Rep B E ((step B E R o).2 i) (specSets S o i) := by
  cases o with
  | new r => exact ⟨rfl, rep_upd h (empty_rep hB.new)⟩
  | fromIter r as =>
    refine ⟨rfl, rep_upd h ?_⟩
    have := extend_rep (E := E) hB as (empty_rep (B := B) (s := new B) hB.new)
    simpa [fromIter] using this
  | clone r q => exact ⟨rfl, rep_upd h (h r)⟩
  | insert r a =>
    refine ⟨⟨_, rfl, ?_⟩, rep_upd h (insert_rep hB (h r) a)⟩
    show (B.insert (R r).inner (E.toDiscr a)).1 = true ↔ _
    rw [hB.insert, ← (h r).mem hE]
    simp
  | remove r a =>
    refine ⟨⟨_, rfl, ?_⟩, rep_upd h (remove_rep hB hE (h r) a)⟩
    show (B.remove (R r).inner (E.toDiscr a)).1 = true ↔ _
    rw [hB.remove, (h r).mem hE]
  | contains r a => exact ⟨⟨_, rfl, (h r).mem hE a⟩, h⟩
  | extend r as => exact ⟨rfl, rep_upd h (extend_rep hB as (h r))⟩
  | clear r => exact ⟨rfl, rep_upd h (empty_rep (hB.clear _))⟩
  | shrinkToFit r =>
    refine ⟨rfl, fun i => ?_⟩
    show Rep B E (upd R r (shrinkToFit B (R r)) i) (S i)
    unfold upd
    split
    · rename_i e
      subst e
      intro x
      show B.contains (B.shrinkToFit (R i).inner) x = true ↔ _
      rw [hB.shrink, h i x]
    · exact h i
  | len r =>
    refine ⟨?_, h⟩
    obtain ⟨l, h1, h2, h3, h4⟩ := items_of_lists hE (hB.iter (R r).inner)
      (fun x hx => let ⟨a, ha, _⟩ := (h r x).1 hx; ⟨a, ha⟩) (fun a => (h r).mem hE a)
    refine ⟨l, h3, h4, ?_⟩
    show Out.num (B.len (R r).inner) = _
    rw [hB.len]
    have hx : (B.iter (R r).inner).length = l.length := by
      have hi := (hB.iter (R r).inner)
      have e1 : ∀ x, x ∈ B.iter (R r).inner ↔ x ∈ l.map E.toDiscr := by
        intro x
        rw [hi.2]
        show B.contains (R r).inner x = true ↔ _
        rw [h r x, List.mem_map]
        constructor
        · rintro ⟨a, ha, hp⟩; exact ⟨a, (h4 a).2 hp, ha⟩
        · rintro ⟨a, ha, e⟩; exact ⟨a, e, (h4 a).1 ha⟩
      have n1 : (B.iter (R r).inner).Nodup := hi.1.imp Nat.ne_of_lt
      have n2 : (l.map E.toDiscr).Nodup := h2.imp Nat.ne_of_lt
      have := (List.perm_ext_iff_of_nodup n1 n2).2 e1
      rw [this.length_eq, List.length_map]
    rw [hx]
  | isEmpty r =>
    refine ⟨⟨_, rfl, ?_⟩, h⟩
    show B.isEmpty (R r).inner = true ↔ _
    rw [hB.isEmpty]
    constructor
    · intro hx a ha
      have := ((h r).mem hE a).2 ha
      rw [hx] at this; cases this
    · intro ha x
      cases hx : B.contains (R r).inner x
      · rfl
      · obtain ⟨a, _, hp⟩ := (h r x).1 hx
        exact absurd hp (ha a)
  | unionWith r q => exact ⟨rfl, rep_upd h (union_rep hB (h r) (h q))⟩
  | intersectWith r q => exact ⟨rfl, rep_upd h (intersect_rep hB hE (h r) (h q))⟩
  | differenceWith r q => exact ⟨rfl, rep_upd h (difference_rep hB hE (h r) (h q))⟩
  | symmetricDifferenceWith r q => exact ⟨rfl, rep_upd h (symmDifference_rep hB hE (h r) (h q))⟩
  | isDisjoint r q =>
    refine ⟨⟨_, rfl, ?_⟩, h⟩
    show B.isDisjoint (R r).inner (R q).inner = true ↔ _
    rw [hB.isDisjoint]
    constructor
    · rintro hx ⟨a, h1, h2⟩
      exact hx _ ⟨((h r).mem hE a).2 h1, ((h q).mem hE a).2 h2⟩
    · rintro ha x ⟨h1, h2⟩
      obtain ⟨a, rfl, hp⟩ := (h r x).1 h1
      exact ha ⟨a, hp, ((h q).mem hE a).1 h2⟩
  | isSubset r q =>
    refine ⟨⟨_, rfl, ?_⟩, h⟩
    show B.isSubset (R r).inner (R q).inner = true ↔ _
    rw [hB.isSubset]
    constructor
    · intro hx a ha
      exact ((h q).mem hE a).1 (hx _ (((h r).mem hE a).2 ha))
    · intro ha x hx
      obtain ⟨a, rfl, hp⟩ := (h r x).1 hx
      exact ((h q).mem hE a).2 (ha a hp)
  | isSuperset r q =>
    refine ⟨⟨_, rfl, ?_⟩, h⟩
    show B.isSuperset (R r).inner (R q).inner = true ↔ _
    rw [hB.isSuperset]
    constructor
    · intro hx a ha
      exact ((h r).mem hE a).1 (hx _ (((h q).mem hE a).2 ha))
    · intro ha x hx
      obtain ⟨a, rfl, hp⟩ := (h q x).1 hx
      exact ((h r).mem hE a).2 (ha a hp)
  | eq r q =>
    refine ⟨⟨_, rfl, ?_⟩, h⟩
    show B.eq (R r).inner (R q).inner = true ↔ _
    rw [hB.eq]
    constructor
    · intro hx a
      rw [← (h r).mem hE, ← (h q).mem hE, hx]
    · intro ha x
      rw [Bool.eq_iff_iff, h r x, h q x]
      simp only [ha]
  | iter r =>
    exact ⟨items_of_lists hE (hB.iter _) (fun x hx => let ⟨a, ha, _⟩ := (h r x).1 hx; ⟨a, ha⟩) (fun a => (h r).mem hE a), h⟩
  | union r q =>
    refine ⟨items_of_lists hE (hB.union _ _) (fun x hx => ?_) (fun a => ?_), h⟩
    · rcases hx with hx | hx
      · obtain ⟨a, ha, _⟩ := (h r x).1 hx; exact ⟨a, ha⟩
      · obtain ⟨a, ha, _⟩ := (h q x).1 hx; exact ⟨a, ha⟩
    · rw [(h r).mem hE, (h q).mem hE]
  | intersection r q =>
    refine ⟨items_of_lists hE (hB.intersection _ _) (fun x hx => let ⟨a, ha, _⟩ := (h r x).1 hx.1; ⟨a, ha⟩) (fun a => ?_), h⟩
    rw [(h r).mem hE, (h q).mem hE]
  | difference r q =>
    refine ⟨items_of_lists hE (hB.difference _ _) (fun x hx => let ⟨a, ha, _⟩ := (h r x).1 hx.1; ⟨a, ha⟩) (fun a => ?_), h⟩
    rw [(h r).mem hE, (h q).mem hE]
  | symmetricDifference r q =>
    refine ⟨items_of_lists hE (hB.symmetricDifference _ _) (fun x hx => ?_) (fun a => ?_), h⟩
    · by_cases h1 : B.contains (R r).inner x = true
      · obtain ⟨a, ha, _⟩ := (h r x).1 h1; exact ⟨a, ha⟩
      · by_cases h2 : B.contains (R q).inner x = true
        · obtain ⟨a, ha, _⟩ := (h q x).1 h2; exact ⟨a, ha⟩
        · exact absurd ⟨fun e => absurd e h1, fun e => absurd e h2⟩ hx
    · rw [(h r).mem hE, (h q).mem hE]

/-- **C43, C44**. Any history of calls on `EnumSet`s (held in registers, all empty at first) returns what it returns on mathematical sets
of values: `insert`/`remove` report whether the set changed, `len` is the number of members, the predicates and the in-place
operations are those of sets, and the iterators yield each member of their set exactly once, in increasing discriminant order,
without `from_discr` ever failing. -/
theorem C43_history (hB : B.Lawful) (hE : E.Contract) (os : List (Op α)) :
    RightRun E os (fun _ _ => False) (run B E os fun _ => new B) := by
  have : ∀ (os : List (Op α)) (R : Nat → EnumSet σ) (S : Nat → VSet α), (∀ i, Rep B E (R i) (S i)) →
      RightRun E os S (run B E os R) := by
    intro os
    induction os with
    | nil => intro R S _; rfl
    | cons o os ih =>
      intro R S h
      obtain ⟨h1, h2⟩ := step_right hB hE h o
      exact ⟨_, _, rfl, h1, ih _ _ h2⟩
  exact this os _ _ fun _ => empty_rep hB.new

/-- **C44** (`iter` after any history): each member of the set exactly once, in increasing discriminant order, without panic. -/
theorem C44_iter (hB : B.Lawful) (hE : E.Contract) {s : EnumSet σ} {p : VSet α}
    (hs : ∀ x, B.contains s.inner x = true ↔ ∃ a, E.toDiscr a = x ∧ p a) :
    ∃ l, (collect E ((iter B s).inner.length + 1) (iter B s)).1 = .ok l ∧ (l.map E.toDiscr).Pairwise (· < ·) ∧ l.Nodup ∧
      ∀ a, a ∈ l ↔ p a := by
  obtain ⟨l, h1, h2⟩ := items_of_lists hE (hB.iter s.inner) (fun x hx => let ⟨a, ha, _⟩ := (hs x).1 hx; ⟨a, ha⟩)
    (fun a => Rep.mem hE hs a)
  exact ⟨l, Out.items.inj h1, h2⟩

/-- **C44** (`union`): each member exactly once, in increasing discriminant order, without panic. -/
theorem C44_union (hB : B.Lawful) (hE : E.Contract) {s t : EnumSet σ} {p q : VSet α}
    (hs : ∀ x, B.contains s.inner x = true ↔ ∃ a, E.toDiscr a = x ∧ p a)
    (ht : ∀ x, B.contains t.inner x = true ↔ ∃ a, E.toDiscr a = x ∧ q a) :
    ∃ l, (collect E ((union B s t).inner.length + 1) (union B s t)).1 = .ok l ∧ (l.map E.toDiscr).Pairwise (· < ·) ∧ l.Nodup ∧
      ∀ a, a ∈ l ↔ p a ∨ q a := by
  obtain ⟨l, h1, h2⟩ := items_of_lists hE (hB.union s.inner t.inner) (fun x hx => by
      rcases hx with hx | hx
      · obtain ⟨a, ha, _⟩ := (hs x).1 hx; exact ⟨a, ha⟩
      · obtain ⟨a, ha, _⟩ := (ht x).1 hx; exact ⟨a, ha⟩)
    (p := fun a => p a ∨ q a) (fun a => by rw [Rep.mem hE hs, Rep.mem hE ht])
  exact ⟨l, Out.items.inj h1, h2⟩

/-- **C44** (`intersection`): each member exactly once, in increasing discriminant order, without panic. -/
theorem C44_intersection (hB : B.Lawful) (hE : E.Contract) {s t : EnumSet σ} {p q : VSet α}
    (hs : ∀ x, B.contains s.inner x = true ↔ ∃ a, E.toDiscr a = x ∧ p a)
    (ht : ∀ x, B.contains t.inner x = true ↔ ∃ a, E.toDiscr a = x ∧ q a) :
    ∃ l, (collect E ((intersection B s t).inner.length + 1) (intersection B s t)).1 = .ok l ∧ (l.map E.toDiscr).Pairwise (· < ·) ∧ l.Nodup ∧
      ∀ a, a ∈ l ↔ p a ∧ q a := by
  obtain ⟨l, h1, h2⟩ := items_of_lists hE (hB.intersection s.inner t.inner) (fun x hx => let ⟨a, ha, _⟩ := (hs x).1 hx.1; ⟨a, ha⟩)
    (p := fun a => p a ∧ q a) (fun a => by rw [Rep.mem hE hs, Rep.mem hE ht])
  exact ⟨l, Out.items.inj h1, h2⟩

/-- **C44** (`difference`): each member exactly once, in increasing discriminant order, without panic. -/
theorem C44_difference (hB : B.Lawful) (hE : E.Contract) {s t : EnumSet σ} {p q : VSet α}
    (hs : ∀ x, B.contains s.inner x = true ↔ ∃ a, E.toDiscr a = x ∧ p a)
    (ht : ∀ x, B.contains t.inner x = true ↔ ∃ a, E.toDiscr a = x ∧ q a) :
    ∃ l, (collect E ((difference B s t).inner.length + 1) (difference B s t)).1 = .ok l ∧ (l.map E.toDiscr).Pairwise (· < ·) ∧ l.Nodup ∧
      ∀ a, a ∈ l ↔ p a ∧ ¬ q a := by
  obtain ⟨l, h1, h2⟩ := items_of_lists hE (hB.difference s.inner t.inner) (fun x hx => let ⟨a, ha, _⟩ := (hs x).1 hx.1; ⟨a, ha⟩)
    (p := fun a => p a ∧ ¬ q a) (fun a => by rw [Rep.mem hE hs, Rep.mem hE ht])
  exact ⟨l, Out.items.inj h1, h2⟩

/-- **C44** (`symmetric_difference`): each member exactly once, in increasing discriminant order, without panic. -/
theorem C44_symmetric_difference (hB : B.Lawful) (hE : E.Contract) {s t : EnumSet σ} {p q : VSet α}
    (hs : ∀ x, B.contains s.inner x = true ↔ ∃ a, E.toDiscr a = x ∧ p a)
    (ht : ∀ x, B.contains t.inner x = true ↔ ∃ a, E.toDiscr a = x ∧ q a) :
    ∃ l, (collect E ((symmetricDifference B s t).inner.length + 1) (symmetricDifference B s t)).1 = .ok l ∧ (l.map E.toDiscr).Pairwise (· < ·) ∧ l.Nodup ∧
      ∀ a, a ∈ l ↔ ¬ (p a ↔ q a) := by
  obtain ⟨l, h1, h2⟩ := items_of_lists hE (hB.symmetricDifference s.inner t.inner) (fun x hx => by
      by_cases h1 : B.contains s.inner x = true
      · obtain ⟨a, ha, _⟩ := (hs x).1 h1; exact ⟨a, ha⟩
      · by_cases h2 : B.contains t.inner x = true
        · obtain ⟨a, ha, _⟩ := (ht x).1 h2; exact ⟨a, ha⟩
        · exact absurd ⟨fun e => absurd e h1, fun e => absurd e h2⟩ hx)
    (p := fun a => ¬ (p a ↔ q a)) (fun a => by rw [Rep.mem hE hs, Rep.mem hE ht])
  exact ⟨l, Out.items.inj h1, h2⟩

/-- **C44** (the condition is needed). A set made with `from_bit_set` from a `BitSet` with a number that is no discriminant is not safe to
iterate: iteration reaches `from_discr` with that number, and fails if `from_discr` panics on it. -/
theorem C44_from_bit_set (hB : B.Lawful) {b : σ} {x : Nat} (hx : B.contains b x = true) (hbad : E.fromDiscr x = none) :
    (collect E ((iter B (fromBitSet b)).inner.length + 1) (iter B (fromBitSet b))).1 = .error .badDiscr := by
  have hm : x ∈ B.iter b := ((hB.iter b).2 x).2 hx
  show (collect E ((B.iter b).length + 1) ⟨B.iter b⟩).1 = _
  generalize B.iter b = xs at hm
  induction xs with
  | nil => cases hm
  | cons y ys ih =>
    show ((next E >>= fun o => match o with
      | some a => collect E (ys.length + 1) >>= fun rest => pure (a :: rest)
      | none => pure []) (⟨y :: ys⟩ : WrapIter)).1 = _
    cases hy : E.fromDiscr y with
    | none =>
      have hn : next E (⟨y :: ys⟩ : WrapIter) = (.error .badDiscr, ⟨ys⟩) := by
        unfold next
        simp only [hy]
      rw [M.bind_error hn]
    | some a =>
      have hn : next E (⟨y :: ys⟩ : WrapIter) = (.ok (some a), ⟨ys⟩) := by
        unfold next
        simp only [hy]
      have hne : x ≠ y := fun e => by rw [e, hy] at hbad; cases hbad
      have := ih ((List.mem_cons.1 hm).resolve_left hne)
      rw [M.bind_ok hn]
      show ((collect E (ys.length + 1) >>= fun rest => pure (a :: rest)) ⟨ys⟩).1 = _
      cases hc : collect E (ys.length + 1) ⟨ys⟩ with
      | mk r t =>
        rw [hc] at this
        have this : r = .error .badDiscr := this
        subst this
        rw [M.bind_error hc]

/-! ## A `BitSet` that satisfies the laws: bit masks -/

/-- Sets of numbers as bit masks. -/
def maskSet : BitSet Nat where
  new := 0
  insert s x := (!s.testBit x, s ||| 2 ^ x)
  remove s x := (s.testBit x, s ^^^ (s &&& 2 ^ x))
  contains s x := s.testBit x
  clear _ := 0
  shrinkToFit s := s
  len s := ((List.range s).filter s.testBit).length
  isEmpty s := s == 0
  isDisjoint s t := s &&& t == 0
  isSubset s t := s &&& t == s
  isSuperset s t := s &&& t == t
  unionWith s t := s ||| t
  intersectWith s t := s &&& t
  differenceWith s t := s ^^^ (s &&& t)
  symmetricDifferenceWith s t := s ^^^ t
  iter s := (List.range s).filter s.testBit
  union s t := (List.range (s ||| t)).filter (s ||| t).testBit
  intersection s t := (List.range (s &&& t)).filter (s &&& t).testBit
  difference s t := (List.range (s ^^^ (s &&& t))).filter (s ^^^ (s &&& t)).testBit
  symmetricDifference s t := (List.range (s ^^^ t)).filter (s ^^^ t).testBit
  eq s t := s == t
  cmp s t := compare ((List.range s).filter s.testBit) ((List.range t).filter t.testBit)
  hash s := (List.range s).filter s.testBit

theorem mask_lists (s : Nat) : Lists ((List.range s).filter s.testBit) fun x => s.testBit x = true := by
  refine ⟨List.Pairwise.filter _ List.pairwise_lt_range, fun x => ?_⟩
  rw [List.mem_filter, List.mem_range]
  exact ⟨fun h => h.2, fun h => ⟨Nat.lt_of_lt_of_le Nat.lt_two_pow_self (Nat.ge_two_pow_of_testBit h), h⟩⟩

theorem lists_congr {l : List Nat} {p q : Nat → Prop} (h : Lists l p) (e : ∀ x, p x ↔ q x) : Lists l q :=
  ⟨h.1, fun x => (h.2 x).trans (e x)⟩

theorem nat_eq_iff {s t : Nat} : (s == t) = true ↔ ∀ x, s.testBit x = t.testBit x :=
  ⟨fun h x => by rw [beq_iff_eq.1 h], fun h => beq_iff_eq.2 (Nat.eq_of_testBit_eq h)⟩

theorem maskSet_lawful : maskSet.Lawful where
  new x := Nat.zero_testBit x
  insert _ _ := rfl
  insert_mem s x y := by
    show (s ||| 2 ^ x).testBit y = true ↔ y = x ∨ s.testBit y = true
    rw [Nat.testBit_or, Bool.or_eq_true, Nat.testBit_two_pow, decide_eq_true_eq]
    constructor
    · rintro (h | h)
      · exact .inr h
      · exact .inl h.symm
    · rintro (h | h)
      · exact .inr h.symm
      · exact .inl h
  remove _ _ := rfl
  remove_mem s x y := by
    show (s ^^^ (s &&& 2 ^ x)).testBit y = true ↔ y ≠ x ∧ s.testBit y = true
    rw [Nat.testBit_xor, Nat.testBit_and, Nat.testBit_two_pow]
    by_cases h : x = y
    · subst h; simp
    · have : y ≠ x := fun e => h e.symm
      simp [h, this]
  clear _ x := Nat.zero_testBit x
  shrink _ _ := rfl
  len _ := rfl
  isEmpty s := by
    show (s == 0) = true ↔ _
    rw [nat_eq_iff]
    simp only [Nat.zero_testBit]
    exact Iff.rfl
  isDisjoint s t := by
    show (s &&& t == 0) = true ↔ ∀ x, ¬ (s.testBit x = true ∧ t.testBit x = true)
    rw [nat_eq_iff]
    simp only [Nat.zero_testBit, Nat.testBit_and]
    constructor
    · intro h x hx
      have := h x
      rw [hx.1, hx.2] at this
      cases this
    · intro h x
      have := h x
      cases hs : s.testBit x <;> simp_all
  isSubset s t := by
    show (s &&& t == s) = true ↔ ∀ x, s.testBit x = true → t.testBit x = true
    rw [nat_eq_iff]
    simp only [Nat.testBit_and]
    constructor
    · intro h x hx
      have := h x
      rw [hx] at this
      simpa using this
    · intro h x
      have := h x
      cases hs : s.testBit x <;> simp_all
  isSuperset s t := by
    show (s &&& t == t) = true ↔ ∀ x, t.testBit x = true → s.testBit x = true
    rw [nat_eq_iff]
    simp only [Nat.testBit_and]
    constructor
    · intro h x hx
      have := h x
      rw [hx] at this
      simpa using this
    · intro h x
      have := h x
      cases hs : t.testBit x <;> simp_all
  unionWith s t x := Nat.testBit_or s t x
  intersectWith s t x := Nat.testBit_and s t x
  differenceWith s t x := by
    show (s ^^^ (s &&& t)).testBit x = (s.testBit x && !t.testBit x)
    rw [Nat.testBit_xor, Nat.testBit_and]
    cases s.testBit x <;> cases t.testBit x <;> rfl
  symmetricDifferenceWith s t x := by
    show (s ^^^ t).testBit x = (s.testBit x != t.testBit x)
    rw [Nat.testBit_xor]
  iter s := mask_lists s
  union s t := lists_congr (mask_lists _) fun x => by
    show (s ||| t).testBit x = true ↔ s.testBit x = true ∨ t.testBit x = true
    rw [Nat.testBit_or, Bool.or_eq_true]
  intersection s t := lists_congr (mask_lists _) fun x => by
    show (s &&& t).testBit x = true ↔ s.testBit x = true ∧ t.testBit x = true
    rw [Nat.testBit_and, Bool.and_eq_true]
  difference s t := lists_congr (mask_lists _) fun x => by
    show (s ^^^ (s &&& t)).testBit x = true ↔ s.testBit x = true ∧ ¬ t.testBit x = true
    rw [Nat.testBit_xor, Nat.testBit_and]
    cases s.testBit x <;> cases t.testBit x <;> simp
  symmetricDifference s t := lists_congr (mask_lists _) fun x => by
    show (s ^^^ t).testBit x = true ↔ ¬ (s.testBit x = true ↔ t.testBit x = true)
    rw [Nat.testBit_xor]
    cases s.testBit x <;> cases t.testBit x <;> simp
  eq s t := nat_eq_iff
  cmp _ _ := rfl
  hash s t h := by
    have : s = t := Nat.eq_of_testBit_eq h
    rw [this]

/-- A history with two sets of `Option<bool>`. -/
example : RightRun (EnumLike.option EnumLike.bool)
    [.insert 0 none, .insert 0 none, .extend 1 [some true, none], .symmetricDifferenceWith 0 1, .iter 0, .len 1, .isSubset 0 1]
    (fun _ _ => False) (run maskSet (EnumLike.option EnumLike.bool)
      [.insert 0 none, .insert 0 none, .extend 1 [some true, none], .symmetricDifferenceWith 0 1, .iter 0, .len 1, .isSubset 0 1]
      fun _ => new maskSet) :=
  C43_history maskSet_lawful (EnumLike.option_contract EnumLike.bool_contract) _

/-- The hypotheses of `C44_union` and of its three companions are met by every pair of collected sets: here `{None, Some(true)}` and `{Some(true)}`. -/
example :=
  C44_difference maskSet_lawful (EnumLike.option_contract EnumLike.bool_contract)
    (s := fromIter maskSet (EnumLike.option EnumLike.bool) [none, some true])
    (t := fromIter maskSet (EnumLike.option EnumLike.bool) [some true])
    (extend_rep maskSet_lawful [none, some true] (empty_rep maskSet_lawful.new))
    (extend_rep maskSet_lawful [some true] (empty_rep maskSet_lawful.new))

end ESet
end EnumVecModel
