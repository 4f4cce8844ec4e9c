import Verif.Interop
import Verif.Props.EnumSet
import Verif.Props.Live

/-! # C54, C55: `EnumSet` with live iterators, `EnumVec`, `Debug`; its order and hash -/

namespace EnumVecModel
namespace ESet
open EV (Source Closure DebugList onFst onSnd call Drains Endless vecSource valuesSource)

variable {σ τ α : Type} {B : BitSet σ} {E : EnumLike α}

theorem wrap_next_map (hE : E.Contract) (l : List α) :
    next E (⟨l.map E.toDiscr⟩ : WrapIter) = (.ok l.head?, ⟨l.tail.map E.toDiscr⟩) := by
  cases l with
  | nil => rfl
  | cons a l =>
    unfold next
    simp only [List.map_cons, hE.roundtrip, List.head?_cons, List.tail_cons]

theorem wrap_drains (hE : E.Contract) (hint : List Nat → Nat) (l : List α) : Drains (source E hint) ⟨l.map E.toDiscr⟩ l false := by
  induction l with
  | nil => exact .done (wrap_next_map hE [])
  | cons a l ih => exact .item (wrap_next_map hE (a :: l)) ih

/-- The lists of numbers of the views are lists of discriminants of members. -/
theorem view_list (hB : B.Lawful) (hE : E.Contract) {s t : EnumSet σ} {p q : VSet α}
    (hs : ∀ x, B.contains s.inner x = true ↔ ∃ a, E.toDiscr a = x ∧ p a)
    (ht : ∀ x, B.contains t.inner x = true ↔ ∃ a, E.toDiscr a = x ∧ q a) (v : View) :
    ∃ l : List α, v.of B s t = ⟨l.map E.toDiscr⟩ ∧ (l.map E.toDiscr).Pairwise (· < ·) ∧ ∀ a, a ∈ l ↔ v.mem p q a := by
  have key : ∀ (xs : List Nat) (r : Nat → Prop) (w : α → Prop), Lists xs r → (∀ x, r x → ∃ a, E.toDiscr a = x) →
      (∀ a, r (E.toDiscr a) ↔ w a) → ∃ l : List α, (⟨xs⟩ : WrapIter) = ⟨l.map E.toDiscr⟩ ∧ (l.map E.toDiscr).Pairwise (· < ·) ∧ ∀ a, a ∈ l ↔ w a := by
    intro xs r w hl h1 h2
    have : ∀ ys : List Nat, (∀ y ∈ ys, ∃ a, E.toDiscr a = y) → ∃ l : List α, l.map E.toDiscr = ys := by
      intro ys
      induction ys with
      | nil => intro _; exact ⟨[], rfl⟩
      | cons y ys ih =>
        intro h
        obtain ⟨a, ha⟩ := h y List.mem_cons_self
        obtain ⟨l, hl⟩ := ih fun z hz => h z (List.mem_cons_of_mem _ hz)
        exact ⟨a :: l, by rw [List.map_cons, ha, hl]⟩
    obtain ⟨l, rfl⟩ := this xs fun y hy => h1 y ((hl.2 y).1 hy)
    refine ⟨l, rfl, hl.1, fun a => ?_⟩
    rw [← h2, ← hl.2]
    constructor
    · intro h; exact List.mem_map_of_mem h
    · intro h
      obtain ⟨b, hb, e⟩ := List.mem_map.1 h
      exact EnumLike.toDiscr_inj hE e ▸ hb
  have ms := fun a => Rep.mem hE hs a
  have mt := fun a => Rep.mem hE ht a
  have es : ∀ {x}, B.contains s.inner x = true → ∃ a, E.toDiscr a = x := fun {x} hx => let ⟨a, ha, _⟩ := (hs x).1 hx; ⟨a, ha⟩
  have et : ∀ {x}, B.contains t.inner x = true → ∃ a, E.toDiscr a = x := fun {x} hx => let ⟨a, ha, _⟩ := (ht x).1 hx; ⟨a, ha⟩
  cases v with
  | iter => exact key _ _ _ (hB.iter s.inner) (fun x => es) ms
  | union =>
    exact key _ _ _ (hB.union s.inner t.inner) (fun x hx => hx.elim es et) (fun a => by rw [ms, mt]; rfl)
  | intersection => exact key _ _ _ (hB.intersection s.inner t.inner) (fun x hx => es hx.1) (fun a => by rw [ms, mt]; rfl)
  | difference => exact key _ _ _ (hB.difference s.inner t.inner) (fun x hx => es hx.1) (fun a => by rw [ms, mt]; rfl)
  | symmetricDifference =>
    refine key _ _ _ (hB.symmetricDifference s.inner t.inner) (fun x hx => ?_) (fun a => by rw [ms, mt]; rfl)
    by_cases h1 : B.contains s.inner x = true
    · exact es h1
    · by_cases h2 : B.contains t.inner x = true
      · exact et h2
      · exact absurd ⟨fun e => absurd e h1, fun e => absurd e h2⟩ hx

/-! ## From sets to vectors -/

/-- **C54** (`v.extend(&s)`, `v.extend(s.union(&t))`, …). Extending a vector with an iterator of `EnumSet` appends the members, each once, in
increasing discriminant order; it fails only for lack of memory. -/
theorem C54_extend_vec {c : Inst α} (hc : c.Ok) (hB : B.Lawful) {s t : EnumSet σ} {p q : α → Prop}
    (hs : ∀ x, B.contains s.inner x = true ↔ ∃ a, c.E.toDiscr a = x ∧ p a)
    (ht : ∀ x, B.contains t.inner x = true ↔ ∃ a, c.E.toDiscr a = x ∧ q a) (view : View)
    (hint : List Nat → Nat) (hh : ∀ xs, hint xs ≤ xs.length) {v : EV c.W} {m : List α} (hv : Is c v m) :
    ∃ l : List α, (l.map c.E.toDiscr).Pairwise (· < ·) ∧ (∀ a, a ∈ l ↔ view.mem p q a) ∧ ∀ n, l.length < n →
      ¬ c.AtLimit (m.length + hint (l.map c.E.toDiscr)) →
      Runs (EV.extendLive c (source c.E hint) n (v, view.of B s t)) (fun ended r => ended = true ∧ Is c r.1 (m ++ l))
        (fun e r => e = .capacity ∧ Refused c ((m.length + l.length) / c.epb + 1) ∧ ∃ k, Is c r.1 (m ++ l.take k)) := by
  obtain ⟨l, h1, h2, h3⟩ := view_list hB hc.contract hs ht view
  refine ⟨l, h2, h3, fun n hn hw => ?_⟩
  rw [h1]
  obtain ⟨t', e⟩ := C49_source (c := c) (source c.E hint) (wrap_drains hc.contract hint l) (hint := hint (l.map c.E.toDiscr)) rfl hn v
  rw [e]
  have key := C13_extend hc hv l (hint (l.map c.E.toDiscr)) (by have := hh (l.map c.E.toDiscr); simpa using this) hw
  rcases hx : EV.extend c ⟨hint (l.map c.E.toDiscr), l, false⟩ v with ⟨e | b, s'⟩
  · rw [hx] at key
    obtain ⟨k1, k2, k, -, k3⟩ := key
    exact ⟨k1, k2, k, k3⟩
  · rw [hx] at key
    exact ⟨rfl, key⟩

/-- **C54** (`s.iter().collect::<EnumVec<T>>()`, also from `union` etc.): the members, each once, in increasing discriminant order. -/
theorem C54_collect_vec {c : Inst α} (hc : c.Ok) (hB : B.Lawful) {s t : EnumSet σ} {p q : α → Prop}
    (hs : ∀ x, B.contains s.inner x = true ↔ ∃ a, c.E.toDiscr a = x ∧ p a)
    (ht : ∀ x, B.contains t.inner x = true ↔ ∃ a, c.E.toDiscr a = x ∧ q a) (view : View)
    (hint : List Nat → Nat) (hh : ∀ xs, hint xs ≤ xs.length) :
    ∃ l : List α, (l.map c.E.toDiscr).Pairwise (· < ·) ∧ (∀ a, a ∈ l ↔ view.mem p q a) ∧ ∀ n, l.length < n → ¬ c.AtLimit (hint (l.map c.E.toDiscr)) →
      Res (EV.collectLive c (source c.E hint) n (view.of B s t)) (fun r => r.1 = true ∧ Is c r.2 l)
        (fun e => e = .capacity ∧ Refused c (l.length / c.epb + 1)) := by
  obtain ⟨l, h1, h2, h3⟩ := view_list hB hc.contract hs ht view
  refine ⟨l, h2, h3, fun n hn hw => ?_⟩
  rw [h1]
  obtain ⟨t', e⟩ := C49_source (c := c) (source c.E hint) (wrap_drains hc.contract hint l) (hint := hint (l.map c.E.toDiscr)) rfl hn (EV.new c)
  unfold EV.collectLive
  rw [e]
  have key := C13_from_iter hc l (hint (l.map c.E.toDiscr)) (by have := hh (l.map c.E.toDiscr); simpa using this) hw
  unfold EV.fromIter EV.build at key
  rcases hx : EV.extend c ⟨hint (l.map c.E.toDiscr), l, false⟩ (EV.new c) with ⟨e | b, s'⟩
  · rw [hx] at key; exact key
  · rw [hx] at key; exact ⟨rfl, key⟩

/-! ## From iterators to sets -/

theorem extendLive_eq (I : Source τ α) {pan : Bool} : ∀ (items : List α) (n : Nat) (s : EnumSet σ) (t : τ), Drains I t items pan → items.length < n →
    ∃ t', extendLive B E I n (s, t) = (if pan then .error .user else .ok true, (extend B E s items, t'))
  | [], 0, _, _, _, hn => absurd hn (by simp)
  | _ :: _, 0, _, _, _, hn => absurd hn (by simp)
  | [], n + 1, s, t, h, _ => by
    cases h with
    | done h =>
      rename_i t'
      refine ⟨t', ?_⟩
      show M.bind (onSnd I.next) _ (s, t) = _
      simp only [M.bind, onSnd, h]
      rfl
    | panic h =>
      rename_i t'
      refine ⟨t', ?_⟩
      show M.bind (onSnd I.next) _ (s, t) = _
      simp only [M.bind, onSnd, h]
      rfl
  | a :: items, n + 1, s, t, h, hn => by
    cases h with
    | item h1 h2 =>
      rename_i t'
      obtain ⟨t'', e⟩ := extendLive_eq I items n (insert B E s a).2 t' h2 (by simpa using hn)
      refine ⟨t'', ?_⟩
      rw [show extend B E s (a :: items) = extend B E (insert B E s a).2 items from rfl, ← e]
      show M.bind (onSnd I.next) _ (s, t) = _
      simp only [M.bind, onSnd, h1]
      rfl

/-- **C54** (`s.extend(iter)`, any iterator that comes to an end, also by a panic). The set has its old members and the items the iterator has yielded, no
others, and `extend` panics exactly if the iterator did: nothing is lost, also after `catch_unwind`. -/
theorem C54_extend_set (hB : B.Lawful) {s : EnumSet σ} {p : α → Prop}
    (hs : ∀ x, B.contains s.inner x = true ↔ ∃ a, E.toDiscr a = x ∧ p a) (I : Source τ α) {t : τ} {items : List α} {pan : Bool}
    (h : Drains I t items pan) {n : Nat} (hn : items.length < n) :
    ∃ s' t', extendLive B E I n (s, t) = (if pan then .error .user else .ok true, (s', t')) ∧
      ∀ x, B.contains s'.inner x = true ↔ ∃ a, E.toDiscr a = x ∧ (a ∈ items ∨ p a) := by
  obtain ⟨t', e⟩ := extendLive_eq (B := B) (E := E) I items n s t h hn
  exact ⟨_, t', e, extend_rep hB items hs⟩

/-- **C54** (`iter.collect::<EnumSet<T>>()`, any iterator that comes to an end): the set has exactly the items; if the iterator panics, so does `collect`. -/
theorem C54_from_iter (hB : B.Lawful) (I : Source τ α) {t : τ} {items : List α} {pan : Bool} (h : Drains I t items pan) {n : Nat} (hn : items.length < n) :
    Res (collectLive B E I n t) (fun r => pan = false ∧ r.1 = true ∧ ∀ x, B.contains r.2.inner x = true ↔ ∃ a, E.toDiscr a = x ∧ a ∈ items)
      (fun e => pan = true ∧ e = .user) := by
  obtain ⟨s, t', e, h1⟩ := C54_extend_set (E := E) hB (s := new B) (p := fun _ => False) (empty_rep hB.new) I h hn
  unfold collectLive
  rw [e]
  cases pan with
  | false => exact ⟨rfl, rfl, by simpa using h1⟩
  | true => exact ⟨rfl, rfl⟩

/-- **C54** (an iterator that never ends). `s.extend(iter)` never ends and never fails: after `n` items the set has its old members and those items. -/
theorem C54_endless (hB : B.Lawful) {s : EnumSet σ} {p : α → Prop}
    (hs : ∀ x, B.contains s.inner x = true ↔ ∃ a, E.toDiscr a = x ∧ p a) (I : Source τ α) {t : τ} {f : Nat → α}
    (h : Endless I t f) (n : Nat) :
    ∃ s' t', extendLive B E I n (s, t) = (.ok false, (s', t')) ∧
      ∀ x, B.contains s'.inner x = true ↔ ∃ a, E.toDiscr a = x ∧ ((∃ i, i < n ∧ f i = a) ∨ p a) := by
  obtain ⟨ts, h0, hts⟩ := h
  subst h0
  have key : ∀ (n k : Nat) (s : EnumSet σ), ∃ s' t', extendLive B E I n (s, ts k) = (.ok false, (s', t')) ∧
      s' = extend B E s ((List.range n).map fun i => f (k + i)) := by
    intro n
    induction n with
    | zero => intro k s; exact ⟨s, ts k, rfl, rfl⟩
    | succ n ih =>
      intro k s
      obtain ⟨s', t', e1, e2⟩ := ih (k + 1) (insert B E s (f k)).2
      refine ⟨s', t', ?_, ?_⟩
      · rw [← e1]
        show M.bind (onSnd I.next) _ (s, ts k) = _
        simp only [M.bind, onSnd, hts]
        rfl
      · rw [e2, List.range_succ_eq_map, List.map_cons, List.map_map]
        show _ = extend B E (insert B E s (f k)).2 _
        congr 1
        apply List.map_congr_left
        intro i _
        show f (k + 1 + i) = f (k + (i + 1))
        congr 1; omega
  obtain ⟨s', t', e1, e2⟩ := key n 0 s
  refine ⟨s', t', e1, fun x => ?_⟩
  rw [e2, extend_rep hB _ hs]
  simp

/-- **C54** (`v.iter().collect::<EnumSet<T>>()`): the set has exactly the elements of the vector, and `len` is the number of distinct elements. -/
theorem C54_collect_set {c : Inst α} (hc : c.Ok) (hB : B.Lawful) {v : EV c.W} {l : List α} (hv : Is c v l) {n : Nat} (hn : l.length < n) :
    ∃ s, collectLive B c.E (vecSource c) n (EV.iter c v) = .ok (true, s) ∧ (∀ a, contains B c.E s a = true ↔ a ∈ l) ∧
      (∀ x, B.contains s.inner x = true ↔ ∃ a, c.E.toDiscr a = x ∧ a ∈ l) ∧
      ∃ m : List α, m.Nodup ∧ (∀ a, a ∈ m ↔ a ∈ l) ∧ len B s = m.length := by
  obtain ⟨s, t', e, h⟩ := C54_extend_set (E := c.E) hB (s := new B) (p := fun _ => False) (empty_rep hB.new) (vecSource c)
    (vec_drains hc hv (yields_iter hv)) hn
  have hr : ∀ x, B.contains s.inner x = true ↔ ∃ a, c.E.toDiscr a = x ∧ a ∈ l := by simpa using h
  refine ⟨s, ?_, fun a => Rep.mem hc.contract hr a, hr, ?_⟩
  · unfold collectLive
    rw [e]; rfl
  · obtain ⟨m, h1, h2, h3⟩ := view_list hB hc.contract hr hr .iter
    refine ⟨m, List.Pairwise.of_map _ (fun a b hab e => absurd (congrArg _ e) (Nat.ne_of_lt hab)) h2, h3, ?_⟩
    show B.len s.inner = _
    rw [hB.len]
    have : B.iter s.inner = m.map c.E.toDiscr := congrArg WrapIter.inner h1
    rw [this, List.length_map]

/-- **C54** (`T::values().collect::<EnumSet<T>>()`): if the values of `T` are consecutive this is the set of all values, with `NUM_VARIANTS` members. -/
theorem C54_values (hB : B.Lawful) (hE : E.Contract) (hcons : E.Consecutive) (build : Build) {n : Nat} (hn : E.num < n) :
    ∃ s, collectLive B E (valuesSource E build) n (EnumLike.Values.of E) = .ok (true, s) ∧ (∀ a, contains B E s a = true) ∧ len B s = E.num := by
  obtain ⟨l, hl⟩ := EnumLike.allValues_exists hcons
  have hlen : l.length = E.num := hl.length
  have hv : EnumLike.Left E l (EnumLike.Values.of E) l := ⟨rfl, Nat.zero_le _, rfl⟩
  obtain ⟨s, t', e, h⟩ := C54_extend_set (E := E) hB (s := new B) (p := fun _ => False) (empty_rep hB.new) (valuesSource E build)
    (values_drains hE hl build hv) (n := n) (by omega)
  have hr : ∀ x, B.contains s.inner x = true ↔ ∃ a, E.toDiscr a = x ∧ a ∈ l := by simpa using h
  have hmem : ∀ a, a ∈ l := by
    intro a
    have h1 : E.toDiscr a ∈ l.map E.toDiscr := by rw [show l.map E.toDiscr = List.range E.num from hl]; exact List.mem_range.2 (hE.lt a)
    obtain ⟨b, hb, e⟩ := List.mem_map.1 h1
    exact EnumLike.toDiscr_inj hE e ▸ hb
  refine ⟨s, by unfold collectLive; rw [e]; rfl, fun a => (Rep.mem hE hr a).2 (hmem a), ?_⟩
  show B.len s.inner = _
  rw [hB.len]
  have hi := hB.iter s.inner
  have e1 : ∀ x, x ∈ B.iter s.inner ↔ x ∈ List.range E.num := by
    intro x
    rw [hi.2]
    show B.contains s.inner x = true ↔ _
    rw [hr x, ← show l.map E.toDiscr = List.range E.num from hl, List.mem_map]
    exact ⟨fun ⟨a, h1, h2⟩ => ⟨a, h2, h1⟩, fun ⟨a, h1, h2⟩ => ⟨a, h2, h1⟩⟩
  rw [((List.perm_ext_iff_of_nodup (hi.1.imp Nat.ne_of_lt) List.nodup_range).2 e1).length_eq, List.length_range]

/-- **C54** (the in-place operations agree with the iterators). `s.extend(t.iter())` makes the set `s.union_with(&t)` makes, and collecting any
of the four two-set iterators makes the set that the in-place operation of the same name makes. -/
theorem C54_agree (hB : B.Lawful) (hE : E.Contract) {s t : EnumSet σ} {p q : α → Prop}
    (hs : ∀ x, B.contains s.inner x = true ↔ ∃ a, E.toDiscr a = x ∧ p a)
    (ht : ∀ x, B.contains t.inner x = true ↔ ∃ a, E.toDiscr a = x ∧ q a) (hint : List Nat → Nat) :
    (∀ n, (iter B t).inner.length < n → ∃ s' t', extendLive B E (source E hint) n (s, iter B t) = (.ok true, (s', t')) ∧ eq B s' (unionWith B s t) = true) ∧
    ∀ view : View, ∀ n, (view.of B s t).inner.length < n → ∃ s', collectLive B E (source E hint) n (view.of B s t) = .ok (true, s') ∧
      eq B s' (match view with
        | .iter => clone s
        | .union => unionWith B s t
        | .intersection => intersectWith B s t
        | .difference => differenceWith B s t
        | .symmetricDifference => symmetricDifferenceWith B s t) = true := by
  have heq : ∀ {u w : EnumSet σ} {r r' : α → Prop}, Rep B E u r → Rep B E w r' → (∀ a, r a ↔ r' a) → eq B u w = true := by
    intro u w r r' hu hw hrr
    show B.eq u.inner w.inner = true
    rw [hB.eq]
    intro x
    rw [Bool.eq_iff_iff, hu x, hw x]
    simp only [hrr]
  constructor
  · intro n hn
    obtain ⟨l, h1, h2, h3⟩ := view_list hB hE ht ht .iter
    have h1 : iter B t = ⟨l.map E.toDiscr⟩ := h1
    rw [h1] at hn ⊢
    obtain ⟨s', t', e, h⟩ := C54_extend_set hB hs (source E hint) (wrap_drains hE hint l) (n := n) (by simpa using hn)
    refine ⟨s', t', e, heq h (union_rep hB hs ht) fun a => ?_⟩
    rw [h3]
    exact Or.comm
  · intro view n hn
    obtain ⟨l, h1, h2, h3⟩ := view_list hB hE hs ht view
    rw [h1] at hn ⊢
    obtain ⟨s', t', e, h⟩ := C54_extend_set (E := E) hB (s := new B) (p := fun _ => False) (empty_rep hB.new) (source E hint) (wrap_drains hE hint l) (n := n) (by simpa using hn)
    refine ⟨s', by unfold collectLive; rw [e]; rfl, ?_⟩
    have h' : Rep B E s' (view.mem p q) := by
      intro x
      rw [h x]
      simp only [h3, or_false]
    cases view with
    | iter => exact heq h' hs fun _ => Iff.rfl
    | union => exact heq h' (union_rep hB hs ht) fun _ => Iff.rfl
    | intersection => exact heq h' (intersect_rep hB hE hs ht) fun _ => Iff.rfl
    | difference => exact heq h' (difference_rep hB hE hs ht) fun _ => Iff.rfl
    | symmetricDifference => exact heq h' (symmDifference_rep hB hE hs ht) fun _ => Iff.rfl

/-! ## `for` loops and `Debug` -/

theorem forWrap_map (hE : E.Contract) (f : Closure τ α Unit) : ∀ (l : List α) (n : Nat) (w : τ), l.length < n →
    ∃ it, forWrap E f n (⟨l.map E.toDiscr⟩, w) = ((forSpec f l w).1, (it, (forSpec f l w).2))
  | l, 0, w, hn => absurd hn (by omega)
  | l, n + 1, w, hn => by
    have h1 : onFst (next E) ((⟨l.map E.toDiscr⟩ : WrapIter), w) = (.ok l.head?, (⟨l.tail.map E.toDiscr⟩, w)) := by
      unfold onFst; rw [wrap_next_map hE]
    unfold forWrap
    rw [M.bind_ok h1]
    cases l with
    | nil => exact ⟨_, rfl⟩
    | cons x xs =>
      simp only [List.head?_cons, M.bind_apply, call, forSpec]
      rcases f x w with ⟨_ | _, w'⟩
      · exact ⟨_, rfl⟩
      · exact forWrap_map hE f xs n w' (by simpa using hn)

/-- **C54** (`for x in &s`, `for x in s.union(&t)`, …). The body sees each member exactly once, in increasing discriminant order, also when it panics on one
of them; `from_discr` never fails. -/
theorem C54_for (hB : B.Lawful) (hE : E.Contract) {s t : EnumSet σ} {p q : α → Prop}
    (hs : ∀ x, B.contains s.inner x = true ↔ ∃ a, E.toDiscr a = x ∧ p a)
    (ht : ∀ x, B.contains t.inner x = true ↔ ∃ a, E.toDiscr a = x ∧ q a) (view : View) :
    ∃ l : List α, (l.map E.toDiscr).Pairwise (· < ·) ∧ (∀ a, a ∈ l ↔ view.mem p q a) ∧
      ∀ (f : Closure τ α Unit) (w : τ) (n : Nat), l.length < n →
        ∃ it, forWrap E f n (view.of B s t, w) = ((forSpec f l w).1, (it, (forSpec f l w).2)) := by
  obtain ⟨l, h1, h2, h3⟩ := view_list hB hE hs ht view
  refine ⟨l, h2, h3, fun f w n hn => ?_⟩
  rw [h1]
  exact forWrap_map hE f l n w hn

/-- **C54** (`{:?}`, `{:#?}` …). Formatting a set feeds std's set formatter each member exactly once, in increasing discriminant order, whatever the
formatter and the formatting of the members do, and returns the formatter's result or the panic. -/
theorem C54_debug (hB : B.Lawful) (hE : E.Contract) {s : EnumSet σ} {p : α → Prop}
    (hs : ∀ x, B.contains s.inner x = true ↔ ∃ a, E.toDiscr a = x ∧ p a) :
    ∃ l : List α, (l.map E.toDiscr).Pairwise (· < ·) ∧ (∀ a, a ∈ l ↔ p a) ∧
      ∀ (D : DebugList τ α) (w : τ), fmt B E D s w =
        match forSpec D.entry l (D.start w) with
        | (.ok _, w') => (.ok (D.finish w').1, (D.finish w').2)
        | (.error e, w') => (.error e, w') := by
  obtain ⟨l, h1, h2, h3⟩ := view_list hB hE hs hs .iter
  have h1 : iter B s = ⟨l.map E.toDiscr⟩ := h1
  refine ⟨l, h2, h3, fun D w => ?_⟩
  obtain ⟨it, e⟩ := forWrap_map hE D.entry l (l.length + 1) (D.start w) (Nat.lt_succ_self _)
  unfold fmt
  rw [h1, List.length_map, e]
  rcases forSpec D.entry l (D.start w) with ⟨_ | _, w'⟩ <;> rfl

/-! ## Order and hash -/

/-- Lexicographic order of increasing lists, in terms of membership. -/
theorem sorted_lt_iff : ∀ (X Y : List Nat), X.Pairwise (· < ·) → Y.Pairwise (· < ·) →
    (X < Y ↔ ∃ d, (∀ e, e < d → (e ∈ X ↔ e ∈ Y)) ∧ ((d ∈ X ∧ d ∉ Y ∧ ∃ e, e ∈ Y ∧ d < e) ∨ (d ∈ Y ∧ d ∉ X ∧ ∀ e, e ∈ X → e < d)))
  | [], [], _, _ => by simp
  | [], y :: Y, _, hY => by
    refine iff_of_true (List.nil_lt_cons y Y) ⟨y, fun e he => ?_, .inr ⟨List.mem_cons_self, by simp, by simp⟩⟩
    have := List.rel_of_pairwise_cons hY (a' := e)
    simp only [List.not_mem_nil, List.mem_cons, false_iff, not_or]
    exact ⟨by omega, fun h => by have := this h; omega⟩
  | x :: X, [], _, _ => by simp
  | x :: X, y :: Y, hX, hY => by
    have hx := fun e => List.rel_of_pairwise_cons hX (a' := e)
    have hy := fun e => List.rel_of_pairwise_cons hY (a' := e)
    rw [List.cons_lt_cons_iff]
    rcases Nat.lt_trichotomy x y with h | h | h
    · refine iff_of_true (.inl h) ⟨x, fun e he => ?_, .inl ⟨List.mem_cons_self, ?_, y, List.mem_cons_self, h⟩⟩
      · simp only [List.mem_cons]
        refine iff_of_false ?_ ?_
        · rintro (rfl | h')
          · omega
          · have := hx e h'; omega
        · rintro (rfl | h')
          · omega
          · have := hy e h'; omega
      · simp only [List.mem_cons]
        rintro (rfl | h')
        · omega
        · have := hy x h'; omega
    · subst h
      have ih := sorted_lt_iff X Y hX.of_cons hY.of_cons
      simp only [Nat.lt_irrefl, false_or, true_and]
      rw [ih]
      constructor
      · rintro ⟨d, h1, h2⟩
        refine ⟨d, fun e he => ?_, ?_⟩
        · simp only [List.mem_cons, h1 e he]
        · rcases h2 with ⟨a, b, e, c, f⟩ | ⟨a, b, c⟩
          · refine .inl ⟨List.mem_cons_of_mem _ a, ?_, e, List.mem_cons_of_mem _ c, f⟩
            simp only [List.mem_cons, not_or]
            exact ⟨by have := hx d a; omega, b⟩
          · refine .inr ⟨List.mem_cons_of_mem _ a, ?_, ?_⟩
            · simp only [List.mem_cons, not_or]
              exact ⟨by have := hy d a; omega, b⟩
            · intro e he
              rcases List.mem_cons.1 he with rfl | he
              · exact hy d a
              · exact c e he
      · rintro ⟨d, h1, h2⟩
        have key : ∀ Z : List Nat, (∀ e, e ∈ Z → x < e) → ∀ e, e ≠ x → (e ∈ x :: Z ↔ e ∈ Z) := by
          intro Z _ e he; simp [he]
        have hd : d ≠ x := by
          rintro rfl
          rcases h2 with ⟨_, b, _⟩ | ⟨_, b, _⟩ <;> exact b List.mem_cons_self
        have kx := key X hx
        have ky := key Y hy
        rw [kx d hd, ky d hd] at h2
        refine ⟨d, fun e he => ?_, ?_⟩
        · by_cases hex : e = x
          · subst hex
            exact iff_of_false (fun h => Nat.lt_irrefl _ (hx e h)) (fun h => Nat.lt_irrefl _ (hy e h))
          · rw [← kx e hex, ← ky e hex]; exact h1 e he
        · rcases h2 with ⟨a, b, e, c, f⟩ | ⟨a, b, c⟩
          · have := hx d a
            exact .inl ⟨a, b, e, (ky e (by omega)).1 c, f⟩
          · exact .inr ⟨a, b, fun e he => c e (List.mem_cons_of_mem _ he)⟩
    · refine iff_of_false (by omega) ?_
      rintro ⟨d, h1, h2⟩
      have ny : y ∉ x :: X := by
        simp only [List.mem_cons, not_or]
        exact ⟨by omega, fun h' => by have := hx y h'; omega⟩
      have hdy : d ≤ y := Nat.le_of_not_lt fun hlt => ny ((h1 y hlt).2 List.mem_cons_self)
      rcases h2 with ⟨a, _, _⟩ | ⟨_, _, c⟩
      · rcases List.mem_cons.1 a with rfl | a
        · omega
        · have := hx d a; omega
      · have := c x List.mem_cons_self; omega

theorem compare_nat_list (X Y : List Nat) : (compare X Y = .lt ↔ X < Y) ∧ (compare X Y = .eq ↔ X = Y) ∧ compare Y X = (compare X Y).swap := by
  refine ⟨?_, ?_, Std.OrientedCmp.eq_swap⟩
  · induction X generalizing Y with
    | nil => cases Y <;> simp [compare, List.compareLex]
    | cons x X ih =>
      cases Y with
      | nil => simp [compare, List.compareLex]
      | cons y Y =>
        have := ih Y
        rw [List.compare_cons_cons, List.cons_lt_cons_iff, ← this]
        rcases Nat.lt_trichotomy x y with h | h | h
        · simp [Nat.compare_eq_lt.2 h, h]
        · subst h; simp
        · simp [Nat.compare_eq_gt.2 h]; omega
  · exact Std.LawfulEqCmp.compare_eq_iff_eq

/-- **C55** (`==`, `<`, `cmp`, `hash`, `clone`). Equality is equality of the sets of members, and agrees with `cmp`; sets with the same members hash equally;
`cmp` is antisymmetric. `s < t` is decided by the value `a` with the least discriminant that is in one set and not in the other: it holds if `a` is in `s` and
`t` has members after it, or if `a` is in `t` and `s` has no members after it (lexicographic order of the increasing sequences). -/
theorem C55_order (hB : B.Lawful) (hE : E.Contract) {s t : EnumSet σ} {p q : α → Prop}
    (hs : ∀ x, B.contains s.inner x = true ↔ ∃ a, E.toDiscr a = x ∧ p a)
    (ht : ∀ x, B.contains t.inner x = true ↔ ∃ a, E.toDiscr a = x ∧ q a) :
    (cmp B s t = .lt ↔ ∃ a, (∀ b, E.toDiscr b < E.toDiscr a → (p b ↔ q b)) ∧
      ((p a ∧ ¬ q a ∧ ∃ b, q b ∧ E.toDiscr a < E.toDiscr b) ∨ (q a ∧ ¬ p a ∧ ∀ b, p b → E.toDiscr b < E.toDiscr a))) ∧
    (eq B s t = true ↔ ∀ a, p a ↔ q a) ∧ (cmp B s t = .eq ↔ ∀ a, p a ↔ q a) ∧ cmp B t s = (cmp B s t).swap ∧
    ((∀ a, p a ↔ q a) → hash B s = hash B t) ∧ eq B (clone s) s = true := by
  have ms := fun a => Rep.mem hE hs a
  have mt := fun a => Rep.mem hE ht a
  have hsame : (∀ a, p a ↔ q a) ↔ ∀ x, B.contains s.inner x = B.contains t.inner x := by
    constructor
    · intro h x
      rw [Bool.eq_iff_iff, hs x, ht x]
      simp only [h]
    · intro h a
      rw [← ms, ← mt, h]
  have hc : cmp B s t = compare (B.iter s.inner) (B.iter t.inner) := hB.cmp _ _
  have hc' : cmp B t s = compare (B.iter t.inner) (B.iter s.inner) := hB.cmp _ _
  obtain ⟨c1, c2, c3⟩ := compare_nat_list (B.iter s.inner) (B.iter t.inner)
  have i1 : ∀ x, x ∈ B.iter s.inner ↔ B.contains s.inner x = true := (hB.iter s.inner).2
  have i2 : ∀ x, x ∈ B.iter t.inner ↔ B.contains t.inner x = true := (hB.iter t.inner).2
  refine ⟨?_, (hB.eq _ _).trans hsame.symm, ?_, by rw [hc', hc, c3], fun h => hB.hash _ _ (hsame.1 h), (hB.eq _ _).2 fun _ => rfl⟩
  · rw [hc, c1, sorted_lt_iff _ _ (hB.iter _).1 (hB.iter _).1]
    simp only [i1, i2]
    constructor
    · rintro ⟨d, h1, h2⟩
      have hd : ∃ a, E.toDiscr a = d := by
        rcases h2 with ⟨h, _⟩ | ⟨h, _⟩
        · obtain ⟨a, ha, _⟩ := (hs d).1 h; exact ⟨a, ha⟩
        · obtain ⟨a, ha, _⟩ := (ht d).1 h; exact ⟨a, ha⟩
      obtain ⟨a, rfl⟩ := hd
      refine ⟨a, fun b hb => by have := h1 _ hb; rwa [ms, mt] at this, ?_⟩
      rw [ms, mt] at h2
      rcases h2 with ⟨h3, h4, e, h5, h6⟩ | ⟨h3, h4, h5⟩
      · obtain ⟨b, rfl, hb⟩ := (ht e).1 h5
        exact .inl ⟨h3, h4, b, hb, h6⟩
      · exact .inr ⟨h3, h4, fun b hb => h5 _ ((ms b).2 hb)⟩
    · rintro ⟨a, h1, h2⟩
      refine ⟨E.toDiscr a, fun e he => ?_, ?_⟩
      · rw [hs e, ht e]
        constructor
        · rintro ⟨b, rfl, hb⟩; exact ⟨b, rfl, (h1 b he).1 hb⟩
        · rintro ⟨b, rfl, hb⟩; exact ⟨b, rfl, (h1 b he).2 hb⟩
      · rw [ms, mt]
        rcases h2 with ⟨h3, h4, b, h5, h6⟩ | ⟨h3, h4, h5⟩
        · exact .inl ⟨h3, h4, _, (mt b).2 h5, h6⟩
        · refine .inr ⟨h3, h4, fun e he => ?_⟩
          obtain ⟨b, rfl, hb⟩ := (hs e).1 he
          exact h5 b hb
  · rw [hc, c2, hsame]
    constructor
    · intro h x
      rw [Bool.eq_iff_iff, ← i1, ← i2, h]
    · intro h
      have e1 : ∀ x, x ∈ B.iter s.inner ↔ x ∈ B.iter t.inner := fun x => by rw [i1, i2, h]
      exact List.Perm.eq_of_pairwise (fun a b _ _ h1 h2 => absurd h1 (Nat.lt_asymm h2)) (hB.iter _).1 (hB.iter _).1
        ((List.perm_ext_iff_of_nodup ((hB.iter _).1.imp Nat.ne_of_lt) ((hB.iter _).1.imp Nat.ne_of_lt)).2 e1)

/-- **C55** (`sort`, `BTreeSet<EnumSet<T>>` …): the order is transitive. -/
theorem C55_trans (hB : B.Lawful) (r s t : EnumSet σ) (h1 : cmp B r s = .lt) (h2 : cmp B s t = .lt) : cmp B r t = .lt := by
  have e : ∀ u w : EnumSet σ, cmp B u w = compare (B.iter u.inner) (B.iter w.inner) := fun u w => hB.cmp _ _
  rw [e, (compare_nat_list _ _).1] at *
  exact List.lt_trans h1 h2

/-! ## Concrete cases -/

theorem fromIter_rep (hB : B.Lawful) (as : List α) (x : Nat) :
    B.contains (fromIter B E as).inner x = true ↔ ∃ a, E.toDiscr a = x ∧ a ∈ as := by
  have := extend_rep (E := E) hB as (empty_rep (s := new B) hB.new) x
  simp only [or_false] at this
  exact this

/-- `{Some(true), None}` of `Option<bool>` (discriminants 1 and 2) and `{Some(false), Some(true)}` (0 and 1). -/
def exS : EnumSet Nat := fromIter maskSet (EnumLike.option EnumLike.bool) [none, some true, none]
def exT : EnumSet Nat := fromIter maskSet (EnumLike.option EnumLike.bool) [some true, some false]

theorem exS_rep : ∀ x, maskSet.contains exS.inner x = true ↔ ∃ a, (EnumLike.option EnumLike.bool).toDiscr a = x ∧ a ∈ [none, some true, none] :=
  fromIter_rep maskSet_lawful _

theorem exT_rep : ∀ x, maskSet.contains exT.inner x = true ↔ ∃ a, (EnumLike.option EnumLike.bool).toDiscr a = x ∧ a ∈ [some true, some false] :=
  fromIter_rep maskSet_lawful _

theorem optBool_contract : (EnumLike.option EnumLike.bool).Contract := EnumLike.option_contract EnumLike.bool_contract

example := C54_for (τ := List (Option Bool)) maskSet_lawful optBool_contract exS_rep exT_rep .union
example := C54_debug (τ := String) maskSet_lawful optBool_contract exS_rep
example := C54_agree maskSet_lawful optBool_contract exS_rep exT_rep (fun xs => xs.length)
example := C55_order maskSet_lawful optBool_contract exS_rep exT_rep

example : cmp maskSet exS exT = .gt ∧ cmp maskSet exT exS = .lt ∧ cmp maskSet exS exS = .eq := by decide +kernel

/-- A proper subset is not always smaller. -/
example : cmp maskSet (⟨5⟩ : EnumSet Nat) ⟨7⟩ = .gt ∧ isSubset maskSet ⟨5⟩ ⟨7⟩ = true := by decide +kernel

/-- The vector of the members of an 8-variant set, and back. -/
def exW : EnumSet Nat := fromIter maskSet c8.E [6, 2, 3, 2]

theorem exW_rep : ∀ x, maskSet.contains exW.inner x = true ↔ ∃ a, c8.E.toDiscr a = x ∧ a ∈ [6, 2, 3, 2] :=
  fromIter_rep maskSet_lawful _

example := C54_extend_vec c8_ok maskSet_lawful exW_rep exW_rep .iter (fun xs => xs.length / 2) (fun _ => Nat.div_le_self _ _) v3_is
example := C54_collect_vec c8_ok maskSet_lawful exW_rep exW_rep .iter (fun _ => 0) (fun _ => Nat.zero_le _)
example := C54_collect_set c8_ok maskSet_lawful v12_is (n := 13) (by decide)
example := C54_values (B := maskSet) maskSet_lawful c8_ok.contract (finLike_consecutive 8) debug64 (n := 9) (by decide)

example : (EV.collectLive c8 (source c8.E fun _ => 0) 9 (iter maskSet exW)).toOption.map (fun p => (p.1, EV.toVec c8 p.2)) =
    some (true, .ok [2, 3, 6]) := by
  decide +kernel

/-- An iterator that yields 5, 4 and panics. -/
example : ∃ s' t', extendLive maskSet c8.E ⟨fun t => match t with | 0 => (.error .user, 0) | t + 1 => (.ok (some (if t = 0 then 4 else 5)), t), fun _ => .ok 2⟩ 4 (exW, 2) =
    (.error .user, (s', t')) ∧ ∀ x, maskSet.contains s'.inner x = true ↔ ∃ a, c8.E.toDiscr a = x ∧ (a ∈ [5, 4] ∨ a ∈ [6, 2, 3, 2]) :=
  C54_extend_set (E := c8.E) maskSet_lawful exW_rep (t := 2) (items := [5, 4]) (pan := true) (n := 4)
    ⟨fun t => match t with | 0 => (.error .user, 0) | t + 1 => (.ok (some (if t = 0 then 4 else 5)), t), fun _ => .ok 2⟩
    (.item rfl (.item rfl (.panic rfl))) (by decide)

example := C54_endless (E := c8.E) maskSet_lawful exW_rep (t := 0) (f := fun n => (if n % 2 = 0 then 1 else 6 : Fin 8))
  ⟨fun t : Nat => (.ok (some (if t % 2 = 0 then 1 else 6)), t + 1), fun _ => .ok 3⟩ ⟨fun n => n, rfl, fun _ => rfl⟩ 7

end ESet
end EnumVecModel
