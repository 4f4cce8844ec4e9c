import Verif.Lemmas.SafeRun
import Verif.Lemmas.Api

/-! # resize, from_elem, extend, collect, append, split_off, retain, for_each (C12-C18) -/

namespace EnumVecModel
open EV

variable {α τ : Type} {c : Inst α}

/-! ## C12 -/

/-- **C12** `resize(n, x)`: truncates, or appends copies of `x`, for every length and width. It fails only for lack of
memory, and then holds the old elements and some of the copies. -/
theorem C12_resize (hc : c.Ok) {s : EV c.W} {l : List α} (h : Is c s l) (n : Nat) (x : α) :
    Runs (resize c n x s)
      (fun _ s' => Is c s' (if n ≤ l.length then l.take n else l ++ List.replicate (n - l.length) x))
      (fun e s' => e = .capacity ∧ l.length < n ∧ FillRefused c l.length (n - l.length) ∧
        ∃ k, k ≤ n - l.length ∧ Is c s' (l ++ List.replicate k x)) := by
  refine (resize_holds hc (h.holds hc) n x).mono ?_ ?_
  · rintro _ s' ⟨h1, -⟩
    have := h1.is hc
    split
    · next hn =>
      rwa [Nat.sub_eq_zero_of_le hn, List.replicate_zero, List.append_nil] at this
    · next hn => rwa [List.take_of_length_le (by omega)] at this
  · rintro e s' ⟨h1, -, -, h2, ⟨k, hk, h3⟩, h4⟩
    exact ⟨h1, h2, h4, k, hk, h3.is hc⟩

/-- **C12** `EnumVec::from_elem(x, n)` (`enum_vec![x; n]`) holds `n` copies of `x`. -/
theorem C12_from_elem (hc : c.Ok) (x : α) (n : Nat) :
    Res (fromElem c x n) (fun s => Is c s (List.replicate n x)) (fun e => e = .capacity ∧ FillRefused c 0 n) :=
  (fromElem_holds hc x n).mono (fun _ h => h.1.is hc) (fun _ h => h)

/-- Both succeed on the block-wise path (50 > 4 * 10). -/
example : Is c8 v12 l12 ∧ (resize c8 62 5 v12).1 = .ok () ∧
    (fromElem c8 7 50).map (fun s => (EV.get c8 49 s).1) = .ok (.ok (some 7)) :=
  ⟨v12_is, by decide +kernel, by decide +kernel⟩

/-! ## C13, C14 -/

/-- **C13** `extend` appends exactly what the iterator yields, in order, for every iterator that ends normally and whose
`size_hint` lower bound is not above the number of its items (at the limit of `usize` see C66). It fails only for lack of memory, and then the
vector holds the old elements and a prefix of the items. -/
theorem C13_extend (hc : c.Ok) {s : EV c.W} {l : List α} (h : Is c s l) (items : List α) (hint : Nat)
    (hh : hint ≤ items.length) (hw : ¬ c.AtLimit (l.length + hint)) :
    Runs (extend c ⟨hint, items, false⟩ s) (fun _ s' => Is c s' (l ++ items))
      (fun e s' => e = .capacity ∧ Refused c ((l.length + items.length) / c.epb + 1) ∧
        ∃ k, k ≤ items.length ∧ Is c s' (l ++ items.take k)) := by
  refine (extend_holds hc ⟨hint, items, false⟩ (h.holds hc) hw).mono (fun _ _ h => h.2.2.1.is hc) ?_
  rintro e s' ⟨-, ⟨h1, h2, h3⟩ | ⟨-, h4, -⟩ | ⟨h5, -⟩⟩
  · refine ⟨h1, by rwa [Nat.max_eq_right hh] at h2, ?_⟩
    rcases h3 with rfl | ⟨-, k, hk, -, h4⟩
    · exact ⟨0, Nat.zero_le _, by rwa [List.take_zero, List.append_nil]⟩
    · exact ⟨k, by simp only at hk; omega, h4.is hc⟩
  · simp at h4
  · simp only at h5; omega

/-- **C13** `collect`/`from_iter` builds exactly the items. -/
theorem C13_from_iter (hc : c.Ok) (items : List α) (hint : Nat) (hh : hint ≤ items.length) (hw : ¬ c.AtLimit hint) :
    Res (fromIter c ⟨hint, items, false⟩) (fun s => Is c s items)
      (fun e => e = .capacity ∧ Refused c (items.length / c.epb + 1)) := by
  refine (fromIter_holds hc ⟨hint, items, false⟩ hw).mono (fun _ h => h.2.2.1.is hc) ?_
  rintro e (⟨h1, h2⟩ | ⟨-, h2⟩ | ⟨h2, -⟩)
  · exact ⟨h1, by rwa [Nat.max_eq_right hh] at h2⟩
  · simp at h2
  · simp only at h2; omega

/-- **C13** `From<Vec<T>>`, `from_slice` and `enum_vec![a, b, c]` build exactly the given sequence. (No `Vec` or slice has `usize::MAX` elements, so
that the hypothesis always holds.) -/
theorem C13_from_vec (hc : c.Ok) (xs : List α) (hw : ¬ c.AtLimit xs.length) :
    Res (fromVec c xs) (fun s => Is c s xs) (fun e => e = .capacity ∧ Refused c (xs.length / c.epb + 1)) ∧
    Res (fromSlice c xs) (fun s => Is c s xs) (fun e => e = .capacity ∧ Refused c (xs.length / c.epb + 1)) := by
  have := (fromVec_holds hc xs hw).mono (fun _ h => h.1.is hc) (fun _ h => h)
  exact ⟨this, by rw [fromSlice_eq hc]; exact this⟩

/-- An honest but imprecise hint: 3 of 12. -/
example : Is c8 v3 [1, 2, 3] ∧ 3 ≤ l12.length ∧ (extend c8 ⟨3, l12, false⟩ v3).1 = .ok () :=
  ⟨v3_is, by decide, by decide +kernel⟩

/-- **C14** If the iterator panics, or yields fewer items than its `size_hint` promised, `extend` panics (with the
panic of the iterator or of `unwrap`, or for lack of memory). The vector is well-formed and its first elements are the
old ones and all items yielded (for lack of memory: a prefix of them). Further elements are exposed only if the hint
was too high. If all stale elements of the storage were valid (so in every history without a corrupting `remove`, C29),
the exposed ones are. -/
theorem C14_extend_panics (hc : c.Ok) {s : EV c.W} {l : List α} (h : Is c s l) (it : Src α)
    (hbad : it.panics = true ∨ it.items.length < it.hint) (hw : ¬ c.AtLimit (l.length + it.hint)) :
    Runs (extend c it s) (fun _ _ => False) (fun e s' =>
      (e = .user ∨ e = .unwrapNone ∨ e = .capacity) ∧ Safe c s' ∧
      (∃ k, k ≤ it.items.length ∧ (e ≠ .capacity → k = it.items.length) ∧
        (∀ i (hi : i < (l ++ it.items.take k).length), EV.get c i s' = (.ok (some (l ++ it.items.take k)[i]), s')) ∧
        EV.len c s' = if e ≠ .capacity then l.length + max it.hint it.items.length else l.length + k) ∧
      (AllValid c s → AllValid c s' ∧
        (c.E.Consecutive → ∀ i, i < EV.len c s' → ∃ a, EV.get c i s' = (.ok (some a), s')))) := by
  have key := extend_holds hc it (h.holds hc) hw
  have hval : ∀ s' : EV c.W, Safe c s' → Tidy c s s' → AllValid c s → AllValid c s' ∧
      (c.E.Consecutive → ∀ i, i < EV.len c s' → ∃ a, EV.get c i s' = (.ok (some a), s')) := by
    intro s' hs ht hv
    have hv' := ht.valid ((allValid_iff hc s).mp hv)
    exact ⟨(allValid_iff hc s').mpr hv', fun hE i hi => Valid.get hc hE hs hv' hi⟩
  refine key.mono ?_ ?_
  · rintro _ s' ⟨h1, h2, -⟩
    rcases hbad with hb | hb
    · rw [h1] at hb; cases hb
    · omega
  · rintro e s' ⟨ht, ⟨rfl, h2, h3⟩ | ⟨rfl, h4, h5, h6⟩ | ⟨h7, h8, h9, h10⟩⟩
    · rcases h3 with rfl | ⟨-, k, hk, -, h4⟩
      · refine ⟨by simp, h.safe, ⟨0, Nat.zero_le _, by simp, ?_, ?_⟩, hval _ h.safe ht⟩
        · intro i hi
          rw [h.shows.2 i]
          simp only [List.take_zero, List.append_nil] at hi ⊢
          rw [List.getElem?_eq_getElem hi]
        · simpa using h.shows.1
      · refine ⟨by simp, h4.toSafe, ⟨k, by omega, by simp, fun i hi => h4.pre.get hc hi, ?_⟩, hval _ h4.toSafe ht⟩
        have : s'.num = _ := h4.len_eq
        simp only [List.length_append, List.length_take] at this
        show s'.num = _
        simp; omega
    · have hp : HoldsPre c s' (l ++ it.items.take it.items.length) := by rw [List.take_length]; exact h6.pre
      refine ⟨by simp, h6.toSafe, ⟨it.items.length, Nat.le_refl _, by simp,
        fun i hi => hp.get hc hi, ?_⟩, hval _ h6.toSafe ht⟩
      have : s'.num = _ := h6.len_eq
      simp only [List.length_append] at this
      show s'.num = _
      simp; omega
    · have hp : HoldsPre c s' (l ++ it.items.take it.items.length) := by rw [List.take_length]; exact h9
      have he : e ≠ .capacity ∧ (e = .user ∨ e = .unwrapNone ∨ e = .capacity) := by
        rw [h8]; split <;> simp
      refine ⟨he.2, h9.toSafe, ⟨it.items.length, Nat.le_refl _, fun _ => rfl,
        fun i hi => hp.get hc hi, ?_⟩, hval _ h9.toSafe ht⟩
      rw [if_pos he.1, Nat.max_eq_left (by omega)]; exact h10

/-- An iterator that promises 5 items, yields 2 and then panics. -/
example : Is c8 v3 [1, 2, 3] ∧ ([4, 5] : List (Fin 8)).length < 5 ∧
    (extend c8 ⟨5, [4, 5], true⟩ v3).1 = .error .user ∧ (extend c8 ⟨5, [4, 5], true⟩ v3).2.num = 8 :=
  ⟨v3_is, by decide, by decide +kernel, by decide +kernel⟩

/-- A failure that is not the iterator's does not depend on the items behind it. -/
theorem extendHinted_more (p p' : Bool) (more : List α) : ∀ (n pos : Nat) (items : List α) (s : EV c.W),
    match extendHinted c p n pos items s with
    | (.ok rest, s') => extendHinted c p' n pos (items ++ more) s = (.ok (rest ++ more), s')
    | (.error e, s') => e = .user ∨ e = .unwrapNone ∨ extendHinted c p' n pos (items ++ more) s = (.error e, s')
  | 0, _, _, _ => rfl
  | n + 1, pos, [], s => by cases p <;> simp [extendHinted, M.fail]
  | n + 1, pos, x :: items, s => by
    rcases hx : EV.set c pos x s with ⟨e | _, s1⟩
    · have h1 : ∀ q l, extendHinted c q (n + 1) pos (x :: l) s = (.error e, s1) := by
        intro q l
        show M.bind (EV.set c pos x) (fun _ => extendHinted c q n (pos + 1) l) s = _
        simp only [M.bind, hx]
      rw [h1 p items]
      exact Or.inr (Or.inr (h1 p' (items ++ more)))
    · have h1 : ∀ q l, extendHinted c q (n + 1) pos (x :: l) s = extendHinted c q n (pos + 1) l s1 := by
        intro q l
        show M.bind (EV.set c pos x) (fun _ => extendHinted c q n (pos + 1) l) s = _
        simp only [M.bind, hx]
      rw [h1 p items, List.cons_append, h1 p']
      exact extendHinted_more p p' more n (pos + 1) items s1

theorem extendRest_more (p p' : Bool) (more : List α) : ∀ (items : List α) (s s' : EV c.W) (e : Fault), e ≠ .user →
    extendRest c p items s = (.error e, s') → extendRest c p' (items ++ more) s = (.error e, s')
  | [], s, s', e, he, h => by
    cases p
    · cases h
    · exact absurd (by cases h; rfl) he
  | x :: items, s, s', e, he, h => by
    have h' : M.bind (push c x) (fun _ => extendRest c p items) s = (.error e, s') := h
    show M.bind (push c x) (fun _ => extendRest c p' (items ++ more)) s = _
    rcases hx : push c x s with ⟨e1 | _, s1⟩
    · simp only [M.bind, hx] at h' ⊢; exact h'
    · simp only [M.bind, hx] at h' ⊢
      exact extendRest_more p p' more items s1 s' e he h'

theorem extend_more (p p' : Bool) (hint : Nat) (items more : List α) {s s' : EV c.W} {e : Fault} (he : e ≠ .user) (he' : e ≠ .unwrapNone)
    (h : extend c ⟨hint, items, p⟩ s = (.error e, s')) : extend c ⟨hint, items ++ more, p'⟩ s = (.error e, s') := by
  unfold extend at h ⊢
  rw [M.read_bind] at h ⊢
  rw [M.bind_apply] at h ⊢
  rcases hr : reserve c hint s with ⟨e1 | _, s1⟩
  · simp only [hr] at h ⊢; exact h
  simp only [hr] at h ⊢
  rw [M.read_bind] at h ⊢
  rw [M.bind_apply] at h ⊢
  rcases hu : (M.lift (uAdd c.build s1.num hint) : M (EV c.W) Nat) s1 with ⟨e1 | n, s2⟩
  · simp only [hu] at h ⊢; exact h
  simp only [hu] at h ⊢
  rw [M.write_bind] at h ⊢
  rw [M.bind_apply] at h ⊢
  have hm := extendHinted_more (c := c) p p' more hint (len c s) items { s1 with num := n }
  rcases hh : extendHinted c p hint (len c s) items { s1 with num := n } with ⟨e1 | rest, s3⟩
  · rw [hh] at hm
    simp only [hh] at h
    cases h
    rcases hm with rfl | rfl | hm
    · exact absurd rfl he
    · exact absurd rfl he'
    · simp only [hm]
  · rw [hh] at hm
    simp only [hh, hm] at h ⊢
    exact extendRest_more p p' more rest s3 s' e he h

/-- **C14** (infinite iterators) `extend` with an iterator that never ends (`f 0, f 1, …`; any size hint but the one of C66) always terminates, by a panic for lack of
memory, after a bounded number `n` of items: whatever comes behind the first `n` items, the call is the same. The vector
then holds the old elements and a prefix of the items (or is unchanged). -/
theorem C14_infinite (hc : c.Ok) {s : EV c.W} {l : List α} (h : Is c s l) (hint : Nat) (hw : ¬ c.AtLimit (l.length + hint))
    (f : Nat → α) :
    ∃ n s', (∀ more p, extend c ⟨hint, (List.range n).map f ++ more, p⟩ s = (.error .capacity, s')) ∧
      (s' = s ∨ ∃ k, hint ≤ k ∧ k < n ∧ Is c s' (l ++ (List.range k).map f)) := by
  have key := extend_holds hc ⟨hint, (List.range (max hint c.build.usizeLim)).map f, false⟩ (h.holds hc) hw
  have hlen : ((List.range (max hint c.build.usizeLim)).map f).length = max hint c.build.usizeLim := by simp
  have hbig : ∀ s' : EV c.W, ¬ Holds c s' (l ++ (List.range (max hint c.build.usizeLim)).map f) := by
    intro s' h'
    have h1 := h'.len_eq
    have h2 := h'.toSafe.numRoom hc
    have h3 := hc.epb_pos
    rw [List.length_append, hlen] at h1
    omega
  rcases hx : extend c ⟨hint, (List.range (max hint c.build.usizeLim)).map f, false⟩ s with ⟨e | b, s'⟩
  · rw [hx] at key
    obtain ⟨-, ⟨rfl, -, h3⟩ | ⟨-, h4, -⟩ | ⟨h5, -⟩⟩ := key
    · refine ⟨max hint c.build.usizeLim, s', fun more p => extend_more false p hint _ more nofun nofun hx, ?_⟩
      rcases h3 with rfl | ⟨-, k, hk, hk2, h4⟩
      · exact Or.inl rfl
      · have hk' : k < max hint c.build.usizeLim := by simpa [hlen] using hk
        refine Or.inr ⟨k, hk2, hk', ?_⟩
        have := h4.is hc
        rwa [← List.map_take, List.take_range, Nat.min_eq_left (Nat.le_of_lt hk')] at this
    · simp at h4
    · rw [hlen] at h5; simp only at h5; omega
  · rw [hx] at key
    exact absurd key.2.2.1 (hbig s')

/-- Hypotheses met: `v3.extend(repeat(5))`. -/
example := C14_infinite c8_ok v3_is 0 (by decide) fun _ => (5 : Fin 8)

/-! ## C15, C16 -/

/-- **C15 (partial)** `a.append(&mut b)` makes `a` the concatenation; `b` is left empty **if** the storage is a
`SmallVec`, or `a.len()` is no multiple of the number of elements per block, or `b` was empty. Full claim: in all
cases; false, see `C15_append_wrong`. -/
theorem C15_append_partial (hc : c.Ok) {s o : EV c.W} {l m : List α} (h : Is c s l) (ho : Is c o m) :
    Runs (append c (s, o))
      (fun _ p => Is c p.1 (l ++ m) ∧ (c.small = true ∨ l.length % c.epb ≠ 0 ∨ m = [] → Is c p.2 []))
      (fun e p => e = .capacity ∧ Refused c ((l.length + m.length) / c.epb + 1) ∧ Is c p.1 l ∧ Is c p.2 m) := by
  have hn : s.num = l.length := h.shows.1
  have hm : o.num = m.length := ho.shows.1
  refine ((append_holds hc (h.holds hc) (ho.holds hc)).and (append_keeps hc h.safe ho.safe)).mono ?_ ?_
  · rintro _ p ⟨⟨h1, -, -, -, h2⟩, h3, h4, -⟩
    refine ⟨h1.is hc, fun hor => ?_⟩
    split at h2
    · exact h2.1.is hc
    · next hne =>
      rcases hor with h5 | h5 | h5
      · exact absurd (Or.inl h5) hne
      · exact absurd (Or.inr h5) hne
      · subst h5
        refine Holds.is hc ⟨h4 (Or.inr (Or.inr hm)), h2.2.1, fun i hi => absurd hi (by simp)⟩
  · rintro e p ⟨⟨h1, h2, h3, h4, -⟩, -⟩
    exact ⟨h1, h2, h3.is hc, h4.is hc⟩

/-- Both cases: unaligned, and `SmallVec`. -/
example : Is c8 v12 l12 ∧ Is c8 v3 [1, 2, 3] ∧ l12.length % c8.epb ≠ 0 ∧ (append c8 (v12, v3)).1 = .ok () ∧
    c2s.small = true :=
  ⟨v12_is, v3_is, by decide, by decide +kernel, rfl⟩

/-- **C15 is false** for `Vec` storage whenever `a.len()` is a multiple of the number of elements per block (for
example 0) and `b` is not empty: `b` keeps its length but has lost its storage, so every `b.get(i)` inside that
length is undefined behaviour. -/
theorem C15_append_wrong (hc : c.Ok) {s o : EV c.W} {l m : List α} (h : Is c s l) (ho : Is c o m)
    (hv : c.small = false) (hal : l.length % c.epb = 0) :
    Runs (append c (s, o))
      (fun _ p => Is c p.1 (l ++ m) ∧ EV.len c p.2 = m.length ∧
        ∀ i, i < m.length → EV.get c i p.2 = (.error .ub, p.2))
      (fun e p => e = .capacity ∧ Refused c ((l.length + m.length) / c.epb + 1) ∧ Is c p.1 l ∧ Is c p.2 m) := by
  refine (append_holds hc (h.holds hc) (ho.holds hc)).mono ?_ ?_
  · rintro _ p ⟨h1, -, -, -, h2⟩
    rw [if_neg (by simp [hv, hal])] at h2
    refine ⟨h1.is hc, h2.2.1, fun i hi => ?_⟩
    have hlen : len c p.2 = m.length := h2.2.1
    unfold EV.get getRaw
    rw [M.bind_apply, M.read_bind, if_neg (by rw [hlen]; omega), M.bind_apply]
    have : getRawUnchecked c i p.2 = (.error .ub, p.2) := by
      unfold getRawUnchecked rawUnchecked; rw [h2.1]; rfl
    rw [this]
  · rintro e p ⟨h1, h2, h3, h4, -⟩
    exact ⟨h1, h2, h3.is hc, h4.is hc⟩

/-- Appending to an empty vector and then reading from the other one. -/
example : (append c8 (EV.new c8, v3)).1 = .ok () ∧
    EV.get c8 0 (append c8 (EV.new c8, v3)).2.2 = (.error .ub, ⟨⟨[], 1⟩, 3⟩) :=
  ⟨by decide +kernel, by decide +kernel⟩

/-- **C16 (partial)** `split_off(at)`: for `at = len` it returns an empty vector and changes nothing, for `at > len` it
panics. Full claim: for all `at ≤ len` it returns the elements from `at` on; false for every `at < len`, see
`C16_split_off_ub`. -/
theorem C16_split_off_partial (hc : c.Ok) {s : EV c.W} {l : List α} (h : Is c s l) {i : Nat} (hi : l.length ≤ i) :
    if i = l.length then
      Runs (splitOff c i s) (fun o s' => s' = s ∧ Is c s' l ∧ Is c o [])
        (fun e s' => e = .capacity ∧ s' = s ∧ c.alloc.exact 0 = none)
    else splitOff c i s = (.error .index, s) := by
  split
  · next he =>
    subst he
    exact (splitOff_end hc (h.holds hc)).mono (fun _ _ h => ⟨h.2.1, h.1.is hc, h.2.2.1.is hc⟩) (fun _ _ h => h)
  · have hn : s.num = l.length := h.shows.1
    exact splitOff_oob hc s (by omega)

example : Is c8 v12 l12 ∧ (splitOff c8 12 v12).1 = .ok ⟨⟨[], 0⟩, 0⟩ := ⟨v12_is, by decide +kernel⟩

/-- **C16 is false**: every `split_off(at)` with `at < len` writes outside the initialised storage of the new vector
(undefined behaviour), unless allocating that vector already fails. -/
theorem C16_split_off_ub (hc : c.Ok) {s : EV c.W} {l : List α} (h : Is c s l) {i : Nat} (hi : i < l.length) :
    splitOff c i s = (.error .ub, s) ∨ (splitOff c i s = (.error .capacity, s) ∧
      ∃ k, k ≤ c.blocks (l.length - i) ∧ c.alloc.exact k = none) := splitOff_ub hc (h.holds hc) hi

example : match (splitOff c8 2 v12).1 with | .error e => e = .ub | .ok _ => False := by
  have : (splitOff c8 2 v12).1 = .error .ub := rfl
  rw [this]

/-! ## C17, C18 -/

/-- **C17** `retain(f)` calls `f` once per element, in order, and keeps exactly the accepted elements; `f` may be
stateful and may panic. If it panics, the length is kept and the vector holds the accepted elements followed by the
elements that have not been overwritten. -/
theorem C17_retain (hc : c.Ok) (f : Closure τ α Bool) {s : EV c.W} {l : List α} (h : Is c s l) (t : τ) :
    ∃ s', retain c f (s, t) =
        (if (filterSpec f l t).2.2 then .ok () else .error .user, (s', (filterSpec f l t).2.1)) ∧
      Is c s' (if (filterSpec f l t).2.2 then (filterSpec f l t).1
        else (filterSpec f l t).1 ++ l.drop (filterSpec f l t).1.length) := by
  obtain ⟨s', h1, h2, _⟩ := retain_holds hc f (h.holds hc) t
  exact ⟨s', h1, h2.is hc⟩

/-- **C17** for a pure predicate: `List.filter`. -/
theorem C17_retain_pure (hc : c.Ok) (p : α → Bool) {s : EV c.W} {l : List α} (h : Is c s l) :
    ∃ s', retain c (fun x (_ : Unit) => (some (p x), ())) (s, ()) = (.ok (), (s', ())) ∧ Is c s' (l.filter p) := by
  have hf : ∀ l : List α, filterSpec (fun x (_ : Unit) => (some (p x), ())) l () = (l.filter p, (), true) := by
    intro l
    induction l with
    | nil => rfl
    | cons x xs ih =>
      unfold filterSpec
      cases hp : p x <;> simp [ih, hp]
  obtain ⟨s', h1, h2⟩ := C17_retain hc (fun x (_ : Unit) => (some (p x), ())) h ()
  rw [hf] at h1 h2
  exact ⟨s', h1, h2⟩

example : ∃ s', retain c8 (fun x (_ : Unit) => (some (x.val % 2 == 1), ())) (v12, ()) = (.ok (), (s', ())) ∧
    Is c8 s' [1, 3, 5, 7, 1, 3] := C17_retain_pure c8_ok _ v12_is

/-- A predicate that accepts `5`-or-more, counts its calls and panics at the 9th. -/
example : filterSpec (fun (x : Fin 8) (n : Nat) => (if n = 8 then none else some (decide (5 ≤ x.val)), n + 1)) l12 0 =
    ([5, 6, 7], 9, false) := by decide

/-- **C18** `for_each(f)` applies `f` to every element once, in order, and stores the results in place; `f` may be
stateful and may panic. If it panics, the elements before are updated and the others are unchanged. -/
theorem C18_for_each (hc : c.Ok) (f : Closure τ α α) {s : EV c.W} {l : List α} (h : Is c s l) (t : τ) :
    ∃ s', forEach c f (s, t) = (if (mapSpec f l t).2.2 then .ok () else .error .user, (s', (mapSpec f l t).2.1)) ∧
      Is c s' (mapSpec f l t).1 := by
  obtain ⟨s', h1, h2, _⟩ := forEach_holds hc f (h.holds hc) t
  exact ⟨s', h1, h2.is hc⟩

/-- **C18** for a pure function: `List.map`. -/
theorem C18_for_each_pure (hc : c.Ok) (g : α → α) {s : EV c.W} {l : List α} (h : Is c s l) :
    ∃ s', forEach c (fun x (_ : Unit) => (some (g x), ())) (s, ()) = (.ok (), (s', ())) ∧ Is c s' (l.map g) := by
  have hf : ∀ l : List α, mapSpec (fun x (_ : Unit) => (some (g x), ())) l () = (l.map g, (), true) := by
    intro l
    induction l with
    | nil => rfl
    | cons x xs ih => unfold mapSpec; simp [ih]
  obtain ⟨s', h1, h2⟩ := C18_for_each hc (fun x (_ : Unit) => (some (g x), ())) h ()
  rw [hf] at h1 h2
  exact ⟨s', h1, h2⟩

example : ∃ s', forEach c8 (fun x (_ : Unit) => (some (7 - x), ())) (v3, ()) = (.ok (), (s', ())) ∧
    Is c8 s' [6, 5, 4] := C18_for_each_pure c8_ok _ v3_is

end EnumVecModel
