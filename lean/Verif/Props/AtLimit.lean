import Verif.Props.Live
import Verif.Props.Capacity
import Verif.Lemmas.Ub

set_option linter.unusedSectionVars false

/-!
# Asking for room for `usize::MAX` elements (C66)

`reserve` computes `desired_cap / ELEMS_PER_BLOCK + 1` blocks (mod.rs:144). With one element per block and `desired_cap = usize::MAX` the `+ 1`
overflows: a panic in debug builds, 0 blocks in release builds.
-/

namespace EnumVecModel
open EV

variable {α σ : Type} {c : Inst α}

/-- The configuration of the bug: a release build, one element per block, and `n` is `usize::MAX`. -/
def Wraps (c : Inst α) (n : Nat) : Prop := c.build.checked = false ∧ c.W / c.bits = 1 ∧ n = c.build.usizeLim - 1

theorem wraps_iff {n : Nat} : Wraps c n ↔ c.Drops n := by
  have := c.build.lt_usizeLim (n := 3) (by omega)
  exact ⟨fun h => ⟨h.1, h.2.1, by have := h.2.2; omega⟩, fun h => ⟨h.1, h.2.1, by have := h.2.2; omega⟩⟩

/-- `reserve(k)` did what it promises: either it returned and there is room for `k` more elements, or it panicked; in both cases all elements are
what they were. -/
def MadeRoom (c : Inst α) (l : List α) (k : Nat) (r : Except Fault Unit × EV c.W) : Prop :=
  Is c r.2 l ∧ r.1 ≠ .error .ub ∧ (r.1 = .ok () → l.length + k ≤ capacity c r.2)

/-- **C66 (partial)** `reserve(k)`, for every `k`: it makes room or panics, except in the configuration of the bug.
Missing: that configuration, in which it is false: `C66_reserve_iff`. -/
theorem C66_reserve_partial (hc : c.Ok) {s : EV c.W} {l : List α} (h : Is c s l) (k : Nat) (hw : ¬ Wraps c (l.length + k)) :
    MadeRoom c l k (reserve c k s) := by
  have hl := (h.holds hc).len_eq
  by_cases ha : c.AtLimit (l.length + k)
  · rw [← hl] at ha hw
    rw [reserve_limit_debug (fun hd => hw (wraps_iff.mpr hd)) ha]
    exact ⟨h, nofun, nofun⟩
  · have := C25_reserve hc h k ha
    rcases hx : reserve c k s with ⟨e | b, s'⟩ <;> rw [hx] at this
    · obtain ⟨rfl, rfl, -⟩ := this
      exact ⟨h, nofun, nofun⟩
    · exact ⟨this.1, nofun, fun _ => this.2.1⟩

/-- **C66** In the configuration of the bug but a debug build, `reserve` panics with an overflow and changes nothing. -/
theorem C66_reserve_debug (hck : c.build.checked = true) (h1 : c.W / c.bits = 1) {s : EV c.W} {k : Nat} (hk : len c s + k = c.build.usizeLim - 1) :
    reserve c k s = (.error .overflow, s) := by
  have := c.build.lt_usizeLim (n := 3) (by omega)
  exact reserve_limit_debug (fun h => by rw [h.1] at hck; cases hck) ⟨h1, by show len c s + k + 1 = _; omega⟩

theorem get_empty (hc : c.Sound) {s : EV c.W} (h : s.storage.data = []) {i : Nat} (hi : i < len c s) : EV.get c i s = (.error .ub, s) := by
  rw [get_any hc, if_pos (show i < s.num from hi), if_neg]
  show ¬ i < s.storage.data.length * c.epb
  simp [h]

/-- **C66** In the configuration of the bug `reserve` always returns, and keeps the length, but drops every block: from then on `get` of every element
is undefined behaviour. -/
theorem C66_reserve_release (hc : c.Sound) {s : EV c.W} {k : Nat} (hw : Wraps c (len c s + k)) :
    ∃ s', reserve c k s = (.ok (), s') ∧ len c s' = len c s ∧ s'.storage.data = [] ∧ s'.storage.cap = s.storage.cap ∧
      ∀ i, i < len c s → (EV.get c i s').1 = .error .ub := by
  have hd := wraps_iff.mp hw
  have hs : ({ s with storage := s.storage.truncate 0 } : EV c.W).storage.data = [] := by simp [RVec.truncate]
  refine ⟨{ s with storage := s.storage.truncate 0 }, ?_, rfl, hs, rfl, fun i hi => ?_⟩
  · have := reserve_limit (s := s) (k := k) hd.2
    rw [hd.1] at this
    exact this
  · rw [get_empty hc hs hi]

/-- **C66** Exactly when `reserve` does what it promises. -/
theorem C66_reserve_iff (hc : c.Ok) {s : EV c.W} {l : List α} (h : Is c s l) (k : Nat) :
    MadeRoom c l k (reserve c k s) ↔ ¬ Wraps c (l.length + k) := by
  refine ⟨fun hm hw => ?_, C66_reserve_partial hc h k⟩
  have hl : len c s = l.length := (h.holds hc).len_eq
  rw [← hl] at hw
  obtain ⟨s', e, -, -, h4, -⟩ := C66_reserve_release hc.sound hw
  rw [e] at hm
  have h1 : len c s + k ≤ capacity c s' := by rw [hl]; exact hm.2.2 rfl
  rw [capacity_eq hc hm.1.safe] at h1
  have h2 := hm.1.safe.capBound
  have h3 := hw.2.2
  rw [Nat.add_mul] at h2
  omega

/-- **C66** Exactly when `extend` is undefined behaviour, for every iterator (whatever its hint, items and end): in the configuration of the bug, and
the iterator yields an item. -/
theorem C66_extend_iff (hc : c.Sound) {s : EV c.W} (h : Safe c s) (it : Src α) :
    (extend c it s).1 = .error .ub ↔ Wraps c (len c s + it.hint) ∧ it.items ≠ [] := by
  rw [wraps_iff]
  constructor
  · intro hu
    exact ((extend_ub hc (h.real hc) it).2 (by rw [hu]; nofun)).mp hu
  · rintro ⟨hd, hi⟩
    rw [extend_limit_ub hd.2 hd.1 hi (h.hint_pos hc hd.2)]

/-- **C66** The same for `collect`. -/
theorem C66_collect_iff (hc : c.Sound) (it : Src α) : fromIter c it = .error .ub ↔ Wraps c it.hint ∧ it.items ≠ [] := by
  have := C66_extend_iff hc (new_safe hc) it
  rw [show len c (new c : EV c.W) = 0 from rfl, Nat.zero_add] at this
  rw [← this]
  unfold fromIter build
  rcases extend c it (new c) with ⟨e | b, s⟩
  · exact ⟨fun h => congrArg _ (Except.error.inj h), fun h => congrArg _ (Except.error.inj h)⟩
  · exact iff_of_false nofun nofun

/-- **C66 (partial)** `extend` outside that configuration, for every iterator: no undefined behaviour, the vector stays well-formed and the old elements
are where they were, also if it panics. Missing: the configuration of the bug. -/
theorem C66_extend_partial (hc : c.Ok) {s : EV c.W} {l : List α} (h : Is c s l) (it : Src α) (hw : ¬ Wraps c (l.length + it.hint)) :
    (extend c it s).1 ≠ .error .ub ∧ Safe c (extend c it s).2 ∧
      ∀ i (hi : i < l.length), EV.get c i (extend c it s).2 = (.ok (some l[i]), (extend c it s).2) := by
  have hl : len c s = l.length := (h.holds hc).len_eq
  have hd : ¬ c.Drops (s.num + it.hint) := fun hd => hw (by rw [← hl]; exact wraps_iff.mpr hd)
  refine ⟨fun hu => hw (by rw [← hl]; exact ((C66_extend_iff hc.sound h.safe it).mp hu).1), ?_, ?_⟩
  · have := extend_keeps hc it h.safe hd
    rcases hx : extend c it s with ⟨e | b, s'⟩ <;> rw [hx] at this
    · exact this.2
    · exact this
  by_cases ha : c.AtLimit (s.num + it.hint)
  · have hck : c.build.checked = true := by
      cases hck : c.build.checked
      · exact absurd ⟨hck, ha⟩ hd
      · rfl
    rw [extend_limit_debug ha hck]
    intro i hi
    rw [h.shows.2 i, List.getElem?_eq_getElem hi]
  have ha : ¬ c.AtLimit (l.length + it.hint) := fun h' => ha (by rw [← hl] at h'; exact h')
  by_cases hbad : it.panics = true ∨ it.items.length < it.hint
  · have := C14_extend_panics hc h it hbad ha
    rcases hx : extend c it s with ⟨e | b, s'⟩ <;> rw [hx] at this
    · obtain ⟨-, -, ⟨k, -, -, h4, -⟩, -⟩ := this
      intro i hi
      have := h4 i (by rw [List.length_append]; omega)
      rwa [List.getElem_append_left hi] at this
    · exact this.elim
  · obtain ⟨hint, items, p⟩ := it
    obtain rfl : p = false := by
      cases p
      · rfl
      · exact absurd (Or.inl rfl) hbad
    have := C13_extend hc h items hint (Nat.le_of_not_lt fun hlt => hbad (Or.inr hlt)) ha
    have key : ∀ {s' : EV c.W} {l' : List α}, Is c s' (l ++ l') → ∀ i (hi : i < l.length), EV.get c i s' = (.ok (some l[i]), s') :=
      fun {s' l'} hs i hi => by rw [hs.shows.2 i, List.getElem?_append_left hi, List.getElem?_eq_getElem hi]
    rcases hx : extend c ⟨hint, items, false⟩ s with ⟨e | b, s'⟩ <;> rw [hx] at this
    · obtain ⟨-, -, k, -, h4⟩ := this
      exact key h4
    · exact key this

/-- **C66** If the iterator yields nothing, in the configuration of the bug, `extend` panics, and leaves a vector that says it has `usize::MAX` elements
but has no storage: from then on `get` of any index is undefined behaviour. -/
theorem C66_extend_none (hc : c.Sound) {s : EV c.W} (h : Safe c s) {it : Src α} (hi : it.items = []) (hw : Wraps c (len c s + it.hint)) :
    ∃ e s', extend c it s = (.error e, s') ∧ (e = .user ∨ e = .unwrapNone) ∧ len c s' = c.build.usizeLim - 1 ∧ s'.storage.data = [] ∧
      ∀ i, i < c.build.usizeLim - 1 → (EV.get c i s').1 = .error .ub := by
  have hd := wraps_iff.mp hw
  have hs : (⟨s.storage.truncate 0, s.num + it.hint⟩ : EV c.W).storage.data = [] := by simp [RVec.truncate]
  refine ⟨_, _, extend_limit_nil hd.2 hd.1 hi (h.hint_pos hc hd.2), by split <;> simp, hw.2.2, hs, fun i hi => ?_⟩
  rw [get_empty hc hs (by show i < s.num + it.hint; have := hw.2.2; unfold len at this; omega)]

/-- **C66** Live iterators: whatever the iterator does later, `extend` is undefined behaviour as soon as the iterator has returned its first item. -/
theorem C66_extend_live (hc : c.Sound) {s : EV c.W} (h : Safe c s) (I : Source σ α) {t t' : σ} {x : α} {hint : Nat} (hh : I.hint t = .ok hint)
    (hn : I.next t = (.ok (some x), t')) (hw : Wraps c (len c s + hint)) {n : Nat} (h1 : 0 < n) :
    (extendLive c I n (s, t)).1 = .error .ub := by
  have hd := wraps_iff.mp hw
  obtain ⟨t'', e⟩ := extendLive_starts I (.cons hn .nil) hh (n := n) h1 (e := .ub) nofun
    (extend_limit_ub (it := ⟨hint, [x], true⟩) hd.2 hd.1 nofun (h.hint_pos hc hd.2))
  rw [e]

/-- `std::iter::repeat(x)`: it yields `x` for ever, and its `size_hint` is `(usize::MAX, None)`. -/
def repeatSource (c : Inst α) (x : α) : Source Unit α := ⟨fun u => (.ok (some x), u), fun _ => .ok (c.build.usizeLim - 1)⟩

/-- **C66** `std::iter::repeat(x).collect()`, with any element type, block width, build and allocator: undefined behaviour exactly in release builds
with one element per block, in all others a panic. -/
theorem C66_repeat (hc : c.Ok) (x : α) : ∃ n, ∀ m, n ≤ m →
    collectLive c (repeatSource c x) m () =
      .error (if c.W / c.bits = 1 then (if c.build.checked then .overflow else .ub) else .capacity) := by
  have hU := c.build.lt_usizeLim (n := 3) (by omega)
  have hE : Endless (repeatSource c x) () fun _ => x := ⟨fun _ => (), rfl, fun _ => rfl⟩
  by_cases ha : c.AtLimit (c.build.usizeLim - 1)
  · refine ⟨1, fun m hm => ?_⟩
    rw [if_pos (show c.W / c.bits = 1 from ha.1)]
    have h0 : c.AtLimit ((new c : EV c.W).num + (c.build.usizeLim - 1)) := by rw [show (new c : EV c.W).num = 0 from rfl, Nat.zero_add]; exact ha
    have key : ∀ {e : Fault} {s' : EV c.W}, e ≠ .user → extend c ⟨c.build.usizeLim - 1, [x], true⟩ (new c) = (.error e, s') →
        collectLive c (repeatSource c x) m () = .error e := fun he hx => by
      obtain ⟨t', h3⟩ := extendLive_starts (repeatSource c x) (t := ()) (.cons rfl .nil) rfl (n := m) hm he hx
      unfold collectLive
      rw [h3]
    cases hck : c.build.checked with
    | true => exact key nofun (extend_limit_debug (it := ⟨c.build.usizeLim - 1, [x], true⟩) h0 hck)
    | false => exact key nofun (extend_limit_ub (it := ⟨c.build.usizeLim - 1, [x], true⟩) h0 hck nofun (by show 0 < _ - 1; omega))
  · obtain ⟨n, s', h1, -⟩ := C49_endless hc ((new_holds hc).is hc) (repeatSource c x) hE rfl (by rwa [List.length_nil, Nat.zero_add])
    refine ⟨n, fun m hm => ?_⟩
    obtain ⟨t', h2⟩ := h1 m hm
    rw [if_neg fun h : c.W / c.bits = 1 => ha ⟨h, by omega⟩]
    unfold collectLive
    rw [h2]

/-! ## Concrete cases: 200 variants in 8-bit blocks, debug (`c200`) and release (`c200r`) -/

/-- [1, 2, 3] -/
def lim3 : EV 8 := ⟨⟨[1#8, 2#8, 3#8], 4⟩, 3⟩

theorem lim3_is : Is c200r lim3 [1, 2, 3] := is_of_check c200r_ok (by decide)

theorem lim3_wraps : Wraps c200r (len c200r lim3 + (2 ^ 64 - 4)) := ⟨rfl, by decide, by decide⟩

example : ∃ s', reserve c200r (2 ^ 64 - 4) lim3 = (.ok (), s') ∧ len c200r s' = 3 ∧ s'.storage.data = [] ∧ (EV.get c200r 2 s').1 = .error .ub := by
  obtain ⟨s', h1, h2, h3, -, h5⟩ := C66_reserve_release c200r_ok.sound lim3_wraps
  exact ⟨s', h1, h2, h3, h5 2 (by decide)⟩

example : ¬ MadeRoom c200r [1, 2, 3] (2 ^ 64 - 4) (reserve c200r (2 ^ 64 - 4) lim3) :=
  fun h => (C66_reserve_iff c200r_ok lim3_is (2 ^ 64 - 4)).mp h ⟨rfl, by decide, by decide⟩

/-- One less is refused by the allocator, and nothing happens. -/
example : MadeRoom c200r [1, 2, 3] (2 ^ 64 - 5) (reserve c200r (2 ^ 64 - 5) lim3) ∧ (reserve c200r (2 ^ 64 - 5) lim3).1 = .error .capacity :=
  ⟨(C66_reserve_iff c200r_ok lim3_is (2 ^ 64 - 5)).mpr fun h => absurd h.2.2 (by decide), by decide +kernel⟩

example : reserve c200 (2 ^ 64 - 4) lim3 = (.error .overflow, lim3) := C66_reserve_debug rfl (by decide) (by decide)

example : (extend c200r ⟨2 ^ 64 - 4, [7], false⟩ lim3).1 = .error .ub :=
  (C66_extend_iff c200r_ok.sound lim3_is.safe ⟨2 ^ 64 - 4, [7], false⟩).mpr ⟨lim3_wraps, nofun⟩

example := C66_extend_partial c200r_ok lim3_is ⟨2 ^ 64 - 5, [7], false⟩ fun h => absurd h.2.2 (by decide)

example : ∃ e s', extend c200r ⟨2 ^ 64 - 4, [], true⟩ lim3 = (.error e, s') ∧ (EV.get c200r (2 ^ 63) s').1 = .error .ub := by
  obtain ⟨e, s', h1, -, -, -, h5⟩ := C66_extend_none c200r_ok.sound lim3_is.safe (it := ⟨2 ^ 64 - 4, [], true⟩) rfl lim3_wraps
  exact ⟨e, s', h1, h5 _ (by decide)⟩

example : fromIter c200r ⟨2 ^ 64 - 1, [7], false⟩ = .error .ub :=
  (C66_collect_iff c200r_ok.sound ⟨2 ^ 64 - 1, [7], false⟩).mpr ⟨⟨rfl, by decide, by decide⟩, nofun⟩

example : ∃ n, ∀ m, n ≤ m → collectLive c200r (repeatSource c200r (7 : Fin 200)) m () = .error .ub := C66_repeat c200r_ok 7
example : ∃ n, ∀ m, n ≤ m → collectLive c200 (repeatSource c200 (7 : Fin 200)) m () = .error .overflow := C66_repeat c200_ok 7
example : ∃ n, ∀ m, n ≤ m → collectLive c8 (repeatSource c8 (7 : Fin 8)) m () = .error .capacity := C66_repeat c8_ok 7

end EnumVecModel
