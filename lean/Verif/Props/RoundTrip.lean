import Verif.Props.InsertRemove
import Verif.Lemmas.Num

/-! # `insert(index, x)` and then `remove(index)`, elements as wide as a block (C09) -/

namespace EnumVecModel
open EV

variable {α : Type} {c : Inst α}

/-- **C09 is false** for elements as wide as a block in a debug build: `insert` already panics, having pushed `x`. -/
theorem C09_fullwidth_debug (hc : c.Ok) (hb : c.bits = c.W) (hck : c.build.checked = true) {s : EV c.W} {l : List α}
    (h : Is c s l) {index : Nat} (hi : index ≤ l.length) (x : α) :
    Runs ((do EV.insert c index x; EV.remove c index) s) (fun _ _ => False)
      (fun e s' => e = .overflow ∧ Is c s' (l ++ [x]) ∨
        e = .capacity ∧ s' = s ∧ Refused c (c.blocks (l.length + 1))) :=
  runs_seq (C06_fullwidth_debug hc hb hck h hi x) (fun _ _ h => h) fun _ _ h => h.elim

example : (c200.bits = c200.W ∧ Is c200 w3 [1, 2, 4]) ∧
    ((do EV.insert c200 1 8; EV.remove c200 1) (w3 : EV 8)).1 = .error .overflow := ⟨⟨by decide, w3_is true⟩, by decide +kernel⟩

/-- **C09**, elements as wide as a block in a release build, exactly: the two calls return `x` and restore the vector if and
only if all elements from `index` on are `x` itself. -/
theorem C09_fullwidth_release_iff (hc : c.Ok) (hb : c.bits = c.W) (hck : c.build.checked = false) {s : EV c.W}
    {l : List α} (h : Is c s l) {index : Nat} (hi : index ≤ l.length) (x : α) :
    (∃ e s', (do EV.insert c index x; EV.remove c index) s = (.error e, s') ∧
        e = .capacity ∧ s' = s ∧ Refused c (c.blocks (l.length + 1))) ∨
    ((∃ s', (do EV.insert c index x; EV.remove c index) s = (.ok x, s') ∧ Is c s' l) ↔ ∀ y ∈ l.drop index, y = x) := by
  have key := C06_fullwidth_release_iff hc hb hck h hi x
  rcases hx : EV.insert c index x s with ⟨e | u, s1⟩ <;> rw [hx] at key
  · exact .inl ⟨e, s, by rw [M.bind_error hx]; rw [key.2.1], key.1, rfl, key.2.2⟩
  · right
    obtain ⟨k1, k2, k3, k4⟩ := key
    rw [M.bind_ok hx]
    have hQ : (l.take index ++ x :: l.drop index).length = l.length + 1 := by simp; omega
    refine ⟨fun ⟨s', h1, h2⟩ => ?_, fun hall => ?_⟩
    · -- the numbers stored after `insert`
      have hN : IsNums c s1 (List.zipWith (· ||| ·) ((l ++ [x]).map c.E.toDiscr) ((l.take index ++ x :: l.drop index).map c.E.toDiscr)) := by
        refine ⟨k1, by rw [k2]; simp; omega, fun i d hd => ?_⟩
        rw [List.getElem?_zipWith, List.getElem?_map, List.getElem?_map] at hd
        rcases e1 : (l ++ [x])[i]? with _ | y <;> rw [e1] at hd
        · cases hd
        rcases e2 : (l.take index ++ x :: l.drop index)[i]? with _ | z <;> rw [e2] at hd
        · cases hd
        rw [k3 i y z e1 e2]
        exact congrArg Except.ok (Option.some.inj hd)
      generalize hds : List.zipWith (· ||| ·) ((l ++ [x]).map c.E.toDiscr) ((l.take index ++ x :: l.drop index).map c.E.toDiscr) = ds at hN
      have hat : ∀ (k : Nat) (y z : α), (l ++ [x])[k]? = some y → (l.take index ++ x :: l.drop index)[k]? = some z →
          ds[k]? = some (c.E.toDiscr y ||| c.E.toDiscr z) := by
        intro k y z e1 e2
        rw [← hds, List.getElem?_zipWith, List.getElem?_map, List.getElem?_map, e1, e2]; rfl
      have hlen : ds.length = l.length + 1 := by rw [← hN.len, k2]
      obtain ⟨fl, rfl⟩ := hN.exists
      rw [List.length_map] at hlen
      have hI := hN.is hc.sound
      have hbn : c.nums.bits = c.nums.W := by rw [nums_bits]; exact hb
      obtain ⟨s2, g1, -, -, -, g5, g6, -⟩ := C08_remove_fullwidth_release_iff (nums_ok hc.sound) hbn hck hI (index := index) (by omega)
      rw [nums_rawUnchecked] at g5 g6
      have hd0 : (fl.map Fin.val)[index]? = some (fl[index]'(by omega)).val := by
        rw [List.getElem?_map, List.getElem?_eq_getElem]; rfl
      -- what was read decodes to `x`
      have hfx : c.E.fromDiscr (fl[index]'(by omega)).val = some x ∧ s' = s2 := by
        rcases hfd : c.E.fromDiscr (fl[index]'(by omega)).val with _ | x'
        · exfalso
          have hg := hN.get_some hc.sound hd0
          rw [hfd] at hg
          unfold EV.remove at h1
          rw [M.bind_error hg] at h1
          cases h1
        · have hr := nums_remove hc.sound hN hd0 hfd
          have hp : EV.remove c index s1 = (.ok x', s2) := by rw [hr, g1]; rfl
          rw [hp] at h1
          cases h1
          exact ⟨rfl, rfl⟩
      obtain ⟨hfx, rfl⟩ := hfx
      -- numbers of the elements from `index` on
      have hor : ∀ {a b : Nat}, a ||| b = a → b ||| a = a := fun h => by rw [Nat.or_comm]; exact h
      have hP : ∀ (j : Nat) y, (l.drop index)[j]? = some y → (l ++ [x])[index + j]? = some y ∧ index + j < l.length := by
        intro j y hy
        rw [List.getElem?_drop] at hy
        obtain ⟨hj, -⟩ := List.getElem?_eq_some_iff.mp hy
        rw [List.getElem?_append_left hj]
        exact ⟨hy, hj⟩
      have hQ' : ∀ (j : Nat) y, (x :: l.drop index)[j]? = some y → (l.take index ++ x :: l.drop index)[index + j]? = some y := by
        intro j y hy
        have : (l.take index).length = index := by rw [List.length_take]; omega
        rw [List.getElem?_append_right (by omega), this, Nat.add_sub_cancel_left]; exact hy
      have hPx : (l ++ [x])[l.length]? = some x := by simp
      have hval : ∀ {k d : Nat}, (fl.map Fin.val)[k]? = some d → ∃ z : Fin (2 ^ c.bits), fl[k]? = some z ∧ z.val = d := by
        intro k d hk
        rw [List.getElem?_map] at hk
        rcases hz : fl[k]? with _ | z <;> rw [hz] at hk
        · cases hk
        · exact ⟨z, rfl, Option.some.inj hk⟩
      -- after `remove`, position `index + j` contains all bits of what was at `index + j + 1`, and (for `0 < j`) at `index + j`
      have hsub : ∀ (j : Nat) y d, (l.drop index)[j]? = some y → (fl.map Fin.val)[index + j + 1]? = some d →
          c.E.toDiscr y ||| d = c.E.toDiscr y := by
        intro j y d hy hd
        obtain ⟨z, hz, rfl⟩ := hval hd
        have hraw : EV.rawUnchecked c s' (index + j) = .ok (c.E.toDiscr y) := by
          rw [List.getElem?_drop] at hy
          obtain ⟨hj, rfl⟩ := List.getElem?_eq_some_iff.mp hy
          exact h2.discr _ hj
        rcases j with _ | j
        · have := g5 z hz
          rw [Nat.add_zero] at hraw
          rw [hraw] at this
          have : c.E.toDiscr y = z.val := Except.ok.inj this
          rw [this, Nat.or_self]
        · obtain ⟨hj, -⟩ := List.getElem?_eq_some_iff.mp hz
          have := g6 (index + (j + 1)) fl[index + (j + 1)] z (by omega) (List.getElem?_eq_getElem (by omega)) hz
          rw [hraw] at this
          have : c.E.toDiscr y = (fl[index + (j + 1)]).val ||| z.val := Except.ok.inj this
          rw [this, Nat.or_assoc, Nat.or_self]
      have hsub' : ∀ (j : Nat) y d, (l.drop index)[j + 1]? = some y → (fl.map Fin.val)[index + (j + 1)]? = some d →
          c.E.toDiscr y ||| d = c.E.toDiscr y := by
        intro j y d hy hd
        obtain ⟨z, hz, rfl⟩ := hval hd
        obtain ⟨-, hj⟩ := hP _ _ hy
        have hraw : EV.rawUnchecked c s' (index + (j + 1)) = .ok (c.E.toDiscr y) := by
          rw [List.getElem?_drop] at hy
          obtain ⟨hj, rfl⟩ := List.getElem?_eq_some_iff.mp hy
          exact h2.discr _ hj
        have := g6 (index + (j + 1)) z fl[index + (j + 1) + 1] (by omega) hz (List.getElem?_eq_getElem (by omega))
        rw [hraw] at this
        have : c.E.toDiscr y = z.val ||| (fl[index + (j + 1) + 1]).val := Except.ok.inj this
        rw [this, Nat.or_assoc, Nat.or_comm _ z.val, ← Nat.or_assoc, Nat.or_self]
      -- so neighbours are equal
      have hstep : ∀ (j : Nat) y z, (l.drop index)[j]? = some y → (l.drop index)[j + 1]? = some z → y = z := by
        intro j y z hy hz
        have hd : (fl.map Fin.val)[index + (j + 1)]? = some (c.E.toDiscr z ||| c.E.toDiscr y) :=
          hat _ z y (hP _ _ hz).1 (hQ' (j + 1) y (by simpa using hy))
        have e1 := hsub j y _ hy (by rw [Nat.add_assoc]; exact hd)
        have e2 := hsub' j z _ hz hd
        refine hc.toDiscr_inj ?_
        have e1' : c.E.toDiscr z ||| c.E.toDiscr y = c.E.toDiscr y := by
          rw [Nat.or_comm (c.E.toDiscr z), ← Nat.or_assoc, Nat.or_self] at e1
          rw [Nat.or_comm]; exact e1
        rw [← Nat.or_assoc, Nat.or_self, e1'] at e2
        exact e2
      have hconst : ∀ (j : Nat) y z, (l.drop index)[0]? = some z → (l.drop index)[j]? = some y → y = z := by
        intro j
        induction j with
        | zero => intro y z h1 h2; rw [h1] at h2; exact (Option.some.inj h2).symm
        | succ j ih =>
          intro y z h1 h2
          obtain ⟨hj, -⟩ := List.getElem?_eq_some_iff.mp h2
          have e := List.getElem?_eq_getElem (l := l.drop index) (i := j) (by omega)
          rw [← hstep j _ y e h2]
          exact ih _ z h1 e
      -- and equal to `x`
      rcases hd : l.drop index with _ | ⟨y0, rest⟩
      · exact nofun
      have h0 : (l.drop index)[0]? = some y0 := by rw [hd]; rfl
      have hm : 0 < (l.drop index).length := by rw [hd]; simp
      rw [List.length_drop] at hm
      have hlast : (l.drop index)[l.length - 1 - index]? = some y0 := by
        have e := List.getElem?_eq_getElem (l := l.drop index) (i := l.length - 1 - index) (by rw [List.length_drop]; omega)
        rw [e, hconst _ _ y0 h0 e]
      have hdl : (fl.map Fin.val)[index + (l.length - 1 - index) + 1]? = some (c.E.toDiscr x ||| c.E.toDiscr y0) := by
        have e : index + (l.length - 1 - index) + 1 = l.length := by omega
        rw [e]
        refine hat _ x y0 hPx ?_
        have := hQ' (l.length - 1 - index + 1) y0 (by rw [List.getElem?_cons_succ]; exact hlast)
        have e2 : index + (l.length - 1 - index + 1) = l.length := by omega
        rw [e2] at this; exact this
      have e1 := hsub _ y0 _ hlast hdl
      rw [Nat.or_comm (c.E.toDiscr x), ← Nat.or_assoc, Nat.or_self] at e1
      have hd0' := hat index y0 x (by simpa using (hP 0 y0 h0).1) (by simpa using hQ' 0 x rfl)
      rw [hd0, e1] at hd0'
      rw [Option.some.inj hd0', hc.contract.roundtrip] at hfx
      have hxy : y0 = x := Option.some.inj hfx
      intro y hy
      rw [← hd] at hy
      obtain ⟨j, hj⟩ := List.mem_iff_getElem?.mp hy
      rw [hconst j y y0 h0 hj, hxy]
    · have hI := k4.mpr hall
      obtain ⟨s', g1, -, -, -, -, -, g7⟩ := C08_remove_fullwidth_release_iff hc hb hck hI (index := index) (by omega)
      have ht : (l.take index).length = index := by rw [List.length_take]; omega
      have hel : (l.take index ++ x :: l.drop index)[index]'(by omega) = x := by
        rw [List.getElem_append_right (by omega)]; simp [ht]
      have her : (l.take index ++ x :: l.drop index).eraseIdx index = l := by
        rw [List.eraseIdx_append_of_length_le (by omega), ht, Nat.sub_self, List.eraseIdx_cons_zero, List.take_append_drop]
      rw [hel] at g1
      rw [her] at g7
      refine ⟨s', g1, g7.mpr fun k y z hk hy hz => ?_⟩
      have mem : ∀ {k : Nat} {y}, index < k → (l.take index ++ x :: l.drop index)[k]? = some y → y = x := by
        intro k y hk hy
        rw [List.getElem?_append_right (by omega), ht] at hy
        obtain ⟨j, hj⟩ : ∃ j, k - index = j + 1 := ⟨k - index - 1, by omega⟩
        rw [hj, List.getElem?_cons_succ] at hy
        exact hall y (List.mem_of_getElem? hy)
      rw [mem hk hy, mem (by omega) hz, Nat.or_self]

/-- The hypotheses are met; in the first case the condition holds, in the others it does not: what is removed is wrong, or
what remains, or there is a panic because the OR of two numbers (64 | 136 = 200) is not that of a value. -/
example : (c200r.bits = c200r.W ∧ Is c200r w3 [1, 2, 4]) ∧
    (do EV.insert c200r 1 4; EV.remove c200r 1) (⟨⟨[9#8, 4#8, 4#8], 3⟩, 3⟩ : EV 8) = (.ok 4, ⟨⟨[9#8, 4#8, 4#8, 4#8], 6⟩, 3⟩) ∧
    (do EV.insert c200r 1 8; EV.remove c200r 1) (w3 : EV 8) = (.ok 10, ⟨⟨[1#8, 6#8, 14#8, 12#8], 6⟩, 3⟩) ∧
    ((do EV.insert c200r 0 64; EV.remove c200r 0) (⟨⟨[136#8], 1⟩, 1⟩ : EV 8)).1 = .error .badDiscr :=
  ⟨⟨by decide, w3_is false⟩, by decide +kernel, by decide +kernel, by decide +kernel⟩

end EnumVecModel
