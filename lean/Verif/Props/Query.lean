import Verif.Lemmas.Two
import Verif.Lemmas.Api

/-! # any, all, equality, hashing, clone (C19, C20, C22-C24) -/

namespace EnumVecModel
open EV

variable {α : Type} {c : Inst α}

/-- **C19** `any(x)` is true exactly if `x` is an element. It never fails and does not change the vector; the hypothesis
puts no condition on stale elements, stale blocks and unused bits. (Under the `EnumLike` contract "has the
discriminant of `x`" and "equals `x`" are the same.) -/
theorem C19_any (hc : c.Ok) {s : EV c.W} {l : List α} (h : Is c s l) (x : α) :
    ∃ r, EV.any c x s = (.ok r, s) ∧ (r = true ↔ x ∈ l) := any_holds hc (h.holds hc) x

/-- **C20** `all(x)` is true exactly if every element is `x` (so on an empty vector); otherwise as C19. -/
theorem C20_all (hc : c.Ok) {s : EV c.W} {l : List α} (h : Is c s l) (x : α) :
    ∃ r, EV.all c x s = (.ok r, s) ∧ (r = true ↔ ∀ y ∈ l, y = x) := all_holds hc (h.holds hc) x

/-- A vector whose stale and unused bits are all ones; 7 is no element of it. -/
theorem v3dirty_is : Is c8 ⟨⟨[0xfffffed1#32, 0xffffffff#32], 2⟩, 3⟩ [1, 2, 3] := is_of_check c8_ok (by decide)

example : ∃ r, EV.any c8 7 ⟨⟨[0xfffffed1#32, 0xffffffff#32], 2⟩, 3⟩ = (.ok r, ⟨⟨[0xfffffed1#32, 0xffffffff#32], 2⟩, 3⟩) ∧
    (r = true ↔ (7 : Fin 8) ∈ ([1, 2, 3] : List (Fin 8))) := C19_any c8_ok v3dirty_is 7

/-- **C22** `a == b` is true exactly if the elements are the same in the same order, whatever capacity, storage length,
stale and unused bits are. It never fails. -/
theorem C22_eq (hc : c.Ok) {a b : EV c.W} {l m : List α} (ha : Is c a l) (hb : Is c b m) :
    ∃ r, EV.eq c a b = .ok r ∧ (r = true ↔ l = m) := eq_holds hc (ha.holds hc) (hb.holds hc)

/-- **C22** `==` is an equivalence relation. -/
theorem C22_equiv (hc : c.Ok) {a b d : EV c.W} {l m n : List α} (ha : Is c a l) (hb : Is c b m) (hd : Is c d n) :
    EV.eq c a a = .ok true ∧ (EV.eq c a b = .ok true → EV.eq c b a = .ok true) ∧
    (EV.eq c a b = .ok true → EV.eq c b d = .ok true → EV.eq c a d = .ok true) := by
  have key : ∀ {x y : EV c.W} {p q : List α}, Is c x p → Is c y q → (EV.eq c x y = .ok true ↔ p = q) := by
    intro x y p q hx hy
    obtain ⟨r, h1, h2⟩ := C22_eq hc hx hy
    rw [h1, ← h2]
    exact ⟨fun h => Except.ok.inj h, fun h => by rw [h]⟩
  rw [key ha ha, key ha hb, key hb ha, key hb hd, key ha hd]
  exact ⟨rfl, Eq.symm, Eq.trans⟩

example : ∃ r, EV.eq c8 v3 ⟨⟨[0xfffffed1#32, 0xffffffff#32], 2⟩, 3⟩ = .ok r ∧
    (r = true ↔ ([1, 2, 3] : List (Fin 8)) = [1, 2, 3]) := C22_eq c8_ok v3_is v3dirty_is

/-- **C23** the data fed to the hasher is exactly the sequence of discriminants of the elements. -/
theorem C23_hash (hc : c.Ok) {s : EV c.W} {l : List α} (h : Is c s l) : EV.hash c s = .ok (l.map c.E.toDiscr) :=
  hash_holds hc (h.holds hc)

/-- **C23** vectors that compare equal feed the same data; different contents feed different data. -/
theorem C23_hash_eq (hc : c.Ok) {a b : EV c.W} {l m : List α} (ha : Is c a l) (hb : Is c b m) :
    EV.eq c a b = .ok true ↔ EV.hash c a = EV.hash c b := by
  obtain ⟨r, h1, h2⟩ := C22_eq hc ha hb
  rw [h1, C23_hash hc ha, C23_hash hc hb]
  have e : (Except.ok r : Except Fault Bool) = .ok true ↔ l = m := by
    rw [← h2]; exact ⟨fun h => Except.ok.inj h, fun h => by rw [h]⟩
  rw [e]
  constructor
  · rintro rfl; rfl
  · intro h
    exact List.map_inj_right (fun x y hxy => hc.toDiscr_inj hxy) |>.mp (Except.ok.inj h)

/-- **C23** the length is not fed: the data of `v` is a proper prefix of the data of `v` with one more element, so the
encoding is not prefix-free (unlike that of `Vec`). -/
theorem C23_hash_no_len (hc : c.Ok) {a b : EV c.W} {l : List α} {x : α} (ha : Is c a l) (hb : Is c b (l ++ [x])) :
    ∃ d, EV.hash c a = .ok d ∧ EV.hash c b = .ok (d ++ [c.E.toDiscr x]) :=
  ⟨_, C23_hash hc ha, by rw [C23_hash hc hb, List.map_append]; rfl⟩

example : EV.hash c8 v3 = .ok [1, 2, 3] := C23_hash c8_ok v3_is

/-- **C24** `clone()` holds the same elements and compares equal to the original. (That later operations on one do not
affect the other is by construction of the model, where a vector is a value; for histories see C01.) -/
theorem C24_clone (hc : c.Ok) {s : EV c.W} {l : List α} (h : Is c s l) :
    Res (clone c s) (fun s' => Is c s' l ∧ EV.eq c s s' = .ok true)
      (fun e => e = .capacity ∧ c.alloc.exact s.storage.data.length = none) := by
  refine (clone_holds hc (h.holds hc)).mono (fun s' h' => ?_) (fun _ h => h)
  have hi := h'.1.is hc
  obtain ⟨r, h1, h2⟩ := C22_eq hc h hi
  exact ⟨hi, by rw [h1, h2.mpr rfl]⟩

example : Is c8 v12 l12 ∧ (clone c8 v12).map (fun s => EV.eq c8 v12 s) = .ok (.ok true) :=
  ⟨v12_is, by decide +kernel⟩

end EnumVecModel
