import Verif.Lemmas.Two
import Verif.Lemmas.Query

set_option linter.unusedSectionVars false

/-! # Lemmas on `resize` and the constructors -/

namespace EnumVecModel
open EV

variable {α : Type} {c : Inst α} {strict : Prop} (hc : c.Fits strict)
include hc

omit hc in
theorem resize_holds (hc : c.Ok) {s : EV c.W} {l : List α} (h : Holds c s l) (n : Nat) (x : α) :
    Runs (resize c n x s)
      (fun _ s' => Holds c s' (l.take n ++ List.replicate (n - l.length) x) ∧ (Valid c s → Valid c s') ∧
        (n ≤ l.length + 4 * c.epb → Tidy c s s') ∧ s.storage.cap ≤ s'.storage.cap ∧
        (l.length < n → s'.storage.data.length = n / c.epb + 1) ∧
        (l.length + 4 * c.epb < n → ((n - l.length - (c.epb - l.length % c.epb)) / c.epb) *
          ((n - l.length - (c.epb - l.length % c.epb)) / c.epb) ≤ s'.storage.cap))
      (fun e s' => e = .capacity ∧ (Valid c s → Valid c s') ∧ (n ≤ l.length + 4 * c.epb → Tidy c s s') ∧
        l.length < n ∧ (∃ k, k ≤ n - l.length ∧ Holds c s' (l ++ List.replicate k x)) ∧
        FillRefused c l.length (n - l.length)) := by
  unfold resize
  rw [M.read_bind]
  have hl := h.len_eq
  by_cases hn : n > s.num
  · rw [if_pos (show n > len c s from hn)]
    have hx := extendWithValue_holds hc h x (n - s.num)
    have e1 : len c s = l.length := hl
    rw [hl] at hx hn
    rw [e1]
    have e2 : l.length + (n - l.length) = n := by omega
    rw [e2] at hx
    refine hx.mono ?_ ?_
    · rintro _ s' ⟨h1, h2, h3, h4, h5, h6⟩
      refine ⟨by rw [List.take_of_length_le (by omega)]; exact h1, h2, fun h => h3 (by omega), h4, fun _ => h5,
        fun h => h6 (by omega)⟩
    · rintro e s' ⟨h1, h2, h3, h4, h5⟩
      refine ⟨h1, h2, fun h => h3 (by omega), by omega, h4, ?_⟩
      unfold FillRefused; rw [e2]; exact h5
  · rw [if_neg (show ¬ n > len c s from hn), truncate_eq hc]
    have e : n - l.length = 0 := by omega
    rw [e, List.replicate_zero, List.append_nil]
    have hd : (⟨s.storage, min n s.num⟩ : EV c.W).storage.data = s.storage.data := rfl
    exact ⟨h.take hc n, (Tidy.of_data hd).valid, fun _ => Tidy.of_data hd, Nat.le_refl _, fun h => by omega, fun h => by omega⟩

theorem build_res {s : EV c.W} {m : M (EV c.W) Unit} {Q : Unit → EV c.W → Prop} {E : Fault → EV c.W → Prop}
    (h : Runs (m s) Q E) : Res (build c s m) (fun s' => Q () s') (fun e => ∃ s', E e s') := by
  unfold build
  match hm : m s, h with
  | (.ok _, s'), h => simpa [hm] using h
  | (.error e, s'), h => simp only [hm] at h ⊢; exact ⟨s', h⟩

omit hc in
theorem fromElem_holds (hc : c.Ok) (x : α) (n : Nat) :
    Res (fromElem c x n)
      (fun s => Holds c s (List.replicate n x) ∧ Valid c s ∧ (n ≤ 4 * c.epb → Clean c s) ∧
        s.storage.data.length = n / c.epb + 1 ∧
        (4 * c.epb < n → ((n - c.epb) / c.epb) * ((n - c.epb) / c.epb) ≤ s.storage.cap))
      (fun e => e = .capacity ∧ FillRefused c 0 n) := by
  refine (build_res hc (extendWithValue_holds hc (new_holds hc) x n)).mono ?_ ?_
  · rintro s ⟨h1, h2, h3, h4, h5, h6⟩
    refine ⟨by simpa using h1, h2 (new_valid hc), fun h => (new_clean hc).tidy (h3 h), by simpa using h5,
      fun h => by simpa using h6 h⟩
  · rintro e ⟨s', h1, _, _, _, h5⟩
    exact ⟨h1, by unfold FillRefused; simpa using h5⟩

omit hc in
theorem fromIter_holds (hc : c.Ok) (it : Src α) (hw : ¬ c.AtLimit it.hint) :
    Res (fromIter c it)
      (fun s => it.panics = false ∧ it.hint ≤ it.items.length ∧ Holds c s it.items ∧ Valid c s ∧ Clean c s)
      (fun e => (e = .capacity ∧ Refused c ((max it.hint it.items.length) / c.epb + 1)) ∨
        (e = .user ∧ it.panics = true) ∨
        (it.items.length < it.hint ∧ it.panics = false ∧ e = .unwrapNone)) := by
  refine (build_res hc (extend_holds hc it (new_holds hc) (by simpa using hw))).mono ?_ ?_
  · rintro s ⟨h1, h2, h3, h4, _⟩
    exact ⟨h1, h2, by simpa using h3, h4.valid (new_valid hc), (new_clean hc).tidy h4⟩
  · rintro e ⟨s', _, h | h | h⟩
    · exact Or.inl ⟨h.1, by simpa using h.2.1⟩
    · exact Or.inr (Or.inl ⟨h.1, h.2.1⟩)
    · obtain ⟨h1, h2, _⟩ := h
      cases hp : it.panics
      · rw [hp] at h2; exact Or.inr (Or.inr ⟨h1, rfl, by simpa using h2⟩)
      · rw [hp] at h2; exact Or.inr (Or.inl ⟨by simpa using h2, rfl⟩)

omit hc in
theorem fromVec_holds (hc : c.Ok) (xs : List α) (hw : ¬ c.AtLimit xs.length) :
    Res (fromVec c xs) (fun s => Holds c s xs ∧ Valid c s ∧ Clean c s)
      (fun e => e = .capacity ∧ Refused c (xs.length / c.epb + 1)) := by
  refine (fromIter_holds hc ⟨xs.length, xs, false⟩ hw).mono ?_ ?_
  · rintro s ⟨_, _, h⟩; exact h
  · rintro e (h | h | h)
    · simpa using h
    · exact absurd h.2 (by simp)
    · exact absurd h.1 (by simp)

theorem fromSlice_eq (xs : List α) : fromSlice c xs = fromVec c xs := rfl

end EnumVecModel
