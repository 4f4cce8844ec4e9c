import Verif.Lemmas.Remove

set_option linter.unusedSectionVars false

/-! # `for_each`, `retain` -/

namespace EnumVecModel
open EV

variable {α τ : Type}

theorem onFst_apply {σ τ β : Type} (m : M σ β) (a : σ) (b : τ) :
    onFst m (a, b) = ((m a).1, ((m a).2, b)) := rfl

theorem onSnd_apply {σ τ β : Type} (m : M τ β) (a : σ) (b : τ) :
    onSnd m (a, b) = ((m b).1, (a, (m b).2)) := rfl

theorem onFst_eq {σ τ β : Type} {m : M σ β} {a a' : σ} {r : Except Fault β} (h : m a = (r, a')) (b : τ) :
    onFst m (a, b) = (r, (a', b)) := by rw [onFst_apply, h]

theorem onSnd_eq {σ τ β : Type} {m : M τ β} {b b' : τ} {r : Except Fault β} (h : m b = (r, b')) (a : σ) :
    onSnd m (a, b) = (r, (a, b')) := by rw [onSnd_apply, h]

section
variable {c : Inst α} {strict : Prop} (hc : c.Fits strict)
include hc

omit hc in
theorem forEachLoop (hc : c.Ok) (f : Closure τ α α) : ∀ (todo done : List α) (s : EV c.W) (t : τ),
    Holds c s (done ++ todo) →
    ∃ s', loop (forEachStep c f) todo.length done.length () (s, t) =
        (if (mapSpec f todo t).2.2 then .ok () else .error .user, (s', (mapSpec f todo t).2.1)) ∧
      Holds c s' (done ++ (mapSpec f todo t).1) ∧ Tidy c s s' ∧ s'.storage.cap = s.storage.cap := by
  intro todo
  induction todo with
  | nil =>
    intro done s t h
    exact ⟨s, rfl, by simpa [mapSpec] using h, Tidy.refl s, rfl⟩
  | cons x xs ih =>
    intro done s t h
    have hget : EV.get c done.length s = (.ok (some x), s) := by
      rw [get_holds hc h]; simp
    show ∃ s', (forEachStep c f done.length () >>= fun acc => loop (forEachStep c f) xs.length (done.length + 1) acc)
      (s, t) = _ ∧ _
    have hstep : ∀ (r : Option α × τ), f x t = r →
        forEachStep c f done.length () (s, t) =
          match r with
          | (some y, t') => (.ok (), (putRaw c s done.length (c.E.toDiscr y), t'))
          | (none, t') => (.error .user, (s, t')) := by
      intro r hr
      unfold forEachStep
      rw [M.bind_ok (onFst_eq hget t), M.unwrap_some_bind]
      match r, hr with
      | (some y, t'), hr =>
        have hcall : call f x (s, t) = (.ok y, (s, t')) := by unfold call; rw [hr]
        rw [M.bind_ok hcall]
        exact onFst_eq (set_lt hc h y (by simp)).1 t'
      | (none, t'), hr =>
        have hcall : call f x (s, t) = (.error .user, (s, t')) := by unfold call; rw [hr]
        rw [M.bind_error hcall]
    have hs := hstep _ rfl
    rcases hfx : f x t with ⟨r, t'⟩
    rw [hfx] at hs
    cases r with
    | none =>
      refine ⟨s, ?_, ?_, Tidy.refl s, rfl⟩
      · rw [M.bind_error hs]; simp [mapSpec, hfx]
      · simpa [mapSpec, hfx] using h
    | some y =>
      have h' := (set_lt hc h y (i := done.length) (by simp)).2
      have e : (done ++ x :: xs).set done.length y = (done ++ [y]) ++ xs := by
        rw [List.set_append_right _ _ (Nat.le_refl _)]; simp
      rw [e] at h'
      obtain ⟨s', g1, g2, g3, g4⟩ := ih (done ++ [y]) _ t' h'
      rw [M.bind_ok hs]
      refine ⟨s', ?_, ?_, ?_, by rw [g4]; rfl⟩
      · have el : (done ++ [y]).length = done.length + 1 := by simp
        rw [el] at g1
        rw [g1]; simp [mapSpec, hfx]
      · simpa [mapSpec, hfx] using g2
      · refine Tidy.trans (putRaw_tidy hc ?_ (hc.contract.lt y)) g3
        have := h.cover
        have hl := h.len_eq
        simp at hl; omega

omit hc in
theorem forEach_holds (hc : c.Ok) (f : Closure τ α α) {s : EV c.W} {l : List α} (h : Holds c s l) (t : τ) :
    ∃ s', forEach c f (s, t) = (if (mapSpec f l t).2.2 then .ok () else .error .user, (s', (mapSpec f l t).2.1)) ∧
      Holds c s' (mapSpec f l t).1 ∧ Tidy c s s' ∧ s'.storage.cap = s.storage.cap := by
  unfold forEach
  rw [M.read_bind]
  have := forEachLoop hc f l [] s t (by simpa using h)
  simp only [List.nil_append, List.length_nil] at this
  simp only [len, h.len_eq]
  exact this

omit hc in
theorem retainLoop (hc : c.Ok) (f : Closure τ α Bool) (l : List α) : ∀ (todo pre kept : List α) (s : EV c.W) (t : τ),
    l = pre ++ todo → kept.length ≤ pre.length →
    Holds c s (kept ++ l.drop kept.length) →
    ∃ s', loop (retainStep c f) todo.length pre.length kept.length (s, t) =
        (if (filterSpec f todo t).2.2 then .ok (kept ++ (filterSpec f todo t).1).length else .error .user,
          (s', (filterSpec f todo t).2.1)) ∧
      Holds c s' ((kept ++ (filterSpec f todo t).1) ++ l.drop (kept ++ (filterSpec f todo t).1).length) ∧
      (kept ++ (filterSpec f todo t).1).length ≤ l.length ∧
      Tidy c s s' ∧ s'.storage.cap = s.storage.cap := by
  intro todo
  induction todo with
  | nil =>
    intro pre kept s t hl hk h
    refine ⟨s, ?_, by simpa [filterSpec] using h, ?_, Tidy.refl s, rfl⟩
    · simp [filterSpec, loop, M.pure_apply]
    · rw [hl]; simpa [filterSpec] using hk
  | cons x xs ih =>
    intro pre kept s t hl hk h
    have hxg : (kept ++ l.drop kept.length)[pre.length]? = some x := by
      rw [List.getElem?_append_right hk, List.getElem?_drop]
      have : kept.length + (pre.length - kept.length) = pre.length := by omega
      rw [this, hl]; simp
    have hget : EV.get c pre.length s = (.ok (some x), s) := by
      rw [get_holds hc h, hxg]
    have hplt : kept.length < (kept ++ l.drop kept.length).length := by
      rw [hl]; simp; omega
    have hstep : ∀ (r : Option Bool × τ), f x t = r →
        retainStep c f pre.length kept.length (s, t) =
          match r with
          | (some true, t') => (.ok (kept.length + 1), (putRaw c s kept.length (c.E.toDiscr x), t'))
          | (some false, t') => (.ok kept.length, (s, t'))
          | (none, t') => (.error .user, (s, t')) := by
      intro r hr
      unfold retainStep
      rw [M.bind_ok (onFst_eq hget t), M.unwrap_some_bind]
      match r, hr with
      | (some true, t'), hr =>
        have hcall : call f x (s, t) = (.ok true, (s, t')) := by unfold call; rw [hr]
        rw [M.bind_ok hcall, if_pos rfl, M.bind_ok (onFst_eq (set_lt hc h x hplt).1 t')]; rfl
      | (some false, t'), hr =>
        have hcall : call f x (s, t) = (.ok false, (s, t')) := by unfold call; rw [hr]
        rw [M.bind_ok hcall, if_neg (by simp)]; rfl
      | (none, t'), hr =>
        have hcall : call f x (s, t) = (.error .user, (s, t')) := by unfold call; rw [hr]
        rw [M.bind_error hcall]
    show ∃ s', (retainStep c f pre.length kept.length >>= fun acc =>
      loop (retainStep c f) xs.length (pre.length + 1) acc) (s, t) = _ ∧ _
    have hs := hstep _ rfl
    have hl' : l = (pre ++ [x]) ++ xs := by rw [hl]; simp
    rcases hfx : f x t with ⟨r, t'⟩
    rw [hfx] at hs
    match r, hfx, hs with
    | none, hfx, hs =>
      refine ⟨s, ?_, by simpa [filterSpec, hfx] using h, ?_, Tidy.refl s, rfl⟩
      · rw [M.bind_error hs]; simp [filterSpec, hfx]
      · rw [hl]; simp [filterSpec, hfx]; omega
    | some false, hfx, hs =>
      obtain ⟨s', g1, g2, g3, g4, g5⟩ := ih (pre ++ [x]) kept s t' hl' (by simp; omega) h
      rw [M.bind_ok hs]
      have e : filterSpec f (x :: xs) t = filterSpec f xs t' := by simp [filterSpec, hfx]
      have el : (pre ++ [x]).length = pre.length + 1 := by simp
      rw [el] at g1
      rw [e]
      exact ⟨s', g1, g2, g3, g4, g5⟩
    | some true, hfx, hs =>
      have h' := (set_lt hc h x hplt).2
      have e0 : (kept ++ l.drop kept.length).set kept.length x = (kept ++ [x]) ++ l.drop (kept ++ [x]).length := by
        rw [List.set_append_right _ _ (Nat.le_refl _)]
        have hlt : kept.length < l.length := by rw [hl]; simp; omega
        rw [List.drop_eq_getElem_cons hlt, Nat.sub_self, List.set_cons_zero]
        simp
      rw [e0] at h'
      obtain ⟨s', g1, g2, g3, g4, g5⟩ := ih (pre ++ [x]) (kept ++ [x]) _ t' hl' (by simp; omega) h'
      rw [M.bind_ok hs]
      have e1 : (filterSpec f (x :: xs) t).1 = x :: (filterSpec f xs t').1 := by simp [filterSpec, hfx]
      have e2 : (filterSpec f (x :: xs) t).2 = (filterSpec f xs t').2 := by simp [filterSpec, hfx]
      have e3 : kept ++ (filterSpec f (x :: xs) t).1 = (kept ++ [x]) ++ (filterSpec f xs t').1 := by rw [e1]; simp
      have el : (pre ++ [x]).length = pre.length + 1 := by simp
      have ek : (kept ++ [x]).length = kept.length + 1 := by simp
      rw [el] at g1
      rw [e2, e3]
      refine ⟨s', ?_, g2, g3, ?_, by rw [g5]; rfl⟩
      · rw [ek] at g1; exact g1
      · refine Tidy.trans (putRaw_tidy hc ?_ (hc.contract.lt x)) g4
        have := h.cover
        have := h.len_eq
        omega

omit hc in
theorem retain_holds (hc : c.Ok) (f : Closure τ α Bool) {s : EV c.W} {l : List α} (h : Holds c s l) (t : τ) :
    ∃ s', retain c f (s, t) = (if (filterSpec f l t).2.2 then .ok () else .error .user, (s', (filterSpec f l t).2.1)) ∧
      Holds c s' (if (filterSpec f l t).2.2 then (filterSpec f l t).1
        else (filterSpec f l t).1 ++ l.drop (filterSpec f l t).1.length) ∧
      Tidy c s s' ∧ s'.storage.cap = s.storage.cap := by
  unfold retain
  rw [M.read_bind]
  obtain ⟨s', g1, g2, g3, g4, g5⟩ := retainLoop hc f l l [] [] s t rfl (Nat.le_refl _) (by simpa using h)
  simp only [List.nil_append, List.length_nil] at g1 g2 g3
  simp only [len, h.len_eq]
  cases hok : (filterSpec f l t).2.2 with
  | false =>
    rw [hok] at g1
    rw [M.bind_error g1]
    exact ⟨s', by simp, by simpa using g2, g4, g5⟩
  | true =>
    rw [hok] at g1
    rw [M.bind_ok g1]
    refine ⟨{ s' with num := (filterSpec f l t).1.length }, rfl, ?_, g4.trans (Tidy.of_data rfl), g5⟩
    have := g2.take hc (filterSpec f l t).1.length
    rw [g2.len_eq, Nat.min_eq_left (by simp)] at this
    simpa using this

end
end EnumVecModel
