import Verif.Spec

/-! # Reasoning about `M`: postconditions for normal and faulty ends -/

namespace EnumVecModel

variable {σ τ α β : Type}

@[simp] theorem runs_ok (a : α) (s : σ) (Q : α → σ → Prop) (E : Fault → σ → Prop) :
    Runs (.ok a, s) Q E ↔ Q a s := Iff.rfl

@[simp] theorem runs_error (e : Fault) (s : σ) (Q : α → σ → Prop) (E : Fault → σ → Prop) :
    Runs (.error e, s) Q E ↔ E e s := Iff.rfl

theorem Runs.mono {r : Except Fault α × σ} {Q Q' : α → σ → Prop} {E E' : Fault → σ → Prop}
    (h : Runs r Q E) (hQ : ∀ a s, Q a s → Q' a s) (hE : ∀ e s, E e s → E' e s) : Runs r Q' E' := by
  match r, h with
  | (.ok a, s), h => exact hQ a s h
  | (.error e, s), h => exact hE e s h

theorem Runs.and {r : Except Fault α × σ} {Q Q' : α → σ → Prop} {E E' : Fault → σ → Prop}
    (h : Runs r Q E) (h' : Runs r Q' E') : Runs r (fun a s => Q a s ∧ Q' a s) (fun e s => E e s ∧ E' e s) := by
  match r, h, h' with
  | (.ok a, s), h, h' => exact ⟨h, h'⟩
  | (.error e, s), h, h' => exact ⟨h, h'⟩

theorem runs_bind {m : M σ α} {f : α → M σ β} {s : σ} {Q : β → σ → Prop} {E : Fault → σ → Prop}
    (h : Runs (m s) (fun a s' => Runs (f a s') Q E) E) : Runs ((m >>= f) s) Q E := by
  rw [M.bind_apply]
  match hm : m s, h with
  | (.ok a, s'), h => simpa [hm] using h
  | (.error e, s'), h => simpa [hm] using h

theorem runs_seq {m : M σ α} {f : α → M σ β} {s : σ} {P : α → σ → Prop} {Q : β → σ → Prop}
    {E' E : Fault → σ → Prop}
    (h : Runs (m s) P E') (hE : ∀ e s, E' e s → E e s) (hf : ∀ a s', P a s' → Runs (f a s') Q E) :
    Runs ((m >>= f) s) Q E :=
  runs_bind (h.mono hf hE)

/-- Loop rule. `P i acc s` holds before iteration `i`. -/
theorem runs_loop {body : Nat → β → M σ β} {E : Fault → σ → Prop} {stop : Nat}
    (P : Nat → β → σ → Prop)
    (hstep : ∀ i acc s, i < stop → P i acc s → Runs (body i acc s) (P (i + 1)) E) :
    ∀ n i acc s, i + n = stop → P i acc s → Runs (loop body n i acc s) (P stop) E := by
  intro n
  induction n with
  | zero =>
    intro i acc s hi h
    simp only [Nat.add_zero] at hi
    subst hi
    exact h
  | succ n ih =>
    intro i acc s hi h
    show Runs ((body i acc >>= fun acc => loop body n (i + 1) acc) s) _ _
    refine runs_seq (hstep i acc s (by omega) h) (fun _ _ h => h) ?_
    intro acc' s' h'
    exact ih (i + 1) acc' s' (by omega) h'

end EnumVecModel
