import Verif.Debug
import Verif.Lemmas.Iteration
import Verif.Examples

/-! # C47: `for` loops, adaptive use of iterators, `Debug` output -/

namespace EnumVecModel
open EV

variable {α τ : Type} {c : Inst α}

theorem yields_iter {s : EV c.W} {l : List α} (h : Is c s l) : Yields c s l (EV.iter c s) l := by
  have : len c s = l.length := h.shows.1
  refine ⟨rfl, Nat.zero_le _, Nat.le_of_eq this, ?_⟩
  show l = List.drop 0 (List.take (len c s) l)
  rw [this]; simp

theorem next_yields {s : EV c.W} {l : List α} (hc : c.Ok) (h : Is c s l) {t : It c.W} {r : List α} (ht : Yields c s l t r) :
    ∃ t', EV.next c t = (.ok r.head?, t') ∧ Yields c s l t' r.tail := by
  obtain ⟨t1, h1, h1'⟩ := iterStep_spec hc h ht .next
  refine ⟨t1, ?_, h1'⟩
  simp only [iterStep, M.bind_apply, iterSpec] at h1
  revert h1
  rcases EV.next c t with ⟨a | a, b⟩ <;> simp [M.pure_apply]

theorem forIter_spec {s : EV c.W} {l : List α} (hc : c.Ok) (h : Is c s l) (f : Closure τ α Unit) :
    ∀ (n : Nat) {t : It c.W} {r : List α} (w : τ), Yields c s l t r → r.length < n →
    ∃ t', forIter c f n (t, w) = ((forSpec f r w).1, (t', (forSpec f r w).2)) ∧ t'.v = s
  | 0, t, r, w, ht, hn => absurd hn (by omega)
  | n + 1, t, r, w, ht, hn => by
    obtain ⟨t1, h1, h2⟩ := next_yields hc h ht
    have h1' : onFst (EV.next c) (t, w) = (.ok r.head?, (t1, w)) := by unfold onFst; rw [h1]
    unfold forIter
    rw [M.bind_ok h1']
    cases r with
    | nil => exact ⟨t1, rfl, h2.vec⟩
    | cons x xs =>
      simp only [List.head?_cons, M.bind_apply, call, forSpec]
      rcases f x w with ⟨_ | _, w'⟩
      · exact ⟨t1, rfl, h2.vec⟩
      · obtain ⟨t2, h3, h4⟩ := forIter_spec hc h f n w' h2 (by simp at hn ⊢; omega)
        exact ⟨t2, h3, h4⟩

/-- **C47** (`for x in &v`, `for x in v`). The body sees exactly the elements of `v`, in order, also when it panics on one of them, and
`v` is unchanged. -/
theorem C47_for (hc : c.Ok) {s : EV c.W} {l : List α} (h : Is c s l) (f : Closure τ α Unit) (w : τ) {n : Nat} (hn : l.length < n) :
    ∃ t, forIter c f n (EV.iter c s, w) = ((forSpec f l w).1, (t, (forSpec f l w).2)) ∧ t.v = s :=
  forIter_spec hc h f n w (yields_iter h) hn

/-- **C47** (`{:?}`, `{:#?}` …). Formatting a vector does to any formatter, with any formatting of the elements, exactly what
formatting the `Vec` with the same elements does, and returns the same `fmt::Result` or panic. -/
theorem C47_debug (hc : c.Ok) {s : EV c.W} {l : List α} (h : Is c s l) (B : EV.DebugList τ α) (w : τ) :
    EV.fmt c B s w = vecFmt B l w := by
  have : len c s = l.length := h.shows.1
  obtain ⟨t, h1, -⟩ := C47_for hc h B.entry (B.start w) (n := len c s + 1) (by omega)
  unfold EV.fmt vecFmt
  rw [h1]
  rcases forSpec B.entry l (B.start w) with ⟨_ | _, w'⟩ <;> rfl

/-- **C47** (adaptive use). Every program that uses an iterator of `v` — deciding on each call (`next`, `next_back`, `nth`, `size_hint`)
from all it has seen so far, stopping or panicking whenever it likes, as all provided methods of `Iterator` and
`DoubleEndedIterator` and all adapters do — has the same effect as on the iterator of the `Vec`. -/
theorem C47_client (hc : c.Ok) {s : EV c.W} {l : List α} (h : Is c s l) (p : Client τ α) (n : Nat) (w : τ) :
    ∃ t, drive c p n (EV.iter c s, w) = ((driveSpec p n l w).1, (t, (driveSpec p n l w).2)) ∧ t.v = s := by
  have key : ∀ (n : Nat) {t : It c.W} {r : List α} (w : τ), Yields c s l t r →
      ∃ t', drive c p n (t, w) = ((driveSpec p n r w).1, (t', (driveSpec p n r w).2)) ∧ t'.v = s := by
    intro n
    induction n with
    | zero => intro t r w ht; exact ⟨t, rfl, ht.vec⟩
    | succ n ih =>
      intro t r w ht
      unfold drive
      rw [M.read_bind]
      simp only [driveSpec]
      cases p.ask w with
      | none => exact ⟨t, rfl, ht.vec⟩
      | some o =>
        obtain ⟨t1, h1, h2⟩ := iterStep_spec hc h ht o
        have h1' : onFst (iterStep c o) (t, w) = (.ok (iterSpec r o).1, (t1, w)) := by unfold onFst; rw [h1]
        dsimp only
        rw [M.bind_ok h1']
        simp only [M.bind_apply, call]
        rcases p.got (iterSpec r o).1 w with ⟨_ | _, w'⟩
        · exact ⟨t1, rfl, h2.vec⟩
        · exact ih w' h2
  exact key n w (yields_iter h)

/-! Concrete: the text of `{:?}`. -/

/-- `DebugList` without `#`, on a writer that never fails: `[`, entries separated by `, `, `]`. The state is the text so far and
`has_fields`. -/
def plainList (show_ : α → String) : EV.DebugList (String × Bool) α where
  start w := (w.1 ++ "[", false)
  entry x w := (some (), ((if w.2 then w.1 ++ ", " else w.1) ++ show_ x, true))
  finish w := (true, (w.1 ++ "]", w.2))

theorem forSpec_plain (show_ : α → String) : ∀ (l : List α) (t : String),
    forSpec (plainList show_).entry l (t, true) = (.ok (), (l.foldl (fun a x => a ++ ", " ++ show_ x) t, true))
  | [], t => rfl
  | x :: xs, t => by
    have : forSpec (plainList show_).entry (x :: xs) (t, true) =
      forSpec (plainList show_).entry xs (t ++ ", " ++ show_ x, true) := rfl
    rw [this, forSpec_plain show_ xs]
    rfl

theorem intercalate_foldl (show_ : α → String) : ∀ (l : List α) (a : String),
    l.foldl (fun a x => a ++ ", " ++ show_ x) a = String.join (a :: l.flatMap fun x => [", ", show_ x]) := by
  intro l
  induction l with
  | nil => intro a; simp [String.join]
  | cons x xs ih =>
    intro a
    simp only [List.foldl_cons, List.flatMap_cons, ih]
    simp [String.join, String.append_assoc]

/-- **C47** (text). `format!("{:?}", v)` is `[a, b, c]` with the texts of the elements. -/
theorem C47_text (hc : c.Ok) {s : EV c.W} {x : α} {l : List α} (h : Is c s (x :: l)) (show_ : α → String) :
    EV.fmt c (plainList show_) s ("", false) =
      (.ok true, (String.join (("[" ++ show_ x) :: l.flatMap fun y => [", ", show_ y]) ++ "]", true)) := by
  rw [C47_debug hc h, ← intercalate_foldl]
  unfold vecFmt
  have : forSpec (plainList show_).entry (x :: l) ((plainList show_).start ("", false)) =
      forSpec (plainList show_).entry l ("[" ++ show_ x, true) := rfl
  rw [this, forSpec_plain]
  rfl

/-- **C47** (text, empty vector). -/
theorem C47_text_empty (hc : c.Ok) {s : EV c.W} (h : Is c s []) (show_ : α → String) :
    EV.fmt c (plainList show_) s ("", false) = (.ok true, ("[]", false)) := by
  rw [C47_debug hc h]; rfl

example : Is c8 v3 [1, 2, 3] ∧ (EV.fmt c8 (plainList fun x => toString x.val) v3 ("", false)).2.1 = "[1, 2, 3]" :=
  ⟨v3_is, by decide +kernel⟩

/-- The formatting of an element panics: what was written before is the same as for the `Vec`. -/
example : EV.fmt c8 (⟨id, fun x (w : List Nat) => (if x = 3 then none else some (), w ++ [x.val]), fun w => (true, w)⟩) v12 [] =
    (.error .user, [1, 2, 3]) := by decide +kernel

/-- `rev().take_while(|x| *x != 0).collect()`, as a client. -/
example : (drive c8 (⟨fun w => if w.1 then none else some .nextBack,
    fun o w => (some (), match o with | .item (some x) => if x = 0 then (true, w.2) else (false, w.2 ++ [x]) | _ => (true, w.2))⟩ :
      Client (Bool × List (Fin 8)) (Fin 8)) 100 (EV.iter c8 v12, (false, []))).2.2 = (true, [4, 3, 2, 1]) := by decide +kernel

end EnumVecModel
