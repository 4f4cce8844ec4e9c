import Verif.Live
import Verif.Props.Bulk
import Verif.Props.Debug
import Verif.Lemmas.Values

/-! # C49: `extend` and `collect` from live iterators -/

namespace EnumVecModel
open EV

variable {α σ : Type} {c : Inst α}

/-- The first items of the iterator, in any case. -/
inductive Starts (I : Source σ α) : σ → List α → σ → Prop
  | nil {t : σ} : Starts I t [] t
  | cons {t t' t'' : σ} {x : α} {xs : List α} : I.next t = (.ok (some x), t') → Starts I t' xs t'' → Starts I t (x :: xs) t''

theorem liveHinted_eq (I : Source σ α) {p : Bool} : ∀ (n pos : Nat) (items : List α) (s : EV c.W) (t : σ), Drains I t items p →
    match extendHinted c p n pos items s with
    | (.ok rest, s') => ∃ t', liveHinted c I n pos (s, t) = (.ok (), (s', t')) ∧ Drains I t' rest p
    | (.error e, s') => ∃ t', liveHinted c I n pos (s, t) = (.error e, (s', t'))
  | 0, pos, items, s, t, h => ⟨t, rfl, h⟩
  | n + 1, pos, [], s, t, h => by
    cases h with
    | done h => 
      rename_i t'
      refine ⟨t', ?_⟩
      show M.bind (onSnd I.next) _ (s, t) = _
      simp only [M.bind, onSnd, h]
      rfl
    | panic h =>
      rename_i t'
      refine ⟨t', ?_⟩
      show M.bind (onSnd I.next) _ (s, t) = _
      simp only [M.bind, onSnd, h]
      rfl
  | n + 1, pos, x :: items, s, t, h => by
    cases h with
    | item h1 h2 =>
      rename_i t'
      have e1 : liveHinted c I (n + 1) pos (s, t) = M.bind (onFst (EV.set c pos x)) (fun _ => liveHinted c I n (pos + 1)) (s, t') := by
        show M.bind (onSnd I.next) _ (s, t) = _
        simp only [M.bind, onSnd, h1]
        rfl
      have e2 : extendHinted c p (n + 1) pos (x :: items) s = M.bind (EV.set c pos x) (fun _ => extendHinted c p n (pos + 1) items) s := rfl
      rw [e1, e2]
      simp only [M.bind, onFst]
      rcases hx : EV.set c pos x s with ⟨e | _, s1⟩
      · exact ⟨t', rfl⟩
      · exact liveHinted_eq I n (pos + 1) items s1 t' h2

theorem liveRest_eq (I : Source σ α) {p : Bool} : ∀ (items : List α) (n : Nat) (s : EV c.W) (t : σ), Drains I t items p → items.length < n →
    match extendRest c p items s with
    | (.ok _, s') => ∃ t', liveRest c I n (s, t) = (.ok true, (s', t'))
    | (.error e, s') => ∃ t', liveRest c I n (s, t) = (.error e, (s', t'))
  | [], 0, _, _, _, hn => absurd hn (by simp)
  | _ :: _, 0, _, _, _, hn => absurd hn (by simp)
  | [], n + 1, s, t, h, _ => by
    cases h with
    | done h =>
      rename_i t'
      refine ⟨t', ?_⟩
      show M.bind (onSnd I.next) _ (s, t) = _
      simp only [M.bind, onSnd, h]
      rfl
    | panic h =>
      rename_i t'
      refine ⟨t', ?_⟩
      show M.bind (onSnd I.next) _ (s, t) = _
      simp only [M.bind, onSnd, h]
  | x :: items, n + 1, s, t, h, hn => by
    cases h with
    | item h1 h2 =>
      rename_i t'
      have e1 : liveRest c I (n + 1) (s, t) = M.bind (onFst (push c x)) (fun _ => liveRest c I n) (s, t') := by
        show M.bind (onSnd I.next) _ (s, t) = _
        simp only [M.bind, onSnd, h1]
        rfl
      have e2 : extendRest c p (x :: items) s = M.bind (push c x) (fun _ => extendRest c p items) s := rfl
      rw [e1, e2]
      simp only [M.bind, onFst]
      rcases hx : push c x s with ⟨e | _, s1⟩
      · exact ⟨t', rfl⟩
      · exact liveRest_eq I items n s1 t' h2 (by simpa using hn)

/-- **C49** (what `extend` observes of an iterator). Whatever the iterator is (any state, any `next`, also panicking), if it comes to an end,
then `extend` ends, and its effect depends only on the size hint, the items and whether the iterator panicked at its end: it is the
effect described by C13 and C14. (`n`: any bound on the calls above the number of items.) -/
theorem C49_source (I : Source σ α) {t : σ} {items : List α} {p : Bool} {hint : Nat} (h : Drains I t items p) (hh : I.hint t = .ok hint)
    {n : Nat} (hn : items.length < n) (s : EV c.W) :
    ∃ t', extendLive c I n (s, t) = ((extend c ⟨hint, items, p⟩ s).1.map fun _ => true, ((extend c ⟨hint, items, p⟩ s).2, t')) := by
  unfold extendLive extend
  rw [M.read_bind, M.read_bind, hh, M.lift_ok_bind]
  show ∃ t', M.bind (onFst (reserve c hint)) _ (s, t) = (Except.map _ (M.bind (reserve c hint) _ s).1, ((M.bind (reserve c hint) _ s).2, t'))
  simp only [M.bind, onFst]
  rcases hr : reserve c hint s with ⟨e1 | _, s1⟩
  · exact ⟨t, rfl⟩
  simp only [M.read_bind]
  rcases hu : uAdd c.build s1.num hint with e1 | k
  · exact ⟨t, rfl⟩
  simp only [M.lift_ok_bind, M.write_bind]
  show ∃ t', M.bind (liveHinted c I hint (len c s)) (fun _ => liveRest c I n) ({ s1 with num := k }, t) =
    (Except.map _ (M.bind (extendHinted c p hint (len c s) items) _ { s1 with num := k }).1, ((M.bind (extendHinted c p hint (len c s) items) _ { s1 with num := k }).2, t'))
  have e1 := liveHinted_eq (c := c) I hint (len c s) items { s1 with num := k } t h
  simp only [M.bind]
  rcases hx : extendHinted c p hint (len c s) items { s1 with num := k } with ⟨e | rest, s2⟩
  · rw [hx] at e1
    obtain ⟨t', e1⟩ := e1
    rw [e1]
    exact ⟨t', rfl⟩
  · have hlen : rest.length ≤ items.length := by
      clear e1
      have key : ∀ (n pos : Nat) (items : List α) (s s' : EV c.W) (rest : List α), extendHinted c p n pos items s = (.ok rest, s') → rest.length ≤ items.length := by
        intro n
        induction n with
        | zero => intro pos items s s' rest h; cases h; exact Nat.le_refl _
        | succ n ih =>
          intro pos items s s' rest h
          cases items with
          | nil => cases p <;> cases h
          | cons x items =>
            have h : M.bind (EV.set c pos x) (fun _ => extendHinted c p n (pos + 1) items) s = (.ok rest, s') := h
            simp only [M.bind] at h
            rcases hx : EV.set c pos x s with ⟨e | _, s1⟩
            · rw [hx] at h; cases h
            · rw [hx] at h
              have := ih _ _ _ _ _ h
              simp; omega
      exact key _ _ _ _ _ _ hx
    rw [hx] at e1
    obtain ⟨t', e1, hd⟩ := e1
    rw [e1]
    have e2 := liveRest_eq (c := c) I rest n s2 t' hd (by omega)
    dsimp only
    rcases hy : extendRest c p rest s2 with ⟨e | _, s3⟩
    · rw [hy] at e2
      obtain ⟨t'', e2⟩ := e2
      exact ⟨t'', e2⟩
    · rw [hy] at e2
      obtain ⟨t'', e2⟩ := e2
      exact ⟨t'', e2⟩

theorem liveHinted_starts (I : Source σ α) {t2 : σ} : ∀ (n pos : Nat) (items : List α) (s : EV c.W) (t : σ), Starts I t items t2 →
    match extendHinted c true n pos items s with
    | (.ok rest, s') => ∃ t', liveHinted c I n pos (s, t) = (.ok (), (s', t')) ∧ Starts I t' rest t2 ∧ rest.length ≤ items.length
    | (.error e, s') => e = .user ∨ ∃ t', liveHinted c I n pos (s, t) = (.error e, (s', t'))
  | 0, pos, items, s, t, h => ⟨t, rfl, h, Nat.le_refl _⟩
  | n + 1, pos, [], s, t, h => Or.inl rfl
  | n + 1, pos, x :: items, s, t, h => by
    cases h with
    | cons h1 h2 =>
      rename_i t'
      have e1 : liveHinted c I (n + 1) pos (s, t) = M.bind (onFst (EV.set c pos x)) (fun _ => liveHinted c I n (pos + 1)) (s, t') := by
        show M.bind (onSnd I.next) _ (s, t) = _
        simp only [M.bind, onSnd, h1]
        rfl
      have e2 : extendHinted c true (n + 1) pos (x :: items) s = M.bind (EV.set c pos x) (fun _ => extendHinted c true n (pos + 1) items) s := rfl
      rw [e1, e2]
      simp only [M.bind, onFst]
      rcases hx : EV.set c pos x s with ⟨e | _, s1⟩
      · exact Or.inr ⟨t', rfl⟩
      · have := liveHinted_starts I n (pos + 1) items s1 t' h2
        dsimp only
        revert this
        rcases extendHinted c true n (pos + 1) items s1 with ⟨e | rest, s2⟩
        · exact id
        · rintro ⟨t3, h3, h4, h5⟩
          exact ⟨t3, h3, h4, by simp; omega⟩

theorem liveRest_starts (I : Source σ α) {t2 : σ} : ∀ (items : List α) (n : Nat) (s : EV c.W) (t : σ), Starts I t items t2 → items.length ≤ n →
    match extendRest c true items s with
    | (.ok _, _) => False
    | (.error e, s') => e = .user ∨ ∃ t', liveRest c I n (s, t) = (.error e, (s', t'))
  | [], _, _, _, _, _ => Or.inl rfl
  | _ :: _, 0, _, _, _, hn => absurd hn (by simp)
  | x :: items, n + 1, s, t, h, hn => by
    cases h with
    | cons h1 h2 =>
      rename_i t'
      have e1 : liveRest c I (n + 1) (s, t) = M.bind (onFst (push c x)) (fun _ => liveRest c I n) (s, t') := by
        show M.bind (onSnd I.next) _ (s, t) = _
        simp only [M.bind, onSnd, h1]
        rfl
      have e2 : extendRest c true (x :: items) s = M.bind (push c x) (fun _ => extendRest c true items) s := rfl
      rw [e1, e2]
      simp only [M.bind, onFst]
      rcases hx : push c x s with ⟨e | _, s1⟩
      · exact Or.inr ⟨t', rfl⟩
      · exact liveRest_starts I items n s1 t' h2 (by simpa using hn)

theorem extendLive_starts (I : Source σ α) {t t2 : σ} {items : List α} {hint : Nat} (h : Starts I t items t2) (hh : I.hint t = .ok hint)
    {n : Nat} (hn : items.length ≤ n) {s s' : EV c.W} {e : Fault} (he : e ≠ .user) (hx : extend c ⟨hint, items, true⟩ s = (.error e, s')) :
    ∃ t', extendLive c I n (s, t) = (.error e, (s', t')) := by
  unfold extendLive
  unfold extend at hx
  rw [M.read_bind] at hx
  rw [M.read_bind, hh, M.lift_ok_bind]
  show ∃ t', M.bind (onFst (reserve c hint)) _ (s, t) = _
  have hx : M.bind (reserve c hint) _ s = _ := hx
  simp only [M.bind, onFst] at hx ⊢
  rcases hr : reserve c hint s with ⟨e1 | _, s1⟩
  · rw [hr] at hx; cases hx; exact ⟨t, rfl⟩
  rw [hr] at hx
  simp only [M.read_bind] at hx ⊢
  rcases hu : uAdd c.build s1.num hint with e1 | k
  · rw [hu] at hx; cases hx; exact ⟨t, rfl⟩
  rw [hu] at hx
  simp only [M.lift_ok_bind, M.write_bind] at hx ⊢
  show ∃ t', M.bind (liveHinted c I hint (len c s)) (fun _ => liveRest c I n) ({ s1 with num := k }, t) = _
  have hx : M.bind (extendHinted c true hint (len c s) items) _ { s1 with num := k } = _ := hx
  have e1 := liveHinted_starts (c := c) I hint (len c s) items { s1 with num := k } t h
  simp only [M.bind] at hx ⊢
  rcases hx' : extendHinted c true hint (len c s) items { s1 with num := k } with ⟨e' | rest, s2⟩
  · rw [hx'] at e1 hx
    cases hx
    obtain ⟨t', e1⟩ := e1.resolve_left he
    rw [e1]
    exact ⟨t', rfl⟩
  · rw [hx'] at e1 hx
    obtain ⟨t', e1, hd, hlen⟩ := e1
    rw [e1]
    have e2 := liveRest_starts (c := c) I rest n s2 t' hd (by omega)
    dsimp only at hx ⊢
    rw [hx] at e2
    exact e2.resolve_left he

theorem endless_starts {I : Source σ α} {t : σ} {f : Nat → α} (h : Endless I t f) (n : Nat) : ∃ t', Starts I t ((List.range n).map f) t' := by
  obtain ⟨ts, h0, h1⟩ := h
  have key : ∀ n k, Starts I (ts k) ((List.range' k n).map f) (ts (k + n)) := by
    intro n
    induction n with
    | zero => intro k; exact .nil
    | succ n ih =>
      intro k
      rw [List.range'_succ, List.map_cons]
      have := ih (k + 1)
      rw [show k + 1 + n = k + (n + 1) by omega] at this
      exact .cons (h1 k) this
  have := key n 0
  rw [h0, ← List.range_eq_range'] at this
  exact ⟨_, this⟩

/-- **C49** The same for `collect`: the vector is the one `from_iter` makes of the items (C13), and the panics are the same. -/
theorem C49_collect (I : Source σ α) {t : σ} {items : List α} {p : Bool} {hint : Nat} (h : Drains I t items p) (hh : I.hint t = .ok hint)
    {n : Nat} (hn : items.length < n) :
    collectLive c I n t = (fromIter c ⟨hint, items, p⟩).map fun s => (true, s) := by
  obtain ⟨t', e⟩ := C49_source (c := c) I h hh hn (new c)
  unfold collectLive fromIter build
  rw [e]
  rcases extend c ⟨hint, items, p⟩ (new c) with ⟨_ | _, s⟩ <;> rfl

theorem liveRest_true (I : Source σ α) : ∀ (n : Nat) (s : EV c.W) (t : σ) (q : EV c.W × σ), liveRest c I n (s, t) = (.ok true, q) → ∃ items, Drains I t items false
  | 0, _, _, _, h => by cases h
  | n + 1, s, t, q, h => by
    unfold liveRest at h
    rcases hx : I.next t with ⟨e | _ | x, t'⟩
    · rw [M.bind_error (onSnd_eq hx s)] at h; cases h
    · exact ⟨[], .done hx⟩
    · rw [M.bind_ok (onSnd_eq hx s)] at h
      dsimp only at h
      rcases hp : push c x s with ⟨e | _, s1⟩
      · rw [M.bind_error (onFst_eq hp t')] at h; cases h
      · rw [M.bind_ok (onFst_eq hp t')] at h
        obtain ⟨items, hi⟩ := liveRest_true I n s1 t' q h
        exact ⟨x :: items, .item hx hi⟩

theorem liveHinted_true (I : Source σ α) {n : Nat} {q : EV c.W × σ} : ∀ (k pos : Nat) (s : EV c.W) (t : σ),
    (liveHinted c I k pos >>= fun _ => liveRest c I n) (s, t) = (.ok true, q) → ∃ items, Drains I t items false
  | 0, _, s, t, h => liveRest_true I n s t q h
  | k + 1, pos, s, t, h => by
    unfold liveHinted at h
    rw [M.bind_apply, M.bind_apply] at h
    rcases hx : I.next t with ⟨e | _ | x, t'⟩
    · rw [onSnd_eq hx s] at h; cases h
    · rw [onSnd_eq hx s] at h; cases h
    · rw [onSnd_eq hx s] at h
      dsimp only at h
      rw [M.unwrap_some_bind, M.bind_apply] at h
      rcases hp : EV.set c pos x s with ⟨e | _, s1⟩
      · rw [onFst_eq hp t'] at h; cases h
      · rw [onFst_eq hp t'] at h
        obtain ⟨items, hi⟩ := liveHinted_true I k (pos + 1) s1 t' (by rw [M.bind_apply]; exact h)
        exact ⟨x :: items, .item hx hi⟩

/-- **C49** `extend` returns only if the iterator has come to its end: with an iterator that is not exhausted it goes on or panics. -/
theorem C49_returns (I : Source σ α) {n : Nat} {s : EV c.W} {t : σ} {q : EV c.W × σ} (h : extendLive c I n (s, t) = (.ok true, q)) :
    ∃ items, Drains I t items false := by
  unfold extendLive at h
  rw [M.read_bind] at h
  dsimp only at h
  cases hh : I.hint t with
  | error e => rw [hh, M.lift_error_bind] at h; cases h
  | ok k =>
    rw [hh, M.lift_ok_bind] at h
    rcases hr : reserve c k s with ⟨e | _, s1⟩
    · rw [M.bind_error (onFst_eq hr t)] at h; cases h
    · rw [M.bind_ok (onFst_eq hr t), M.read_bind] at h
      dsimp only at h
      cases hu : uAdd c.build s1.num k with
      | error e => rw [hu, M.lift_error_bind] at h; cases h
      | ok m =>
        rw [hu, M.lift_ok_bind] at h
        rcases hl : setLen c m s1 with ⟨e | _, s2⟩
        · rw [M.bind_error (onFst_eq hl t)] at h; cases h
        · rw [M.bind_ok (onFst_eq hl t)] at h
          exact liveHinted_true I k _ s2 t h

/-- **C49** (endless iterators). `extend` with an iterator that never ends always ends, by a panic for lack of memory, after at most `n` calls, whatever the
iterator; the vector then holds the old elements and the first items, or is unchanged. -/
theorem C49_endless (hc : c.Ok) {s : EV c.W} {l : List α} (h : Is c s l) (I : Source σ α) {t : σ} {f : Nat → α} (hI : Endless I t f)
    {hint : Nat} (hh : I.hint t = .ok hint) (hw : ¬ c.AtLimit (l.length + hint)) :
    ∃ n s', (∀ m, n ≤ m → ∃ t', extendLive c I m (s, t) = (.error .capacity, (s', t'))) ∧
      (s' = s ∨ ∃ k, Is c s' (l ++ (List.range k).map f)) := by
  obtain ⟨n, s', h1, h2⟩ := C14_infinite hc h hint hw f
  obtain ⟨t2, h3⟩ := endless_starts hI n
  refine ⟨n, s', fun m hm => extendLive_starts I h3 hh (by simpa using hm) nofun (by simpa using h1 [] true), ?_⟩
  rcases h2 with rfl | ⟨k, -, -, h4⟩
  · exact Or.inl rfl
  · exact Or.inr ⟨k, h4⟩

/-! ## The iterators of the crates -/

theorem vec_drains {d : Inst α} (hd : d.Ok) {s : EV d.W} {l : List α} (h : Is d s l) : ∀ {r : List α} {t : It d.W}, Yields d s l t r →
    Drains (vecSource d) t r false
  | [], t, ht => by
    obtain ⟨t', h1, -⟩ := next_yields hd h ht
    exact .done h1
  | x :: r, t, ht => by
    obtain ⟨t', h1, h2⟩ := next_yields hd h ht
    exact .item h1 (vec_drains hd h h2)

/-- **C49** (`a.extend(b)`, `a.extend(&b)`). `b` may be a vector with another block width, storage type or allocator, and its iterator may have been used
before (calls `os`). Exactly the elements not yielded yet are appended, in order, and `b` is unchanged; it fails only for lack of memory. -/
theorem C49_extend_vec (hc : c.Ok) {d : Inst α} (hd : d.Ok) {s : EV c.W} {l : List α} (h : Is c s l) {b : EV d.W} {m : List α} (hb : Is d b m)
    (os : List IterOp) (hw : ¬ c.AtLimit (l.length + (iterSpecRun os m).2.length)) :
    ∃ t, iterRun d os (EV.iter d b) = (.ok (iterSpecRun os m).1, t) ∧ ∀ n, m.length < n →
      Runs (extendLive c (vecSource d) n (s, t)) (fun ended p => ended = true ∧ Is c p.1 (l ++ (iterSpecRun os m).2))
        (fun e p => e = .capacity ∧ Refused c ((l.length + (iterSpecRun os m).2.length) / c.epb + 1) ∧
          ∃ k, Is c p.1 (l ++ (iterSpecRun os m).2.take k)) := by
  obtain ⟨t, h1, h2⟩ := iterRun_spec hd hb os (yields_iter hb)
  refine ⟨t, h1, fun n hn => ?_⟩
  have hlen : (iterSpecRun os m).2.length ≤ m.length := by
    have := h2.length; have := h2.hi; omega
  have hhint : (vecSource d).hint t = .ok (iterSpecRun os m).2.length := by
    show Except.ok (t.hi - t.lo) = _
    rw [h2.length]
  obtain ⟨t', e⟩ := C49_source (c := c) (vecSource d) (vec_drains hd hb h2) hhint (n := n) (by omega) s
  rw [e]
  have key := C13_extend hc h (iterSpecRun os m).2 _ (Nat.le_refl _) hw
  rcases hx : extend c ⟨(iterSpecRun os m).2.length, (iterSpecRun os m).2, false⟩ s with ⟨e | b, s'⟩
  · rw [hx] at key
    obtain ⟨k1, k2, k, -, k3⟩ := key
    exact ⟨k1, k2, k, k3⟩
  · rw [hx] at key
    exact ⟨rfl, key⟩

/-- **C49** (conversion between storages). `b.into_iter().collect()` into a vector with any other block width, storage type or allocator gives the
same elements; it fails only for lack of memory. -/
theorem C49_convert (hc : c.Ok) {d : Inst α} (hd : d.Ok) {b : EV d.W} {m : List α} (hb : Is d b m) {n : Nat} (hn : m.length < n)
    (hw : ¬ c.AtLimit m.length) :
    Res (collectLive c (vecSource d) n (EV.iter d b)) (fun p => p.1 = true ∧ Is c p.2 m)
      (fun e => e = .capacity ∧ Refused c (m.length / c.epb + 1)) := by
  have hy := yields_iter hb
  have hhint : (vecSource d).hint (EV.iter d b) = .ok m.length := by
    show Except.ok ((EV.iter d b).hi - (EV.iter d b).lo) = _
    rw [hy.length]
  obtain ⟨t', e⟩ := C49_source (c := c) (vecSource d) (vec_drains hd hb hy) hhint (n := n) hn (EV.new c)
  unfold collectLive
  rw [e]
  have key := C13_from_iter hc m m.length (Nat.le_refl _) hw
  unfold fromIter build at key
  rcases hx : extend c ⟨m.length, m, false⟩ (EV.new c) with ⟨e | b, s'⟩
  · rw [hx] at key; exact key
  · rw [hx] at key; exact ⟨rfl, key⟩

theorem values_drains {E : EnumLike α} (hE : E.Contract) {l : List α} (hl : EnumLike.AllValues E l) (build : Build) :
    ∀ {r : List α} {v : EnumLike.Values}, EnumLike.Left E l v r → Drains (valuesSource E build) v r false
  | [], v, hv => by
    obtain ⟨v', h1, -⟩ := EnumLike.next_left hE hl hv
    exact .done h1
  | x :: r, v, hv => by
    obtain ⟨v', h1, h2⟩ := EnumLike.next_left hE hl hv
    exact .item h1 (values_drains hE hl build h2)

/-- **C49** (`T::values().collect::<EnumVec<T>>()`). If the values of `T` are consecutive, the collected vector holds every value of `T` exactly once: it has
`NUM_VARIANTS` elements and element `i` is the value with discriminant `i`. -/
theorem C49_values (hc : c.Ok) (hcons : c.E.Consecutive) {n : Nat} (hn : c.E.num < n) (hw : ¬ c.AtLimit c.E.num) :
    ∃ l : List α, l.map c.E.toDiscr = List.range c.E.num ∧
      Res (collectLive c (valuesSource c.E c.build) n (EnumLike.Values.of c.E)) (fun p => p.1 = true ∧ Is c p.2 l)
        (fun e => e = .capacity ∧ Refused c (c.E.num / c.epb + 1)) := by
  obtain ⟨l, hl⟩ := EnumLike.allValues_exists hcons
  have hlen : l.length = c.E.num := hl.length
  refine ⟨l, hl, ?_⟩
  have hv : EnumLike.Left c.E l (EnumLike.Values.of c.E) l := ⟨rfl, Nat.zero_le _, rfl⟩
  have hhint : (valuesSource c.E c.build).hint (EnumLike.Values.of c.E) = .ok l.length := by
    show Except.map Prod.fst (EnumLike.Values.sizeHint c.build (EnumLike.Values.of c.E)) = _
    unfold EnumLike.Values.sizeHint
    rw [EnumLike.sub_left hl hv c.build]; rfl
  obtain ⟨t', e⟩ := C49_source (c := c) (valuesSource c.E c.build) (values_drains hc.contract hl c.build hv) hhint (n := n) (by omega) (EV.new c)
  unfold collectLive
  rw [e]
  have key := C13_from_iter hc l l.length (Nat.le_refl _) (by rw [hlen]; exact hw)
  rw [hlen] at key
  unfold fromIter build at key
  rw [hlen]
  rcases hx : extend c ⟨c.E.num, l, false⟩ (EV.new c) with ⟨e | b, s'⟩
  · rw [hx] at key; exact key
  · rw [hx] at key; exact ⟨rfl, key⟩

/-- `vec_u8::EnumVec` of the same 8-variant enum with `SmallVec` storage: 2 elements per block. -/
abbrev c8n : Inst (Fin 8) := exInst 8 8 debug64 true

theorem c8n_ok : c8n.Ok := exInst_ok _ _ (by omega) (by omega) (by omega) (by omega)

example : c8n.Ok ∧ c8.Ok ∧ Is c8 v12 l12 ∧ l12.length < 13 := ⟨c8n_ok, c8_ok, v12_is, by decide⟩

example : (collectLive c8n (vecSource c8) 13 (EV.iter c8 v12)).toOption.map (fun p => (p.1, toVec c8n p.2)) = some (true, .ok l12) := by
  decide +kernel

example := C49_extend_vec c8_ok c8_ok v3_is v12_is [.next, .nth 2, .next]

example := C49_values (c := c8n) c8n_ok (finLike_consecutive 8) (n := 9) (by decide)

example : (collectLive c8n (valuesSource c8n.E c8n.build) 9 (EnumLike.Values.of c8n.E)).toOption.map (fun p => toVec c8n p.2) =
    some (.ok [0, 1, 2, 3, 4, 5, 6, 7]) := by
  decide +kernel

/-- An iterator with state: counts down and panics at 0, claiming two items. -/
example : ∃ t', extendLive c8 ⟨fun t => match t with | 0 => (.error .user, 0) | t + 1 => (.ok (some 5), t), fun _ => .ok 2⟩ 4 (v3, 3) =
    (.error .user, ((extend c8 ⟨2, [5, 5, 5], true⟩ v3).2, t')) := by
  obtain ⟨t', h⟩ := C49_source (c := c8) (t := 3) (items := [5, 5, 5]) (p := true) (hint := 2) (n := 4)
    ⟨fun t => match t with | 0 => (.error .user, 0) | t + 1 => (.ok (some 5), t), fun _ => .ok 2⟩
    (.item rfl (.item rfl (.item rfl (.panic rfl)))) rfl (by decide) v3
  refine ⟨t', h.trans ?_⟩
  have : (extend c8 ⟨2, [5, 5, 5], true⟩ v3).1 = .error .user := by decide +kernel
  rw [this]; rfl

example := C49_endless c8_ok v3_is (t := 0) (f := fun n => (if n % 2 = 0 then 1 else 6 : Fin 8)) (hint := 3)
  ⟨fun t : Nat => (.ok (some (if t % 2 = 0 then 1 else 6)), t + 1), fun _ => .ok 3⟩ ⟨fun n => n, rfl, fun _ => rfl⟩ rfl (fun h => absurd h.1 (by decide))

end EnumVecModel
