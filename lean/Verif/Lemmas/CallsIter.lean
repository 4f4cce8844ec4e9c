import Verif.Lemmas.Calls

/-! # Calls of user code: iterators, `for_each`, `retain` -/

namespace EnumVecModel
namespace Hostile
open EV

variable {α ω : Type} {c : Inst α} (h : Impl ω α)

/-! ### Iterators -/

theorem mapItem_eq {ω' : Type} (h' : Impl ω' α) (i : Nat) : mapItem c h' (some i) = (item c h' i >>= fun a => Pure.pure (some a)) := rfl

theorem item_at (hc : c.Sound) {s : EV c.W} {l : List α} (hs : Holds c s l) {t : It c.W} (hv : t.v = s) {i : Nat} (hi : i < l.length) (w : ω × List (Ev α)) :
    MakesAt (mapItem c h.watched (some i)) (t, w) [.fromDiscr (c.E.toDiscr l[i])] ∧
    ∀ o p, mapItem c h.watched (some i) (t, w) = (.ok o, p) → p.1 = t := by
  subst hv
  obtain ⟨w, k⟩ := w
  have hg := get_in h.watched hc hs.toSafe (i := i) (by rw [hs.len_eq]; exact hi) (w, k)
  rw [hs.elems i hi] at hg
  rcases hx : h.fromDiscr (c.E.toDiscr l[i]) w with ⟨_ | a, w'⟩
  · have hg' : get c h.watched i (t.v, (w, k)) = (.error .badDiscr, (t.v, (w', k ++ [.fromDiscr (c.E.toDiscr l[i])]))) := by
      rw [hg]; unfold Impl.watched watched; simp only [hx]
    have e : mapItem c h.watched (some i) (t, (w, k)) = (.error .badDiscr, (t, (w', k ++ [.fromDiscr (c.E.toDiscr l[i])]))) := by
      have : item c h.watched i (t, (w, k)) = (.error .badDiscr, (t, (w', k ++ [.fromDiscr (c.E.toDiscr l[i])]))) := by
        unfold item; rw [hg']
      rw [mapItem_eq, M.bind_error this]
    unfold MakesAt
    rw [e]
    exact ⟨⟨_, rfl, List.prefix_refl _, fun _ _ => rfl⟩, fun o p hp => by cases hp⟩
  · have hg' : get c h.watched i (t.v, (w, k)) = (.ok (some a), (t.v, (w', k ++ [.fromDiscr (c.E.toDiscr l[i])]))) := by
      rw [hg]; unfold Impl.watched watched; simp only [hx]
    have e : mapItem c h.watched (some i) (t, (w, k)) = (.ok (some a), (t, (w', k ++ [.fromDiscr (c.E.toDiscr l[i])]))) := by
      have : item c h.watched i (t, (w, k)) = (.ok a, (t, (w', k ++ [.fromDiscr (c.E.toDiscr l[i])]))) := by
        unfold item; rw [hg']
      rw [mapItem_eq, M.bind_ok this]; rfl
    unfold MakesAt
    rw [e]
    exact ⟨⟨_, rfl, List.prefix_refl _, fun _ _ => rfl⟩, fun o p hp => by cases hp; rfl⟩

/-- The result has an item. -/
def IterOut.isItem : IterOut α → Bool
  | .item (some _) => true
  | _ => false

theorem itemCalls_some (E : EnumLike α) (x : α) : itemCalls E [.item (some x)] = [.fromDiscr (E.toDiscr x)] := rfl

/-- One call on an iterator with result `o`, which takes `d` of the elements. -/
theorem some_step (hc : c.Sound) {s : EV c.W} {l : List α} (hs : Holds c s l) {t t' : It c.W} {r' : List α} (hy : Yields c s l t' r') {i : Nat} {x : α}
    (hi : l[i]? = some x) (f : M (It c.W × (ω × List (Ev α))) (IterOut α))
    (hf : ∀ w, f (t, w) = (mapItem c h.watched (some i) >>= fun a => Pure.pure (.item a)) (t', w)) (w : ω × List (Ev α)) :
    MakesAt f (t, w) (itemCalls c.E [.item (some x)]) ∧ ∀ o p, f (t, w) = (.ok o, p) → Yields c s l p.1 r' ∧ IterOut.isItem o = true := by
  obtain ⟨hlt, rfl⟩ := List.getElem?_eq_some_iff.mp hi
  obtain ⟨h1, h2⟩ := item_at h hc hs hy.vec hlt w
  unfold MakesAt
  rw [hf w]
  have hk : ∀ o p, mapItem c h.watched (some i) (t', w) = (.ok o, p) → ∃ a, o = some a := by
    intro o p hp
    rw [mapItem_eq] at hp
    rcases hx : item c h.watched i (t', w) with ⟨e | a, q⟩
    · rw [M.bind_error hx] at hp; cases hp
    · rw [M.bind_ok hx] at hp; cases hp; exact ⟨a, rfl⟩
  refine ⟨h1.done fun o p _ => MakesAt.pure _ p, fun o p hp => ?_⟩
  rcases hx : mapItem c h.watched (some i) (t', w) with ⟨e | a, q⟩
  · rw [M.bind_error hx] at hp; cases hp
  · rw [M.bind_ok hx] at hp
    cases hp
    obtain ⟨b, rfl⟩ := hk _ _ hx
    rw [show (p.1 : It c.W) = t' from h2 _ _ hx]; exact ⟨hy, rfl⟩

theorem none_step {s : EV c.W} {l : List α} {t t' : It c.W} {r' : List α} (hy : Yields c s l t' r')
    (f : M (It c.W × (ω × List (Ev α))) (IterOut α)) (out : IterOut α) (ho : IterOut.isItem out = false)
    (hf : ∀ w, f (t, w) = (.ok out, (t', w))) (w : ω × List (Ev α)) :
    MakesAt f (t, w) [] ∧ ∀ o p, f (t, w) = (.ok o, p) → Yields c s l p.1 r' ∧ IterOut.isItem o = false := by
  rw [hf w]
  refine ⟨MakesAt.silent (by rw [hf w]), fun o p hp => ?_⟩
  cases hp; exact ⟨hy, ho⟩

theorem iterStep_makes (hc : c.Ok) {s : EV c.W} {l : List α} (hs : Holds c s l) {t : It c.W} {r : List α} (ht : Yields c s l t r) (o : IterOp) (w : ω × List (Ev α)) :
    MakesAt (iterStep c h.watched o) (t, w) (itemCalls c.E [(iterSpec r o).1]) ∧
    ∀ b p, iterStep c h.watched o (t, w) = (.ok b, p) → Yields c s l p.1 (iterSpec r o).2 ∧ IterOut.isItem b = IterOut.isItem (iterSpec r o).1 := by
  obtain ⟨t', h1, hy⟩ := iterStep_spec hc ((is_iff hc).mpr hs) ht o
  have hlen := ht.length
  have hle := ht.le
  have hhi := ht.hi
  have nil : r = [] → ∀ o', o' = IterOp.next ∨ o' = .nextBack → (iterSpec r o').1 = .item none := by
    rintro rfl o' (rfl | rfl) <;> rfl
  cases o with
  | next =>
    by_cases hlt : t.lo < t.hi
    · have e : (iterSpec r .next).1 = .item (some (l[t.lo]'(by omega))) := by
        simp only [iterSpec]
        rw [List.head?_eq_getElem?, ht.getElem? (by omega)]
        exact congrArg _ (List.getElem?_eq_getElem (by omega))
      rw [e]
      have hy' : Yields c s l { t with lo := t.lo + 1 } (iterSpec r .next).2 := by
        refine ⟨ht.vec, by show t.lo + 1 ≤ t.hi; omega, ht.hi, ?_⟩
        show r.tail = _
        rw [ht.rest, List.tail_drop]
      exact some_step h hc.sound hs hy' (List.getElem?_eq_getElem (by omega)) _ (fun w => by simp only [iterStep, rangeNext, if_pos hlt]) w
    · have hr : r = [] := List.length_eq_zero_iff.mp (by omega)
      subst hr
      exact none_step ht _ (.item none) rfl (fun w => by simp only [iterStep, rangeNext, if_neg hlt]; rfl) w
  | nextBack =>
    by_cases hlt : t.lo < t.hi
    · have e : (iterSpec r .nextBack).1 = .item (some (l[t.hi - 1]'(by omega))) := by
        simp only [iterSpec]
        rw [List.getLast?_eq_getElem?, hlen, ht.getElem? (by omega), show t.lo + (t.hi - t.lo - 1) = t.hi - 1 by omega, List.getElem?_eq_getElem (by omega)]
      rw [e]
      have hy' : Yields c s l { t with hi := t.hi - 1 } (iterSpec r .nextBack).2 := by
        refine ⟨ht.vec, by show t.lo ≤ t.hi - 1; omega, by show t.hi - 1 ≤ l.length; omega, ?_⟩
        show r.dropLast = _
        rw [List.dropLast_eq_take, hlen, ht.rest, List.take_drop, List.take_take]
        congr 2
        show min (t.lo + (t.hi - t.lo - 1)) t.hi = t.hi - 1
        omega
      exact some_step h hc.sound hs hy' (List.getElem?_eq_getElem (by omega)) _ (fun w => by simp only [iterStep, rangeNextBack, if_pos hlt]) w
    · have hr : r = [] := List.length_eq_zero_iff.mp (by omega)
      subst hr
      exact none_step ht _ (.item none) rfl (fun w => by simp only [iterStep, rangeNextBack, if_neg hlt]; rfl) w
  | nth n =>
    have hnum : t.hi < c.build.usizeLim := by
      have h1 : s.num = l.length := hs.len_eq
      have h2 := hs.toSafe.numRoom hc
      have h3 := hc.epb_pos
      omega
    by_cases hlt : t.lo + n < t.hi
    · have hcond : t.lo + n < c.build.usizeLim ∧ t.lo + n < t.hi := ⟨by omega, hlt⟩
      have e : (iterSpec r (.nth n)).1 = .item (some (l[t.lo + n]'(by omega))) := by
        simp only [iterSpec]
        rw [ht.getElem? hlt, List.getElem?_eq_getElem (by omega)]
      rw [e]
      have hy' : Yields c s l { t with lo := t.lo + n + 1 } (iterSpec r (.nth n)).2 := by
        refine ⟨ht.vec, by show t.lo + n + 1 ≤ t.hi; omega, ht.hi, ?_⟩
        show r.drop (n + 1) = _
        rw [ht.rest, List.drop_drop]; rfl
      exact some_step h hc.sound hs hy' (List.getElem?_eq_getElem (by omega)) _ (fun w => by simp only [iterStep, rangeNth, if_pos hcond]) w
    · have hcond : ¬ (t.lo + n < c.build.usizeLim ∧ t.lo + n < t.hi) := fun e => hlt e.2
      have e : (iterSpec r (.nth n)).1 = .item none := by
        simp only [iterSpec]; rw [List.getElem?_eq_none (by omega)]
      have hy' : Yields c s l { t with lo := t.hi } (iterSpec r (.nth n)).2 := by
        refine ⟨ht.vec, by show t.hi ≤ t.hi; omega, ht.hi, ?_⟩
        show r.drop (n + 1) = _
        rw [List.drop_eq_nil_of_le (by omega), List.drop_eq_nil_of_le]
        show (l.take t.hi).length ≤ t.hi
        simp [List.length_take]; omega
      rw [e]
      exact none_step hy' _ (.item none) rfl (fun w => by simp only [iterStep, rangeNth, if_neg hcond]; rfl) w
  | sizeHint =>
    exact none_step ht _ (.hint (t.hi - t.lo) (some (t.hi - t.lo))) rfl (fun w => rfl) w

theorem itemCalls_cons (E : EnumLike α) (o : IterOut α) (os : List (IterOut α)) : itemCalls E (o :: os) = itemCalls E [o] ++ itemCalls E os := by
  rcases o with (_ | x) | _ <;> rfl

theorem iterRun_makes (hc : c.Ok) {s : EV c.W} {l : List α} (hs : Holds c s l) : ∀ (os : List IterOp) {t : It c.W} {r : List α}, Yields c s l t r → ∀ w : ω × List (Ev α),
    MakesAt (iterRun c h.watched os) (t, w) (itemCalls c.E (iterSpecRun os r).1)
  | [], _, _, _, _ => MakesAt.pure _ _
  | o :: os, t, r, ht, w => by
    obtain ⟨h1, h2⟩ := iterStep_makes h hc hs ht o w
    unfold iterRun iterSpecRun
    dsimp only
    rw [itemCalls_cons]
    refine h1.bind fun b p hb => ?_
    exact (iterRun_makes hc hs os (h2 b p hb).1 p.2).done fun _ p _ => MakesAt.pure _ p

theorem collect_makes (hc : c.Ok) {s : EV c.W} {l : List α} (hs : Holds c s l) : ∀ (n : Nat) {t : It c.W} {r : List α}, Yields c s l t r → r.length < n → ∀ w : ω × List (Ev α),
    MakesAt (collect c h.watched n) (t, w) (r.map fun x => .fromDiscr (c.E.toDiscr x))
  | n + 1, t, r, ht, hn, w => by
    obtain ⟨h1, h2⟩ := iterStep_makes h hc hs ht .next w
    unfold collect
    cases r with
    | nil =>
      refine h1.seq fun b p hb => ?_
      have := (h2 b p hb).2
      rcases b with (_ | x) | _
      · exact MakesAt.pure _ _
      · cases this
      · exact MakesAt.pure _ _
    | cons x xs =>
      refine h1.bind fun b p hb => ?_
      obtain ⟨g1, g2⟩ := h2 b p hb
      rcases b with (_ | y) | _
      · cases g2
      · exact (collect_makes hc hs n g1 (by simpa [iterSpec] using hn) p.2).done fun _ p _ => MakesAt.pure _ p
      · cases g2

theorem yields_iter {s : EV c.W} {l : List α} (hs : Holds c s l) : Yields c s l (EV.iter c s) l := by
  have : len c s = l.length := hs.len_eq
  refine ⟨rfl, Nat.zero_le _, Nat.le_of_eq this, ?_⟩
  show l = List.drop 0 (List.take (len c s) l)
  rw [this]; simp

/-! ### `for_each`, `retain` -/

theorem get_plain (hc : c.Ok) {s : EV c.W} {l : List α} (hs : Holds c s l) {i : Nat} {x : α} (hi : l[i]? = some x) (w : ω) (k : List (Ev α)) :
    get c (Impl.of c.E).watched i (s, (w, k)) = (.ok (some x), (s, (w, k ++ [.fromDiscr (c.E.toDiscr x)]))) := by
  obtain ⟨hlt, rfl⟩ := List.getElem?_eq_some_iff.mp hi
  rw [get_in (Impl.of c.E).watched hc hs.toSafe (by rw [hs.len_eq]; exact hlt), hs.elems i hlt]
  unfold Impl.watched watched Impl.of
  simp only [hc.contract.roundtrip]

theorem set_plain (hc : c.Ok) {s : EV c.W} {l : List α} (hs : Holds c s l) {i : Nat} (hi : i < l.length) (x : α) (w : ω) (k : List (Ev α)) :
    ∃ s', set c (Impl.of c.E).watched i x (s, (w, k)) = (.ok (), (s', (w, k ++ [.toDiscr x]))) ∧ Holds c s' (l.set i x) := by
  obtain ⟨h1, h2⟩ := set_lt hc hs x hi
  have ht : toDiscr (σ := EV c.W) (Impl.of c.E).watched x (s, (w, k)) = (.ok (c.E.toDiscr x), (s, (w, k ++ [.toDiscr x]))) := rfl
  refine ⟨_, ?_, h2⟩
  unfold set
  rw [M.bind_ok ht]
  exact onFst_eq (τ := ω × List (Ev α)) h1 (w, k ++ [.toDiscr x])

theorem forEachLoop_log (hc : c.Ok) (f : Closure ω α α) : ∀ (todo done : List α) (s : EV c.W) (w : ω) (k : List (Ev α)), Holds c s (done ++ todo) →
    (loop (forEachStep c (Impl.of c.E).watched (watched .closure f)) todo.length done.length () (s, (w, k))).2.2.2 = k ++ forEachCalls c.E f todo w
  | [], done, s, w, k, hs => by simp [forEachCalls, EnumVecModel.loop, M.pure_apply]
  | x :: xs, done, s, w, k, hs => by
    show ((forEachStep c (Impl.of c.E).watched (watched .closure f) done.length () >>= fun _ => loop (forEachStep c (Impl.of c.E).watched (watched .closure f)) xs.length (done.length + 1) ())
      (s, (w, k))).2.2.2 = _
    have h1 := get_plain hc hs (i := done.length) (x := x) (by simp) w k
    unfold forEachCalls
    rcases hf : f x w with ⟨_ | y, w'⟩
    · have hcall : call (watched .closure f) x (s, (w, k ++ [.fromDiscr (c.E.toDiscr x)])) =
          (.error .user, (s, (w', (k ++ [.fromDiscr (c.E.toDiscr x)]) ++ [.closure x]))) := by unfold call watched; simp only [hf]
      have e : forEachStep c (Impl.of c.E).watched (watched .closure f) done.length () (s, (w, k)) =
          (.error .user, (s, (w', (k ++ [.fromDiscr (c.E.toDiscr x)]) ++ [.closure x]))) := by
        unfold forEachStep; rw [M.bind_ok h1, M.unwrap_some_bind, M.bind_error hcall]
      rw [M.bind_error e]; simp
    · have hcall : call (watched .closure f) x (s, (w, k ++ [.fromDiscr (c.E.toDiscr x)])) =
          (.ok y, (s, (w', (k ++ [.fromDiscr (c.E.toDiscr x)]) ++ [.closure x]))) := by unfold call watched; simp only [hf]
      obtain ⟨s', h2, h3⟩ := set_plain hc hs (i := done.length) (by simp) y w' ((k ++ [.fromDiscr (c.E.toDiscr x)]) ++ [.closure x])
      have e : forEachStep c (Impl.of c.E).watched (watched .closure f) done.length () (s, (w, k)) =
          (.ok (), (s', (w', ((k ++ [.fromDiscr (c.E.toDiscr x)]) ++ [.closure x]) ++ [.toDiscr y]))) := by
        unfold forEachStep; rw [M.bind_ok h1, M.unwrap_some_bind, M.bind_ok hcall, h2]
      rw [M.bind_ok e]
      have e2 : (done ++ x :: xs).set done.length y = (done ++ [y]) ++ xs := by
        rw [List.set_append_right _ _ (Nat.le_refl _)]; simp
      rw [e2] at h3
      have ih := forEachLoop_log hc f xs (done ++ [y]) s' w' (((k ++ [.fromDiscr (c.E.toDiscr x)]) ++ [.closure x]) ++ [.toDiscr y]) h3
      rw [show (done ++ [y]).length = done.length + 1 by simp] at ih
      rw [ih]; simp

theorem retainLoop_log (hc : c.Ok) (f : Closure ω α Bool) (l : List α) : ∀ (todo pre kept : List α) (s : EV c.W) (w : ω) (k : List (Ev α)),
    l = pre ++ todo → kept.length ≤ pre.length → Holds c s (kept ++ l.drop kept.length) →
    (loop (retainStep c (Impl.of c.E).watched (watched .closure f)) todo.length pre.length kept.length (s, (w, k))).2.2.2 = k ++ retainCalls c.E f todo w
  | [], pre, kept, s, w, k, _, _, _ => by simp [retainCalls, EnumVecModel.loop, M.pure_apply]
  | x :: xs, pre, kept, s, w, k, hl, hk, hs => by
    show ((retainStep c (Impl.of c.E).watched (watched .closure f) pre.length kept.length >>=
      fun a => loop (retainStep c (Impl.of c.E).watched (watched .closure f)) xs.length (pre.length + 1) a) (s, (w, k))).2.2.2 = _
    have hxg : (kept ++ l.drop kept.length)[pre.length]? = some x := by
      rw [List.getElem?_append_right hk, List.getElem?_drop]
      have : kept.length + (pre.length - kept.length) = pre.length := by omega
      rw [this, hl]; simp
    have hplt : kept.length < (kept ++ l.drop kept.length).length := by rw [hl]; simp; omega
    have h1 := get_plain hc hs hxg w k
    have el : (pre ++ [x]).length = pre.length + 1 := by simp
    unfold retainCalls
    rcases hf : f x w with ⟨_ | b, w'⟩
    · have hcall : call (watched .closure f) x (s, (w, k ++ [.fromDiscr (c.E.toDiscr x)])) =
          (.error .user, (s, (w', (k ++ [.fromDiscr (c.E.toDiscr x)]) ++ [.closure x]))) := by unfold call watched; simp only [hf]
      have e : retainStep c (Impl.of c.E).watched (watched .closure f) pre.length kept.length (s, (w, k)) =
          (.error .user, (s, (w', (k ++ [.fromDiscr (c.E.toDiscr x)]) ++ [.closure x]))) := by
        unfold retainStep; rw [M.bind_ok h1, M.unwrap_some_bind, M.bind_error hcall]
      rw [M.bind_error e]; simp
    · have hcall : call (watched .closure f) x (s, (w, k ++ [.fromDiscr (c.E.toDiscr x)])) =
          (.ok b, (s, (w', (k ++ [.fromDiscr (c.E.toDiscr x)]) ++ [.closure x]))) := by unfold call watched; simp only [hf]
      cases b with
      | false =>
        have e : retainStep c (Impl.of c.E).watched (watched .closure f) pre.length kept.length (s, (w, k)) =
            (.ok kept.length, (s, (w', (k ++ [.fromDiscr (c.E.toDiscr x)]) ++ [.closure x]))) := by
          unfold retainStep; rw [M.bind_ok h1, M.unwrap_some_bind, M.bind_ok hcall, if_neg (by simp)]; rfl
        rw [M.bind_ok e]
        have ih := retainLoop_log hc f l xs (pre ++ [x]) kept s w' ((k ++ [.fromDiscr (c.E.toDiscr x)]) ++ [.closure x]) (by simp [hl]) (by simp; omega) hs
        rw [el] at ih
        rw [ih]; simp
      | true =>
        obtain ⟨s', h2, h3⟩ := set_plain hc hs hplt x w' ((k ++ [.fromDiscr (c.E.toDiscr x)]) ++ [.closure x])
        have e : retainStep c (Impl.of c.E).watched (watched .closure f) pre.length kept.length (s, (w, k)) =
            (.ok (kept.length + 1), (s', (w', ((k ++ [.fromDiscr (c.E.toDiscr x)]) ++ [.closure x]) ++ [.toDiscr x]))) := by
          unfold retainStep; rw [M.bind_ok h1, M.unwrap_some_bind, M.bind_ok hcall, if_pos rfl, M.bind_ok h2]; rfl
        rw [M.bind_ok e]
        have hd : l.drop kept.length = (l[kept.length]'(by rw [hl]; simp; omega)) :: l.drop (kept.length + 1) := List.drop_eq_getElem_cons _
        have e2 : (kept ++ l.drop kept.length).set kept.length x = (kept ++ [x]) ++ l.drop (kept ++ [x]).length := by
          rw [List.set_append_right _ _ (Nat.le_refl _), Nat.sub_self, hd, List.set_cons_zero]; simp
        rw [e2] at h3
        have ih := retainLoop_log hc f l xs (pre ++ [x]) (kept ++ [x]) s' w' (((k ++ [.fromDiscr (c.E.toDiscr x)]) ++ [.closure x]) ++ [.toDiscr x]) (by simp [hl]) (by simp; omega) h3
        rw [el, show (kept ++ [x]).length = kept.length + 1 by simp] at ih
        rw [ih]; simp

theorem forEach_log (hc : c.Ok) (f : Closure ω α α) {s : EV c.W} {l : List α} (hs : Holds c s l) (w : ω) (k : List (Ev α)) :
    (forEach c (Impl.of c.E).watched (watched .closure f) (s, (w, k))).2.2.2 = k ++ forEachCalls c.E f l w := by
  unfold forEach
  rw [M.read_bind]
  have := forEachLoop_log hc f l [] s w k (by simpa using hs)
  simp only [len, hs.len_eq]
  exact this

theorem retain_log (hc : c.Ok) (f : Closure ω α Bool) {s : EV c.W} {l : List α} (hs : Holds c s l) (w : ω) (k : List (Ev α)) :
    (retain c (Impl.of c.E).watched (watched .closure f) (s, (w, k))).2.2.2 = k ++ retainCalls c.E f l w := by
  unfold retain
  rw [M.read_bind]
  have := retainLoop_log hc f l l [] [] s w k rfl (Nat.le_refl _) (by simpa using hs)
  simp only [len, hs.len_eq]
  simp only [List.length_nil] at this
  rcases hx : loop (retainStep c (Impl.of c.E).watched (watched .closure f)) l.length 0 0 (s, (w, k)) with ⟨e | n, p⟩
  · rw [hx] at this; rw [M.bind_error hx]; exact this
  · rw [hx] at this; rw [M.bind_ok hx]; exact this

end Hostile
end EnumVecModel
