import Verif.CallsSpec
import Verif.Lemmas.HostilePanic
import Verif.Lemmas.HostilePure
import Verif.Lemmas.Iteration

/-! # Calls of user code: rules -/

namespace EnumVecModel
namespace Hostile
open EV

variable {α ω σ β γ δ ι : Type}

/-- From `p`, the method adds a prefix of `L` to the list, all of `L` if it returns. -/
def MakesAt (m : M (σ × (ω × List (Ev α))) β) (p : σ × (ω × List (Ev α))) (L : List (Ev α)) : Prop :=
  ∃ K, (m p).2.2.2 = p.2.2 ++ K ∧ K <+: L ∧ (∀ b, (m p).1 = .ok b → K = L)

theorem MakesAt.makes {m : M (σ × (ω × List (Ev α))) β} {s : σ} {w : ω} {L : List (Ev α)} (h : MakesAt m (s, (w, [])) L) : Makes m s w L := by
  obtain ⟨K, h1, h2, h3⟩ := h
  have : callsOf m s w = K := h1
  exact ⟨by rw [this]; exact h2, fun b hb => by rw [this]; exact h3 b hb⟩

theorem MakesAt.bind {m : M (σ × (ω × List (Ev α))) β} {f : β → M (σ × (ω × List (Ev α))) γ} {p : σ × (ω × List (Ev α))} {L L' : List (Ev α)}
    (hm : MakesAt m p L) (hf : ∀ b p', m p = (.ok b, p') → MakesAt (f b) p' L') : MakesAt (m >>= f) p (L ++ L') := by
  obtain ⟨K, h1, h2, h3⟩ := hm
  rcases hx : m p with ⟨e | b, p'⟩
  · rw [hx] at h1 h3
    refine ⟨K, ?_, h2.trans (List.prefix_append _ _), ?_⟩
    · rw [M.bind_error hx]; exact h1
    · rw [M.bind_error hx]; intro b hb; cases hb
  · obtain ⟨K', g1, g2, g3⟩ := hf b p' hx
    rw [hx] at h1 h3
    have e := h3 b rfl
    subst e
    refine ⟨K ++ K', ?_, (List.prefix_append_right_inj _).mpr g2, ?_⟩
    · rw [M.bind_ok hx, g1]; rw [show p'.2.2 = p.2.2 ++ K from h1, List.append_assoc]
    · rw [M.bind_ok hx]; intro b' hb; rw [g3 b' hb]

/-- Nothing is called. -/
theorem MakesAt.silent {m : M (σ × (ω × List (Ev α))) β} {p : σ × (ω × List (Ev α))} (h : (m p).2.2 = p.2) : MakesAt m p [] :=
  ⟨[], by rw [h, List.append_nil], List.nil_prefix, fun _ _ => rfl⟩

theorem MakesAt.pure (b : β) (p : σ × (ω × List (Ev α))) : MakesAt (Pure.pure b) p [] := MakesAt.silent rfl
theorem MakesAt.fail (e : Fault) (p : σ × (ω × List (Ev α))) : MakesAt (M.fail e : M _ β) p [] := MakesAt.silent rfl
theorem MakesAt.lift (r : Except Fault β) (p : σ × (ω × List (Ev α))) : MakesAt (M.lift r) p [] := MakesAt.silent rfl
theorem MakesAt.unwrap (o : Option β) (p : σ × (ω × List (Ev α))) : MakesAt (M.unwrap o) p [] := MakesAt.silent (by cases o <;> rfl)
theorem MakesAt.onFst (m : M σ β) (p : σ × (ω × List (Ev α))) : MakesAt (EV.onFst m) p [] := MakesAt.silent rfl

theorem MakesAt.call (ev : δ → Ev α) (f : Closure ω δ β) (x : δ) (p : σ × (ω × List (Ev α))) : MakesAt (EV.call (watched ev f) x) p [ev x] := by
  refine ⟨[ev x], ?_, List.prefix_refl _, fun _ _ => rfl⟩
  unfold EV.call watched
  rcases f x p.2.1 with ⟨_ | b, w⟩ <;> rfl

theorem MakesAt.seq {m : M (σ × (ω × List (Ev α))) β} {f : β → M (σ × (ω × List (Ev α))) γ} {p : σ × (ω × List (Ev α))} {L : List (Ev α)}
    (hm : MakesAt m p []) (hf : ∀ b p', m p = (.ok b, p') → MakesAt (f b) p' L) : MakesAt (m >>= f) p L := hm.bind hf

theorem MakesAt.done {m : M (σ × (ω × List (Ev α))) β} {f : β → M (σ × (ω × List (Ev α))) γ} {p : σ × (ω × List (Ev α))} {L : List (Ev α)}
    (hm : MakesAt m p L) (hf : ∀ b p', m p = (.ok b, p') → MakesAt (f b) p' []) : MakesAt (m >>= f) p L := by
  have := hm.bind hf
  rwa [List.append_nil] at this

variable {c : Inst α} (h : Impl ω α)

theorem toDiscr_makes (x : α) (p : σ × (ω × List (Ev α))) : MakesAt (toDiscr h.watched x) p [.toDiscr x] := MakesAt.call .toDiscr h.toDiscr x p

theorem fromDiscr_log (d : Nat) (p : σ × (ω × List (Ev α))) : (fromDiscr h.watched d p).2.2.2 = p.2.2 ++ [.fromDiscr d] := by
  unfold fromDiscr Impl.watched watched
  dsimp only
  rcases h.fromDiscr d p.2.1 with ⟨_ | b, w⟩ <;> rfl

theorem fromDiscr_makes (d : Nat) (p : σ × (ω × List (Ev α))) : MakesAt (fromDiscr h.watched d) p [.fromDiscr d] :=
  ⟨_, fromDiscr_log h d p, List.prefix_refl _, fun _ _ => rfl⟩

theorem set_log (i : Nat) (x : α) (p : EV c.W × (ω × List (Ev α))) : (set c h.watched i x p).2.2.2 = p.2.2 ++ [.toDiscr x] := by
  unfold set
  rw [M.bind_apply]
  unfold toDiscr EV.call Impl.watched watched
  dsimp only
  rcases h.toDiscr x p.2.1 with ⟨_ | b, w⟩ <;> rfl

theorem set_makes (i : Nat) (x : α) (p : EV c.W × (ω × List (Ev α))) : MakesAt (set c h.watched i x) p [.toDiscr x] :=
  ⟨_, set_log h i x p, List.prefix_refl _, fun _ _ => rfl⟩

theorem push_makes (x : α) (p : EV c.W × (ω × List (Ev α))) : MakesAt (push c h.watched x) p [.toDiscr x] := by
  unfold push
  refine (MakesAt.onFst _ p).seq fun _ p' _ => ?_
  refine MakesAt.seq (MakesAt.silent rfl) fun q p'' hq => ?_
  obtain ⟨rfl, rfl⟩ : p' = q ∧ p' = p'' := by
    simp only [M.read_apply, Prod.mk.injEq, Except.ok.injEq] at hq; exact hq
  dsimp only
  split
  · exact MakesAt.seq (MakesAt.silent rfl) fun _ p'' _ => set_makes h _ x p''
  · exact MakesAt.seq (MakesAt.fail _ _) fun _ p'' _ => set_makes h _ x p''

theorem insert_makes (i : Nat) (x : α) (p : EV c.W × (ω × List (Ev α))) : MakesAt (insert c h.watched i x) p [.toDiscr x, .toDiscr x] := by
  unfold insert
  refine (push_makes h x p).bind (L' := [.toDiscr x]) fun _ p' _ => ?_
  refine MakesAt.seq (MakesAt.silent rfl) fun q p'' _ => ?_
  exact (toDiscr_makes h x p'').done fun _ p _ => MakesAt.onFst _ p

theorem any_log (x : α) (s : EV c.W) (w : ω) (k : List (Ev α)) : (any c h.watched x (s, (w, k))).2.2.2 = k ++ if isEmpty c s then [] else [.toDiscr x] := by
  unfold any
  rw [M.read_bind]
  dsimp only
  split
  · simp [M.pure_apply]
  · rw [M.bind_apply]
    unfold toDiscr EV.call Impl.watched watched
    dsimp only
    rcases h.toDiscr x w with ⟨_ | b, w⟩ <;> rfl

theorem all_log (x : α) (s : EV c.W) (w : ω) (k : List (Ev α)) : (all c h.watched x (s, (w, k))).2.2.2 = k ++ if isEmpty c s then [] else [.toDiscr x] := by
  unfold all
  rw [M.read_bind]
  dsimp only
  split
  · simp [M.pure_apply]
  · rw [M.bind_apply]
    unfold toDiscr EV.call Impl.watched watched
    dsimp only
    rcases h.toDiscr x w with ⟨_ | b, w⟩ <;> rfl

/-! ### `get` and what is built on it -/

theorem get_none (hc : c.Sound) {s : EV c.W} (hs : Safe c s) {i : Nat} (hi : s.num ≤ i) (w : ω) : get c h i (s, w) = (.ok none, (s, w)) := by
  have e := getRaw_safe hc hs i
  rw [if_neg (by omega)] at e
  unfold get
  rw [M.bind_ok (onFst_eq e w)]
  rfl

theorem get_lt_log (hc : c.Sound) {s : EV c.W} {l : List α} (hs : Holds c s l) {i : Nat} (hi : i < l.length) (w : ω) (k : List (Ev α)) :
    (get c h.watched i (s, (w, k))).2.2.2 = k ++ [.fromDiscr (c.E.toDiscr l[i])] := by
  rw [get_in h.watched hc hs.toSafe (by rw [hs.len_eq]; exact hi), hs.elems i hi]
  unfold Impl.watched watched
  dsimp only
  rcases h.fromDiscr _ w with ⟨_ | a, w'⟩ <;> rfl

/-- What `get(i)` calls. -/
def getCalls (E : EnumLike α) (l : List α) (i : Nat) : List (Ev α) := (l[i]?.map fun x => Ev.fromDiscr (E.toDiscr x)).toList

theorem get_log (hc : c.Sound) {s : EV c.W} {l : List α} (hs : Holds c s l) (i : Nat) (w : ω) (k : List (Ev α)) :
    (get c h.watched i (s, (w, k))).2.2.2 = k ++ getCalls c.E l i := by
  unfold getCalls
  by_cases hi : i < l.length
  · rw [get_lt_log h hc hs hi, List.getElem?_eq_getElem hi]; rfl
  · rw [get_none h.watched hc hs.toSafe (by rw [hs.len_eq]; omega), List.getElem?_eq_none (by omega)]; simp

/-- A method that continues after `get` without further calls. -/
theorem get_then_log (hc : c.Sound) {s : EV c.W} {l : List α} (hs : Holds c s l) (i : Nat) (w : ω) (k : List (Ev α))
    {f : Option α → M (EV c.W × (ω × List (Ev α))) β} (hf : ∀ o p, (f o p).2.2 = p.2) :
    ((get c h.watched i >>= f) (s, (w, k))).2.2.2 = k ++ getCalls c.E l i := by
  have := get_log h hc hs i w k
  rcases hx : get c h.watched i (s, (w, k)) with ⟨e | o, p⟩
  · rw [hx] at this; rw [M.bind_error hx]; exact this
  · rw [hx] at this; rw [M.bind_ok hx, hf]; exact this

theorem pop_log (hc : c.Sound) {s : EV c.W} {l : List α} (hs : Holds c s l) (w : ω) (k : List (Ev α)) :
    (pop c h.watched (s, (w, k))).2.2.2 = k ++ getCalls c.E l (l.length - 1) := by
  have hlen := hs.len_eq
  unfold pop
  rw [M.read_bind]
  dsimp only
  by_cases h0 : s.num = 0
  · rw [if_pos (show isEmpty c s = true by simp [isEmpty, len, h0])]
    have : l = [] := List.length_eq_zero_iff.mp (by omega)
    subst this
    simp [getCalls, M.pure_apply]
  · rw [if_neg (show ¬ isEmpty c s = true by simp [isEmpty, len, h0]), hlen]
    refine get_then_log h hc hs _ w k fun o p => ?_
    cases o with
    | none => rfl
    | some a => rfl

theorem remove_log (hc : c.Sound) {s : EV c.W} {l : List α} (hs : Holds c s l) (i : Nat) (w : ω) (k : List (Ev α)) :
    (remove c h.watched i (s, (w, k))).2.2.2 = k ++ getCalls c.E l i := by
  unfold remove
  refine get_then_log h hc hs _ w k fun o p => ?_
  cases o with
  | none => rfl
  | some a =>
    rw [M.unwrap_some_bind]
    rcases hx : removeShift c i p.1 with ⟨e | b, s'⟩
    · rw [M.bind_error (onFst_eq hx p.2)]
    · rw [M.bind_ok (onFst_eq hx p.2)]; rfl

theorem swapRemove_log (hc : c.Ok) {s : EV c.W} {l : List α} (hs : Holds c s l) (i : Nat) (w : ω) (k : List (Ev α)) :
    (swapRemove c h.watched i (s, (w, k))).2.2.2 = k ++ getCalls c.E l i := by
  have hlen := hs.len_eq
  unfold swapRemove
  rw [M.read_bind]
  dsimp only
  by_cases hi : i < l.length
  · have hsub : uSub c.build (len c s) 1 = .ok (l.length - 1) := by
      unfold uSub; rw [if_pos (by simp [len]; omega)]; simp [len, hlen]
    rw [hsub, M.lift_ok_bind]
    obtain ⟨s1, h1, h2, -, -, -⟩ := swap_holds hc hs hi (j := l.length - 1) (by omega)
    rw [M.bind_ok (onFst_eq h1 (w, k))]
    have key := pop_log h hc.sound h2 w k
    have e : getCalls c.E ((l.set i (l[l.length - 1]'(by omega))).set (l.length - 1) l[i])
        (((l.set i (l[l.length - 1]'(by omega))).set (l.length - 1) l[i]).length - 1) = getCalls c.E l i := by
      unfold getCalls
      rw [List.getElem?_eq_getElem (by simp; omega), List.getElem?_eq_getElem hi]
      simp
    rw [e] at key
    rcases hx : pop c h.watched (s1, (w, k)) with ⟨e | o, p⟩
    · rw [hx] at key; rw [M.bind_error hx]; exact key
    · rw [hx] at key; rw [M.bind_ok hx]
      cases o <;> exact key
  · have e : getCalls c.E l i = [] := by unfold getCalls; rw [List.getElem?_eq_none (by omega)]; rfl
    rw [e, List.append_nil]
    rcases hu : uSub c.build (len c s) 1 with e | n
    · rw [M.lift_error_bind]
    · rw [M.lift_ok_bind, M.bind_error (onFst_eq (swap_oob hc.sound hs (Or.inl (by omega))) (w, k))]

/-! ### Iterators that are fed by a list -/

/-- The iterator yields `items`, then ends or panics, and logs `ev x` before the item `x`. -/
def FeedsLog (I : Iter (ω × List (Ev α)) ι α) (ev : α → List (Ev α)) : ι → List α → Prop
  | t, [] => ∀ p : σ × (ω × List (Ev α)), MakesAt (σ := σ) (EV.call I.next t) p [] ∧ ∀ r p', EV.call (σ := σ) I.next t p = (.ok r, p') → r.1 = none
  | t, x :: xs => ∀ p : σ × (ω × List (Ev α)), MakesAt (σ := σ) (EV.call I.next t) p (ev x) ∧
      ∀ r p', EV.call (σ := σ) I.next t p = (.ok r, p') → r.1 = some x ∧ FeedsLog I ev r.2 xs

theorem extendRest_makes {I : Iter (ω × List (Ev α)) ι α} {ev : α → List (Ev α)} : ∀ (xs : List α) (n : Nat) (t : ι), xs.length < n → FeedsLog (σ := EV c.W) I ev t xs →
    ∀ p, MakesAt (extendRest c h.watched I n t) p (xs.flatMap fun x => ev x ++ [.toDiscr x])
  | [], n + 1, t, _, hf, p => by
    unfold extendRest
    refine MakesAt.seq (hf p).1 fun r p' hr => ?_
    rw [(hf p).2 r p' hr]
    exact MakesAt.pure _ _
  | x :: xs, n + 1, t, hn, hf, p => by
    unfold extendRest
    rw [List.flatMap_cons, List.append_assoc]
    refine MakesAt.bind (hf p).1 fun r p' hr => ?_
    obtain ⟨h1, h2⟩ := (hf p).2 r p' hr
    rw [h1]
    refine (push_makes h x p').bind fun _ p'' _ => ?_
    exact extendRest_makes xs n r.2 (by simpa using hn) h2 p''

theorem extendHinted_makes {I : Iter (ω × List (Ev α)) ι α} {ev : α → List (Ev α)} : ∀ (k pos n : Nat) (xs : List α) (t : ι), xs.length < n → FeedsLog (σ := EV c.W) I ev t xs →
    ∀ p, MakesAt (extendHinted c h.watched I k pos t >>= fun t => extendRest c h.watched I n t) p (xs.flatMap fun x => ev x ++ [.toDiscr x])
  | 0, _, n, xs, t, hn, hf, p => extendRest_makes h xs n t hn hf p
  | k + 1, pos, n, [], t, hn, hf, p => by
    have e : (extendHinted c h.watched I (k + 1) pos t >>= fun t => extendRest c h.watched I n t) p =
        (EV.call I.next t >>= fun r => M.unwrap r.1 >>= fun x => set c h.watched pos x >>= fun _ => extendHinted c h.watched I k (pos + 1) r.2 >>=
          fun t => extendRest c h.watched I n t) p := by
      rw [extendHinted_succ]; simp only [M.bind_assoc]
    unfold MakesAt
    rw [e]
    refine MakesAt.seq (hf p).1 fun r p' hr => ?_
    rw [(hf p).2 r p' hr]
    exact MakesAt.silent rfl
  | k + 1, pos, n, x :: xs, t, hn, hf, p => by
    have e : (extendHinted c h.watched I (k + 1) pos t >>= fun t => extendRest c h.watched I n t) p =
        (EV.call I.next t >>= fun r => M.unwrap r.1 >>= fun x => set c h.watched pos x >>= fun _ => extendHinted c h.watched I k (pos + 1) r.2 >>=
          fun t => extendRest c h.watched I n t) p := by
      rw [extendHinted_succ]; simp only [M.bind_assoc]
    unfold MakesAt
    rw [e, List.flatMap_cons, List.append_assoc]
    refine MakesAt.bind (hf p).1 fun r p' hr => ?_
    obtain ⟨h1, h2⟩ := (hf p).2 r p' hr
    rw [h1]
    refine MakesAt.seq (MakesAt.unwrap (some x) p') fun y p'' hy => ?_
    obtain ⟨rfl, rfl⟩ : x = y ∧ p' = p'' := by
      simp only [M.unwrap, Prod.mk.injEq, Except.ok.injEq] at hy; exact hy
    refine (set_makes h pos x p').bind fun _ p'' _ => ?_
    exact extendHinted_makes k (pos + 1) n xs r.2 (by simp at hn; omega) h2 p''

theorem extend_makes {I : Iter (ω × List (Ev α)) ι α} {ev : α → List (Ev α)} {n : Nat} {xs : List α} {t : ι} (hh : ∀ w, (I.hint t w).2 = w) (hn : xs.length < n)
    (hf : FeedsLog (σ := EV c.W) I ev t xs) (p : EV c.W × (ω × List (Ev α))) : MakesAt (extend c h.watched I n t) p (xs.flatMap fun x => ev x ++ [.toDiscr x]) := by
  unfold extend
  refine MakesAt.seq (MakesAt.silent ?_) fun k p1 _ => ?_
  · unfold EV.call
    have := hh p.2
    rcases hx : I.hint t p.2 with ⟨_ | b, w⟩ <;> (rw [hx] at this; exact this)
  refine MakesAt.seq (MakesAt.silent rfl) fun q p2 _ => ?_
  refine MakesAt.seq (MakesAt.onFst _ _) fun _ p3 _ => ?_
  refine MakesAt.seq (MakesAt.silent rfl) fun q' p4 _ => ?_
  refine MakesAt.seq (MakesAt.lift _ _) fun m p5 _ => ?_
  refine MakesAt.seq (MakesAt.onFst _ _) fun _ p6 _ => ?_
  exact extendHinted_makes h _ _ _ xs t hn hf p6

theorem feedsLog_ofSrc (it : Src α) : ∀ xs : List α, FeedsLog (σ := σ) (ofSrc (ω := ω × List (Ev α)) it) (fun _ => []) xs xs
  | [] => fun p => by
    have e : EV.call (σ := σ) (ofSrc (ω := ω × List (Ev α)) it).next [] p = (if it.panics then .error .user else .ok (none, []), p) := by
      unfold EV.call ofSrc
      cases it.panics <;> simp
    unfold MakesAt
    rw [e]
    refine ⟨⟨[], by simp, List.nil_prefix, fun _ _ => rfl⟩, fun r p' hr => ?_⟩
    cases hb : it.panics <;> simp [hb] at hr
    rw [← hr.1]
  | x :: xs => fun p => ⟨MakesAt.silent rfl, fun r p' hr => by
      unfold EV.call ofSrc at hr
      simp only [Prod.mk.injEq, Except.ok.injEq] at hr
      rw [← hr.1]
      exact ⟨rfl, feedsLog_ofSrc it xs⟩⟩

theorem feedsLog_moved : ∀ xs : List α, FeedsLog (σ := σ) (moved (ω := ω × List (Ev α))) (fun _ => []) xs xs
  | [] => fun p => ⟨MakesAt.silent rfl, fun r p' hr => by
      unfold EV.call moved at hr
      simp only [Prod.mk.injEq, Except.ok.injEq] at hr
      rw [← hr.1]⟩
  | x :: xs => fun p => ⟨MakesAt.silent rfl, fun r p' hr => by
      unfold EV.call moved at hr
      simp only [Prod.mk.injEq, Except.ok.injEq] at hr
      rw [← hr.1]
      exact ⟨rfl, feedsLog_moved xs⟩⟩

theorem feedsLog_cloned (hk : h.Clones) : ∀ xs : List α, FeedsLog (σ := σ) (cloned h.watched) (fun x => [.clone x]) xs xs
  | [] => fun p => ⟨MakesAt.silent rfl, fun r p' hr => by
      unfold EV.call cloned at hr
      simp only [Prod.mk.injEq, Except.ok.injEq] at hr
      rw [← hr.1]⟩
  | x :: xs => fun p => by
    have ih := feedsLog_cloned hk xs
    rcases hx : h.clone x p.2.1 with ⟨_ | y, w'⟩
    · have e : EV.call (cloned h.watched).next (x :: xs) p = (.error .user, (p.1, (w', p.2.2 ++ [.clone x]))) := by
        unfold EV.call cloned Impl.watched watched; simp only [hx]
      unfold MakesAt
      rw [e]
      exact ⟨⟨[.clone x], rfl, List.prefix_refl _, fun _ hb => by cases hb⟩, fun r p' hr => by cases hr⟩
    · obtain rfl := hk _ _ _ _ hx
      have e : EV.call (cloned h.watched).next (y :: xs) p = (.ok (some y, xs), (p.1, (w', p.2.2 ++ [.clone y]))) := by
        unfold EV.call cloned Impl.watched watched; simp only [hx]
      unfold MakesAt
      rw [e]
      exact ⟨⟨[.clone y], rfl, List.prefix_refl _, fun _ _ => rfl⟩, fun r p' hr => by cases hr; exact ⟨rfl, ih⟩⟩

theorem feedsLog_repeat (hk : h.Clones) (x : α) : ∀ k : Nat, FeedsLog (σ := σ) (repeatTake h.watched x) (fun x => [.clone x]) k (List.replicate k x)
  | 0 => fun p => ⟨MakesAt.silent rfl, fun r p' hr => by
      unfold EV.call repeatTake at hr
      simp only [Prod.mk.injEq, Except.ok.injEq] at hr
      rw [← hr.1]⟩
  | k + 1 => by
    rw [List.replicate_succ]
    intro p
    have ih := feedsLog_repeat hk x k
    rcases hx : h.clone x p.2.1 with ⟨_ | y, w'⟩
    · have e : EV.call (repeatTake h.watched x).next (k + 1) p = (.error .user, (p.1, (w', p.2.2 ++ [.clone x]))) := by
        unfold EV.call repeatTake Impl.watched watched; simp only [hx]
      unfold MakesAt
      rw [e]
      exact ⟨⟨[.clone x], rfl, List.prefix_refl _, fun _ hb => by cases hb⟩, fun r p' hr => by cases hr⟩
    · obtain rfl := hk _ _ _ _ hx
      have e : EV.call (repeatTake h.watched y).next (k + 1) p = (.ok (some y, k), (p.1, (w', p.2.2 ++ [.clone y]))) := by
        unfold EV.call repeatTake Impl.watched watched; simp only [hx]
      unfold MakesAt
      rw [e]
      exact ⟨⟨[.clone y], rfl, List.prefix_refl _, fun _ _ => rfl⟩, fun r p' hr => by cases hr; exact ⟨rfl, ih⟩⟩

theorem cloneEach_eq (x : α) : ∀ n : Nat, (List.replicate n x).flatMap (fun x => [Ev.clone x] ++ [.toDiscr x]) = cloneEach n x
  | 0 => rfl
  | n + 1 => by rw [List.replicate_succ, List.flatMap_cons, cloneEach_eq x n]; rfl

theorem repeat_makes (hk : h.Clones) (x : α) (k : Nat) (p : EV c.W × (ω × List (Ev α))) :
    MakesAt (extend c h.watched (repeatTake h.watched x) (k + 1) k) p (cloneEach k x) := by
  rw [← cloneEach_eq]
  exact extend_makes h (fun _ => rfl) (by simp) (feedsLog_repeat h hk x k) p

theorem extendWithValue_makes (hk : h.Clones) (x : α) (count : Nat) (s : EV c.W) (w : ω × List (Ev α)) :
    MakesAt (extendWithValue c h.watched x count) (s, w) (fillCalls c.epb s.num count x) := by
  unfold extendWithValue fillCalls
  split
  · exact (repeat_makes h hk x count _).done fun _ p _ => MakesAt.pure _ _
  · rename_i hcount
    refine MakesAt.seq (MakesAt.silent rfl) fun q p hq => ?_
    obtain ⟨rfl, rfl⟩ : (s, w) = q ∧ (s, w) = p := ⟨Except.ok.inj (congrArg Prod.fst hq), congrArg Prod.snd hq⟩
    refine (repeat_makes h hk x _ _).bind fun _ p1 _ => ?_
    refine (toDiscr_makes h x p1).bind fun d p2 _ => ?_
    refine MakesAt.seq (MakesAt.onFst _ _) fun _ p3 _ => ?_
    have e : count - (c.epb - len c (s, w).1 % c.epb + (count - (c.epb - len c (s, w).1 % c.epb)) / c.epb * c.epb) = (count - (c.epb - s.num % c.epb)) % c.epb := by
      show count - (c.epb - s.num % c.epb + (count - (c.epb - s.num % c.epb)) / c.epb * c.epb) = _
      generalize c.epb - s.num % c.epb = f
      have := Nat.mod_add_div (count - f) c.epb
      rw [Nat.mul_comm] at this
      omega
    rw [e]
    exact (repeat_makes h hk x _ _).done fun _ p _ => MakesAt.pure _ _

theorem resize_makes (hk : h.Clones) (x : α) (n : Nat) (s : EV c.W) (w : ω × List (Ev α)) :
    MakesAt (resize c h.watched n x) (s, w) (if n > s.num then fillCalls c.epb s.num (n - s.num) x else []) := by
  unfold resize
  refine MakesAt.seq (MakesAt.silent rfl) fun q p hq => ?_
  obtain ⟨rfl, rfl⟩ : (s, w) = q ∧ (s, w) = p := ⟨Except.ok.inj (congrArg Prod.fst hq), congrArg Prod.snd hq⟩
  by_cases hn : n > s.num
  · rw [if_pos hn, if_pos (show n > len c (s, w).1 from hn)]
    exact extendWithValue_makes h hk x _ s w
  · rw [if_neg hn, if_neg (show ¬ n > len c (s, w).1 from hn)]
    exact MakesAt.onFst _ _

end Hostile
end EnumVecModel
