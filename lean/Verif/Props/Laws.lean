import Verif.LawsSpec
import Verif.Props.History
import Verif.Props.Exact

/-! # Rewriting programs (C76) -/

namespace EnumVecModel
open EV

variable {α τ : Type} {c : Inst α} [DecidableEq α]

theorem vecRun_append (E : EnumLike α) : ∀ (p q : List (Op τ α)) (v : Vecs α τ),
    vecRun E (p ++ q) v = ((vecRun E p v).1 ++ (vecRun E q (vecRun E p v).2).1, (vecRun E q (vecRun E p v).2).2)
  | [], _, _ => rfl
  | o :: p, q, v => by simp only [List.cons_append, vecRun, vecRun_append E p q]

theorem vecRun_length (E : EnumLike α) : ∀ (p : List (Op τ α)) (v : Vecs α τ), (vecRun E p v).1.length = p.length
  | [], _ => rfl
  | _ :: p, _ => by simp only [vecRun, List.length_cons, vecRun_length E p]

omit [DecidableEq α] in
theorem filterSpec_pure (p : α → Bool) : ∀ (l : List α) (w : τ), filterSpec (pureClosure p) l w = (l.filter p, w, true)
  | [], _ => rfl
  | x :: l, w => by
    unfold filterSpec
    show (match (some (p x), w) with | (some true, t') => _ | (some false, t') => _ | (none, t') => _) = _
    cases hp : p x with
    | true => simp only [filterSpec_pure p l w, List.filter_cons, hp, if_true]
    | false => simp only [filterSpec_pure p l w, List.filter_cons, hp]; rfl

omit [DecidableEq α] in
theorem mapSpec_pure (f : α → α) : ∀ (l : List α) (w : τ), mapSpec (pureClosure f) l w = (l.map f, w, true)
  | [], _ => rfl
  | x :: l, w => by
    unfold mapSpec
    simp only [pureClosure, mapSpec_pure f l w, List.map_cons]

omit [DecidableEq α] in
theorem vecs_ext {v v' : Vecs α τ} (h : ∀ k, v.reg k = v'.reg k) (hw : v.world = v'.world) : v = v' := by
  cases v; cases v'
  simp only at h hw
  rw [hw, funext h]

omit [DecidableEq α] in
theorem list_swap_swap (l : List α) (i j : Nat) (x y : α) (hx : l[i]? = some x) (hy : l[j]? = some y) :
    (((l.set i y).set j x).set i x).set j y = l := by
  apply List.ext_getElem?
  intro k
  simp only [List.getElem?_set, List.length_set]
  grind

omit [DecidableEq α] in
theorem list_swap_comm (l : List α) (i j : Nat) (x y : α) (hx : l[i]? = some x) (hy : l[j]? = some y) :
    (l.set i y).set j x = (l.set j x).set i y := by
  apply List.ext_getElem?
  intro k
  simp only [List.getElem?_set, List.length_set]
  grind

/-- Every law holds for `Vec`. -/
theorem law_vec (E : EnumLike α) {p q : List (Op τ α)} (h : Law p q) (v : Vecs α τ) : (vecRun E p v).2 = (vecRun E q v).2 := by
  cases h with
  | read o h => cases o <;> first | rfl | cases h
  | push_pop r x => exact vecs_ext (fun k => by simp only [vecRun, vecStep, upd]; split <;> simp_all) rfl
  | insert_remove r i x =>
    simp only [vecRun, vecStep]
    by_cases hi : i ≤ (v.reg r).length
    · simp only [if_pos hi, upd_same]
      have h1 : ((v.reg r).take i ++ x :: (v.reg r).drop i)[i]? = some x := by
        rw [List.getElem?_append_right (by simp [hi])]; simp [Nat.min_eq_left hi]
      simp only [h1]
      refine vecs_ext (fun k => ?_) rfl
      simp only [upd]
      split
      · next hk => rw [hk]; rw [List.take_left' (by simp [hi]), List.drop_append, List.drop_eq_nil_of_le (by simp; omega)]; simp [Nat.min_eq_left hi]
      · rfl
    · simp only [if_neg hi]
      rw [List.getElem?_eq_none (by omega)]
  | insert_front r x y => exact vecs_ext (fun k => by simp only [vecRun, vecStep, upd, Nat.zero_le, if_true]; split <;> simp_all) rfl
  | swap_swap r i j =>
    simp only [vecRun, vecStep]
    cases hx : (v.reg r)[i]? with
    | none => simp only [hx]
    | some x =>
      cases hy : (v.reg r)[j]? with
      | none => simp only [hx, hy]
      | some y =>
        simp only [upd_same]
        have hi : i < (v.reg r).length := (List.getElem?_eq_some_iff.mp hx).1
        have hj : j < (v.reg r).length := (List.getElem?_eq_some_iff.mp hy).1
        have h1 : (((v.reg r).set i y).set j x)[i]? = some y := by
          rw [List.getElem?_set]; split
          · next h => subst h; rw [if_pos (by simpa using hi), ← hx, hy]
          · rw [List.getElem?_set_self hi]
        have h2 : (((v.reg r).set i y).set j x)[j]? = some x := by rw [List.getElem?_set_self (by simpa using hj)]
        simp only [h1, h2]
        refine vecs_ext (fun k => ?_) rfl
        simp only [upd]
        split
        · next hk => rw [hk]; exact list_swap_swap _ i j x y hx hy
        · rfl
  | swap_comm r i j =>
    simp only [vecRun, vecStep]
    cases hx : (v.reg r)[i]? with
    | none => cases hy : (v.reg r)[j]? <;> rfl
    | some x =>
      cases hy : (v.reg r)[j]? with
      | none => rfl
      | some y => simp only [list_swap_comm _ i j x y hx hy]
  | set_set r i x y =>
    simp only [vecRun, vecStep]
    by_cases hi : i < (v.reg r).length
    · simp only [if_pos hi, upd_same, List.length_set]
      refine vecs_ext (fun k => ?_) rfl
      simp only [upd]; split <;> simp_all
    · simp only [if_neg hi]
  | set_comm r i j x y hij =>
    simp only [vecRun, vecStep]
    by_cases hi : i < (v.reg r).length <;> by_cases hj : j < (v.reg r).length <;>
      simp only [hi, hj, if_true, if_false, upd_same, List.length_set]
    refine vecs_ext (fun k => ?_) rfl
    simp only [upd]
    split
    · exact List.set_comm _ _ hij
    · rfl
  | truncate_truncate r n k =>
    exact vecs_ext (fun q => by simp only [vecRun, vecStep, upd]; split <;> simp_all [List.take_take, Nat.min_comm]) rfl
  | clear_truncate r => exact vecs_ext (fun k => by simp only [vecRun, vecStep, upd, List.take_zero]) rfl
  | clear_new r => rfl
  | with_capacity r n => rfl
  | from_elem r x n =>
    exact vecs_ext (fun k => by simp only [vecRun, vecStep, upd]; split <;> simp) rfl
  | resize_resize r n x y =>
    refine vecs_ext (fun k => ?_) rfl
    simp only [vecRun, vecStep, upd]
    split
    · next hk =>
      simp only [if_true, List.length_append, List.length_take, List.length_replicate]
      rw [List.take_of_length_le (by simp; omega), show n - (min n (v.reg r).length + (n - (v.reg r).length)) = 0 by omega]
      simp
    · rfl
  | resize_truncate r n k x hk =>
    refine vecs_ext (fun q => ?_) rfl
    simp only [vecRun, vecStep, upd]
    split
    · simp only [if_true, List.take_append, List.take_take, List.length_take, List.take_replicate, Nat.min_eq_left hk]
      congr 2
      omega
    · rfl
  | from_vec r xs => rfl
  | from_iter r it hp => simp only [vecRun, vecStep, hp]; rfl
  | collect r it hp =>
    simp only [vecRun, vecStep, hp]
    exact vecs_ext (fun k => by simp only [Bool.false_eq_true, if_false, upd]; split <;> simp) rfl
  | extend_extend r a b d h =>
    exact vecs_ext (fun k => by simp only [vecRun, vecStep, upd]; split <;> simp_all) rfl
  | extend_one r x it h => simp only [vecRun, vecStep, h]
  | append_twice r s o hr hs =>
    refine vecs_ext (fun k => ?_) rfl
    simp only [vecRun, vecStep, upd]
    grind
  | clone_append d r o h1 h2 h3 =>
    refine vecs_ext (fun k => ?_) rfl
    simp only [vecRun, vecStep, upd]
    grind
  | clone_clone d e s h =>
    refine vecs_ext (fun k => ?_) rfl
    simp only [vecRun, vecStep, upd]
    grind
  | dead_clone d s e h =>
    refine vecs_ext (fun k => ?_) rfl
    simp only [vecRun, vecStep, upd]
    grind
  | retain_retain r p q =>
    simp only [vecRun, vecStep, filterSpec_pure, upd_same]
    refine vecs_ext (fun k => ?_) rfl
    simp only [upd]
    split
    · rw [List.filter_filter]; simp only [Bool.and_comm]
    · rfl
  | for_each_for_each r f g =>
    simp only [vecRun, vecStep, mapSpec_pure, upd_same]
    refine vecs_ext (fun k => ?_) rfl
    simp only [upd]
    split
    · rw [List.map_map]; rfl
    · rfl
  | for_each_retain r f p =>
    simp only [vecRun, vecStep, mapSpec_pure, filterSpec_pure, upd_same]
    refine vecs_ext (fun k => ?_) rfl
    simp only [upd]
    split
    · rw [List.filter_map]; rfl
    · rfl

/-- Programs that can be rewritten into each other do the same to `Vec`s. -/
theorem C76_vec (E : EnumLike α) {p q : List (Op τ α)} (h : Equal p q) : ∀ v : Vecs α τ, (vecRun E p v).2 = (vecRun E q v).2 := by
  induction h with
  | law h => exact law_vec E h
  | refl p => exact fun _ => rfl
  | symm _ ih => exact fun v => (ih v).symm
  | trans _ _ ih ih' => exact fun v => (ih v).trans (ih' v)
  | inside pre post _ ih =>
    intro v
    rw [List.append_assoc, List.append_assoc, vecRun_append, vecRun_append E pre, vecRun_append, vecRun_append E _ post, ih]

/-- **C76 (partial)** Refactoring. Replace calls `p` anywhere in a program by calls `q` that the laws of `Vec` make equal — and, if you like,
change the block type, the storage, the build or the allocator at the same time: all calls before and after them return what they returned,
the closures see and do the same, and the variables end with equal contents; provided both programs consist of allowed calls (in the sense of
C01) and do not run out of memory. Full claim: without `AllowedRun`. It is false then: see `C76_refactor_wrong`. -/
theorem C76_refactor_partial {c c' : Inst α} (hc : c.Ok) (hc' : c'.Ok) (hE : c.E = c'.E) (w : τ) (pre post : List (Op τ α))
    {p q : List (Op τ α)} (h : Equal p q) (ha : AllowedRun c (pre ++ p ++ post) (fun _ => .clean) (Vecs.start w))
    (ha' : AllowedRun c' (pre ++ q ++ post) (fun _ => .clean) (Vecs.start w))
    (ho : .oom ∉ (run c (pre ++ p ++ post) (Mem.start c w)).1) (ho' : .oom ∉ (run c' (pre ++ q ++ post) (Mem.start c' w)).1) :
    (run c (pre ++ p ++ post) (Mem.start c w)).1.take pre.length = (run c' (pre ++ q ++ post) (Mem.start c' w)).1.take pre.length ∧
    (run c (pre ++ p ++ post) (Mem.start c w)).1.drop (pre.length + p.length) =
      (run c' (pre ++ q ++ post) (Mem.start c' w)).1.drop (pre.length + q.length) ∧
    (run c (pre ++ p ++ post) (Mem.start c w)).2.world = (run c' (pre ++ q ++ post) (Mem.start c' w)).2.world ∧
    ∀ r, marksRun c (pre ++ p ++ post) (fun _ => .clean) (Vecs.start w) r ≠ .dead →
      marksRun c' (pre ++ q ++ post) (fun _ => .clean) (Vecs.start w) r ≠ .dead →
      ∃ l, Is c ((run c (pre ++ p ++ post) (Mem.start c w)).2.reg r) l ∧ Is c' ((run c' (pre ++ q ++ post) (Mem.start c' w)).2.reg r) l := by
  rcases C01_history_partial hc w _ ha with ⟨h1, h2, h3⟩ | ⟨_, _, _, -, h1, -⟩
  · rcases C01_history_partial hc' w _ ha' with ⟨g1, g2, g3⟩ | ⟨_, _, _, -, g1, -⟩
    · have hv := C76_vec c.E (Equal.inside pre post h) (Vecs.start w)
      have key : ∀ (p : List (Op τ α)), (vecRun c.E (pre ++ p ++ post) (Vecs.start w)).1.take pre.length = (vecRun c.E pre (Vecs.start w)).1 ∧
          (vecRun c.E (pre ++ p ++ post) (Vecs.start w)).1.drop (pre.length + p.length) =
            (vecRun c.E post (vecRun c.E p (vecRun c.E pre (Vecs.start w)).2).2).1 := by
        intro p
        rw [List.append_assoc, vecRun_append, vecRun_append]
        constructor
        · exact List.take_left' (vecRun_length ..)
        · rw [← List.append_assoc]
          exact List.drop_left' (by rw [List.length_append, vecRun_length, vecRun_length])
      rw [h1, g1, h2, g2, ← hE, (key p).1, (key q).1, (key p).2, (key q).2, hv, C76_vec c.E h]
      refine ⟨rfl, rfl, rfl, fun r hr hr' => ⟨(vecRun c.E (pre ++ q ++ post) (Vecs.start w)).2.reg r, ?_, ?_⟩⟩
      · rw [← hv]; exact h3 r hr
      · rw [hE]; exact g3 r hr'
    · exact absurd (by rw [g1]; simp) ho'
  · exact absurd (by rw [h1]; simp) ho

/-- **C76 (partial)** No proviso but memory, for programs of plain calls: no `insert` and `split_off`, no `remove` if blocks have unused bits,
`append` only with `SmallVec` storage, honest iterators. -/
theorem C76_plain_partial {c c' : Inst α} (hc : c.Ok) (hc' : c'.Ok) (hE : c.E = c'.E) (w : τ) (pre post : List (Op τ α))
    {p q : List (Op τ α)} (h : Equal p q) (hp : ∀ o ∈ pre ++ p ++ post, o.Plain c) (hq : ∀ o ∈ pre ++ q ++ post, o.Plain c')
    (ho : .oom ∉ (run c (pre ++ p ++ post) (Mem.start c w)).1) (ho' : .oom ∉ (run c' (pre ++ q ++ post) (Mem.start c' w)).1) :
    (run c (pre ++ p ++ post) (Mem.start c w)).1.take pre.length = (run c' (pre ++ q ++ post) (Mem.start c' w)).1.take pre.length ∧
    (run c (pre ++ p ++ post) (Mem.start c w)).1.drop (pre.length + p.length) =
      (run c' (pre ++ q ++ post) (Mem.start c' w)).1.drop (pre.length + q.length) ∧
    (run c (pre ++ p ++ post) (Mem.start c w)).2.world = (run c' (pre ++ q ++ post) (Mem.start c' w)).2.world ∧
    ∀ r, ∃ l, Is c ((run c (pre ++ p ++ post) (Mem.start c w)).2.reg r) l ∧ Is c' ((run c' (pre ++ q ++ post) (Mem.start c' w)).2.reg r) l := by
  obtain ⟨h1, h2⟩ := plain_allowed _ (fun _ => .clean) (Vecs.start w) hp (fun _ => nofun)
  obtain ⟨g1, g2⟩ := plain_allowed _ (fun _ => .clean) (Vecs.start w) hq (fun _ => nofun)
  obtain ⟨k1, k2, k3, k4⟩ := C76_refactor_partial hc hc' hE w pre post h h1 g1 ho ho'
  exact ⟨k1, k2, k3, fun r => k4 r (h2 r) (g2 r)⟩

theorem SameRun.final {c : Inst α} : ∀ (ops : List (Op τ α)) {m : Mem c τ} {v : Vecs α τ}, Same c m v → SameRun c ops m v →
    (runAll c ops m).1 = (vecRun c.E ops v).1 ∧ Same c (runAll c ops m).2 (vecRun c.E ops v).2
  | [], _, _, h, _ => ⟨rfl, h⟩
  | o :: os, m, v, _, hs => by
    obtain ⟨h1, h2⟩ := hs.2.final os hs.1.2
    refine ⟨?_, h2⟩
    show (step c m o).1 :: _ = (vecStep c.E v o).1 :: _
    rw [hs.1.1, h1]

theorem refactor_take_drop (E : EnumLike α) (w : τ) (pre post : List (Op τ α)) {p q : List (Op τ α)} (h : Equal p q) :
    (vecRun E (pre ++ p ++ post) (Vecs.start w)).1.take pre.length = (vecRun E (pre ++ q ++ post) (Vecs.start w)).1.take pre.length ∧
    (vecRun E (pre ++ p ++ post) (Vecs.start w)).1.drop (pre.length + p.length) =
      (vecRun E (pre ++ q ++ post) (Vecs.start w)).1.drop (pre.length + q.length) := by
  have key : ∀ (p : List (Op τ α)), (vecRun E (pre ++ p ++ post) (Vecs.start w)).1.take pre.length = (vecRun E pre (Vecs.start w)).1 ∧
      (vecRun E (pre ++ p ++ post) (Vecs.start w)).1.drop (pre.length + p.length) =
        (vecRun E post (vecRun E p (vecRun E pre (Vecs.start w)).2).2).1 := by
    intro p
    rw [List.append_assoc, vecRun_append, vecRun_append]
    constructor
    · exact List.take_left' (vecRun_length ..)
    · rw [← List.append_assoc]
      exact List.drop_left' (by rw [List.length_append, vecRun_length, vecRun_length])
  rw [(key p).1, (key q).1, (key p).2, (key q).2, C76_vec E h]
  exact ⟨rfl, rfl⟩

/-- **C76** Refactoring, with the exact condition of C60 instead of the sufficient one of C01: the condition `AgreesRun` says of each call
whether it is, in the state it is made in, the call of `Vec`. All variables end with equal contents, none is given up. -/
theorem C76_exact {c c' : Inst α} (hc : c.Ok) (hc' : c'.Ok) (hE : c.E = c'.E) (w : τ) (pre post : List (Op τ α))
    {p q : List (Op τ α)} (h : Equal p q) (hb : ∀ o ∈ pre ++ p ++ post, o.Borrows) (hb' : ∀ o ∈ pre ++ q ++ post, o.Borrows)
    (ha : AgreesRun c (pre ++ p ++ post) (Mem.start c w) (Vecs.start w))
    (ha' : AgreesRun c' (pre ++ q ++ post) (Mem.start c' w) (Vecs.start w))
    (ho : .oom ∉ (runAll c (pre ++ p ++ post) (Mem.start c w)).1) (ho' : .oom ∉ (runAll c' (pre ++ q ++ post) (Mem.start c' w)).1) :
    (runAll c (pre ++ p ++ post) (Mem.start c w)).1.take pre.length =
      (runAll c' (pre ++ q ++ post) (Mem.start c' w)).1.take pre.length ∧
    (runAll c (pre ++ p ++ post) (Mem.start c w)).1.drop (pre.length + p.length) =
      (runAll c' (pre ++ q ++ post) (Mem.start c' w)).1.drop (pre.length + q.length) ∧
    (runAll c (pre ++ p ++ post) (Mem.start c w)).2.world = (runAll c' (pre ++ q ++ post) (Mem.start c' w)).2.world ∧
    ∀ r, ∃ l, Is c ((runAll c (pre ++ p ++ post) (Mem.start c w)).2.reg r) l ∧
      Is c' ((runAll c' (pre ++ q ++ post) (Mem.start c' w)).2.reg r) l := by
  have e1 := ((C60_start hc w _ hb ho).mpr ha).final _ ⟨rfl, fun _ => (new_holds hc).is hc⟩
  have e2 := ((C60_start hc' w _ hb' ho').mpr ha').final _ ⟨rfl, fun _ => (new_holds hc').is hc'⟩
  have hv := C76_vec c.E (Equal.inside pre post h) (Vecs.start w)
  have kt := refactor_take_drop c.E w pre post h
  rw [e1.1, e2.1, e1.2.world, e2.2.world, ← hE]
  refine ⟨kt.1, kt.2, by rw [hv], fun r => ⟨_, e1.2.reg r, ?_⟩⟩
  rw [hv, hE]
  exact e2.2.reg r

/-! ### A concrete case -/

/-- Collect, filter twice, look, and clean up by hand … -/
def longCode : List (Op Nat (Fin 8)) :=
  [.fromIter 0 ⟨3, [1, 2, 3, 4, 5, 6, 7, 0, 1, 2, 3, 4], false⟩, .len 0, .retain 0 (pureClosure fun x => x != 2),
   .retain 0 (pureClosure fun x => x != 5), .clone 1 0, .append 2 1, .clear 0]

/-- … or shorter. -/
def shortCode : List (Op Nat (Fin 8)) :=
  [.fromVec 0 [1, 2, 3, 4, 5, 6, 7, 0, 1, 2, 3, 4], .retain 0 (pureClosure fun x => x != 2 && x != 5), .append 2 0, .new 1]

theorem long_short : Equal longCode shortCode :=
  .trans (.inside [.fromIter 0 ⟨3, [1, 2, 3, 4, 5, 6, 7, 0, 1, 2, 3, 4], false⟩] _ (.law (.read (.len 0) rfl)))
    (.trans (.inside [] _ (.law (.from_iter 0 _ rfl)))
      (.trans (.inside [.fromVec 0 [1, 2, 3, 4, 5, 6, 7, 0, 1, 2, 3, 4]] [.clone 1 0, .append 2 1, .clear 0]
          (.law (.retain_retain 0 (fun x => x != 2) fun x => x != 5)))
        (.inside [.fromVec 0 [1, 2, 3, 4, 5, 6, 7, 0, 1, 2, 3, 4], .retain 0 (pureClosure fun x => x != 2 && x != 5)] []
          (.law (.clone_append 1 2 0 (by decide) (by decide) (by decide))))))

/-- The theorem applies, here with a change from 32-bit to 128-bit blocks. -/
example :
    (run c8 ([.push 2 7] ++ longCode ++ [.toVec 2, .hash 0, .isEmpty 1]) (Mem.start c8 0)).1.drop (1 + 7) =
      (run (exInst 128 8 debug64 false) ([.push 2 7] ++ shortCode ++ [.toVec 2, .hash 0, .isEmpty 1]) (Mem.start _ 0)).1.drop (1 + 4) :=
  have h := C76_refactor_partial (c := c8) (c' := exInst 128 8 debug64 false) c8_ok
    (exInst_ok _ _ (by omega) (by omega) (by omega) (by omega)) rfl 0 [.push 2 7]
    [.toVec 2, .hash 0, .isEmpty 1] long_short (by decide +kernel) (by decide +kernel) (by decide +kernel) (by decide +kernel)
  h.2.1

local instance (ops : List (Op τ (Fin 8))) (m : Mem c8 τ) (v : Vecs (Fin 8) τ) : Decidable (AgreesRun c8 ops m v) :=
  agreesRunDec (by decide) ops m v

/-- C76_exact applies where C76_refactor_partial does not: the calls after the rewritten ones leave bits that `remove` finds, but those of
the element that moves there. -/
example : ¬ AllowedRun c8 ([] ++ [.fromVec 0 (List.replicate 22 7)] ++ luckyHistory.drop 1) (fun _ => .clean) (Vecs.start 0) ∧
    (runAll c8 ([] ++ [.fromVec 0 (List.replicate 22 7)] ++ luckyHistory.drop 1) (Mem.start c8 0)).1.drop (0 + 1) =
      (runAll c8 ([] ++ [.fromSlice 0 (List.replicate 22 7)] ++ luckyHistory.drop 1) (Mem.start c8 0)).1.drop (0 + 1) :=
  have h := C76_exact (c := c8) (c' := c8) c8_ok c8_ok rfl 0 [] (luckyHistory.drop 1) (.law (.from_vec 0 (List.replicate 22 7)))
    (by decide +kernel) (by decide +kernel) (by decide +kernel) (by decide +kernel) (by decide +kernel) (by decide +kernel)
  ⟨by decide +kernel, h.2.1⟩

/-- It says something: the elements that are left. -/
example : (run c8 ([.push 2 7] ++ longCode ++ [.toVec 2, .hash 0, .isEmpty 1]) (Mem.start c8 0)).1.drop (1 + 7) =
    [.list [7, 1, 3, 4, 6, 7, 0, 1, 3, 4], .hash [], .bool true] := by decide +kernel

/-- **C76 is false in full**: filling in one go leaves garbage in unused bits, which a later `remove` mixes into an element; filling only
what is needed does not. -/
theorem C76_refactor_wrong : Equal ([.resize 0 50 7, .truncate 0 25] : List (Op Nat (Fin 8))) [.resize 0 25 7] ∧
    (run c8 ([] ++ [.resize 0 50 7, .truncate 0 25] ++ [.set 0 20 0, .remove 0 0, .get 0 19]) (Mem.start c8 0)).1.drop 2 =
      [.unit, .val 7, .item (some 3)] ∧
    (run c8 ([] ++ [.resize 0 25 7] ++ [.set 0 20 0, .remove 0 0, .get 0 19]) (Mem.start c8 0)).1.drop 1 =
      [.unit, .val 7, .item (some 0)] :=
  ⟨.law (.resize_truncate 0 50 25 7 (by decide)), by decide +kernel, by decide +kernel⟩

end EnumVecModel
