import Verif.Lemmas.Num

set_option linter.unusedSectionVars false

/-! # The calls that read numbers back (for C63) -/

namespace EnumVecModel
open EV

variable {α τ : Type}

section
variable {c : Inst α} (hc : c.Sound) (hr : ∀ x, c.E.toDiscr x < 2 ^ c.bits)
include hc

omit hc in
theorem numMap_len (f : Closure τ α α) : ∀ (ds : List Nat) (w : τ), (numMap c.E f ds w).1.length ≤ ds.length
  | [], _ => Nat.le_refl _
  | d :: ds, w => by
    unfold numMap
    split
    · simp
    · split
      · have := numMap_len f ds; simp; apply this
      · simp

omit hc in
theorem numFilter_len (f : Closure τ α Bool) : ∀ (ds : List Nat) (w : τ), (numFilter c.E f ds w).1.length ≤ ds.length
  | [], _ => Nat.le_refl _
  | d :: ds, w => by
    unfold numFilter
    split
    · simp
    · split
      · have := numFilter_len f ds; simp; apply this
      · have := numFilter_len f ds; exact Nat.le_succ_of_le (this _)
      · simp

include hr in
theorem forEachLoop_nums (f : Closure τ α α) : ∀ (todo done : List Nat) (s : EV c.W) (t : τ),
    IsNums c s (done ++ todo) →
    ∃ s' r, loop (forEachStep c f) todo.length done.length () (s, t) = (r, (s', (numMap c.E f todo t).2.1)) ∧
      (match (numMap c.E f todo t).2.2 with
        | none => r = .ok ()
        | some o => ∃ e, r = .error e ∧ Fault.out e = o) ∧
      IsNums c s' (done ++ (numMap c.E f todo t).1 ++ todo.drop (numMap c.E f todo t).1.length) := by
  intro todo
  induction todo with
  | nil =>
    intro done s t h
    exact ⟨s, .ok (), rfl, rfl, by simpa [numMap] using h⟩
  | cons d ds ih =>
    intro done s t h
    have hget := h.get_some hc (i := done.length) (d := d) (by simp)
    show ∃ s' r, (forEachStep c f done.length () >>= fun acc => loop (forEachStep c f) ds.length (done.length + 1) acc)
      (s, t) = _ ∧ _
    cases hd : c.E.fromDiscr d with
    | none =>
      rw [hd] at hget
      have hs : forEachStep c f done.length () (s, t) = (.error .badDiscr, (s, t)) := by
        unfold forEachStep; exact M.bind_error (onFst_eq hget t)
      refine ⟨s, .error .badDiscr, ?_, ?_, ?_⟩
      · rw [M.bind_error hs]; simp [numMap, hd]
      · simp [numMap, hd, Fault.out]
      · simpa [numMap, hd] using h
    | some x =>
      rw [hd] at hget
      rcases hfx : f x t with ⟨_ | y, t'⟩
      · have hs : forEachStep c f done.length () (s, t) = (.error .user, (s, t')) := by
          unfold forEachStep
          rw [M.bind_ok (onFst_eq hget t), M.unwrap_some_bind]
          have hcall : call f x (s, t) = (.error .user, (s, t')) := by unfold call; rw [hfx]
          rw [M.bind_error hcall]
        refine ⟨s, .error .user, ?_, ?_, ?_⟩
        · rw [M.bind_error hs]; simp [numMap, hd, hfx]
        · simp [numMap, hd, hfx, Fault.out]
        · simpa [numMap, hd, hfx] using h
      · obtain ⟨s1, e1, h1⟩ := h.set hc hr (i := done.length) (by simp) y
        have hs : forEachStep c f done.length () (s, t) = (.ok (), (s1, t')) := by
          unfold forEachStep
          rw [M.bind_ok (onFst_eq hget t), M.unwrap_some_bind]
          have hcall : call f x (s, t) = (.ok y, (s, t')) := by unfold call; rw [hfx]
          rw [M.bind_ok hcall]
          exact onFst_eq e1 t'
        have e : (done ++ d :: ds).set done.length (c.E.toDiscr y) = (done ++ [c.E.toDiscr y]) ++ ds := by
          rw [List.set_append_right _ _ (Nat.le_refl _)]; simp
        rw [e] at h1
        obtain ⟨s', r, g1, g2, g3⟩ := ih (done ++ [c.E.toDiscr y]) _ t' h1
        rw [M.bind_ok hs]
        have el : (done ++ [c.E.toDiscr y]).length = done.length + 1 := by simp
        rw [el] at g1
        refine ⟨s', r, ?_, ?_, ?_⟩
        · rw [g1]; simp [numMap, hd, hfx]
        · simpa only [numMap, hd, hfx] using g2
        · simpa [numMap, hd, hfx] using g3

include hr in
theorem retainLoop_nums (f : Closure τ α Bool) (l : List Nat) : ∀ (todo pre kept : List Nat) (s : EV c.W) (t : τ),
    l = pre ++ todo → kept.length ≤ pre.length →
    IsNums c s (kept ++ l.drop kept.length) →
    ∃ s' r, loop (retainStep c f) todo.length pre.length kept.length (s, t) = (r, (s', (numFilter c.E f todo t).2.1)) ∧
      (match (numFilter c.E f todo t).2.2 with
        | none => r = .ok (kept ++ (numFilter c.E f todo t).1).length
        | some o => ∃ e, r = .error e ∧ Fault.out e = o) ∧
      IsNums c s' ((kept ++ (numFilter c.E f todo t).1) ++ l.drop (kept ++ (numFilter c.E f todo t).1).length) := by
  intro todo
  induction todo with
  | nil =>
    intro pre kept s t hl hk h
    refine ⟨s, .ok kept.length, rfl, ?_, by simpa [numFilter] using h⟩
    simp [numFilter]
  | cons d ds ih =>
    intro pre kept s t hl hk h
    have hxg : (kept ++ l.drop kept.length)[pre.length]? = some d := by
      rw [List.getElem?_append_right hk, List.getElem?_drop]
      have : kept.length + (pre.length - kept.length) = pre.length := by omega
      rw [this, hl]; simp
    have hget := h.get_some hc hxg
    have hplt : kept.length < (kept ++ l.drop kept.length).length := by
      rw [hl]; simp; omega
    have hl' : l = (pre ++ [d]) ++ ds := by rw [hl]; simp
    have el : (pre ++ [d]).length = pre.length + 1 := by simp
    show ∃ s' r, (retainStep c f pre.length kept.length >>= fun acc =>
      loop (retainStep c f) ds.length (pre.length + 1) acc) (s, t) = _ ∧ _
    cases hd : c.E.fromDiscr d with
    | none =>
      rw [hd] at hget
      have hs : retainStep c f pre.length kept.length (s, t) = (.error .badDiscr, (s, t)) := by
        unfold retainStep; exact M.bind_error (onFst_eq hget t)
      refine ⟨s, .error .badDiscr, ?_, ?_, ?_⟩
      · rw [M.bind_error hs]; simp [numFilter, hd]
      · simp [numFilter, hd, Fault.out]
      · simpa [numFilter, hd] using h
    | some x =>
      rw [hd] at hget
      rcases hfx : f x t with ⟨_ | _ | _, t'⟩
      · have hs : retainStep c f pre.length kept.length (s, t) = (.error .user, (s, t')) := by
          unfold retainStep
          rw [M.bind_ok (onFst_eq hget t), M.unwrap_some_bind]
          have hcall : call f x (s, t) = (.error .user, (s, t')) := by unfold call; rw [hfx]
          rw [M.bind_error hcall]
        refine ⟨s, .error .user, ?_, ?_, ?_⟩
        · rw [M.bind_error hs]; simp [numFilter, hd, hfx]
        · simp [numFilter, hd, hfx, Fault.out]
        · simpa [numFilter, hd, hfx] using h
      · have hs : retainStep c f pre.length kept.length (s, t) = (.ok kept.length, (s, t')) := by
          unfold retainStep
          rw [M.bind_ok (onFst_eq hget t), M.unwrap_some_bind]
          have hcall : call f x (s, t) = (.ok false, (s, t')) := by unfold call; rw [hfx]
          rw [M.bind_ok hcall, if_neg (by simp)]; rfl
        obtain ⟨s', r, g1, g2, g3⟩ := ih (pre ++ [d]) kept s t' hl' (by simp; omega) h
        rw [el] at g1
        rw [M.bind_ok hs]
        have e : numFilter c.E f (d :: ds) t = numFilter c.E f ds t' := by simp [numFilter, hd, hfx]
        rw [e]
        exact ⟨s', r, g1, g2, g3⟩
      · obtain ⟨s1, e1, h1⟩ := h.set hc hr hplt x
        have hs : retainStep c f pre.length kept.length (s, t) = (.ok (kept.length + 1), (s1, t')) := by
          unfold retainStep
          rw [M.bind_ok (onFst_eq hget t), M.unwrap_some_bind]
          have hcall : call f x (s, t) = (.ok true, (s, t')) := by unfold call; rw [hfx]
          rw [M.bind_ok hcall, if_pos rfl, M.bind_ok (onFst_eq e1 t')]; rfl
        have e0 : (kept ++ l.drop kept.length).set kept.length (c.E.toDiscr x) =
            (kept ++ [c.E.toDiscr x]) ++ l.drop (kept ++ [c.E.toDiscr x]).length := by
          rw [List.set_append_right _ _ (Nat.le_refl _)]
          have hlt : kept.length < l.length := by rw [hl]; simp; omega
          rw [List.drop_eq_getElem_cons hlt, Nat.sub_self, List.set_cons_zero]
          simp
        rw [e0] at h1
        obtain ⟨s', r, g1, g2, g3⟩ := ih (pre ++ [d]) (kept ++ [c.E.toDiscr x]) _ t' hl' (by simp; omega) h1
        have ek : (kept ++ [c.E.toDiscr x]).length = kept.length + 1 := by simp
        rw [el, ek] at g1
        rw [M.bind_ok hs]
        have e1 : (numFilter c.E f (d :: ds) t).1 = c.E.toDiscr x :: (numFilter c.E f ds t').1 := by simp [numFilter, hd, hfx]
        have e2 : (numFilter c.E f (d :: ds) t).2 = (numFilter c.E f ds t').2 := by simp [numFilter, hd, hfx]
        have e3 : kept ++ (numFilter c.E f (d :: ds) t).1 = (kept ++ [c.E.toDiscr x]) ++ (numFilter c.E f ds t').1 := by rw [e1]; simp
        rw [e2, e3]
        exact ⟨s', r, g1, g2, g3⟩

omit hc in
theorem IsNums.take {s : EV c.W} {ds : List Nat} (h : IsNums c s ds) {n : Nat} (hn : n ≤ ds.length) : IsNums c { s with num := n } (ds.take n) := by
  refine ⟨⟨?_, h.safe.capLen, h.safe.capBound⟩, ?_, fun i d hd => ?_⟩
  · exact Nat.le_trans (Nat.le_trans hn (Nat.le_of_eq h.len.symm)) h.safe.cover
  · rw [List.length_take, Nat.min_eq_left hn]; rfl
  · rw [List.getElem?_take] at hd
    split at hd
    · exact h.at_ i d hd
    · cases hd

include hr in
theorem forEach_nums (f : Closure τ α α) {s : EV c.W} {ds : List Nat} (h : IsNums c s ds) (t : τ) :
    ∃ s' r, forEach c f (s, t) = (r, (s', (numMap c.E f ds t).2.1)) ∧
      match (numMap c.E f ds t).2.2 with
      | none => r = .ok () ∧ IsNums c s' (numMap c.E f ds t).1
      | some o => (∃ e, r = .error e ∧ Fault.out e = o) ∧ IsNums c s' ((numMap c.E f ds t).1 ++ ds.drop (numMap c.E f ds t).1.length) := by
  have hfull : ∀ (ds : List Nat) (t : τ), (numMap c.E f ds t).2.2 = none → (numMap c.E f ds t).1.length = ds.length := by
    intro ds
    induction ds with
    | nil => exact fun _ _ => rfl
    | cons d ds ih =>
      intro t
      unfold numMap
      split
      · exact nofun
      · split
        · intro h; exact congrArg (· + 1) (ih _ h)
        · exact nofun
  obtain ⟨s', r, g1, g2, g3⟩ := forEachLoop_nums hc hr f ds [] s t h
  simp only [List.nil_append, List.length_nil] at g1 g3
  refine ⟨s', r, ?_, ?_⟩
  · unfold forEach
    rw [M.read_bind]
    simp only [h.len]
    exact g1
  · have := hfull ds t
    revert g2 this
    cases (numMap c.E f ds t).2.2 with
    | none =>
      intro g2 this
      rw [this rfl, List.drop_length, List.append_nil] at g3
      exact ⟨g2, g3⟩
    | some o => exact fun g2 _ => ⟨g2, g3⟩

include hr in
theorem retain_nums (f : Closure τ α Bool) {s : EV c.W} {ds : List Nat} (h : IsNums c s ds) (t : τ) :
    ∃ s' r, retain c f (s, t) = (r, (s', (numFilter c.E f ds t).2.1)) ∧
      match (numFilter c.E f ds t).2.2 with
      | none => r = .ok () ∧ IsNums c s' (numFilter c.E f ds t).1
      | some o => (∃ e, r = .error e ∧ Fault.out e = o) ∧ IsNums c s' ((numFilter c.E f ds t).1 ++ ds.drop (numFilter c.E f ds t).1.length) := by
  obtain ⟨s', r, g1, g2, g3⟩ := retainLoop_nums hc hr f ds ds [] [] s t rfl (Nat.le_refl _) (by simpa using h)
  simp only [List.nil_append, List.length_nil] at g1 g2 g3
  unfold retain
  rw [M.read_bind]
  simp only [h.len]
  revert g2
  cases (numFilter c.E f ds t).2.2 with
  | none =>
    intro g2
    subst g2
    rw [M.bind_ok g1]
    refine ⟨{ s' with num := (numFilter c.E f ds t).1.length }, .ok (), rfl, rfl, ?_⟩
    have := g3.take (n := (numFilter c.E f ds t).1.length) (by simp)
    rwa [List.take_left] at this
  | some o =>
    rintro ⟨e, rfl, he⟩
    rw [M.bind_error g1]
    exact ⟨s', .error e, rfl, ⟨e, rfl, he⟩, g3⟩

theorem IsNums.item {t : It c.W} {ds : List Nat} (h : IsNums c t.v ds) {i d : Nat} (hd : ds[i]? = some d) :
    item c i t = match c.E.fromDiscr d with
      | some a => (.ok a, t)
      | none => (.error .badDiscr, t) := by
  unfold EV.item
  rw [h.get_some hc hd]
  cases c.E.fromDiscr d <;> rfl

theorem collect_nums {ds : List Nat} : ∀ (n : Nat) (t : It c.W), IsNums c t.v ds → t.hi = ds.length → t.lo + n = t.hi + 1 →
    (collect c n t).1 = match (ds.drop t.lo).mapM c.E.fromDiscr with
      | some l => .ok l
      | none => .error .badDiscr
  | 0, t, h, h1, h2 => by
    rw [List.drop_eq_nil_of_le (by omega)]; rfl
  | n + 1, t, h, h1, h2 => by
    unfold collect
    by_cases hlt : t.lo < t.hi
    · have e1 : rangeNext c t = (some t.lo, { t with lo := t.lo + 1 }) := by unfold rangeNext; rw [if_pos hlt]
      have hlt' : t.lo < ds.length := by omega
      have e2 := IsNums.item hc (t := { t with lo := t.lo + 1 }) h (List.getElem?_eq_getElem hlt')
      rw [List.drop_eq_getElem_cons hlt', List.mapM_cons]
      cases hd : c.E.fromDiscr ds[t.lo] with
      | none =>
        rw [hd] at e2
        have e3 : EV.next c t = (.error .badDiscr, { t with lo := t.lo + 1 }) := by
          unfold EV.next mapItem; rw [e1]; exact M.bind_error e2
        rw [M.bind_error e3]
        rfl
      | some a =>
        rw [hd] at e2
        have e3 : EV.next c t = (.ok (some a), { t with lo := t.lo + 1 }) := by
          unfold EV.next mapItem; rw [e1]; exact M.bind_ok e2
        rw [M.bind_ok e3]
        have k := collect_nums n { t with lo := t.lo + 1 } h h1 (by show t.lo + 1 + n = t.hi + 1; omega)
        dsimp only at k ⊢
        rcases hx : collect c n { t with lo := t.lo + 1 } with ⟨e | l, t'⟩ <;> rw [hx] at k
        · rw [M.bind_error hx]
          rcases hm : List.mapM c.E.fromDiscr (ds.drop (t.lo + 1)) with _ | l' <;> rw [hm] at k
          · exact k
          · cases k
        · rw [M.bind_ok hx]
          rcases hm : List.mapM c.E.fromDiscr (ds.drop (t.lo + 1)) with _ | l' <;> rw [hm] at k
          · cases k
          · cases k; rfl
    · have e1 : rangeNext c t = (none, t) := by unfold rangeNext; rw [if_neg hlt]
      have e3 : EV.next c t = (.ok none, t) := by
        unfold EV.next mapItem; rw [e1]; rfl
      rw [M.bind_ok e3, List.drop_eq_nil_of_le (by omega)]
      rfl

theorem toVec_nums {s : EV c.W} {ds : List Nat} (h : IsNums c s ds) :
    EV.toVec c s = match ds.mapM c.E.fromDiscr with
      | some l => .ok l
      | none => .error .badDiscr := by
  have := collect_nums hc (len c s + 1) (iter c s) h h.len (by show 0 + (len c s + 1) = len c s + 1; omega)
  exact this

omit hc in
theorem iterSpec_map {β γ : Type} (g : β → γ) (l : List β) (o : IterOp) :
    iterSpec (l.map g) o = (match (iterSpec l o).1 with
      | .item x => .item (x.map g)
      | .hint a b => .hint a b, (iterSpec l o).2.map g) := by
  cases o <;> simp [iterSpec, List.map_tail, List.map_dropLast, List.map_drop]

theorem iterRun_nums {s : EV c.W} {ds : List Nat} (h : IsNums c s ds) : ∀ (calls : List IterOp) (t : It c.W), t.v = s → t.hi ≤ ds.length →
    t.hi < c.build.usizeLim →
    (iterRun c calls t).1 = match (iterSpecRun calls ((List.range' t.lo (t.hi - t.lo)).map fun i => ds.getD i 0)).1.mapM (IterOut.decode c.E) with
      | some l => .ok l
      | none => .error .badDiscr
  | [], t, _, _, _ => rfl
  | o :: calls, t, hv, hh, hu => by
    obtain ⟨t', h1, h2, h3, h4⟩ := iterStep_any hc o t hu
    have k := iterRun_nums h calls t' (h1.trans hv) (Nat.le_trans h2 hh) (Nat.lt_of_le_of_lt h2 hu)
    rw [show iterSpecRun (o :: calls) ((List.range' t.lo (t.hi - t.lo)).map fun i => ds.getD i 0) =
      ((iterSpec ((List.range' t.lo (t.hi - t.lo)).map fun i => ds.getD i 0) o).1 ::
        (iterSpecRun calls (iterSpec ((List.range' t.lo (t.hi - t.lo)).map fun i => ds.getD i 0) o).2).1,
        (iterSpecRun calls (iterSpec ((List.range' t.lo (t.hi - t.lo)).map fun i => ds.getD i 0) o).2).2) from rfl]
    rw [iterSpec_map, List.mapM_cons]
    dsimp only
    rw [← h3]
    have fin : ∀ r q, iterStep c o t = (.ok r, t') → IterOut.decode c.E q = some r →
        (iterRun c (o :: calls) t).1 = match (do
            let x ← IterOut.decode c.E q
            let y ← (iterSpecRun calls ((List.range' t'.lo (t'.hi - t'.lo)).map fun i => ds.getD i 0)).1.mapM (IterOut.decode c.E)
            pure (x :: y) : Option (List (IterOut α))) with
          | some l => .ok l
          | none => .error .badDiscr := by
      intro r q hr hq
      rw [hq]
      unfold iterRun
      rw [M.bind_ok hr]
      rcases hx : iterRun c calls t' with ⟨e | l, t''⟩ <;> rw [hx] at k
      · rw [M.bind_error hx]
        rcases hm : (iterSpecRun calls ((List.range' t'.lo (t'.hi - t'.lo)).map fun i => ds.getD i 0)).1.mapM (IterOut.decode c.E) with _ | l' <;>
          rw [hm] at k
        · cases k; rfl
        · cases k
      · rw [M.bind_ok hx]
        rcases hm : (iterSpecRun calls ((List.range' t'.lo (t'.hi - t'.lo)).map fun i => ds.getD i 0)).1.mapM (IterOut.decode c.E) with _ | l' <;>
          rw [hm] at k
        · cases k
        · cases k; rfl
    cases hs : (iterSpec (List.range' t.lo (t.hi - t.lo)) o).1 with
    | hint a b => rw [hs] at h4; exact fin _ _ h4 rfl
    | item x =>
      rw [hs] at h4
      cases x with
      | none => exact fin _ _ h4 rfl
      | some i =>
        obtain ⟨hi, h5⟩ := h4
        have hi' : i < ds.length := by omega
        have hg : ds[i]? = some (ds.getD i 0) := by
          rw [List.getD_eq_getElem?_getD, List.getElem?_eq_getElem hi']; rfl
        have h' : IsNums c t'.v ds := by rw [h1, hv]; exact h
        have hit := IsNums.item hc h' hg
        show (iterRun c (o :: calls) t).1 = match (do
            let x ← (c.E.fromDiscr (ds.getD i 0)).map fun x => IterOut.item (some x)
            let y ← (iterSpecRun calls ((List.range' t'.lo (t'.hi - t'.lo)).map fun i => ds.getD i 0)).1.mapM (IterOut.decode c.E)
            pure (x :: y) : Option (List (IterOut α))) with
          | some l => .ok l
          | none => .error .badDiscr
        cases hd : c.E.fromDiscr (ds.getD i 0) with
        | none =>
          rw [hd] at hit
          rw [M.bind_error hit] at h5
          unfold iterRun
          rw [M.bind_error h5]
          rfl
        | some a =>
          rw [hd] at hit
          rw [M.bind_ok hit] at h5
          have hq : IterOut.decode c.E (.item (some (ds.getD i 0))) = some (.item (some a)) := by
            show (c.E.fromDiscr (ds.getD i 0)).map _ = _
            rw [hd]; rfl
          have := fin _ _ h5 hq
          rw [hq] at this
          exact this

theorem iterate_nums {s : EV c.W} {ds : List Nat} (h : IsNums c s ds) (calls : List IterOp) :
    (iterRun c calls (iter c s)).1 = match (iterSpecRun calls ds).1.mapM (IterOut.decode c.E) with
      | some l => .ok l
      | none => .error .badDiscr := by
  have k := iterRun_nums hc h calls (iter c s) rfl (Nat.le_of_eq h.len) (h.safe.real hc).lenLt
  have e : (List.range' (iter c s).lo ((iter c s).hi - (iter c s).lo)).map (fun i => ds.getD i 0) = ds := by
    show (List.range' 0 (EV.len c s - 0)).map _ = ds
    rw [h.len]
    refine List.ext_getElem (by simp) fun i h1 h2 => ?_
    simp [h2]
  rw [e] at k
  exact k

/-- `swap` never looks at the implementation. -/
theorem swap_nums {s : EV c.W} {ds : List Nat} (h : IsNums c s ds) {i j d e : Nat} (hi : ds[i]? = some d) (hj : ds[j]? = some e) :
    ∃ s', swap c i j s = (.ok (), s') ∧ IsNums c s' ((ds.set i e).set j d) := by
  obtain ⟨l, rfl⟩ := h.exists
  rw [List.getElem?_map] at hi hj
  rcases hx : l[i]? with _ | x <;> rw [hx] at hi
  · cases hi
  rcases hy : l[j]? with _ | y <;> rw [hy] at hj
  · cases hj
  cases hi; cases hj
  obtain ⟨hi, rfl⟩ := List.getElem?_eq_some_iff.mp hx
  obtain ⟨hj, rfl⟩ := List.getElem?_eq_some_iff.mp hy
  obtain ⟨s', h1, h2⟩ := C10_swap (nums_ok hc) (h.is hc) hi hj
  rw [nums_swap] at h1
  have := Is.isNums hc h2
  rw [List.map_set, List.map_set] at this
  exact ⟨s', h1, this⟩

end
end EnumVecModel
