import Verif.Lemmas.Derive

/-! # Lemmas on `values()` -/

namespace EnumVecModel
namespace EnumLike
variable {α : Type} {E : EnumLike α}

theorem toDiscr_inj (h : E.Contract) {a b : α} (e : E.toDiscr a = E.toDiscr b) : a = b := by
  have h1 := h.roundtrip a
  rw [e, h.roundtrip b] at h1
  exact (Option.some.inj h1).symm

theorem AllValues.length {l : List α} (h : AllValues E l) : l.length = E.num := by
  have := congrArg List.length h
  simpa using this

theorem AllValues.get {l : List α} (h : AllValues E l) {i : Nat} (hi : i < l.length) : E.toDiscr l[i] = i := by
  have h1 : (l.map E.toDiscr)[i]? = (List.range E.num)[i]? := by rw [h]
  rw [List.getElem?_map, List.getElem?_eq_getElem hi, List.getElem?_range (by rw [← h.length]; exact hi)] at h1
  exact Option.some.inj h1

theorem AllValues.from {l : List α} (hE : E.Contract) (h : AllValues E l) {i : Nat} (hi : i < l.length) :
    E.fromDiscr i = some l[i] := by
  have := hE.roundtrip l[i]
  rwa [h.get hi] at this

theorem AllValues.mem {l : List α} (hE : E.Contract) (h : AllValues E l) (a : α) : a ∈ l := by
  have hi : E.toDiscr a < l.length := by rw [h.length]; exact hE.lt a
  have : l[E.toDiscr a] = a := toDiscr_inj hE (h.get hi)
  rw [← this]
  exact List.getElem_mem hi

theorem AllValues.nodup {l : List α} (h : AllValues E l) : l.Nodup := by
  have : (l.map E.toDiscr).Nodup := by rw [h]; exact List.nodup_range
  exact (List.Pairwise.of_map _ (fun a b hab e => hab (congrArg _ e)) this)

theorem allValues_exists (h : E.Consecutive) : ∃ l, AllValues E l := by
  have : ∀ n, n ≤ E.num → ∃ l : List α, l.map E.toDiscr = List.range n := by
    intro n
    induction n with
    | zero => intro _; exact ⟨[], rfl⟩
    | succ n ih =>
      intro hn
      obtain ⟨l, hl⟩ := ih (by omega)
      obtain ⟨a, _, ha⟩ := h n hn
      exact ⟨l ++ [a], by rw [List.map_append, hl, List.range_succ]; simp [ha]⟩
  exact this E.num (Nat.le_refl _)

/-- The iterator still has to yield `r`. -/
structure Left (E : EnumLike α) (l : List α) (v : Values) (r : List α) : Prop where
  max : v.max = E.num
  cur : v.current ≤ E.num
  rest : r = l.drop v.current

variable {l : List α}

theorem Left.length {v : Values} {r : List α} (hl : AllValues E l) (h : Left E l v r) : r.length = v.max - v.current := by
  rw [h.rest, List.length_drop, hl.length, h.max]

theorem next_left (hE : E.Contract) (hl : AllValues E l) {v : Values} {r : List α} (h : Left E l v r) :
    ∃ v', Values.next E v = (.ok r.head?, v') ∧ Left E l v' r.tail := by
  have hlen := hl.length
  unfold Values.next
  by_cases hc : v.current < v.max
  · rw [if_pos hc]
    have hi : v.current < l.length := by rw [hlen, ← h.max]; exact hc
    rw [hl.from hE hi]
    refine ⟨{ v with current := v.current + 1 }, ?_, h.max, ?_, ?_⟩
    · show (Except.ok (some l[v.current]), _) = _
      rw [h.rest, List.head?_drop, List.getElem?_eq_getElem hi]
    · show v.current + 1 ≤ E.num
      omega
    · rw [h.rest, List.tail_drop]
  · rw [if_neg hc]
    have hd : r = [] := by rw [h.rest, List.drop_of_length_le]; rw [hlen, ← h.max]; omega
    refine ⟨v, ?_, h.max, h.cur, ?_⟩
    · rw [hd]; rfl
    · rw [← h.rest, hd]; rfl

theorem nth_left (hE : E.Contract) (hl : AllValues E l) {v : Values} {r : List α} (h : Left E l v r) (build : Build) {n : Nat}
    (hn : E.num + n < build.usizeLim) : ∃ v', Values.nth E build n v = (.ok r[n]?, v') ∧ Left E l v' (r.drop (n + 1)) := by
  have hlen := hl.length
  unfold Values.nth
  have hcur := h.cur
  have : uAdd build v.current n = .ok (v.current + n) := if_pos (by omega)
  rw [this]
  show ∃ v', (if v.current + n < v.max then _ else _) = _ ∧ _
  by_cases hc : v.current + n < v.max
  · rw [if_pos hc]
    have h' : Left E l { v with current := v.current + n } (r.drop n) := by
      refine ⟨h.max, ?_, ?_⟩
      · show v.current + n ≤ E.num
        rw [← h.max]; omega
      · rw [h.rest, List.drop_drop]
    obtain ⟨v', h1, h2⟩ := next_left hE hl h'
    rw [List.head?_drop] at h1
    rw [List.tail_drop] at h2
    exact ⟨v', h1, h2⟩
  · rw [if_neg hc]
    have hr : r.length ≤ n := by rw [h.length hl]; omega
    refine ⟨{ v with current := v.max }, ?_, h.max, ?_, ?_⟩
    · rw [List.getElem?_eq_none hr]
    · show v.max ≤ E.num
      rw [h.max]; exact Nat.le_refl _
    · show _ = l.drop v.max
      rw [List.drop_of_length_le (by omega), List.drop_of_length_le (by rw [h.max]; omega)]

theorem sub_left (hl : AllValues E l) {v : Values} {r : List α} (h : Left E l v r) (build : Build) :
    uSub build v.max v.current = .ok r.length := by
  unfold uSub
  rw [if_pos (by rw [h.max]; exact h.cur), h.length hl]

theorem last_left (hE : E.Contract) (hl : AllValues E l) {v : Values} {r : List α} (h : Left E l v r) :
    Values.last E v = .ok r.getLast? := by
  have hlen := hl.length
  have hcur := h.cur
  have hmax := h.max
  have hr := h.length hl
  unfold Values.last
  by_cases hc : v.max = 0 ∨ v.current = v.max
  · rw [if_pos hc]
    have : r = [] := List.eq_nil_of_length_eq_zero (by omega)
    rw [this]; rfl
  · rw [if_neg hc]
    have h' : Left E l { v with current := v.max - 1 } (l.drop (v.max - 1)) := ⟨h.max, by show v.max - 1 ≤ E.num; omega, rfl⟩
    obtain ⟨v', h1, _⟩ := next_left hE hl h'
    rw [h1, List.head?_drop, h.rest, List.getLast?_drop, if_neg (by omega), List.getLast?_eq_getElem?]
    rw [hlen, hmax]

theorem valStep_left (hE : E.Contract) (hl : AllValues E l) {v : Values} {r : List α} (h : Left E l v r) (build : Build)
    (o : ValOp) (ho : ∀ n, o = .nth n → E.num + n < build.usizeLim) :
    ∃ v', valStep E build o v = (.ok (valSpec r o).1, v') ∧ Left E l v' (valSpec r o).2 := by
  cases o with
  | next =>
    obtain ⟨v', h1, h2⟩ := next_left hE hl h
    refine ⟨v', ?_, h2⟩
    exact M.bind_ok h1
  | nth n =>
    obtain ⟨v', h1, h2⟩ := nth_left hE hl h build (ho n rfl)
    refine ⟨v', ?_, h2⟩
    exact M.bind_ok h1
  | sizeHint =>
    refine ⟨v, ?_, h⟩
    have hs : Values.sizeHint build v = .ok (r.length, some r.length) := by
      unfold Values.sizeHint
      rw [sub_left hl h]
    show (M.lift (Values.sizeHint build v) >>= fun h => pure (ValOut.hint h.1 h.2)) v = _
    rw [hs]; rfl
  | count =>
    refine ⟨v, ?_, h⟩
    show (M.lift (Values.count build v) >>= fun n => pure (ValOut.num n)) v = _
    unfold Values.count
    rw [sub_left hl h]; rfl
  | last =>
    refine ⟨v, ?_, h⟩
    show (M.lift (Values.last E v) >>= fun x => pure (ValOut.item x)) v = _
    rw [last_left hE hl h]; rfl

theorem valRun_left (hE : E.Contract) (hl : AllValues E l) (build : Build) (os : List ValOp)
    (ho : ∀ n, .nth n ∈ os → E.num + n < build.usizeLim) {v : Values} {r : List α} (h : Left E l v r) :
    ∃ v', valRun E build os v = (.ok (valSpecRun os r).1, v') ∧ Left E l v' (valSpecRun os r).2 := by
  induction os generalizing v r with
  | nil => exact ⟨v, rfl, h⟩
  | cons o os ih =>
    obtain ⟨v1, h1, h2⟩ := valStep_left hE hl h build o (fun n e => ho n (by rw [e]; exact List.mem_cons_self))
    obtain ⟨v2, h3, h4⟩ := ih (fun n hn => ho n (List.mem_cons_of_mem _ hn)) h2
    refine ⟨v2, ?_, h4⟩
    show (valStep E build o >>= fun r => valRun E build os >>= fun rs => pure (r :: rs)) v = _
    rw [M.bind_ok h1, M.bind_ok h3]; rfl

theorem valSpecRun_next (l : List α) (k : Nat) :
    (valSpecRun (List.replicate (l.length + k) .next) l).1 = l.map (fun a => .item (some a)) ++ List.replicate k (.item none) := by
  induction l with
  | nil =>
    rw [List.length_nil, Nat.zero_add, List.map_nil, List.nil_append]
    induction k with
    | zero => rfl
    | succ k ih =>
      rw [List.replicate_succ, List.replicate_succ]
      show ValOut.item none :: (valSpecRun (List.replicate k .next) ([] : List α)).1 = _
      rw [ih]
  | cons a l ih =>
    rw [List.length_cons, Nat.add_right_comm, List.replicate_succ]
    show ValOut.item (some a) :: (valSpecRun (List.replicate (l.length + k) .next) l).1 = _
    rw [ih]; rfl

end EnumLike
end EnumVecModel
