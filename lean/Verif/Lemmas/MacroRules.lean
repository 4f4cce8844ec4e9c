import Verif.MacroRulesSpec
import Verif.Lemmas.EnumLike
import Verif.Lemmas.Machine

namespace EnumVecModel
namespace EnumLike
namespace Rules

variable {β : Type}

theorem reverseIdx_eq : (l acc : List Nat) → reverseIdx l acc = l.reverse ++ acc
  | [], acc => rfl
  | x :: l, acc => by
    rw [reverseIdx, reverseIdx_eq l, List.reverse_cons, List.append_assoc]; rfl

/-- Rows numbered `n - 1, …, 0`. -/
def rows (name : Nat → String) : Nat → List Row
  | 0 => []
  | n + 1 => ⟨n, name n⟩ :: rows name n

theorem rows_idx (name : Nat → String) : (n : Nat) → (rows name n).map (·.idx) = (List.range n).reverse
  | 0 => rfl
  | n + 1 => by rw [rows, List.map_cons, rows_idx name n, List.range_succ, List.reverse_append]; rfl

theorem rows_ty (name : Nat → String) : (n : Nat) → (rows name n).map (·.ty) = ((List.range n).map name).reverse
  | 0 => rfl
  | n + 1 => by rw [rows, List.map_cons, rows_ty name n, List.range_succ, List.map_append, List.reverse_append]; rfl

theorem reverse_rows (name : Nat → String) (n : Nat) : reverseIdx ((rows name n).map (·.idx)) [] = List.range n := by
  rw [reverseIdx_eq, rows_idx, List.reverse_reverse, List.append_nil]

/-- The names of the first components, in order. -/
def names (name : Nat → String) (n : Nat) : List String := ((List.range n).map name).reverse

/-- The item for tuples with `n + 1` components. -/
def item (name : Nat → String) (n : Nat) : TupleItem where
  params := names name n ++ [name n]
  self_ := names name n ++ [name n]
  inner := names name n
  last := name n
  toIdx := List.range n
  toLast := n
  fromIdx := List.range n

/-- The items of the invocation with `n` rows. -/
def items (name : Nat → String) : Nat → List TupleItem
  | 0 => []
  | 1 => []
  | 2 => []
  | n + 3 => item name (n + 2) :: items name (n + 2)

theorem tupleImpls_rows (name : Nat → String) : (n : Nat) → tupleImpls (rows name (n + 2)) = some (items name (n + 2))
  | 0 => rfl
  | n + 1 => by
    have ih := tupleImpls_rows name n
    show (do
      let its ← tupleImpls (rows name (n + 2))
      return _ :: its : Option (List TupleItem)) = _
    rw [ih]
    show some (_ :: items name (n + 2)) = some (item name (n + 2) :: items name (n + 2))
    have h1 : reverseIdx ((n + 1) :: (rows name (n + 1)).map (·.idx)) [] = List.range (n + 2) := reverse_rows name (n + 2)
    have h2 : name (n + 1) :: (rows name (n + 1)).map (·.ty) = names name (n + 2) := rows_ty name (n + 2)
    simp only [item, List.map_cons, h1, h2]

theorem length_names (name : Nat → String) (n : Nat) : (names name n).length = n := by simp [names]

theorem mem_items {name : Nat → String} {it : TupleItem} : {n : Nat} → it ∈ items name n → ∃ m, 2 ≤ m ∧ m < n ∧ it = item name m
  | 0, h => by cases h
  | 1, h => by cases h
  | 2, h => by cases h
  | n + 3, h => by
    rcases List.mem_cons.mp h with h | h
    · exact ⟨n + 2, by omega, by omega, h⟩
    · obtain ⟨m, h1, h2, h3⟩ := mem_items h
      exact ⟨m, h1, by omega, h3⟩

theorem length_item (name : Nat → String) (n : Nat) : (item name n).self_.length = n + 1 := by simp [item, length_names]

theorem filter_none (name : Nat → String) (n m : Nat) (h : n < m ∨ m < 3) : ((items name n).filter fun it => it.self_.length == m) = [] := by
  rw [List.filter_eq_nil_iff]
  intro it hi
  obtain ⟨j, h1, h2, rfl⟩ := mem_items hi
  rw [length_item]
  simp; omega

theorem filter_one (name : Nat → String) : (n m : Nat) → 3 ≤ m → m ≤ n → ((items name n).filter fun it => it.self_.length == m) = [item name (m - 1)]
  | 0, m, h, h' => by omega
  | 1, m, h, h' => by omega
  | 2, m, h, h' => by omega
  | n + 3, m, h, h' => by
    rw [items, List.filter_cons, length_item]
    by_cases hm : m = n + 3
    · subst hm
      rw [if_pos (by simp), filter_none _ _ _ (Or.inl (by omega))]
      rfl
    · rw [if_neg (by simp; omega), filter_one name (n + 2) m h (by omega)]

/-! ## Finding impls -/

theorem mapM_range {γ δ : Type} (f : γ → δ) (l : List γ) : (n : Nat) → n ≤ l.length → (g : Nat → Option δ) → (∀ k, k < n → g k = l[k]?.map f) →
    (List.range n).mapM g = some ((l.take n).map f)
  | 0, _, _, _ => by simp
  | n + 1, h, g, hg => by
    rw [List.range_succ, List.mapM_append, mapM_range f l n (by omega) g (fun k hk => hg k (by omega))]
    have := hg n (by omega)
    rw [List.getElem?_eq_getElem (by omega)] at this
    rw [List.take_add_one, List.getElem?_eq_getElem (by omega)]
    show (do
      let l' ← some ((l.take n).map f)
      let l'' ← (do
        let y ← g n
        return [y] : Option (List δ))
      return l' ++ l'') = _
    rw [this]
    simp only [Option.toList, List.map_append]
    rfl

theorem mapM_list {γ δ : Type} (g : γ → Option δ) : (l : List γ) → (r : List δ) → l.length = r.length → (∀ k (h : k < l.length) (h' : k < r.length), g l[k] = some r[k]) →
    l.mapM g = some r
  | [], [], _, _ => rfl
  | x :: l, y :: r, h, hk => by
    have h0 : g x = some y := hk 0 (by simp) (by simp)
    rw [List.mapM_cons, h0]
    have := mapM_list g l r (by simpa using h) (fun k h1 h2 => hk (k + 1) (by simpa using h1) (by simpa using h2))
    show (l.mapM g >>= fun ys => pure (y :: ys)) = _
    rw [this]; rfl
  | [], _ :: _, h, _ => by simp at h
  | _ :: _, [], h, _ => by simp at h

theorem project_range {γ : Type} (l : List γ) (n : Nat) (h : n ≤ l.length) : project l (List.range n) = .ok (l.take n) := by
  unfold project
  rw [mapM_range id l n h _ (fun k _ => by simp)]
  simp

theorem names_get {name : Nat → String} {n k : Nat} (hk : k < n) : (names name n)[k]? = some (name (n - 1 - k)) := by
  unfold names
  rw [List.getElem?_reverse (by simpa using hk)]
  rw [List.getElem?_map]
  rw [List.length_map, List.length_range, List.getElem?_range (by omega)]
  rfl

theorem nodup_self {name : Nat → String} {n : Nat} (hinj : ∀ i j, i ≤ n → j ≤ n → name i = name j → i = j) : (item name n).self_.Nodup := by
  show (names name n ++ [name n]).Nodup
  rw [List.nodup_append]
  refine ⟨?_, by simp, ?_⟩
  · unfold names
    show List.Pairwise (· ≠ ·) _
    rw [List.pairwise_reverse, List.pairwise_map]
    exact List.Pairwise.imp_of_mem (fun {a b} ha hb hab e => by
      have ha := List.mem_range.mp ha
      have hb := List.mem_range.mp hb
      have := hinj b a (by omega) (by omega) e
      exact Nat.ne_of_lt hab this.symm) List.pairwise_lt_range
  · intro a ha b hb e
    simp at hb
    subst hb
    simp [names] at ha
    obtain ⟨i, hi, he⟩ := ha
    have := hinj i n (by omega) (by omega) (he.trans e)
    omega

theorem compiles_item {name : Nat → String} {n : Nat} (hinj : ∀ i j, i ≤ n → j ≤ n → name i = name j → i = j) : (item name n).compiles = true := by
  unfold TupleItem.compiles
  have h1 := nodup_self hinj
  have h2 : ((item name n).fromIdx.mapM fun k => (item name n).inner[k]?) = some ((item name n).self_.dropLast) := by
    show ((List.range n).mapM fun k => (names name n)[k]?) = some ((names name n ++ [name n]).dropLast)
    rw [mapM_range id (names name n) n (by rw [length_names]; exact Nat.le_refl n) _ (fun k _ => by simp)]
    rw [List.dropLast_concat, List.map_id, List.take_of_length_le (by rw [length_names]; exact Nat.le_refl n)]
  have h3 : (item name n).self_.getLast? = some (item name n).last := by
    show (names name n ++ [name n]).getLast? = some (name n)
    simp
  have h4 : (item name n).params.Nodup := h1
  have h5 : ((item name n).self_.all fun x => (item name n).params.contains x) = true := by
    rw [List.all_eq_true]
    intro x hx
    exact List.contains_iff_mem.mpr hx
  rw [h2, h3, h5, decide_eq_true h4]
  simp

theorem idxOf_self {name : Nat → String} {n k : Nat} (hinj : ∀ i j, i ≤ n → j ≤ n → name i = name j → i = j) (h : k < (item name n).self_.length) :
    (item name n).self_.idxOf (item name n).self_[k] = k :=
  (nodup_self hinj).idxOf_getElem k h

theorem self_get {name : Nat → String} {n k : Nat} (h : k < n) : (item name n).self_[k]? = (names name n)[k]? := by
  show (names name n ++ [name n])[k]? = _
  rw [List.getElem?_append_left (by rw [length_names]; exact h)]

theorem self_last {name : Nat → String} {n : Nat} : (item name n).self_[n]? = some (name n) := by
  show (names name n ++ [name n])[n]? = _
  rw [List.getElem?_append_right (by rw [length_names]; exact Nat.le_refl n), length_names]
  simp

theorem findTuple_step {name : Nat → String} {n : Nat} (hinj : ∀ i j, i < n → j < n → name i = name j → i = j) (build : Build) (fuel m : Nat) (Ts : List (Mach (Val β)))
    (T : Mach (Val β)) (hm : Ts.length = m + 2) (hn : m + 3 ≤ n) :
    findTuple build (items name n) (fuel + 1) (Ts ++ [T]) =
      (findTuple build (items name n) fuel Ts).map fun M => (item name (m + 2)).impl build M T M T := by
  have hinj' : ∀ i j, i ≤ m + 2 → j ≤ m + 2 → name i = name j → i = j := fun i j hi hj => hinj i j (by omega) (by omega)
  have hlen : (Ts ++ [T]).length = m + 3 := by simp [hm]
  have hbound : ∀ k, k < m + 3 → (item name (m + 2)).self_[k]?.bind (fun ty => (Ts ++ [T])[(item name (m + 2)).self_.idxOf ty]?) = (Ts ++ [T])[k]? := by
    intro k hk
    have hk' : k < (item name (m + 2)).self_.length := by rw [length_item]; exact hk
    rw [List.getElem?_eq_getElem hk']
    show (Ts ++ [T])[(item name (m + 2)).self_.idxOf (item name (m + 2)).self_[k]]? = _
    rw [idxOf_self hinj']
  have h1 : ((item name (m + 2)).toIdx.mapM fun k => (item name (m + 2)).self_[k]?.bind (fun ty => (Ts ++ [T])[(item name (m + 2)).self_.idxOf ty]?)) = some Ts := by
    show (List.range (m + 2)).mapM _ = _
    rw [mapM_range id (Ts ++ [T]) (m + 2) (by omega) _ (fun k hk => by rw [hbound k (by omega)]; simp)]
    rw [List.map_id, ← hm, List.take_left]
  have h2 : (item name (m + 2)).self_[(item name (m + 2)).toLast]?.bind (fun ty => (Ts ++ [T])[(item name (m + 2)).self_.idxOf ty]?) = some T := by
    show (item name (m + 2)).self_[m + 2]?.bind _ = _
    rw [hbound (m + 2) (by omega), ← hm]
    simp
  have h3 : ((item name (m + 2)).inner.mapM fun ty => (Ts ++ [T])[(item name (m + 2)).self_.idxOf ty]?) = some Ts := by
    refine mapM_list _ _ _ ?_ ?_
    · show (names name (m + 2)).length = _
      rw [length_names, hm]
    · intro k hk hk'
      have hb := hbound k (by omega)
      rw [self_get (by omega)] at hb
      have hk2 : k < (names name (m + 2)).length := hk
      rw [List.getElem?_eq_getElem hk2] at hb
      rw [List.getElem?_append_left hk', List.getElem?_eq_getElem hk'] at hb
      exact hb
  have h4 : (Ts ++ [T])[(item name (m + 2)).self_.idxOf (item name (m + 2)).last]? = some T := by
    have := h2
    rw [show (item name (m + 2)).toLast = m + 2 from rfl, self_last] at this
    exact this
  have hf := filter_one name n (m + 3) (by omega) hn
  have hc := compiles_item hinj'
  obtain ⟨A, B, C, rest, hTs⟩ : ∃ A B C rest, Ts ++ [T] = A :: B :: C :: rest := by
    match Ts ++ [T], hlen with
    | A :: B :: C :: rest, _ => exact ⟨A, B, C, rest, rfl⟩
  rw [← hlen] at hf
  rw [hTs] at h1 h2 h3 h4 hf ⊢
  generalize hR : findTuple build (items name n) fuel Ts = R
  unfold findTuple
  rw [hf]
  have hidx : (A :: B :: C :: rest).length - 1 = m + 2 := by rw [← hTs, hlen]; rfl
  simp only [hidx, hc]
  rw [h1, h2, h3, h4]
  rw [if_neg (by simp)]
  show (findTuple build (items name n) fuel Ts >>= fun M => findTuple build (items name n) fuel Ts >>= fun M' => pure ((item name (m + 2)).impl build M T M' T)) = _
  rw [hR]
  cases R <;> rfl

theorem findTuple_none (name : Nat → String) (n : Nat) (build : Build) (fuel : Nat) (Ts : List (Mach (Val β))) (h : n < Ts.length) (h' : 2 < Ts.length) :
    findTuple build (items name n) fuel Ts = none := by
  match Ts, h, h' with
  | A :: B :: C :: rest, h, _ =>
    cases fuel with
    | zero => rfl
    | succ fuel =>
      unfold findTuple
      rw [filter_none _ _ _ (Or.inl h)]

/-! ## What they do -/

theorem fits_take {lim : Nat} {ps : List (Part β)} (h : Fits lim ps) : (ps.map (·.n)).prod < lim := by
  have := h ps.length
  rwa [List.take_length] at this

theorem fits_concat {lim : Nat} (ps : List (Part β)) (p : Part β) : Fits lim (ps ++ [p]) ↔ Fits lim ps ∧ (ps.map (·.n)).prod * p.n < lim := by
  constructor
  · intro h
    refine ⟨fun i => ?_, ?_⟩
    · by_cases hi : i ≤ ps.length
      · have := h i
        rwa [List.take_append_of_le_length hi] at this
      · have := h ps.length
        rw [List.take_append_of_le_length (Nat.le_refl _)] at this
        rw [List.take_of_length_le (by omega)]
        rwa [List.take_length] at this
    · have := fits_take h
      rwa [List.map_append, List.prod_append, List.map_singleton, List.prod_singleton] at this
  · rintro ⟨h1, h2⟩ i
    by_cases hi : i ≤ ps.length
    · rw [List.take_append_of_le_length hi]; exact h1 i
    · rw [List.take_of_length_le (by simp; omega)]
      rw [List.map_append, List.prod_append, List.map_singleton, List.prod_singleton]
      exact h2

theorem mixedRadix_lt : (ps : List (Part β)) → (∀ p ∈ ps, p.d < p.n) → mixedRadix (ps.map fun p => (p.n, p.d)) < (ps.map (·.n)).prod
  | [], _ => by rw [List.map_nil, List.map_nil, List.prod_nil]; decide
  | p :: ps, h => by
    have ih := mixedRadix_lt ps fun q hq => h q (List.mem_cons_of_mem _ hq)
    have hp := h p List.mem_cons_self
    rw [List.map_cons, mixedRadix_cons, List.map_cons, List.prod_cons]
    calc p.d + p.n * mixedRadix (ps.map fun p => (p.n, p.d)) < p.n * mixedRadix (ps.map fun p => (p.n, p.d)) + p.n := by omega
      _ = p.n * (mixedRadix (ps.map fun p => (p.n, p.d)) + 1) := by rw [Nat.mul_add, Nat.mul_one]
      _ ≤ _ := Nat.mul_le_mul (Nat.le_refl _) ih

theorem fst_prod (ps : List (Part β)) : ((ps.map fun p => (p.n, p.d)).map Prod.fst).prod = (ps.map (·.n)).prod := by
  rw [List.map_map]; rfl

/-- What an impl of the tuple with these components does. -/
structure Sem (build : Build) (ps : List (Part β)) (M : Mach (Val β)) : Prop where
  num : Fits build.usizeLim ps → M.num = .ok (ps.map (·.n)).prod
  over : (∀ p ∈ ps, p.n < build.usizeLim) → ¬Fits build.usizeLim ps → M.num = .error .overflow
  to : Fits build.usizeLim ps → (∀ p ∈ ps, p.d < p.n) → (∀ p ∈ ps, p.T.toDiscr p.v = .ok p.d) →
    M.toDiscr (.tup (ps.map (·.v))) = .ok (mixedRadix (ps.map fun p => (p.n, p.d)))
  from_ : Fits build.usizeLim ps → (∀ p ∈ ps, p.d < p.n) → (∀ p ∈ ps, p.T.fromDiscr p.d = .ok p.v) →
    M.fromDiscr (mixedRadix (ps.map fun p => (p.n, p.d))) = .ok (.tup (ps.map (·.v)))

theorem sem_unit (build : Build) : Sem build ([] : List (Part β)) unitImpl where
  num _ := rfl
  over _ h := (h fun i => by rw [List.take_nil, List.map_nil, List.prod_nil]; exact build.lt_usizeLim (by decide)).elim
  to _ _ _ := rfl
  from_ _ _ _ := rfl

theorem sem_one (build : Build) (p : Part β) (hn : p.T.num = .ok p.n) : Sem build [p] (tuple1Impl p.T) where
  num _ := by
    show p.T.num = _
    rw [hn]; simp
  over h h' := by
    refine (h' ?_).elim
    have := (fits_concat (lim := build.usizeLim) [] p).mpr ⟨fun i => by rw [List.take_nil, List.map_nil, List.prod_nil]; exact build.lt_usizeLim (by decide), by
      have := h p (by simp)
      simpa using this⟩
    exact this
  to _ _ h := by
    show p.T.toDiscr p.v = _
    rw [h p (by simp)]
    simp [mixedRadix_cons, mixedRadix_nil]
  from_ _ _ h := by
    show (p.T.fromDiscr (mixedRadix [(p.n, p.d)]) >>= fun v => pure (Val.tup [v])) = _
    rw [mixedRadix_cons, mixedRadix_nil, Nat.mul_zero, Nat.add_zero, h p (by simp)]
    rfl

/-- The arithmetic of a pair whose first part is a tuple. -/
theorem pair_num {build : Build} {A B : Mach (Val β)} {N n : Nat} (hA : A.num = .ok N) (hB : B.num = .ok n) :
    (Mach.pair build A B).num = if N * n < build.usizeLim then .ok (N * n) else .error .overflow := by
  show (A.num >>= fun t => B.num >>= fun u => uMul build.const t u) = _
  rw [hA, ok_bind, hB, ok_bind]
  rfl

theorem pair_to {build : Build} {A B : Mach (Val β)} {N n x d : Nat} {v w : Val β} (hA : A.num = .ok N) (hv : A.toDiscr v = .ok x) (hw : B.toDiscr w = .ok d)
    (hx : x < N) (hd : d < n) (hN : N * n < build.usizeLim) : (Mach.pair build A B).toDiscr (v, w) = .ok (x + d * N) := by
  show (A.toDiscr v >>= fun a => B.toDiscr w >>= fun b => A.num >>= fun t => uMul build b t >>= fun q => uAdd build a q) = _
  have h1 : (d + 1) * N ≤ n * N := Nat.mul_le_mul hd (Nat.le_refl _)
  rw [Nat.mul_comm n N, Nat.add_mul, Nat.one_mul] at h1
  rw [hv, ok_bind, hw, ok_bind, hA, ok_bind, uMul_ok (by omega), ok_bind, uAdd_ok (by omega)]

theorem pair_from {build : Build} {A B : Mach (Val β)} {N x d : Nat} {v w : Val β} (hA : A.num = .ok N) (hv : A.fromDiscr x = .ok v) (hw : B.fromDiscr d = .ok w)
    (hx : x < N) : (Mach.pair build A B).fromDiscr (x + d * N) = .ok (v, w) := by
  show (A.num >>= fun t => uRem (x + d * N) t >>= fun y => A.fromDiscr y >>= fun a => A.num >>= fun t => uDiv (x + d * N) t >>= fun z => B.fromDiscr z >>= fun b => pure (a, b)) = _
  have h0 : ¬N = 0 := by omega
  unfold uRem uDiv
  rw [hA, ok_bind, if_neg h0, ok_bind, Nat.add_mul_mod_self_right, Nat.mod_eq_of_lt hx, hv, ok_bind, ok_bind, if_neg h0, ok_bind,
    Nat.add_mul_div_right _ _ (by omega), Nat.div_eq_of_lt hx, Nat.zero_add, hw, ok_bind]
  rfl

theorem sem_two (build : Build) (p q : Part β) (hp : p.T.num = .ok p.n) (hq : q.T.num = .ok q.n) : Sem build [p, q] (pairImpl build p.T q.T) := by
  have hf : Fits build.usizeLim [p, q] → p.n * q.n < build.usizeLim := fun h => by
    have := fits_take h
    simpa using this
  have hm : mixedRadix ([p, q].map fun p => (p.n, p.d)) = p.d + q.d * p.n := by
    show mixedRadix [(p.n, p.d), (q.n, q.d)] = _
    rw [mixedRadix_cons, mixedRadix_cons, mixedRadix_nil, Nat.mul_zero, Nat.add_zero, Nat.mul_comm]
  refine ⟨fun h => ?_, fun h h' => ?_, fun h hd ht => ?_, fun h hd ht => ?_⟩
  · show (Mach.pair build p.T q.T).num = _
    rw [pair_num hp hq, if_pos (hf h)]; simp
  · show (Mach.pair build p.T q.T).num = _
    rw [pair_num hp hq, if_neg]
    intro hlt
    refine h' ((fits_concat [p] q).mpr ⟨(fits_concat [] p).mpr ⟨?_, ?_⟩, ?_⟩)
    · intro i; rw [List.take_nil, List.map_nil, List.prod_nil]; exact build.lt_usizeLim (by decide)
    · have := h p (by simp)
      simpa using this
    · simpa using hlt
  · rw [hm]
    exact pair_to hp (ht p (by simp)) (ht q (by simp)) (hd p (by simp)) (hd q (by simp)) (hf h)
  · rw [hm]
    show ((Mach.pair build p.T q.T).fromDiscr (p.d + q.d * p.n) >>= fun r => pure (Val.tup [r.1, r.2])) = _
    rw [pair_from hp (ht p (by simp)) (ht q (by simp)) (hd p (by simp))]
    rfl

theorem sem_step (build : Build) (name : Nat → String) {ps : List (Part β)} {M : Mach (Val β)} (hM : Sem build ps M) (p : Part β) (hp : p.T.num = .ok p.n) (m : Nat)
    (hm : ps.length = m + 2) : Sem build (ps ++ [p]) ((item name (m + 2)).impl build M p.T M p.T) := by
  have hmr : mixedRadix ((ps ++ [p]).map fun p => (p.n, p.d)) = mixedRadix (ps.map fun p => (p.n, p.d)) + p.d * (ps.map (·.n)).prod := by
    rw [List.map_append]
    show mixedRadix ((ps.map fun p => (p.n, p.d)) ++ [(p.n, p.d)]) = _
    rw [mixedRadix_append_one, fst_prod]
  refine ⟨fun h => ?_, fun h h' => ?_, fun h hd ht => ?_, fun h hd ht => ?_⟩
  · obtain ⟨h1, h2⟩ := (fits_concat ps p).mp h
    show (Mach.pair build M p.T).num = _
    rw [pair_num (hM.num h1) hp, if_pos h2]; simp
  · show (Mach.pair build M p.T).num = _
    by_cases h1 : Fits build.usizeLim ps
    · rw [pair_num (hM.num h1) hp, if_neg]
      exact fun hlt => h' ((fits_concat ps p).mpr ⟨h1, hlt⟩)
    · show (M.num >>= _) = _
      rw [hM.over (fun q hq => h q (List.mem_append_left _ hq)) h1]
      rfl
  · obtain ⟨h1, h2⟩ := (fits_concat ps p).mp h
    rw [hmr]
    have hd1 : ∀ q ∈ ps, q.d < q.n := fun q hq => hd q (List.mem_append_left _ hq)
    have hproj : project ((ps ++ [p]).map (·.v)) (List.range (m + 2)) = .ok (ps.map (·.v)) := by
      rw [project_range _ _ (by simp; omega), List.map_append, List.take_left' (by simp [hm])]
    have hlast : ((ps ++ [p]).map (·.v))[m + 2]? = some p.v := by
      rw [List.map_append, ← hm, List.getElem?_append_right (by simp)]
      simp
    show (project ((ps ++ [p]).map (·.v)) (List.range (m + 2)) >>= fun ws =>
      match ((ps ++ [p]).map (·.v))[m + 2]? with
      | some w => (pairImpl build M p.T).toDiscr (.tup [.tup ws, w])
      | none => illTyped) = _
    rw [hproj, ok_bind, hlast]
    exact pair_to (hM.num h1) (hM.to h1 hd1 fun q hq => ht q (List.mem_append_left _ hq)) (ht p (by simp)) (mixedRadix_lt ps hd1) (hd p (by simp)) h2
  · obtain ⟨h1, h2⟩ := (fits_concat ps p).mp h
    rw [hmr]
    have hd1 : ∀ q ∈ ps, q.d < q.n := fun q hq => hd q (List.mem_append_left _ hq)
    have hpf := pair_from (build := build) (B := p.T) (hM.num h1) (hM.from_ h1 hd1 fun q hq => ht q (List.mem_append_left _ hq)) (ht p (by simp)) (mixedRadix_lt ps hd1)
    have hpi : (pairImpl build M p.T).fromDiscr (mixedRadix (ps.map fun p => (p.n, p.d)) + p.d * (ps.map (·.n)).prod) = .ok (.tup [.tup (ps.map (·.v)), p.v]) := by
      show ((Mach.pair build M p.T).fromDiscr _ >>= fun r => pure (Val.tup [r.1, r.2])) = _
      rw [hpf]; rfl
    have hproj : project (ps.map (·.v)) (List.range (m + 2)) = .ok (ps.map (·.v)) := by
      rw [project_range _ _ (by simp; omega), List.take_of_length_le (by simp; omega)]
    unfold TupleItem.impl
    dsimp only
    rw [hpi, ok_bind]
    show (project (ps.map (·.v)) (List.range (m + 2)) >>= fun us => pure (Val.tup (us ++ [p.v]))) = _
    rw [hproj, ok_bind, List.map_append]
    rfl

theorem concat_cases {γ : Type} : (l : List γ) → l = [] ∨ ∃ l' x, l = l' ++ [x]
  | [] => Or.inl rfl
  | a :: l => Or.inr ⟨(a :: l).dropLast, (a :: l).getLast (by simp), (List.dropLast_concat_getLast (by simp)).symm⟩

/-- Every tuple with at most as many components as the invocation has rows (or at most two) has an impl, and it does what it should. -/
theorem tuple_sem (build : Build) {name : Nat → String} {n : Nat} (hinj : ∀ i j, i < n → j < n → name i = name j → i = j) :
    (fuel : Nat) → (ps : List (Part β)) → (∀ p ∈ ps, p.T.num = .ok p.n) → (ps.length ≤ n ∨ ps.length ≤ 2) → ps.length ≤ fuel + 2 →
    ∃ M, findTuple build (items name n) fuel (ps.map (·.T)) = some M ∧ Sem build ps M
  | _, [], _, _, _ => ⟨unitImpl, by unfold findTuple; rfl, sem_unit build⟩
  | _, [p], h, _, _ => ⟨tuple1Impl p.T, by unfold findTuple; rfl, sem_one build p (h p (by simp))⟩
  | _, [p, q], h, _, _ => ⟨pairImpl build p.T q.T, by unfold findTuple; rfl, sem_two build p q (h p (by simp)) (h q (by simp))⟩
  | 0, _ :: _ :: _ :: _, _, _, h => by simp at h
  | fuel + 1, a :: b :: c :: rest, h, hn, hf => by
    obtain ⟨ps, p, e⟩ : ∃ ps p, a :: b :: c :: rest = ps ++ [p] := by
      rcases concat_cases (a :: b :: c :: rest) with e | e
      · cases e
      · exact e
    have hl : ps.length + 1 = rest.length + 3 := by
      have := congrArg List.length e
      simpa using this.symm
    rw [e] at h hn hf ⊢
    simp at hn hf
    obtain ⟨m, hm⟩ : ∃ m, ps.length = m + 2 := ⟨ps.length - 2, by omega⟩
    obtain ⟨M, hM, hS⟩ := tuple_sem build hinj fuel ps (fun q hq => h q (List.mem_append_left _ hq)) (by omega) (by omega)
    refine ⟨(item name (m + 2)).impl build M p.T M p.T, ?_, sem_step build name hS p (h p (by simp)) m hm⟩
    rw [List.map_append, List.map_singleton, findTuple_step hinj build fuel m _ _ (by simpa using hm) (by omega), hM]
    rfl

/-- Parts with these impls. -/
theorem parts_of : (Ts : List (Mach (Val β))) → (ns : List Nat) → Ts.map (·.num) = ns.map .ok → (d : Nat) →
    ∃ ps : List (Part β), ps.map (·.T) = Ts ∧ ps.map (·.n) = ns ∧ ∀ p ∈ ps, p.d = d
  | [], [], _, _ => ⟨[], rfl, rfl, nofun⟩
  | [], _ :: _, h, _ => by cases h
  | _ :: _, [], h, _ => by cases h
  | T :: Ts, n :: ns, h, d => by
    have h' := (List.cons.inj h).2
    obtain ⟨ps, h1, h2, h3⟩ := parts_of Ts ns h' d
    refine ⟨⟨T, n, .tup [], d⟩ :: ps, by rw [List.map_cons, h1], by rw [List.map_cons, h2], ?_⟩
    intro p hp
    rcases List.mem_cons.mp hp with rfl | hp
    · rfl
    · exact h3 p hp

theorem parts_num {Ts : List (Mach (Val β))} {ns : List Nat} {ps : List (Part β)} (h1 : ps.map (·.T) = Ts) (h2 : ps.map (·.n) = ns) (h : Ts.map (·.num) = ns.map .ok) :
    ∀ p ∈ ps, p.T.num = .ok p.n := by
  subst h1; subst h2
  rw [List.map_map, List.map_map, List.map_inj_left] at h
  exact h

/-- Every number is made of digits. -/
theorem digits_of : (Ts : List (Mach (Val β))) → (ns : List Nat) → Ts.map (·.num) = ns.map .ok →
    (∀ T ∈ Ts, ∀ n d, T.num = .ok n → d < n → ∃ v, T.fromDiscr d = .ok v ∧ T.toDiscr v = .ok d) → (x : Nat) → x < ns.prod →
    ∃ ps : List (Part β), ps.map (·.T) = Ts ∧ ps.map (·.n) = ns ∧ (∀ p ∈ ps, p.T.num = .ok p.n) ∧
      (∀ p ∈ ps, p.d < p.n ∧ p.T.fromDiscr p.d = .ok p.v ∧ p.T.toDiscr p.v = .ok p.d) ∧ number ps = x
  | [], [], _, _, x, hx => ⟨[], rfl, rfl, nofun, nofun, by
      rw [List.prod_nil] at hx
      have : x = 0 := by omega
      subst this; rfl⟩
  | [], _ :: _, h, _, _, _ => by cases h
  | _ :: _, [], h, _, _, _ => by cases h
  | T :: Ts, n :: ns, h, hT, x, hx => by
    have h0 : T.num = .ok n := (List.cons.inj h).1
    have h' := (List.cons.inj h).2
    rw [List.prod_cons] at hx
    have hn : 0 < n := Nat.pos_of_ne_zero fun e => by rw [e, Nat.zero_mul] at hx; omega
    obtain ⟨ps, h1, h2, h3, h4, h5⟩ := digits_of Ts ns h' (fun S hS => hT S (List.mem_cons_of_mem _ hS)) (x / n) (Nat.div_lt_of_lt_mul hx)
    obtain ⟨v, hv1, hv2⟩ := hT T List.mem_cons_self n (x % n) h0 (Nat.mod_lt _ hn)
    refine ⟨⟨T, n, v, x % n⟩ :: ps, by rw [List.map_cons, h1], by rw [List.map_cons, h2], ?_, ?_, ?_⟩
    · intro p hp
      rcases List.mem_cons.mp hp with rfl | hp
      · exact h0
      · exact h3 p hp
    · intro p hp
      rcases List.mem_cons.mp hp with rfl | hp
      · exact ⟨Nat.mod_lt _ hn, hv1, hv2⟩
      · exact h4 p hp
    · unfold number at h5 ⊢
      rw [List.map_cons, mixedRadix_cons, h5]
      exact Nat.mod_add_div x n

/-! ## Arrays -/

/-- The item for arrays of `n` items. -/
def aitem (ty : String) (n : Nat) : ArrayItem where
  elem := ty
  size := n
  comps := List.replicate n ty
  toIdx := (List.range n).reverse
  fromIdx := List.range n

/-- The items of the invocation with `n + 1` rows. -/
def aitems (ty : String) : Nat → List ArrayItem
  | 0 => []
  | n + 1 => aitem ty (n + 1) :: aitems ty n

theorem rows_const (ty : String) : (n : Nat) → (rows (fun _ => ty) n).map (·.ty) = List.replicate n ty
  | 0 => rfl
  | n + 1 => by rw [rows, List.map_cons, rows_const ty n]; rfl

theorem arrayImpls_rows (ty : String) : (n : Nat) → arrayImpls (rows (fun _ => ty) (n + 1)) = some (aitems ty n)
  | 0 => rfl
  | n + 1 => by
    have ih := arrayImpls_rows ty n
    show (do
      let its ← arrayImpls (rows (fun _ => ty) (n + 1))
      return _ :: its : Option (List ArrayItem)) = _
    rw [ih]
    show some (_ :: aitems ty n) = some (aitem ty (n + 1) :: aitems ty n)
    have h1 : reverseIdx ((rows (fun _ => ty) (n + 1)).map (·.idx)) [] = List.range (n + 1) := reverse_rows _ (n + 1)
    have h2 : (rows (fun _ => ty) (n + 1)).map (·.ty) = List.replicate (n + 1) ty := rows_const ty (n + 1)
    have h3 : (rows (fun _ => ty) (n + 1)).map (·.idx) = (List.range (n + 1)).reverse := rows_idx (fun _ => ty) (n + 1)
    rw [h1, h2, h3]
    rfl

theorem mem_aitems {ty : String} {it : ArrayItem} : {n : Nat} → it ∈ aitems ty n → ∃ m, 1 ≤ m ∧ m ≤ n ∧ it = aitem ty m
  | 0, h => by cases h
  | n + 1, h => by
    rcases List.mem_cons.mp h with h | h
    · exact ⟨n + 1, by omega, by omega, h⟩
    · obtain ⟨m, h1, h2, h3⟩ := mem_aitems h
      exact ⟨m, h1, by omega, h3⟩

theorem afilter_none (ty : String) (n m : Nat) (h : n < m) : ((aitems ty n).filter fun it => it.size == m) = [] := by
  rw [List.filter_eq_nil_iff]
  intro it hi
  obtain ⟨j, h1, h2, rfl⟩ := mem_aitems hi
  simp [aitem]; omega

theorem afilter_one (ty : String) : (n m : Nat) → 1 ≤ m → m ≤ n → ((aitems ty n).filter fun it => it.size == m) = [aitem ty m]
  | 0, m, h, h' => by omega
  | n + 1, m, h, h' => by
    rw [aitems, List.filter_cons]
    by_cases hm : m = n + 1
    · subst hm
      rw [if_pos (by simp [aitem]), afilter_none _ _ _ (by omega)]
    · rw [if_neg (by simp [aitem]; omega), afilter_one ty n m h (by omega)]

theorem findArray_eq (build : Build) (uninit : Bool) (tuples : List TupleItem) (ty : String) (N n : Nat) (T : Mach (Val β)) (h1 : 1 ≤ n) (h2 : n ≤ N) :
    findArray build uninit tuples (aitems ty N) n T = (findTuple build tuples n (List.replicate n T)).map fun M => (aitem ty n).impl build uninit M := by
  unfold findArray
  rw [if_neg (by omega), afilter_one ty N n h1 h2]
  have h3 : ¬(aitem ty n).fromIdx.length ≠ (aitem ty n).size := by simp [aitem]
  have h4 : ((aitem ty n).comps.mapM fun t => if t = (aitem ty n).elem then some T else none) = some (List.replicate n T) := by
    refine mapM_list _ _ _ (by simp [aitem]) ?_
    intro k _ _
    simp [aitem]
  show (if (aitem ty n).fromIdx.length ≠ (aitem ty n).size then none else _) = _
  rw [if_neg h3, h4]
  show (findTuple build tuples (List.replicate n T).length (List.replicate n T) >>= fun t => pure ((aitem ty n).impl build uninit t)) = _
  rw [List.length_replicate]
  cases findTuple build tuples n (List.replicate n T) <;> rfl

theorem findArray_none (build : Build) (uninit : Bool) (tuples : List TupleItem) (ty : String) (N n : Nat) (T : Mach (Val β)) (h : N < n) :
    findArray build uninit tuples (aitems ty N) n T = none := by
  unfold findArray
  rw [if_neg (by omega), afilter_none ty N n h]

theorem moveAll_eq (build : Build) (n : Nat) : (r : List (Val β)) → (k : Nat) → k + r.length = n →
    moveAll build true n (List.range r.length).reverse (List.replicate k none ++ r.map some) = .ok r
  | [], _, _ => rfl
  | v :: r, k, h => by
    rw [List.length_cons] at h
    rw [List.length_cons, List.range_succ, List.reverse_append]
    show (do
      let i ← uSub build.const (← uSub build.const n 1) r.length
      let (v, cells) ← moveOut true (List.replicate k none ++ (v :: r).map some) i
      return v :: (← moveAll build true n (List.range r.length).reverse cells)) = Except.ok (v :: r)
    rw [uSub_ok (by omega), ok_bind, uSub_ok (by omega), ok_bind, show n - 1 - r.length = k by omega]
    have h1 : moveOut true (List.replicate k none ++ (v :: r).map some) k = .ok (v, List.replicate (k + 1) none ++ r.map some) := by
      unfold moveOut
      rw [if_neg (by simp), List.getElem?_append_right (by simp)]
      rw [List.set_append_right _ _ (by simp)]
      simp [List.replicate_succ', List.append_assoc]
    rw [h1, ok_bind]
    show (moveAll build true n (List.range r.length).reverse (List.replicate (k + 1) none ++ r.map some) >>= fun ws => pure (v :: ws)) = _
    rw [moveAll_eq build n r (k + 1) (by omega)]
    rfl

theorem moveAll_panic (build : Build) (n : Nat) (h : 1 ≤ n) (cells : List (Option (Val β))) :
    moveAll build false n (List.range n).reverse cells = .error .user := by
  obtain ⟨m, rfl⟩ : ∃ m, n = m + 1 := ⟨n - 1, by omega⟩
  rw [List.range_succ, List.reverse_append]
  show (do
    let i ← uSub build.const (← uSub build.const (m + 1) 1) m
    let (v, cells) ← moveOut false cells i
    return v :: (← moveAll build false (m + 1) (List.range m).reverse cells)) = _
  rw [uSub_ok (by omega), ok_bind, uSub_ok (by omega), ok_bind]
  rfl

end Rules
end EnumLike
end EnumVecModel
