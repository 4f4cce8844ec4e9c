import Verif.Machine
import Verif.Lemmas.Derive

/-! # Lemmas on the machine model of the `EnumLike` impls -/

namespace EnumVecModel

theorem uAdd_ok {k : Build} {a b : Nat} (h : a + b < k.usizeLim) : uAdd k a b = .ok (a + b) := if_pos h
theorem uMul_ok {k : Build} {a b : Nat} (h : a * b < k.usizeLim) : uMul k a b = .ok (a * b) := if_pos h
theorem uSub_ok {k : Build} {a b : Nat} (h : b ≤ a) : uSub k a b = .ok (a - b) := if_pos h

theorem uAdd_true {k : Build} {a b v : Nat} (h : uAdd k.const a b = .ok v) : v = a + b ∧ a + b < k.usizeLim := by
  unfold uAdd at h
  split at h
  · cases h; exact ⟨rfl, by assumption⟩
  · cases h

theorem uMul_true {k : Build} {a b v : Nat} (h : uMul k.const a b = .ok v) : v = a * b ∧ a * b < k.usizeLim := by
  unfold uMul at h
  split at h
  · cases h; exact ⟨rfl, by assumption⟩
  · cases h

theorem ok_bind {ε α β : Type} (a : α) (f : α → Except ε β) : (Except.ok a >>= f) = f a := rfl
theorem error_bind {ε α β : Type} (e : ε) (f : α → Except ε β) : ((Except.error e : Except ε α) >>= f) = .error e := rfl

theorem bind_eq_ok {ε α β : Type} {x : Except ε α} {f : α → Except ε β} {b : β} (h : (x >>= f) = .ok b) : ∃ a, x = .ok a ∧ f a = .ok b := by
  cases x with
  | error e => cases h
  | ok a => exact ⟨a, rfl, h⟩

namespace EnumLike

/-- A number of `from_discr`'s result as the machine sees it. -/
def orPanic {α : Type} : Option α → Except Fault α
  | some a => .ok a
  | none => .error .badDiscr

theorem Refines.from' {k : Build} {α : Type} {m : Mach α} {E : EnumLike α} (h : Refines k m E) {x : Nat} (hx : x < k.usizeLim) :
    m.fromDiscr x = orPanic (E.fromDiscr x) := by
  rw [h.from x hx]; cases E.fromDiscr x <;> rfl

theorem Refines.mk' {k : Build} {α : Type} {m : Mach α} {E : EnumLike α} (h1 : m.num = .ok E.num) (h2 : E.num < k.usizeLim)
    (h3 : ∀ a, m.toDiscr a = .ok (E.toDiscr a)) (h4 : ∀ x, x < k.usizeLim → m.fromDiscr x = orPanic (E.fromDiscr x)) : Refines k m E :=
  ⟨h1, h2, h3, fun x hx => by rw [h4 x hx]; cases E.fromDiscr x <;> rfl⟩

/-- What the induction proves. -/
def MGood (k : Build) {α : Type} (E : EnumLike α) (m : Mach α) : Prop := E.Contract ∧ ∀ n, m.num = .ok n → Refines k m E

variable {α β : Type} {k : Build}

theorem good_unit : MGood k unit Mach.unit :=
  ⟨unit_contract, fun _ _ => ⟨rfl, k.lt_usizeLim (by decide), fun _ => rfl, fun _ _ => rfl⟩⟩

theorem good_bool : MGood k bool Mach.bool :=
  ⟨bool_contract, fun _ _ => ⟨rfl, k.lt_usizeLim (by decide), fun _ => rfl, fun _ _ => rfl⟩⟩

theorem good_option {T : EnumLike α} {m : Mach α} (h : MGood k T m) : MGood k (option T) (Mach.option k m) := by
  refine ⟨option_contract h.1, fun n hn => ?_⟩
  obtain ⟨t, ht, hn⟩ := bind_eq_ok hn
  have r := h.2 t ht
  have : t = T.num := by have := ht.symm.trans r.num; simpa using this
  subst this
  have hlt := (uAdd_true hn).2
  refine .mk' ?_ hlt ?_ ?_
  · show (m.num >>= fun t => uAdd k.const 1 t) = _
    rw [r.num, ok_bind, uAdd_ok (k := k.const) hlt]; rfl
  · intro a
    cases a with
    | none => exact r.num
    | some x => exact r.to x
  · intro x hx
    show (m.num >>= _) = orPanic (if x = T.num then _ else _)
    rw [r.num, ok_bind]
    split
    · rfl
    · show (m.fromDiscr x >>= _) = _
      rw [r.from' hx]
      cases T.fromDiscr x <;> rfl

theorem good_result {T : EnumLike α} {m : Mach α} {S : EnumLike β} {m' : Mach β} (h : MGood k T m) (h' : MGood k S m') :
    MGood k (result T S) (Mach.result k m m') := by
  refine ⟨result_contract h.1 h'.1, fun n hn => ?_⟩
  obtain ⟨t, ht, hn⟩ := bind_eq_ok hn
  obtain ⟨u, hu, hn⟩ := bind_eq_ok hn
  have r := h.2 t ht
  have r' := h'.2 u hu
  have : t = T.num := by have := ht.symm.trans r.num; simpa using this
  subst this
  have : u = S.num := by have := hu.symm.trans r'.num; simpa using this
  subst this
  have hlt := (uAdd_true hn).2
  refine .mk' ?_ hlt ?_ ?_
  · show (m.num >>= fun t => m'.num >>= fun u => uAdd k.const t u) = _
    rw [r.num, ok_bind, r'.num, ok_bind, uAdd_ok (k := k.const) hlt]; rfl
  · intro a
    cases a with
    | ok x => exact r.to x
    | error x =>
      show (m.num >>= fun t => m'.toDiscr x >>= fun u => uAdd k t u) = _
      have := h'.1.lt x
      rw [r.num, ok_bind, r'.to, ok_bind, uAdd_ok (by omega)]; rfl
  · intro x hx
    show (m.num >>= _) = orPanic (if x < T.num then _ else _)
    rw [r.num, ok_bind]
    split
    · show (m.fromDiscr x >>= _) = _
      rw [r.from' hx]
      cases T.fromDiscr x <;> rfl
    · rw [ok_bind, uSub_ok (by omega), ok_bind, r'.from' (by omega)]
      cases S.fromDiscr (x - T.num) <;> rfl

theorem good_tuple1 {T : EnumLike α} {m : Mach α} (h : MGood k T m) : MGood k (tuple1 T) (Mach.tuple1 m) :=
  ⟨⟨h.1.lt, h.1.roundtrip⟩, fun n hn => ⟨(h.2 n hn).num, (h.2 n hn).fits, (h.2 n hn).to, (h.2 n hn).from⟩⟩

theorem good_pair {T : EnumLike α} {m : Mach α} {S : EnumLike β} {m' : Mach β} (h : MGood k T m) (h' : MGood k S m') :
    MGood k (pair T S) (Mach.pair k m m') := by
  refine ⟨pair_contract h.1 h'.1, fun n hn => ?_⟩
  obtain ⟨t, ht, hn⟩ := bind_eq_ok hn
  obtain ⟨u, hu, hn⟩ := bind_eq_ok hn
  have r := h.2 t ht
  have r' := h'.2 u hu
  have : t = T.num := by have := ht.symm.trans r.num; simpa using this
  subst this
  have : u = S.num := by have := hu.symm.trans r'.num; simpa using this
  subst this
  have hlt := (uMul_true hn).2
  refine .mk' ?_ hlt ?_ ?_
  · show (m.num >>= fun t => m'.num >>= fun u => uMul k.const t u) = _
    rw [r.num, ok_bind, r'.num, ok_bind, uMul_ok (k := k.const) hlt]; rfl
  · intro p
    show (m.toDiscr p.1 >>= fun a => m'.toDiscr p.2 >>= fun b => m.num >>= fun t => uMul k b t >>= fun q => uAdd k a q) = _
    have e := (pair_contract h.1 h'.1).lt p
    have e1 : (pair T S).toDiscr p = T.toDiscr p.1 + S.toDiscr p.2 * T.num := rfl
    have e2 : (pair T S).num = T.num * S.num := rfl
    rw [e1, e2] at e
    rw [r.to, ok_bind, r'.to, ok_bind, r.num, ok_bind, uMul_ok (by omega), ok_bind, uAdd_ok (by omega), e1]
  · intro x hx
    show (m.num >>= fun t => uRem x t >>= fun y => m.fromDiscr y >>= fun a => m.num >>= fun t => uDiv x t >>= fun z => m'.fromDiscr z >>= fun b => _) =
      orPanic (if T.num = 0 then none else _)
    rw [r.num, ok_bind]
    unfold uRem uDiv
    split
    · rfl
    · rename_i hT
      have h1 : x % T.num ≤ x := Nat.mod_le _ _
      have h2 : x / T.num ≤ x := Nat.div_le_self _ _
      rw [ok_bind, r.from' (by omega)]
      cases hA : T.fromDiscr (x % T.num) with
      | none => rfl
      | some a =>
        show ((if T.num = 0 then Except.error Fault.badDiscr else Except.ok (x / T.num)) >>= fun z => m'.fromDiscr z >>= fun b => _) = _
        rw [if_neg hT, ok_bind, r'.from' (by omega)]
        cases S.fromDiscr (x / T.num) <;> rfl

theorem good_tuple : (cs : Mach.MComps) → (∀ A ∈ cs, MGood k A.2.1 A.2.2) → MGood k (tuple (Mach.pure cs)) (Mach.tuple k cs)
  | [], _ => good_unit
  | [A], h => good_tuple1 (h A (by simp))
  | A :: B :: rest, h => good_pair (good_tuple (B :: rest) fun C hC => h C (List.mem_cons_of_mem _ hC)) (h A (by simp))

theorem good_arrayTuple {T : EnumLike α} {m : Mach α} (h : MGood k T m) : (n : Nat) → MGood k (tuple (arrayComps T n)) (Mach.arrayTuple k T m n)
  | 0 => good_unit
  | 1 => good_tuple1 h
  | n + 2 => good_pair (good_arrayTuple h (n + 1)) h

theorem good_array {T : EnumLike α} {m : Mach α} (h : MGood k T m) (n : Nat) : MGood k (array T n) (Mach.array k T m n) := by
  refine ⟨array_contract h.1 n, fun v hv => ?_⟩
  have r := (good_arrayTuple (k := k) h n).2 v hv
  refine .mk' r.num r.fits (fun f => r.to _) fun x hx => ?_
  show ((Mach.arrayTuple k T m n).fromDiscr x >>= _) = orPanic (((tuple (arrayComps T n)).fromDiscr x).map _)
  rw [r.from' hx]
  cases (tuple (arrayComps T n)).fromDiscr x <;> rfl

/-! ## Products and sums -/

namespace Mach

/-- One step of a product expression. -/
def mulE (k : Build) (acc m : Except Fault Nat) : Except Fault Nat := do uMul k (← acc) (← m)

/-- One step of a sum expression. -/
def addE (k : Build) (acc m : Except Fault Nat) : Except Fault Nat := do uAdd k (← acc) (← m)

/-- The value of `n1 * n2 * … * nk` (`1usize` if empty). -/
def prodE (k : Build) : List (Except Fault Nat) → Except Fault Nat
  | [] => .ok 1
  | n :: ns => ns.foldl (mulE k) n

theorem foldl_mulE_error (e : Fault) (ns : List (Except Fault Nat)) : ns.foldl (mulE k) (.error e) = .error e := by
  induction ns with
  | nil => rfl
  | cons n ns ih => exact ih

theorem foldl_addE_error (e : Fault) (ns : List (Except Fault Nat)) : ns.foldl (addE k) (.error e) = .error e := by
  induction ns with
  | nil => rfl
  | cons n ns ih => exact ih

theorem foldl_mulE_true {ns : List (Except Fault Nat)} : ∀ {a v : Nat}, a < k.usizeLim → ns.foldl (mulE k.const) (.ok a) = .ok v →
    ∃ ks : List Nat, ns = ks.map .ok ∧ v = a * ks.prod ∧ ∀ i, a * (ks.take i).prod < k.usizeLim := by
  induction ns with
  | nil => intro a v ha h; cases h; exact ⟨[], rfl, by simp, by simpa⟩
  | cons n ns ih =>
    intro a v ha h
    rw [List.foldl_cons] at h
    cases n with
    | error e => exact absurd (h.symm.trans (foldl_mulE_error e ns)) nofun
    | ok b =>
      have e1 : mulE k.const (.ok a) (.ok b) = uMul k.const a b := rfl
      rw [e1] at h
      cases hu : uMul k.const a b with
      | error e => rw [hu] at h; exact absurd (h.symm.trans (foldl_mulE_error e ns)) nofun
      | ok c =>
        obtain ⟨rfl, hlt⟩ := uMul_true hu
        rw [hu] at h
        obtain ⟨ks, h1, h2, h3⟩ := ih hlt h
        refine ⟨b :: ks, by rw [h1]; rfl, by rw [h2, List.prod_cons, Nat.mul_assoc], fun i => ?_⟩
        cases i with
        | zero => simpa
        | succ i => rw [List.take_succ_cons, List.prod_cons, ← Nat.mul_assoc]; exact h3 i

theorem foldl_mulE_ok {ks : List Nat} : ∀ {a : Nat}, (∀ i, a * (ks.take i).prod < k.usizeLim) →
    (ks.map .ok).foldl (mulE k) (.ok a) = .ok (a * ks.prod) := by
  induction ks with
  | nil => intro a h; simp
  | cons b ks ih =>
    intro a h
    have h0 := h 1
    rw [List.take_succ_cons, List.take_zero, List.prod_cons, List.prod_nil, Nat.mul_one] at h0
    rw [List.map_cons, List.foldl_cons]
    have e1 : mulE k (.ok a) (.ok b) = uMul k a b := rfl
    rw [e1, uMul_ok h0, ih, List.prod_cons, Nat.mul_assoc]
    intro i
    have := h (i + 1)
    rwa [List.take_succ_cons, List.prod_cons, ← Nat.mul_assoc] at this

theorem foldl_addE_true {ns : List (Except Fault Nat)} : ∀ {a v : Nat}, a < k.usizeLim → ns.foldl (addE k.const) (.ok a) = .ok v →
    ∃ ks : List Nat, ns = ks.map .ok ∧ v = a + ks.sum ∧ v < k.usizeLim := by
  induction ns with
  | nil => intro a v ha h; cases h; exact ⟨[], rfl, by simp, by simpa⟩
  | cons n ns ih =>
    intro a v ha h
    rw [List.foldl_cons] at h
    cases n with
    | error e => exact absurd (h.symm.trans (foldl_addE_error e ns)) nofun
    | ok b =>
      have e1 : addE k.const (.ok a) (.ok b) = uAdd k.const a b := rfl
      rw [e1] at h
      cases hu : uAdd k.const a b with
      | error e => rw [hu] at h; exact absurd (h.symm.trans (foldl_addE_error e ns)) nofun
      | ok c =>
        obtain ⟨rfl, hlt⟩ := uAdd_true hu
        rw [hu] at h
        obtain ⟨ks, h1, h2, h3⟩ := ih hlt h
        exact ⟨b :: ks, by rw [h1]; rfl, by rw [h2, List.sum_cons, Nat.add_assoc], h3⟩

theorem foldl_addE_ok {ks : List Nat} : ∀ {a : Nat}, a + ks.sum < k.usizeLim → (ks.map .ok).foldl (addE k) (.ok a) = .ok (a + ks.sum) := by
  induction ks with
  | nil => intro a h; simp
  | cons b ks ih =>
    intro a h
    rw [List.sum_cons] at h ⊢
    rw [List.map_cons, List.foldl_cons]
    have e1 : addE k (.ok a) (.ok b) = uAdd k a b := rfl
    rw [e1, uAdd_ok (by omega), ih (by omega), Nat.add_assoc]

theorem sum_cons (n : Except Fault Nat) (ns : List (Except Fault Nat)) : sum k (n :: ns) = ns.foldl (addE k) n := rfl

theorem sum_ok {ks : List Nat} (h : ks.sum < k.usizeLim) : sum k (ks.map .ok) = .ok ks.sum := by
  cases ks with
  | nil => rfl
  | cons a ks =>
    rw [List.sum_cons] at h ⊢
    rw [List.map_cons, sum_cons, foldl_addE_ok h]

/-- If a constant product expression of the constants of components compiles, all its prefixes fit. -/
theorem prodE_true {ns : List (Except Fault Nat)} {v : Nat} (hn : ∀ n a, n ∈ ns → n = .ok a → a < k.usizeLim) (h : prodE k.const ns = .ok v) :
    ∃ ks : List Nat, ns = ks.map .ok ∧ v = ks.prod ∧ ∀ i, (ks.take i).prod < k.usizeLim := by
  cases ns with
  | nil => cases h; exact ⟨[], rfl, rfl, by simp; exact k.lt_usizeLim (by decide)⟩
  | cons n ns =>
    cases n with
    | error e => exact absurd (h.symm.trans (foldl_mulE_error e ns)) nofun
    | ok a =>
      obtain ⟨ks, h1, h2, h3⟩ := foldl_mulE_true (hn _ a (by simp) rfl) h
      refine ⟨a :: ks, by rw [h1]; rfl, by rw [h2, List.prod_cons], fun i => ?_⟩
      cases i with
      | zero => simp; exact k.lt_usizeLim (by decide)
      | succ i => rw [List.take_succ_cons, List.prod_cons]; exact h3 i

theorem prodE_ok {ks : List Nat} (h : ∀ i, (ks.take i).prod < k.usizeLim) : prodE k (ks.map .ok) = .ok ks.prod := by
  cases ks with
  | nil => rfl
  | cons a ks =>
    rw [List.prod_cons]
    refine foldl_mulE_ok fun i => ?_
    have := h (i + 1)
    rwa [List.take_succ_cons, List.prod_cons] at this

theorem prodE_concat {ns : List (Except Fault Nat)} (h : ns ≠ []) (m : Except Fault Nat) : prodE k (ns ++ [m]) = mulE k (prodE k ns) m := by
  cases ns with
  | nil => exact absurd rfl h
  | cons n ns =>
    show (ns ++ [m]).foldl (mulE k) n = _
    rw [List.foldl_append]; rfl

theorem products_get (ns : List (Except Fault Nat)) (h : ns ≠ []) :
    products k ns = (List.range ns.length).map fun i => prodE k (ns.take i) := by
  by_cases h2 : 2 ≤ ns.length
  · unfold products
    rw [if_pos h2]
    have key : ∀ j, j + 2 ≤ ns.length →
        (List.range' 2 j).foldl (fun ps i => ps ++ [do uMul k (← ps.getLastD (.ok 1)) (← ns.getD (i - 1) (.ok 1))]) [.ok 1, ns.getD 0 (.ok 1)]
          = (List.range (j + 2)).map fun i => prodE k (ns.take i) := by
      intro j
      induction j with
      | zero =>
        intro hk
        match ns, h2 with
        | a :: b :: ns, _ => simp [List.range_succ, prodE]
      | succ j ih =>
        intro hk
        rw [List.range'_1_concat, List.foldl_append, ih (by omega), List.foldl_cons, List.foldl_nil, List.range_succ (n := j + 2),
          List.map_append]
        congr 1
        rw [List.range_succ (n := j + 1), List.map_append]
        simp only [List.map_cons, List.map_nil, List.getLastD_concat]
        rw [show 2 + j - 1 = j + 1 from by omega]
        have hlt : j + 1 < ns.length := by omega
        rw [List.getD_eq_getElem?_getD, List.getElem?_eq_getElem hlt, Option.getD_some, show j + 2 = (j + 1) + 1 from rfl,
          List.take_succ_eq_append_getElem hlt, prodE_concat (by
            intro h0
            have := congrArg List.length h0
            rw [List.length_take, List.length_nil] at this
            omega)]
        rfl
    have := key (ns.length - 2) (by omega)
    rwa [show ns.length - 2 + 2 = ns.length from by omega] at this
  · match ns, h with
    | [n], _ => rfl
    | a :: b :: ns, _ => exact absurd (by simp) h2

theorem totalNum_eq (cs : MComps) : totalNum k cs = prodE k (nums cs) := by
  unfold totalNum
  rw [products_get _ (by simp)]
  have hl : (nums cs ++ [Except.ok 0]).length = (nums cs).length + 1 := by simp
  rw [hl, List.range_succ, List.map_append]
  simp only [List.map_cons, List.map_nil, List.getLastD_concat]
  rw [List.take_append_of_le_length (Nat.le_refl _), List.take_of_length_le (Nat.le_refl _)]

/-! ## Fields -/

/-- All components agree. -/
def AllRef (k : Build) (cs : MComps) : Prop := ∀ A ∈ cs, Refines k A.2.2 A.2.1

theorem pure_eq (cs : MComps) : pure cs = cs.map fun A => ⟨A.1, A.2.1⟩ := by
  induction cs with
  | nil => rfl
  | cons A rest ih => rw [List.map_cons, ← ih]

theorem mem_pure {cs : MComps} {P : (α : Type) → EnumLike α → Prop} (h : ∀ A ∈ cs, P A.1 A.2.1) : ∀ A ∈ pure cs, P A.1 A.2 := by
  intro A hA
  rw [pure_eq] at hA
  obtain ⟨C, hC, rfl⟩ := List.mem_map.1 hA
  exact h C hC

theorem nums_ok {cs : MComps} (h : AllRef k cs) : nums cs = (Derive.nums (pure cs)).map .ok := by
  induction cs with
  | nil => rfl
  | cons A rest ih =>
    have h1 : A.2.2.num = .ok A.2.1.num := (h A (by simp)).num
    show A.2.2.num :: nums rest = .ok A.2.1.num :: _
    rw [h1, ih fun B hB => h B (by simp [hB])]
    rfl

theorem ok_inj : {as bs : List Nat} → as.map (Except.ok (ε := Fault)) = bs.map .ok → as = bs
  | [], [], _ => rfl
  | [], _ :: _, h => by cases h
  | _ :: _, [], h => by cases h
  | a :: as, b :: bs, h => by
    rw [List.map_cons, List.map_cons] at h
    injection h with h1 h2
    cases h1
    rw [ok_inj h2]

/-- From a constant that compiles: all field types compile and all prefix products fit. -/
theorem totalNum_true {cs : MComps} (hg : ∀ A ∈ cs, MGood k A.2.1 A.2.2) {v : Nat} (h : totalNum k.const cs = .ok v) :
    AllRef k cs ∧ v = Derive.totalNum (pure cs) ∧ ∀ i, ((Derive.nums (pure cs)).take i).prod < k.usizeLim := by
  rw [totalNum_eq] at h
  have hb : ∀ n a, n ∈ nums cs → n = .ok a → a < k.usizeLim := by
    intro n a hn e
    obtain ⟨A, hA, rfl⟩ := List.mem_map.1 hn
    have r := (hg A hA).2 a e
    have := e.symm.trans r.num
    have : a = A.2.1.num := by simpa using this
    rw [this]; exact r.fits
  obtain ⟨ks, h1, h2, h3⟩ := prodE_true hb h
  have hr : AllRef k cs := by
    intro A hA
    have : A.2.2.num ∈ nums cs := List.mem_map.2 ⟨A, hA, rfl⟩
    rw [h1] at this
    obtain ⟨a, -, ha⟩ := List.mem_map.1 this
    exact (hg A hA).2 a ha.symm
  have hks : ks = Derive.nums (pure cs) := by
    have e := h1.symm.trans (nums_ok hr)
    exact ok_inj e
  rw [hks] at h2 h3
  exact ⟨hr, by rw [h2, Derive.totalNum_eq]; rfl, h3⟩

theorem totalNum_ok {cs : MComps} (hr : AllRef k cs) (h : ∀ i, ((Derive.nums (pure cs)).take i).prod < k.usizeLim) :
    totalNum k cs = .ok (Derive.totalNum (pure cs)) := by
  rw [totalNum_eq, nums_ok hr, prodE_ok h, Derive.totalNum_eq]; rfl

theorem products_ok {cs : MComps} (hne : cs ≠ []) (hr : AllRef k cs) (h : ∀ i, ((Derive.nums (pure cs)).take i).prod < k.usizeLim) :
    products k (nums cs) = (Derive.numVariantsProduct (Derive.nums (pure cs))).map .ok := by
  have h0 : nums cs ≠ [] := by cases cs <;> simp_all [nums]
  have h0' : Derive.nums (pure cs) ≠ [] := by cases cs <;> simp_all [Derive.nums]
  rw [products_get _ h0, nums_ok hr]
  rw [Derive.numVariantsProduct_eq _ h0']
  apply List.ext_getElem?
  intro i
  by_cases hi : i < (Derive.nums (pure cs)).length
  · rw [List.getElem?_map, List.getElem?_map, Derive.prefixFrom_get _ _ _ hi, Nat.one_mul, List.length_map, List.getElem?_range hi]
    simp only [Option.map_some]
    rw [← List.map_take, prodE_ok]
    intro j
    rw [List.take_take]
    exact h _
  · rw [List.getElem?_eq_none (by simpa using hi), List.getElem?_eq_none (by rw [List.length_map, Derive.prefixFrom_length]; omega)]

theorem toBody_ge : (cs : Comps) → (ps : List Nat) → (acc : Nat) → (x : Derive.Fields cs) → acc ≤ Derive.toBody cs ps acc x
  | [], ps, acc, _ => by cases ps <;> exact Nat.le_refl _
  | _ :: _, [], acc, _ => Nat.le_refl _
  | A :: rest, p :: ps, acc, x => Nat.le_trans (Nat.le_add_right _ _) (toBody_ge rest ps (acc + p * A.2.toDiscr x.1) x.2)

theorem toBody_ok : (cs : MComps) → (ps : List Nat) → (acc : Nat) → (x : Derive.Fields (pure cs)) → AllRef k cs →
    Derive.toBody (pure cs) ps acc x < k.usizeLim → toBody k cs (ps.map .ok) (.ok acc) x = .ok (Derive.toBody (pure cs) ps acc x)
  | [], ps, acc, x, _, _ => by cases ps <;> rfl
  | _ :: _, [], acc, x, _, _ => rfl
  | A :: rest, p :: ps, acc, x, hr, hlt => by
    have hlt : Derive.toBody (pure rest) ps (acc + p * A.2.1.toDiscr x.1) x.2 < k.usizeLim := hlt
    have hge := toBody_ge (pure rest) ps (acc + p * A.2.1.toDiscr x.1) x.2
    have e : toBody k (A :: rest) ((p :: ps).map .ok) (.ok acc) x = toBody k rest (ps.map .ok)
      (A.2.2.toDiscr x.1 >>= fun d => uMul k p d >>= fun q => uAdd k acc q) x.2 := rfl
    rw [e, (hr A (by simp)).to, ok_bind, uMul_ok (by omega), ok_bind, uAdd_ok (by omega)]
    exact toBody_ok rest ps _ x.2 (fun B hB => hr B (by simp [hB])) hlt

theorem fromBody_ok : (cs : MComps) → (ps : List Nat) → (v : Nat) → AllRef k cs → v < k.usizeLim →
    fromBody cs (ps.map .ok) (.ok v) = orPanic (Derive.fromBody (pure cs) ps v)
  | [], _, _, _, _ => rfl
  | [A], [], _, _, _ => rfl
  | A :: B :: rest, [], _, _, _ => rfl
  | [A], p :: ps, v, hr, hv => by
    show (uDiv v p >>= fun y => A.2.2.fromDiscr y >>= fun a => _) = orPanic (if p = 0 then none else _)
    unfold uDiv
    split
    · rfl
    · have := Nat.div_le_self v p
      rw [ok_bind, (hr A (by simp)).from' (by omega)]
      cases A.2.1.fromDiscr (v / p) <;> rfl
  | A :: B :: rest, p :: ps, v, hr, hv => by
    have r := hr A (by simp)
    show (uDiv v p >>= fun y => A.2.2.num >>= fun n => uRem y n >>= fun z => A.2.2.fromDiscr z >>= fun a =>
      fromBody (B :: rest) (ps.map .ok) (.ok v) >>= fun b => _) = orPanic (if p = 0 ∨ A.2.1.num = 0 then none else _)
    rw [r.num, fromBody_ok (B :: rest) ps v (fun C hC => hr C (List.mem_cons_of_mem _ hC)) hv]
    unfold uDiv uRem
    by_cases hp : p = 0
    · rw [if_pos hp, if_pos (Or.inl hp)]; rfl
    · rw [if_neg hp, ok_bind, ok_bind]
      by_cases hn : A.2.1.num = 0
      · rw [if_pos hn, if_pos (Or.inr hn)]; rfl
      · rw [if_neg hn, if_neg (not_or.2 ⟨hp, hn⟩), ok_bind]
        have h1 := Nat.div_le_self v p
        have h2 := Nat.mod_le (v / p) A.2.1.num
        rw [r.from' (by omega)]
        cases hA : A.2.1.fromDiscr (v / p % A.2.1.num) with
        | none => rfl
        | some a =>
          cases hB : Derive.fromBody (pure (B :: rest)) ps v with
          | none =>
            rfl
          | some b =>
            rfl

theorem good_struct : (cs : MComps) → (∀ A ∈ cs, MGood k A.2.1 A.2.2) → MGood k (Derive.struct (pure cs)) (struct k cs)
  | [], _ => ⟨Derive.struct_contract (cs := []) (by simp), fun _ _ => ⟨rfl, k.lt_usizeLim (by decide), fun _ => rfl, fun _ _ => rfl⟩⟩
  | A :: rest, h => by
    have hcon : (Derive.struct (pure (A :: rest))).Contract :=
      Derive.struct_contract (mem_pure (P := fun _ E => E.Contract) fun C hC => (h C hC).1)
    refine ⟨hcon, fun n hn => ?_⟩
    obtain ⟨hr, rfl, hp⟩ := totalNum_true h hn
    have hnum : (Derive.struct (pure (A :: rest))).num = Derive.totalNum (pure (A :: rest)) := rfl
    have hfit : Derive.totalNum (pure (A :: rest)) < k.usizeLim := by
      have := hp (Derive.nums (pure (A :: rest))).length
      rw [List.take_length] at this
      rw [Derive.totalNum_eq]; exact this
    refine .mk' hn hfit (fun x => ?_) fun v hv => ?_
    · have hlt := hcon.lt x
      rw [hnum] at hlt
      show toBody k (A :: rest) (products k (nums (A :: rest))) (.ok 0) x = _
      rw [products_ok (by simp) hr hp, toBody_ok _ _ _ _ hr]
      · rfl
      · exact Nat.lt_trans hlt hfit
    · show fromBody (A :: rest) (products k (nums (A :: rest))) (.ok v) = _
      rw [products_ok (by simp) hr hp, fromBody_ok _ _ _ hr hv]
      rfl

/-! ## Enums -/

theorem sum_true {ns : List (Except Fault Nat)} {v : Nat} (hn : ∀ a, ns.head? = some (.ok a) → a < k.usizeLim) (h : sum k.const ns = .ok v) :
    ∃ ks : List Nat, ns = ks.map .ok ∧ v = ks.sum ∧ v < k.usizeLim := by
  cases ns with
  | nil => cases h; exact ⟨[], rfl, rfl, k.lt_usizeLim (by decide)⟩
  | cons n ns =>
    rw [sum_cons] at h
    cases n with
    | error e => exact absurd (h.symm.trans (foldl_addE_error e ns)) nofun
    | ok a =>
      obtain ⟨ks, h1, h2, h3⟩ := foldl_addE_true (hn a rfl) h
      exact ⟨a :: ks, by rw [h1]; rfl, by rw [h2, List.sum_cons], h3⟩

/-- The variant's field types compile and so does the product of their constants. -/
def VRef (k : Build) (v : MVariant) : Prop := AllRef k v.fields ∧ ∀ i, ((Derive.nums (pure v.fields)).take i).prod < k.usizeLim

/-- The variant on natural numbers. -/
@[reducible] def pureVar (v : MVariant) : Derive.Variant := ⟨pure v.fields, v.explicit⟩

theorem isUnit_pure (v : MVariant) : (pureVar v).isUnit = v.isUnit := by
  cases v with | mk f e => cases f <;> rfl

theorem vref_const {v : MVariant} (h : VRef k v) : VRef k.const v :=
  ⟨fun A hA => have r := h.1 A hA; ⟨r.num, r.fits, r.to, r.from⟩, h.2⟩

theorem vref_unit {v : MVariant} (h : v.isUnit = true) : VRef k v := by
  cases v with
  | mk f e =>
    cases f with
    | nil => exact ⟨nofun, by simp [Derive.nums]; exact k.lt_usizeLim (by decide)⟩
    | cons A rest => cases h

theorem units_pure (vs : List MVariant) : Derive.units (pureVars vs) = units vs := by
  induction vs with
  | nil => rfl
  | cons v vs ih =>
    show Derive.units (pureVar v :: pureVars vs) = _
    rw [Derive.units_cons, isUnit_pure, ih]
    unfold units
    by_cases h : v.isUnit = true
    · rw [List.filter_cons_of_pos h, if_pos h, List.length_cons]; omega
    · rw [List.filter_cons_of_neg h, if_neg h]; omega

theorem vnum_ok {v : MVariant} (h : VRef k v) : v.num k = .ok (pureVar v).num := by
  unfold MVariant.num Derive.Variant.num
  rw [isUnit_pure]
  split
  · rfl
  · exact totalNum_ok h.1 h.2

theorem vnum_data {v : MVariant} (h : ¬v.isUnit = true) : (pureVar v).num = Derive.totalNum (pure v.fields) := by
  unfold Derive.Variant.num
  rw [isUnit_pure, if_neg h]

theorem toArms_ok (off : Nat) : (vs : List MVariant) → (u : Nat) → (rh : List Nat) → (y : Derive.EnumVal (pureVars vs)) →
    (∀ v ∈ vs, VRef k v) → (∀ v ∈ vs, ∀ A ∈ v.fields, A.2.1.Contract) → off + rh.sum + Derive.dataTotal (pureVars vs) < k.usizeLim →
    toArms k off vs u (rh.map .ok) y = .ok (Derive.toArms off (pureVars vs) u rh.sum y)
  | v :: vs, u, rh, .inl x, hr, hc, hlt => by
    have hd : Derive.dataTotal (pureVars (v :: vs)) = Derive.dataTotal (pureVar v :: pureVars vs) := rfl
    rw [hd, Derive.dataTotal_cons, isUnit_pure] at hlt
    show (if v.isUnit = true then Except.ok u else _) =
      .ok (if (pureVar v).isUnit = true then u else _)
    rw [isUnit_pure]
    by_cases hu : v.isUnit = true
    · rw [if_pos hu, if_pos hu]
    · rw [if_neg hu] at hlt
      rw [if_neg hu, if_neg hu]
      have hr := hr v (by simp)
      have hne : v.fields ≠ [] := fun h => hu (by unfold MVariant.isUnit; rw [h]; rfl)
      have hne' : pure v.fields ≠ [] := by cases hf : v.fields <;> simp_all
      have e : sum k (.ok off :: rh.map .ok) = .ok (off + rh.sum) := by
        have := sum_ok (k := k) (ks := off :: rh) (by rw [List.sum_cons]; omega)
        rwa [List.sum_cons, List.map_cons] at this
      rw [e, products_ok hne hr.1 hr.2]
      refine toBody_ok _ _ _ _ hr.1 ?_
      rw [Derive.toBody_spec _ hne']
      have := Derive.digits_lt (pure v.fields) (mem_pure (P := fun _ E => E.Contract) (hc v (by simp))) x
      have hlt : off + rh.sum + (Derive.totalNum (pure v.fields) + Derive.dataTotal (pureVars vs)) < k.usizeLim := hlt
      omega
  | v :: vs, u, rh, .inr y, hr, hc, hlt => by
    have hd : Derive.dataTotal (pureVars (v :: vs)) = Derive.dataTotal (pureVar v :: pureVars vs) := rfl
    rw [hd, Derive.dataTotal_cons, isUnit_pure] at hlt
    show (if v.isUnit = true then toArms k off vs (u + 1) (rh.map .ok) y else toArms k off vs u (rh.map .ok ++ [v.num k]) y) =
      .ok (if (pureVar v).isUnit = true then Derive.toArms off (pureVars vs) (u + 1) rh.sum y
        else Derive.toArms off (pureVars vs) u (rh.sum + (pureVar v).num) y)
    rw [isUnit_pure]
    have hr' : ∀ w ∈ vs, VRef k w := fun w hw => hr w (List.mem_cons_of_mem _ hw)
    have hc' : ∀ w ∈ vs, ∀ A ∈ w.fields, A.2.1.Contract := fun w hw => hc w (List.mem_cons_of_mem _ hw)
    by_cases hu : v.isUnit = true
    · rw [if_pos hu] at hlt
      rw [if_pos hu, if_pos hu]
      exact toArms_ok off vs (u + 1) rh y hr' hc' (by omega)
    · rw [if_neg hu] at hlt
      rw [if_neg hu, if_neg hu, vnum_ok (hr v (by simp))]
      have := toArms_ok off vs u (rh ++ [(pureVar v).num]) y hr' hc' (by
        rw [List.sum_append, vnum_data hu]
        simp only [List.sum_cons, List.sum_nil]
        have hlt : off + rh.sum + (Derive.totalNum (pure v.fields) + Derive.dataTotal (pureVars vs)) < k.usizeLim := hlt
        omega)
      rw [List.map_append, List.sum_append] at this
      exact this

theorem fromData_ok (off : Nat) : (vs : List MVariant) → (rh : List Nat) → (x : Nat) → x < k.usizeLim →
    (∀ v ∈ vs, VRef k v) → off + rh.sum + Derive.dataTotal (pureVars vs) < k.usizeLim →
    fromData k off vs (rh.map .ok) x = orPanic (Derive.fromData off (pureVars vs) rh.sum x)
  | [], rh, x, _, _, _ => rfl
  | v :: vs, rh, x, hx, hr, hlt => by
    have hd : Derive.dataTotal (pureVars (v :: vs)) = Derive.dataTotal (pureVar v :: pureVars vs) := rfl
    rw [hd, Derive.dataTotal_cons, isUnit_pure] at hlt
    have hr' : ∀ w ∈ vs, VRef k w := fun w hw => hr w (List.mem_cons_of_mem _ hw)
    show (if v.isUnit = true then (fromData k off vs (rh.map .ok) x >>= fun b => Except.ok (Sum.inr b))
      else inRange (sum k (.ok off :: rh.map .ok)) (sum k (.ok off :: (rh.map .ok ++ [v.num k]))) x >>= fun b =>
        if b = true then fromBody v.fields (products k (nums v.fields)) (uSub k x off >>= fun a => sum k (rh.map .ok) >>= fun r => uSub k a r) >>= fun b => Except.ok (Sum.inl b)
        else fromData k off vs (rh.map .ok ++ [v.num k]) x >>= fun b => Except.ok (Sum.inr b)) =
      orPanic (if (pureVar v).isUnit = true then (Derive.fromData off (pureVars vs) rh.sum x).map Sum.inr
        else if off + rh.sum ≤ x ∧ x < off + (rh.sum + (pureVar v).num) then
          (Derive.fromBody (pure v.fields) (Derive.numVariantsProduct (Derive.nums (pure v.fields))) (x - off - rh.sum)).map Sum.inl
        else (Derive.fromData off (pureVars vs) (rh.sum + (pureVar v).num) x).map Sum.inr)
    rw [isUnit_pure]
    by_cases hu : v.isUnit = true
    · rw [if_pos hu] at hlt
      rw [if_pos hu, if_pos hu, fromData_ok off vs rh x hx hr' (by omega)]
      cases Derive.fromData off (pureVars vs) rh.sum x <;> rfl
    · rw [if_neg hu] at hlt
      have hlt : off + rh.sum + (Derive.totalNum (pure v.fields) + Derive.dataTotal (pureVars vs)) < k.usizeLim := hlt
      rw [← vnum_data hu] at hlt
      have hrv := hr v (by simp)
      have hne : v.fields ≠ [] := fun h => hu (by unfold MVariant.isUnit; rw [h]; rfl)
      have e1 : sum k (.ok off :: rh.map .ok) = .ok (off + rh.sum) := by
        have := sum_ok (k := k) (ks := off :: rh) (by rw [List.sum_cons]; omega)
        rwa [List.sum_cons, List.map_cons] at this
      have e2 : sum k (.ok off :: (rh.map .ok ++ [.ok (pureVar v).num])) = .ok (off + (rh.sum + (pureVar v).num)) := by
        have := sum_ok (k := k) (ks := off :: (rh ++ [(pureVar v).num])) (by
          rw [List.sum_cons, List.sum_append, List.sum_cons, List.sum_nil]; omega)
        rwa [List.sum_cons, List.map_cons, List.map_append, List.sum_append, List.sum_cons, List.sum_nil, Nat.add_zero] at this
      have e3 : sum k (rh.map .ok) = .ok rh.sum := sum_ok (by omega)
      rw [if_neg hu, if_neg hu, vnum_ok hrv, e1, e2]
      have e4 : inRange (.ok (off + rh.sum)) (.ok (off + (rh.sum + (pureVar v).num))) x =
          .ok (decide (off + rh.sum ≤ x ∧ x < off + (rh.sum + (pureVar v).num))) := by
        show (if off + rh.sum ≤ x then Except.ok (decide (x < off + (rh.sum + (pureVar v).num))) else Except.ok false) = _
        split
        · rename_i h1; simp [h1]
        · rename_i h1; simp [h1]
      rw [e4, ok_bind]
      by_cases hin : off + rh.sum ≤ x ∧ x < off + (rh.sum + (pureVar v).num)
      · rw [if_pos (by simpa using hin), if_pos hin, uSub_ok (by omega), ok_bind, e3, ok_bind, uSub_ok (by omega), products_ok hne hrv.1 hrv.2,
          fromBody_ok _ _ _ hrv.1 (by omega)]
        cases Derive.fromBody (pure v.fields) (Derive.numVariantsProduct (Derive.nums (pure v.fields))) (x - off - rh.sum) <;> rfl
      · rw [if_neg (by simpa using hin), if_neg hin]
        have := fromData_ok off vs (rh ++ [(pureVar v).num]) x hx hr' (by
          rw [List.sum_append, List.sum_cons, List.sum_nil]; omega)
        rw [List.map_append, List.sum_append, List.sum_cons, List.sum_nil, Nat.add_zero] at this
        have e5 : fromData k off vs (rh.map .ok ++ [.ok (pureVar v).num]) x = orPanic (Derive.fromData off (pureVars vs) (rh.sum + (pureVar v).num) x) := this
        rw [e5]
        cases Derive.fromData off (pureVars vs) (rh.sum + (pureVar v).num) x <;> rfl

theorem mem_pureVars {vs : List MVariant} (h : ∀ v ∈ vs, ∀ A ∈ v.fields, A.2.1.Contract) :
    ∀ v ∈ pureVars vs, ∀ A ∈ v.fields, A.2.Contract := by
  induction vs with
  | nil => intro v hv; cases hv
  | cons w vs ih =>
    intro v hv
    rcases List.mem_cons.1 hv with rfl | hv
    · exact mem_pure (P := fun _ E => E.Contract) (h w (by simp))
    · exact ih (fun v hv => h v (List.mem_cons_of_mem _ hv)) v hv

theorem dataSum (vs : List MVariant) : ((vs.filter fun v => !v.isUnit).map fun v => (pureVar v).num).sum = Derive.dataTotal (pureVars vs) := by
  induction vs with
  | nil => rfl
  | cons v vs ih =>
    show _ = Derive.dataTotal (pureVar v :: pureVars vs)
    rw [Derive.dataTotal_cons, isUnit_pure, ← ih]
    by_cases h : v.isUnit = true
    · rw [List.filter_cons_of_neg (by simp [h]), if_pos h, Nat.zero_add]
    · rw [List.filter_cons_of_pos (by simp [h]), if_neg h, List.map_cons, List.sum_cons, vnum_data h]

theorem all_unit (vs : List MVariant) : (pureVars vs).all Derive.Variant.isUnit = vs.all MVariant.isUnit := by
  induction vs with
  | nil => rfl
  | cons v vs ih =>
    show ((pureVar v).isUnit && (pureVars vs).all Derive.Variant.isUnit) = (v.isUnit && vs.all MVariant.isUnit)
    rw [ih, isUnit_pure]

theorem length_pureVars (vs : List MVariant) : (pureVars vs).length = vs.length := by
  induction vs with
  | nil => rfl
  | cons v vs ih => simp [ih]

theorem good_rustyEnum {vs : List MVariant} (h : ∀ v ∈ vs, ∀ A ∈ v.fields, MGood k A.2.1 A.2.2) :
    MGood k (Derive.rustyEnum (pureVars vs)) (rustyEnum k vs) := by
  have hc : ∀ v ∈ vs, ∀ A ∈ v.fields, A.2.1.Contract := fun v hv A hA => (h v hv A hA).1
  refine ⟨Derive.rustyEnum_contract (mem_pureVars hc), fun n hn => ?_⟩
  have hfirst : ∀ a, ((vs.filter MVariant.isUnit).map (MVariant.num k.const) ++
      ((vs.filter fun (v : MVariant) => !v.isUnit).map (MVariant.num k.const) ++ [Except.ok 0])).head? = some (.ok a) → a < k.usizeLim := by
    intro a ha
    have hm : Except.ok a ∈ (vs.filter MVariant.isUnit).map (MVariant.num k.const) ++
      ((vs.filter fun v => !v.isUnit).map (MVariant.num k.const) ++ [Except.ok 0]) := List.mem_of_head? ha
    rw [List.mem_append, List.mem_append] at hm
    rcases hm with hm | hm | hm
    · obtain ⟨v, hv, e⟩ := List.mem_map.1 hm
      have hv := (List.mem_filter.1 hv).2
      unfold MVariant.num at e
      rw [if_pos hv] at e
      cases e; exact k.lt_usizeLim (by decide)
    · obtain ⟨v, hv, e⟩ := List.mem_map.1 hm
      obtain ⟨hv1, hv2⟩ := List.mem_filter.1 hv
      unfold MVariant.num at e
      rw [if_neg (by simpa using hv2)] at e
      obtain ⟨-, rfl, hp⟩ := totalNum_true (h v hv1) e
      have := hp (Derive.nums (pure v.fields)).length
      rw [List.take_length] at this
      rw [Derive.totalNum_eq]; exact this
    · simp only [List.mem_singleton] at hm
      cases hm; exact k.lt_usizeLim (by decide)
  obtain ⟨ks, h1, h2, h3⟩ := sum_true hfirst hn
  have hr : ∀ v ∈ vs, VRef k v := by
    intro v hv
    by_cases hu : v.isUnit = true
    · exact vref_unit hu
    · have hm : v.num k.const ∈ ks.map Except.ok := by
        rw [← h1, List.mem_append, List.mem_append]
        exact Or.inr (Or.inl (List.mem_map.2 ⟨v, List.mem_filter.2 ⟨hv, by simpa using hu⟩, rfl⟩))
      obtain ⟨a, -, e⟩ := List.mem_map.1 hm
      unfold MVariant.num at e
      rw [if_neg hu] at e
      obtain ⟨r1, -, r2⟩ := totalNum_true (h v hv) e.symm
      exact ⟨r1, r2⟩
  have hks : ks = (vs.filter MVariant.isUnit).map (fun v => (pureVar v).num) ++ ((vs.filter fun v => !v.isUnit).map (fun v => (pureVar v).num) ++ [0]) := by
    apply ok_inj
    rw [← h1, List.map_append, List.map_append, List.map_map, List.map_map]
    congr 1
    · exact List.map_congr_left fun v hv => vnum_ok (vref_const <| hr v (List.mem_filter.1 hv).1)
    · congr 1
      exact List.map_congr_left fun v hv => vnum_ok (vref_const <| hr v (List.mem_filter.1 hv).1)
  have hun : ∀ ws : List MVariant, ((ws.filter MVariant.isUnit).map fun v => (pureVar v).num).sum = units ws := by
    intro ws
    unfold units
    induction ws with
    | nil => rfl
    | cons v ws ih =>
      by_cases h : v.isUnit = true
      · rw [List.filter_cons_of_pos h, List.map_cons, List.sum_cons, ih, List.length_cons]
        have : (pureVar v).num = 1 := by unfold Derive.Variant.num; rw [isUnit_pure, if_pos h]
        omega
      · rw [List.filter_cons_of_neg h]; exact ih
  have hsum : n = (Derive.rustyEnum (pureVars vs)).num := by
    rw [h2, hks, List.sum_append, List.sum_append, dataSum, hun, Derive.rustyEnum_num, units_pure]; rfl
  have hfit : (Derive.rustyEnum (pureVars vs)).num < k.usizeLim := hsum ▸ h3
  have hfit' := hfit
  rw [Derive.rustyEnum_num, units_pure] at hfit'
  refine .mk' (hsum ▸ hn) hfit (fun y => ?_) fun x hx => ?_
  · have := toArms_ok (k := k) (units vs) vs 0 [0] y hr hc (by simpa using hfit')
    show toArms k (units vs) vs 0 [.ok 0] y = .ok (Derive.toArms (Derive.units (pureVars vs)) (pureVars vs) 0 0 y)
    rw [units_pure]; exact this
  · have := fromData_ok (k := k) (units vs) vs [0] x hx hr (by simpa using hfit')
    unfold rustyEnum Derive.rustyEnum
    dsimp only
    rw [units_pure]
    cases Derive.fromUnits (pureVars vs) 0 x with
    | some a => rfl
    | none => exact this

theorem good_cEnum {vs : List MVariant} (h : vs.all MVariant.isUnit = true) : MGood k (Derive.cEnum (pureVars vs)) (cEnum k vs) := by
  refine ⟨Derive.cEnum_contract (by rw [all_unit, h]), fun n hn => ?_⟩
  have hl : vs.length < k.usizeLim := by
    unfold cEnum at hn
    dsimp only at hn
    split at hn
    · assumption
    · cases hn
  refine .mk' ?_ (show (pureVars vs).length < k.usizeLim by rw [length_pureVars]; exact hl) (fun y => rfl) fun x _ => ?_
  · show (if vs.length < k.usizeLim then Except.ok vs.length else _) = .ok (pureVars vs).length
    rw [if_pos hl, length_pureVars]
  · unfold cEnum Derive.cEnum
    dsimp only
    cases Derive.fromUnits (pureVars vs) 0 x <;> rfl

theorem good_enum {vs : List MVariant} (h : ∀ v ∈ vs, ∀ A ∈ v.fields, MGood k A.2.1 A.2.2) :
    MGood k (Derive.enum (pureVars vs)) (enum k vs) := by
  unfold Derive.enum enum
  rw [all_unit]
  split
  · exact good_cEnum (by assumption)
  · exact good_rustyEnum h

end Mach

theorem mbuilt_good {B : (α : Type) → EnumLike α → Mach α → Prop} (hB : ∀ α E m, B α E m → E.Contract ∧ (∀ n, m.num = .ok n → Refines k m E))
    {α : Type} {E : EnumLike α} {m : Mach α} {e : Bool} (h : MBuilt k e B α E m) : MGood k E m := by
  induction h with
  | base h => exact hB _ _ _ h
  | unit => exact good_unit
  | bool => exact good_bool
  | option _ ih => exact good_option ih
  | result _ _ ih1 ih2 => exact good_result ih1 ih2
  | tuple1 _ ih => exact good_tuple1 ih
  | pair _ _ ih1 ih2 => exact good_pair ih1 ih2
  | tuple _ ih => exact good_tuple _ ih
  | array n _ ih => exact good_array ih n
  | struct _ ih => exact Mach.good_struct _ ih
  | enum _ _ ih => exact Mach.good_enum ih

/-! ## What compiles -/

/-- Not empty, and compiles if the number of values fits. -/
def MFits (k : Build) {α : Type} (E : EnumLike α) (m : Mach α) : Prop := 0 < E.num ∧ (E.num < k.usizeLim → m.num = .ok E.num)

theorem fits_pair {T : EnumLike α} {m : Mach α} {S : EnumLike β} {m' : Mach β} (h : MFits k T m) (h' : MFits k S m') :
    MFits k (pair T S) (Mach.pair k m m') := by
  refine ⟨Nat.mul_pos h.1 h'.1, fun hlt => ?_⟩
  have hlt : T.num * S.num < k.usizeLim := hlt
  have h1 : T.num ≤ T.num * S.num := Nat.le_mul_of_pos_right _ h'.1
  have h2 : S.num ≤ T.num * S.num := Nat.le_mul_of_pos_left _ h.1
  show (m.num >>= fun t => m'.num >>= fun u => uMul k.const t u) = _
  rw [h.2 (by omega), ok_bind, h'.2 (by omega), ok_bind, uMul_ok (k := k.const) hlt]; rfl

theorem fits_tuple : (cs : Mach.MComps) → (∀ A ∈ cs, MFits k A.2.1 A.2.2) → MFits k (tuple (Mach.pure cs)) (Mach.tuple k cs)
  | [], _ => ⟨Nat.zero_lt_one, fun _ => rfl⟩
  | [A], h => h A (by simp)
  | A :: B :: rest, h => fits_pair (fits_tuple (B :: rest) fun C hC => h C (List.mem_cons_of_mem _ hC)) (h A (by simp))

theorem fits_arrayTuple {T : EnumLike α} {m : Mach α} (h : MFits k T m) : (n : Nat) → MFits k (tuple (arrayComps T n)) (Mach.arrayTuple k T m n)
  | 0 => ⟨Nat.zero_lt_one, fun _ => rfl⟩
  | 1 => h
  | n + 2 => fits_pair (fits_arrayTuple h (n + 1)) h

theorem prod_pos {ks : List Nat} (h : ∀ n ∈ ks, 0 < n) : 0 < ks.prod := by
  induction ks with
  | nil => exact Nat.zero_lt_one
  | cons a ks ih =>
    rw [List.prod_cons]
    exact Nat.mul_pos (h a (by simp)) (ih fun n hn => h n (List.mem_cons_of_mem _ hn))

theorem prod_take_le {ks : List Nat} (h : ∀ n ∈ ks, 0 < n) (i : Nat) : (ks.take i).prod ≤ ks.prod := by
  have e : ks.prod = (ks.take i).prod * (ks.drop i).prod := by
    rw [← List.prod_append, List.take_append_drop]
  rw [e]
  exact Nat.le_mul_of_pos_right _ (prod_pos fun n hn => h n (List.mem_of_mem_drop hn))

theorem le_prod {ks : List Nat} (h : ∀ n ∈ ks, 0 < n) {n : Nat} (hn : n ∈ ks) : n ≤ ks.prod := by
  induction ks with
  | nil => cases hn
  | cons a ks ih =>
    have hks : ∀ n ∈ ks, 0 < n := fun n hn => h n (List.mem_cons_of_mem _ hn)
    rw [List.prod_cons]
    rcases List.mem_cons.1 hn with rfl | hn
    · exact Nat.le_mul_of_pos_right _ (prod_pos hks)
    · exact Nat.le_trans (ih hks hn) (Nat.le_mul_of_pos_left _ (h a (by simp)))

namespace Mach

theorem fits_nums {cs : MComps} (h : ∀ A ∈ cs, MFits k A.2.1 A.2.2) (hlt : ∀ A ∈ cs, A.2.1.num < k.usizeLim) :
    nums cs = (Derive.nums (pure cs)).map .ok := by
  induction cs with
  | nil => rfl
  | cons A rest ih =>
    show A.2.2.num :: nums rest = .ok A.2.1.num :: _
    rw [(h A (by simp)).2 (hlt A (by simp)), ih (fun B hB => h B (by simp [hB])) fun B hB => hlt B (by simp [hB])]
    rfl

theorem mem_nums {cs : MComps} {n : Nat} : n ∈ Derive.nums (pure cs) ↔ ∃ A ∈ cs, A.2.1.num = n := by
  unfold Derive.nums
  rw [pure_eq, List.map_map, List.mem_map]; rfl

theorem fits_total {cs : MComps} (h : ∀ A ∈ cs, MFits k A.2.1 A.2.2) :
    0 < Derive.totalNum (pure cs) ∧ (Derive.totalNum (pure cs) < k.usizeLim → totalNum k cs = .ok (Derive.totalNum (pure cs))) := by
  have hpos : ∀ n ∈ Derive.nums (pure cs), 0 < n := by
    intro n hn
    obtain ⟨A, hA, rfl⟩ := mem_nums.1 hn
    exact (h A hA).1
  have e : Derive.totalNum (pure cs) = (Derive.nums (pure cs)).prod := Derive.totalNum_eq _
  rw [e]
  refine ⟨prod_pos hpos, fun hlt => ?_⟩
  rw [totalNum_eq, fits_nums h, prodE_ok]
  · exact fun i => Nat.lt_of_le_of_lt (prod_take_le hpos i) hlt
  · exact fun A hA => Nat.lt_of_le_of_lt (le_prod hpos (mem_nums.2 ⟨A, hA, rfl⟩)) hlt

theorem le_sum {ks : List Nat} {n : Nat} (hn : n ∈ ks) : n ≤ ks.sum := by
  induction ks with
  | nil => cases hn
  | cons a ks ih =>
    rw [List.sum_cons]
    rcases List.mem_cons.1 hn with rfl | hn
    · omega
    · have := ih hn; omega

theorem mem_pureVars' {vs : List MVariant} {v : MVariant} (h : v ∈ vs) : pureVar v ∈ pureVars vs := by
  induction vs with
  | nil => cases h
  | cons w vs ih =>
    rcases List.mem_cons.1 h with rfl | h
    · exact List.mem_cons_self
    · exact List.mem_cons_of_mem _ (ih h)

theorem fits_enum {vs : List MVariant} (hne : vs ≠ []) (h : ∀ v ∈ vs, ∀ A ∈ v.fields, MFits k A.2.1 A.2.2) :
    MFits k (Derive.enum (pureVars vs)) (enum k vs) := by
  unfold Derive.enum enum
  rw [all_unit]
  split
  · show 0 < (pureVars vs).length ∧ ((pureVars vs).length < k.usizeLim → (if vs.length < k.usizeLim then _ else _) = Except.ok (pureVars vs).length)
    rw [length_pureVars]
    exact ⟨List.length_pos_iff.2 hne, fun hlt => by rw [if_pos hlt]⟩
  · have hv : ∀ v ∈ vs, 0 < (pureVar v).num ∧ ((pureVar v).num < k.usizeLim → v.num k.const = .ok (pureVar v).num) := by
      intro v hv
      unfold MVariant.num Derive.Variant.num
      rw [isUnit_pure]
      split
      · exact ⟨Nat.zero_lt_one, fun _ => rfl⟩
      · exact fits_total (k := k.const) (h v hv)
    have hle : ∀ v ∈ vs, (pureVar v).num ≤ (Derive.rustyEnum (pureVars vs)).num := by
      intro v hv
      show _ ≤ ((pureVars vs).map Derive.Variant.num).sum + 0
      have hm : (pureVar v).num ∈ (pureVars vs).map Derive.Variant.num := by
        exact List.mem_map.2 ⟨pureVar v, mem_pureVars' hv, rfl⟩
      have := le_sum hm
      omega
    constructor
    · obtain ⟨v, hv'⟩ := List.exists_mem_of_ne_nil vs hne
      exact Nat.lt_of_lt_of_le (hv v hv').1 (hle v hv')
    · intro hlt
      have hun : ∀ ws : List MVariant, ((ws.filter MVariant.isUnit).map fun v => (pureVar v).num).sum = units ws := by
        intro ws
        unfold units
        induction ws with
        | nil => rfl
        | cons v ws ih =>
          by_cases h : v.isUnit = true
          · rw [List.filter_cons_of_pos h, List.map_cons, List.sum_cons, ih, List.length_cons]
            have : (pureVar v).num = 1 := by unfold Derive.Variant.num; rw [isUnit_pure, if_pos h]
            omega
          · rw [List.filter_cons_of_neg h]; exact ih
      have e1 : ∀ p : MVariant → Bool, (vs.filter p).map (MVariant.num k.const) = ((vs.filter p).map fun v => (pureVar v).num).map .ok := by
        intro p
        rw [List.map_map]
        exact List.map_congr_left fun v hm => (hv v (List.mem_filter.1 hm).1).2 (Nat.lt_of_le_of_lt (hle v (List.mem_filter.1 hm).1) hlt)
      have hsum : ((vs.filter MVariant.isUnit).map (fun v => (pureVar v).num) ++ ((vs.filter fun (v : MVariant) => !v.isUnit).map (fun v => (pureVar v).num) ++ [0])).sum =
          (Derive.rustyEnum (pureVars vs)).num := by
        rw [List.sum_append, List.sum_append, dataSum, hun, Derive.rustyEnum_num, units_pure]; rfl
      show sum k.const _ = _
      rw [e1, e1]
      have := sum_ok (k := k.const) (ks := (vs.filter MVariant.isUnit).map (fun v => (pureVar v).num) ++ ((vs.filter fun (v : MVariant) => !v.isUnit).map (fun v => (pureVar v).num) ++ [0]))
        (hsum ▸ hlt)
      rw [hsum, List.map_append, List.map_append] at this
      exact this

end Mach

theorem mbuilt_fits {B : (α : Type) → EnumLike α → Mach α → Prop} (hB : ∀ α E m, B α E m → 0 < E.num ∧ (E.num < k.usizeLim → m.num = .ok E.num))
    {α : Type} {E : EnumLike α} {m : Mach α} (h : MBuilt k false B α E m) : MFits k E m := by
  induction h with
  | base h => exact hB _ _ _ h
  | unit => exact ⟨Nat.zero_lt_one, fun _ => rfl⟩
  | bool => exact ⟨Nat.zero_lt_two, fun _ => rfl⟩
  | @option _ T m _ ih =>
    refine ⟨Nat.lt_of_lt_of_le Nat.zero_lt_one (Nat.le_add_right _ _), fun hlt => ?_⟩
    have hlt : 1 + T.num < k.usizeLim := hlt
    show (m.num >>= fun t => uAdd k.const 1 t) = _
    rw [ih.2 (by omega), ok_bind, uAdd_ok (k := k.const) hlt]; rfl
  | @result _ _ T m S m' _ _ ih ih' =>
    refine ⟨Nat.lt_of_lt_of_le ih.1 (Nat.le_add_right _ _), fun hlt => ?_⟩
    have hlt : T.num + S.num < k.usizeLim := hlt
    show (m.num >>= fun t => m'.num >>= fun u => uAdd k.const t u) = _
    rw [ih.2 (by omega), ok_bind, ih'.2 (by omega), ok_bind, uAdd_ok (k := k.const) hlt]; rfl
  | tuple1 _ ih => exact ih
  | pair _ _ ih1 ih2 => exact fits_pair ih1 ih2
  | tuple _ ih => exact fits_tuple _ ih
  | array n _ ih => exact fits_arrayTuple ih n
  | @struct cs _ ih =>
    cases cs with
    | nil => exact ⟨Nat.zero_lt_one, fun _ => rfl⟩
    | cons A rest => exact Mach.fits_total (k := k.const) ih
  | enum hne _ ih => exact Mach.fits_enum (hne.resolve_left nofun) ih

end EnumLike
end EnumVecModel
