import Verif.Access
import Verif.Lemmas.Closures

/-! # Block accesses: the logged methods do what the methods do, and only the logged blocks matter -/

namespace EnumVecModel
open EV
variable {α τ σ σ' β γ : Type}

namespace Access

/-! ## Erasure -/

/-- From the state `p`, `m` does what `m0` does from the state `e p`. -/
def ErasesAt (e : σ → σ') (m : M σ β) (m0 : M σ' β) (p : σ) : Prop := m0 (e p) = ((m p).1, e (m p).2)

section
variable {e : σ → σ'}

theorem ErasesAt.pure (b : β) (p : σ) : ErasesAt e (Pure.pure b) (Pure.pure b) p := rfl
theorem ErasesAt.fail (x : Fault) (p : σ) : ErasesAt e (M.fail x : M σ β) (M.fail x) p := rfl
theorem ErasesAt.lift (r : Except Fault β) (p : σ) : ErasesAt e (M.lift r) (M.lift r) p := rfl
theorem ErasesAt.unwrap (o : Option β) (p : σ) : ErasesAt e (M.unwrap o) (M.unwrap o) p := by
  cases o <;> rfl

theorem ErasesAt.bind {m : M σ β} {m0 : M σ' β} {f : β → M σ γ} {f0 : β → M σ' γ} {p : σ} (h : ErasesAt e m m0 p)
    (hf : ∀ b q, m p = (.ok b, q) → ErasesAt e (f b) (f0 b) q) : ErasesAt e (m >>= f) (m0 >>= f0) p := by
  unfold ErasesAt at h ⊢
  rw [M.bind_apply, M.bind_apply, h]
  rcases hm : m p with ⟨x | b, q⟩
  · rfl
  · exact hf b q hm

theorem ErasesAt.loop {body : Nat → β → M σ β} {body0 : Nat → β → M σ' β} (h : ∀ i b p, ErasesAt e (body i b) (body0 i b) p) :
    ∀ (n i : Nat) (b : β) (p : σ), ErasesAt e (EnumVecModel.loop body n i b) (EnumVecModel.loop body0 n i b) p
  | 0, _, b, p => ErasesAt.pure b p
  | n + 1, i, b, p => ErasesAt.bind (h i b p) fun b' q _ => ErasesAt.loop h n (i + 1) b' q

end

/-- Forget the log. -/
abbrev drop1 {W : Nat} : LV W → EV W := Prod.fst
abbrev dropC {W : Nat} : LV W × τ → EV W × τ := fun p => (p.1.1, p.2)
abbrev drop2 {W : Nat} : LV W × LV W → EV W × EV W := fun p => (p.1.1, p.2.1)

theorem ErasesAt.onFstC {W : Nat} {m : M (LV W) β} {m0 : M (EV W) β} {p : LV W × τ} (h : ErasesAt drop1 m m0 p.1) : ErasesAt dropC (onFst m) (onFst m0) p := by
  unfold ErasesAt at h ⊢
  have h : m0 p.1.1 = ((m p.1).1, (m p.1).2.1) := h
  unfold onFst
  dsimp only
  rw [h]

theorem ErasesAt.onFst2 {W : Nat} {m : M (LV W) β} {m0 : M (EV W) β} {p : LV W × LV W} (h : ErasesAt drop1 m m0 p.1) : ErasesAt drop2 (onFst m) (onFst m0) p := by
  unfold ErasesAt at h ⊢
  have h : m0 p.1.1 = ((m p.1).1, (m p.1).2.1) := h
  unfold onFst
  dsimp only
  rw [h]

theorem ErasesAt.onSnd2 {W : Nat} {m : M (LV W) β} {m0 : M (EV W) β} {p : LV W × LV W} (h : ErasesAt drop1 m m0 p.2) : ErasesAt drop2 (onSnd m) (onSnd m0) p := by
  unfold ErasesAt at h ⊢
  have h : m0 p.2.1 = ((m p.2).1, (m p.2).2.1) := h
  unfold onSnd
  dsimp only
  rw [h]

theorem ErasesAt.call {W : Nat} (f : Closure τ α β) (x : α) (p : LV W × τ) : ErasesAt dropC (EV.call f x) (EV.call f x) p := by
  unfold ErasesAt EV.call
  dsimp only
  rcases f x p.2 with ⟨_ | _, t⟩ <;> rfl

section
variable {c : Inst α}

theorem ErasesAt.readLen {f : Nat → M (LV c.W) γ} {f0 : EV c.W → M (EV c.W) γ} {p : LV c.W} (h : ErasesAt drop1 (f (EV.len c p.1)) (f0 p.1) p) :
    ErasesAt drop1 (len c >>= f) (M.read >>= f0) p := h

theorem ErasesAt.readLenC {f : Nat → M (LV c.W × τ) γ} {f0 : EV c.W × τ → M (EV c.W × τ) γ} {p : LV c.W × τ} (h : ErasesAt dropC (f (EV.len c p.1.1)) (f0 (p.1.1, p.2)) p) :
    ErasesAt dropC (onFst (len c) >>= f) (M.read >>= f0) p := h

theorem ErasesAt.writeLen {n : Nat} {f : Unit → M (LV c.W) γ} {f0 : Unit → M (EV c.W) γ} {p : LV c.W} (h : ErasesAt drop1 (f ()) (f0 ()) ({ p.1 with num := n }, p.2)) :
    ErasesAt drop1 (setLen c n >>= f) (M.write { p.1 with num := n } >>= f0) p := h

theorem ErasesAt.liftB {e : σ → σ'} {r : Except Fault β} {f : β → M σ γ} {f0 : β → M σ' γ} {p : σ} (h : ∀ b, r = .ok b → ErasesAt e (f b) (f0 b) p) :
    ErasesAt e (M.lift r >>= f) (M.lift r >>= f0) p := by
  cases r with
  | error x => rfl
  | ok b => exact h b rfl

end

section
variable (c : Inst α) (p : LV c.W)

theorem getRawUnchecked_erases (i : Nat) : ErasesAt drop1 (getRawUnchecked c i) (EV.getRawUnchecked c i) p := rfl
theorem setRawUnchecked_erases (i d : Nat) : ErasesAt drop1 (setRawUnchecked c i d) (EV.setRawUnchecked c i d) p := rfl
theorem block_erases (i : Nat) : ErasesAt drop1 (block c i) (EV.block c i) p := rfl
theorem setBlock_erases (i : Nat) (b : BitVec c.W) : ErasesAt drop1 (setBlock c i b) (EV.setBlock c i b) p := rfl
theorem setLen_erases (n : Nat) : ErasesAt drop1 (setLen c n) (EV.setLen c n) p := rfl
theorem fixStorage_erases : ErasesAt drop1 (fixStorage c) (EV.fixStorage c) p := rfl

theorem getRaw_erases (i : Nat) : ErasesAt drop1 (getRaw c i) (EV.getRaw c i) p := by
  show ErasesAt drop1 (if i ≥ EV.len c p.1 then Pure.pure none else getRawUnchecked c i >>= fun d => Pure.pure (some d))
    (if i ≥ EV.len c p.1 then Pure.pure none else EV.getRawUnchecked c i >>= fun d => Pure.pure (some d)) p
  split
  · exact .pure _ _
  · exact .bind (getRawUnchecked_erases c p i) fun _ _ _ => .pure _ _

theorem setRaw_erases (i d : Nat) : ErasesAt drop1 (setRaw c i d) (EV.setRaw c i d) p := by
  show ErasesAt drop1 (if i ≥ EV.len c p.1 then M.fail .index >>= fun _ => setRawUnchecked c i d else setRawUnchecked c i d)
    (if i ≥ EV.len c p.1 then M.fail .index >>= fun _ => EV.setRawUnchecked c i d else EV.setRawUnchecked c i d) p
  split
  · exact .bind (.fail _ _) fun _ _ _ => setRawUnchecked_erases c _ i d
  · exact setRawUnchecked_erases c p i d

theorem fromDiscr_erases {e : σ → σ'} (x : Nat) (p : σ) : ErasesAt e (fromDiscr c x) (fromDiscr c x) p := by
  unfold fromDiscr
  cases c.E.fromDiscr x with
  | some a => exact .pure _ _
  | none => exact .fail _ _

theorem get_erases (i : Nat) : ErasesAt drop1 (get c i) (EV.get c i) p := by
  refine .bind (getRaw_erases c p i) fun b q _ => ?_
  cases b with
  | none => exact .pure _ _
  | some x => exact .bind (fromDiscr_erases c x q) fun _ _ _ => .pure _ _

theorem set_erases (i : Nat) (x : α) : ErasesAt drop1 (set c i x) (EV.set c i x) p := setRaw_erases c p i _

theorem resizeStorage_eq (n : Nat) (x : BitVec c.W) : (match RVec.resize c.alloc p.1.storage n x with
      | .ok st => ((.ok (), { p.1 with storage := st }) : Except Fault Unit × EV c.W)
      | .error e => (.error e, p.1)) = ((resizeStorage c n x p).1, (resizeStorage c n x p).2.1) := by
  unfold resizeStorage
  rcases RVec.resize c.alloc p.1.storage n x with _ | _ <;> rfl

theorem reserve_erases (n : Nat) : ErasesAt drop1 (reserve c n) (EV.reserve c n) p := by
  have e : reserve c n p = (if EV.len c p.1 + n < c.build.usizeLim then
    M.lift (uAdd c.build ((EV.len c p.1 + n) / c.epb) 1) >>= fun k => resizeStorage c k 0 else M.fail .capacity : M (LV c.W) Unit) p := rfl
  unfold ErasesAt EV.reserve
  rw [e]
  split
  · dsimp only
    cases uAdd c.build ((EV.len c p.1 + n) / c.epb) 1 with
    | error e => rfl
    | ok k => exact resizeStorage_eq c p k 0
  · rfl

theorem shrinkToFit_erases : ErasesAt drop1 (shrinkToFit c) (EV.shrinkToFit c) p := rfl

theorem truncate_erases (n : Nat) : ErasesAt drop1 (truncate c n) (EV.truncate c n) p := by
  show ErasesAt drop1 (if n < EV.len c p.1 then setLen c n else Pure.pure ()) (if n < EV.len c p.1 then EV.setLen c n else Pure.pure ()) p
  split
  · exact setLen_erases c p n
  · exact .pure _ _

theorem clear_erases : ErasesAt drop1 (clear c) (EV.clear c) p := truncate_erases c p 0

theorem growIfNeeded_erases : ErasesAt drop1 (growIfNeeded c) (EV.growIfNeeded c) p := by
  unfold ErasesAt growIfNeeded EV.growIfNeeded
  dsimp only
  split
  · rcases RVec.push c.alloc p.1.storage 0 with _ | _ <;> rfl
  · rfl

theorem push_erases (x : α) : ErasesAt drop1 (push c x) (EV.push c x) p := by
  refine .bind (growIfNeeded_erases c p) fun _ q _ => ?_
  show ErasesAt drop1 (if EV.len c q.1 + 1 < c.build.usizeLim then setLen c (EV.len c q.1 + 1) >>= fun _ => set c (EV.len c q.1) x
    else M.fail .capacity >>= fun _ => set c (EV.len c q.1) x) (if EV.len c q.1 + 1 < c.build.usizeLim then
      M.write { q.1 with num := EV.len c q.1 + 1 } >>= fun _ => EV.set c (EV.len c q.1) x else M.fail .capacity >>= fun _ => EV.set c (EV.len c q.1) x) q
  split
  · exact set_erases c (_, _) _ x
  · exact .bind (.fail _ _) fun _ _ _ => set_erases c _ _ x

theorem pop_erases : ErasesAt drop1 (pop c) (EV.pop c) p := by
  show ErasesAt drop1 (if EV.len c p.1 == 0 then Pure.pure none else
    get c (EV.len c p.1 - 1) >>= fun x => M.unwrap x >>= fun x => len c >>= fun l => setLen c (l - 1) >>= fun _ => Pure.pure (some x))
    (if EV.len c p.1 == 0 then Pure.pure none else
    EV.get c (EV.len c p.1 - 1) >>= fun x => M.unwrap x >>= fun x => M.read >>= fun s => M.write { s with num := s.num - 1 } >>= fun _ => Pure.pure (some x)) p
  split
  · exact .pure _ _
  · exact .bind (get_erases c p _) fun x q _ => .bind (.unwrap x q) fun _ _ _ => rfl

theorem swap_erases (a b : Nat) : ErasesAt drop1 (swap c a b) (EV.swap c a b) p :=
  .bind (getRaw_erases c p a) fun x q _ => .bind (.unwrap x q) fun _ q _ => .bind (getRaw_erases c q b) fun y q _ => .bind (.unwrap y q) fun _ q _ =>
    .bind (setRaw_erases c q a _) fun _ q _ => setRaw_erases c q b _

theorem swapRemove_erases (i : Nat) : ErasesAt drop1 (swapRemove c i) (EV.swapRemove c i) p := by
  show ErasesAt drop1 (M.lift (uSub c.build (EV.len c p.1) 1) >>= fun last => swap c i last >>= fun _ => pop c >>= fun x => M.unwrap x)
    (M.lift (uSub c.build (EV.len c p.1) 1) >>= fun last => EV.swap c i last >>= fun _ => EV.pop c >>= fun x => M.unwrap x) p
  exact .bind (.lift _ _) fun _ q _ => .bind (swap_erases c q _ _) fun _ q _ => .bind (pop_erases c q) fun x q _ => .unwrap x q

theorem insertSlowStep_erases (i d : Nat) : ErasesAt drop1 (insertSlowStep c i d) (EV.insertSlowStep c i d) p :=
  .bind (getRawUnchecked_erases c p i) fun _ q _ => .bind (setRawUnchecked_erases c q i d) fun _ _ _ => .pure _ _

theorem insertFastStep_erases (i : Nat) (b : BitVec c.W) : ErasesAt drop1 (insertFastStep c i b) (EV.insertFastStep c i b) p :=
  .bind (block_erases c p i) fun _ q _ => .bind (.lift _ q) fun _ q _ => .bind (setBlock_erases c q i _) fun _ _ _ => .pure _ _

theorem insert_erases (index : Nat) (x : α) : ErasesAt drop1 (insert c index x) (EV.insert c index x) p := by
  refine .bind (push_erases c p x) fun _ q _ => ?_
  show ErasesAt drop1 (_ >>= _) (_ >>= _) q
  refine .bind (m := if index % c.epb > 0 then _ else _) (m0 := if index % c.epb > 0 then _ else _) ?_ fun b q _ => ?_
  · split
    · exact .bind (.lift _ _) fun _ q' _ => .bind (.loop (fun i b p => insertSlowStep_erases c p i b) _ _ _ _) fun _ _ _ => .pure _ _
    · exact .pure _ _
  · show ErasesAt drop1 (if b.1 < EV.len c q.1 then _ else _) (if b.1 < EV.len c q.1 then _ else _) q
    split
    · exact .bind (.loop (fun i b p => insertFastStep_erases c p i b) _ _ _ _) fun _ _ _ => .pure _ _
    · exact .pure _ _

theorem removeSlowStep_erases (i : Nat) (u : Unit) : ErasesAt drop1 (removeSlowStep c i u) (EV.removeSlowStep c i u) p :=
  .bind (getRawUnchecked_erases c p (i + 1)) fun _ q _ => setRawUnchecked_erases c q i _

theorem removeFastStep_erases (i : Nat) (b : BitVec c.W) : ErasesAt drop1 (removeFastStep c i b) (EV.removeFastStep c i b) p :=
  .bind (block_erases c p i) fun _ q _ => .bind (.lift _ q) fun _ q _ => .bind (setBlock_erases c q i _) fun _ _ _ => .pure _ _

theorem remove_erases (index : Nat) : ErasesAt drop1 (remove c index) (EV.remove c index) p := by
  refine .bind (get_erases c p index) fun x q _ => .bind (.unwrap x q) fun x q _ => ?_
  refine .readLen (.liftB fun bl _ => .bind (.loop (fun i b p => removeSlowStep_erases c p i b) _ _ _ _) fun _ q _ => ?_)
  refine .readLen (.bind (getRawUnchecked_erases c q _) fun prev q _ => ?_)
  refine .readLen (.writeLen (.readLen ?_))
  dsimp only
  show ErasesAt drop1 (if max index _ < EV.len c q.1 - 1 then _ else _) (if max index _ < EV.len c q.1 - 1 then _ else _) (({ q.1 with num := EV.len c q.1 - 1 }, q.2) : LV c.W)
  split
  · exact .bind (.loop (fun i b p => removeFastStep_erases c p _ b) _ _ _ _) fun _ _ _ => .pure _ _
  · exact .pure _ _

theorem retainStep_erases (f : Closure τ α Bool) (i j : Nat) (p : LV c.W × τ) : ErasesAt dropC (retainStep c f i j) (EV.retainStep c f i j) p := by
  refine .bind (.onFstC (get_erases c _ i)) fun x q _ => .bind (.unwrap x q) fun x q _ => .bind (.call f x q) fun keep q _ => ?_
  cases keep with
  | true => exact .bind (.onFstC (set_erases c _ j x)) fun _ _ _ => .pure _ _
  | false => exact .pure _ _

theorem retain_erases (f : Closure τ α Bool) (p : LV c.W × τ) : ErasesAt dropC (retain c f) (EV.retain c f) p := by
  exact .readLenC (.bind (.loop (retainStep_erases c f) _ _ _ _) fun n q _ => .onFstC (setLen_erases c _ n))

theorem forEachStep_erases (f : Closure τ α α) (i : Nat) (u : Unit) (p : LV c.W × τ) : ErasesAt dropC (forEachStep c f i u) (EV.forEachStep c f i u) p :=
  .bind (.onFstC (get_erases c _ i)) fun x q _ => .bind (.unwrap x q) fun x q _ => .bind (.call f x q) fun x _ _ => .onFstC (set_erases c _ i x)

theorem forEach_erases (f : Closure τ α α) (p : LV c.W × τ) : ErasesAt dropC (forEach c f) (EV.forEach c f) p := by
  show ErasesAt dropC (loop _ _ _ _) (loop _ _ _ _) p
  exact .loop (forEachStep_erases c f) _ _ _ _

theorem extendHinted_erases (pan : Bool) : ∀ (n pos : Nat) (items : List α) (p : LV c.W), ErasesAt drop1 (extendHinted c pan n pos items) (EV.extendHinted c pan n pos items) p
  | 0, _, items, p => .pure items p
  | n + 1, pos, x :: items, p => .bind (set_erases c p pos x) fun _ q _ => extendHinted_erases pan n (pos + 1) items q
  | _ + 1, _, [], p => .fail _ p

theorem extendRest_erases (pan : Bool) : ∀ (items : List α) (p : LV c.W), ErasesAt drop1 (extendRest c pan items) (EV.extendRest c pan items) p
  | [], p => by
    cases pan
    · exact .pure _ _
    · exact .fail _ _
  | x :: items, p => .bind (push_erases c p x) fun _ q _ => extendRest_erases pan items q

theorem extend_erases (it : Src α) : ErasesAt drop1 (extend c it) (EV.extend c it) p :=
  .readLen (.bind (reserve_erases c p it.hint) fun _ _ _ => .readLen (.liftB fun _ _ => .writeLen
    (.bind (extendHinted_erases c _ _ _ _ _) fun r q _ => extendRest_erases c _ r q)))

theorem fillStep_erases (n : Nat) (v : BitVec c.W) (i : Nat) (u : Unit) : ErasesAt drop1 (fillStep c n v i u) (EV.fillStep c n v i u) p :=
  resizeStorage_eq c p _ v

theorem reserveStorage_erases (n : Nat) {f : Unit → M (LV c.W) γ} {f0 : M (EV c.W) γ} (h : ∀ q, ErasesAt drop1 (f ()) f0 q) : ErasesAt drop1 (reserveStorage c n >>= f)
    (M.read >>= fun s => M.lift (RVec.reserve c.alloc s.storage n) >>= fun st => M.write { s with storage := st } >>= fun _ => f0) p := by
  unfold ErasesAt
  rw [M.read_bind, M.bind_apply (reserveStorage c n)]
  unfold reserveStorage
  dsimp only
  rcases RVec.reserve c.alloc p.1.storage n with _ | st
  · rfl
  · exact h ({ p.1 with storage := st }, p.2)

theorem extendWithValue_erases (x : α) (n : Nat) : ErasesAt drop1 (extendWithValue c x n) (EV.extendWithValue c x n) p := by
  unfold extendWithValue EV.extendWithValue
  split
  · exact extend_erases c p _
  · refine .readLen (.bind (extend_erases c p _) fun _ q _ => .readLen (.bind (fixStorage_erases c q) fun _ q _ => ?_))
    refine reserveStorage_erases c q _ fun q => ?_
    refine .bind (.loop (fun i u p => fillStep_erases c p _ _ i u) _ _ _ _) fun _ q _ => .liftB fun k _ => .bind (setLen_erases c q k) fun _ q _ => extend_erases c q _

theorem resize_erases (n : Nat) (x : α) : ErasesAt drop1 (resize c n x) (EV.resize c n x) p := by
  refine .readLen ?_
  split
  · exact extendWithValue_erases c p x _
  · exact truncate_erases c p n

theorem appendStep_erases (l i : Nat) (u : Unit) (p : LV c.W × LV c.W) : ErasesAt drop2 (appendStep c l i u) (EV.appendStep c l i u) p :=
  .bind (.onSnd2 (getRawUnchecked_erases c _ i)) fun _ _ _ => .onFst2 (setRawUnchecked_erases c _ _ _)

theorem appendStorage_erases (p : LV c.W × LV c.W) : ErasesAt drop2 (appendStorage c) (EV.appendStorage c) p := by
  unfold ErasesAt appendStorage EV.appendStorage
  dsimp only
  rcases RVec.extendFromSlice c.alloc p.1.1.storage p.2.1.storage.data with _ | st
  · rfl
  · dsimp only
    split
    · exact ErasesAt.onSnd2 (p := (({ p.1.1 with storage := st }, p.1.2 ++ List.range' p.1.1.storage.len p.2.1.storage.len), (p.2.1, p.2.2 ++ List.range p.2.1.storage.len))) (clear_erases c _)
    · rfl

theorem append_erases (p : LV c.W × LV c.W) : ErasesAt drop2 (append c) (EV.append c) p := by
  show ErasesAt drop2 (if EV.len c p.1.1 % c.epb = 0 then _ else _) (if EV.len c p.1.1 % c.epb = 0 then _ else _) p
  split
  · refine .bind (.onFst2 (fixStorage_erases c _)) fun _ q _ => .bind (.onSnd2 (fixStorage_erases c _)) fun _ q _ => .bind (appendStorage_erases c q) fun _ q _ => ?_
    show ErasesAt drop2 (M.lift (uAdd c.build (EV.len c q.1.1) _) >>= _) (M.lift (uAdd c.build q.1.1.num _) >>= _) q
    exact .liftB fun n _ => .onFst2 (setLen_erases c _ n)
  · exact .bind (.onFst2 (reserve_erases c _ _)) fun _ q _ => .liftB fun n _ => .bind (.onFst2 (setLen_erases c _ n)) fun _ q _ =>
      .bind (.loop (appendStep_erases c _) _ _ _ _) fun _ q _ => .onSnd2 (clear_erases c _)

theorem anyBlocks_erases (m : BitVec c.W) : ∀ (n i : Nat) (p : LV c.W), ErasesAt drop1 (anyBlocks c m n i) (EV.anyBlocks c m n i) p
  | 0, _, p => .pure _ p
  | n + 1, i, p => .bind (block_erases c p i) fun b q _ => by
    split
    · exact .pure _ _
    · exact anyBlocks_erases m n (i + 1) q

theorem any_erases (x : α) : ErasesAt drop1 (any c x) (EV.any c x) p := by
  refine .readLen ?_
  show ErasesAt drop1 (if EV.len c p.1 == 0 then _ else _) (if EV.len c p.1 == 0 then _ else _) p
  split
  · exact .pure _ _
  · refine .liftB fun m _ => .bind (anyBlocks_erases c m _ _ _) fun b q _ => ?_
    dsimp only
    split
    · exact .pure _ _
    · split
      · refine .bind (block_erases c q _) fun b q _ => ?_
        split <;> exact .pure _ _
      · exact .pure _ _

theorem allBlocks_erases (v m : BitVec c.W) : ∀ (n i : Nat) (p : LV c.W), ErasesAt drop1 (allBlocks c v m n i) (EV.allBlocks c v m n i) p
  | 0, _, p => .pure _ p
  | n + 1, i, p => .bind (block_erases c p i) fun b q _ => by
    split
    · exact .pure _ _
    · exact allBlocks_erases v m n (i + 1) q

theorem all_erases (x : α) : ErasesAt drop1 (all c x) (EV.all c x) p := by
  refine .readLen ?_
  show ErasesAt drop1 (if EV.len c p.1 == 0 then _ else _) (if EV.len c p.1 == 0 then _ else _) p
  split
  · exact .pure _ _
  · refine .liftB fun m _ => .bind (allBlocks_erases c _ m _ _ _) fun b q _ => ?_
    dsimp only
    split
    · exact .pure _ _
    · split
      · refine .bind (block_erases c q _) fun b q _ => ?_
        split <;> exact .pure _ _
      · exact .pure _ _

theorem eqLoop_erases : ∀ (n i : Nat) (p : LV c.W × LV c.W), (eqLoop c n i p).1 = EV.eqLoop c p.1.1 p.2.1 n i ∧ drop2 (eqLoop c n i p).2 = drop2 p
  | 0, _, _ => ⟨rfl, rfl⟩
  | n + 1, i, p => by
    have e : eqLoop c (n + 1) i p = match rawUnchecked c p.1.1 i with
      | .error x => (.error x, ((p.1.1, p.1.2 ++ [(blockIndex c i).1]), p.2))
      | .ok x => match rawUnchecked c p.2.1 i with
        | .error y => (.error y, ((p.1.1, p.1.2 ++ [(blockIndex c i).1]), (p.2.1, p.2.2 ++ [(blockIndex c i).1])))
        | .ok y => (if x ≠ y then Pure.pure false else eqLoop c n (i + 1) : M (LV c.W × LV c.W) Bool) ((p.1.1, p.1.2 ++ [(blockIndex c i).1]), (p.2.1, p.2.2 ++ [(blockIndex c i).1])) := by
      show M.bind (onFst (getRawUnchecked c i)) _ p = _
      unfold M.bind
      have e1 : onFst (τ := LV c.W) (getRawUnchecked c i) p = (rawUnchecked c p.1.1 i, ((p.1.1, p.1.2 ++ [(blockIndex c i).1]), p.2)) := rfl
      rw [e1]
      cases rawUnchecked c p.1.1 i with
      | error x => rfl
      | ok x =>
        show M.bind (onSnd (getRawUnchecked c i)) _ _ = _
        unfold M.bind
        have e1 : onSnd (σ := LV c.W) (getRawUnchecked c i) ((p.1.1, p.1.2 ++ [(blockIndex c i).1]), p.2) =
          (rawUnchecked c p.2.1 i, ((p.1.1, p.1.2 ++ [(blockIndex c i).1]), (p.2.1, p.2.2 ++ [(blockIndex c i).1]))) := rfl
        rw [e1]
        cases rawUnchecked c p.2.1 i <;> rfl
    rw [e]
    unfold EV.eqLoop
    cases rawUnchecked c p.1.1 i with
    | error x => exact ⟨rfl, rfl⟩
    | ok x => cases rawUnchecked c p.2.1 i with
      | error y => exact ⟨rfl, rfl⟩
      | ok y =>
        dsimp only
        split
        · exact ⟨rfl, rfl⟩
        · exact eqLoop_erases n (i + 1) _

theorem eq_erases (p : LV c.W × LV c.W) : (eq c p).1 = EV.eq c p.1.1 p.2.1 ∧ drop2 (eq c p).2 = drop2 p := by
  have e : eq c p = (if EV.len c p.1.1 = EV.len c p.2.1 then eqLoop c (EV.len c p.1.1) 0 else Pure.pure false : M (LV c.W × LV c.W) Bool) p := rfl
  rw [e]
  unfold EV.eq
  split
  · exact eqLoop_erases c _ 0 p
  · exact ⟨rfl, rfl⟩

theorem hashLoop_erases : ∀ (n i : Nat) (p : LV c.W), (hashLoop c n i p).1 = EV.hashLoop c p.1 n i ∧ (hashLoop c n i p).2.1 = p.1
  | 0, _, _ => ⟨rfl, rfl⟩
  | n + 1, i, p => by
    unfold hashLoop EV.hashLoop
    rw [M.bind_apply]
    have e1 : getRawUnchecked c i p = (rawUnchecked c p.1 i, (p.1, p.2 ++ [(blockIndex c i).1])) := rfl
    rw [e1]
    cases rawUnchecked c p.1 i with
    | error x => exact ⟨rfl, rfl⟩
    | ok x =>
      dsimp only
      obtain ⟨h1, h2⟩ := hashLoop_erases n (i + 1) (p.1, p.2 ++ [(blockIndex c i).1])
      rw [M.bind_apply, ← h1]
      rcases hx : hashLoop c n (i + 1) (p.1, p.2 ++ [(blockIndex c i).1]) with ⟨e | l, q⟩ <;> rw [hx] at h2 <;> exact ⟨rfl, h2⟩

theorem hash_erases : (hash c p).1 = EV.hash c p.1 ∧ (hash c p).2.1 = p.1 := hashLoop_erases c _ 0 p

theorem clone_erases : (clone c p).1 = EV.clone c p.1 ∧ (clone c p).2.1 = p.1 := by
  unfold clone
  cases EV.clone c p.1 <;> exact ⟨rfl, rfl⟩

end

end Access
end EnumVecModel
