import Verif.Lemmas.Hostile

set_option linter.unusedSectionVars false

/-! # For well-behaved implementations of `EnumLike` the two models agree -/

namespace EnumVecModel
open EV

section
variable {σ τ β γ : Type}

theorem onFst_bind (m : M σ β) (f : β → M σ γ) : onFst (τ := τ) (m >>= f) = onFst m >>= fun a => onFst (f a) := by
  funext ⟨s, t⟩
  rw [M.bind_apply, onFst_apply, onFst_apply, M.bind_apply]
  rcases m s with ⟨_ | a, s'⟩ <;> rfl

theorem onFst_pure (a : β) : onFst (τ := τ) (Pure.pure a : M σ β) = Pure.pure a := rfl
theorem onFst_read (f : σ → M σ β) : onFst (τ := τ) (M.read >>= f) = M.read >>= fun p => onFst (f p.1) := rfl
theorem onFst_unwrap (o : Option β) : onFst (σ := σ) (τ := τ) (M.unwrap o) = M.unwrap o := by
  cases o <;> rfl
theorem onFst_lift (r : Except Fault β) : onFst (σ := σ) (τ := τ) (M.lift r) = M.lift r := rfl
theorem onFst_fail (e : Fault) : onFst (σ := σ) (τ := τ) (M.fail e : M σ β) = M.fail e := rfl
theorem onFst_ite (p : Prop) [Decidable p] (a b : M σ β) : onFst (τ := τ) (if p then a else b) = if p then onFst a else onFst b := by
  split <;> rfl

theorem onFst_loop (body : Nat → β → M σ β) : ∀ (n i : Nat) (a : β),
    onFst (τ := τ) (loop body n i a) = loop (fun i a => onFst (body i a)) n i a
  | 0, _, a => rfl
  | n + 1, i, a => by
    show onFst (body i a >>= fun a => loop body n (i + 1) a) = _
    rw [onFst_bind]
    simp only [onFst_loop body n]
    rfl

theorem M.bind_congr {m : M σ β} {f g : β → M σ γ} (h : ∀ a, f a = g a) : (m >>= f) = (m >>= g) := by
  rw [show f = g from funext h]

theorem M.bind_assoc {δ : Type} (m : M σ β) (f : β → M σ γ) (g : γ → M σ δ) : ((m >>= f) >>= g) = (m >>= fun a => f a >>= g) := by
  funext s
  rw [M.bind_apply, M.bind_apply, M.bind_apply]
  rcases m s with ⟨_ | a, s'⟩ <;> rfl

theorem M.bind_unit (m : M σ Unit) : (m >>= fun _ => Pure.pure ()) = m := by
  funext s
  rw [M.bind_apply]
  rcases m s with ⟨_ | a, s'⟩ <;> rfl

theorem M.bind_pure_fun (a : β) (f : β → M σ γ) : ((Pure.pure a : M σ β) >>= f) = f a := rfl

end

namespace Hostile
variable {α β ω ι : Type} {c : Inst α}

theorem toDiscr_of {σ : Type} (x : α) : toDiscr (σ := σ) (Impl.of (ω := ω) c.E) x = Pure.pure (c.E.toDiscr x) := rfl

theorem fromDiscr_of (d : Nat) : fromDiscr (σ := EV c.W) (Impl.of (ω := ω) c.E) d = onFst (EV.fromDiscr c d) := by
  funext ⟨s, w⟩
  show (match (c.E.fromDiscr d, w) with
    | (some a, w) => ((Except.ok a, (s, w)) : Except Fault α × (EV c.W × ω))
    | (none, w) => (Except.error .badDiscr, (s, w))) = _
  unfold EV.fromDiscr
  cases c.E.fromDiscr d <;> rfl

theorem get_of (i : Nat) : get c (Impl.of (ω := ω) c.E) i = onFst (EV.get c i) := by
  unfold get EV.get
  rw [onFst_bind]
  refine M.bind_congr fun r => ?_
  cases r with
  | none => rfl
  | some x =>
    simp only [fromDiscr_of]
    rw [onFst_bind]; rfl

theorem set_of (i : Nat) (x : α) : set c (Impl.of (ω := ω) c.E) i x = onFst (EV.set c i x) := rfl

/-- Reading and writing both components, when only the first one changes. -/
theorem read_congr {β σ τ : Type} {f : σ × τ → M (σ × τ) β} {g : σ → M σ β} (h : ∀ s t, f (s, t) (s, t) = onFst (g s) (s, t)) :
    (M.read >>= f) = onFst (M.read >>= g) := by
  funext ⟨s, t⟩
  rw [M.read_bind, h]; rfl

theorem push_of (x : α) : push c (Impl.of (ω := ω) c.E) x = onFst (EV.push c x) := by
  unfold push EV.push
  rw [onFst_bind]
  refine M.bind_congr fun _ => read_congr fun s t => ?_
  simp only [set_of]
  by_cases hlt : s.num + 1 < c.build.usizeLim
  · simp only [if_pos hlt]; rfl
  · simp only [if_neg hlt]; rfl

theorem pop_of : pop c (Impl.of (ω := ω) c.E) = onFst (EV.pop c) := by
  unfold pop EV.pop
  refine read_congr fun s t => ?_
  simp only [get_of]
  split
  · rfl
  · rw [onFst_bind]
    refine congrFun (M.bind_congr fun r => ?_) _
    rw [onFst_bind, onFst_unwrap]
    refine M.bind_congr fun a => read_congr fun s t => ?_
    rfl

theorem swapRemove_of (i : Nat) : swapRemove c (Impl.of (ω := ω) c.E) i = onFst (EV.swapRemove c i) := by
  unfold swapRemove EV.swapRemove
  refine read_congr fun s t => ?_
  simp only [onFst_bind, onFst_lift, onFst_unwrap, pop_of]

theorem insert_of (index : Nat) (x : α) : insert c (Impl.of (ω := ω) c.E) index x = onFst (EV.insert c index x) := by
  unfold insert EV.insert insertShift
  rw [onFst_bind, push_of]
  refine M.bind_congr fun _ => read_congr fun s t => ?_
  rw [toDiscr_of, M.bind_pure_fun]

theorem remove_of (index : Nat) : remove c (Impl.of (ω := ω) c.E) index = onFst (EV.remove c index) := by
  unfold remove EV.remove
  rw [onFst_bind, get_of]
  refine M.bind_congr fun r => ?_
  rw [onFst_bind, onFst_unwrap]
  refine M.bind_congr fun a => ?_
  rw [show (Pure.pure a : M (EV c.W × ω) α) = onFst (Pure.pure a) from rfl, ← onFst_bind]
  congr 1
  unfold removeShift
  simp only [M.bind_assoc]
  refine M.bind_congr fun s => M.bind_congr fun bl => M.bind_congr fun _ => M.bind_congr fun s => M.bind_congr fun p =>
    M.bind_congr fun s => M.bind_congr fun _ => M.bind_congr fun s => ?_
  split <;> simp only [M.bind_assoc, M.bind_pure_fun]

theorem retain_of (f : Closure ω α Bool) : retain c (Impl.of c.E) f = EV.retain c f := by
  unfold retain EV.retain
  have : retainStep c (Impl.of c.E) f = EV.retainStep c f := by
    funext i a
    unfold retainStep EV.retainStep
    simp only [get_of, set_of]
  simp only [this]

theorem forEach_of (f : Closure ω α α) : forEach c (Impl.of c.E) f = EV.forEach c f := by
  unfold forEach EV.forEach
  have : forEachStep c (Impl.of c.E) f = EV.forEachStep c f := by
    funext i a
    unfold forEachStep EV.forEachStep
    simp only [get_of, set_of]
  simp only [this]

/-- The iterator yields the items and then ends or panics, without side effects. -/
def Feeds (I : Iter ω ι α) (pan : Bool) : ι → List α → Prop
  | t, [] => ∀ w, ∃ t', I.next t w = if pan then (none, w) else (some (none, t'), w)
  | t, x :: xs => ∃ t', (∀ w, I.next t w = (some (some x, t'), w)) ∧ Feeds I pan t' xs

theorem extendRest_of (I : Iter ω ι α) (pan : Bool) : ∀ (items : List α) (n : Nat) (t : ι), Feeds I pan t items → items.length < n →
    extendRest c (Impl.of c.E) I n t = onFst (EV.extendRest c pan items >>= fun _ => Pure.pure true)
  | _, 0, _, _, hn => absurd hn (Nat.not_lt_zero _)
  | [], n + 1, t, hf, _ => by
    funext ⟨s, w⟩
    obtain ⟨t', e⟩ := hf w
    unfold extendRest EV.extendRest
    rw [M.bind_apply]
    unfold call
    simp only [e]
    cases pan <;> rfl
  | x :: xs, n + 1, t, hf, hn => by
    obtain ⟨t', e, hf'⟩ := hf
    unfold extendRest EV.extendRest
    funext ⟨s, w⟩
    rw [M.bind_apply]
    unfold call
    simp only [e]
    rw [push_of, extendRest_of I pan xs n t' hf' (by simp at hn; omega), M.bind_assoc]
    simp only [onFst_bind]

theorem extendHinted_succ (h : Impl ω α) (I : Iter ω ι α) (k pos : Nat) (t : ι) : extendHinted c h I (k + 1) pos t = (do
    let r ← call I.next t
    let x ← M.unwrap r.1
    set c h pos x
    extendHinted c h I k (pos + 1) r.2) := rfl

theorem extendBoth_of (I : Iter ω ι α) (pan : Bool) : ∀ (k pos : Nat) (items : List α) (n : Nat) (t : ι), Feeds I pan t items → items.length < n →
    (extendHinted c (Impl.of c.E) I k pos t >>= fun t => extendRest c (Impl.of c.E) I n t) =
      onFst (EV.extendHinted c pan k pos items >>= fun rest => EV.extendRest c pan rest >>= fun _ => Pure.pure true)
  | 0, pos, items, n, t, hf, hn => extendRest_of I pan items n t hf hn
  | k + 1, pos, [], n, t, hf, _ => by
    funext ⟨s, w⟩
    obtain ⟨t', e⟩ := hf w
    unfold extendHinted EV.extendHinted
    rw [M.bind_apply, M.bind_apply]
    unfold call
    simp only [e]
    cases pan <;> rfl
  | k + 1, pos, x :: xs, n, t, hf, hn => by
    obtain ⟨t', e, hf'⟩ := hf
    have ih := extendBoth_of I pan k (pos + 1) xs n t' hf' (by simp at hn; omega)
    have e2 : (extendHinted c (Impl.of c.E) I (k + 1) pos t >>= fun t => extendRest c (Impl.of c.E) I n t) =
        (set c (Impl.of c.E) pos x >>= fun _ => (extendHinted c (Impl.of c.E) I k (pos + 1) t' >>= fun t => extendRest c (Impl.of c.E) I n t)) := by
      funext ⟨s, w⟩
      rw [extendHinted_succ, M.bind_assoc, M.bind_apply]
      unfold call
      simp only [e]
      rw [show (M.unwrap (some x) : M (EV c.W × ω) α) = Pure.pure x from rfl, M.bind_pure_fun, M.bind_assoc]
    rw [e2, ih, set_of, ← onFst_bind, show EV.extendHinted c pan (k + 1) pos (x :: xs) = (EV.set c pos x >>= fun _ => EV.extendHinted c pan k (pos + 1) xs)
      from rfl, M.bind_assoc]

theorem extend_of (I : Iter ω ι α) (it : Src α) {n : Nat} {t : ι} (hh : ∀ w, I.hint t w = (some it.hint, w)) (hf : Feeds I it.panics t it.items)
    (hn : it.items.length < n) : extend c (Impl.of c.E) I n t = onFst (EV.extend c it >>= fun _ => Pure.pure true) := by
  have e0 : extend c (Impl.of c.E) I n t = (do
      let p ← M.read
      onFst (reserve c it.hint)
      let q ← M.read
      let num ← M.lift (uAdd c.build q.1.num it.hint)
      onFst (setLen c num)
      let t ← extendHinted c (Impl.of c.E) I it.hint (len c p.1) t
      extendRest c (Impl.of c.E) I n t) := by
    funext ⟨s, w⟩
    unfold extend
    rw [M.bind_apply]
    unfold call
    simp only [hh]
  rw [e0]
  simp only [extendBoth_of I it.panics _ _ it.items n t hf hn]
  unfold EV.extend
  simp only [M.bind_assoc]
  refine read_congr fun s w => ?_
  rw [onFst_bind (reserve c it.hint)]
  refine congrFun (M.bind_congr fun _ => ?_) _
  refine read_congr fun s' w' => ?_
  simp only [onFst_bind, onFst_lift]
  rcases uAdd c.build s'.num it.hint <;> rfl

theorem feeds_ofSrc (it : Src α) : ∀ xs : List α, Feeds (ofSrc (ω := ω) it) it.panics xs xs
  | [] => fun _ => ⟨[], rfl⟩
  | _ :: xs => ⟨xs, fun _ => rfl, feeds_ofSrc it xs⟩

theorem feeds_moved : ∀ xs : List α, Feeds (moved (ω := ω)) false xs xs
  | [] => fun _ => ⟨[], rfl⟩
  | _ :: xs => ⟨xs, fun _ => rfl, feeds_moved xs⟩

theorem feeds_cloned (E : EnumLike α) : ∀ xs : List α, Feeds (cloned (Impl.of (ω := ω) E)) false xs xs
  | [] => fun _ => ⟨[], rfl⟩
  | _ :: xs => ⟨xs, fun _ => rfl, feeds_cloned E xs⟩

theorem feeds_repeat (E : EnumLike α) (x : α) : ∀ k : Nat, Feeds (repeatTake (Impl.of (ω := ω) E) x) false k (List.replicate k x)
  | 0 => fun _ => ⟨0, rfl⟩
  | k + 1 => ⟨k, fun _ => rfl, feeds_repeat E x k⟩

theorem repeat_of (x : α) (k : Nat) : extend c (Impl.of (ω := ω) c.E) (repeatTake (Impl.of c.E) x) (k + 1) k =
    onFst (EV.extend c (EV.repeatTake x k) >>= fun _ => Pure.pure true) :=
  extend_of _ (EV.repeatTake x k) (fun _ => rfl) (feeds_repeat c.E x k) (by simp [EV.repeatTake])

theorem extendWithValue_of (x : α) (count : Nat) : extendWithValue c (Impl.of (ω := ω) c.E) x count = onFst (EV.extendWithValue c x count) := by
  unfold extendWithValue EV.extendWithValue
  split
  · rw [repeat_of, onFst_bind, M.bind_assoc]
    funext p
    rw [M.bind_apply]
    rcases onFst (EV.extend c (EV.repeatTake x count)) p with ⟨_ | u, q⟩ <;> rfl
  · refine read_congr fun s w => ?_
    simp only [repeat_of, toDiscr_of, M.bind_pure_fun]
    unfold fillBlocks
    simp only [onFst_bind, M.bind_assoc, onFst_pure, M.bind_pure_fun, onFst_lift]
    simp only [M.bind_unit]

theorem resize_of (n : Nat) (x : α) : resize c (Impl.of (ω := ω) c.E) n x = onFst (EV.resize c n x) := by
  unfold resize EV.resize
  refine read_congr fun s w => ?_
  simp only [extendWithValue_of]
  split <;> rfl

theorem any_of (x : α) : any c (Impl.of (ω := ω) c.E) x = onFst (EV.any c x) := by
  unfold any EV.any
  refine read_congr fun s w => ?_
  simp only [toDiscr_of, M.bind_pure_fun]
  split <;> rfl

theorem all_of (x : α) : all c (Impl.of (ω := ω) c.E) x = onFst (EV.all c x) := by
  unfold all EV.all
  refine read_congr fun s w => ?_
  simp only [toDiscr_of, M.bind_pure_fun]
  split <;> rfl

theorem item_of (x : Nat) : item c (Impl.of (ω := ω) c.E) x = onFst (EV.item c x) := by
  funext ⟨t, w⟩
  unfold item
  rw [get_of, onFst_apply, onFst_apply]
  unfold EV.item
  rcases hx : EV.get c x t.v with ⟨e | _ | a, v⟩ <;> rfl

theorem mapItem_of (o : Option Nat) : mapItem c (Impl.of (ω := ω) c.E) o = onFst (EV.mapItem c o) := by
  unfold mapItem EV.mapItem
  cases o with
  | none => rfl
  | some x => simp only [item_of, onFst_bind]; rfl

theorem iterStep_of (o : IterOp) : iterStep c (Impl.of (ω := ω) c.E) o = onFst (EnumVecModel.iterStep c o) := by
  have key : ∀ (o : Option Nat), (do return .item (← mapItem c (Impl.of (ω := ω) c.E) o) : M (It c.W × ω) (IterOut α)) =
      onFst (EV.mapItem c o >>= fun x => Pure.pure (.item x)) := fun o => by rw [mapItem_of, onFst_bind]; rfl
  cases o with
  | sizeHint => rfl
  | next =>
    funext ⟨t, w⟩
    exact congrFun (key (rangeNext c t).1) ((rangeNext c t).2, w)
  | nextBack =>
    funext ⟨t, w⟩
    exact congrFun (key (rangeNextBack c t).1) ((rangeNextBack c t).2, w)
  | nth n =>
    funext ⟨t, w⟩
    exact congrFun (key (rangeNth c n t).1) ((rangeNth c n t).2, w)

theorem iterRun_of : ∀ os : List IterOp, iterRun c (Impl.of (ω := ω) c.E) os = onFst (EnumVecModel.iterRun c os)
  | [] => rfl
  | o :: os => by
    unfold iterRun EnumVecModel.iterRun
    simp only [iterStep_of, iterRun_of os, onFst_bind]; rfl

theorem collect_of : ∀ n : Nat, collect c (Impl.of (ω := ω) c.E) n = onFst (EV.collect c n)
  | 0 => rfl
  | n + 1 => by
    unfold collect EV.collect
    simp only [iterStep_of, collect_of n, EnumVecModel.iterStep, onFst_bind, M.bind_assoc, onFst_pure, M.bind_pure_fun]
    refine M.bind_congr fun x => ?_
    cases x with
    | none => rfl
    | some x => simp only [onFst_bind]; rfl

theorem toVec_of (s : EV c.W) (w : ω) : toVec c (Impl.of c.E) s w = (EV.toVec c s, w) := by
  unfold toVec EV.toVec
  rw [collect_of, onFst_apply]

theorem build_of {m : M (EV c.W) Unit} {f : M (EV c.W × ω) Bool} (hf : f = onFst (m >>= fun _ => Pure.pure true)) (w : ω) :
    build c f w = (EV.build c (new c) m, w) := by
  subst hf
  unfold build EV.build
  rw [onFst_apply, M.bind_apply]
  rcases m (new c) with ⟨_ | a, s'⟩ <;> rfl

theorem build_of' {m : M (EV c.W) Unit} {f : M (EV c.W × ω) Unit} (hf : f = onFst m) (w : ω) :
    build c f w = (EV.build c (new c) m, w) := by
  subst hf
  unfold build EV.build
  rw [onFst_apply]
  rcases m (new c) with ⟨_ | a, s'⟩ <;> rfl

theorem onReg_of {m : Mem c ω} {r : Nat} {f : M (EV c.W × ω) β} {g : M (EV c.W) β} (hf : f = onFst g) (out : β → Out α) :
    onReg m r f out = m.call r g out := by
  subst hf
  unfold onReg Mem.call
  rw [onFst_apply]
  rcases g (m.reg r) with ⟨_ | a, s'⟩ <;> rfl

theorem assign_of (m : Mem c ω) (r : Nat) (v : Except Fault (EV c.W)) : assign m r (v, m.world) = m.assign r v := by
  cases v <;> rfl

theorem ask_of (m : Mem c ω) (v : Except Fault β) (out : β → Out α) : ask m (v, m.world) out = m.ask v out := by
  cases v <;> rfl

theorem step_of (m : Mem c ω) (o : Op ω α) : step c (Impl.of c.E) m (.op o) = EnumVecModel.step c m o := by
  cases o with
  | fromElem r x n => simp only [step, build_of' (extendWithValue_of x n), assign_of]; rfl
  | fromVec r xs =>
    simp only [step, build_of (extend_of moved ⟨xs.length, xs, false⟩ (fun _ => rfl) (feeds_moved xs) (Nat.lt_succ_self _)), assign_of]; rfl
  | fromSlice r xs =>
    simp only [step, build_of (extend_of (cloned (Impl.of c.E)) ⟨xs.length, xs, false⟩ (fun _ => rfl) (feeds_cloned c.E xs) (Nat.lt_succ_self _)), assign_of]; rfl
  | fromIter r it =>
    simp only [step, build_of (extend_of (ofSrc it) it (fun _ => rfl) (feeds_ofSrc it it.items) (Nat.lt_succ_self _)), assign_of]; rfl
  | get r i => exact onReg_of (get_of i) _
  | set r i x => exact onReg_of (set_of i x) _
  | push r x => exact onReg_of (push_of x) _
  | pop r => exact onReg_of pop_of _
  | insert r i x => exact onReg_of (insert_of i x) _
  | remove r i => exact onReg_of (remove_of i) _
  | swapRemove r i => exact onReg_of (swapRemove_of i) _
  | resize r n x => exact onReg_of (resize_of n x) _
  | extend r it =>
    simp only [step]
    rw [onReg_of (extend_of (ofSrc it) it (fun _ => rfl) (feeds_ofSrc it it.items) (Nat.lt_succ_self _))]
    simp only [EnumVecModel.step, Mem.call, M.bind_apply]
    rcases EV.extend c it (m.reg r) with ⟨_ | a, s'⟩ <;> rfl
  | retain r f =>
    simp only [step, retain_of, EnumVecModel.step, onReg, Mem.callW]
    rcases EV.retain c f (m.reg r, m.world) with ⟨_ | a, s'⟩ <;> rfl
  | forEach r f =>
    simp only [step, forEach_of, EnumVecModel.step, onReg, Mem.callW]
    rcases EV.forEach c f (m.reg r, m.world) with ⟨_ | a, s'⟩ <;> rfl
  | any r x => exact onReg_of (any_of x) _
  | all r x => exact onReg_of (all_of x) _
  | toVec r => simp only [step, toVec_of, ask_of]; rfl
  | iterate r os => simp only [step, iterRun_of, onFst_apply, ask_of]; rfl
  | _ => rfl

end Hostile
end EnumVecModel
