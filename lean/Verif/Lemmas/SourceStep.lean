import Verif.Lemmas.SourceRun

/-! # A call of the text is a call of the model -/

namespace EnumVecModel
namespace Source
open EV

set_option linter.constructorNameAsVariable false
set_option linter.unusedSimpArgs false
attribute [local irreducible] Inst.epb Inst.bits

variable {α τ β : Type} {c : Inst α}

theorem upd_self {γ : Type} (f : Nat → γ) (r : Nat) : upd f r (f r) = f := by
  funext k; unfold upd; split
  · subst k; rfl
  · rfl

theorem heapOf_get_a (a b : EV c.W) (w : τ) : (heapOf a b w).get .a = a := rfl
theorem heapOf_get_b (a b : EV c.W) (w : τ) : (heapOf a b w).get .b = b := rfl

theorem on_ofM {m : Mem c τ} {u : User α τ c.W} {r : Nat} {f : Sym} {v w : Val α c.W} {p : M (EV c.W) β} {g : β → Val α c.W} {out : β → EnumVecModel.Out α}
    (h : textCall c u f [.vec .a, v, w] (heapOf (m.reg r) (EV.new c) m.world) = .ofM (heapOf (m.reg r) (EV.new c) m.world) .a g (p (m.reg r)))
    (hg : ∀ b, (g b).show = Option.some (out b)) : textOn m u r f v w = Option.some (m.call r p out) := by
  unfold textOn Mem.call
  rw [h]
  rcases p (m.reg r) with ⟨e | b, s⟩
  · rfl
  · simp only [Ret.ofM, hg]; rfl

theorem on_val {m : Mem c τ} {u : User α τ c.W} {r : Nat} {f : Sym} {v w x : Val α c.W} {out : EnumVecModel.Out α}
    (h : textCall c u f [.vec .a, v, w] (heapOf (m.reg r) (EV.new c) m.world) = .val x (heapOf (m.reg r) (EV.new c) m.world))
    (hg : x.show = Option.some out) : textOn m u r f v w = Option.some (out, m) := by
  unfold textOn
  rw [h]
  simp only [hg]
  show Option.some (out, (⟨upd m.reg r (m.reg r), m.world⟩ : Mem c τ)) = _
  rw [upd_self]

theorem on_ofM' {m : Mem c τ} {u : User α τ c.W} {r : Nat} {f : Sym} {v w : Val α c.W} {p : M (EV c.W × τ) Unit}
    (h : textCall c u f [.vec .a, v, w] (heapOf (m.reg r) (EV.new c) m.world) =
      .ofM' (heapOf (m.reg r) (EV.new c) m.world) .a (p (m.reg r, m.world))) : textOn m u r f v w = Option.some (m.callW r p) := by
  unfold textOn Mem.callW
  rw [h]
  rcases p (m.reg r, m.world) with ⟨e | b, s⟩ <;> rfl

theorem make_made {m : Mem c τ} {r : Nat} {f : Sym} {v w : Val α c.W} {p : Except Fault (EV c.W)}
    (h : ∃ s, textCall c noUser f [v, w] (heapOf (EV.new c) (EV.new c) m.world) = .made (heapOf (EV.new c) (EV.new c) m.world) p s) :
    textMake m r f v w = Option.some (m.assign r p) := by
  obtain ⟨s, h⟩ := h
  unfold textMake Mem.assign
  rw [h]
  rcases p with e | v <;> rfl

theorem feedAll_hashed (l : List Nat) (h : Heap τ c.W) : (h.feedAll l).hashed = h.hashed ++ l ∧ (h.feedAll l).a = h.a ∧ (h.feedAll l).world = h.world := ⟨rfl, rfl, rfl⟩

variable {strict : Prop} (hc : c.Fits strict)
include hc

theorem iter_eq (s : EV c.W) (b : EV c.W) (w : τ) : ∀ (calls : List IterOp) (acc : List (IterOut α)) (lo hi : Nat),
    ∃ lo' hi', textIter calls acc ((heapOf s b w).setIt .a lo hi) =
      Option.some (match (iterRun c calls ⟨s, lo, hi⟩).1 with | .ok l => EnumVecModel.Out.iter (acc ++ l) | .error e => e.out, (heapOf s b w).setIt .a lo' hi')
  | [], acc, lo, hi => ⟨lo, hi, by simp [textIter, iterRun, M.pure_apply]⟩
  | o :: os, acc, lo, hi => by
    have key : ∀ {f : M (It c.W) (Option α)} (_ : iterStep c o = do return .item (← f)) (_ : ∀ t, (f t).2.v = t.v)
        (_ : textCall c noUser (iterCall (c := c) (α := α) o).1 [.iter, (iterCall o).2, .unit] ((heapOf s b w).setIt .a lo hi) = .ofIt (heapOf s b w) .a (f ⟨s, lo, hi⟩)),
        ∃ lo' hi', textIter (o :: os) acc ((heapOf s b w).setIt .a lo hi) =
          Option.some (match (iterRun c (o :: os) ⟨s, lo, hi⟩).1 with | .ok l => EnumVecModel.Out.iter (acc ++ l) | .error e => e.out, (heapOf s b w).setIt .a lo' hi') := by
      intro f h1 h2 h3
      unfold textIter iterRun
      rw [M.bind_apply, h1, h3, M.bind_apply]
      have h4 := h2 ⟨s, lo, hi⟩
      rcases hx : f ⟨s, lo, hi⟩ with ⟨e | x, ⟨v, lo', hi'⟩⟩ <;> rw [hx] at h4
      · obtain rfl : v = s := h4
        exact ⟨lo', hi', rfl⟩
      · obtain rfl : v = s := h4
        obtain ⟨lo'', hi'', ih⟩ := iter_eq v b w os (acc ++ [.item x]) lo' hi'
        refine ⟨lo'', hi'', ?_⟩
        rcases x with _ | x
        all_goals
          refine Eq.trans ih ?_
          simp only [M.pure_apply, M.bind_apply]
          rcases iterRun c os ⟨v, lo', hi'⟩ with ⟨e | l, t⟩
          · rfl
          · simp
    have hv : ∀ (o : Option Nat) (t : It c.W), (mapItem c o t).2.v = t.v := by
      intro o t
      rcases o with _ | x
      · rfl
      · unfold mapItem
        simp only [M.bind_apply]
        have := get_state (c := c) x t.v
        unfold item
        rcases hg : EV.get c x t.v with ⟨e | _ | a, s⟩ <;> rw [hg] at this <;> simp_all <;> rfl
    cases o with
    | next =>
      refine key (f := EV.next c) rfl (fun t => ?_) (text_next hc noUser _ 15 .a lo hi .unit .unit _)
      unfold EV.next; rw [hv]; unfold rangeNext; split <;> rfl
    | nextBack =>
      refine key (f := EV.nextBack c) rfl (fun t => ?_) (text_next_back hc noUser _ 15 .a lo hi .unit .unit _)
      unfold EV.nextBack; rw [hv]; unfold rangeNextBack; split <;> rfl
    | nth n =>
      refine key (f := EV.nth c n) rfl (fun t => ?_) (text_nth hc noUser _ 15 .a lo hi n .unit _)
      unfold EV.nth; rw [hv]; unfold rangeNth; split <;> rfl
    | sizeHint =>
      have h1 : textCall c noUser (iterCall (c := c) (α := α) .sizeHint).1 [.iter, (iterCall .sizeHint).2, .unit] ((heapOf s b w).setIt .a lo hi) = _ :=
        text_size_hint noUser _ 19 .a lo hi .unit .unit _
      unfold textIter iterRun
      rw [M.bind_apply, h1]
      obtain ⟨lo'', hi'', ih⟩ := iter_eq s b w os (acc ++ [.hint (hi - lo) (some (hi - lo))]) lo hi
      refine ⟨lo'', hi'', ?_⟩
      refine Eq.trans ih ?_
      have h2 : iterStep c .sizeHint ⟨s, lo, hi⟩ = (.ok (.hint (hi - lo) (some (hi - lo))), ⟨s, lo, hi⟩) := rfl
      rw [h2]
      simp only [M.bind_apply]
      rcases iterRun c os ⟨s, lo, hi⟩ with ⟨e | l, t⟩
      · rfl
      · simp [M.pure_apply]

theorem step_text (hm : AllocSmall c) {m : Mem c τ} (h : ∀ r, Fine c (m.reg r)) (op : EnumVecModel.Op τ α) (hu : op.Usizes c) :
    textStep c m op = Option.some (step c m op) := by
  have hK : c.build.usizeLim ≤ c.build.usizeLim := Nat.le_refl _
  have item : ∀ b : Option α, (b.elim Val.none fun x => Val.some (.elem x) : Val α c.W).show = Option.some (.item b) := by rintro (_ | x) <;> rfl
  cases op with
  | new r => exact make_made (p := .ok (EV.new c)) ⟨EV.new c, text_new noUser c.build.usizeLim 18 .unit .unit _⟩
  | withCapacity r n => exact make_made ⟨_, text_with_capacity hc noUser _ 18 n .unit _⟩
  | fromElem r x n => exact make_made (text_from_elem hc hm.small noUser _ 12 x n _ hK hu)
  | fromVec r xs => exact make_made (text_from hc noUser _ 12 xs .unit _)
  | fromSlice r xs => exact make_made (text_from_slice hc noUser _ 13 xs .unit _)
  | fromIter r it => exact make_made (text_from_iter hc noUser _ 13 it .unit _)
  | clone r src => rfl
  | len r => exact on_val (text_len noUser _ 19 .a .unit .unit _) rfl
  | isEmpty r => exact on_val (text_is_empty noUser _ 18 .a .unit .unit _) rfl
  | get r i => exact on_ofM (text_get hc noUser _ 16 .a i .unit _) item
  | set r i x => exact on_ofM (text_set hc noUser _ 16 .a i x _) fun _ => rfl
  | push r x => exact on_ofM (text_push hc noUser _ 15 .a x .unit _) fun _ => rfl
  | pop r => exact on_ofM (text_pop hc noUser _ 15 .a .unit .unit _) item
  | insert r i x => exact on_ofM (text_insert hc noUser _ 14 .a i x _ hK) fun _ => rfl
  | remove r i => exact on_ofM (text_remove hc noUser _ 15 .a i .unit _ hK (h r).num) fun _ => rfl
  | swap r i j => exact on_ofM (text_swap hc noUser _ 16 .a i j _) fun _ => rfl
  | swapRemove r i => exact on_ofM (text_swap_remove hc noUser _ 14 .a i .unit _) fun _ => rfl
  | truncate r n => exact on_ofM (text_truncate noUser _ 18 .a n .unit _) fun _ => rfl
  | clear r => exact on_ofM (text_clear noUser _ 17 .a .unit .unit _) fun _ => rfl
  | resize r n x => exact on_ofM (text_resize hc hm.small noUser _ 12 .a x n _ hK hu (h r).room) fun _ => rfl
  | reserve r n => exact on_ofM (text_reserve hc noUser _ 18 .a n .unit _) fun _ => rfl
  | shrinkToFit r => exact on_ofM (text_shrink_to_fit hc noUser _ 17 .a .unit .unit _) fun _ => rfl
  | extend r it => exact on_ofM (text_extend hc _ noUser 14 .a it .unit _) fun _ => rfl
  | append r o =>
    have h1 : textCall c noUser .append [.vec .a, .vec .b, .unit] (heapOf (m.reg r) (m.reg o) m.world) = _ := text_append hc noUser _ 16 .unit _
    show textOn2 m r o .append = _
    simp only [step]
    unfold textOn2
    rw [h1, heapOf_get_a, heapOf_get_b]
    rcases EV.append c (m.reg r, m.reg o) with ⟨e | b, p⟩ <;> rfl
  | splitOff r n d =>
    have h1 := text_split_off hc noUser c.build.usizeLim 17 n .unit (heapOf (m.reg r) (EV.new c) m.world) (h r).num
    show textSplit m r n d = _
    simp only [step]
    unfold textSplit textCall
    rw [heapOf_get_a] at h1
    rcases hx : EV.splitOff c n (m.reg r) with ⟨e | b, p⟩ <;> rw [hx] at h1
    · obtain ⟨v, h1⟩ := h1
      rw [h1]; rfl
    · simp only at h1
      rw [h1]; rfl
  | retain r f => exact on_ofM' (text_retain hc _ 15 .a .unit .unit _ f hK (h r).num)
  | forEach r f => exact on_ofM' (text_for_each hc _ 15 .a .unit .unit _ f)
  | eq r o =>
    have h1 : textCall c noUser .eq [.vec .a, .vec .b, .unit] (heapOf (m.reg r) (m.reg o) m.world) = _ := text_eq hc noUser _ 17 .a .b .unit _
    show textOn2 m r o .eq = _
    simp only [step]
    unfold textOn2 Mem.ask
    rw [h1, heapOf_get_a, heapOf_get_b]
    have h2 : (⟨upd (upd m.reg r (m.reg r)) o (m.reg o), m.world⟩ : Mem c τ) = m := by rw [upd_self, upd_self]
    rcases EV.eq c (m.reg r) (m.reg o) with e | b
    · exact congrArg (fun m => Option.some (_, m)) h2
    · exact congrArg (fun m => Option.some (_, m)) h2
  | any r x => exact on_ofM (text_any hc noUser _ 17 .a x .unit _) fun _ => rfl
  | all r x => exact on_ofM (text_all hc noUser _ 17 .a x .unit _) fun _ => rfl
  | toVec r =>
    have h1 := text_to_vec hc noUser c.build.usizeLim 14 .a .unit .unit (heapOf (m.reg r) (EV.new c) m.world) (h r).num
    show textOn m noUser r .to_vec .unit .unit = _
    simp only [step]
    unfold textOn Mem.ask textCall
    rw [heapOf_get_a] at h1
    have h2 : (⟨upd m.reg r (m.reg r), m.world⟩ : Mem c τ) = m := by rw [upd_self]
    rcases hx : EV.toVec c (m.reg r) with e | b <;> rw [hx] at h1 <;> obtain ⟨lo, h1⟩ := h1 <;> rw [h1]
    · exact congrArg (fun m => Option.some (_, m)) h2
    · exact congrArg (fun m => Option.some (_, m)) h2
  | iterate r calls =>
    have h1 : textCall c noUser .iter [.vec .a, .unit, .unit] (heapOf (m.reg r) (EV.new c) m.world) = _ := text_iter noUser _ 17 .a .unit .unit _
    show textIterate m r calls = _
    simp only [step]
    unfold textIterate Mem.ask
    rw [h1, heapOf_get_a]
    obtain ⟨lo, hi, h2⟩ := iter_eq hc (m.reg r) (EV.new c) m.world calls [] (EV.iter c (m.reg r)).lo (EV.iter c (m.reg r)).hi
    simp only [h2]
    have h3 : (⟨upd m.reg r (m.reg r), m.world⟩ : Mem c τ) = m := by rw [upd_self]
    have h4 : EV.iter c (m.reg r) = ⟨m.reg r, (EV.iter c (m.reg r)).lo, (EV.iter c (m.reg r)).hi⟩ := rfl
    rw [← h4]
    rcases hx : (iterRun c calls (EV.iter c (m.reg r))).1 with e | l
    · exact congrArg (fun m => Option.some (e.out, m)) h3
    · exact congrArg (fun m => Option.some (EnumVecModel.Out.iter l, m)) h3
  | hash r =>
    have h1 := text_hash hc noUser c.build.usizeLim 17 .a .unit (heapOf (m.reg r) (EV.new c) m.world)
    show textHash m r = _
    simp only [step]
    unfold textHash Mem.ask textCall
    rw [heapOf_get_a] at h1
    rcases hx : EV.hash c (m.reg r) with e | l <;> rw [hx] at h1
    · obtain ⟨l, h1⟩ := h1
      rw [h1]
      obtain ⟨h2, h3, h4⟩ := feedAll_hashed l (heapOf (m.reg r) (EV.new c) m.world)
      simp only [h2, h3, h4]
      show Option.some (e.out, (⟨upd m.reg r (m.reg r), m.world⟩ : Mem c τ)) = _
      rw [upd_self]
    · simp only at h1
      rw [h1]
      obtain ⟨h2, h3, h4⟩ := feedAll_hashed l (heapOf (m.reg r) (EV.new c) m.world)
      simp only [h2, h3, h4]
      show Option.some (EnumVecModel.Out.hash ([] ++ l), (⟨upd m.reg r (m.reg r), m.world⟩ : Mem c τ)) = _
      rw [upd_self]; rfl

end Source
end EnumVecModel
