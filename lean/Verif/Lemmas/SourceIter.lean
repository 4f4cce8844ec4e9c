import Verif.Lemmas.SourceLoops
/-! # The source text of the methods with closures and loops is the model -/

namespace EnumVecModel
namespace Source
open EV
set_option linter.constructorNameAsVariable false
set_option linter.unusedSimpArgs false
variable {α τ : Type} {W : Nat}

attribute [local irreducible] Inst.epb Inst.bits

/-- The vector in a slot and the state of user code. -/
def Heap.put (h : Heap τ W) (sl : Slot) (p : EV W × τ) : Heap τ W := (h.set sl p.1).withWorld p.2

/-- The result of a method with a closure on the vector in a slot. -/
def Ret.ofM' (h : Heap τ W) (sl : Slot) (r : Except Fault Unit × (EV W × τ)) : Ret α τ W :=
  match r with
  | (.ok _, p) => .val .unit (h.put sl p)
  | (.error e, p) => .fault e (h.put sl p)

theorem retainStep_le {c : Inst α} {f : Closure τ α Bool} {i j j' : Nat} {p p' : EV c.W × τ} (h : retainStep c f i j p = (.ok j', p')) : j' ≤ j + 1 := by
  unfold retainStep at h
  rw [M.bind_apply] at h
  split at h
  · rw [M.bind_apply] at h
    split at h
    · rw [M.bind_apply] at h
      split at h
      · rw [M.ite_apply] at h
        split at h
        · rw [M.bind_apply] at h
          split at h
          · cases h; omega
          · cases h
        · cases h; omega
      · cases h
    · cases h
  · cases h

variable {strict : Prop} {c : Inst α} (hc : c.Fits strict) (K : Nat)
include hc

theorem text_retain_aux (d : Nat) (sl : Slot) (v w : Val α c.W) (h : Heap τ c.W) (s : EV c.W) (t : τ) (f : Closure τ α Bool) (hK : c.build.usizeLim ≤ K)
    (hn : s.num < c.build.usizeLim) :
    call c (userBool f) K (d + 5) .retain [.vec sl, v, w] ((h.set sl s).withWorld t) = .ofM' h sl (EV.retain c f (s, t)) := by
  rw [call_eq (userBool f) K (d + 4) (fn := f_retain) rfl]
  have hg := User.fns_f (W := c.W) (userBool f)
  generalize hu : User.fns (userBool f) = Δ at hg
  clear hu
  simp [f_retain, ↓bindStep, text, text_len, EV.retain, len]
  rw [whileLoop_eq (σ := EV c.W × τ) (fun i j p => ⟨[(.l, .usz s.num), (.i_set, .usz j), (.i_get, .usz i), (.self, .vec sl), (.f, v)], (h.set sl p.1).withWorld p.2⟩)
    (fun p => h.put sl p) (fun i j _ => j ≤ i) (retainStep c f) _ _ s.num (i := 0) (acc := 0) (s := (s, t))]
  · rcases loop (retainStep c f) s.num 0 0 (s, t) with ⟨e | n, p⟩ <;>
    simp [Out.ofLoop, ↓bindStep, text, text_set_len, Ret.ofM', onFst, setLen, Heap.put]
  · intro i j p
    simp [↓bindStep, text]
  · intro i j p hi hj
    have h1 := text_get hc (userBool f) K d sl i .unit ((h.set sl p.1).withWorld p.2)
    simp only [text] at h1
    have h8 : i + 1 < c.build.usizeLim := by omega
    have h9 : j + 1 < c.build.usizeLim := by omega
    rcases hx : EV.get c i p.1 with ⟨e | _ | x, s'⟩ <;> rw [hx] at h1
    · simp [↓bindStep, text, h1, retainStep, onFst, hx, Out.ofLoop, Heap.put]
    · simp [↓bindStep, text, h1, retainStep, onFst, hx, Out.ofLoop, Heap.put]
    rcases hy : f x p.2 with ⟨_ | _ | _, t'⟩
    · simp [↓bindStep, text, h1, retainStep, onFst, hx, Out.ofLoop, Heap.put, eval_callv _ _ _ _ _ _ _ _ _ hg, userBool, hy, EV.call]
    · simp [↓bindStep, text, h1, retainStep, onFst, hx, Out.ofLoop, Heap.put, eval_callv _ _ _ _ _ _ _ _ _ hg, userBool, hy, EV.call, uAdd_ok h8]
    have h2 := text_set hc (userBool f) K d sl j x ((h.set sl s').withWorld t')
    simp only [text] at h2
    rcases hz : EV.set c j x s' with ⟨e | _ , s3⟩ <;> rw [hz] at h2 <;>
    simp [↓bindStep, text, h1, h2, retainStep, onFst, hx, Out.ofLoop, Heap.put, eval_callv _ _ _ _ _ _ _ _ _ hg, userBool, hy, EV.call, uAdd_ok h8, uAdd_ok h9, hz]
  · intro i j p j' p' _ hj hs
    have := retainStep_le hs
    omega
  · omega
  · omega

theorem text_retain (d : Nat) (sl : Slot) (v w : Val α c.W) (h : Heap τ c.W) (f : Closure τ α Bool) (hK : c.build.usizeLim ≤ K)
    (hn : (h.get sl).num < c.build.usizeLim) :
    call c (userBool f) K (d + 5) .retain [.vec sl, v, w] h = .ofM' h sl (EV.retain c f (h.get sl, h.world)) := by
  have := text_retain_aux hc K d sl v w h (h.get sl) h.world f hK hn
  rwa [Heap.set_get, Heap.withWorld_world] at this

theorem text_for_each_aux (d : Nat) (sl : Slot) (v w : Val α c.W) (h : Heap τ c.W) (s : EV c.W) (t : τ) (f : Closure τ α α) :
    call c (userElem f) K (d + 5) .for_each [.vec sl, v, w] ((h.set sl s).withWorld t) = .ofM' h sl (EV.forEach c f (s, t)) := by
  rw [call_eq (userElem f) K (d + 4) (fn := f_for_each) rfl]
  have hg := User.fns_f (W := c.W) (userElem f)
  generalize hu : User.fns (userElem f) = Δ at hg
  clear hu
  simp [f_for_each, ↓bindStep, text, text_len, EV.forEach, len]
  rw [forLoop_eq (σ := EV c.W × τ) (fun (_ : Unit) p => ⟨[(.l, .usz s.num), (.self, .vec sl), (.f, v)], (h.set sl p.1).withWorld p.2⟩)
    (fun p => h.put sl p) (fun _ _ _ => True) (forEachStep c f) (acc := ()) (s := (s, t))]
  · rcases loop (forEachStep c f) s.num 0 () (s, t) with ⟨e | n, p⟩ <;>
    simp [Out.ofLoop, ↓bindStep, text, Ret.ofM', Heap.put]
  · intro i _ p hi hj _
    have h1 := text_get hc (userElem f) K d sl i .unit ((h.set sl p.1).withWorld p.2)
    simp only [text] at h1
    rcases hx : EV.get c i p.1 with ⟨e | _ | x, s'⟩ <;> rw [hx] at h1
    · simp [↓bindStep, text, h1, forEachStep, onFst, hx, Out.ofLoop, Heap.put]
    · simp [↓bindStep, text, h1, forEachStep, onFst, hx, Out.ofLoop, Heap.put]
    rcases hy : f x p.2 with ⟨_ | x', t'⟩
    · simp [↓bindStep, text, h1, forEachStep, onFst, hx, Out.ofLoop, Heap.put, eval_callMut _ _ _ _ _ _ _ _ _ hg, userElem, hy, EV.call]
    have h2 := text_set hc (userElem f) K d sl i x' ((h.set sl s').withWorld t')
    simp only [text] at h2
    rcases hz : EV.set c i x' s' with ⟨e | _ , s3⟩ <;> rw [hz] at h2 <;>
    simp [↓bindStep, text, h1, h2, forEachStep, onFst, hx, Out.ofLoop, Heap.put, eval_callMut _ _ _ _ _ _ _ _ _ hg, userElem, hy, EV.call, hz]
  · intros; trivial
  · trivial

theorem text_for_each (d : Nat) (sl : Slot) (v w : Val α c.W) (h : Heap τ c.W) (f : Closure τ α α) :
    call c (userElem f) K (d + 5) .for_each [.vec sl, v, w] h = .ofM' h sl (EV.forEach c f (h.get sl, h.world)) := by
  have := text_for_each_aux hc K d sl v w h (h.get sl) h.world f
  rwa [Heap.set_get, Heap.withWorld_world] at this

variable (u : User α τ c.W)

omit hc in
theorem forLoop_hinted (S : List α → EV c.W → St α τ c.W) (Hp : EV c.W → Heap τ c.W) (panics : Bool) (pos lim : Nat) (body : Nat → St α τ c.W → Out α τ c.W)
    (h0 : ∀ i s, i < lim → body i (S [] s) = .fault (if panics then .user else .unwrapNone) (Hp s))
    (h1 : ∀ i x items s, i < lim → body i (S (x :: items) s) = .ofLoop (fun _ => S items) Hp (EV.set c (pos + i) x s)) :
    ∀ (n i : Nat) (items : List α) (s : EV c.W), i + n ≤ lim → forLoop body n i (S items s) = .ofLoop S Hp (extendHinted c panics n (pos + i) items s)
  | 0, _, _, _, _ => rfl
  | n + 1, i, [], s, hl => by
    unfold forLoop
    rw [h0 i s (by omega)]; rfl
  | n + 1, i, x :: items, s, hl => by
    unfold forLoop extendHinted
    rw [h1 i x items s (by omega), M.bind_apply]
    rcases hx : EV.set c (pos + i) x s with ⟨e | _, s'⟩
    · rfl
    · exact forLoop_hinted S Hp panics pos lim body h0 h1 n (i + 1) items s' (by omega)

omit hc in
theorem forSrc_rest (S : EV c.W → St α τ c.W) (Hp : EV c.W → Heap τ c.W) (panics : Bool) (body : α → St α τ c.W → Out α τ c.W)
    (hS : ∀ s, (S s).heap = Hp s)
    (h1 : ∀ x s, body x (S s) = .ofLoop (fun _ => S) Hp (EV.push c x s)) :
    ∀ (items : List α) (s : EV c.W), forSrc body panics items (S s) = .ofLoop (fun _ => S) Hp (extendRest c panics items s)
  | [], s => by cases panics <;> simp [forSrc, extendRest, Out.ofLoop, text, hS]
  | x :: items, s => by
    unfold forSrc extendRest
    rw [h1 x s, M.bind_apply]
    rcases hx : EV.push c x s with ⟨e | _, s'⟩
    · rfl
    · exact forSrc_rest S Hp panics body hS h1 items s'

theorem text_extend_aux (d : Nat) (sl : Slot) (it : Src α) (v w : Val α c.W) (h : Heap τ c.W)
    (hv : ∀ (Γ : Sym → List (Val α c.W) → Heap τ c.W → Ret α τ c.W) (st : St α τ c.W), methVal c Γ .into_iter v .unit .unit st = .val (.src it) st) :
    call c u K (d + 6) .extend [.vec sl, v, w] h = .ofM h sl (fun _ => .unit) (EV.extend c it (h.get sl)) := by
  rw [call_eq u K (d + 5) (fn := f_extend) rfl]
  have h1 := text_reserve hc u K (d + 3) sl it.hint .unit h
  rcases hx : EV.reserve c it.hint (h.get sl) with ⟨e | _, s⟩ <;> rw [hx] at h1
  · simp [f_extend, ↓bindStep, text, text_len, ↓hv, h1, EV.extend, hx]
  have hl : (h.get sl).num + it.hint < c.build.usizeLim := by
    rcases Nat.lt_or_ge ((h.get sl).num + it.hint) c.build.usizeLim with h3 | h3
    · exact h3
    · simp [EV.reserve, len, Nat.not_lt.mpr h3] at hx
  rcases h2 : uAdd c.build s.num it.hint with e | n
  · simp [f_extend, ↓bindStep, text, text_len, ↓hv, h1, EV.extend, hx, h2, len]
  simp [f_extend, ↓bindStep, text, text_len, ↓hv, h1, EV.extend, hx, h2, len]
  rw [forLoop_hinted (c := c) (fun items s => ⟨[(.self_len, .usz (h.get sl).num), (.iter_len, .usz it.hint), (.iter, .src ⟨it.hint, items, it.panics⟩), (.self, .vec sl), (.iter, v)], h.set sl s⟩)
     (fun s => h.set sl s) it.panics (h.get sl).num it.hint (items := it.items)]
  · rw [Nat.add_zero]
    rcases hy : extendHinted c it.panics it.hint (h.get sl).num it.items { s with num := n } with ⟨e | rest, s'⟩
    · simp [Out.ofLoop, ↓bindStep, text]
    · simp [Out.ofLoop, ↓bindStep, text]
      rw [forSrc_rest (c := c) (fun s => ⟨[(.self_len, .usz (h.get sl).num), (.iter_len, .usz it.hint), (.iter, .src ⟨it.hint, rest, it.panics⟩), (.self, .vec sl), (.iter, v)], h.set sl s⟩)
       (fun s => h.set sl s)]
      · rcases extendRest c it.panics rest s' with ⟨e | _, s''⟩ <;> simp [Out.ofLoop, text]
      · intro s; rfl
      · intro x s
        have h5 := text_push hc u K d sl x .unit (h.set sl s)
        rw [Heap.get_set] at h5
        rcases hz : EV.push c x s with ⟨e | _, s''⟩ <;> rw [hz] at h5 <;>
        simp [Out.ofLoop, ↓bindStep, text, h5]
  · intro i s hi
    have h1 : (h.get sl).num + i < c.build.usizeLim := by omega
    cases it.panics <;> simp [↓bindStep, text, uAdd_ok h1]
  · intro i x items s hi
    have h1 : (h.get sl).num + i < c.build.usizeLim := by omega
    have h2 := text_set hc u K (d + 1) sl ((h.get sl).num + i) x (h.set sl s)
    rw [Heap.get_set] at h2
    rcases hx : EV.set c ((h.get sl).num + i) x s with ⟨e | _, s'⟩ <;> rw [hx] at h2 <;>
    simp [↓bindStep, text, uAdd_ok h1, h2, Out.ofLoop]
  · omega

theorem text_extend (d : Nat) (sl : Slot) (it : Src α) (w : Val α c.W) (h : Heap τ c.W) :
    call c u K (d + 6) .extend [.vec sl, .src it, w] h = .ofM h sl (fun _ => .unit) (EV.extend c it (h.get sl)) :=
  text_extend_aux hc K u d sl it (.src it) w h fun _ _ => rfl

/-- of a `Vec` -/
theorem text_extend_vec (d : Nat) (sl : Slot) (xs : List α) (w : Val α c.W) (h : Heap τ c.W) :
    call c u K (d + 6) .extend [.vec sl, .slice xs, w] h = .ofM h sl (fun _ => .unit) (EV.extend c ⟨xs.length, xs, false⟩ (h.get sl)) :=
  text_extend_aux hc K u d sl ⟨xs.length, xs, false⟩ (.slice xs) w h fun _ _ => rfl

end Source
end EnumVecModel
