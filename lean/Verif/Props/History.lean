import Verif.Lemmas.Frame
import Verif.Examples

/-! # Histories of calls over many vectors (C01, C24, C31) -/

namespace EnumVecModel
open EV

variable {α τ : Type} {c : Inst α} [DecidableEq α]

/-- From related states an allowed history stays related, or ends for lack of memory. -/
theorem run_ok (hc : c.Ok) : ∀ (ops : List (Op τ α)) {k : Nat → Mark} {m : Mem c τ} {v : Vecs α τ}, Sim c k m v →
    AllowedRun c ops k v →
    ((run c ops m).1 = (vecRun c.E ops v).1 ∧ Sim c (marksRun c ops k v) (run c ops m).2 (vecRun c.E ops v).2) ∨
    ∃ pre op post, ops = pre ++ op :: post ∧ (run c ops m).1 = (vecRun c.E pre v).1 ++ [.oom] ∧
      OomReason c (run c pre m).2 op
  | [], k, m, v, h, _ => Or.inl ⟨rfl, h⟩
  | o :: os, k, m, v, h, ha => by
    rcases step_ok hc h o ha.1 with ⟨h1, h2⟩ | ⟨h1, h2, -, h3⟩
    · refine Or.inr ⟨[], o, os, rfl, ?_, h2⟩
      unfold run
      rw [show step c m o = (.oom, (step c m o).2) by rw [← h1]]
      rfl
    · have hr : ∀ os', run c (o :: os') m =
          ((step c m o).1 :: (run c os' (step c m o).2).1, (run c os' (step c m o).2).2) := by
        intro os'
        conv => lhs; unfold run
        split
        · next m' he => rw [he] at h2; exact absurd rfl h2
        · next m' h' he => rw [he]
      rcases run_ok hc os h3 ha.2 with ⟨h4, h5⟩ | ⟨pre, op, post, rfl, h4, h5⟩
      · left
        rw [hr, h4, h1]
        exact ⟨rfl, h5⟩
      · right
        refine ⟨o :: pre, op, post, rfl, ?_, ?_⟩
        · rw [hr, h4, h1]; rfl
        · rw [hr]; exact h5

omit [DecidableEq α] in
theorem start_sim (hc : c.Ok) (w : τ) : Sim c (fun _ => .clean) (Mem.start c w) (Vecs.start w) :=
  ⟨rfl, fun _ => ⟨new_holds hc, new_clean hc⟩⟩

/-- **C01 (partial)** Any allowed history over any number of `EnumVec`s returns exactly what the same history returns
on `Vec`s, panics included, the closures see and do the same, and at the end every variable that is not dead is the
`Vec`'s content; unless memory is exhausted, for the reason given, and then everything agrees up to that call.

Full claim: without `Allowed`. It is false then: C06, C07, C08, C14, C15, C16, C17 show for each kind of call that is
not allowed what it does instead. -/
theorem C01_history_partial (hc : c.Ok) (w : τ) (ops : List (Op τ α))
    (ha : AllowedRun c ops (fun _ => .clean) (Vecs.start w)) :
    ((run c ops (Mem.start c w)).1 = (vecRun c.E ops (Vecs.start w)).1 ∧
      (run c ops (Mem.start c w)).2.world = (vecRun c.E ops (Vecs.start w)).2.world ∧
      ∀ r, marksRun c ops (fun _ => .clean) (Vecs.start w) r ≠ .dead →
        Is c ((run c ops (Mem.start c w)).2.reg r) ((vecRun c.E ops (Vecs.start w)).2.reg r)) ∨
    ∃ pre op post, ops = pre ++ op :: post ∧
      (run c ops (Mem.start c w)).1 = (vecRun c.E pre (Vecs.start w)).1 ++ [.oom] ∧
      OomReason c (run c pre (Mem.start c w)).2 op := by
  rcases run_ok hc ops (start_sim hc w) ha with ⟨h1, h2⟩ | h1
  · exact Or.inl ⟨h1, h2.world, fun r hr => ((h2.reg r).holds hr).is hc⟩
  · exact Or.inr h1

/-- **C01 (partial)** The same from any state, however it was reached (`storage_mut`, raw writes, allocation failures, garbage that was
overwritten …), in which the variables are the `Vec`s' contents; those marked clean must have no garbage in unused bits. -/
theorem C01_from_partial (hc : c.Ok) {k : Nat → Mark} {m : Mem c τ} {v : Vecs α τ} (hw : m.world = v.world)
    (hk : ∀ r, k r ≠ .dead) (hm : ∀ r, Is c (m.reg r) (v.reg r)) (hz : ∀ r, k r = .clean → UnusedZero c (m.reg r))
    (ops : List (Op τ α)) (ha : AllowedRun c ops k v) :
    ((run c ops m).1 = (vecRun c.E ops v).1 ∧ (run c ops m).2.world = (vecRun c.E ops v).2.world ∧
      ∀ r, marksRun c ops k v r ≠ .dead → Is c ((run c ops m).2.reg r) ((vecRun c.E ops v).2.reg r)) ∨
    ∃ pre op post, ops = pre ++ op :: post ∧ (run c ops m).1 = (vecRun c.E pre v).1 ++ [.oom] ∧
      OomReason c (run c pre m).2 op := by
  have hs : Sim c k m v := ⟨hw, fun r => by
    have h1 := (hm r).holds hc
    cases hkr : k r with
    | clean => exact ⟨h1, (unusedZero_iff hc _).mp (hz r hkr)⟩
    | dirty => exact h1
    | dead => exact absurd hkr (hk r)⟩
  rcases run_ok hc ops hs ha with ⟨h1, h2⟩ | h1
  · exact Or.inl ⟨h1, h2.world, fun r hr => ((h2.reg r).holds hr).is hc⟩
  · exact Or.inr h1

/-- A history over three variables with everything that is delicate: growing by blocks, `insert` that leaves garbage,
`remove` within a block after it and across blocks on a clean clone, aligned and unaligned `append`, reviving the dead
variable, panicking calls, a closure that counts its calls. -/
def exHistory : List (Op Nat (Fin 8)) :=
  [.fromVec 0 [1, 2, 3, 4, 5, 6, 7, 0, 1, 2, 3, 4], .clone 1 0, .insert 0 3 7, .remove 0 11, .remove 1 0, .get 0 3,
   .append 2 0, .clear 0, .push 0 6, .append 2 0, .set 2 99 0, .swapRemove 2 0, .resize 1 60 5, .any 1 5, .all 1 5,
   .retain 1 (fun x n => (some (x == 5), n + 1)), .forEach 1 (fun x n => (some (x + 1), n + 1)), .eq 1 2, .toVec 2,
   .iterate 1 [.nextBack, .nth 3, .next, .sizeHint], .extend 0 ⟨2, [1, 2, 3], true⟩, .len 0, .hash 0, .pop 0,
   .splitOff 0 9 5]

example : AllowedRun c8 exHistory (fun _ => .clean) (Vecs.start 0) := by decide +kernel

/-- The allocator of the example does not refuse, so the first case of the theorem applies. -/
example : (run c8 exHistory (Mem.start c8 0)).1 = (vecRun c8.E exHistory (Vecs.start 0)).1 ∧
    (run c8 exHistory (Mem.start c8 0)).1.length = 25 := by decide +kernel

/-- 22 elements, one inserted in front and two overwritten, one removed. -/
def badHistory : List (Op Nat (Fin 8)) :=
  [.fromVec 0 (List.replicate 22 7), .insert 0 0 7, .set 0 10 0, .set 0 20 0, .remove 0 0, .get 0 9, .get 0 19]

/-- **C01 is false in full**: this history of safe calls reads 3 where `Vec` has 0 (and where nothing but 0 and 7 was
ever stored). -/
theorem C01_history_wrong :
    (run c8 badHistory (Mem.start c8 0)).1 =
      [.unit, .unit, .unit, .unit, .val 7, .item (some 0), .item (some 3)] ∧
    (vecRun c8.E badHistory (Vecs.start 0)).1 =
      [.unit, .unit, .unit, .unit, .val 7, .item (some 0), .item (some 0)] := by decide +kernel

/-- **C31 is false in full**: the same history gives other results with 64-bit blocks. -/
theorem C31_width_wrong :
    (run (exInst 32 8 debug64 false) badHistory (Mem.start _ 0)).1 ≠
      (run (exInst 64 8 debug64 false) badHistory (Mem.start _ 0)).1 := by decide +kernel

/-- **C31 (partial)** The same history (allowed for both) run with two storages — block widths, `Vec` or `SmallVec`, also debug or
release build and the allocator may differ — gives the same results, and equal contents in all variables usable in both;
unless one of the two runs out of memory. Full claim: without `AllowedRun`; false, see `C31_width_wrong`. -/
theorem C31_width_partial {c c' : Inst α} (hc : c.Ok) (hc' : c'.Ok) (hE : c.E = c'.E) (w : τ) (ops : List (Op τ α))
    (ha : AllowedRun c ops (fun _ => .clean) (Vecs.start w)) (ha' : AllowedRun c' ops (fun _ => .clean) (Vecs.start w))
    (ho : .oom ∉ (run c ops (Mem.start c w)).1) (ho' : .oom ∉ (run c' ops (Mem.start c' w)).1) :
    (run c ops (Mem.start c w)).1 = (run c' ops (Mem.start c' w)).1 ∧
    (run c ops (Mem.start c w)).2.world = (run c' ops (Mem.start c' w)).2.world ∧
    ∀ r, marksRun c ops (fun _ => .clean) (Vecs.start w) r ≠ .dead →
      marksRun c' ops (fun _ => .clean) (Vecs.start w) r ≠ .dead →
      ∃ l, Is c ((run c ops (Mem.start c w)).2.reg r) l ∧ Is c' ((run c' ops (Mem.start c' w)).2.reg r) l := by
  rcases C01_history_partial hc w ops ha with ⟨h1, h2, h3⟩ | ⟨pre, op, post, -, h1, -⟩
  · rcases C01_history_partial hc' w ops ha' with ⟨g1, g2, g3⟩ | ⟨pre, op, post, -, g1, -⟩
    · rw [h1, g1, h2, g2, hE]
      refine ⟨rfl, rfl, fun r hr hr' => ⟨(vecRun c'.E ops (Vecs.start w)).2.reg r, ?_, g3 r hr'⟩⟩
      rw [← hE]; exact h3 r hr
    · exact absurd (by rw [g1]; simp) ho'
  · exact absurd (by rw [h1]; simp) ho

/-- **C31 (partial)** Without the assumption on memory: the shorter list of results, without the final failure, begins the longer one. -/
theorem C31_prefix_partial {c c' : Inst α} (hc : c.Ok) (hc' : c'.Ok) (hE : c.E = c'.E) (w : τ) (ops : List (Op τ α))
    (ha : AllowedRun c ops (fun _ => .clean) (Vecs.start w)) (ha' : AllowedRun c' ops (fun _ => .clean) (Vecs.start w)) :
    ∃ n n', ((run c ops (Mem.start c w)).1 = (vecRun c.E ops (Vecs.start w)).1.take n ∨
        (run c ops (Mem.start c w)).1 = (vecRun c.E ops (Vecs.start w)).1.take n ++ [.oom]) ∧
      ((run c' ops (Mem.start c' w)).1 = (vecRun c.E ops (Vecs.start w)).1.take n' ∨
        (run c' ops (Mem.start c' w)).1 = (vecRun c.E ops (Vecs.start w)).1.take n' ++ [.oom]) := by
  have key : ∀ {d : Inst α}, d.Ok → AllowedRun d ops (fun _ => .clean) (Vecs.start w) →
      ∃ n, (run d ops (Mem.start d w)).1 = (vecRun d.E ops (Vecs.start w)).1.take n ∨
        (run d ops (Mem.start d w)).1 = (vecRun d.E ops (Vecs.start w)).1.take n ++ [.oom] := by
    intro d hd hda
    rcases C01_history_partial hd w ops hda with ⟨h1, -⟩ | ⟨pre, op, post, rfl, h1, -⟩
    · exact ⟨(vecRun d.E ops (Vecs.start w)).1.length, Or.inl (by rw [h1, List.take_length])⟩
    · refine ⟨(vecRun d.E pre (Vecs.start w)).1.length, Or.inr ?_⟩
      rw [h1]
      congr 1
      have : ∀ (l : List (Op τ α)) (v : Vecs α τ) (l' : List (Op τ α)),
          (vecRun d.E (l ++ l') v).1 = (vecRun d.E l v).1 ++ (vecRun d.E l' (vecRun d.E l v).2).1 := by
        intro l
        induction l with
        | nil => intro v l'; rfl
        | cons o os ih => intro v l'; simp [vecRun, ih]
      rw [this, List.take_left']
      rfl
  obtain ⟨n, h⟩ := key hc ha
  obtain ⟨n', h'⟩ := key hc' ha'
  rw [← hE] at h'
  exact ⟨n, n', h, h'⟩

/-- The history of above is allowed for 128-bit blocks and for `SmallVec` storage in a release build, too. -/
example : AllowedRun (exInst 128 8 debug64 false) exHistory (fun _ => .clean) (Vecs.start 0) ∧
    AllowedRun (exInst 32 8 release64 true) exHistory (fun _ => .clean) (Vecs.start 0) ∧
    (exInst 128 8 debug64 false).E = (exInst 32 8 release64 true).E ∧
    .oom ∉ (run (exInst 128 8 debug64 false) exHistory (Mem.start _ 0)).1 ∧
    .oom ∉ (run (exInst 32 8 release64 true) exHistory (Mem.start _ 0)).1 := by
  refine ⟨by decide +kernel, by decide +kernel, rfl, by decide +kernel, by decide +kernel⟩

/-! ## Programs for which no proviso is needed -/

/-- Calls that are allowed in every state. -/
def Op.Plain (c : Inst α) : Op τ α → Prop
  | .insert _ _ _ | .splitOff _ _ _ => False
  | .remove _ _ => c.bits < c.W ∧ c.W % c.bits = 0
  | .append r o => c.small = true ∧ r ≠ o
  | .extend _ it => it.hint ≤ it.items.length ∧ 1 < c.epb
  | .fromIter _ it => it.hint ≤ it.items.length ∧ ¬ c.AtLimit it.hint
  | .fromVec _ xs | .fromSlice _ xs => ¬ c.AtLimit xs.length
  | .reserve _ _ => 1 < c.epb
  | .retain _ f => ∀ x w, (f x w).1 ≠ none
  | _ => True

omit [DecidableEq α] in
theorem filterSpec_done {f : Closure τ α Bool} (hf : ∀ x w, (f x w).1 ≠ none) : ∀ (l : List α) (w : τ),
    (filterSpec f l w).2.2 = true
  | [], _ => rfl
  | x :: xs, w => by
    unfold filterSpec
    have h := hf x w
    rcases hx : f x w with ⟨_ | b, w'⟩
    · rw [hx] at h; exact absurd rfl h
    · cases b
      · exact filterSpec_done hf xs w'
      · exact filterSpec_done hf xs w'

theorem plain_allowed : ∀ (ops : List (Op τ α)) (k : Nat → Mark) (v : Vecs α τ), (∀ op ∈ ops, op.Plain c) →
    (∀ r, k r ≠ .dead) → AllowedRun c ops k v ∧ ∀ r, marksRun c ops k v r ≠ .dead
  | [], _, _, _, hk => ⟨trivial, hk⟩
  | o :: os, k, v, ht, hk => by
    have h0 : Allowed c k v o ∧ ∀ r, marks c k v o r ≠ .dead := by
      have h0 := ht o (by simp)
      have hu : ∀ (r : Nat) (q : Mark), q ≠ .dead → ∀ i, upd k r q i ≠ .dead := fun r q hq i => by
        unfold upd; split
        · exact hq
        · exact hk i
      have hi : ∀ (p : Prop) [Decidable p] (r : Nat) (q : Mark), q ≠ .dead → ∀ i, (if p then upd k r q else k) i ≠ .dead :=
        fun p _ r q hq i => by
          split
          · exact hu r q hq i
          · exact hk i
      have hs : ∀ q, q ≠ .dead → c.soil q ≠ .dead := fun q hq => by
        unfold Inst.soil; split
        · exact hq
        · nofun
      cases o with
      | splitOff r a d => exact h0.elim
      | insert r i x => exact h0.elim
      | remove r i => exact ⟨⟨trivial, fun _ i _ => hk i, Or.inr (Or.inr ⟨h0.1, Or.inl h0.2⟩)⟩, hk⟩
      | append r o =>
        obtain ⟨h1, h2⟩ := h0
        refine ⟨⟨h2, fun _ i _ => hk i, trivial⟩, fun i => ?_⟩
        simp only [marks, h1, true_or, if_true]
        unfold upd; split
        · exact hk _
        · split
          · split
            · exact hk _
            · nofun
          · exact hk _
      | extend r it => exact ⟨⟨trivial, fun _ i _ => hk i, h0.1, fun hw => by have := hw.1; have := h0.2; omega⟩, hk⟩
      | reserve r n => exact ⟨⟨trivial, fun _ i _ => hk i, fun hw => by have := hw.1; have h0 : 1 < c.epb := h0; omega⟩, hk⟩
      | fromIter r it =>
        refine ⟨⟨trivial, fun _ i _ => hk i, h0⟩, fun i => ?_⟩
        simp only [marks]; split
        · exact hk i
        · exact hu r .clean nofun i
      | retain r f => exact ⟨⟨trivial, fun _ i _ => hk i, filterSpec_done h0 _ _⟩, hk⟩
      | new r => exact ⟨⟨trivial, fun _ i _ => hk i, trivial⟩, hu r .clean nofun⟩
      | withCapacity r => exact ⟨⟨trivial, fun _ i _ => hk i, trivial⟩, hu r .clean nofun⟩
      | fromVec r => exact ⟨⟨trivial, fun _ i _ => hk i, h0⟩, hu r .clean nofun⟩
      | fromSlice r => exact ⟨⟨trivial, fun _ i _ => hk i, h0⟩, hu r .clean nofun⟩
      | fromElem r x n =>
        refine ⟨⟨trivial, fun _ i _ => hk i, trivial⟩, hu r _ ?_⟩
        split
        · nofun
        · exact hs _ nofun
      | clone r s => exact ⟨⟨trivial, fun _ i _ => hk i, trivial⟩, hu r _ (hk s)⟩
      | resize r n x =>
        refine ⟨⟨trivial, fun _ i _ => hk i, trivial⟩, fun j => ?_⟩
        simp only [marks]
        split
        · exact hk j
        · exact hu r _ (hs _ (hk r)) j
      | clear r => exact ⟨⟨trivial, fun _ i _ => hk i, trivial⟩, hi _ r .clean nofun⟩
      | truncate r n =>
        cases n with
        | zero => exact ⟨⟨trivial, fun _ i _ => hk i, trivial⟩, hi _ r .clean nofun⟩
        | succ n => exact ⟨⟨trivial, fun _ i _ => hk i, trivial⟩, hk⟩
      | _ => exact ⟨⟨trivial, fun _ i _ => hk i, trivial⟩, hk⟩
    obtain ⟨h1, h2⟩ := plain_allowed os (marks c k v o) (vecStep c.E v o).2 (fun op h => ht op (by simp [h])) h0.2
    exact ⟨⟨h0.1, h1⟩, h2⟩

/-- **C01 (partial)** No proviso on the states: a program that does not call `insert` and `split_off`, calls `remove`
only for element widths that divide the block width properly, `append` only with `SmallVec` storage, passes honest
iterators, does not panic in `retain`, and calls `reserve` and `extend` only with several elements per block behaves like on `Vec`s. -/
theorem C01_plain_partial (hc : c.Ok) (w : τ) (ops : List (Op τ α)) (hp : ∀ op ∈ ops, op.Plain c) :
    ((run c ops (Mem.start c w)).1 = (vecRun c.E ops (Vecs.start w)).1 ∧
      (run c ops (Mem.start c w)).2.world = (vecRun c.E ops (Vecs.start w)).2.world ∧
      ∀ r, Is c ((run c ops (Mem.start c w)).2.reg r) ((vecRun c.E ops (Vecs.start w)).2.reg r)) ∨
    ∃ pre op post, ops = pre ++ op :: post ∧
      (run c ops (Mem.start c w)).1 = (vecRun c.E pre (Vecs.start w)).1 ++ [.oom] ∧
      OomReason c (run c pre (Mem.start c w)).2 op := by
  obtain ⟨h1, h2⟩ := plain_allowed ops (fun _ => .clean) (Vecs.start w) hp (fun _ => nofun)
  rcases C01_history_partial hc w ops h1 with ⟨h3, h4, h5⟩ | h3
  · exact Or.inl ⟨h3, h4, fun r => h5 r (h2 r)⟩
  · exact Or.inr h3

example : ∀ op ∈ ([.fromElem 0 1 200, .remove 0 3, .fromVec 1 [0, 1], .append 1 0, .clear 0, .resize 0 100 1, .append 0 1,
    .retain 0 (fun x n => (some (x == 1), n + 1)), .toVec 0] : List (Op Nat (Fin 2))), op.Plain c2s := by
  simp only [List.mem_cons, List.not_mem_nil, or_false, forall_eq_or_imp, forall_eq, Op.Plain, true_and, and_true,
    List.length_cons]
  refine ⟨?_, by decide, ⟨rfl, by decide⟩, ⟨rfl, by decide⟩, fun x w h => by cases h⟩
  decide +kernel

/-! ## C24 -/

section
omit [DecidableEq α]

/-- **C24** (independence). After `d = s.clone()`, whatever calls are made that do not modify `d` itself (they may do
anything to `s`, panic, even corrupt `s`), `d` still has the elements `s` had when it was cloned; and the other way
round. -/
theorem C24_independent (hc : c.Ok) (m : Mem c τ) {d s : Nat} (hds : d ≠ s) {l : List α} (h : Is c (m.reg s) l)
    (hok : (step c m (.clone d s)).1 = .unit) (post : List (Op τ α)) :
    ((∀ op ∈ post, d ∉ op.writes) → Is c ((runAll c (.clone d s :: post) m).2.reg d) l) ∧
    ((∀ op ∈ post, s ∉ op.writes) → Is c ((runAll c (.clone d s :: post) m).2.reg s) l) := by
  have key := clone_holds hc (h.holds hc)
  have h1 : Is c ((step c m (.clone d s)).2.reg d) l := by
    simp only [step] at hok ⊢
    cases hx : EV.clone c (m.reg s) with
    | ok s' =>
      rw [hx] at key
      simp only [Mem.assign, upd_same]
      exact key.1.is hc
    | error e =>
      rw [hx] at hok
      simp only [Mem.assign] at hok
      cases e <;> cases hok
  refine ⟨fun hp => ?_, fun hp => ?_⟩
  · show Is c ((runAll c post _).2.reg d) l
    rw [runAll_frame post _ hp]; exact h1
  · show Is c ((runAll c post _).2.reg s) l
    rw [runAll_frame post _ hp, step_frame m _ (by simp [Op.writes, Ne.symm hds])]; exact h

end

/-- The hypotheses are met, and the later calls corrupt the original. -/
example : Is c8 ((⟨fun _ => v12, 0⟩ : Mem c8 Nat).reg 0) l12 ∧
    (step c8 (⟨fun _ => v12, 0⟩ : Mem c8 Nat) (.clone 1 0)).1 = .unit ∧
    (∀ op ∈ ([.set 0 3 7, .insert 0 2 5, .remove 0 0, .splitOff 0 3 2] : List (Op Nat (Fin 8))), 1 ∉ op.writes) :=
  ⟨v12_is, by decide +kernel, by simp [Op.writes]⟩

end EnumVecModel
