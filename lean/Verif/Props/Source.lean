import Verif.Lemmas.SourceStep
import Verif.Props.History

/-!
# The source text is the model (C78)

`Source/Text.lean` holds the text of the methods, letter by letter; `Source/Syntax.lean` is a parser, `Source/Semantics.lean` an interpreter,
`Source/Program.lean` makes the calls of `History.lean` by running the text. These theorems say that the model of all other properties computes what the text computes.
-/

namespace EnumVecModel
open EV Source

set_option linter.constructorNameAsVariable false

variable {α τ : Type} {c : Inst α}

/-- All texts. -/
def sourceTexts : List String :=
  [f_block_index.text, f_blocks_for_elements.text, f_len.text, f_is_empty.text, f_set_len.text, f_get_raw_unchecked.text, f_set_raw_unchecked.text, f_get_raw.text,
   f_set_raw.text, f_get.text, f_set.text, f_swap.text, f_fix_storage.text, f_grow_if_needed.text, f_push.text, f_pop.text, f_truncate.text, f_clear.text,
   f_capacity.text, f_reserve.text, f_shrink_to_fit.text, f_swap_remove.text, f_insert.text, f_remove.text, f_any.text, f_all.text, f_retain.text, f_for_each.text,
   f_extend.text, f_extend_with_value.text, f_resize.text, f_with_capacity.text, f_default.text, f_new.text, f_from_elem.text, f_from_slice.text, f_from_iter.text,
   f_append.text, f_append_small.text, f_split_off.text, f_eq.text, f_hash.text, f_from.text, f_iter.text, f_to_vec.text, f_into_iter.text, f_next.text,
   f_size_hint.text, f_count.text, f_nth.text, f_next_back.text]

/-- **C78** Every method that is run is what the parser makes of the text of a function of that name. -/
theorem C78_text {small : Bool} {f : Sym} {fn : Fn} (h : prog small f = some fn) :
    fn.name = f ∧ ∃ t ∈ sourceTexts, fnText t.toList = some fn := by
  unfold prog at h
  split at h
  · cases h; exact ⟨by decide, _, by simp [sourceTexts], f_block_index.parses⟩
  · cases h; exact ⟨by decide, _, by simp [sourceTexts], f_blocks_for_elements.parses⟩
  · cases h; exact ⟨by decide, _, by simp [sourceTexts], f_len.parses⟩
  · cases h; exact ⟨by decide, _, by simp [sourceTexts], f_is_empty.parses⟩
  · cases h; exact ⟨by decide, _, by simp [sourceTexts], f_set_len.parses⟩
  · cases h; exact ⟨by decide, _, by simp [sourceTexts], f_get_raw_unchecked.parses⟩
  · cases h; exact ⟨by decide, _, by simp [sourceTexts], f_set_raw_unchecked.parses⟩
  · cases h; exact ⟨by decide, _, by simp [sourceTexts], f_get_raw.parses⟩
  · cases h; exact ⟨by decide, _, by simp [sourceTexts], f_set_raw.parses⟩
  · cases h; exact ⟨by decide, _, by simp [sourceTexts], f_get.parses⟩
  · cases h; exact ⟨by decide, _, by simp [sourceTexts], f_set.parses⟩
  · cases h; exact ⟨by decide, _, by simp [sourceTexts], f_swap.parses⟩
  · cases h; exact ⟨by decide, _, by simp [sourceTexts], f_fix_storage.parses⟩
  · cases h; exact ⟨by decide, _, by simp [sourceTexts], f_grow_if_needed.parses⟩
  · cases h; exact ⟨by decide, _, by simp [sourceTexts], f_push.parses⟩
  · cases h; exact ⟨by decide, _, by simp [sourceTexts], f_pop.parses⟩
  · cases h; exact ⟨by decide, _, by simp [sourceTexts], f_truncate.parses⟩
  · cases h; exact ⟨by decide, _, by simp [sourceTexts], f_clear.parses⟩
  · cases h; exact ⟨by decide, _, by simp [sourceTexts], f_capacity.parses⟩
  · cases h; exact ⟨by decide, _, by simp [sourceTexts], f_reserve.parses⟩
  · cases h; exact ⟨by decide, _, by simp [sourceTexts], f_shrink_to_fit.parses⟩
  · cases h; exact ⟨by decide, _, by simp [sourceTexts], f_swap_remove.parses⟩
  · cases h; exact ⟨by decide, _, by simp [sourceTexts], f_insert.parses⟩
  · cases h; exact ⟨by decide, _, by simp [sourceTexts], f_remove.parses⟩
  · cases h; exact ⟨by decide, _, by simp [sourceTexts], f_any.parses⟩
  · cases h; exact ⟨by decide, _, by simp [sourceTexts], f_all.parses⟩
  · cases h; exact ⟨by decide, _, by simp [sourceTexts], f_retain.parses⟩
  · cases h; exact ⟨by decide, _, by simp [sourceTexts], f_for_each.parses⟩
  · cases h; exact ⟨by decide, _, by simp [sourceTexts], f_extend.parses⟩
  · cases h; exact ⟨by decide, _, by simp [sourceTexts], f_extend_with_value.parses⟩
  · cases h; exact ⟨by decide, _, by simp [sourceTexts], f_resize.parses⟩
  · cases h; exact ⟨by decide, _, by simp [sourceTexts], f_with_capacity.parses⟩
  · cases h; exact ⟨by decide, _, by simp [sourceTexts], f_default.parses⟩
  · cases h; exact ⟨by decide, _, by simp [sourceTexts], f_new.parses⟩
  · cases h; exact ⟨by decide, _, by simp [sourceTexts], f_from_elem.parses⟩
  · cases h; exact ⟨by decide, _, by simp [sourceTexts], f_from_slice.parses⟩
  · cases h; exact ⟨by decide, _, by simp [sourceTexts], f_from_iter.parses⟩
  · cases h
    cases small
    · exact ⟨by decide, _, by simp [sourceTexts], f_append.parses⟩
    · exact ⟨by decide, _, by simp [sourceTexts], f_append_small.parses⟩
  · cases h; exact ⟨by decide, _, by simp [sourceTexts], f_split_off.parses⟩
  · cases h; exact ⟨by decide, _, by simp [sourceTexts], f_eq.parses⟩
  · cases h; exact ⟨by decide, _, by simp [sourceTexts], f_hash.parses⟩
  · cases h; exact ⟨by decide, _, by simp [sourceTexts], f_from.parses⟩
  · cases h; exact ⟨by decide, _, by simp [sourceTexts], f_iter.parses⟩
  · cases h; exact ⟨by decide, _, by simp [sourceTexts], f_to_vec.parses⟩
  · cases h; exact ⟨by decide, _, by simp [sourceTexts], f_into_iter.parses⟩
  · cases h; exact ⟨by decide, _, by simp [sourceTexts], f_next.parses⟩
  · cases h; exact ⟨by decide, _, by simp [sourceTexts], f_size_hint.parses⟩
  · cases h; exact ⟨by decide, _, by simp [sourceTexts], f_count.parses⟩
  · cases h; exact ⟨by decide, _, by simp [sourceTexts], f_nth.parses⟩
  · cases h; exact ⟨by decide, _, by simp [sourceTexts], f_next_back.parses⟩
  · cases h

/-- **C78** A call: running the text of the method returns what the model returns, or fails as the model fails, and leaves every variable and the world of the user's closures as the model does.
For every implementation of `EnumLike`, also a wrong one, from every state, also one with garbage in unused bits or with too few or too many blocks.
`m.reg r` is the state of the variable `r`: the number of elements is a `usize`, the blocks fit into what is allocated, which is at most `isize::MAX` bytes. -/
theorem C78_step (hc : c.Sound) (hm : AllocSmall c) {m : Mem c τ} (op : Op τ α) (hu : op.Usizes c)
    (h : ∀ r, (m.reg r).num < c.build.usizeLim ∧ (m.reg r).storage.data.length ≤ (m.reg r).storage.cap ∧ 2 * (m.reg r).storage.cap < c.build.usizeLim) :
    textStep c m op = some (step c m op) :=
  step_text hc hm (fun r => ⟨(h r).1, (h r).2⟩) op hu

/-- **C78** The assumptions of `C78_step` on the state hold in the beginning and after every call, whether it returns or fails. -/
theorem C78_reach (hc : c.Sound) (hm : AllocSmall c) (w : τ) (ops : List (Op τ α)) (r : Nat) :
    ((runAll c ops (Mem.start c w)).2.reg r).num < c.build.usizeLim ∧
    ((runAll c ops (Mem.start c w)).2.reg r).storage.data.length ≤ ((runAll c ops (Mem.start c w)).2.reg r).storage.cap ∧
    2 * ((runAll c ops (Mem.start c w)).2.reg r).storage.cap < c.build.usizeLim := by
  have key : ∀ (ops : List (Op τ α)) (m : Mem c τ), (∀ r, Fine c (m.reg r)) → ∀ r, Fine c ((runAll c ops m).2.reg r) := by
    intro ops
    induction ops with
    | nil => intro m h; exact h
    | cons o os ih => intro m h; exact ih _ (step_fine hc hm h o)
  have h := key ops (Mem.start c w) (fun _ => new_fine hc hm) r
  exact ⟨h.num, h.room⟩

theorem textRunAll_eq (hc : c.Sound) (hm : AllocSmall c) : ∀ (ops : List (Op τ α)) (m : Mem c τ), (∀ r, Fine c (m.reg r)) → (∀ op ∈ ops, op.Usizes c) →
    textRunAll c ops m = some (runAll c ops m)
  | [], _, _, _ => rfl
  | o :: os, m, h, hu => by
    unfold textRunAll runAll
    rw [step_text hc hm h o (hu o (by simp))]
    simp only
    rw [textRunAll_eq hc hm os _ (step_fine hc hm h o) (fun op ho => hu op (by simp [ho]))]
    rfl

theorem textRun_eq (hc : c.Sound) (hm : AllocSmall c) : ∀ (ops : List (Op τ α)) (m : Mem c τ), (∀ r, Fine c (m.reg r)) → (∀ op ∈ ops, op.Usizes c) →
    textRun c ops m = some (run c ops m)
  | [], _, _, _ => rfl
  | o :: os, m, h, hu => by
    have ih := textRun_eq hc hm os _ (step_fine hc hm h o) (fun op ho => hu op (by simp [ho]))
    unfold textRun run
    rw [step_text hc hm h o (hu o (by simp))]
    rcases hx : step c m o with ⟨out, m'⟩
    rw [hx] at ih
    cases out <;> first | rfl | (simp only [ih]; rfl)

/-- **C78** Every history of calls: running the texts gives the results, panics, failures and final states of the model; the program continues after every panic. -/
theorem C78_history (hc : c.Sound) (hm : AllocSmall c) (w : τ) (ops : List (Op τ α)) (hu : ∀ op ∈ ops, op.Usizes c) :
    textRunAll c ops (Mem.start c w) = some (runAll c ops (Mem.start c w)) :=
  textRunAll_eq hc hm ops _ (fun _ => new_fine hc hm) hu

/-- **C78** The same for programs that end with the first failed allocation. -/
theorem C78_run (hc : c.Sound) (hm : AllocSmall c) (w : τ) (ops : List (Op τ α)) (hu : ∀ op ∈ ops, op.Usizes c) :
    textRun c ops (Mem.start c w) = some (run c ops (Mem.start c w)) :=
  textRun_eq hc hm ops _ (fun _ => new_fine hc hm) hu

/-- **C78** The texts behave like `Vec`: C01, read off the text. Running the text of an allowed history of calls never gets stuck, returns what `Vec`s return and leaves the same
elements, or stops with a failed allocation, after results like those of `Vec`s. -/
theorem C78_like_vec [DecidableEq α] (hc : c.Ok) (hm : AllocSmall c) (w : τ) (ops : List (Op τ α)) (hu : ∀ op ∈ ops, op.Usizes c)
    (ha : AllowedRun c ops (fun _ => .clean) (Vecs.start w)) :
    ∃ outs m, textRun c ops (Mem.start c w) = some (outs, m) ∧
      ((outs = (vecRun c.E ops (Vecs.start w)).1 ∧ m.world = (vecRun c.E ops (Vecs.start w)).2.world ∧
          ∀ r, marksRun c ops (fun _ => .clean) (Vecs.start w) r ≠ .dead → Is c (m.reg r) ((vecRun c.E ops (Vecs.start w)).2.reg r)) ∨
        ∃ pre op post, ops = pre ++ op :: post ∧ outs = (vecRun c.E pre (Vecs.start w)).1 ++ [.oom]) := by
  refine ⟨_, _, C78_run hc.sound hm w ops hu, ?_⟩
  rcases C01_history_partial hc w ops ha with h | ⟨pre, op, post, h1, h2, _⟩
  · exact Or.inl h
  · exact Or.inr ⟨pre, op, post, h1, h2⟩

/-- **C78** The methods that are not calls of a history: the `unsafe` ones, `capacity`, `fix_storage`, `count` of an iterator that has `lo..hi` still to come. Where the call returns or panics
`Ret.ofM` shows the model's result, and the model's state in the slot of `self`. -/
theorem C78_unsafe (hc : c.Sound) (u : User α τ c.W) (h : Heap τ c.W) (sl : Slot) (i x lo hi : Nat) :
    textCall c u .set_len [.vec sl, .usz i, .unit] h = .ofM h sl (fun _ => .unit) (setLen c i (h.get sl)) ∧
    textCall c u .get_raw_unchecked [.vec sl, .usz i, .unit] h = .ofM h sl .usz (getRawUnchecked c i (h.get sl)) ∧
    textCall c u .set_raw_unchecked [.vec sl, .usz i, .usz x] h = .ofM h sl (fun _ => .unit) (setRawUnchecked c i x (h.get sl)) ∧
    textCall c u .capacity [.vec sl, .unit, .unit] h = .val (.usz (EV.capacity c (h.get sl))) h ∧
    textCall c u .fix_storage [.vec sl, .unit, .unit] h = .ofM h sl (fun _ => .unit) (fixStorage c (h.get sl)) ∧
    textCall c u .count [.iter, .unit, .unit] (h.setIt sl lo hi) = .val (.usz (count c ⟨h.get sl, lo, hi⟩)) (h.setIt sl lo hi) :=
  ⟨text_set_len u _ 19 sl i .unit h, text_get_raw_unchecked hc u _ 18 sl i .unit h, text_set_raw_unchecked hc u _ 18 sl i x h, text_capacity u _ 19 sl .unit .unit h,
    text_fix_storage hc u _ 18 sl .unit .unit h, text_count u _ 18 sl lo hi .unit .unit h⟩

/-- **C78** `into_iter` of an `EnumVec` passed by value, whose text is not among those of `prog`: the same name as `into_iter` of `&EnumVec`. -/
theorem C78_into_iter (u : User α τ c.W) (h : Heap τ c.W) (sl : Slot) :
    ∃ fn, fnText f_into_iter_owned.text.toList = some fn ∧ fn.name = .into_iter ∧
      (eval c c.build.usizeLim (call c u c.build.usizeLim 20) fn.body u.fns ⟨fn.params.zip [.vec sl], h⟩).finish =
        .val .iter (h.setIt sl (iter c (h.get sl)).lo (iter c (h.get sl)).hi) :=
  ⟨_, f_into_iter_owned.parses, by decide, text_into_iter_owned u _ 19 sl .unit .unit h⟩

/-- The allocator of the examples. -/
theorem exInst_small {W n : Nat} (hW : 2 ≤ W) (build : Build) (small : Bool) : AllocSmall (exInst W n build small) where
  fresh := by
    have : build.usizeLim = 2 ^ 64 ∨ build.usizeLim = 2 ^ 32 := by unfold Build.usizeLim; split <;> simp
    show 2 * (if small then 4 else 0) < build.usizeLim
    rcases this with h | h <;> rw [h] <;> cases small <;> decide
  exact m k h := by
    simp only [exInst, stdAlloc] at h
    split at h <;> simp at h
    subst h
    rename_i h
    have h1 := Nat.mul_le_mul_left (m + 1) hW
    have h2 : (Build.mk true build.wide).usizeLim = build.usizeLim := rfl
    show 2 * m < build.usizeLim
    omega
  grow cap m k h := by
    simp only [exInst, stdAlloc] at h
    split at h <;> simp at h
    subst h
    rename_i h
    have h1 := Nat.mul_le_mul_left (max (2 * cap) m + 1) hW
    have h2 : (Build.mk true build.wide).usizeLim = build.usizeLim := rfl
    show 2 * max (2 * cap) m < build.usizeLim
    omega

/-- The text is run, by the kernel: the history of C01, on `EnumVec`s of 3-bit elements. -/
example : textRunAll c8 exHistory (Mem.start c8 0) = some (runAll c8 exHistory (Mem.start c8 0)) :=
  C78_history (exInst_ok _ _ (by decide) (by decide) (by decide) (by decide)).sound (exInst_small (by decide) _ _) 0 exHistory (by
    intro op h
    simp only [exHistory, List.mem_cons, List.not_mem_nil, or_false] at h
    rcases h with h | h | h | h | h | h | h | h | h | h | h | h | h | h | h | h | h | h | h | h | h | h | h | h | h <;> subst h <;> simp only [Op.Usizes] <;> decide)

/-- The kernel runs the text. -/
example : (textRunAll c8 (τ := Nat) [.fromVec 0 [1, 2, 3, 4, 5], .insert 0 3 7, .remove 0 1, .get 0 2, .toVec 0, .swap 0 0 9] (Mem.start c8 0)).map (·.1) =
    some [.unit, .unit, .val 2, .item (some 7), .list [1, 3, 7, 4, 5], .panic] := by decide +kernel

/-- … and that of `smallvec_u32`, in a release build, where `append` is another text. -/
example : (textRunAll (exInst 32 8 release64 true) (τ := Nat) [.fromVec 0 [1, 2, 3, 4, 5], .fromElem 1 6 12, .append 0 1, .resize 0 18 7, .retain 0 (fun x n => (some (x.val % 2 == 0), n + x.val)),
      .toVec 0, .iterate 0 [.next, .nextBack, .sizeHint], .splitOff 0 100 2] (Mem.start _ 0)).map (fun p => (p.1, p.2.world)) =
    some ([.unit, .unit, .unit, .unit, .unit, .list [2, 4, 6, 6, 6, 6, 6, 6, 6, 6, 6, 6, 6, 6], .iter [.item (some 2), .item (some 6), .hint 12 (some 12)], .panic], 94) := by decide +kernel


end EnumVecModel
