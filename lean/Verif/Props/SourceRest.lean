import Verif.Source.Rest
import Verif.Lemmas.SourceStep
import Verif.Props.Debug
import Verif.Props.Iteration

/-! # C86: the text of `Debug`, `Into<Vec>`, `storage()` and `storage_mut()` -/

namespace EnumVecModel
open EV Source

set_option linter.constructorNameAsVariable false
set_option linter.unusedSimpArgs false

variable {α τ : Type} {c : Inst α}

theorem feedAll_eq {strict : Prop} (hc : c.Fits strict) (f : Closure τ α Unit) (hi : Nat) : ∀ (n lo N : Nat) (h : Heap τ c.W), hi - lo = n → n < N →
    match forIter c f (n + 1) (⟨h.a, lo, hi⟩, h.world) with
    | (.ok _, p) => ∃ lo', feedAll (fun h => textCall c noUser .next [.iter, .unit, .unit] h) f N (h.setIt .a lo hi) = .val .fmtr ((h.setIt .a lo' hi).withWorld p.2)
    | (.error e, p) => ∃ lo', feedAll (fun h => textCall c noUser .next [.iter, .unit, .unit] h) f N (h.setIt .a lo hi) = .fault e ((h.setIt .a lo' hi).withWorld p.2) := by
  intro n
  induction n with
  | zero =>
    intro lo N h h1 h2
    obtain ⟨N, rfl⟩ : ∃ m, N = m + 1 := ⟨N - 1, by omega⟩
    have h3 := next_ge (c := c) h.a (lo := lo) (hi := hi) (by omega)
    have h5 := text_next hc noUser c.build.usizeLim 15 .a lo hi .unit .unit h
    rw [show h.get .a = h.a from rfl, h3] at h5
    have h4 : onFst (τ := τ) (next c) (⟨h.a, lo, hi⟩, h.world) = (.ok none, (⟨h.a, lo, hi⟩, h.world)) := by simp [onFst, h3]
    unfold forIter feedAll textCall
    rw [M.bind_ok h4, h5]
    exact ⟨lo, rfl⟩
  | succ n ih =>
    intro lo N h h1 h2
    obtain ⟨N, rfl⟩ : ∃ m, N = m + 1 := ⟨N - 1, by omega⟩
    have h3 := next_lt (c := c) h.a (lo := lo) (hi := hi) (by omega)
    have h5 := text_next hc noUser c.build.usizeLim 15 .a lo hi .unit .unit h
    rw [show h.get .a = h.a from rfl, h3] at h5
    rw [forIter]
    unfold feedAll textCall
    rw [h5]
    rcases hg : (EV.get c lo h.a).1 with e | _ | a <;> rw [hg] at h3
    · have h4 : onFst (τ := τ) (next c) (⟨h.a, lo, hi⟩, h.world) = (.error e, (⟨h.a, lo + 1, hi⟩, h.world)) := by simp [onFst, h3]
      rw [M.bind_error h4]
      exact ⟨lo + 1, rfl⟩
    · have h4 : onFst (τ := τ) (next c) (⟨h.a, lo, hi⟩, h.world) = (.error .unwrapNone, (⟨h.a, lo + 1, hi⟩, h.world)) := by simp [onFst, h3]
      rw [M.bind_error h4]
      exact ⟨lo + 1, rfl⟩
    · have h4 : onFst (τ := τ) (next c) (⟨h.a, lo, hi⟩, h.world) = (.ok (some a), (⟨h.a, lo + 1, hi⟩, h.world)) := by simp [onFst, h3]
      rw [M.bind_ok h4]
      rcases hf : f a h.world with ⟨_ | _, t⟩
      · have h6 : EV.call f a (⟨h.a, lo + 1, hi⟩, h.world) = (.error .user, ((⟨h.a, lo + 1, hi⟩ : It c.W), t)) := by simp [EV.call, hf]
        simp only [M.bind_apply, h6]
        refine ⟨lo + 1, ?_⟩
        show (match f a h.world with
          | (some _, t) => feedAll _ f N ((h.setIt .a (lo + 1) hi).withWorld t)
          | (none, t) => Ret.fault .user ((h.setIt .a (lo + 1) hi).withWorld t)) = _
        rw [hf]
      · have h6 : EV.call f a (⟨h.a, lo + 1, hi⟩, h.world) = (.ok (), ((⟨h.a, lo + 1, hi⟩ : It c.W), t)) := by simp [EV.call, hf]
        have h7 := ih (lo + 1) N (h.withWorld t) (by omega) (by omega)
        simp only [M.bind_apply, h6]
        have h8 : (match f a h.world with
          | (some _, t) => feedAll (fun h => textCall c noUser .next [.iter, .unit, .unit] h) f N ((h.setIt .a (lo + 1) hi).withWorld t)
          | (none, t) => Ret.fault .user ((h.setIt .a (lo + 1) hi).withWorld t)) = feedAll (fun h => textCall c noUser .next [.iter, .unit, .unit] h) f N ((h.withWorld t).setIt .a (lo + 1) hi) := by
          rw [hf]; rfl
        have h9 : (h.withWorld t).a = h.a := rfl
        have h10 : (h.withWorld t).world = t := rfl
        rw [h9, h10] at h7
        rcases hx : forIter c f (n + 1) (⟨h.a, lo + 1, hi⟩, t) with ⟨e | _, p⟩ <;> rw [hx] at h7
        · obtain ⟨lo', h7⟩ := h7
          exact ⟨lo', h8.trans h7⟩
        · obtain ⟨lo', h7⟩ := h7
          exact ⟨lo', h8.trans h7⟩

/-- **C86** (`Debug`): the text of `fmt` gives the formatter what the model gives it, and returns and fails as the model does, for every formatter and every `EnumLike`, from every state whose number of elements
is a `usize`. -/
theorem C86_fmt (hc : c.Sound) (B : DebugList τ α) (s : EV c.W) (w : τ) (hs : s.num < c.build.usizeLim) : textFmt c B s w = some (EV.fmt c B s w) := by
  have h1 : textCall c noUser .iter [.vec .a, .unit, .unit] ((heapOf s (EV.new c) w).withWorld (B.start (heapOf s (EV.new c) w).world)) =
    .val .iter ((heapOf s (EV.new c) (B.start w)).setIt .a 0 s.num) := text_iter noUser _ 17 .a .unit .unit _
  have h2 := feedAll_eq hc B.entry s.num s.num 0 c.build.usizeLim (heapOf s (EV.new c) (B.start w)) rfl hs
  have h3 : EV.fmt c B s w = (match forIter c B.entry (s.num + 1) (⟨s, 0, s.num⟩, B.start w) with
    | (.ok _, p) => (.ok (B.finish p.2).1, (B.finish p.2).2)
    | (.error e, p) => (.error e, p.2)) := rfl
  rw [show (heapOf s (EV.new c) (B.start w)).a = s from rfl, show (heapOf s (EV.new c) (B.start w)).world = B.start w from rfl] at h2
  unfold textFmt restCall
  rw [h3]
  rcases hx : forIter c B.entry (s.num + 1) (⟨s, 0, s.num⟩, B.start w) with ⟨e | _, p⟩ <;> rw [hx] at h2 <;> obtain ⟨lo, h2⟩ := h2
  · simp [f_fmt, ↓bindStep, text, fmtMeth, h1, h2]
  · simp [f_fmt, ↓bindStep, text, fmtMeth, h1, h2]

/-- **C86** (`Into<Vec>`): the text of `into` makes the `Vec` that the model makes, or fails as it fails. -/
theorem C86_into (hc : c.Sound) (s : EV c.W) (hs : s.num < c.build.usizeLim) : textInto c s = some (EV.toVec c s) := by
  have h1 := text_to_vec hc noUser c.build.usizeLim 14 .a .unit .unit (heapOf s (EV.new c) ()) hs
  unfold textInto restCall
  rw [show (heapOf s (EV.new c) ()).get .a = s from rfl] at h1
  rcases hx : EV.toVec c s with e | xs <;> rw [hx] at h1 <;> obtain ⟨lo, h1⟩ := h1
  · have h1 : textCall c noUser .to_vec [.vec .a, .unit, .unit] (heapOf s (EV.new c) ()) = _ := h1
    simp [f_into, ↓bindStep, text, fmtMeth, h1]
  · have h1 : textCall c noUser .to_vec [.vec .a, .unit, .unit] (heapOf s (EV.new c) ()) = _ := h1
    simp [f_into, ↓bindStep, text, fmtMeth, h1]

/-- **C86** (`storage`, `storage_mut`): the texts return a reference to the storage and change nothing. What the caller does with it is modelled by `storageRef` and `storageMut`. -/
theorem C86_storage (B : DebugList τ α) (h : Heap τ c.W) :
    restCall c B f_storage .unit h = .val (.storage .a) h ∧ restCall c B f_storage_mut .unit h = .val (.storage .a) h := by
  unfold restCall
  constructor
  · simp [f_storage, ↓bindStep, text]
  · simp [f_storage_mut, ↓bindStep, text]

/-- **C86** What a user sees: the texts of `fmt` and `into` print and convert an `EnumVec` with the elements `l` as the `Vec` `l`. -/
theorem C86_vec (hc : c.Ok) {s : EV c.W} {l : List α} (h : Is c s l) (B : DebugList τ α) (w : τ) :
    textFmt c B s w = some (vecFmt B l w) ∧ textInto c s = some (.ok l) := by
  have hs : s.num < c.build.usizeLim := by
    have h1 := h.safe.cover
    have h2 := Nat.mul_le_mul_right c.epb (Nat.le_trans h.safe.capLen (Nat.le_add_right _ 1))
    have h3 := h.safe.capBound
    omega
  exact ⟨by rw [C86_fmt hc.sound B s w hs, C47_debug hc h B w], by rw [C86_into hc.sound s hs, C21_to_vec hc h]⟩

/-- **C86** These functions are what the parser makes of the texts. -/
theorem C86_text : fnText f_fmt.text.toList = some f_fmt ∧ fnText f_into.text.toList = some f_into ∧ fnText f_storage.text.toList = some f_storage ∧
    fnText f_storage_mut.text.toList = some f_storage_mut := ⟨f_fmt.parses, f_into.parses, f_storage.parses, f_storage_mut.parses⟩

/-- The kernel runs the text: `[1, 2, 3]`, and a formatter that panics at the third element. -/
example : textFmt c8 (⟨fun w => w ++ [100], fun x (w : List Nat) => (some (), w ++ [x.val]), fun w => (true, w ++ [200])⟩) v3 [] = some (.ok true, [100, 1, 2, 3, 200]) ∧
    textFmt c8 (⟨id, fun x (w : List Nat) => (if x = 3 then none else some (), w ++ [x.val]), fun w => (true, w)⟩) v3 [] = some (.error .user, [1, 2, 3]) ∧
    textInto c8 v3 = some (.ok [1, 2, 3]) := by decide +kernel

end EnumVecModel
