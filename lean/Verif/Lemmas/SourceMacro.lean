import Verif.Source.MacroText
import Verif.MacroTextSpec

/-! Lemmas for C85. -/

namespace EnumVecModel
namespace Source
namespace Mac
open EnumLike.Rules (Row TupleItem ArrayItem)

set_option linter.constructorNameAsVariable false

/-! ## Token trees -/

@[simp] theorem nil_append (b : TTs) : TTs.nil ++ b = b := rfl
@[simp] theorem tok_append (t : Tk) (r b : TTs) : TTs.tok t r ++ b = .tok t (r ++ b) := rfl
@[simp] theorem grp_append (d : Delim) (i r b : TTs) : TTs.grp d i r ++ b = .grp d i (r ++ b) := rfl

@[simp] theorem append_nil : (a : TTs) → a ++ TTs.nil = a
  | .nil => rfl
  | .tok t r => by rw [tok_append, append_nil r]
  | .grp d i r => by rw [grp_append, append_nil r]

@[simp] theorem append_assoc : (a b c : TTs) → a ++ b ++ c = a ++ (b ++ c)
  | .nil, _, _ => rfl
  | .tok t r, b, c => by simp [append_assoc r b c]
  | .grp d i r, b, c => by simp [append_assoc r b c]

@[simp] theorem each_nil {α : Type} (f : α → TTs) : each [] f = .nil := rfl
@[simp] theorem each_cons {α : Type} (a : α) (l : List α) (f : α → TTs) : each (a :: l) f = f a ++ each l f := rfl

theorem each_append {α : Type} (f : α → TTs) : (l l' : List α) → each (l ++ l') f = each l f ++ each l' f
  | [], _ => rfl
  | a :: l, l' => by simp [each_append f l l']

theorem each_map {α β : Type} (g : α → β) (f : β → TTs) (l : List α) : each (l.map g) f = each l fun a => f (g a) := by
  unfold each; rw [List.map_map]; rfl

theorem commas_concat (a : TTs) : (l : List TTs) → commas (l ++ [a]) = TTs.concat (l.map (· ++ tts% ",")) ++ a
  | [] => rfl
  | [b] => by show b ++ tts% "," ++ a = b ++ tts% "," ++ .nil ++ a; simp
  | b :: c :: l => by
    have := commas_concat a (c :: l)
    show b ++ tts% "," ++ commas (c :: l ++ [a]) = b ++ tts% "," ++ TTs.concat ((c :: l).map (· ++ tts% ",")) ++ a
    rw [this]; simp

theorem each_length {α : Type} (f : α → TTs) (h : ∀ a, 1 ≤ (f a).length) : (l : List α) → l.length ≤ (each l f).length
  | [] => Nat.le_refl _
  | a :: l => by
    have hl : (b c : TTs) → (b ++ c).length = b.length + c.length := fun b c => by
      induction b with
      | nil => simp [TTs.length]
      | tok t r ih => simp [TTs.length, ih]; omega
      | grp d i r _ ih => simp [TTs.length, ih]; omega
    rw [each_cons, hl, List.length_cons]
    have := h a
    have := each_length f h l
    omega

/-! ## Matching and transcription of repetitions -/

theorem matchRep_each {α : Type} {f : TTs → Option (Env × TTs)} {g : α → TTs} {env : α → Env} (h : ∀ a ts, f (g a ++ ts) = some (env a, ts)) (h0 : f .nil = none) :
    (l : List α) → (n : Nat) → l.length ≤ n → matchRep f n (each l g) = (l.map env, .nil)
  | [], 0, _ => rfl
  | [], n + 1, _ => by rw [each_nil]; unfold matchRep; rw [h0]; rfl
  | a :: l, 0, hn => by simp at hn
  | a :: l, n + 1, hn => by
    have ih := matchRep_each h h0 l n (by simpa using hn)
    rw [each_cons]
    unfold matchRep
    rw [h]
    dsimp only
    rw [ih]; rfl

theorem mapM_some {α β : Type} {f : α → Option β} {g : α → β} : (l : List α) → (∀ a ∈ l, f a = some (g a)) → l.mapM f = some (l.map g)
  | [], _ => rfl
  | a :: l, h => by rw [List.mapM_cons, h a (by simp), mapM_some l fun b hb => h b (by simp [hb])]; rfl

theorem rounds_map {α : Type} {env : α → Env} {x : Word} {g : α → TTs} (h : ∀ a, (env a).lookup x = some (.leaf (g a))) (l : List α) : rounds (l.map env) x = some (l.map g) := by
  unfold rounds
  rw [mapM_some (g := fun e => match e.lookup x with | some (.leaf v) => v | _ => .nil), List.map_map]
  · congr 1
    exact List.map_congr_left fun a _ => by simp [h]
  · intro e he
    obtain ⟨a, -, rfl⟩ := List.mem_map.mp he
    simp [h]

/-- A repetition at the end of a pattern matches a list. -/
theorem rep_match {α : Type} {b : Pats} {plus : Bool} {g : α → TTs} {env : α → Env} {e : Env} {l : List α} (h : ∀ a ts, b.run (g a ++ ts) = some (env a, ts)) (h0 : b.run .nil = none)
    (hg : ∀ a, 1 ≤ (g a).length) (hp : plus = true → l ≠ []) (he : (b.vars.mapM fun x => (rounds (l.map env) x).map fun l => (x, Bnd.seq l)) = some e) :
    (Pats.rep b plus .nil).run (each l g) = some (e, .nil) := by
  unfold Pats.run
  dsimp only
  rw [matchRep_each h h0 l _ (each_length g hg l)]
  dsimp only
  rw [he, if_neg]
  · simp [Pats.run]
  · cases plus with
    | false => simp
    | true => simpa using hp rfl

/-- A repetition in a body prints a list. -/
theorem rep_write {α : Type} {b r : Trs} {plus : Bool} {e : Env} {l : List α} {G : α → TTs} (hc : count b.vars e = some l.length) (hp : plus = true → l ≠ [])
    (hb : ∀ i (hi : i < l.length), b.run (e.at i) = some (G l[i])) : (Trs.rep b plus r).run e = (r.run e).map (each l G ++ ·) := by
  have h1 : (List.range l.length).mapM (fun i => b.run (e.at i)) = some (l.map G) := by
    rw [mapM_some (g := fun i => if hi : i < l.length then G l[i] else .nil)]
    · congr 1
      apply List.ext_getElem
      · simp
      · intro i h1 h2
        simp at h1
        simp [h1]
    · intro i hi
      have hi := List.mem_range.mp hi
      rw [hb i hi, dif_pos hi]
  show (match count b.vars e with | none => none | some n => if plus && n == 0 then none else match (List.range n).mapM fun i => b.run (e.at i) with
        | none => none
        | some ps => (r.run e).map (TTs.concat ps ++ ·)) = _
  rw [hc]
  dsimp only
  rw [h1, if_neg]
  · rfl
  · cases plus with
    | false => simp
    | true => simpa using hp rfl

theorem getD_map {α : Type} (g : α → TTs) (l : List α) (i : Nat) (hi : i < l.length) : (l.map g).getD i .nil = g l[i] := by
  simp [hi]

theorem run_nil (e : Env) : Trs.nil.run e = some .nil := rfl
theorem run_tok (t : Tk) (r : Trs) (e : Env) : (Trs.tok t r).run e = (r.run e).map (.tok t) := rfl
theorem run_grp (d : Delim) (i r : Trs) (e : Env) : (Trs.grp d i r).run e = (i.run e).bind fun i => (r.run e).map (.grp d i) := by
  show (match i.run e, r.run e with | some i, some r => some (TTs.grp d i r) | _, _ => none) = _
  cases i.run e <;> cases r.run e <;> rfl
theorem run_var {x : Word} {v : TTs} {e : Env} (h : e.lookup x = some (.leaf v)) (r : Trs) : (Trs.var x r).run e = (r.run e).map (v ++ ·) := by
  show (match e.lookup x with | some (.leaf v) => (r.run e).map (v ++ ·) | _ => none) = _
  rw [h]

/-! ## Expansion -/

/-- The expansion is unique. -/
theorem Expands.det {ms : List (Word × List Rule)} {a b b' : TTs} (h : Expands ms a b) (h' : Expands ms a b') : b = b' := by
  induction h generalizing b' with
  | nil => cases h'; rfl
  | tok h1 _ ih =>
    cases h' with
    | tok _ h2 => rw [ih h2]
    | call h3 => simp [isCall, h3] at h1
  | grp _ _ ih1 ih2 =>
    cases h' with
    | grp h1 h2 => rw [ih1 h1, ih2 h2]
  | call h1 h2 _ _ ih1 ih2 =>
    cases h' with
    | tok h3 => simp [isCall, h1] at h3
    | call h3 h4 h5 h6 =>
      rw [h1] at h3; cases h3
      rw [h2] at h4; cases h4
      rw [ih1 h5, ih2 h6]

/-- No `!` in a text. -/
def quiet : TTs → Bool
  | .nil => true
  | .tok t r => t != .p ['!'] && quiet r
  | .grp _ i r => quiet i && quiet r

/-- A text that does not begin with `!`. -/
def noBang : TTs → Bool
  | .tok (.p ['!']) _ => false
  | _ => true

theorem isCall_quiet (ms : List (Word × List Rule)) (t : Tk) {r : TTs} (h : noBang r = true) : isCall ms (.tok t r) = false := by
  unfold isCall
  split
  · rename_i e
    cases e
    cases h
  · rfl

theorem noBang_append {a r : TTs} (ha : quiet a = true) (hr : noBang r = true) : noBang (a ++ r) = true := by
  cases a with
  | nil => exact hr
  | grp d i a => rfl
  | tok t a =>
    simp only [quiet, Bool.and_eq_true, bne_iff_ne, ne_eq] at ha
    rw [tok_append]
    unfold noBang
    split
    · rename_i e; cases e; exact absurd rfl ha.1
    · rfl

/-- Text without `!` is left as it is. -/
theorem Expands.quiet {ms : List (Word × List Rule)} : {a r r' : TTs} → Mac.quiet a = true → noBang r = true → Expands ms r r' → Expands ms (a ++ r) (a ++ r')
  | .nil, _, _, _, _, h => h
  | .tok t a, r, r', ha, hr, h => by
    simp only [Mac.quiet, Bool.and_eq_true] at ha
    exact .tok (isCall_quiet ms t (noBang_append ha.2 hr)) (Expands.quiet ha.2 hr h)
  | .grp d i a, r, r', ha, hr, h => by
    simp only [Mac.quiet, Bool.and_eq_true] at ha
    have := Expands.quiet (ms := ms) (a := i) (r := .nil) (r' := .nil) ha.1 rfl .nil
    rw [append_nil] at this
    exact .grp this (Expands.quiet ha.2 hr h)

theorem quiet_append : (a b : TTs) → quiet (a ++ b) = (quiet a && quiet b)
  | .nil, _ => rfl
  | .tok t a, b => by simp [quiet, quiet_append a b, Bool.and_assoc]
  | .grp d i a, b => by simp [quiet, quiet_append a b, Bool.and_assoc]

theorem quiet_each {α : Type} {f : α → TTs} (h : ∀ a, quiet (f a) = true) : (l : List α) → quiet (each l f) = true
  | [] => rfl
  | a :: l => by rw [each_cons, quiet_append, h, quiet_each h l]; rfl

/-- `m! { a }` for a macro of the crate. -/
theorem Expands.ofCall {ms : List (Word × List Rule)} {m : Word} {rs : List Rule} {d : Delim} {a b b' r r' out : TTs} (h1 : ms.lookup m = some rs) (h2 : applyRules rs a = some b) (h3 : Expands ms b b')
    (h4 : Expands ms r r') (h5 : out = b' ++ r') : Expands ms (.tok (.id m) (.tok (.p ['!']) (.grp d a r))) out := h5 ▸ .call h1 h2 h3 h4

/-! ## `reverse_idx_a!`, `reverse_idx_b!`, `reverse_idx_c!` -/

/-- `$reversed:tt` -/
def pReversed : Pats := .frag (word% "reversed") .tt .nil

/-- `$a:ident [] $($reversed:tt)*` -/
def pBase : Pats := .frag (word% "a") .ident (.grp .bracket .nil (.rep pReversed false .nil))

/-- `$a:ident [$first:tt $($rest:tt)*] $($reversed:tt)*` -/
def pStep : Pats := .frag (word% "a") .ident (.grp .bracket (.frag (word% "first") .tt (.rep (.frag (word% "rest") .tt .nil) false .nil)) (.rep pReversed false .nil))

/-- `m!($a [$($rest)*] $first $($reversed)*)` -/
def bStep (m : Word) : Trs :=
  .tok (.id m) (.tok (.p ['!']) (.grp .paren (.var (word% "a") (.grp .bracket (.rep (.var (word% "rest") .nil) false .nil)
      (.var (word% "first") (.rep (.var (word% "reversed") .nil) false .nil)))) .nil))

theorem applyRules_here {p : Pats} {b : Trs} {rs : List Rule} {ts : TTs} {e : Env} (h : p.run ts = some (e, .nil)) : applyRules (⟨p, b⟩ :: rs) ts = b.run e := by
  unfold applyRules; rw [h]

theorem applyRules_skip {p : Pats} {b : Trs} {rs : List Rule} {ts : TTs} (h : ∀ e, p.run ts ≠ some (e, .nil)) : applyRules (⟨p, b⟩ :: rs) ts = applyRules rs ts := by
  rw [applyRules]
  split
  · rename_i e he; exact absurd he (h e)
  · rfl

/-- The rules of these macros, which differ in their names and in the bodies of the base case. -/
def revRules (m : Word) (base : Trs) : List Rule := [⟨pBase, base⟩, ⟨pStep, bStep m⟩]

/-- Numbers, one after the other. -/
def nums (l : List Nat) : TTs := each l number

theorem nums_match (x : Word) (l : List Nat) : (Pats.rep (.frag x .tt .nil) false .nil).run (nums l) = some ([(x, .seq (l.map number))], .nil) := by
  refine rep_match (env := fun n => [(x, .leaf (number n))]) (fun n ts => rfl) rfl (fun n => Nat.le_refl _) nofun ?_
  have := rounds_map (env := fun n => [(x, .leaf (number n))]) (x := x) (g := number) (fun n => by simp) l
  simp [Pats.vars, this]

theorem nums_write {x : Word} {e : Env} {l : List Nat} {r : Trs} (hc : count [x] e = some l.length) (hx : e.lookup x = some (.seq (l.map number))) :
    (Trs.rep (.var x .nil) false r).run e = (r.run e).map (nums l ++ ·) := by
  refine rep_write (G := number) hc nofun fun i hi => ?_
  have : (Env.at e i).lookup x = some (.leaf (number l[i])) := by
    unfold Env.at
    clear hc
    induction e with
    | nil => cases hx
    | cons q e ih =>
      obtain ⟨y, v⟩ := q
      rw [List.lookup_cons] at hx
      rw [List.map_cons]
      cases hy : x == y with
      | true =>
        rw [hy] at hx
        cases hx
        show List.lookup x ((y, _) :: _) = _
        rw [List.lookup_cons, hy]
        simp [hi]
      | false =>
        rw [hy] at hx
        have := ih hx
        cases v <;> (show List.lookup x ((y, _) :: _) = _; rw [List.lookup_cons, hy]; exact this)
  rw [run_var this, run_nil]
  simp

theorem rev_step (m : Word) (base : Trs) (a : String) (n : Nat) (ns rev : List Nat) :
    applyRules (revRules m base) (ident a ++ bracket (nums (n :: ns)) ++ nums rev) =
      some (.tok (.id m) (.tok (.p ['!']) (paren (ident a ++ bracket (nums ns) ++ nums (n :: rev))))) := by
  have h1 : pBase.run (ident a ++ bracket (nums (n :: ns)) ++ nums rev) = none := by
    simp [pBase, ident, bracket, Pats.run, nums, number]
  have h2 : pStep.run (ident a ++ bracket (nums (n :: ns)) ++ nums rev) =
      some ([(word% "a", .leaf (ident a)), (word% "first", .leaf (number n)), (word% "rest", .seq (ns.map number)), (word% "reversed", .seq (rev.map number))], .nil) := by
    have e1 := nums_match (word% "rest") ns
    have e2 : (Pats.rep pReversed false .nil).run (nums rev) = _ := nums_match (word% "reversed") rev
    show ((Pats.grp .bracket (.frag (word% "first") .tt (.rep (.frag (word% "rest") .tt .nil) false .nil)) (.rep pReversed false .nil)).run (.grp .bracket (.tok (.num n) (nums ns)) (nums rev))).map _ = _
    have e3 : (Pats.frag (word% "first") .tt (.rep (.frag (word% "rest") .tt .nil) false .nil)).run (.tok (.num n) (nums ns)) =
        some ([(word% "first", .leaf (number n)), (word% "rest", .seq (ns.map number))], .nil) := by
      show ((Pats.rep (.frag (word% "rest") .tt .nil) false .nil).run (nums ns)).map _ = _
      rw [e1]; rfl
    show Option.map _ (match (Pats.frag (word% "first") .tt (.rep (.frag (word% "rest") .tt .nil) false .nil)).run (.tok (.num n) (nums ns)), (Pats.rep pReversed false .nil).run (nums rev) with
      | some (e, .nil), some (e', ts) => some (e ++ e', ts)
      | _, _ => none) = _
    rw [e3, e2]; rfl
  unfold revRules
  rw [applyRules_skip (fun e => by rw [h1]; nofun), applyRules_here h2]
  unfold bStep
  rw [run_tok, run_tok, run_grp, run_nil, run_var (v := ident a) (by rfl), run_grp, run_var (v := number n) (by rfl),
    nums_write (l := ns) (by simp [count]) (by rfl), nums_write (l := rev) (by simp [count]) (by rfl), run_nil]
  simp [paren, bracket, nums, ident, number]

theorem rev_base (m : Word) (base : Trs) (a : String) (rev : List Nat) :
    applyRules (revRules m base) (ident a ++ bracket .nil ++ nums rev) = base.run [(word% "a", .leaf (ident a)), (word% "reversed", .seq (rev.map number))] := by
  have h1 : pBase.run (ident a ++ bracket .nil ++ nums rev) = some ([(word% "a", .leaf (ident a)), (word% "reversed", .seq (rev.map number))], .nil) := by
    have e2 : (Pats.rep pReversed false .nil).run (nums rev) = _ := nums_match (word% "reversed") rev
    show Option.map _ (match Pats.nil.run .nil, (Pats.rep pReversed false .nil).run (nums rev) with
      | some (e, .nil), some (e', ts) => some (e ++ e', ts)
      | _, _ => none) = _
    rw [e2]; rfl
  unfold revRules
  exact applyRules_here h1

/-- A call of one of these macros. -/
theorem expand_rev {m : Word} {base : Trs} {a : String} {f : List Nat → TTs} (hm : macros.lookup m = some (revRules m base)) (hq : ∀ l, quiet (f l) = true)
    (hf : ∀ l, l ≠ [] → base.run [(word% "a", .leaf (ident a)), (word% "reversed", .seq (l.map number))] = some (f l)) {r r' : TTs} (hr : Expands macros r r') :
    (ns rev : List Nat) → (ns ≠ [] ∨ rev ≠ []) →
    Expands macros (.tok (.id m) (.tok (.p ['!']) (.grp .paren (ident a ++ bracket (nums ns) ++ nums rev) r))) (f (EnumLike.Rules.reverseIdx ns rev) ++ r')
  | [], rev, h => by
    refine .ofCall hm (rev_base m base a rev |>.trans (hf rev (by simpa using h))) ?_ hr rfl
    have := Expands.quiet (ms := macros) (hq rev) (show noBang .nil = true from rfl) .nil
    rwa [append_nil] at this
  | n :: ns, rev, _ => by
    refine .ofCall (b' := f (EnumLike.Rules.reverseIdx ns (n :: rev))) hm (rev_step m base a n ns rev) ?_ hr ?_
    · have := expand_rev hm hq hf (r := .nil) (r' := .nil) .nil ns (n :: rev) (Or.inr (by simp))
      rwa [append_nil] at this
    · rfl

end Mac
end Source
end EnumVecModel
