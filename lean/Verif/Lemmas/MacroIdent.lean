import Verif.RustText

/-! # The identifiers printed by the macro are identifiers -/

namespace EnumVecModel
namespace Macro

/-- All tokens are spelled correctly. -/
def AllOk (ts : Toks) : Prop := ∀ t ∈ ts, t.Ok

@[simp] theorem allOk_nil : AllOk [] := by simp [AllOk]
@[simp] theorem allOk_cons {t : Tok} {ts : Toks} : AllOk (t :: ts) ↔ t.Ok ∧ AllOk ts := by simp [AllOk]
@[simp] theorem allOk_append {a b : Toks} : AllOk (a ++ b) ↔ AllOk a ∧ AllOk b := by
  simp only [AllOk, List.mem_append]
  exact ⟨fun h => ⟨fun t ht => h t (Or.inl ht), fun t ht => h t (Or.inr ht)⟩, fun h t ht => ht.elim (h.1 t) (h.2 t)⟩
theorem allOk_flatten {l : List Toks} : AllOk l.flatten ↔ ∀ a ∈ l, AllOk a := by
  simp only [AllOk, List.mem_flatten]
  exact ⟨fun h a ha t ht => h t ⟨a, ha, ht⟩, fun h t ⟨a, ha, ht⟩ => h a ha t ht⟩

theorem x_ident {s : List Char} (h : s.all isIdChar = true) : isIdent ('x' :: s) = true := by
  have hk : ∀ k ∈ keywords.map String.toList, k.head? ≠ some 'x' := by decide
  have : (keywords.map String.toList).contains ('x' :: s) = false := by
    rw [Bool.eq_false_iff]
    intro hc
    exact hk _ (List.contains_iff_mem.mp hc) rfl
  simp only [isIdent, h, this]
  decide

theorem ident_chars {s : List Char} (h : isIdent s = true) : s.all isIdChar = true := by
  cases s with
  | nil => rfl
  | cons c s =>
    simp only [isIdent, Bool.and_eq_true] at h
    simp only [List.all_cons, Bool.and_eq_true]
    exact ⟨by simp [isIdChar, h.1.1], h.1.2⟩

/-- A field name as printed: a well-spelled identifier or an index. -/
def NameOk (f : Toks) : Prop := (∃ s, f = [.id s] ∧ isIdent s = true) ∨ ∃ n, f = [.int n]

theorem NameOk.allOk {f : Toks} (h : NameOk f) : AllOk f := by
  rcases h with ⟨s, rfl, h⟩ | ⟨n, rfl⟩
  · simpa [Tok.Ok] using h
  · simp [Tok.Ok]

theorem NameOk.x {f : Toks} (h : NameOk f) : isIdent ('x' :: text f) = true := by
  refine x_ident ?_
  rcases h with ⟨s, rfl, h⟩ | ⟨n, rfl⟩
  · exact ident_chars h
  · simp only [text, List.all_eq_true]
    intro c hc
    have := Nat.isDigit_of_mem_toDigits (by decide) (by decide) hc
    simp [isIdChar, this]

theorem qself_ok {tn : Toks} (h : AllOk tn) : AllOk (qself tn) := by
  simp [qself, h, Tok.Ok]

theorem getD_ok' {l : List Toks} (h : ∀ a ∈ l, AllOk a) (i : Nat) : AllOk (l.getD i []) := by
  rw [List.getD_eq_getElem?_getD]
  rcases hi : l[i]? with _ | a
  · simp
  · exact h a (List.mem_of_getElem? hi)

theorem getD_ok {l : List Toks} (h : ∀ a ∈ l, AllOk a) (i : Nat) : AllOk (qself (l[i]?.getD [])) := by
  rw [← List.getD_eq_getElem?_getD]
  exact qself_ok (getD_ok' h i)

theorem products_ok {l : List Toks} (h : ∀ a ∈ l, AllOk a) : ∀ p ∈ numVariantsProduct l, AllOk p := by
  have key : ∀ (is : List Nat) (st : Toks × List Toks), AllOk st.1 → (∀ p ∈ st.2, AllOk p) →
      ∀ p ∈ (is.foldl (fun (st : Toks × List Toks) i =>
        let lastP := st.1 ++ [.star] ++ qself (l.getD (i - 1) []) ++ [.NUM_VARIANTS]
        (lastP, st.2 ++ [lastP])) st).2, AllOk p := by
    intro is
    induction is with
    | nil => intro st _ h2; exact h2
    | cons i is ih =>
      intro st h1 h2
      have hl : AllOk (st.1 ++ [.star] ++ qself (l.getD (i - 1) []) ++ [.NUM_VARIANTS]) := by simp [h1, getD_ok h (i - 1), Tok.Ok]
      refine ih _ hl ?_
      intro p hp
      rcases List.mem_append.mp hp with hp | hp
      · exact h2 p hp
      · rw [List.mem_singleton.mp hp]; exact hl
  unfold numVariantsProduct
  dsimp only
  split
  · refine key _ _ ?_ ?_
    · simp [getD_ok h 0, Tok.Ok]
    · simp [getD_ok h 0, Tok.Ok]
  · refine key _ _ ?_ ?_ <;> simp [Tok.Ok]

theorem total_ok {l : List Toks} (h : ∀ a ∈ l, AllOk a) : AllOk (totalNumVariantsProduct l) := by
  have hp := products_ok (l := l ++ [[]]) (by
    intro a ha
    rcases List.mem_append.mp ha with ha | ha
    · exact h a ha
    · rw [List.mem_singleton.mp ha]; simp)
  show AllOk ((numVariantsProduct (l ++ [[]])).getLastD [])
  revert hp
  generalize numVariantsProduct (l ++ [[]]) = q
  intro hp
  rcases q with _ | ⟨a, q⟩
  · simp
  · rw [List.getLastD_eq_getLast?, List.getLast?_eq_some_getLast (by simp)]
    exact hp _ (List.getLast_mem _)

theorem zip_mem {α β : Type} {a : List α} {b : List β} {p : α × β} (h : p ∈ a.zip b) : p.1 ∈ a ∧ p.2 ∈ b := List.of_mem_zip h

theorem fromBody_ok {fs tns : List Toks} {value : Toks} (hf : ∀ f ∈ fs, AllOk f) (ht : ∀ a ∈ tns, AllOk a) (hv : AllOk value) : AllOk (fromDiscrBody fs tns value) := by
  unfold fromDiscrBody
  dsimp only
  rw [allOk_flatten]
  intro a ha
  obtain ⟨⟨f, tn, p, r⟩, hm, rfl⟩ := List.mem_map.mp ha
  obtain ⟨h1, h2⟩ := List.of_mem_zip hm
  obtain ⟨h2, h3⟩ := List.of_mem_zip h2
  obtain ⟨h3, h4⟩ := List.of_mem_zip h3
  have hr : AllOk r := by
    rcases List.mem_append.mp h4 with h4 | h4
    · obtain ⟨tn, htn, rfl⟩ := List.mem_map.mp h4
      simp [qself_ok (ht tn (List.mem_of_mem_take htn)), Tok.Ok]
    · rw [List.mem_singleton.mp h4]; simp
  simp [hf f h1, qself_ok (ht tn h2), products_ok ht p h3, hr, hv, Tok.Ok]

theorem toBody_ok {fs tns : List Toks} {offset : Toks} {xs : Option (List Tok)} (hf : ∀ f ∈ fs, AllOk f) (ht : ∀ a ∈ tns, AllOk a) (ho : AllOk offset)
    (hx : ∀ l, xs = some l → AllOk l) : AllOk (toDiscrBody fs tns offset xs) := by
  unfold toDiscrBody
  dsimp only
  cases xs with
  | some l =>
    dsimp only
    rw [allOk_append, allOk_flatten]
    refine ⟨by simp [ho, Tok.Ok], fun a ha => ?_⟩
    obtain ⟨⟨p, tn, x⟩, hm, rfl⟩ := List.mem_map.mp ha
    obtain ⟨h1, h2⟩ := List.of_mem_zip hm
    obtain ⟨h2, h3⟩ := List.of_mem_zip h2
    have hxo : x.Ok := hx l rfl x h3
    simp [qself_ok (ht tn h2), products_ok ht p h1, Tok.Ok]
    exact hxo
  | none =>
    dsimp only
    rw [allOk_append, allOk_flatten]
    refine ⟨by simp [ho, Tok.Ok], fun a ha => ?_⟩
    obtain ⟨⟨p, tn, f⟩, hm, rfl⟩ := List.mem_map.mp ha
    obtain ⟨h1, h2⟩ := List.of_mem_zip hm
    obtain ⟨h2, h3⟩ := List.of_mem_zip h2
    simp [qself_ok (ht tn h2), products_ok ht p h1, hf f h3, Tok.Ok]

/-- An arm with well-spelled parts. -/
structure ArmOk (m : MatchArm) : Prop where
  name : isIdent m.name = true
  fields : ∀ f ∈ m.fieldNames, NameOk f
  types : ∀ a ∈ m.typeNames, AllOk a
  high : AllOk m.rangeHigh

theorem ArmOk.num {m : MatchArm} (h : ArmOk m) : AllOk m.printNumVariants := by
  unfold MatchArm.printNumVariants
  split
  · simp [Tok.Ok]
  · exact total_ok h.types

theorem ArmOk.next {m : MatchArm} (h : ArmOk m) : AllOk m.printNextRangeHigh := by
  unfold MatchArm.printNextRangeHigh
  simp [h.high, h.num, Tok.Ok]

theorem ArmOk.to {m : MatchArm} (h : ArmOk m) {parent : List Char} (hp : isIdent parent = true) : AllOk (m.printToDiscr parent) := by
  unfold MatchArm.printToDiscr
  split
  · simp [Tok.Ok, hp, h.name]
  · dsimp only
    have hx : AllOk (m.fieldNames.map fun f => Tok.id ('x' :: text f)) := by
      intro t ht
      obtain ⟨f, hf, rfl⟩ := List.mem_map.mp ht
      exact (h.fields f hf).x
    have hb := toBody_ok (fs := m.fieldNames) (tns := m.typeNames) (offset := [.int m.offset, .plus] ++ m.rangeHigh)
      (xs := some (m.fieldNames.map fun f => Tok.id ('x' :: text f))) (fun f hf => (h.fields f hf).allOk) h.types (by simp [h.high, Tok.Ok]) (fun l hl => by cases hl; exact hx)
    have hpat : AllOk ((m.fieldNames.zip (m.fieldNames.map fun f => Tok.id ('x' :: text f))).map fun (f, x) => f ++ [.colon, x, .comma]).flatten := by
      rw [allOk_flatten]
      intro a ha
      obtain ⟨⟨f, x⟩, hm, rfl⟩ := List.mem_map.mp ha
      obtain ⟨h1, h2⟩ := List.of_mem_zip hm
      have h3 : x.Ok := hx x h2
      have h4 := (h.fields f h1).allOk
      rw [allOk_append, allOk_cons, allOk_cons, allOk_cons]
      exact ⟨h4, trivial, h3, trivial, allOk_nil⟩
    simp only [allOk_append, allOk_cons, allOk_nil, and_true]
    exact ⟨⟨⟨⟨⟨hp, trivial, h.name, trivial⟩, hpat⟩, trivial, trivial⟩, hb⟩, trivial⟩

theorem ArmOk.from {m : MatchArm} (h : ArmOk m) {parent : List Char} (hp : isIdent parent = true) : AllOk (m.printFromDiscr parent) := by
  unfold MatchArm.printFromDiscr
  split
  · simp [Tok.Ok, hp, h.name]
  · dsimp only
    have hx : isIdent ['x'] = true := by decide
    have hb := fromBody_ok (fs := m.fieldNames) (tns := m.typeNames) (value := [.id ['x'], .minus, .int m.offset, .minus, .lpar] ++ m.rangeHigh ++ [.rpar])
      (fun f hf => (h.fields f hf).allOk) h.types (by simp [h.high, Tok.Ok, hx])
    simp only [List.cons_append, List.nil_append] at hb
    simp [h.high, h.next, Tok.Ok, hx, hp, h.name, hb]

theorem unitArms_ok {vs : List Variant} (h : ∀ v ∈ vs, isIdent v.ident = true) : ∀ m ∈ unitArms vs, ArmOk m := by
  have key : ∀ (vs : List Variant) (x : List MatchArm), (∀ v ∈ vs, isIdent v.ident = true) → (∀ m ∈ x, ArmOk m) →
      ∀ m ∈ vs.foldl (fun x v => match v.fields with
        | .unit => x ++ [MatchArm.unit v.ident x.length]
        | _ => x) x, ArmOk m := by
    intro vs
    induction vs with
    | nil => intro x _ hx; exact hx
    | cons v vs ih =>
      intro x hv hx
      refine ih _ (fun w hw => hv w (by simp [hw])) ?_
      dsimp only
      split
      · intro m hm
        rcases List.mem_append.mp hm with hm | hm
        · exact hx m hm
        · rw [List.mem_singleton.mp hm]
          exact ⟨hv v (by simp), by simp [MatchArm.unit], by simp [MatchArm.unit], by simp [MatchArm.unit, Tok.Ok]⟩
      · exact hx
  exact key vs [] h (by simp)

theorem fromFields_ok {name : List Char} {fields : Fields} {offset : Nat} {rh : Toks} (hn : isIdent name = true) (hf : ∀ s ∈ fields.names, isIdent s = true) (hr : AllOk rh) :
    ArmOk (MatchArm.fromFields name fields offset rh).1 := by
  refine ⟨hn, ?_, ?_, hr⟩
  · intro f hm
    cases fields with
    | unit => simp [MatchArm.fromFields] at hm
    | named fs =>
      obtain ⟨g, hg, rfl⟩ := List.mem_map.mp hm
      exact Or.inl ⟨_, rfl, hf _ (List.mem_map.mpr ⟨g, hg, rfl⟩)⟩
    | unnamed ts =>
      obtain ⟨i, _, rfl⟩ := List.mem_map.mp hm
      exact Or.inr ⟨_, rfl⟩
  · intro a hm
    cases fields with
    | unit => simp [MatchArm.fromFields] at hm
    | named fs =>
      obtain ⟨g, hg, rfl⟩ := List.mem_map.mp hm
      simp [Tok.Ok]
    | unnamed ts =>
      obtain ⟨i, _, rfl⟩ := List.mem_map.mp hm
      simp [Tok.Ok]

theorem allVariants_ok {vs : List Variant} (h : ∀ v ∈ vs, isIdent v.ident = true ∧ ∀ s ∈ v.fields.names, isIdent s = true) {l : List MatchArm}
    (hl : allVariantsOf vs = some l) : ∀ m ∈ l, ArmOk m := by
  unfold allVariantsOf at hl
  dsimp only at hl
  obtain ⟨⟨l', rh⟩, hf, rfl⟩ := Option.map_eq_some_iff.mp hl
  suffices key : ∀ (vs : List Variant) (off : Nat) (st : Option (List MatchArm × Toks)), (∀ v ∈ vs, isIdent v.ident = true ∧ ∀ s ∈ v.fields.names, isIdent s = true) →
      (∀ x r, st = some (x, r) → (∀ m ∈ x, ArmOk m) ∧ AllOk r) →
      ∀ x r, vs.foldl (fun (st : Option (List MatchArm × Toks)) (v : Variant) => do
        let (x, rangeHigh) ← st
        match v.fields with
        | .unnamed [] => none
        | .named [] => none
        | .unit => some (x, rangeHigh)
        | fields =>
          let (m, rangeHigh) := MatchArm.fromFields v.ident fields off rangeHigh
          some (x ++ [m], rangeHigh)) st = some (x, r) → (∀ m ∈ x, ArmOk m) ∧ AllOk r by
    exact (key vs (unitArms vs).length (some (unitArms vs, [.int 0])) h
      (fun x r e => by cases e; exact ⟨unitArms_ok fun v hv => (h v hv).1, by simp [Tok.Ok]⟩) l' rh hf).1
  intro vs off
  induction vs with
  | nil => intro st _ hst x r e; exact hst x r e
  | cons v vs ih =>
    intro st hv hst x r e
    refine ih _ (fun w hw => hv w (by simp [hw])) ?_ x r e
    intro x r e
    rcases st with _ | ⟨x0, r0⟩
    · cases e
    · obtain ⟨hx0, hr0⟩ := hst x0 r0 rfl
      obtain ⟨hn, hfs⟩ := hv v (by simp)
      have step : ∀ fields : Fields, (∀ s ∈ fields.names, isIdent s = true) →
          (∀ m ∈ x0 ++ [(MatchArm.fromFields v.ident fields off r0).1], ArmOk m) ∧ AllOk (MatchArm.fromFields v.ident fields off r0).2 := by
        intro fields hfs
        have ha := fromFields_ok (offset := off) hn hfs hr0
        refine ⟨fun m hm => ?_, ha.next⟩
        rcases List.mem_append.mp hm with hm | hm
        · exact hx0 m hm
        · rw [List.mem_singleton.mp hm]; exact ha
      rcases hvf : v.fields with _ | fs | ts
      · simp only [bind, Option.bind, hvf] at e
        cases e; exact ⟨hx0, hr0⟩
      · rcases fs with _ | ⟨f, fs⟩
        · simp only [bind, Option.bind, hvf] at e; cases e
        · simp only [bind, Option.bind, hvf] at e
          cases e; exact step _ (hvf ▸ hfs)
      · rcases ts with _ | ⟨t, ts⟩
        · simp only [bind, Option.bind, hvf] at e; cases e
        · simp only [bind, Option.bind, hvf] at e
          cases e; exact step _ (hvf ▸ hfs)

theorem implBody_ok {num from_ to_ : Toks} {var : List Char} (hn : AllOk num) (hv : isIdent var = true) (hf : AllOk from_) (ht : AllOk to_) :
    AllOk (implBody num var from_ to_) := by
  simp [implBody, hn, hf, ht, Tok.Ok, hv]

theorem valueId_ok : isIdent valueId = true := by decide

theorem structMany_ok {fs tns : List Toks} (hf : ∀ f ∈ fs, NameOk f) (ht : ∀ a ∈ tns, AllOk a) : AllOk (generateStructManyElem fs tns) := by
  have hf' : ∀ f ∈ fs, AllOk f := fun f h => (hf f h).allOk
  have h1 := fromBody_ok (value := [.id valueId]) hf' ht (by simp [Tok.Ok, valueId_ok])
  have h2 := toBody_ok (offset := [.int 0]) (xs := none) hf' ht (by simp [Tok.Ok]) (fun l h => by cases h)
  exact implBody_ok (total_ok ht) valueId_ok (by simp [h1, Tok.Ok]) h2

theorem structWith_ok {name : List Char} {fields : List (Option (List Char) × Nat)} (hn : isIdent name = true) (hf : ∀ f ∈ fields, ∀ x, f.1 = some x → isIdent x = true) :
    AllOk (generateStructWithFields name fields) := by
  unfold generateStructWithFields
  split
  · exact implBody_ok (by simp [Tok.Ok]) (by decide) (by simp [Tok.Ok, hn]) (by simp [Tok.Ok])
  · refine structMany_ok ?_ ?_
    · intro f hm
      obtain ⟨⟨⟨n, t⟩, i⟩, hg, rfl⟩ := List.mem_map.mp hm
      dsimp only
      cases n with
      | some x => exact Or.inl ⟨x, rfl, hf (some x, t) (by simpa using (List.mem_zipIdx hg).2.2 ▸ List.getElem_mem _) x rfl⟩
      | none => exact Or.inr ⟨i, rfl⟩
    · intro a hm
      obtain ⟨g, hg, rfl⟩ := List.mem_map.mp hm
      simp [Tok.Ok]

theorem derive_ok {d : Input} (hd : ∀ s ∈ d.names, isIdent s = true) {ts : Toks} (hts : derive d = some ts) : AllOk ts := by
  cases d with
  | union => cases hts
  | struct name fields =>
    have hts : generateStructCode name fields = ts := Option.some.inj hts
    subst hts
    have hn : isIdent name = true := hd name (by simp [Input.names])
    have hf : ∀ s ∈ fields.names, isIdent s = true := fun s hs => hd s (by simp [Input.names, hs])
    cases fields with
    | unit => exact implBody_ok (by simp [Tok.Ok]) (by decide) (by simp [Tok.Ok, hn]) (by simp [Tok.Ok])
    | named fs =>
      refine structWith_ok hn fun f hm x hx => ?_
      obtain ⟨g, hg, rfl⟩ := List.mem_map.mp hm
      cases hx
      exact hf _ (List.mem_map.mpr ⟨g, hg, rfl⟩)
    | unnamed ts =>
      refine structWith_ok hn fun f hm x hx => ?_
      obtain ⟨g, hg, rfl⟩ := List.mem_map.mp hm
      cases hx
  | enum name vs =>
    have hn : isIdent name = true := hd name (by simp [Input.names])
    have hv : ∀ v ∈ vs, isIdent v.ident = true ∧ ∀ s ∈ v.fields.names, isIdent s = true := fun v hv =>
      ⟨hd _ (List.mem_cons_of_mem _ (List.mem_flatMap.mpr ⟨v, hv, by simp⟩)), fun s hs => hd _ (List.mem_cons_of_mem _ (List.mem_flatMap.mpr ⟨v, hv, by simp [hs]⟩))⟩
    have hts : generateEnumCode name vs = some ts := hts
    unfold generateEnumCode at hts
    split at hts
    · cases hts
      refine implBody_ok (by simp [Tok.Ok]) valueId_ok ?_ ?_
      · have : AllOk (((List.range vs.length).zip (vs.map fun v => v.ident)).map fun (k, v) => [Tok.int k, .fatArrow, .id name, .coloncolon, .id v, .comma]).flatten := by
          rw [allOk_flatten]
          intro a ha
          obtain ⟨⟨k, v⟩, hm, rfl⟩ := List.mem_map.mp ha
          obtain ⟨w, hw, hwv⟩ := List.mem_map.mp (List.of_mem_zip hm).2
          have : isIdent v = true := hwv ▸ (hv w hw).1
          simp [Tok.Ok, hn, this]
        simp only [allOk_append, allOk_cons, allOk_nil, and_true]
        exact ⟨⟨⟨trivial, valueId_ok, trivial⟩, this⟩, trivial, trivial, trivial, trivial⟩
      · have : AllOk (((List.range vs.length).zip (vs.map fun v => v.ident)).map fun (k, v) => [Tok.id name, .coloncolon, .id v, .fatArrow, .int k, .comma]).flatten := by
          rw [allOk_flatten]
          intro a ha
          obtain ⟨⟨k, v⟩, hm, rfl⟩ := List.mem_map.mp ha
          obtain ⟨w, hw, hwv⟩ := List.mem_map.mp (List.of_mem_zip hm).2
          have : isIdent v = true := hwv ▸ (hv w hw).1
          simp [Tok.Ok, hn, this]
        simp only [allOk_append, allOk_cons, allOk_nil, and_true]
        exact ⟨⟨⟨trivial, trivial, trivial⟩, this⟩, trivial⟩
    · unfold generateRustyEnumCode at hts
      rcases hl : allVariantsOf vs with _ | l
      · rw [hl] at hts; cases hts
      · rw [hl] at hts
        cases hts
        have hl := allVariants_ok hv hl
        refine implBody_ok ?_ valueId_ok ?_ ?_
        · rw [allOk_append, allOk_flatten]
          refine ⟨fun a ha => ?_, by simp [Tok.Ok]⟩
          obtain ⟨b, hb, rfl⟩ := List.mem_map.mp ha
          obtain ⟨m, hm, rfl⟩ := List.mem_map.mp hb
          simp [(hl m hm).num, Tok.Ok]
        · have : AllOk (l.map fun e => e.printFromDiscr name).flatten := by
            rw [allOk_flatten]
            intro a ha
            obtain ⟨m, hm, rfl⟩ := List.mem_map.mp ha
            exact (hl m hm).from hn
          simp only [allOk_append, allOk_cons, allOk_nil, and_true]
          exact ⟨⟨⟨trivial, valueId_ok, trivial⟩, this⟩, trivial, trivial, trivial, trivial⟩
        · have : AllOk (l.map fun e => e.printToDiscr name).flatten := by
            rw [allOk_flatten]
            intro a ha
            obtain ⟨m, hm, rfl⟩ := List.mem_map.mp ha
            exact (hl m hm).to hn
          simp only [allOk_append, allOk_cons, allOk_nil, and_true]
          exact ⟨⟨⟨trivial, trivial, trivial⟩, this⟩, trivial⟩

end Macro
end EnumVecModel
