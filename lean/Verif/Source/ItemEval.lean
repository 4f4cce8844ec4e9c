import Verif.Source.MacroEngine
import Verif.MacroRules

/-!
# What the printed impls mean

A meaning for the text of `unsafe impl<…> EnumLike for (…) { … }` and `unsafe impl<…> EnumLike for [A; n] { … }`, as token trees: the fragment of Rust in the bodies of `tuple_impls!` and `array_impls!`
(enum_like/src/lib.rs:265-277, 365-381). It knows tuples, projections, `let`, `mem::replace`, and calls of `EnumLike`; the impl of a tuple type is looked up from those of its components. What is not in the
fragment, or not well typed, is `illTyped`.
-/

namespace EnumVecModel
namespace Source
namespace Mac
open EnumLike (Mach)
open EnumLike.Rules (Val illTyped moveOut)

variable {β : Type}

/-- The parts between commas, outside of delimiters; a comma at the end is allowed. -/
def pieces : TTs → List TTs
  | .nil => []
  | .tok t r =>
    if t = .p [','] then .nil :: pieces r
    else match pieces r with
      | [] => [.tok t .nil]
      | p :: ps => .tok t p :: ps
  | .grp d i r =>
    match pieces r with
    | [] => [.grp d i .nil]
    | p :: ps => .grp d i p :: ps

/-- There is a comma outside of delimiters. -/
def hasComma : TTs → Bool
  | .nil => false
  | .tok t r => t = .p [','] || hasComma r
  | .grp _ _ r => hasComma r

/-- What is in the parentheses of a tuple: nothing, or something with a comma. -/
def isTuple (i : TTs) : Bool := i = .nil || hasComma i

/-- What a body can refer to. -/
structure Scope (β : Type) where
  build : Build
  /-- `mem::uninitialized()` does not panic -/
  uninit : Bool
  /-- the impls of the type parameters -/
  params : Word → Option (Mach (Val β))
  /-- the impl of a tuple type, from those of its components -/
  tuple : List (Mach (Val β)) → Option (Mach (Val β))

/-- The impl of a type: a parameter, or a tuple. The number bounds the depth. -/
def tyImpl (Γ : Scope β) : Nat → TTs → Option (Mach (Val β))
  | 0, _ => none
  | _ + 1, .tok (.id w) .nil => Γ.params w
  | n + 1, .grp .paren i .nil => if isTuple i then (pieces i).mapM (tyImpl Γ n) >>= Γ.tuple else tyImpl Γ n i
  | _, _ => none

/-- What is known of the type of a value: its impl, or those of its components. -/
inductive Known (β : Type)
  | nothing
  | impl (m : Mach (Val β))
  | tuple (ms : List (Mach (Val β)))

/-- The impl of a type. -/
def Known.find (Γ : Scope β) : Known β → Option (Mach (Val β))
  | .nothing => none
  | .impl m => some m
  | .tuple ms => Γ.tuple ms

/-- The type of `v.k`. -/
def Known.proj : Known β → Nat → Known β
  | .tuple ms, k =>
    match ms[k]? with
    | some m => .impl m
    | none => .nothing
  | _, _ => .nothing

/-- The type of a tuple. -/
def Known.tupleOf (Γ : Scope β) (ks : List (Known β)) : Known β :=
  match ks.mapM (Known.find Γ) with
  | some ms => .tuple ms
  | none => .nothing

/-- `.0.1 …` -/
def projs : TTs → Val β × Known β → Except Fault (Val β × Known β)
  | .nil, v => .ok v
  | .tok (.p ['.']) (.tok (.num k) r), (.tup vs, ty) =>
    match vs[k]? with
    | some v => projs r (v, ty.proj k)
    | none => illTyped
  | _, _ => illTyped

/-- The parts one after the other. -/
def each' (f : TTs → List (Option (Val β)) → Except Fault ((Val β × Known β) × List (Option (Val β)))) :
    List TTs → List (Option (Val β)) → Except Fault (List (Val β × Known β) × List (Option (Val β)))
  | [], cells => .ok ([], cells)
  | t :: ts, cells => do
    let (v, cells) ← f t cells
    let (vs, cells) ← each' f ts cells
    return (v :: vs, cells)

/-- Variables, and their types. -/
abbrev Vars (β : Type) := List (Word × (Val β × Known β))

/-- An expression: `v`, `e.k`, `(a, b)`, `[a, b]`, `mem::replace(&mut self[a - b - c], mem::uninitialized())`. The cells are those of the array `self`, whose elements have the impl `elem`;
the number bounds the depth. -/
def expr (Γ : Scope β) (elem : Known β) (vars : Vars β) : Nat → TTs → List (Option (Val β)) → Except Fault ((Val β × Known β) × List (Option (Val β)))
  | 0, _, _ => illTyped
  | _ + 1, .tok (.id m) (.tok (.p [':', ':']) (.tok (.id f) (.grp .paren (.tok (.p ['&']) (.tok (.id mu) (.tok (.id s) (.grp .bracket
      (.tok (.num a) (.tok (.p ['-']) (.tok (.num b) (.tok (.p ['-']) (.tok (.num c) .nil))))) rest)))) .nil))), cells =>
    if m = word% "mem" ∧ f = word% "replace" ∧ mu = word% "mut" ∧ s = word% "self" ∧ rest = tts% ", mem::uninitialized()" then do
      let i ← uSub Γ.build.const (← uSub Γ.build.const a b) c
      let (v, cells) ← moveOut Γ.uninit cells i
      return ((v, elem), cells)
    else illTyped
  | _ + 1, .tok (.id x) r, cells =>
    match vars.lookup x with
    | some v => do return (← projs r v, cells)
    | none => illTyped
  | n + 1, .grp .paren i r, cells =>
    if isTuple i then do
      let (vs, cells) ← each' (expr Γ elem vars n) (pieces i) cells
      return (← projs r (.tup (vs.map (·.1)), Known.tupleOf Γ (vs.map (·.2))), cells)
    else do
      let (v, cells) ← expr Γ elem vars n i cells
      return (← projs r v, cells)
  | n + 1, .grp .bracket i .nil, cells => do
    let (vs, cells) ← each' (expr Γ elem vars n) (pieces i) cells
    return ((.arr (vs.map (·.1)), .nothing), cells)
  | _, _, _ => illTyped

/-- The body of `to_discr`: `e.to_discr()`, in `unsafe { … }`, after `use std::mem;`. -/
def bodyTo (Γ : Scope β) (elem : Known β) (vars : Vars β) (cells : List (Option (Val β))) : Nat → TTs → Except Fault Nat
  | 0, _ => illTyped
  | n + 1, .tok (.id u) (.tok (.id s) (.tok (.p [':', ':']) (.tok (.id m) (.tok (.p [';']) r)))) =>
    if u = word% "use" ∧ s = word% "std" ∧ m = word% "mem" then bodyTo Γ elem vars cells n r else illTyped
  | n + 1, .tok (.id u) (.grp .brace b .nil) => if u = word% "unsafe" then bodyTo Γ elem vars cells n b else illTyped
  | n + 1, .grp .paren i (.tok (.p ['.']) (.tok (.id f) (.grp .paren .nil .nil))) =>
    if f = word% "to_discr" then do
      let ((v, ty), _) ← expr Γ elem vars n (.grp .paren i .nil) cells
      match ty.find Γ with
      | some m => m.toDiscr v
      | none => illTyped
    else illTyped
  | _, _ => illTyped

/-- The body of `from_discr`: `let v = <T>::from_discr(x); e`. -/
def bodyFrom (Γ : Scope β) (x : Nat) : TTs → Except Fault (Val β)
  | .tok (.id l) (.tok (.id a) (.tok (.p ['=']) (.tok (.p ['<']) (.grp .paren ty (.tok (.p ['>']) (.tok (.p [':', ':']) (.tok (.id f) (.grp .paren arg (.tok (.p [';']) e))))))))) =>
    if l = word% "let" ∧ f = word% "from_discr" ∧ arg = tts% "x" then
      match tyImpl Γ 5 (.grp .paren ty .nil) with
      | some m => do
        let v ← m.fromDiscr x
        let ((v, _), _) ← expr Γ .nothing [(a, (v, .nothing))] 5 e []
        return v
      | none => illTyped
    else illTyped
  | _ => illTyped

/-- Skip to the first `>` and past it. -/
def afterGt : TTs → TTs
  | .nil => .nil
  | .tok t r => if t = .p ['>'] then r else afterGt r
  | .grp _ _ r => afterGt r

/-- The items in the braces of an impl: the type in `<T>::NUM_VARIANTS`, the parameter list of `to_discr` and the bodies. -/
structure Items where
  num : TTs
  self_ : TTs
  to : TTs
  from_ : TTs

/-- `const NUM_VARIANTS: usize = <T>::NUM_VARIANTS; fn to_discr(…) -> usize { … } fn from_discr(x: usize) -> Self { … }` -/
def readItems : TTs → Option Items
  | .tok (.id c) (.tok (.id n) (.tok (.p [':']) (.tok (.id u) (.tok (.p ['=']) (.tok (.p ['<']) (.grp .paren ty (.tok (.p ['>']) (.tok (.p [':', ':']) (.tok (.id n') (.tok (.p [';'])
    (.tok (.id f) (.tok (.id t) (.grp .paren s (.tok (.p ['-', '>']) (.tok (.id u') (.grp .brace to
    (.tok (.id f') (.tok (.id fr) (.grp .paren arg (.tok (.p ['-', '>']) (.tok (.id s') (.grp .brace from_ .nil)))))))))))))))))))))) =>
    if c = word% "const" ∧ n = word% "NUM_VARIANTS" ∧ u = word% "usize" ∧ n' = word% "NUM_VARIANTS" ∧ f = word% "fn" ∧ t = word% "to_discr" ∧ u' = word% "usize" ∧ f' = word% "fn" ∧
        fr = word% "from_discr" ∧ arg = tts% "x: usize" ∧ s' = word% "Self" then some ⟨.grp .paren ty .nil, s, to, from_⟩
    else none
  | _ => none

/-- `<T>::NUM_VARIANTS` -/
def numOf (Γ : Scope β) (ty : TTs) : Except Fault Nat :=
  match tyImpl Γ 5 ty with
  | some m => m.num
  | none => illTyped

/-- The parameter that a part of the type of the impl is. -/
def paramName : TTs → Option Word
  | .tok (.id w) .nil => some w
  | _ => none

/-- The impl of a tuple type by its text, given those of the components. -/
def textTuple (build : Build) (tuple : List (Mach (Val β)) → Option (Mach (Val β))) (item : TTs) (Ts : List (Mach (Val β))) : Option (Mach (Val β)) :=
  match afterGt item with
  | .tok (.id e) (.tok (.id f) (.grp .paren self_ (.grp .brace b .nil))) =>
    if e = word% "EnumLike" ∧ f = word% "for" then
      match (pieces self_).mapM paramName, readItems b with
      | some names, some its =>
        if names.length = Ts.length ∧ its.self_ = tts% "self" then
          let Γ : Scope β := ⟨build, true, fun w => Ts[names.idxOf w]?, tuple⟩
          some {
            num := numOf Γ its.num
            toDiscr := fun v => bodyTo Γ .nothing [(word% "self", (v, .tuple Ts))] [] 5 its.to
            fromDiscr := fun x => bodyFrom Γ x its.from_ }
        else none
      | _, _ => none
    else none
  | _ => none

/-- The impl of an array type by its text, given that of the elements. -/
def textArray (build : Build) (uninit : Bool) (tuple : List (Mach (Val β)) → Option (Mach (Val β))) (item : TTs) (n : Nat) (T : Mach (Val β)) : Option (Mach (Val β)) :=
  match afterGt item with
  | .tok (.id e) (.tok (.id f) (.grp .bracket (.tok (.id A) (.tok (.p [';']) (.tok (.num n') .nil))) (.grp .brace b .nil))) =>
    if e = word% "EnumLike" ∧ f = word% "for" ∧ n = n' then
      match readItems b with
      | some its =>
        if its.self_ = tts% "mut self" then
          let Γ : Scope β := ⟨build, uninit, fun w => if w = A then some T else none, tuple⟩
          some {
            num := numOf Γ its.num
            toDiscr := fun v => match v with
              | .arr vs => bodyTo Γ (.impl T) [] (vs.map some) 5 its.to
              | _ => illTyped
            fromDiscr := fun x => bodyFrom Γ x its.from_ }
        else none
      | none => none
    else none
  | _ => none

end Mac
end Source
end EnumVecModel
