import Verif.Source.RestText
import Verif.Source.Program
import Verif.Debug

/-!
# Running the rest of the text

`Debug`, `Into<Vec>`, `storage()`, `storage_mut()`. A formatter is any state machine that takes the entries one by one (`EV.DebugList`).
-/

namespace EnumVecModel
namespace Source

set_option linter.constructorNameAsVariable false

variable {α τ : Type} {c : Inst α}

/-- `DebugList::entries` (std): one entry for each item of the iterator, at most this many rounds. -/
def feedAll (next : Heap τ W → Ret α τ W) (f : EV.Closure τ α Unit) : Nat → Heap τ W → Ret α τ W
  | 0, _ => .stuck
  | n + 1, h =>
    match next h with
    | .val .none h => .val .fmtr h
    | .val (.some (.elem x)) h =>
      match f x h.world with
      | (Option.some _, t) => feedAll next f n (h.withWorld t)
      | (Option.none, t) => .fault .user (h.withWorld t)
    | .fault e h => .fault e h
    | _ => .stuck

/-- The methods of the formatter, and those of the text. -/
def fmtMeth (c : Inst α) (B : EV.DebugList τ α) (f : Sym) (args : List (Val α c.W)) (h : Heap τ c.W) : Ret α τ c.W :=
  match f, args with
  | .debug_list, .fmtr :: _ => .val .fmtr (h.withWorld (B.start h.world))
  | .entries, [.fmtr, .iter, _] => feedAll (fun h => textCall c noUser .next [.iter, .unit, .unit] h) B.entry c.build.usizeLim h
  -- `true` is `Ok(())`
  | .finish, .fmtr :: _ => .val (.bool (B.finish h.world).1) (h.withWorld (B.finish h.world).2)
  | f, args => textCall c noUser f args h

/-- Run a function of `RestText.lean` on a vector. -/
def restCall (c : Inst α) (B : EV.DebugList τ α) (fn : Fn) (v : Val α c.W) (h : Heap τ c.W) : Ret α τ c.W :=
  (eval c c.build.usizeLim (fmtMeth c B) fn.body (noUser (c := c)).fns ⟨fn.params.zip [.vec .a, v], h⟩).finish

/-- `fmt`: what it returns, or the panic, and what the formatter has become. -/
def textFmt (c : Inst α) (B : EV.DebugList τ α) (s : EV c.W) (w : τ) : Option (Except Fault Bool × τ) :=
  match restCall c B f_fmt .fmtr (heapOf s (EV.new c) w) with
  | .val (.bool b) h => Option.some (.ok b, h.world)
  | .fault e h => Option.some (.error e, h.world)
  | _ => Option.none

/-- No formatter. -/
def noFmt : EV.DebugList τ α := ⟨id, fun _ t => (Option.none, t), fun t => (false, t)⟩

/-- `into`: the `Vec`, or the panic. -/
def textInto (c : Inst α) (s : EV c.W) : Option (Except Fault (List α)) :=
  match restCall c noFmt f_into .unit (heapOf s (EV.new c) ()) with
  | .val (.slice xs) _ => Option.some (.ok xs)
  | .fault e _ => Option.some (.error e)
  | _ => Option.none

end Source
end EnumVecModel
