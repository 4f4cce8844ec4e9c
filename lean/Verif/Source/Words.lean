import Lean.Elab.Command

/-!
# The words of the source text

The words and punctuation marks that occur in the methods of `EnumVec` (`enum_vec/src/vec_u32/mod.rs`), and the lexer.
-/

namespace EnumVecModel
namespace Source

/-- A word or a punctuation mark. -/
inductive Sym
  -- keywords
  | k_as | k_else | k_false | k_fn | k_for | k_if | k_in | k_let | k_mut | k_pub | k_return | k_true | k_unsafe | k_where | k_while
  -- names
  | BITS_PER_ELEM | Default | ELEMENT_MASK | ELEMS_PER_BLOCK | EnumVec | EnumVecIter | F | FnMut | H | Hasher | I | IntoIterator | Item | None
  | Option | PhantomData | STORAGE_BLOCK_SIZE | Self | Some | Storage | StorageBlock | T | Vec | a | additional | all | any | append | assert | «at»
  | at_zero | b | block | block_index | block_limit | block_value | blocks_for_elements | bool | capacity | checked_add | clear | cloned | cmp
  | count | count_blocks | count_end | d | default | desired_cap | discr | elem | element | end_bit_offset | eq | expect | extend | extend_from_slice
  | extend_with_value | f | fix_storage | for_each | from_discr | from_elem | from_iter | from_slice | get | get_raw | get_raw_unchecked
  | get_unchecked | get_unchecked_mut | grow_if_needed | hash | haszero | high_mask | i | i_get | i_set | ia | ib | idx | idx_b | idx_w | index
  | insert | into_iter | is_empty | iter | iter_len | l | last | last_bit_offset | last_block | last_block_mask | last_elem_shift | last_ib | len
  | length | map | min | n | new | new_len | next | num_elements | num_variants_p2 | old_len | one_mask | other | other_len | panic | phantom | pop
  | prev | push | remove | repeat | reserve | resize | retain | rev | saturating_add | saturating_mul | «self» | self_len | set | set_len | set_raw
  | set_raw_unchecked | shift_storage | shrink_to_fit | size_hint | slow_insert | slow_limit | split_off | state | storage | storage_len | swap
  | swap_remove | take | to_discr | to_insert_first | to_insert_last | to_insert_mid | to_vec | truncate | unwrap | usize | v | valid_mask | value
  | with_capacity | wrapping_sub | x | x_mask
  | EnumVecIntoIter | IntoIter | from | next_back | nth | range
  | k_const | k_type | NUM_VARIANTS | ERROR_TOO_MANY_VARIANTS | ERROR_ZERO_SIZED | u8 | u16 | u32 | u64 | u128
  | k_impl | k_match | k_struct | k_trait | EnumLike | Err | Iterator | Ok | PackedU8 | PackedU16 | CHECK_LIMIT_VARIANTS | Result | S | Values | always | current | inline | max | «of»
  | remaining_elements | values | wrapping_div | wrapping_rem | _x | _p | _phantom | EnumValues | Sized
  | BitSet | E | EnumSet | Extend | FromIterator | Iter | WrapIter | Union | Intersection | Difference | SymmetricDifference | Debug | Formatter | Target | bit_set | fmt | inner | into_bit_set | get_ref | from_bit_set
  | union | intersection | difference | symmetric_difference | union_with | intersect_with | difference_with | symmetric_difference_with | contains | is_disjoint | is_subset | is_superset | debug_set | entries | finish | ret
  | debug_list | into | storage_mut
  | wild
  -- punctuation
  | p_lpar | p_rpar | p_lbrace | p_rbrace | p_lbrack | p_rbrack | p_comma | p_semi | p_colon | p_colons | p_dot | p_dots | p_arrow | p_assign
  | p_addEq | p_subEq | p_mulEq | p_andEq | p_orEq | p_shlEq | p_shrEq | p_plus | p_minus | p_star | p_slash | p_percent | p_amp | p_bar | p_caret
  | p_bang | p_lt | p_gt | p_le | p_ge | p_eqeq | p_neq | p_andand | p_oror | p_shl | p_shr | p_hash | p_fat
  deriving DecidableEq, Repr, Lean.ToExpr

/-- A string as a number, in base 256: this is how words are compared (numbers are cheap for the kernel). -/
def code (cs : List Char) : Nat := cs.foldl (fun n c => n * 256 + c.toNat) 0

/-- The number of a literal. -/
elab "code% " s:str : term => return Lean.mkRawNatLit (code s.getString.toList)

/-- The words. -/
def words : List (Nat × Sym) := [
  (code% "as", .k_as), (code% "else", .k_else), (code% "false", .k_false), (code% "fn", .k_fn), (code% "for", .k_for), (code% "if", .k_if),
  (code% "in", .k_in), (code% "let", .k_let), (code% "mut", .k_mut), (code% "pub", .k_pub), (code% "return", .k_return), (code% "true", .k_true),
  (code% "unsafe", .k_unsafe), (code% "where", .k_where), (code% "while", .k_while), (code% "BITS_PER_ELEM", .BITS_PER_ELEM),
  (code% "Default", .Default), (code% "ELEMENT_MASK", .ELEMENT_MASK), (code% "ELEMS_PER_BLOCK", .ELEMS_PER_BLOCK), (code% "EnumVec", .EnumVec),
  (code% "EnumVecIter", .EnumVecIter), (code% "F", .F), (code% "FnMut", .FnMut), (code% "H", .H), (code% "Hasher", .Hasher), (code% "I", .I),
  (code% "IntoIterator", .IntoIterator), (code% "Item", .Item), (code% "None", .None), (code% "Option", .Option),
  (code% "PhantomData", .PhantomData), (code% "STORAGE_BLOCK_SIZE", .STORAGE_BLOCK_SIZE), (code% "Self", .Self), (code% "Some", .Some),
  (code% "Storage", .Storage), (code% "StorageBlock", .StorageBlock), (code% "T", .T), (code% "Vec", .Vec), (code% "a", .a),
  (code% "additional", .additional), (code% "all", .all), (code% "any", .any), (code% "append", .append), (code% "assert", .assert),
  (code% "at", .«at»), (code% "at_zero", .at_zero), (code% "b", .b), (code% "block", .block), (code% "block_index", .block_index),
  (code% "block_limit", .block_limit), (code% "block_value", .block_value), (code% "blocks_for_elements", .blocks_for_elements),
  (code% "bool", .bool), (code% "capacity", .capacity), (code% "checked_add", .checked_add), (code% "clear", .clear), (code% "cloned", .cloned),
  (code% "cmp", .cmp), (code% "count", .count), (code% "count_blocks", .count_blocks), (code% "count_end", .count_end), (code% "d", .d),
  (code% "default", .default), (code% "desired_cap", .desired_cap), (code% "discr", .discr), (code% "elem", .elem), (code% "element", .element),
  (code% "end_bit_offset", .end_bit_offset), (code% "eq", .eq), (code% "expect", .expect), (code% "extend", .extend),
  (code% "extend_from_slice", .extend_from_slice), (code% "extend_with_value", .extend_with_value), (code% "f", .f),
  (code% "fix_storage", .fix_storage), (code% "for_each", .for_each), (code% "from_discr", .from_discr), (code% "from_elem", .from_elem),
  (code% "from_iter", .from_iter), (code% "from_slice", .from_slice), (code% "get", .get), (code% "get_raw", .get_raw),
  (code% "get_raw_unchecked", .get_raw_unchecked), (code% "get_unchecked", .get_unchecked), (code% "get_unchecked_mut", .get_unchecked_mut),
  (code% "grow_if_needed", .grow_if_needed), (code% "hash", .hash), (code% "haszero", .haszero), (code% "high_mask", .high_mask), (code% "i", .i),
  (code% "i_get", .i_get), (code% "i_set", .i_set), (code% "ia", .ia), (code% "ib", .ib), (code% "idx", .idx), (code% "idx_b", .idx_b),
  (code% "idx_w", .idx_w), (code% "index", .index), (code% "insert", .insert), (code% "into_iter", .into_iter), (code% "is_empty", .is_empty),
  (code% "iter", .iter), (code% "iter_len", .iter_len), (code% "l", .l), (code% "last", .last), (code% "last_bit_offset", .last_bit_offset),
  (code% "last_block", .last_block), (code% "last_block_mask", .last_block_mask), (code% "last_elem_shift", .last_elem_shift),
  (code% "last_ib", .last_ib), (code% "len", .len), (code% "length", .length), (code% "map", .map), (code% "min", .min), (code% "n", .n),
  (code% "new", .new), (code% "new_len", .new_len), (code% "next", .next), (code% "num_elements", .num_elements),
  (code% "num_variants_p2", .num_variants_p2), (code% "old_len", .old_len), (code% "one_mask", .one_mask), (code% "other", .other),
  (code% "other_len", .other_len), (code% "panic", .panic), (code% "phantom", .phantom), (code% "pop", .pop), (code% "prev", .prev),
  (code% "push", .push), (code% "remove", .remove), (code% "repeat", .repeat), (code% "reserve", .reserve), (code% "resize", .resize),
  (code% "retain", .retain), (code% "rev", .rev), (code% "saturating_add", .saturating_add), (code% "saturating_mul", .saturating_mul),
  (code% "self", .«self»), (code% "self_len", .self_len), (code% "set", .set), (code% "set_len", .set_len), (code% "set_raw", .set_raw),
  (code% "set_raw_unchecked", .set_raw_unchecked), (code% "shift_storage", .shift_storage), (code% "shrink_to_fit", .shrink_to_fit),
  (code% "size_hint", .size_hint), (code% "slow_insert", .slow_insert), (code% "slow_limit", .slow_limit), (code% "split_off", .split_off),
  (code% "state", .state), (code% "storage", .storage), (code% "storage_len", .storage_len), (code% "swap", .swap),
  (code% "swap_remove", .swap_remove), (code% "take", .take), (code% "to_discr", .to_discr), (code% "to_insert_first", .to_insert_first),
  (code% "to_insert_last", .to_insert_last), (code% "to_insert_mid", .to_insert_mid), (code% "to_vec", .to_vec), (code% "truncate", .truncate),
  (code% "unwrap", .unwrap), (code% "usize", .usize), (code% "v", .v), (code% "valid_mask", .valid_mask), (code% "value", .value),
  (code% "with_capacity", .with_capacity), (code% "wrapping_sub", .wrapping_sub), (code% "x", .x), (code% "x_mask", .x_mask), (code% "EnumVecIntoIter", .EnumVecIntoIter), (code% "IntoIter", .IntoIter), (code% "from", .from), (code% "next_back", .next_back), (code% "nth", .nth), (code% "range", .range),
  (code% "const", .k_const), (code% "type", .k_type), (code% "NUM_VARIANTS", .NUM_VARIANTS), (code% "ERROR_TOO_MANY_VARIANTS", .ERROR_TOO_MANY_VARIANTS),
  (code% "ERROR_ZERO_SIZED", .ERROR_ZERO_SIZED), (code% "u8", .u8), (code% "u16", .u16), (code% "u32", .u32), (code% "u64", .u64), (code% "u128", .u128),
  (code% "impl", .k_impl), (code% "match", .k_match), (code% "struct", .k_struct), (code% "trait", .k_trait), (code% "EnumLike", .EnumLike), (code% "Err", .Err),
  (code% "Iterator", .Iterator), (code% "Ok", .Ok), (code% "PackedU8", .PackedU8), (code% "PackedU16", .PackedU16), (code% "CHECK_LIMIT_VARIANTS", .CHECK_LIMIT_VARIANTS),
  (code% "Result", .Result), (code% "S", .S), (code% "Values", .Values), (code% "always", .always), (code% "current", .current), (code% "inline", .inline), (code% "max", .max),
  (code% "of", .of), (code% "remaining_elements", .remaining_elements), (code% "values", .values), (code% "wrapping_div", .wrapping_div),
  (code% "wrapping_rem", .wrapping_rem), (code% "_x", ._x), (code% "_p", ._p), (code% "_phantom", ._phantom), (code% "EnumValues", .EnumValues), (code% "Sized", .Sized),
  (code% "BitSet", .BitSet), (code% "E", .E), (code% "EnumSet", .EnumSet), (code% "Extend", .Extend), (code% "FromIterator", .FromIterator),
  (code% "Iter", .Iter), (code% "WrapIter", .WrapIter), (code% "Union", .Union), (code% "Intersection", .Intersection),
  (code% "Difference", .Difference), (code% "SymmetricDifference", .SymmetricDifference), (code% "Debug", .Debug), (code% "Formatter", .Formatter),
  (code% "Target", .Target), (code% "bit_set", .bit_set), (code% "fmt", .fmt), (code% "inner", .inner), (code% "into_bit_set", .into_bit_set),
  (code% "get_ref", .get_ref), (code% "from_bit_set", .from_bit_set), (code% "union", .union), (code% "intersection", .intersection),
  (code% "difference", .difference), (code% "symmetric_difference", .symmetric_difference), (code% "union_with", .union_with),
  (code% "intersect_with", .intersect_with), (code% "difference_with", .difference_with),
  (code% "symmetric_difference_with", .symmetric_difference_with), (code% "contains", .contains), (code% "is_disjoint", .is_disjoint),
  (code% "is_subset", .is_subset), (code% "is_superset", .is_superset), (code% "debug_set", .debug_set), (code% "entries", .entries),
  (code% "finish", .finish), (code% "ret", .ret),
  (code% "debug_list", .debug_list), (code% "into", .into), (code% "storage_mut", .storage_mut),
  (code% "_", .wild)]

/-- The punctuation marks. -/
def marks : List (Nat × Sym) := [
  (code% "(", .p_lpar), (code% ")", .p_rpar), (code% "{", .p_lbrace), (code% "}", .p_rbrace), (code% "[", .p_lbrack), (code% "]", .p_rbrack),
  (code% ",", .p_comma), (code% ";", .p_semi), (code% ":", .p_colon), (code% "::", .p_colons), (code% ".", .p_dot), (code% "..", .p_dots),
  (code% "->", .p_arrow), (code% "=", .p_assign), (code% "+=", .p_addEq), (code% "-=", .p_subEq), (code% "*=", .p_mulEq), (code% "&=", .p_andEq),
  (code% "|=", .p_orEq), (code% "<<=", .p_shlEq), (code% ">>=", .p_shrEq), (code% "+", .p_plus), (code% "-", .p_minus), (code% "*", .p_star),
  (code% "/", .p_slash), (code% "%", .p_percent), (code% "&", .p_amp), (code% "|", .p_bar), (code% "^", .p_caret), (code% "!", .p_bang),
  (code% "<", .p_lt), (code% ">", .p_gt), (code% "<=", .p_le), (code% ">=", .p_ge), (code% "==", .p_eqeq), (code% "!=", .p_neq),
  (code% "&&", .p_andand), (code% "||", .p_oror), (code% "<<", .p_shl), (code% ">>", .p_shr),
  (code% "#", .p_hash), (code% "=>", .p_fat)]

/-- Look up a number in a table. -/
def find (n : Nat) : List (Nat × Sym) → Option Sym
  | [] => none
  | (m, s) :: r => if Nat.beq n m then some s else find n r

/-- Tokens: words and marks, numbers, and string literals (whose contents do not matter here: they are panic messages). -/
inductive Tok
  | t (s : Sym)
  | num (n : Nat)
  | str
  deriving DecidableEq, Repr

/-- Is it a space, a tab or the end of a line? -/
def space (c : Char) : Bool := Nat.beq c.toNat 32 || Nat.beq c.toNat 10 || Nat.beq c.toNat 9

/-- Is it a digit? -/
def digit (c : Char) : Bool := Nat.ble 48 c.toNat && Nat.ble c.toNat 57

/-- Can it be in a word? -/
def letter (c : Char) : Bool :=
  Nat.beq c.toNat 95 || digit c || (Nat.ble 65 c.toNat && Nat.ble c.toNat 90) || (Nat.ble 97 c.toNat && Nat.ble c.toNat 122)

/-- Skip a comment `/* … */`. -/
def skipComment : List Char → List Char
  | '*' :: '/' :: r => r
  | _ :: r => skipComment r
  | [] => []

/-- The punctuation mark at the beginning, the longest one. -/
def mark (cs : List Char) : Option (Sym × List Char) :=
  match find (code (cs.take 3)) marks with
  | some s => some (s, cs.drop 3)
  | none =>
    match find (code (cs.take 2)) marks with
    | some s => some (s, cs.drop 2)
    | none => (find (code (cs.take 1)) marks).map fun s => (s, cs.drop 1)

/-- The lexer: comments, white space and lifetimes (`'a`) are skipped. The number bounds the number of steps. -/
def lex : Nat → List Char → Option (List Tok)
  | _, [] => some []
  | 0, _ => none
  | n + 1, c :: r =>
    match c, r with
    | '/', '/' :: r => lex n (r.dropWhile fun c => !Nat.beq c.toNat 10)
    | '/', '*' :: r => lex n (skipComment r)
    | '"', r => (lex n ((r.dropWhile fun c => !Nat.beq c.toNat 34).drop 1)).map (.str :: ·)
    | '\'', r => lex n (r.dropWhile letter)
    | c, r =>
      if space c then lex n r
      else if digit c then
        (lex n (r.dropWhile digit)).map (.num ((r.takeWhile digit).foldl (fun n c => n * 10 + (c.toNat - 48)) (c.toNat - 48)) :: ·)
      else if letter c then
        match find (code (c :: r.takeWhile letter)) words with
        | some s => (lex n (r.dropWhile letter)).map (.t s :: ·)
        | none => none
      else
        match mark (c :: r) with
        | some (s, r) => (lex n r).map (.t s :: ·)
        | none => none

end Source
end EnumVecModel
