import Verif.Source.ConstEval
import Verif.Lemmas.Inv

/-! # The values of the constants -/

namespace EnumVecModel
namespace Source

set_option linter.constructorNameAsVariable false

def termEx (k : Nat) : Ex := .cast (.bin .gt (.const .NUM_VARIANTS) (.bin .shl (.num 1) (.num k))) .usize

def sumEx : Nat → Ex
  | 0 => termEx 0
  | n + 1 => .bin .add (sumEx n) (termEx (n + 1))

def cnt (N n : Nat) : Nat := ((List.range (n + 1)).map fun k => if N > 2 ^ k then 1 else 0).sum

theorem cnt_succ (N n : Nat) : cnt N (n + 1) = cnt N n + if N > 2 ^ (n + 1) then 1 else 0 := by
  unfold cnt
  rw [List.range_succ, List.map_append, List.sum_append]
  simp

theorem cnt_le (N : Nat) : ∀ n, cnt N n ≤ n + 1
  | 0 => by unfold cnt; simp; split <;> omega
  | n + 1 => by
    have := cnt_le N n
    rw [cnt_succ]; split <;> omega

theorem usize_bits (cs : List Const) (B : Build) : typeBits cs B .usize = Option.some (if B.wide then 64 else 32) := rfl

theorem lim_eq (B : Build) : 2 ^ (if B.wide then 64 else 32) = B.usizeLim := by unfold Build.usizeLim; split <;> rfl

section
variable {cs : List Const} {B : Build} {N : Nat} {Γ : Sym → CRes} (hΓ : Γ .NUM_VARIANTS = Option.some (.ok (.num .usize N)))
include hΓ

theorem eval_term {k : Nat} (hk : k < 32) (t : Option Sym) :
    evalC cs B Γ t (termEx k) = Option.some (.ok (.num .usize (if N > 2 ^ k then 1 else 0))) := by
  have h1 : 1 * 2 ^ k % 2 ^ (if B.wide then 64 else 32) = 2 ^ k := by
    rw [Nat.one_mul, Nat.mod_eq_of_lt]
    exact Nat.pow_lt_pow_right (by decide) (by split <;> omega)
  have h2 : k < (if B.wide then 64 else 32) := by split <;> omega
  have h3 : k < 2 ^ (if B.wide then 64 else 32) := by
    rw [lim_eq]; exact B.lt_usizeLim (by omega)
  have h4 : 1 < 2 ^ (if B.wide then 64 else 32) := by
    rw [lim_eq]; exact B.lt_usizeLim (by omega)
  unfold termEx
  simp only [evalC, typeOf, usize_bits, arith, compare, hΓ, CRes.bind, shiftVal, castC, h1, h2, h3, h4, reduceCtorEq, or_self, or_false, or_true, true_or, false_or, if_true, if_false,
    Option.orElse, Bool.false_eq_true, decide_eq_true_eq, gt_iff_lt]

theorem eval_sum : ∀ n, n < 32 → ∀ t : Option Sym, evalC cs B Γ t (sumEx n) = Option.some (.ok (.num .usize (cnt N n)))
  | 0, _, t => by
    have h := eval_term (cs := cs) (B := B) hΓ (k := 0) (by decide) t
    unfold sumEx cnt
    simpa using h
  | n + 1, hn, t => by
    unfold sumEx
    have h1 : cnt N n + (if N > 2 ^ (n + 1) then 1 else 0) < 2 ^ (if B.wide then 64 else 32) := by
      have := cnt_le N n
      rw [lim_eq]; exact B.lt_usizeLim (by split <;> omega)
    simp only [evalC, arith, reduceCtorEq, or_self, if_true, if_false, eval_sum n (by omega), eval_term hΓ hn, CRes.bind, usize_bits, arithVal, h1, cnt_succ]
end

theorem bits_u8_value : k_bits_u8.value = .bin .add (.bin .add (sumEx 31) (.const .ERROR_TOO_MANY_VARIANTS)) (.const .ERROR_ZERO_SIZED) := by decide
theorem bits_u64_value : k_bits_u64.value = .bin .add (sumEx 31) (.const .ERROR_ZERO_SIZED) := by decide

/-- What is declared in a module with blocks of `W` bits. -/
structure Declares (W : Nat) (cs : List Const) : Prop where
  width : ∀ B, typeBits cs B .StorageBlock = Option.some W
  size : lookup cs .STORAGE_BLOCK_SIZE = Option.some ⟨.STORAGE_BLOCK_SIZE, .usize, .num W⟩
  zero : lookup cs .ERROR_ZERO_SIZED = Option.some ⟨.ERROR_ZERO_SIZED, .usize, .bin .sub (.num 0) (.cast (.bin .le (.const .NUM_VARIANTS) (.num 1)) .usize)⟩
  many : W ≤ 32 → lookup cs .ERROR_TOO_MANY_VARIANTS = Option.some ⟨.ERROR_TOO_MANY_VARIANTS, .usize,
    .bin .sub (.num 0) (.cast (.bin .gt (.cast (.const .NUM_VARIANTS) .u64) (.bin .shl (.num 1) (.const .STORAGE_BLOCK_SIZE))) .usize)⟩
  bits : lookup cs .BITS_PER_ELEM = Option.some ⟨.BITS_PER_ELEM, .usize,
    if W ≤ 32 then .bin .add (.bin .add (sumEx 31) (.const .ERROR_TOO_MANY_VARIANTS)) (.const .ERROR_ZERO_SIZED) else .bin .add (sumEx 31) (.const .ERROR_ZERO_SIZED)⟩
  elems : lookup cs .ELEMS_PER_BLOCK = Option.some ⟨.ELEMS_PER_BLOCK, .usize, .bin .div (.const .STORAGE_BLOCK_SIZE) (.const .BITS_PER_ELEM)⟩
  mask : lookup cs .ELEMENT_MASK = Option.some ⟨.ELEMENT_MASK, .StorageBlock,
    .cast (.bin .sub (.bin .shl (.cast (.num 1) .u64) (.const .BITS_PER_ELEM)) (.num 1)) .StorageBlock⟩
  le : W = 8 ∨ W = 16 ∨ W = 32 ∨ W = 64 ∨ W = 128

theorem modules_declare {W : Nat} {cs : List Const} (h : (W, cs) ∈ modules) : Declares W cs := by
  simp only [modules, List.mem_cons, Prod.mk.injEq, List.not_mem_nil, or_false] at h
  rcases h with h | h | h | h | h | h <;> obtain ⟨rfl, rfl⟩ := h
  all_goals exact ⟨fun B => by cases B with | mk a b => cases a <;> cases b <;> decide, by decide, by decide, by decide, by decide, by decide, by decide, by decide⟩

theorem constOf_succ {cs : List Const} {B : Build} {N : Nat} {x : Sym} {k : Const} (h : lookup cs x = Option.some k) (hx : x ≠ .NUM_VARIANTS) (d : Nat) :
    constOf cs B N (d + 1) x = (evalC cs B (constOf cs B N d) (Option.some k.type) k.value).typed k.type := by
  conv => lhs; unfold constOf
  simp only [hx, if_false, h]

theorem const_num (cs : List Const) (B : Build) (N d : Nat) : constOf cs B N (d + 1) .NUM_VARIANTS = Option.some (.ok (.num .usize N)) := rfl

section
variable {W : Nat} {cs : List Const} (hd : Declares W cs) (B : Build) {N : Nat}
include hd

theorem const_size (d : Nat) : constOf cs B N (d + 1) .STORAGE_BLOCK_SIZE = Option.some (.ok (.num .usize W)) := by
  have h1 : W < 2 ^ (if B.wide then 64 else 32) := by
    rw [lim_eq]; apply B.lt_usizeLim; rcases hd.le with h | h | h | h | h <;> omega
  rw [constOf_succ hd.size (by decide)]
  simp only [evalC, usize_bits, h1, if_true, CRes.typed, CRes.bind]

theorem const_zero (d : Nat) : constOf cs B N (d + 2) .ERROR_ZERO_SIZED = Option.some ((errorZeroSized B N).map (.num .usize)) := by
  have h1 : 1 < 2 ^ (if B.wide then 64 else 32) := by
    rw [lim_eq]; exact B.lt_usizeLim (by omega)
  have h0 : 0 < 2 ^ (if B.wide then 64 else 32) := by omega
  unfold errorZeroSized uSub Build.const
  rw [constOf_succ hd.zero (by decide)]
  by_cases hN : N ≤ 1 <;>
  simp [const_num, evalC, usize_bits, h0, h1, CRes.typed, CRes.bind, typeOf, arith, compare, castC, hN, arithVal, Except.map]

theorem const_many (hW : W ≤ 32) (hN : N < B.usizeLim) (d : Nat) :
    constOf cs B N (d + 2) .ERROR_TOO_MANY_VARIANTS = Option.some ((errorTooManyVariants B W N).map (.num .usize)) := by
  have h1 : 1 < 2 ^ (if B.wide then 64 else 32) := by
    rw [lim_eq]; exact B.lt_usizeLim (by omega)
  have h0 : 0 < 2 ^ (if B.wide then 64 else 32) := by omega
  have h2 : N % 2 ^ 64 = N := Nat.mod_eq_of_lt (by rcases B.usizeLim_cases with h | h <;> omega)
  have h3 : 2 ^ W % 2 ^ 64 = 2 ^ W := Nat.mod_eq_of_lt (Nat.pow_lt_pow_right (by decide) (by omega))
  have h4 : W < 64 := by omega
  have h5 : typeBits cs B .u64 = Option.some 64 := rfl
  have h6 := const_size hd B (N := N) d
  unfold errorTooManyVariants uSub Build.const
  rw [constOf_succ (hd.many hW) (by decide)]
  by_cases hx : 2 ^ W < N <;>
  simp [const_num, evalC, usize_bits, h0, h1, CRes.typed, CRes.bind, typeOf, arith, compare, castC, hx, arithVal, Except.map, h2, h3, h4, h5, shiftVal, h6]

theorem const_bits (hN : N < B.usizeLim) (d : Nat) : constOf cs B N (d + 3) .BITS_PER_ELEM = Option.some ((bitsConst B W N).map (.num .usize)) := by
  have h2 : bitsPerElem N ≤ 32 := cnt_le N 31
  have h3 : ∀ t, evalC cs B (constOf cs B N (d + 2)) t (sumEx 31) = Option.some (.ok (.num .usize (bitsPerElem N))) :=
    eval_sum (const_num cs B N _) 31 (by decide)
  have hz := const_zero hd B (N := N) d
  have hlt : ∀ n, n ≤ 32 → n < 2 ^ (if B.wide then 64 else 32) := fun n hn => by
    rw [lim_eq]; exact B.lt_usizeLim (by omega)
  have hlt' : ∀ n, n ≤ 32 → n < B.const.usizeLim := fun n hn => B.lt_usizeLim (by omega)
  have ez : errorZeroSized B N = if N ≤ 1 then .error .overflow else .ok 0 := by
    unfold errorZeroSized uSub Build.const; by_cases hN : N ≤ 1 <;> simp [hN]
  rw [constOf_succ hd.bits (by decide)]
  generalize sumEx 31 = s at h3 ⊢
  unfold bitsConst
  generalize bitsPerElem N = b at h2 h3 ⊢
  by_cases hW : W ≤ 32
  · have hm := const_many hd B hW hN d
    have em : errorTooManyVariants B W N = if N > 2 ^ W then .error .overflow else .ok 0 := by
      unfold errorTooManyVariants uSub Build.const; by_cases hN : N > 2 ^ W <;> simp [hN]
    simp only [hW, if_true, evalC, arith, reduceCtorEq, or_self, if_false, h3, hz, hm, ez, em]
    have e0 : b + 0 + 0 < 2 ^ (if B.wide then 64 else 32) := hlt (b + 0 + 0) (by omega)
    have e1 : b + 0 < 2 ^ (if B.wide then 64 else 32) := hlt (b + 0) (by omega)
    have e2 : b + 0 < B.const.usizeLim := hlt' (b + 0) (by omega)
    have e3 : b + 0 + 0 < B.const.usizeLim := hlt' (b + 0 + 0) (by omega)
    by_cases hx : N > 2 ^ W <;> by_cases hy : N ≤ 1 <;>
      simp only [hx, hy, if_true, if_false, Except.map, CRes.bind, usize_bits, arithVal, e0, e1, e2, e3, CRes.typed, uAdd, bind, Except.bind, pure, Except.pure]
  · simp only [hW, if_false, evalC, arith, reduceCtorEq, or_self, h3, hz, ez, if_true]
    have e1 : b + 0 < 2 ^ (if B.wide then 64 else 32) := hlt (b + 0) (by omega)
    have e2 : b + 0 < B.const.usizeLim := hlt' (b + 0) (by omega)
    by_cases hy : N ≤ 1 <;>
      simp only [hy, if_true, if_false, Except.map, CRes.bind, usize_bits, arithVal, e1, e2, CRes.typed, uAdd, bind, Except.bind]

theorem const_elems (hN : N < B.usizeLim) (d : Nat) : constOf cs B N (d + 4) .ELEMS_PER_BLOCK =
    Option.some ((bitsConst B W N).bind fun b => if b = 0 then .error .overflow else .ok (.num .usize (W / b))) := by
  have hb := const_bits hd B hN d
  have hs := const_size hd B (N := N) (d + 2)
  rw [constOf_succ hd.elems (by decide)]
  simp only [evalC, arith, reduceCtorEq, or_self, if_false, if_true, hb, hs]
  rcases bitsConst B W N with e | b
  · simp only [Except.map, CRes.bind, CRes.typed, Except.bind]
  · by_cases h0 : b = 0 <;>
      simp only [h0, Except.map, CRes.bind, CRes.typed, Except.bind, usize_bits, arithVal, if_true, if_false]

theorem const_mask (hN : N < B.usizeLim) (d : Nat) : constOf cs B N (d + 4) .ELEMENT_MASK =
    Option.some ((bitsConst B W N).map fun b => .num .StorageBlock ((2 ^ b - 1) % 2 ^ W)) := by
  have hb := const_bits hd B hN d
  have hw := hd.width B
  have h5 : typeBits cs B .u64 = Option.some 64 := rfl
  rw [constOf_succ hd.mask (by decide)]
  have key : ∀ b, bitsConst B W N = .ok b → b ≤ 32 := by
    intro b h
    have h2 : bitsPerElem N ≤ 32 := cnt_le N 31
    have ez : errorZeroSized B N = if N ≤ 1 then .error .overflow else .ok 0 := by
      unfold errorZeroSized uSub Build.const; by_cases hN : N ≤ 1 <;> simp [hN]
    have em : errorTooManyVariants B W N = if N > 2 ^ W then .error .overflow else .ok 0 := by
      unfold errorTooManyVariants uSub Build.const; by_cases hN : N > 2 ^ W <;> simp [hN]
    have e2 : bitsPerElem N < B.const.usizeLim := B.lt_usizeLim (by omega)
    unfold bitsConst at h
    rw [ez, em] at h
    by_cases hW : W ≤ 32 <;> by_cases hx : N > 2 ^ W <;> by_cases hy : N ≤ 1 <;>
      simp [hx, hy, hW, uAdd, e2, bind, Except.bind] at h <;> omega
  simp only [evalC, arith, reduceCtorEq, or_self, or_false, true_or, if_false, if_true, hb, hw, typeOf, h5]
  rcases hx : bitsConst B W N with e | b
  · simp [Except.map, CRes.bind, CRes.typed, h5]
  · have h1 := key b hx
    have h2 : b < 64 := by omega
    have h3 : 2 ^ b % 2 ^ 64 = 2 ^ b := Nat.mod_eq_of_lt (Nat.pow_lt_pow_right (by decide) h2)
    have h4 : 1 ≤ 2 ^ b := Nat.one_le_two_pow
    simp [Except.map, CRes.bind, CRes.typed, castC, shiftVal, arithVal, h2, h3, h4, h5, Option.orElse]

end

end Source
end EnumVecModel
