import Verif.NanBox.Model
import Verif.NanBox.Spec
/-! # C01: classification of value words -/
namespace Verif.NanBox
open Spec

/-- Turns a statement about `BitVec 64` tag tests into linear arithmetic over the word's value. -/
local macro "word_omega" : tactic => `(tactic| (
  simp only [isF64, isNum, isVal, isFun, isArr, isC32, isVar, isExt, isTag, isMd1, isMd2, isMd, isNsp, isObj, isAtm, isCallable,
    q_c8, q_c16, C32_TAG, TAG_TAG, VAR_TAG, EXT_TAG, MD1_TAG, MD2_TAG, FUN_TAG, NSP_TAG, OBJ_TAG, ARR_TAG, VAL_TAG,
    SignallingNaN, exponent, quiet, lowMantissa, sign, tag16, low48, HasKind, Kind.tag,
    BitVec.ule, BitVec.ult, BitVec.toNat_sub, BitVec.toNat_shiftLeft, BitVec.toNat_ushiftRight, BitVec.toNat_add,
    BitVec.toNat_ofNat, Nat.shiftLeft_eq, Nat.shiftRight_eq_div_pow, decide_eq_true_eq, beq_iff_eq, Bool.and_eq_true,
    Bool.not_eq_true', beq_eq_false_iff_ne, ne_eq, BitVec.toNat_eq, Option.some.injEq,
    Nat.reducePow, Nat.reduceMod, Nat.reduceMul, Nat.reduceAdd, Nat.reduceSub, Nat.reduceDiv] at *
  omega))

/-- The optimised number test accepts exactly the doubles that are not signalling NaNs (so ±∞, quiet NaNs and all finite
numbers are numbers, and every tagged word is not). -/
theorem isNum_iff_not_signallingNaN (x : Word) : isNum x = true ↔ ¬ SignallingNaN x := by
  have hx := x.isLt
  word_omega

/-- The optimised heap-value test accepts exactly the signalling NaNs with the sign bit set. -/
theorem isVal_iff_negative_signallingNaN (x : Word) : isVal x = true ↔ SignallingNaN x ∧ sign x = 1 := by
  have hx := x.isLt
  word_omega

/-- The documented bit test for heap values (comment at h.h 472/474). -/
theorem isVal_documented (x : Word) :
    isVal x = (decide (x >>> 51 = 0x1FFE#64) && decide (x <<< 13 ≠ 0#64)) := by
  have hx := x.isLt
  rw [Bool.eq_iff_iff]
  word_omega

/-- The documented bit test for numbers (comment at h.h 473), with +∞ = 0x7FF0000000000000. -/
theorem isF64_documented (x : Word) :
    isF64 x = (decide (x >>> 51 &&& 0xFFF#64 ≠ 0xFFE#64) || decide (x <<< 1 = 0x7FF0000000000000#64 <<< 1)) := by
  have hx := x.isLt
  have h : (x >>> 51 &&& 0xFFF#64).toNat = x.toNat / 2^51 % 2^12 := by
    rw [BitVec.toNat_and, BitVec.toNat_ushiftRight, Nat.shiftRight_eq_div_pow]
    exact Nat.and_two_pow_sub_one_eq_mod _ 12
  rw [Bool.eq_iff_iff]
  simp only [Bool.or_eq_true, decide_eq_true_eq, ne_eq, BitVec.toNat_eq, h]
  word_omega

/-- Each predicate is exactly membership of its kind. -/
theorem predicates_are_kinds (x : Word) :
    (isNum x = true ↔ HasKind x .num) ∧ (isC32 x = true ↔ HasKind x .chr) ∧ (isTag x = true ↔ HasKind x .special) ∧
    (isVar x = true ↔ HasKind x .var) ∧ (isExt x = true ↔ HasKind x .extVar) ∧ (isMd1 x = true ↔ HasKind x .md1) ∧
    (isMd2 x = true ↔ HasKind x .md2) ∧ (isFun x = true ↔ HasKind x .fn) ∧ (isNsp x = true ↔ HasKind x .ns) ∧
    (isObj x = true ↔ HasKind x .obj) ∧ (isArr x = true ↔ HasKind x .arr) := by
  have hx := x.isLt
  refine ⟨?_, ?_, ?_, ?_, ?_, ?_, ?_, ?_, ?_, ?_, ?_⟩ <;> word_omega

/-- No word has two kinds. -/
theorem kind_unique (x : Word) (j k : Kind) (hj : HasKind x j) (hk : HasKind x k) : j = k := by
  have hx := x.isLt
  cases j <;> cases k <;> first | rfl | (exfalso; word_omega)

/-- Heap kinds are exactly those with the sign bit; a named kind is a heap value iff it is one of
1-modifier, 2-modifier, function, namespace, object, array. -/
theorem isVal_of_kind (x : Word) (k : Kind) (hk : HasKind x k) :
    isVal x = true ↔ k ∈ [Kind.md1, .md2, .fn, .ns, .obj, .arr] := by
  have hx := x.isLt
  cases k <;> simp only [List.mem_cons, reduceCtorEq, List.not_mem_nil, or_false, or_true, iff_true, iff_false] <;> word_omega

/-- The combined tests `isMd` (one shift) and `isCallable` (one range) are the unions they stand for. -/
theorem isMd_isCallable (x : Word) :
    (isMd x = true ↔ isMd1 x = true ∨ isMd2 x = true) ∧
    (isCallable x = true ↔ isMd1 x = true ∨ isMd2 x = true ∨ isFun x = true) ∧
    (isAtm x = true ↔ ¬ isArr x = true) := by
  have hx := x.isLt
  refine ⟨?_, ?_, ?_⟩
  · word_omega
  · word_omega
  · simp [isAtm]

theorem toNat_tagu64 (v t : BitVec 64) (hv : v.toNat < 2^48) (ht : t.toNat < 2^16) :
    (tagu64 v t).toNat = t.toNat * 2^48 + v.toNat := by
  have : (t <<< 48).toNat = t.toNat * 2^48 := by
    rw [BitVec.toNat_shiftLeft, Nat.shiftLeft_eq]; omega
  rw [tagu64, BitVec.toNat_or, this, Nat.or_comm, ← Nat.shiftLeft_eq, Nat.shiftLeft_add_eq_or_of_lt hv]

/-- A tagged pointer has the tag and payload it was built from: boxing followed by unboxing is the identity. -/
theorem tag_roundtrip (v t : BitVec 64) (hv : v.toNat < 2^48) (ht : t.toNat < 2^16) :
    tag16 (tagu64 v t) = t.toNat ∧ payload (tagu64 v t) = v := by
  have h := toNat_tagu64 v t hv ht
  have ht' := t.isLt
  constructor
  · rw [tag16, h]; omega
  · apply BitVec.eq_of_toNat_eq
    rw [payload, BitVec.toNat_and, h]
    have : (0xFFFFFFFFFFFF#64).toNat = 2^48 - 1 := by decide
    rw [this, Nat.and_two_pow_sub_one_eq_mod]; omega

/-- Boxing a non-null 48-bit pointer with any heap kind's tag gives a heap value of exactly that kind. -/
theorem tag_kind (v t : BitVec 64) (k : Kind) (hv : v.toNat < 2^48) (hk : k.tag = some t.toNat) :
    HasKind (tagu64 v t) k ∧ (∀ j, HasKind (tagu64 v t) j → j = k) := by
  have ht : t.toNat < 2^16 := by
    cases k <;> simp only [Kind.tag, Option.some.injEq, reduceCtorEq] at hk <;> omega
  have h1 := (tag_roundtrip v t hv ht).1
  have hk' : HasKind (tagu64 v t) k := by
    cases k <;> simp only [HasKind, h1] <;> first | exact hk | cases hk
  exact ⟨hk', fun j hj => kind_unique _ _ _ hj hk'⟩

/-- Characters round-trip for every 32-bit code, and are characters and nothing else. -/
theorem char_roundtrip (n : BitVec 32) :
    o2cG (m_c32 n) = n ∧ HasKind (m_c32 n) .chr ∧ isVal (m_c32 n) = false ∧ isNum (m_c32 n) = false := by
  have hn : (n.setWidth 64).toNat = n.toNat := by
    rw [BitVec.toNat_setWidth]; have := n.isLt; omega
  have hlt : (n.setWidth 64).toNat < 2^48 := by have := n.isLt; omega
  have h := toNat_tagu64 (n.setWidth 64) C32_TAG hlt (by decide)
  have hk := (tag_kind (n.setWidth 64) C32_TAG .chr hlt (by decide)).1
  have hv := isVal_of_kind _ _ hk
  refine ⟨?_, hk, ?_, ?_⟩
  · apply BitVec.eq_of_toNat_eq
    rw [o2cG, m_c32, BitVec.toNat_setWidth, h, hn]
    have := n.isLt
    have : C32_TAG.toNat = 0x7FF1 := by decide
    omega
  · rw [m_c32, Bool.eq_false_iff]; intro hc; simpa using hv.1 hc
  · rw [m_c32, Bool.eq_false_iff]; intro hc
    have := kind_unique _ _ _ ((predicates_are_kinds _).1.1 hc) hk
    cases this

/-- The storage-width tests on words accept exactly the characters that fit 8 / 16 bits. -/
theorem q_c8_q_c16 (x : Word) :
    (q_c8 x = true ↔ HasKind x .chr ∧ low48 x < 256) ∧ (q_c16 x = true ↔ HasKind x .chr ∧ low48 x < 65536) := by
  have hx := x.isLt
  constructor <;> word_omega

-- Non-vacuity: representative words.
example : isNum 0x3FF0000000000000#64 = true ∧ isNum 0x7FF0000000000000#64 = true ∧ isNum 0xFFF0000000000000#64 = true
    ∧ isNum 0x7FF8000000000000#64 = true ∧ isNum 0x7FF1000000000041#64 = false ∧ isVal 0xFFF7000000001000#64 = true
    ∧ isVal 0xFFF0000000000000#64 = false ∧ isVal 0xFFF8000000000000#64 = false := by decide
example : HasKind 0xFFF4000012345678#64 .fn ∧ ¬ HasKind 0xFFF4000012345678#64 .num := by
  constructor
  · simp [HasKind, Kind.tag, tag16]
  · intro h; exact h ⟨by decide, by decide, by decide⟩
example : (0x7F0012345678#64).toNat < 2^48 ∧ Kind.arr.tag = some ARR_TAG.toNat ∧ payload (tagu64 0x7F0012345678#64 ARR_TAG) = 0x7F0012345678#64 := by decide
example : q_c8 (m_c32 0xE9#32) = true ∧ q_c8 (m_c32 0x100#32) = false ∧ q_c16 (m_c32 0x100#32) = true := by decide

end Verif.NanBox
