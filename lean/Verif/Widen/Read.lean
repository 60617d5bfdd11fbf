import Verif.Widen.Model
import Verif.Rotate.Basic
/-!
# Widening: what is read and written
-/
namespace Verif.Widen
open Verif.Bits Verif.Slash Verif.Rep Verif.Select

theorem rbuu64_bit (x : Nat → Word) (lim off : Nat) (h : off / 64 + 1 < lim) : ∃ v, rbuu64 x lim off = some v ∧ ∀ j, j < 64 → v.getLsbD j = bitF x (off + j) := by
  unfold rbuu64 rd
  have e : off >>> 6 = off / 64 := Nat.shiftRight_eq_div_pow off 6
  rw [e, if_pos (by omega), Option.bind_some, if_pos h, Option.map_some]
  refine ⟨_, rfl, fun j hj => ?_⟩
  have hm : off % 64 < 64 := Nat.mod_lt _ (by decide)
  unfold bitF
  rw [BitVec.getLsbD_setWidth, decide_eq_true hj, Bool.true_and, BitVec.getLsbD_ushiftRight, BitVec.getLsbD_or, BitVec.getLsbD_setWidth, BitVec.getLsbD_shiftLeft, BitVec.getLsbD_setWidth,
    decide_eq_true (show off % 64 + j < 128 by omega)]
  by_cases hc : off % 64 + j < 64
  · rw [decide_eq_true hc, show (off + j) / 64 = off / 64 by omega, show (off + j) % 64 = off % 64 + j by omega]
    simp
  · rw [decide_eq_false hc, BitVec.getLsbD_of_ge (x (off / 64)) _ (by omega), show (off + j) / 64 = off / 64 + 1 by omega, show (off + j) % 64 = off % 64 + j - 64 by omega]
    simp
    omega

theorem loadu_bit (x : Nat → Word) (lim b : Nat) (h : b / 8 + 1 < lim) : ∃ v, loadu x lim b = some v ∧ ∀ j, j < 64 → v.getLsbD j = bitF x (8 * b + j) := by
  unfold loadu rd
  rw [if_pos (by omega), Option.bind_some]
  by_cases h8 : b % 8 = 0
  · rw [if_pos h8]
    refine ⟨_, rfl, fun j hj => ?_⟩
    unfold bitF
    rw [show (8 * b + j) / 64 = b / 8 by omega, show (8 * b + j) % 64 = j by omega]
  · rw [if_neg h8, if_pos h, Option.map_some]
    refine ⟨_, rfl, fun j hj => ?_⟩
    unfold bitF
    rw [BitVec.getLsbD_or, BitVec.getLsbD_ushiftRight, BitVec.getLsbD_shiftLeft, decide_eq_true hj]
    by_cases hc : 8 * (b % 8) + j < 64
    · rw [decide_eq_true (show j < 64 - 8 * (b % 8) by omega), show (8 * b + j) / 64 = b / 8 by omega, show (8 * b + j) % 64 = 8 * (b % 8) + j by omega]
      simp
    · rw [decide_eq_false (show ¬ j < 64 - 8 * (b % 8) by omega), BitVec.getLsbD_of_ge (x (b / 8)) _ (by omega), show (8 * b + j) / 64 = b / 8 + 1 by omega,
        show (8 * b + j) % 64 = j - (64 - 8 * (b % 8)) by omega]
      simp

theorem rbuu58_bit (x : Nat → Word) (lim off : Nat) (h : off / 64 + 1 < lim) : ∃ v, rbuu58 x lim off = some v ∧ ∀ j, j < 57 → v.getLsbD j = bitF x (off + j) := by
  have e : off >>> 3 = off / 8 := Nat.shiftRight_eq_div_pow off 3
  obtain ⟨v, e1, hv⟩ := loadu_bit x lim (off / 8) (by omega)
  unfold rbuu58
  rw [e, e1, Option.map_some]
  refine ⟨_, rfl, fun j hj => ?_⟩
  rw [BitVec.getLsbD_ushiftRight, hv _ (by omega)]
  congr 1
  omega

theorem tmsk_bit (n j : Nat) (hn : n < 64) : ((1#64 <<< n) - 1#64).getLsbD j = decide (j < n) := by
  have mb := BitCopy.mask_bit
  unfold BitCopy.mask at mb
  by_cases hj : j < 64
  · exact mb n hn j
  · rw [BitVec.getLsbD_of_ge _ _ (by omega), decide_eq_false (by omega)]

theorem cellOf_spec (x : Nat → Word) (lim rcsz xcsz i : Nat) (hr : rcsz = 8 ∨ rcsz = 16 ∨ rcsz = 32 ∨ rcsz = 64) (h0 : 0 < xcsz) (hx : xcsz < rcsz) (h : i * xcsz / 64 + 1 < lim) :
    ∃ v, cellOf x lim rcsz xcsz i = some v ∧ ∀ j, j < 64 → v.getLsbD j = (decide (j < xcsz) && bitF x (i * xcsz + j)) := by
  unfold cellOf
  by_cases h1 : rcsz ≤ 32 ∧ xcsz = 1
  · obtain ⟨_, rfl⟩ := h1
    rw [if_pos ⟨by omega, rfl⟩]
    unfold rd
    rw [if_pos (by omega), Option.map_some]
    refine ⟨_, rfl, fun j hj => ?_⟩
    unfold bitF
    rw [Nat.mul_one]
    by_cases hj0 : j = 0
    · subst hj0
      rw [Nat.add_zero, decide_eq_true (by omega), Bool.true_and]
      cases (x (i / 64)).getLsbD (i % 64) <;> rfl
    · rw [decide_eq_false (by omega), Bool.false_and]
      cases (x (i / 64)).getLsbD (i % 64)
      · simp
      · rw [if_pos rfl, BitVec.getLsbD_one]
        simp
        omega
  · rw [if_neg h1]
    simp only
    by_cases h64 : rcsz = 64
    · rw [if_pos h64]
      obtain ⟨v, e, hv⟩ := rbuu64_bit x lim (i * xcsz) h
      rw [e]
      refine ⟨_, rfl, fun j hj => ?_⟩
      rw [BitVec.getLsbD_and, hv j hj, tmsk_bit _ _ (by omega), Bool.and_comm]
    · rw [if_neg h64]
      obtain ⟨v, e, hv⟩ := rbuu58_bit x lim (i * xcsz) h
      rw [e]
      refine ⟨_, rfl, fun j hj => ?_⟩
      rw [BitVec.getLsbD_setWidth, BitVec.getLsbD_setWidth, BitVec.getLsbD_and, tmsk_bit _ _ (by omega), decide_eq_true hj, Bool.true_and]
      by_cases hjx : j < xcsz
      · rw [hv j (by omega), decide_eq_true hjx, decide_eq_true (show j < rcsz by omega)]
        simp
      · rw [decide_eq_false hjx]
        simp

theorem widenUnits_spec (x : Nat → Word) (lim rcsz xcsz : Nat) (hr : rcsz = 8 ∨ rcsz = 16 ∨ rcsz = 32 ∨ rcsz = 64) (h0 : 0 < xcsz) (hx : xcsz < rcsz) :
    ∀ (cam i : Nat) (m : List Word), (∀ k, k < i + cam → k * xcsz / 64 + 1 < lim) → i + cam ≤ m.length →
      ∃ m', widenUnits x lim rcsz xcsz cam i m = some m' ∧ m'.length = m.length ∧ (∀ k : Nat, k < i → m'[k]? = m[k]?) ∧
        ∀ k, i ≤ k → k < i + cam → ∃ v, m'[k]? = some v ∧ ∀ j, j < 64 → v.getLsbD j = (decide (j < xcsz) && bitF x (k * xcsz + j)) := by
  intro cam
  induction cam with
  | zero => intro i m _ _; exact ⟨m, rfl, rfl, fun _ _ => rfl, fun k h1 h2 => by omega⟩
  | succ cam ih =>
    intro i m hl hm
    obtain ⟨v, e, hv⟩ := cellOf_spec x lim rcsz xcsz i hr h0 hx (hl i (by omega))
    obtain ⟨m', e', l', k1, k2⟩ := ih (i + 1) (m.set i v) (fun k hk => hl k (by omega)) (by rw [List.length_set]; omega)
    refine ⟨m', by rw [widenUnits, e, Option.bind_some, wr, if_pos (by omega), Option.bind_some, e'], by rw [l', List.length_set], fun k hk => ?_, fun k hk1 hk2 => ?_⟩
    · rw [k1 k (by omega), List.getElem?_set_ne (by omega)]
    · by_cases hki : k = i
      · subst hki
        exact ⟨v, by rw [k1 k (by omega), List.getElem?_set_self (by omega)], hv⟩
      · exact k2 k (by omega) (by omega)

theorem fullWords_spec (x : Nat → Word) (lim off p : Nat) : ∀ (n j : Nat) (m : List Word), (∀ k, k < j + n → (off + k * 64) / 64 + 1 < lim) → p + j + n ≤ m.length →
    ∃ m', fullWords x lim off p n j m = some m' ∧ m'.length = m.length ∧ (∀ k : Nat, k < p + j → m'[k]? = m[k]?) ∧
      ∀ q, j ≤ q → q < j + n → ∃ v, m'[p + q]? = some v ∧ ∀ b, b < 64 → v.getLsbD b = bitF x (off + q * 64 + b) := by
  intro n
  induction n with
  | zero => intro j m _ _; exact ⟨m, rfl, rfl, fun _ _ => rfl, fun q h1 h2 => by omega⟩
  | succ n ih =>
    intro j m hl hm
    obtain ⟨v, e, hv⟩ := rbuu64_bit x lim (off + j * 64) (hl j (by omega))
    obtain ⟨m', e', l', k1, k2⟩ := ih (j + 1) (m.set (p + j) v) (fun k hk => hl k (by omega)) (by rw [List.length_set]; omega)
    refine ⟨m', by rw [fullWords, e, Option.bind_some, wr, if_pos (by omega), Option.bind_some, e'], by rw [l', List.length_set], fun k hk => ?_, fun q hq1 hq2 => ?_⟩
    · rw [k1 k (by omega), List.getElem?_set_ne (by omega)]
    · by_cases hqj : q = j
      · subst hqj
        exact ⟨v, by rw [k1 (p + q) (by omega), List.getElem?_set_self (by omega)], hv⟩
      · exact k2 q (by omega) (by omega)

/-- Cells of `W` words each, the last one not full. -/
theorem widenWords_spec (x : Nat → Word) (lim rcsz xcsz : Nat) (hr : rcsz % 64 = 0) (hx1 : xcsz < rcsz) (hx2 : rcsz - xcsz < 64) :
    ∀ (cam i : Nat) (m : List Word), (∀ k, k < i + cam → ∀ q, q < rcsz / 64 → (k * xcsz + q * 64) / 64 + 1 < lim) → (i + cam) * (rcsz / 64) ≤ m.length →
      ∃ m', widenWords x lim rcsz xcsz cam i m = some m' ∧ m'.length = m.length ∧ (∀ k : Nat, k < i * (rcsz / 64) → m'[k]? = m[k]?) ∧
        ∀ k, i ≤ k → k < i + cam → ∀ q, q < rcsz / 64 → ∃ v, m'[k * (rcsz / 64) + q]? = some v ∧ ∀ b, b < 64 → v.getLsbD b = (decide (q * 64 + b < xcsz) && bitF x (k * xcsz + (q * 64 + b))) := by
  have e1 : xcsz >>> 6 = xcsz / 64 := Nat.shiftRight_eq_div_pow xcsz 6
  have e2 : rcsz >>> 6 = rcsz / 64 := Nat.shiftRight_eq_div_pow rcsz 6
  have e3 : rcsz / 64 = xcsz / 64 + 1 := by omega
  intro cam
  induction cam with
  | zero => intro i m _ _; exact ⟨m, rfl, rfl, fun _ _ => rfl, fun k h1 h2 => by omega⟩
  | succ cam ih =>
    intro i m hl hm
    have hmi : i * (rcsz / 64) + rcsz / 64 ≤ m.length := by
      have := Nat.mul_le_mul_right (rcsz / 64) (show i + 1 ≤ i + (cam + 1) by omega)
      rw [Nat.succ_mul] at this
      omega
    obtain ⟨m1, d1, l1, k1, g1⟩ := fullWords_spec x lim (i * xcsz) (i * (rcsz / 64)) (xcsz / 64) 0 m (fun k hk => hl i (by omega) k (by omega)) (by omega)
    obtain ⟨v, d2, hv⟩ := rbuu64_bit x lim (i * xcsz + xcsz / 64 * 64) (hl i (by omega) (xcsz / 64) (by omega))
    obtain ⟨m', d3, l3, k3, g3⟩ := ih (i + 1) (m1.set (i * (rcsz / 64) + xcsz / 64) (v &&& ((1#64 <<< (xcsz % 64)) - 1#64))) (fun k hk => hl k (by omega)) (by rw [List.length_set, l1, show i + 1 + cam = i + (cam + 1) by omega]; exact hm)
    refine ⟨m', ?_, by rw [l3, List.length_set, l1], fun k hk => ?_, fun k hk1 hk2 q hq => ?_⟩
    · rw [widenWords]
      simp only [e1, e2]
      rw [d1, Option.bind_some, d2, Option.bind_some, wr, if_pos (by omega), Option.bind_some, d3]
    · rw [k3 k (by rw [Nat.succ_mul]; omega), List.getElem?_set_ne (by omega), k1 k (by omega)]
    · by_cases hki : k = i
      · subst hki
        rw [k3 (k * (rcsz / 64) + q) (by rw [Nat.succ_mul]; omega)]
        by_cases hqf : q = xcsz / 64
        · subst hqf
          refine ⟨_, List.getElem?_set_self (by omega), fun b hb => ?_⟩
          rw [BitVec.getLsbD_and, hv b hb, tmsk_bit _ _ (Nat.mod_lt _ (by decide)), Bool.and_comm]
          congr 1
          · exact decide_eq_decide.2 (by omega)
          · congr 1; omega
        · rw [List.getElem?_set_ne (by omega)]
          obtain ⟨u, f1, f2⟩ := g1 q (by omega) (by omega)
          refine ⟨u, f1, fun b hb => ?_⟩
          rw [f2 b hb, decide_eq_true (by omega), Bool.true_and]
          congr 1; omega
      · exact g3 k (by omega) (by omega) q hq

end Verif.Widen
