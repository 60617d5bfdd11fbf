import Verif.Range.Lemmas
import Verif.Fold.Lemmas
/-!
# Range: lists of ones and twos, and the size
-/
namespace Verif.Range
open Verif.Rotate Verif.BitCopy Verif.Bits

theorem revLow_bit (x : Word) {n r : Nat} (hn : n ≤ 64) (hr : r < n) : (revLow x n).getLsbD r = x.getLsbD (n - 1 - r) := by
  unfold revLow
  rw [BitVec.getLsbD_ushiftRight, bit_reverse64_bit _ _ (by omega)]
  congr 1
  omega

theorem revLow_out (x : Word) {n r : Nat} (hr : n ≤ r) : (revLow x n).getLsbD r = false := by
  unfold revLow
  rw [BitVec.getLsbD_ushiftRight]
  exact BitVec.getLsbD_of_ge _ _ (by omega)

theorem mask_bit {load : List Nat → Word} (hl : Load load) {sh : List Nat} (hn : sh.length ≤ 64) {r : Nat} (hr : r < sh.length) :
    (mask load sh).getLsbD r = !(sh[sh.length - 1 - r] == 2) := by
  have : (revLow (~~~(load sh)) sh.length).getLsbD r = !(sh[sh.length - 1 - r] == 2) := by
    rw [revLow_bit _ hn hr, BitVec.getLsbD_not, hl sh _ (by omega) (by omega), decide_eq_true (by omega), Bool.true_and]
  unfold mask
  dsimp only
  split
  · rw [BitVec.getLsbD_and, this, Verif.Fold.low_mask _ ‹_›, decide_eq_true hr, Bool.and_true]
  · exact this

theorem mask_out {load : List Nat → Word} {sh : List Nat} {r : Nat} (hr : sh.length ≤ r) : (mask load sh).getLsbD r = false := by
  unfold mask
  dsimp only
  split
  · rw [BitVec.getLsbD_and, revLow_out _ hr, Bool.false_and]
  · exact revLow_out _ hr

theorem mask_lt {load : List Nat → Word} {sh : List Nat} : (mask load sh).toNat < 2^sh.length := by
  apply Nat.lt_pow_two_of_testBit
  intro i hi
  exact mask_out (load := load) hi

theorem mask_marks {load : List Nat → Word} (hl : Load load) {sh : List Nat} (hn : sh.length ≤ 64) (h12 : ∀ s ∈ sh, s = 1 ∨ s = 2) :
    Marks (mask load sh).toNat sh := by
  intro j hj
  have : (mask load sh).toNat.testBit (sh.length - 1 - j) = !(sh[j] == 2) := by
    have := mask_bit hl hn (show sh.length - 1 - j < sh.length by omega)
    simp only [show sh.length - 1 - (sh.length - 1 - j) = j by omega] at this
    exact this
  rw [this]
  rcases h12 _ (List.getElem_mem hj) with h | h <;> rw [h] <;> rfl

theorem bitLoop_length (xia : Nat) (m : Word) : ∀ n c, (bitLoop xia m n c).length = n
  | 0, _ => rfl
  | n + 1, c => congrArg (· + 1) (bitLoop_length xia m n _)

/-- What the loop gives at step `t`, if it's at step `i` of the counter. -/
theorem bitLoop_get {xia : Nat} {m : Word} (hx : xia ≤ 64) (hm : m.toNat < 2^xia) : ∀ (n : Nat) (c : Word) (i t : Nat), (c ||| m).toNat = dep xia m.toNat i →
    i + n ≤ cnt xia m.toNat → t < n →
    (bitLoop xia m n c)[t]? = some ((List.range xia).map fun j =>
      if (dep xia m.toNat (i + t)).testBit (xia - 1 - j) && !m.toNat.testBit (xia - 1 - j) then 1 else 0)
  | n + 1, c, i, 0, hc, _, _ => by
    unfold bitLoop
    rw [List.getElem?_cons_zero]
    unfold bits
    congr 1
    apply List.map_congr_left
    intro j hj
    have hj := List.mem_range.1 hj
    have : (revLow (c &&& ~~~m) xia).getLsbD j = ((dep xia m.toNat (i + 0)).testBit (xia - 1 - j) && !m.toNat.testBit (xia - 1 - j)) := by
      rw [revLow_bit _ hx hj, Nat.add_zero, ← hc]
      show _ = ((c ||| m).getLsbD _ && !m.getLsbD _)
      rw [BitVec.getLsbD_and, BitVec.getLsbD_not, BitVec.getLsbD_or, decide_eq_true (by omega), Bool.true_and]
      cases c.getLsbD (xia - 1 - j) <;> cases m.getLsbD (xia - 1 - j) <;> rfl
    rw [this]
  | n + 1, c, i, t + 1, hc, hi, ht => by
    unfold bitLoop
    rw [List.getElem?_cons_succ]
    have e := bitLoop_get hx hm n ((c ||| m) + 1#64) (i + 1) t ?_ (by omega) (by omega)
    · rw [e, show i + 1 + t = i + (t + 1) by omega]
    · have h1 := dep_succ xia m.toNat i hm (by omega)
      have h2 := dep_lt xia m.toNat (i + 1)
      have h3 : 2^xia ≤ 2^64 := Nat.pow_le_pow_right (by decide) hx
      have h4 : dep xia m.toNat i + 1 ≤ dep xia m.toNat (i + 1) := by rw [h1]; exact Nat.left_le_or
      rw [BitVec.toNat_or, BitVec.toNat_add, hc, h1]
      congr 1
      exact Nat.mod_eq_of_lt (show dep xia m.toNat i + 1 < 2^64 by omega)

theorem bit_path {load : List Nat → Word} (hl : Load load) {sh : List Nat} (hn : sh.length ≤ 64) (h12 : ∀ s ∈ sh, s = 1 ∨ s = 2) :
    IsRange sh sh (bitLoop sh.length (mask load sh) (prod sh) (mask load sh)) := by
  have mm := mask_marks hl hn h12
  have lt := mask_lt (load := load) (sh := sh)
  have hc := cnt_prod sh _ mm
  refine ⟨rfl, bitLoop_length .., fun is h => ?_⟩
  rw [bitLoop_get hn lt (prod sh) _ 0 (ravel sh is) (by rw [BitVec.toNat_or, Nat.or_self, dep_zero _ _ lt]) (by omega) (ravel_lt h), Nat.zero_add]
  congr 1
  apply List.ext_getElem
  · simp [h.length]
  · intro j h1 h2
    have hj : j < is.length := by simpa using h2
    rw [List.getElem_map, List.getElem_map, List.getElem_range]
    have := dep_digit sh _ is mm h j hj
    rw [this]
    split <;> rfl

/-! ## The size -/

theorem prod_pos : ∀ {l : List Nat}, (∀ x ∈ l, x ≠ 0) → 0 < prod l
  | [], _ => by decide
  | x :: l, h => Nat.mul_pos (Nat.pos_of_ne_zero (h x (by simp))) (prod_pos (fun y hy => h y (List.mem_cons_of_mem _ hy)))

theorem prod_zero : ∀ {l : List Nat}, 0 ∈ l → prod l = 0
  | x :: l, h => by
    cases h with
    | head => exact Nat.zero_mul _
    | tail _ h => show x * prod l = 0; rw [prod_zero h, Nat.mul_zero]

/-- After the loop over `l`, from the lengths `pre`. -/
theorem fold_acc : ∀ (l pre : List Nat) (a : Acc), a.ria = prod pre % 2^32 → (a.bad = true → 2^32 ≤ prod pre ∨ 0 ∈ pre) → (2^32 ≤ prod pre → a.bad = true) →
    (∀ x ∈ pre, a.min ≤ x ∧ x ≤ a.max) → a.min ∈ pre → a.max ∈ pre →
    let b := l.foldl Acc.step a
    b.ria = prod (pre ++ l) % 2^32 ∧ (b.bad = true → 2^32 ≤ prod (pre ++ l) ∨ 0 ∈ pre ++ l) ∧ (2^32 ≤ prod (pre ++ l) → b.bad = true) ∧
      (∀ x ∈ pre ++ l, b.min ≤ x ∧ x ≤ b.max) ∧ b.min ∈ pre ++ l ∧ b.max ∈ pre ++ l
  | [], pre, a, h1, h2, h3, h4, h5, h6 => by
    rw [List.append_nil]
    exact ⟨h1, h2, h3, h4, h5, h6⟩
  | c :: l, pre, a, h1, h2, h3, h4, h5, h6 => by
    have e : pre ++ c :: l = (pre ++ [c]) ++ l := by simp
    rw [e]
    have hp : prod (pre ++ [c]) = prod pre * c := by rw [prod_append]; simp [prod]
    apply fold_acc l (pre ++ [c]) (a.step c)
    · show a.ria * c % 2^32 = _
      rw [hp, h1, Nat.mod_mul_mod]
    · intro hb
      show 2^32 ≤ prod (pre ++ [c]) ∨ _
      rw [hp]
      by_cases hc : c = 0
      · exact .inr (by simp [hc])
      have hb : (a.bad || decide (a.ria * c ≥ 2^32)) = true := hb
      rw [Bool.or_eq_true] at hb
      cases hb with
      | inl hb =>
        cases h2 hb with
        | inl h => exact .inl (Nat.le_trans h (Nat.le_mul_of_pos_right _ (Nat.pos_of_ne_zero hc)))
        | inr h => exact .inr (List.mem_append_left _ h)
      | inr hb =>
        have := of_decide_eq_true hb
        rw [h1] at this
        exact .inl (Nat.le_trans this (Nat.mul_le_mul_right _ (Nat.mod_le ..)))
    · intro hb
      show (a.bad || decide (a.ria * c ≥ 2^32)) = true
      rw [hp] at hb
      by_cases hbig : 2^32 ≤ prod pre
      · rw [h3 hbig]; rfl
      · rw [h1, Nat.mod_eq_of_lt (by omega), decide_eq_true hb, Bool.or_true]
    · intro x hx
      show (if c < a.min then c else a.min) ≤ x ∧ x ≤ if c > a.max then c else a.max
      have hmm := h4 _ h5
      rcases List.mem_append.1 hx with hx | hx
      · have := h4 x hx
        split <;> split <;> omega
      · have := List.mem_singleton.1 hx
        subst this
        split <;> split <;> omega
    · show (if c < a.min then c else a.min) ∈ _
      split
      · simp
      · exact List.mem_append_left _ h5
    · show (if c > a.max then c else a.max) ∈ _
      split
      · simp
      · exact List.mem_append_left _ h6

theorem o2s_ok {v : Int} {n : Nat} : o2s v = some n ↔ v = n ∧ n < 2^32 := by
  unfold o2s
  split
  · constructor
    · intro h; cases h; omega
    · intro h; congr 1; omega
  · constructor
    · intro h; cases h
    · intro h; omega

theorem mapM_o2s : ∀ {sh : List Nat}, (∀ s ∈ sh, s < 2^32) → (sh.map Int.ofNat).mapM o2s = some sh
  | [], _ => rfl
  | s :: sh, h => by
    have e : o2s (Int.ofNat s) = some s := o2s_ok.2 ⟨rfl, h s (by simp)⟩
    rw [List.map_cons, List.mapM_cons, e, mapM_o2s (fun t ht => h t (List.mem_cons_of_mem _ ht))]
    rfl

theorem mapM_o2s_bad : ∀ {x : List Int}, (∃ v ∈ x, v < 0 ∨ 2^32 ≤ v) → x.mapM o2s = none
  | v :: x, ⟨u, hu, h⟩ => by
    rw [List.mapM_cons]
    cases hv : o2s v with
    | none => rfl
    | some n =>
      have hv := o2s_ok.1 hv
      cases hu with
      | head => omega
      | tail _ hu => rw [mapM_o2s_bad ⟨u, hu, h⟩]; rfl

theorem f64Loop_eq : ∀ k c, f64Loop k c = (List.range' c (k * 16)).map Int.ofNat
  | 0, _ => by simp [f64Loop]
  | k + 1, c => by
    unfold f64Loop
    rw [f64Loop_eq k, show (k + 1) * 16 = 16 + k * 16 by omega, ← List.range'_append_1, List.map_append, List.range'_eq_map_range, List.map_map]
    rfl

theorem intRangeF64_eq (n : Nat) : intRangeF64 0 n = (List.range n).map Int.ofNat := by
  unfold intRangeF64
  have : List.range n = List.range' 0 (n / 16 * 16) ++ List.range' (0 + n / 16 * 16) (n % 16) := by
    rw [List.range'_append_1, List.range_eq_range']
    congr 1
    omega
  rw [this, f64Loop_eq, List.map_append]
  congr 1
  rw [List.range'_eq_map_range, List.map_map]
  rfl

end Verif.Range
