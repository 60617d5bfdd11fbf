import Verif.Group.Model
import Verif.Rotate.Basic
/-!
# Group: kinds of arrays, counting, and sizes of cells
-/
namespace Verif.Group
open Verif.Bits Verif.Fold Verif.Slash Verif.Rep Verif.Select Verif.Under Verif.Rotate

/-! ## Kinds of arrays -/

/-- `ok n m`: `m` has room for `n` elements. -/
structure GLawful {M α} (K : GKind M α) (ok : Nat → M → Prop) : Prop where
  new : ∀ n, ok n (K.new n)
  copy : ∀ n nx r x rs xs l, ok n r → ok nx x → rs + l ≤ n → xs + l ≤ nx →
    ∃ r', K.copy r rs x xs l = some r' ∧ ok n r' ∧ ∀ k, k < n → K.get r' k = if rs ≤ k ∧ k < rs + l then K.get x (xs + (k - rs)) else K.get r k
  one : ∀ n nx r x rs xs, ok n r → ok nx x → rs < n → xs < nx → ∃ r', K.one r rs x xs = some r' ∧ ok n r' ∧ ∀ k, k < n → K.get r' k = if k = rs then K.get x xs else K.get r k
  get : ∀ n x k, ok n x → k < n → ∃ v, K.get x k = some v

theorem elems_copy {α} {n nx : Nat} {r x : List α} {rs xs l : Nat} (hr : r.length = n) (hx : x.length = nx) (h1 : rs + l ≤ n) (h2 : xs + l ≤ nx) :
    ∃ r', memCpy x r rs xs l = some r' ∧ r'.length = n ∧ ∀ k : Nat, k < n → r'[k]? = if rs ≤ k ∧ k < rs + l then x[xs + (k - rs)]? else r[k]? := by
  obtain ⟨m', e, hl, hk, hn⟩ := memCpy_get (xs := x) (m := r) (ri := rs) (xi := xs) (l := l) (by omega) (by omega)
  refine ⟨m', e, hl.trans hr, fun k hkn => ?_⟩
  by_cases h : rs ≤ k ∧ k < rs + l
  · rw [if_pos h]
    have := hn (k - rs) (by omega)
    rw [show rs + (k - rs) = k by omega] at this
    exact this
  · rw [if_neg h]
    exact hk k (by omega)

theorem elems_lawful {α} (log : Nat) (notB : Bool) (d : Nat → α) : GLawful (elems log notB d) (fun n m => m.length = n) := by
  refine ⟨fun n => ?_, fun n nx r x rs xs l hr hx h1 h2 => elems_copy hr hx h1 h2, fun n nx r x rs xs hr hx h1 h2 => ?_, fun n x k hx hk => ?_⟩
  · show ((List.range n).map d).length = n
    simp
  · obtain ⟨r', e, hl, hk⟩ := elems_copy (rs := rs) (xs := xs) (l := 1) hr hx (by omega) (by omega)
    refine ⟨r', e, hl, fun k hkn => (hk k hkn).trans ?_⟩
    show _ = if k = rs then x[xs]? else r[k]?
    by_cases h : k = rs
    · rw [if_pos (by omega), if_pos h, h, Nat.sub_self]
      rfl
    · rw [if_neg (by omega), if_neg h]
  · exact ⟨x[k]'(by omega), List.getElem?_eq_getElem (by omega)⟩

theorem one_bit (b : Bool) (v : Word) (q : Nat) (hq : q < 64) (s : Nat) (hs : s < 64) :
    (if b = true then v ||| 1#64 <<< q else v &&& ~~~(1#64 <<< q)).getLsbD s = if s = q then b else v.getLsbD s := by
  have e1 : (1#64 <<< q).getLsbD s = decide (s = q) := by
    rw [BitVec.getLsbD_shiftLeft, BitVec.getLsbD_one, decide_eq_true hs, Bool.true_and]
    by_cases h5 : s < q
    · rw [decide_eq_true h5, decide_eq_false (show ¬ s = q by omega)]
      rfl
    · rw [decide_eq_false h5]
      by_cases h6 : s = q
      · rw [decide_eq_true h6, decide_eq_true (show s - q = 0 by omega)]
        rfl
      · rw [decide_eq_false h6, decide_eq_false (show ¬ s - q = 0 by omega)]
        rfl
  cases b
  · rw [if_neg (by simp), BitVec.getLsbD_and, BitVec.getLsbD_not, e1, decide_eq_true hs, Bool.true_and]
    by_cases h6 : s = q
    · rw [decide_eq_true h6, if_pos h6]; simp
    · rw [decide_eq_false h6, if_neg h6]; simp
  · rw [if_pos rfl, BitVec.getLsbD_or, e1]
    by_cases h6 : s = q
    · rw [decide_eq_true h6, if_pos h6]; simp
    · rw [decide_eq_false h6, if_neg h6]; simp

theorem bitSet_get (x : Nat → Word) (m : List Word) (rs xs : Nat) (h : rs < 64 * m.length) :
    ∃ m', bitSet x m rs xs = some m' ∧ m'.length = m.length ∧ ∀ k, k < 64 * m.length → bitL m' k = if k = rs then bitF x xs else bitL m k := by
  have hlt : rs / 64 < m.length := by omega
  unfold bitSet
  rw [List.getElem?_eq_getElem hlt]
  refine ⟨_, wr_some hlt _, List.length_set, fun k hk => ?_⟩
  have hb := one_bit (bitF x xs) m[rs / 64] (rs % 64) (by omega) (k % 64) (by omega)
  unfold bitL
  rw [List.getD_eq_getElem?_getD, List.getD_eq_getElem?_getD, List.getElem?_set]
  by_cases h1 : rs / 64 = k / 64
  · rw [if_pos h1, if_pos hlt]
    refine hb.trans ?_
    by_cases h2 : k = rs
    · rw [if_pos (by omega), if_pos h2]
    · rw [if_neg (by omega), if_neg h2, ← h1, List.getElem?_eq_getElem hlt]
      rfl
  · rw [if_neg h1, if_neg (by intro h; subst h; exact h1 rfl)]

theorem bools_lawful (junk : Nat → Word) : GLawful (bools junk) (fun n m => m.length = (n + 63) / 64) := by
  refine ⟨fun n => ?_, fun n nx r x rs xs l hr hx h1 h2 => ?_, fun n nx r x rs xs hr hx h1 h2 => ?_, fun n x k hx hk => ?_⟩
  · show ((List.range ((n + 63) / 64)).map junk).length = _
    simp
  · obtain ⟨m', e, hl, hk⟩ := bitCpy_get (fun i => x.getD i 0#64) r rs xs l (by omega)
    refine ⟨m', e, hl.trans hr, fun k hkn => ?_⟩
    show getBit m' k = if rs ≤ k ∧ k < rs + l then getBit x (xs + (k - rs)) else getBit r k
    rw [getBit_some (by omega), hk k (by omega)]
    by_cases h : rs ≤ k ∧ k < rs + l
    · rw [if_pos h, if_pos h, getBit_some (by omega), bitL_getD]
    · rw [if_neg h, if_neg h, getBit_some (by omega)]
  · obtain ⟨m', e, hl, hk⟩ := bitSet_get (fun i => x.getD i 0#64) r rs xs (by omega)
    refine ⟨m', e, hl.trans hr, fun k hkn => ?_⟩
    show getBit m' k = if k = rs then getBit x xs else getBit r k
    rw [getBit_some (by omega), hk k (by omega)]
    by_cases h : k = rs
    · rw [if_pos h, if_pos h, getBit_some (by omega), bitL_getD]
    · rw [if_neg h, if_neg h, getBit_some (by omega)]
  · exact ⟨_, getBit_some (by omega)⟩

/-! ## Counting -/

theorem before_run {w : Nat → Int} {k : Int} {t l : Nat} (h : ∀ j, t ≤ j → j < t + l → w j = k) : before w k (t + l) = before w k t + l := by
  induction l with
  | zero => rfl
  | succ l ih =>
    show before w k (t + l) + (if w (t + l) = k then 1 else 0) = _
    rw [ih fun j h1 h2 => h j h1 (by omega), if_pos (h (t + l) (by omega) (by omega))]
    omega

theorem before_skip {w : Nat → Int} {k : Int} {t l : Nat} (h : ∀ j, t ≤ j → j < t + l → w j ≠ k) : before w k (t + l) = before w k t := by
  induction l with
  | zero => rfl
  | succ l ih =>
    show before w k (t + l) + (if w (t + l) = k then 1 else 0) = _
    rw [ih fun j h1 h2 => h j h1 (by omega), if_neg (h (t + l) (by omega) (by omega))]
    rfl

theorem before_mono (w : Nat → Int) (k : Int) {i j : Nat} (h : i ≤ j) : before w k i ≤ before w k j := by
  induction j with
  | zero => rw [show i = 0 by omega]; exact Nat.le_refl _
  | succ j ih =>
    by_cases he : i = j + 1
    · rw [he]; exact Nat.le_refl _
    · have := ih (by omega)
      show _ ≤ before w k j + _
      omega

theorem before_lt (w : Nat → Int) (k : Int) {i j : Nat} (h : i < j) (hw : w i = k) : before w k i < before w k j := by
  have h1 := before_mono w k (show i + 1 ≤ j by omega)
  have h2 : before w k (i + 1) = before w k i + 1 := by
    show before w k i + _ = _
    rw [if_pos hw]
  omega

theorem before_le (w : Nat → Int) (k : Int) (n : Nat) : before w k n ≤ n := by
  induction n with
  | zero => exact Nat.le_refl _
  | succ n ih =>
    show before w k n + _ ≤ _
    split <;> omega

theorem before_congr {w w' : Nat → Int} {k k' : Int} {n : Nat} (h : ∀ i, i < n → (w i = k ↔ w' i = k')) : before w k n = before w' k' n := by
  induction n with
  | zero => rfl
  | succ n ih =>
    show before w k n + _ = before w' k' n + _
    rw [ih fun i hi => h i (by omega)]
    by_cases hk : w n = k
    · rw [if_pos hk, if_pos ((h n (by omega)).1 hk)]
    · rw [if_neg hk, if_neg (fun he => hk ((h n (by omega)).2 he))]

theorem before_zero {w : Nat → Int} {k : Int} {n : Nat} (h : ∀ i, i < n → w i ≠ k) : before w k n = 0 := by
  have := before_skip (w := w) (k := k) (t := 0) (l := n) fun j _ h2 => h j (by omega)
  rw [Nat.zero_add] at this
  exact this

theorem before_all {w : Nat → Int} {k : Int} {n : Nat} (h : ∀ i, i < n → w i = k) : before w k n = n := by
  have := before_run (w := w) (k := k) (t := 0) (l := n) fun j _ h2 => h j (by omega)
  rw [Nat.zero_add] at this
  rw [this]
  show 0 + n = n
  omega

theorem before_all' {w : Nat → Int} {k : Int} {n : Nat} (h : before w k n = n) : ∀ i, i < n → w i = k := by
  induction n with
  | zero => intro i hi; omega
  | succ n ih =>
    have hb : before w k n + (if w n = k then 1 else 0) = n + 1 := h
    have h1 := before_le w k n
    by_cases hk : w n = k
    · rw [if_pos hk] at hb
      intro i hi
      by_cases he : i = n
      · rw [he]; exact hk
      · exact ih (by omega) i (by omega)
    · rw [if_neg hk] at hb
      omega

/-! ## Sizes of cells -/

theorem ctz_dvd (fuel n : Nat) : 2^(ctz fuel n) ∣ n := by
  induction fuel generalizing n with
  | zero => exact ⟨n, by show n = 2^0 * n; omega⟩
  | succ fuel ih =>
    unfold ctz
    by_cases h : n % 2 = 1
    · rw [if_pos h]; exact ⟨n, by omega⟩
    · rw [if_neg h]
      obtain ⟨q, hq⟩ := ih (n / 2)
      refine ⟨q, ?_⟩
      rw [Nat.pow_add, Nat.pow_one, Nat.mul_assoc, ← hq]
      omega

theorem ctz_pow (fuel t : Nat) (h : t < fuel) : ctz fuel (2^t) = t := by
  induction t generalizing fuel with
  | zero =>
    obtain ⟨f, rfl⟩ : ∃ f, fuel = f + 1 := ⟨fuel - 1, by omega⟩
    rfl
  | succ t ih =>
    obtain ⟨f, rfl⟩ : ∃ f, fuel = f + 1 := ⟨fuel - 1, by omega⟩
    unfold ctz
    have e : 2^(t + 1) = 2 * 2^t := by rw [Nat.pow_succ]; omega
    rw [if_neg (by omega), show 2^(t + 1) / 2 = 2^t by omega, ih f (by omega)]
    omega

/-- Sizes of elements. -/
def IsLog (log : Nat) : Prop := log = 0 ∨ log = 3 ∨ log = 4 ∨ log = 5 ∨ log = 6

structure CellsOk (log : Nat) (cell : List Nat) (c : Cells) : Prop where
  csz : c.csz = prod cell
  per : c.per log = prod cell
  cpu : prod cell ≠ 0 → 3 ≤ c.xl → c.xl - 3 ≤ 3 → 2^c.xl / 2^log = prod cell
  bit : prod cell ≠ 0 → c.xl = 0 → prod cell = 1
  width : c.width * 8 ≤ prod cell * 2^log * 8
  /-- in bytes -/
  width8 : log ≠ 0 → c.width * 8 = prod cell * 2^log
  log0 : c.xl = 0 → log = 0

theorem cellsOf_ok (log : Nat) (cell : List Nat) (hl : IsLog log) (hc : prod cell < 2^32) : CellsOk log cell (cellsOf log cell) := by
  cases cell with
  | nil => rcases hl with h | h | h | h | h <;> subst h <;> exact ⟨rfl, rfl, by decide, by decide, by decide, by decide, by decide⟩
  | cons s cell =>
    generalize hcz : prod (s :: cell) = csz at hc
    have hcs : (csz ||| (if csz = 0 then 1 else 0)) = if csz = 0 then 1 else csz := by
      by_cases h0 : csz = 0
      · rw [if_pos h0, if_pos h0, h0]; rfl
      · rw [if_neg h0, if_neg h0, Nat.or_zero]
    generalize hcs' : (if csz = 0 then 1 else csz) = cs at hcs
    have hcs0 : cs ≠ 0 := by
      rw [← hcs']; split <;> omega
    have hdvd := ctz_dvd 32 cs
    -- powers of 2
    have hpow : (cs &&& (cs - 1)) = 0 → cs = 2^(ctz 32 cs) := by
      intro h
      obtain ⟨t, ht⟩ := (Nat.and_sub_one_eq_zero_iff_isPowerOfTwo hcs0).1 h
      have : t < 32 := by
        by_cases h32 : t < 32
        · exact h32
        · have h1 := Nat.pow_le_pow_right (show 2 > 0 by decide) (show 32 ≤ t by omega)
          have : cs < 2^32 := by rw [← hcs']; split <;> omega
          omega
      rw [ht, ctz_pow 32 t this]
    generalize hctz : ctz 32 cs = z at hdvd hpow
    have hcell : cellsOf log (s :: cell) = (
      let bits := log == 0
      let width := (if bits then 1 else 2^(log - 3)) * csz
      let xl := log + z
      let bw := if bits && decide (3 ≤ xl) then (false, width / 8) else (bits, width)
      let xl := if (cs &&& (cs - 1)) ≠ 0 ∨ 7 < xl then 7 else xl
      ({ rank1 := false, csz, xl, bits := bw.1, width := bw.2 } : Cells)) := by
      unfold cellsOf
      dsimp only
      rw [hcz, hcs, hctz]
    rw [hcell]
    dsimp only
    by_cases h0 : log = 0
    · subst h0
      rw [show ((0 : Nat) == 0) = true from rfl, if_pos rfl]
      by_cases h3 : 3 ≤ 0 + z
      · rw [if_pos (show (true && decide (3 ≤ 0 + z)) = true by simp only [h3, decide_true, Bool.and_self])]
        dsimp only
        have h8 : 8 ∣ csz := by
          have h1 : (8 : Nat) ∣ 2^z := by
            have := Nat.pow_dvd_pow 2 (show 3 ≤ z by omega)
            exact this
          by_cases hz : csz = 0
          · rw [hz]; exact ⟨0, rfl⟩
          · rw [if_neg hz] at hcs'
            rw [hcs']
            exact Nat.dvd_trans h1 hdvd
        obtain ⟨q, hq⟩ := h8
        refine ⟨hcz.symm, ?_, ?_, ?_, ?_, fun h => absurd rfl h, fun _ => rfl⟩
        · show (1 * csz / 8) * (if false = true then 1 else 8) / 2^0 = _
          rw [if_neg (by decide), hcz]
          omega
        · rw [hcz]
          intro hn0 h1 h2
          rw [if_neg hn0] at hcs'
          dsimp only at h1 h2 ⊢
          by_cases hp : (cs &&& (cs - 1)) ≠ 0 ∨ 7 < 0 + z
          · rw [if_pos hp] at h2
            omega
          · rw [if_neg hp] at h2 ⊢
            rw [hcs', hpow (Decidable.not_not.1 fun hh => hp (Or.inl hh))]
            rw [Nat.zero_add]
            omega
        · intro hn0 h1
          dsimp only at h1
          split at h1 <;> omega
        · show 1 * csz / 8 * 8 ≤ _
          rw [hcz]
          omega
      · rw [if_neg (show ¬ (true && decide (3 ≤ 0 + z)) = true by simp only [h3, decide_false, Bool.and_false, Bool.false_eq_true, not_false_eq_true])]
        dsimp only
        refine ⟨hcz.symm, ?_, ?_, ?_, ?_, fun h => absurd rfl h, fun _ => rfl⟩
        · show (1 * csz) * (if true = true then 1 else 8) / 2^0 = _
          rw [if_pos rfl, hcz]
          omega
        · intro hn0 h1 h2
          dsimp only at h1 h2
          split at h1
          · rename_i hp
            rw [if_pos hp] at h2
            omega
          · omega
        · rw [hcz]
          intro hn0 h1
          dsimp only at h1
          rw [if_neg hn0] at hcs'
          by_cases hp : (cs &&& (cs - 1)) ≠ 0 ∨ 7 < 0 + z
          · rw [if_pos hp] at h1
            omega
          · rw [if_neg hp] at h1
            rw [hcs', hpow (Decidable.not_not.1 fun hh => hp (Or.inl hh)), show z = 0 by omega]
        · show 1 * csz * 8 ≤ _
          rw [hcz]
          omega
    · rw [show (log == 0) = false by simp [h0]]
      rw [if_neg (show ¬ false = true by decide), if_neg (show ¬ (false && decide (3 ≤ log + z)) = true by simp)]
      dsimp only
      have hlg : ∃ t, log = t + 3 := ⟨log - 3, by rcases hl with h | h | h | h | h <;> omega⟩
      obtain ⟨t, rfl⟩ := hlg
      have hw : 2^(t + 3 - 3) * csz * 8 = csz * 2^(t + 3) := by
        rw [Nat.add_sub_cancel, Nat.pow_add, Nat.mul_comm (2^t) csz, Nat.mul_assoc]
      refine ⟨hcz.symm, ?_, ?_, ?_, ?_, fun _ => ?_, fun h => by dsimp only at h; split at h <;> omega⟩
      · show 2^(t + 3 - 3) * csz * (if false = true then 1 else 8) / 2^(t + 3) = _
        rw [if_neg (by decide), hw, Nat.mul_div_cancel _ (Nat.two_pow_pos _), hcz]
      · rw [hcz]
        intro hn0 h1 h2
        rw [if_neg hn0] at hcs'
        dsimp only at h1 h2 ⊢
        by_cases hp : (cs &&& (cs - 1)) ≠ 0 ∨ 7 < t + 3 + z
        · rw [if_pos hp] at h2
          omega
        · rw [if_neg hp] at h2 ⊢
          rw [hcs', hpow (Decidable.not_not.1 fun hh => hp (Or.inl hh)), Nat.pow_add, Nat.mul_div_cancel_left _ (Nat.two_pow_pos _)]
      · intro hn0 h1
        dsimp only at h1
        split at h1 <;> omega
      · rw [hcz]
        dsimp only
        generalize csz * 2^(t + 3) = y at hw ⊢
        omega
      · rw [hcz]
        exact hw

end Verif.Group
