import Verif.Reshape.Lemmas
/-!
# Reshape repeats the argument's elements in order (C42)

Specification: element `i` of the result is element `i` mod `n` of `𝕩`, where `n` is the number of elements of `𝕩`. The elements of an array are the `w`-bit
pieces of its memory, for a boolean array its bits. The outcome `none` is a write outside the result, or a copy between regions that overlap.
-/
namespace Verif.Reshape
open Verif.Bits

theorem memcpy_ok {lim n : Nat} {m x : Mem} (h : n ≤ lim) : ∃ m', memcpy lim m x n = some m' ∧ ∀ k, k < 8 * n → m' k = x k := by
  unfold memcpy
  rw [if_pos h]
  exact ⟨_, rfl, fun k hk => by simp only [if_pos hk]⟩

/-- What follows the preparation of the first bits. -/
theorem tail_ok {x : Mem} {p nw nia b : Nat} {m : Mem} (hnia : nia ≤ 64 * nw) (h0 : 0 < nia) (h8 : 8 ∣ b) (hb0 : 0 < b)
    (h : (p ∣ b ∧ ∀ k, k < b → k < 64 * nw → m k = x (k % p)) ∨ (b = 64 * nw ∧ Per x p nia m)) :
    ∃ m', (if b / 8 = 1 then finish (8 * nw) (8 * nw) (8 * nw) (fun k => if k < 8 * (8 * nw) then m (k % 8) else m k) else finish (8 * nw) (b / 8) (8 * nw) m) = some m' ∧
      ∀ k, k < nia → m' k = x (k % p) := by
  by_cases hc : b / 8 = 1
  · rw [if_pos hc]
    obtain ⟨m', e, q⟩ := finish_skip (lim := 8 * nw) (bi := 8 * nw) (bf := 8 * nw) (m := fun k => if k < 8 * (8 * nw) then m (k % 8) else m k) (by omega) (Nat.le_refl _) (Nat.le_refl _)
    refine ⟨m', e, fun k hk => ?_⟩
    rw [q k (by omega)]
    rw [if_pos (by omega)]
    have hb : b = 8 := by omega
    rcases h with ⟨hp, hm⟩ | ⟨he, _⟩
    · rw [hm _ (by omega) (by omega), Nat.mod_mod_of_dvd _ (hb ▸ hp)]
    · omega
  · rw [if_neg hc]
    rcases h with ⟨hp, hm⟩ | ⟨he, hm⟩
    · by_cases hle : b ≤ 64 * nw
      · have h88 : 8 * (b / 8) = b := by omega
        obtain ⟨m', e, q⟩ := finish_ok (x := x) (p := p) (lim := 8 * nw) (bi := b / 8) (bf := 8 * nw) (m := m) (by omega) (Nat.le_refl _) (by omega) (by rw [h88]; exact hp)
          (fun k hk => hm k (by omega) (by omega))
        exact ⟨m', e, fun k hk => q k (by omega)⟩
      · obtain ⟨m', e, q⟩ := finish_skip (lim := 8 * nw) (bi := b / 8) (bf := 8 * nw) (m := m) (by omega) (Nat.le_refl _) (by omega)
        exact ⟨m', e, fun k hk => by rw [q k (by omega), hm k (by omega) (by omega)]⟩
    · obtain ⟨m', e, q⟩ := finish_skip (lim := 8 * nw) (bi := b / 8) (bf := 8 * nw) (m := m) (by omega) (Nat.le_refl _) (by omega)
      exact ⟨m', e, fun k hk => by rw [q k (by omega), hm k hk]⟩

/-- Reshape of a boolean array of two or more elements to a greater number of elements: bit `k` of the result is bit `k` mod `xia` of the argument, and nothing outside the result is written,
whatever the new memory contains (`junk`) and whatever precedes the array (`before`). -/
theorem cycleBits_spec (nia xia : Nat) (x junk : Mem) (before : Int → Word) (h2 : 2 ≤ xia) (h : xia < nia) :
    ∃ m, cycleBits nia xia x junk before = some m ∧ ∀ k, k < nia → m k = x (k % xia) := by
  unfold cycleBits
  simp only
  generalize hnw : (nia + 63) / 64 = nw
  have hn1 : nia ≤ 64 * nw := by omega
  have hn2 : 64 * nw < nia + 64 := by omega
  -- the first part
  suffices hs : ∃ b m, (if xia % 8 ≠ 0 then
      (if xia < 64 then
        (store (8 * nw) junk 0 (grow 6 (word x 0 &&& (BitVec.allOnes 64 >>> (64 - xia))) xia).1).bind fun m =>
          (if (grow 6 (word x 0 &&& (BitVec.allOnes 64 >>> (64 - xia))) xia).2 > 64 ∧ nia > 64 then
            store (8 * nw) m 1 ((grow 6 (word x 0 &&& (BitVec.allOnes 64 >>> (64 - xia))) xia).1 >>> (64 - (grow 6 (word x 0 &&& (BitVec.allOnes 64 >>> (64 - xia))) xia).2 / 2)) else some m).map
            fun m => ((grow 6 (word x 0 &&& (BitVec.allOnes 64 >>> (64 - xia))) xia).2, m)
      else (memcpy (8 * nw) junk x ((xia + 7) / 8)).map fun m => (xia, m)).bind fun (b, m) => doubleBits (8 * nw) nw nia before 64 b m
    else (memcpy (8 * nw) junk x (xia / 8)).map fun m => (xia, m)) = some (b, m) ∧ 8 ∣ b ∧ 0 < b ∧
      ((xia ∣ b ∧ ∀ k, k < b → k < 64 * nw → m k = x (k % xia)) ∨ (b = 64 * nw ∧ Per x xia nia m)) by
    obtain ⟨b, m, e, h8, hb0, hor⟩ := hs
    obtain ⟨m', e', q⟩ := tail_ok hn1 (by omega) h8 hb0 hor
    refine ⟨m', ?_, q⟩
    rw [e, Option.bind_some]
    exact e'
  by_cases h8 : xia % 8 ≠ 0
  · rw [if_pos h8]
    by_cases h64 : xia < 64
    · rw [if_pos h64]
      have hw : WPer x xia xia (word x 0 &&& (BitVec.allOnes 64 >>> (64 - xia))) := by
        intro k hk
        rw [BitVec.getLsbD_and, word_bit _ _ _ hk, BitVec.getLsbD_ushiftRight, BitVec.getLsbD_allOnes]
        by_cases hkb : k < xia
        · have : 64 - xia + k < 64 := by omega
          simp [hkb, this, Nat.mod_eq_of_lt]
        · have : ¬ 64 - xia + k < 64 := by omega
          simp [hkb, this]
      obtain ⟨c, q1, q2, q3, q4, q5, q6⟩ := grow_ok x xia 6 xia _ (by omega) (by omega) h64 (Nat.dvd_refl _) hw
      generalize (grow 6 (word x 0 &&& (BitVec.allOnes 64 >>> (64 - xia))) xia) = g at *
      obtain ⟨v, b⟩ := g
      simp only at q4 q5 ⊢
      subst q4
      have hst : ∃ m, ((store (8 * nw) junk 0 v).bind fun m => (if c * 2 > 64 ∧ nia > 64 then store (8 * nw) m 1 (v >>> (64 - c * 2 / 2)) else some m).map fun m => (c * 2, m)) = some (c * 2, m) ∧
          ∀ k, k < c * 2 → k < 64 * nw → m k = x (k % xia) := by
        rw [store, if_pos (by omega), Option.bind_some]
        by_cases hc : c * 2 > 64 ∧ nia > 64
        · rw [if_pos hc, store, if_pos (by omega)]
          refine ⟨_, rfl, fun k hk hk2 => ?_⟩
          by_cases h1 : k / 64 = 1
          · rw [if_pos h1, BitVec.getLsbD_ushiftRight, q5 _ (by omega)]
            have e1 : 64 - c * 2 / 2 + k % 64 = k - c := by omega
            rw [e1, sub_mod_of_dvd q1 (by omega)]
            have : k - c < c * 2 := by omega
            simp [this]
          · rw [if_neg h1, if_pos (by omega), q5 _ (by omega)]
            have e1 : k % 64 = k := by omega
            rw [e1]
            simp [hk]
        · rw [if_neg hc]
          refine ⟨_, rfl, fun k hk hk2 => ?_⟩
          rw [if_pos (by omega), q5 _ (by omega)]
          have e1 : k % 64 = k := by omega
          rw [e1]
          simp [hk]
      obtain ⟨m, e, hm⟩ := hst
      rw [e, Option.bind_some]
      exact doubleBits_ok before (by omega) hn1 hn2 63 (c * 2) m ⟨c * 2 * 2 ^ 60, by omega⟩ (by omega) (Nat.dvd_trans q1 (Nat.dvd_mul_right _ _)) hm
    · rw [if_neg h64]
      obtain ⟨m, e, hm⟩ := memcpy_ok (lim := 8 * nw) (n := (xia + 7) / 8) (m := junk) (x := x) (by omega)
      rw [e, Option.map_some, Option.bind_some]
      exact doubleBits_ok before (by omega) hn1 hn2 63 xia m ⟨xia * 2 ^ 60, by omega⟩ (by omega) (Nat.dvd_refl _) (fun k hk _ => by rw [hm k (by omega), Nat.mod_eq_of_lt hk])
  · rw [if_neg h8]
    obtain ⟨m, e, hm⟩ := memcpy_ok (lim := 8 * nw) (n := xia / 8) (m := junk) (x := x) (by omega)
    rw [e, Option.map_some]
    exact ⟨xia, m, rfl, by omega, by omega, .inl ⟨Nat.dvd_refl _, fun k hk _ => by rw [hm k (by omega), Nat.mod_eq_of_lt hk]⟩⟩

/-- Three bits repeated to eleven, in memory full of ones. -/
example : (cycleBits 11 3 (fun k => k == 1) (fun _ => true) (fun _ => 0)).map (firstN · 11) = some [false, true, false, false, true, false, false, true, false, false, true] := by decide +kernel
example : ∃ m, cycleBits 1000 67 (fun k => k % 7 == 3) (fun _ => true) (fun _ => 0) = some m ∧ ∀ k, k < 1000 → m k = (k % 67 % 7 == 3) :=
  cycleBits_spec 1000 67 _ _ _ (by decide) (by decide)

/-- Reshape of an array with elements of `2^xk` bytes to a greater number of elements: element `i` of the result is element `i` mod `xia` of the argument. -/
theorem cycleTyped_spec (nia xia xk : Nat) (x junk : Mem) (h1 : 1 ≤ xia) (h : xia < nia) :
    ∃ m, cycleTyped nia xia xk x junk = some m ∧ ∀ i, i < nia → elem m (8 * 2 ^ xk) i = elem x (8 * 2 ^ xk) (i % xia) := by
  unfold cycleTyped
  simp only [Nat.shiftLeft_eq]
  have hpos : 0 < 2 ^ xk := Nat.two_pow_pos xk
  generalize 2 ^ xk = w at *
  have hle : xia * w ≤ nia * w := Nat.mul_le_mul_right w (Nat.le_of_lt h)
  have hx0 : 0 < xia * w := Nat.mul_pos h1 hpos
  obtain ⟨m, e, hm⟩ := memcpy_ok (lim := nia * w) (n := xia * w) (m := junk) (x := x) hle
  rw [e, Option.bind_some]
  obtain ⟨m', e', q⟩ := finish_ok (x := x) (p := 8 * (xia * w)) (lim := nia * w) (bi := xia * w) (bf := nia * w) (m := m) hx0 (Nat.le_refl _) hle (Nat.dvd_refl _)
    (fun k hk => by rw [hm k hk, Nat.mod_eq_of_lt hk])
  refine ⟨m', e', fun i hi => ?_⟩
  apply BitVec.eq_of_getLsbD_eq
  intro j hj
  rw [elem_bit _ _ _ _ hj, elem_bit _ _ _ _ hj]
  have hi1 : 8 * w * (i + 1) ≤ 8 * w * nia := Nat.mul_le_mul_left _ hi
  have hi2 : 8 * w * (i % xia + 1) ≤ 8 * w * xia := Nat.mul_le_mul_left _ (Nat.mod_lt _ h1)
  have a1 : 8 * (nia * w) = 8 * w * nia := by rw [Nat.mul_comm nia, Nat.mul_assoc]
  have a2 : 8 * (xia * w) = 8 * w * xia := by rw [Nat.mul_comm xia, Nat.mul_assoc]
  rw [Nat.mul_add] at hi1 hi2
  rw [q _ (by omega), a2]
  congr 1
  have a3 : 8 * w * i + j = 8 * w * (i % xia) + j + 8 * w * xia * (i / xia) := by
    have := Nat.mod_add_div i xia
    calc 8 * w * i + j = 8 * w * (i % xia + xia * (i / xia)) + j := by rw [this]
      _ = _ := by rw [Nat.mul_add, Nat.mul_assoc (8 * w) xia]; omega
  rw [a3, Nat.add_mul_mod_self_left, Nat.mod_eq_of_lt (by omega)]

/-- Three 16-bit elements repeated to seven. -/
example : (cycleTyped 7 3 1 (fun k => (0x0005_0004_0003#64).getLsbD k) (fun _ => true)).map (fun m => (List.range 7).map fun i => elem m 16 i) = some [3, 4, 5, 3, 4, 5, 3] := by decide +kernel
/-- Four bytes repeated: the path through `fill_words`. -/
example : (cycleTyped 9 4 0 (fun k => (0x04030201#64).getLsbD k) (fun _ => true)).map (fun m => (List.range 9).map fun i => elem m 8 i) = some [1, 2, 3, 4, 1, 2, 3, 4, 1] := by decide +kernel

theorem copyItems_ok {α} (x : List α) : ∀ n r, (∀ i, i < r.length → r[i]? = x[i % x.length]?) → (∃ q, r.length = x.length * q) →
    (copyItems x n r).length = r.length + x.length * n ∧ ∀ i, i < r.length + x.length * n → (copyItems x n r)[i]? = x[i % x.length]? := by
  intro n
  induction n with
  | zero => intro r h _; exact ⟨by simp [copyItems], fun i hi => h i (by simpa using hi)⟩
  | succ n ih =>
    intro r h hq
    obtain ⟨q, hq⟩ := hq
    have := ih (r ++ x) (by
      intro i hi
      rw [List.length_append] at hi
      by_cases hc : i < r.length
      · rw [List.getElem?_append_left hc]; exact h i hc
      · rw [List.getElem?_append_right (by omega)]
        congr 1
        rw [hq]
        have : i = (i - x.length * q) + x.length * q := by omega
        conv => rhs; rw [this, Nat.add_mul_mod_self_left, Nat.mod_eq_of_lt (by omega)]) ⟨q + 1, by rw [List.length_append, hq, Nat.mul_succ]⟩
    rw [List.length_append] at this
    rw [copyItems]
    have e : r.length + x.length * (n + 1) = r.length + x.length + x.length * n := by rw [Nat.mul_succ]; omega
    rw [e]
    exact this

/-- Reshape of a list of other values: the result has `nia` elements, and element `i` is element `i` mod `n` of the argument. -/
theorem cycleItems_spec {α} (nia : Nat) (x : List α) (h : x ≠ []) : (cycleItems nia x).length = nia ∧ ∀ i, i < nia → (cycleItems nia x)[i]? = x[i % x.length]? := by
  have hpos : 0 < x.length := List.length_pos_iff.mpr h
  unfold cycleItems
  obtain ⟨h1, h2⟩ := copyItems_ok x (nia / x.length) [] (fun i hi => absurd hi (by simp)) ⟨0, rfl⟩
  have hd := Nat.div_add_mod nia x.length
  have hm := Nat.mod_lt nia hpos
  simp only [List.length_nil, Nat.zero_add] at h1 h2
  refine ⟨by rw [List.length_append, h1, List.length_take]; omega, fun i hi => ?_⟩
  by_cases hc : i < x.length * (nia / x.length)
  · rw [List.getElem?_append_left (by omega)]; exact h2 i hc
  · rw [List.getElem?_append_right (by omega), h1, List.getElem?_take_of_lt (by omega)]
    congr 1
    have : i = (i - x.length * (nia / x.length)) + x.length * (nia / x.length) := by omega
    conv => rhs; rw [this, Nat.add_mul_mod_self_left, Nat.mod_eq_of_lt (by omega)]

example : cycleItems 8 ["a", "b", "c"] = ["a", "b", "c", "a", "b", "c", "a", "b"] := by decide

/-! ## One value -/

/-- The value of element `i` of an array of type `t`. -/
def valueOf (t : El) (m : Mem) (i : Nat) : Atom :=
  match t with
  | .bit => .int (if m i then 1 else 0)
  | .i8 => .int (elem m 8 i).toInt
  | .i16 => .int (elem m 16 i).toInt
  | .i32 => .int (elem m 32 i).toInt
  | .f64 => .float (elem m 64 i)
  | .c8 => .chr (elem m 8 i).toNat
  | .c16 => .chr (elem m 16 i).toNat
  | .c32 => .chr (elem m 32 i).toNat

theorem rep16 (v : BitVec 16) (q j : Nat) (hq : q < 4) (hj : j < 16) : (v.setWidth 64 * 0x0001000100010001#64).getLsbD (16 * q + j) = v.getLsbD j := by
  have hv := v.isLt
  have e : (v.setWidth 64 * 0x0001000100010001#64).toNat = v.toNat * 0x0001000100010001 := by
    rw [BitVec.toNat_mul, BitVec.toNat_setWidth, BitVec.toNat_ofNat]
    omega
  rw [BitVec.getLsbD, e, BitVec.getLsbD, Nat.add_comm, ← Nat.testBit_div_two_pow]
  have e2 : v.toNat * 0x0001000100010001 / 2 ^ (16 * q) % 2 ^ 16 = v.toNat := by
    have d1 : v.toNat * 0x0001000100010001 / 2 ^ 16 = v.toNat * 0x000100010001 := by omega
    have d2 : v.toNat * 0x0001000100010001 / 2 ^ 32 = v.toNat * 0x00010001 := by omega
    have d3 : v.toNat * 0x0001000100010001 / 2 ^ 48 = v.toNat := by omega
    rcases (by omega : q = 0 ∨ q = 1 ∨ q = 2 ∨ q = 3) with rfl | rfl | rfl | rfl
    · omega
    · rw [Nat.mul_one, d1]; omega
    · rw [show 16 * 2 = 32 from rfl, d2]; omega
    · rw [show 16 * 3 = 48 from rfl, d3]; omega
  conv => rhs; rw [← e2, Nat.testBit_mod_two_pow]
  simp [hj]

theorem rep32 (v : BitVec 32) (q j : Nat) (hq : q < 2) (hj : j < 32) : (v.setWidth 64 * 0x0000000100000001#64).getLsbD (32 * q + j) = v.getLsbD j := by
  have hv := v.isLt
  have e : (v.setWidth 64 * 0x0000000100000001#64).toNat = v.toNat * 0x0000000100000001 := by
    rw [BitVec.toNat_mul, BitVec.toNat_setWidth, BitVec.toNat_ofNat]
    omega
  rw [BitVec.getLsbD, e, BitVec.getLsbD, Nat.add_comm, ← Nat.testBit_div_two_pow]
  have e2 : v.toNat * 0x0000000100000001 / 2 ^ (32 * q) % 2 ^ 32 = v.toNat := by
    have d1 : v.toNat * 0x0000000100000001 / 2 ^ 32 = v.toNat := by omega
    rcases (by omega : q = 0 ∨ q = 1) with rfl | rfl
    · omega
    · rw [Nat.mul_one, d1]; omega
  conv => rhs; rw [← e2, Nat.testBit_mod_two_pow]
  simp [hj]

theorem fill16 (nia : Nat) (junk : Mem) (v : BitVec 16) : ∃ m, fillWords (nia * 2) junk (v.setWidth 64 * 0x0001000100010001#64) (nia * 2) = some m ∧ ∀ i, i < nia → elem m 16 i = v := by
  obtain ⟨m, e, h⟩ := fillWords_ok (nia * 2) junk (v.setWidth 64 * 0x0001000100010001#64) (nia * 2) (Nat.le_refl _)
  refine ⟨m, e, fun i hi => ?_⟩
  apply BitVec.eq_of_getLsbD_eq
  intro j hj
  rw [elem_bit _ _ _ _ hj, h _ (by omega)]
  have : (16 * i + j) % 64 = 16 * (i % 4) + j := by omega
  rw [this, rep16 v _ _ (by omega) hj]

theorem fill32 (nia : Nat) (junk : Mem) (v : BitVec 32) : ∃ m, fillWords (nia * 4) junk (v.setWidth 64 * 0x0000000100000001#64) (nia * 4) = some m ∧ ∀ i, i < nia → elem m 32 i = v := by
  obtain ⟨m, e, h⟩ := fillWords_ok (nia * 4) junk (v.setWidth 64 * 0x0000000100000001#64) (nia * 4) (Nat.le_refl _)
  refine ⟨m, e, fun i hi => ?_⟩
  apply BitVec.eq_of_getLsbD_eq
  intro j hj
  rw [elem_bit _ _ _ _ hj, h _ (by omega)]
  have : (32 * i + j) % 64 = 32 * (i % 2) + j := by omega
  rw [this, rep32 v _ _ (by omega) hj]

theorem fill8 (nia : Nat) (junk : Mem) (v : BitVec 8) : ∃ m, memset nia junk v nia = some m ∧ ∀ i, i < nia → elem m 8 i = v := by
  unfold memset
  rw [if_pos (Nat.le_refl _)]
  refine ⟨_, rfl, fun i hi => ?_⟩
  apply BitVec.eq_of_getLsbD_eq
  intro j hj
  rw [elem_bit _ _ _ _ hj, if_pos (by omega)]
  congr 1
  omega

/-- Reshape of a single value: every element of the result is that value, whichever type the result has. -/
theorem reshapeOne_spec (nia : Nat) (x : Atom) (junk : Mem) (hx : match x with | .int n => -2 ^ 31 ≤ n ∧ n < 2 ^ 31 | .float _ => True | .chr c => c < 2 ^ 21) :
    ∃ t m, reshapeOne nia x junk = some (t, m) ∧ ∀ i, i < nia → valueOf t m i = x := by
  cases x with
  | float u =>
    obtain ⟨m, e, h⟩ := fillWords_ok (nia * 8) junk u (nia * 8) (Nat.le_refl _)
    refine ⟨.f64, m, by rw [reshapeOne, e]; rfl, fun i hi => ?_⟩
    rw [valueOf]
    congr 1
    apply BitVec.eq_of_getLsbD_eq
    intro j hj
    rw [elem_bit _ _ _ _ hj, h _ (by omega)]
    congr 1
    omega
  | int n =>
    simp only at hx
    rw [reshapeOne]
    by_cases h8 : n = (BitVec.ofInt 8 n).toInt
    · rw [if_pos h8]
      by_cases h1 : (BitVec.ofInt 8 n).toNat ≤ 1
      · rw [if_pos h1, memset, if_pos (Nat.le_refl _)]
        refine ⟨.bit, _, rfl, fun i hi => ?_⟩
        have hn : n = 0 ∨ n = 1 := by
          rw [BitVec.toInt_eq_toNat_cond] at h8
          split at h8 <;> omega
        rw [valueOf]
        simp only [if_pos (show i < 8 * (8 * ((nia + 63) / 64)) by omega)]
        have hm : i % 8 < 8 := Nat.mod_lt _ (by decide)
        generalize i % 8 = j at hm
        congr 1
        rcases hn with rfl | rfl
        · have : ∀ j, j < 8 → (if (BitVec.ofInt 8 (-0)).getLsbD j = true then (1 : Int) else 0) = 0 := by decide
          exact this j hm
        · have : ∀ j, j < 8 → (if (BitVec.ofInt 8 (-1)).getLsbD j = true then (1 : Int) else 0) = 1 := by decide
          exact this j hm
      · rw [if_neg h1]
        obtain ⟨m, e, h⟩ := fill8 nia junk (BitVec.ofInt 8 n)
        exact ⟨.i8, m, by rw [e]; rfl, fun i hi => by rw [valueOf, h i hi, ← h8]⟩
    · rw [if_neg h8]
      by_cases h16 : n = (BitVec.ofInt 16 n).toInt
      · rw [if_pos h16]
        obtain ⟨m, e, h⟩ := fill16 nia junk (BitVec.ofInt 16 n)
        exact ⟨.i16, m, by rw [e]; rfl, fun i hi => by rw [valueOf, h i hi, ← h16]⟩
      · rw [if_neg h16]
        obtain ⟨m, e, h⟩ := fill32 nia junk (BitVec.ofInt 32 n)
        refine ⟨.i32, m, by rw [e]; rfl, fun i hi => ?_⟩
        rw [valueOf, h i hi, BitVec.toInt_ofInt, Int.bmod_def]
        congr 1
        simp only [Nat.reducePow, Int.reducePow] at *
        split <;> omega
  | chr c =>
    simp only at hx
    rw [reshapeOne]
    by_cases h8 : c < 2 ^ 8
    · rw [if_pos h8]
      obtain ⟨m, e, h⟩ := fill8 nia junk (BitVec.ofNat 8 c)
      exact ⟨.c8, m, by rw [e]; rfl, fun i hi => by rw [valueOf, h i hi, BitVec.toNat_ofNat, Nat.mod_eq_of_lt h8]⟩
    · rw [if_neg h8]
      by_cases h16 : c < 2 ^ 16
      · rw [if_pos h16]
        obtain ⟨m, e, h⟩ := fill16 nia junk (BitVec.ofNat 16 c)
        have ec : (BitVec.ofNat 16 c).setWidth 64 = BitVec.ofNat 64 c := by
          apply BitVec.eq_of_toNat_eq
          rw [BitVec.toNat_setWidth, BitVec.toNat_ofNat, BitVec.toNat_ofNat]
          omega
        rw [ec] at e
        exact ⟨.c16, m, by rw [e]; rfl, fun i hi => by rw [valueOf, h i hi, BitVec.toNat_ofNat, Nat.mod_eq_of_lt h16]⟩
      · rw [if_neg h16]
        obtain ⟨m, e, h⟩ := fill32 nia junk (BitVec.ofNat 32 c)
        have ec : (BitVec.ofNat 32 c).setWidth 64 = BitVec.ofNat 64 c := by
          apply BitVec.eq_of_toNat_eq
          rw [BitVec.toNat_setWidth, BitVec.toNat_ofNat, BitVec.toNat_ofNat]
          omega
        rw [ec] at e
        exact ⟨.c32, m, by rw [e]; rfl, fun i hi => by rw [valueOf, h i hi, BitVec.toNat_ofNat, Nat.mod_eq_of_lt (by omega)]⟩

/-- `5⥊¯300`. -/
example : ∃ m, reshapeOne 5 (.int (-300)) (fun _ => true) = some (.i16, m) ∧ (List.range 5).map (valueOf .i16 m) = List.replicate 5 (.int (-300)) := by
  refine ⟨_, rfl, by decide +kernel⟩
example : ∃ t m, reshapeOne 70 (.int 1) (fun _ => false) = some (t, m) ∧ ∀ i, i < 70 → valueOf t m i = .int 1 := reshapeOne_spec 70 (.int 1) _ (by decide)

end Verif.Reshape
