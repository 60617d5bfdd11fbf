import Verif.Shift.Shifts
import Verif.BitCopy.Props
/-!
# Reverse
-/
namespace Verif.Shift
open Verif.Bits Verif.Slash Verif.Rep Verif.Select Verif.Under Verif.Rotate
open Verif.Take (Kind Res cellSize elemKind Lawful cellSize_cons)

/-! ## The width of a cell -/

theorem ctz_first {n k : Nat} (hk : k < 32) (h : n.testBit k = true) (h2 : ∀ j, j < k → n.testBit j = false) : ctz n = k := by
  unfold ctz
  have : (List.range 32).find? n.testBit = some k := by
    rw [List.find?_eq_some_iff_getElem]
    refine ⟨h, k, by simpa using hk, by simp, fun j hj => ?_⟩
    simp [h2 j hj]
  rw [this]
  rfl

/-- A width of up to 64 bits is that of the cell. -/
theorem multWidthLog_le {c lw : Nat} (hl : lw ≤ 6) (h : multWidthLog c lw ≤ 6) : lw ≤ multWidthLog c lw ∧ c = 2^(multWidthLog c lw - lw) := by
  unfold multWidthLog at h ⊢
  by_cases hp : c &&& (c - 1) ≠ 0
  · rw [if_pos hp] at h
    omega
  rw [if_neg hp] at h ⊢
  have h7 : 128 >>> lw = 2^(7 - lw) := by
    rw [Nat.shiftRight_eq_div_pow, show (128 : Nat) = 2^7 from rfl, Nat.pow_div (by omega) (by omega)]
  rw [h7] at h ⊢
  by_cases hc : c = 0
  · subst hc
    rw [Nat.zero_or, ctz_first (k := 7 - lw) (by omega) (by rw [Nat.testBit_two_pow_self]) (fun j hj => by rw [Nat.testBit_two_pow]; simp; omega)] at h
    omega
  obtain ⟨k, rfl⟩ := (Nat.and_sub_one_eq_zero_iff_isPowerOfTwo hc).1 (by omega)
  by_cases hk : k < 7 - lw
  · have e : ctz (2^k ||| 2^(7 - lw)) = k := by
      refine ctz_first (by omega) (by rw [Nat.testBit_or, Nat.testBit_two_pow_self, Bool.true_or]) fun j hj => ?_
      rw [Nat.testBit_or, Nat.testBit_two_pow, Nat.testBit_two_pow, decide_eq_false (by omega), decide_eq_false (by omega)]
      rfl
    rw [e]
    exact ⟨by omega, by rw [Nat.add_sub_cancel_left]⟩
  · have e : ctz (2^k ||| 2^(7 - lw)) = 7 - lw := by
      refine ctz_first (by omega) (by rw [Nat.testBit_or, Nat.testBit_two_pow_self, Bool.or_true]) fun j hj => ?_
      rw [Nat.testBit_or, Nat.testBit_two_pow, Nat.testBit_two_pow, decide_eq_false (by omega), decide_eq_false (by omega)]
      rfl
    rw [e] at h
    omega

theorem cellWidthLog_le {n : Nat} {cell : List Nat} {lw : Nat} (hl : lw ≤ 6) (h : cellWidthLog lw (n :: cell) ≤ 6) :
    lw ≤ cellWidthLog lw (n :: cell) ∧ prod cell = 2^(cellWidthLog lw (n :: cell) - lw) := by
  unfold cellWidthLog at h ⊢
  by_cases h1 : (n :: cell).length ≤ 1
  · rw [if_pos h1]
    have : cell = [] := by cases cell with | nil => rfl | cons _ _ => simp at h1
    rw [this, Nat.sub_self]
    exact ⟨Nat.le_refl _, rfl⟩
  · rw [if_neg h1, cellSize_cons] at h ⊢
    exact multWidthLog_le hl h

/-! ## The loops -/

theorem itemLoop_spec {M} (cpy : M → Nat → Nat → Option M) (n : Nat) (ok : M → Prop) (P : M → Nat → Prop)
    (step : ∀ r i, ok r → i < n → ∃ r', cpy r i (n - i - 1) = some r' ∧ ok r' ∧ P r' i ∧ ∀ a, a < i → P r a → P r' a) :
    ∀ (k i : Nat) (r : M), i + k = n → ok r → (∀ a, a < i → P r a) → ∃ r', itemLoop cpy n k i r = some r' ∧ ok r' ∧ ∀ a, a < n → P r' a := by
  intro k
  induction k with
  | zero => intro i r hi ho hp; exact ⟨r, rfl, ho, fun a ha => hp a (by omega)⟩
  | succ k ih =>
    intro i r hi ho hp
    obtain ⟨r1, e1, o1, p1, q1⟩ := step r i ho (by omega)
    obtain ⟨r2, e2, o2, p2⟩ := ih (i + 1) r1 (by omega) o1 (fun a ha => by
      by_cases h : a = i
      · rw [h]; exact p1
      · exact q1 a (by omega) (hp a (by omega)))
    exact ⟨r2, by rw [itemLoop, e1, Option.bind_some, e2], o2, p2⟩

theorem cellLoop_eq {M} (cpy : M → Nat → Nat → Nat → Option M) (c n : Nat) : ∀ (k i : Nat) (r : M), i + k = n →
    cellLoop cpy c k (i * c) ((n - i) * c) r = itemLoop (fun r a b => cpy r (a * c) (b * c) c) n k i r := by
  intro k
  induction k with
  | zero => intro i r _; rfl
  | succ k ih =>
    intro i r hi
    rw [cellLoop, itemLoop]
    have h1 : (n - i) * c - c = (n - i - 1) * c := by rw [Nat.sub_mul (n - i) 1 c, Nat.one_mul]
    rw [h1]
    congr 1
    funext r'
    rw [show i * c + c = (i + 1) * c by rw [Nat.succ_mul], ← ih (i + 1) r' (by omega), show n - i - 1 = n - (i + 1) by omega]

/-! ## Bytes -/

theorem bytes_loop (x r0 : List (BitVec 8)) (n wd : Nat) (hx : n * wd ≤ x.length) (hr : n * wd ≤ r0.length) :
    ∃ r, itemLoop (fun r a b => memCpy x r (a * wd) (b * wd) wd) n n 0 r0 = some r ∧ r.length = r0.length ∧
      ∀ a, a < n → ∀ t, t < wd → r[a * wd + t]? = x[(n - a - 1) * wd + t]? := by
  refine itemLoop_spec _ n (fun r => r.length = r0.length) (fun r a => ∀ t, t < wd → r[a * wd + t]? = x[(n - a - 1) * wd + t]?) ?_ n 0 r0 (by omega) rfl (fun a ha => by omega)
  intro r i ho hi
  have b1 : i * wd + wd ≤ n * wd := by rw [← Nat.succ_mul]; exact Nat.mul_le_mul_right wd hi
  have b2 : (n - i - 1) * wd + wd ≤ n * wd := by rw [← Nat.succ_mul]; exact Nat.mul_le_mul_right wd (by omega)
  obtain ⟨m, e, hl, hk, hn⟩ := memCpy_get (xs := x) (m := r) (ri := i * wd) (xi := (n - i - 1) * wd) (l := wd) (by omega) (by omega)
  refine ⟨m, e, hl.trans ho, fun t ht => hn t ht, fun a ha hp t ht => ?_⟩
  have b3 : a * wd + wd ≤ i * wd := by rw [← Nat.succ_mul]; exact Nat.mul_le_mul_right wd ha
  rw [hk _ (Or.inl (by omega))]
  exact hp t ht

theorem reverseBytes_spec (junk : Nat → BitVec 8) (lw : Nat) (h3 : 3 ≤ lw) (h6 : lw ≤ 6) (x : List (BitVec 8)) (n : Nat) (cell : List Nat) (hx : x.length = prod (n :: cell) * 2^(lw - 3)) :
    ∃ res, reverseBytes junk lw x (n :: cell) = some (.ok res) ∧ res.shape = n :: cell ∧
      ∀ i p, i < n → p < prod cell → ∀ t, t < 2^(lw - 3) →
        res.get (elemKind junk) ((i * prod cell + p) * 2^(lw - 3) + t) = x[((n - 1 - i) * prod cell + p) * 2^(lw - 3) + t]? := by
  unfold reverseBytes
  dsimp only
  by_cases hn : n ≤ 1
  · rw [if_pos hn]
    refine ⟨_, rfl, rfl, fun i p hi hp t ht => ?_⟩
    rw [show n - 1 - i = i by omega]
    rfl
  rw [if_neg hn, cellSize_cons]
  have e0 : prod (n :: cell) = n * prod cell := rfl
  rw [e0] at hx ⊢
  have key (r : List (BitVec 8)) (hr : ∀ a, a < n → ∀ t, t < prod cell * 2^(lw - 3) → r[a * (prod cell * 2^(lw - 3)) + t]? = x[(n - a - 1) * (prod cell * 2^(lw - 3)) + t]?) :
      ∀ i p, i < n → p < prod cell → ∀ t, t < 2^(lw - 3) →
        r[(i * prod cell + p) * 2^(lw - 3) + t]? = x[((n - 1 - i) * prod cell + p) * 2^(lw - 3) + t]? := by
    intro i p hi hp t ht
    have := hr i hi (p * 2^(lw - 3) + t) (pos_lt hp ht)
    rw [Nat.add_mul, Nat.add_mul, Nat.mul_assoc, Nat.mul_assoc, Nat.add_assoc, Nat.add_assoc, show n - 1 - i = n - i - 1 by omega]
    exact this
  by_cases hf : cellWidthLog lw (n :: cell) ≤ 6 ∧ (3 ≤ cellWidthLog lw (n :: cell) ∨ cellWidthLog lw (n :: cell) = 0)
  · rw [if_pos hf]
    obtain ⟨hw1, hw2⟩ := cellWidthLog_le h6 hf.1
    have hwd : 2^(cellWidthLog lw (n :: cell) - 3) = prod cell * 2^(lw - 3) := by
      rw [hw2, ← Nat.pow_add]
      congr 1
      omega
    rw [hwd]
    have hpos : 0 < prod cell := by rw [hw2]; exact Nat.two_pow_pos _
    obtain ⟨r, e, _, hr⟩ := bytes_loop x (fresh junk (n * prod cell * (prod cell * 2^(lw - 3)))) n (prod cell * 2^(lw - 3)) (by rw [hx, Nat.mul_assoc]; exact Nat.le_refl _)
      (by
        show _ ≤ ((List.range _).map junk).length
        rw [List.length_map, List.length_range]
        exact Nat.mul_le_mul_right _ (Nat.le_mul_of_pos_right n hpos))
    exact ⟨.made r (n :: cell), by rw [e]; rfl, rfl, key r hr⟩
  · rw [if_neg hf]
    have := cellLoop_eq (fun (r : List (BitVec 8)) rp ip l => memCpy x r (rp * 2^(lw - 3)) (ip * 2^(lw - 3)) (l * 2^(lw - 3))) (prod cell) n n 0 (fresh junk (n * prod cell * 2^(lw - 3))) (by omega)
    rw [Nat.zero_mul, Nat.sub_zero] at this
    rw [this]
    obtain ⟨r, e, _, hr⟩ := bytes_loop x (fresh junk (n * prod cell * 2^(lw - 3))) n (prod cell * 2^(lw - 3)) (by rw [hx, Nat.mul_assoc]; exact Nat.le_refl _)
      (by
        show _ ≤ ((List.range _).map junk).length
        rw [List.length_map, List.length_range, Nat.mul_assoc]
        exact Nat.le_refl _)
    refine ⟨.made r (n :: cell), ?_, rfl, key r hr⟩
    have ef : (fun (r : List (BitVec 8)) (a b : Nat) => memCpy x r (a * prod cell * 2^(lw - 3)) (b * prod cell * 2^(lw - 3)) (prod cell * 2^(lw - 3))) =
        fun r a b => memCpy x r (a * (prod cell * 2^(lw - 3))) (b * (prod cell * 2^(lw - 3))) (prod cell * 2^(lw - 3)) := by
      funext r a b
      rw [Nat.mul_assoc, Nat.mul_assoc]
    rw [ef, e]
    rfl

/-! ## Bits -/

theorem mask_bit {wd : Nat} (j : Nat) (hj : j < 64) : (BitVec.ofNat 64 (2^wd - 1)).getLsbD j = decide (j < wd) := by
  rw [BitVec.getLsbD_ofNat, decide_eq_true hj, Bool.true_and, Nat.testBit_two_pow_sub_one]

/-- One item is copied. -/
theorem item_copy (xl : Nat) (h3 : 3 ≤ xl) (h6 : xl ≤ 6) (x r : List Word) (a b : Nat) (ha : (a + 1) * 2^xl ≤ 64 * r.length) (hb : (b + 1) * 2^xl ≤ 64 * x.length) :
    ∃ r', ((loadItem (2^xl) x b).bind (storeItem (2^xl) r a)) = some r' ∧ r'.length = r.length ∧
      ∀ q, bitL r' q = if a * 2^xl ≤ q ∧ q < a * 2^xl + 2^xl then bitL x (b * 2^xl + (q - a * 2^xl)) else bitL r q := by
  have hw : 2^xl = 8 ∨ 2^xl = 16 ∨ 2^xl = 32 ∨ 2^xl = 64 := by
    have : xl = 3 ∨ xl = 4 ∨ xl = 5 ∨ xl = 6 := by omega
    rcases this with h | h | h | h <;> subst h <;> simp
  generalize 2^xl = wd at *
  have la : a * wd / 64 < r.length := by rw [Nat.succ_mul] at ha; omega
  have lb : b * wd / 64 < x.length := by rw [Nat.succ_mul] at hb; omega
  unfold loadItem storeItem
  rw [List.getElem?_eq_getElem lb, List.getElem?_eq_getElem la, Option.map_some, Option.bind_some, Option.bind_some, wr, if_pos la]
  refine ⟨_, rfl, List.length_set, fun q => ?_⟩
  rw [bitL_set la]
  have hxb (t : Nat) (ht : t < wd) : bitL x (b * wd + t) = (x[b * wd / 64]).getLsbD (b * wd % 64 + t) := by
    unfold bitL
    have : (b * wd + t) / 64 = b * wd / 64 ∧ (b * wd + t) % 64 = b * wd % 64 + t := by
      rcases hw with h | h | h | h <;> subst h <;> omega
    rw [this.1, this.2, List.getD_eq_getElem?_getD, List.getElem?_eq_getElem lb]
    rfl
  by_cases hq : q / 64 = a * wd / 64
  · rw [if_pos hq, BitVec.getLsbD_or, BitVec.getLsbD_and, BitVec.getLsbD_not, BitVec.getLsbD_shiftLeft, BitVec.getLsbD_shiftLeft, BitVec.getLsbD_and, BitVec.getLsbD_ushiftRight]
    have hq64 : q % 64 < 64 := by omega
    by_cases hin : a * wd ≤ q ∧ q < a * wd + wd
    · rw [if_pos hin]
      have hs : q % 64 - a * wd % 64 = q - a * wd ∧ ¬ q % 64 < a * wd % 64 := by omega
      rw [hs.1, mask_bit _ (by omega), decide_eq_true hq64, decide_eq_false hs.2, decide_eq_true (show q - a * wd < wd by omega), hxb _ (by omega)]
      simp
    · rw [if_neg hin]
      have hr : bitL r q = (r[a * wd / 64]).getLsbD (q % 64) := by
        unfold bitL
        rw [hq, List.getD_eq_getElem?_getD, List.getElem?_eq_getElem la]
        rfl
      rw [hr, decide_eq_true hq64]
      by_cases hlo : q % 64 < a * wd % 64
      · rw [decide_eq_true hlo]
        simp
      · have : ¬ q % 64 - a * wd % 64 < wd := by omega
        rw [mask_bit _ (by omega), decide_eq_false this]
        simp
  · rw [if_neg hq, if_neg]
    rcases hw with h | h | h | h <;> subst h <;> omega

theorem getBit_eq {r x : List Word} {k j : Nat} (hk : k < 64 * r.length) (hj : j < 64 * x.length) (h : bitL r k = bitL x j) : getBit r k = getBit x j := by
  rw [getBit_some hk, getBit_some hj, h]

theorem reverseBits_spec (junk : Nat → Word) (x : List Word) (n : Nat) (cell : List Nat) (hx : x.length = (prod (n :: cell) + 63) / 64) :
    ∃ res, reverseBits junk x (n :: cell) = some (.ok res) ∧ res.shape = n :: cell ∧
      ∀ i p, i < n → p < prod cell →
        res.get (Take.bitKind junk) (i * prod cell + p) = getBit x ((n - 1 - i) * prod cell + p) := by
  unfold reverseBits
  dsimp only
  by_cases hn : n ≤ 1
  · rw [if_pos hn]
    refine ⟨_, rfl, rfl, fun i p hi hp => ?_⟩
    rw [show n - 1 - i = i by omega]
    rfl
  rw [if_neg hn, cellSize_cons]
  have e0 : prod (n :: cell) = n * prod cell := rfl
  rw [e0] at hx ⊢
  by_cases hf : cellWidthLog 0 (n :: cell) ≤ 6 ∧ (3 ≤ cellWidthLog 0 (n :: cell) ∨ cellWidthLog 0 (n :: cell) = 0)
  · rw [if_pos hf]
    obtain ⟨_, hw2⟩ := cellWidthLog_le (by omega) hf.1
    rw [Nat.sub_zero] at hw2
    by_cases hz : cellWidthLog 0 (n :: cell) = 0
    · rw [if_pos hz]
      rw [hz] at hw2
      rw [hw2, show n * 2^0 = n by omega] at hx ⊢
      rw [if_pos (by omega)]
      refine ⟨_, rfl, rfl, fun i p hi hp => ?_⟩
      show getBit ((List.range ((n + 63) / 64)).map _) _ = _
      rw [show i * 2^0 + p = i by omega, show (n - 1 - i) * 2^0 + p = n - 1 - i by omega, getBit_some (m := x) (by omega)]
      unfold getBit
      rw [List.getElem?_map, List.getElem?_range (by omega), Option.map_some, Option.map_some]
      have := congrArg (fun l : List Bool => l[i]?) (BitCopy.reverse_bits_correct (fun i => x.getD i 0#64) junk n)
      rw [List.getElem?_reverse (by simpa using hi)] at this
      simp only [firstN, List.length_map, List.length_range, List.getElem?_map] at this
      rw [List.getElem?_range hi, List.getElem?_range (by omega), Option.map_some, Option.map_some] at this
      exact this
    · rw [if_neg hz]
      generalize hxl : cellWidthLog 0 (n :: cell) = xl at *
      have h3 : 3 ≤ xl := by omega
      rw [← hw2]
      have hwd : 2^xl / 8 * 8 = 2^xl ∧ 8 ≤ 2^xl := by
        have : xl = 3 ∨ xl = 4 ∨ xl = 5 ∨ xl = 6 := by omega
        rcases this with h | h | h | h <;> subst h <;> simp
      have hlen : n * prod cell ≤ 64 * ((n * prod cell * (prod cell / 8) + 7) / 8) := by
        rw [hw2]
        have : n * 2^xl ≤ n * 2^xl * (2^xl / 8) := Nat.le_mul_of_pos_right _ (by omega)
        omega
      obtain ⟨r, e, hl, hr⟩ := itemLoop_spec (fun r a b => (loadItem (prod cell) x b).bind (storeItem (prod cell) r a)) n
        (fun r => r.length = (n * prod cell * (prod cell / 8) + 7) / 8)
        (fun r a => ∀ t, t < prod cell → bitL r (a * prod cell + t) = bitL x ((n - a - 1) * prod cell + t))
        (by
          intro r i ho hi
          have b1 : (i + 1) * prod cell ≤ n * prod cell := Nat.mul_le_mul_right _ hi
          have b2 : (n - i - 1 + 1) * prod cell ≤ n * prod cell := Nat.mul_le_mul_right _ (by omega)
          obtain ⟨r', e, hl, hg⟩ := item_copy xl h3 hf.1 x r i (n - i - 1) (by rw [← hw2]; omega) (by rw [← hw2]; omega)
          rw [← hw2] at e hg
          refine ⟨r', e, hl.trans ho, fun t ht => ?_, fun a ha hp t ht => ?_⟩
          · rw [hg, if_pos (by omega), Nat.add_sub_cancel_left]
          · have b3 : a * prod cell + prod cell ≤ i * prod cell := by rw [← Nat.succ_mul]; exact Nat.mul_le_mul_right _ ha
            rw [hg, if_neg (by omega)]
            exact hp t ht)
        n 0 (fresh junk ((n * prod cell * (prod cell / 8) + 7) / 8)) (by omega) (by show ((List.range _).map junk).length = _; simp) (fun a ha => by omega)
      refine ⟨.made r (n :: cell), by rw [e]; rfl, rfl, fun i p hi hp => ?_⟩
      have c1 := pos_lt hi hp
      have c2 := pos_lt (show n - 1 - i < n by omega) hp
      refine getBit_eq (by omega) (by omega) ?_
      rw [hr i hi p hp, show n - 1 - i = n - i - 1 by omega]
  · rw [if_neg hf]
    have := cellLoop_eq (fun (r : List Word) rp ip l => bitCpy (fun i => x.getD i 0#64) r rp ip l) (prod cell) n n 0 (fresh junk ((n * prod cell + 63) / 64)) (by omega)
    rw [Nat.zero_mul, Nat.sub_zero] at this
    rw [this]
    obtain ⟨r, e, hl, hr⟩ := itemLoop_spec (fun (r : List Word) a b => bitCpy (fun i => x.getD i 0#64) r (a * prod cell) (b * prod cell) (prod cell)) n
      (fun r => r.length = (n * prod cell + 63) / 64)
      (fun r a => ∀ t, t < prod cell → getBit r (a * prod cell + t) = getBit x ((n - a - 1) * prod cell + t))
      (by
        intro r i ho hi
        have b1 : i * prod cell + prod cell ≤ n * prod cell := by rw [← Nat.succ_mul]; exact Nat.mul_le_mul_right _ hi
        have b2 : (n - i - 1) * prod cell + prod cell ≤ n * prod cell := by rw [← Nat.succ_mul]; exact Nat.mul_le_mul_right _ (by omega)
        obtain ⟨m', e, hl, hk⟩ := bitCpy_get (fun i => x.getD i 0#64) r (i * prod cell) ((n - i - 1) * prod cell) (prod cell) (by omega)
        refine ⟨m', e, hl.trans ho, fun t ht => ?_, fun a ha hp t ht => ?_⟩
        · rw [getBit_some (by omega), hk _ (by omega), if_pos (by omega), Nat.add_sub_cancel_left, getBit_some (by omega), bitL_getD]
        · have b3 : a * prod cell + prod cell ≤ i * prod cell := by rw [← Nat.succ_mul]; exact Nat.mul_le_mul_right _ ha
          rw [← hp t ht, getBit_some (by omega), hk _ (by omega), if_neg (by omega), getBit_some (by omega)])
      n 0 (fresh junk ((n * prod cell + 63) / 64)) (by omega) (by show ((List.range _).map junk).length = _; simp) (fun a ha => by omega)
    refine ⟨.made r (n :: cell), by rw [e]; rfl, rfl, fun i p hi hp => ?_⟩
    show getBit r _ = _
    rw [hr i hi p hp, show n - 1 - i = n - i - 1 by omega]

end Verif.Shift
