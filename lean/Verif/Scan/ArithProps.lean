import Verif.Scan.ArithLemmas
/-! # C17 (+` and -` on booleans) and C37 (+` ⌊` ⌈` on integers) -/
namespace Verif.Scan
open Verif.Bits Spec Fold

/-- C17. `` +`𝕩 `` on a boolean list of any length and content: the prefix sums, whichever result type and loop is chosen. -/
theorem scan_add_bool_correct (ws : List Word) (n : Nat) (hn : n ≤ 64 * ws.length) :
    scan_add_bool ws n = scan (· + ·) ((listL ws n).map bnum) := by
  rw [scan_add_cnt]
  unfold scan_add_bool
  simp only
  rw [bit_sum_eq, bitF_getD]
  by_cases h1 : cnt (bitL ws) n ≤ 1
  · rw [if_pos h1]
    by_cases h0 : cnt (bitL ws) n = 0
    · rw [if_pos h0]
      show (firstN _ _).map bnum = _
      rw [map_bnum_firstN]
      apply firstN_congr
      intro i hi
      have a := cnt_mono (bitL ws) (show i+1 ≤ n by omega)
      have a' : cnt (bitL ws) (i+1) = 0 := by omega
      have b := cnt_bnum (bitL ws) i
      have c := cnt_mono (bitL ws) (show i ≤ n by omega)
      omega
    · rw [if_neg h0]
      show (firstN _ _).map bnum = _
      rw [map_bnum_firstN]
      apply firstN_congr
      intro i hi
      rw [scan_or_cnt ws i (by omega)]
      have a := cnt_mono (bitL ws) (show i+1 ≤ n by omega)
      by_cases hp : 0 < cnt (bitL ws) (i+1)
      · simp only [hp, decide_true, bnum, if_true]; omega
      · simp only [hp, decide_false, bnum, Bool.false_eq_true, if_false]; omega
  · rw [if_neg h1]
    generalize hre : (if cnt (bitL ws) n ≤ 127 then NumEl.i8 else if cnt (bitL ws) n ≤ 32767 then NumEl.i16
      else if cnt (bitL ws) n ≤ 2147483647 then NumEl.i32 else NumEl.f64) = re
    have hm : re.fits (cnt (bitL ws) n) := by
      subst hre
      by_cases a : cnt (bitL ws) n ≤ 127
      · rw [if_pos a]; simp only [NumEl.fits]; omega
      · rw [if_neg a]
        by_cases a : cnt (bitL ws) n ≤ 32767
        · rw [if_pos a]; simp only [NumEl.fits]; omega
        · rw [if_neg a]
          by_cases a : cnt (bitL ws) n ≤ 2147483647
          · rw [if_pos a]; simp only [NumEl.fits]; omega
          · rw [if_neg a]; trivial
    split
    · have := sumSparse_eq re (bitL ws) n hm n 0 0 (by omega) (by omega) (by intro j _ h; omega)
      simp only [onesFrom, Nat.zero_add, Nat.sub_zero] at this
      rw [← List.range_eq_range'] at this
      exact this
    · have := sumBitwise_eq re (bitL ws) (cnt (bitL ws) n) n 0 (by omega) (by omega) hm
      simpa using this

/-- C17. `` -`𝕩 `` on a boolean list of any length and content: the running difference. -/
theorem scan_sub_bool_correct (ws : List Word) (n : Nat) (hn : n ≤ 64 * ws.length) :
    scan_sub_bool ws n = scan (· - ·) ((listL ws n).map bnum) := by
  have h0 : (if (ws.getD 0 0#64 &&& 1#64) = 1#64 then (1:Int) else 0) = bnum (bitL ws 0) := by
    simp only [bitL, bnum, Nat.zero_div, Nat.zero_mod]
    generalize ws.getD 0 0#64 = w
    by_cases h : w.getLsbD 0 = true
    · have : w &&& 1#64 = 1#64 := by
        apply word_ext; intro i hi
        rw [BitVec.getLsbD_and, BitVec.getLsbD_one]
        by_cases hi0 : i = 0
        · subst hi0; simp [h]
        · simp [hi0]
      rw [if_pos this, if_pos h]
    · have : ¬ (w &&& 1#64 = 1#64) := by
        intro hh
        have := congrArg (fun z => BitVec.getLsbD z 0) hh
        rw [BitVec.getLsbD_and] at this
        simp at this
        simp [this] at h
      rw [if_neg this, if_neg h]
  unfold scan_sub_bool
  simp only
  rw [h0, scan_add_bool_correct ws n hn, scan_add_cnt, map_bnum_firstN, map_firstN]
  symm
  apply scan_firstN
  · intro _; rw [cnt_bnum]; simp only [cnt]; omega
  · intro i _; rw [cnt_bnum (bitL ws) (i+1)]; omega

/-- C37. `` +`𝕩 `` (`r0 = 0`) and `` 𝕨+`𝕩 `` for an integer list: whenever all prefix sums are at most 2^53 in
magnitude the result is exactly the prefix sums; 32-bit overflow never shows (the sum restarts in doubles). `fadd` is
any addition that is exact on integers with such a sum, as IEEE double addition is. -/
theorem scan_plus_correct (fadd : Int → Int → Int) (hf : ∀ a b : Int, -2^53 ≤ a + b → a + b ≤ 2^53 → fadd a b = a + b)
    (r0 : Int) (x : List Int) (hb : ∀ v ∈ scanFrom (· + ·) r0 x, -2^53 ≤ v ∧ v ≤ 2^53) :
    scan_plus fadd r0 x = scanFrom (· + ·) r0 x := by
  unfold scan_plus
  split
  · split
    · rename_i r hr; exact (plusI32_some hr).1
    · exact plusF64_exact fadd hf r0 x hb
  · exact plusF64_exact fadd hf r0 x hb

/-- C37. `` ⌊`𝕩 `` on an integer list of any element type. -/
theorem scan_min_correct (xe : NumEl) (x : List Int) (hx : ∀ v ∈ x, v ≤ xe.maxV) : scan_min_num xe x = scan min x := by
  rw [scan_min_num, minmaxLoop_min]
  cases x with
  | nil => rfl
  | cons a x =>
    have := hx a (by simp)
    simp only [scanFrom, scan]
    rw [show min xe.maxV a = a by omega]

/-- C37. `` ⌈`𝕩 `` on an integer list of any element type. -/
theorem scan_max_correct (xe : NumEl) (x : List Int) (hx : ∀ v ∈ x, xe.minV ≤ v) : scan_max_num xe x = scan max x := by
  rw [scan_max_num, minmaxLoop_max]
  cases x with
  | nil => rfl
  | cons a x =>
    have := hx a (by simp)
    simp only [scanFrom, scan]
    rw [show max xe.minV a = a by omega]

/-- C37. `` 𝕨⌊`𝕩 `` with an `i32` 𝕨 on an integer list. -/
theorem scan_min_init_correct (xe : NumEl) (wv : Int) (x : List Int) (hx : ∀ v ∈ x, xe.minV ≤ v ∧ v ≤ xe.maxV) :
    scan2_min_num xe wv x = scanFrom min wv x := by
  have key : (xe = .i8 ∨ xe = .i16) → (if wv ≠ xe.store wv then
      if decide (wv < 0) = true then x.map fun _ => wv
      else minmaxLoop (fun a b => decide (a < b)) xe.maxV x
    else minmaxLoop (fun a b => decide (a < b)) wv x) = scanFrom min wv x := by
    intro hxe
    split
    · rename_i hne
      have hr := store_neg hxe hne
      have hs : xe.minV < 0 ∧ 0 < xe.maxV := by rcases hxe with rfl | rfl <;> decide
      split
      · rename_i hneg
        simp only [decide_eq_true_eq] at hneg
        exact (scanFrom_min_low wv xe.minV x (by omega) fun v hv => (hx v hv).1).symm
      · rename_i hneg
        simp only [decide_eq_true_eq] at hneg
        rw [minmaxLoop_min]
        exact scanFrom_min_top wv xe.maxV x (by omega) fun v hv => (hx v hv).2
    · exact minmaxLoop_min wv x
  cases xe with
  | i8 => exact key (.inl rfl)
  | i16 => exact key (.inr rfl)
  | i32 => exact minmaxLoop_min wv x
  | f64 => exact minmaxLoop_min wv x

/-- C37. `` 𝕨⌈`𝕩 `` with an `i32` 𝕨 on an integer list. -/
theorem scan_max_init_correct (xe : NumEl) (wv : Int) (x : List Int) (hx : ∀ v ∈ x, xe.minV ≤ v ∧ v ≤ xe.maxV) :
    scan2_max_num xe wv x = scanFrom max wv x := by
  have key : (xe = .i8 ∨ xe = .i16) → (if wv ≠ xe.store wv then
      if decide (wv > 0) = true then x.map fun _ => wv
      else minmaxLoop (fun a b => decide (a > b)) xe.minV x
    else minmaxLoop (fun a b => decide (a > b)) wv x) = scanFrom max wv x := by
    intro hxe
    split
    · rename_i hne
      have hr := store_neg hxe hne
      have hs : xe.minV < 0 ∧ 0 < xe.maxV := by rcases hxe with rfl | rfl <;> decide
      split
      · rename_i hneg
        simp only [decide_eq_true_eq] at hneg
        exact (scanFrom_max_high wv xe.maxV x (by omega) fun v hv => (hx v hv).2).symm
      · rename_i hneg
        simp only [decide_eq_true_eq] at hneg
        rw [minmaxLoop_max]
        exact scanFrom_max_bot wv xe.minV x (by omega) fun v hv => (hx v hv).1
    · exact minmaxLoop_max wv x
  cases xe with
  | i8 => exact key (.inl rfl)
  | i16 => exact key (.inr rfl)
  | i32 => exact minmaxLoop_max wv x
  | f64 => exact minmaxLoop_max wv x

/-- C37. `` 𝕨⌊`𝕩 `` with an `i32` 𝕨 on a boolean list. -/
theorem scan_min_bit_init_correct (wv : Int) (ws : List Word) (n : Nat) (hn : n ≤ 64 * ws.length) :
    scan2_min_bit wv ws n = scanFrom min wv ((listL ws n).map bnum) := by
  unfold scan2_min_bit
  split
  · symm
    rw [scanFrom_min_low wv 0 _ (by omega) (by simp only [List.mem_map]; rintro v ⟨b, _, rfl⟩; cases b <;> simp [bnum])]
    apply List.ext_getElem?
    intro i
    simp only [List.getElem?_map, List.getElem?_replicate, getElem?_firstN]
    split <;> simp
  · symm
    show _ = (firstN _ _).map bnum
    rw [map_bnum_firstN, map_bnum_firstN]
    apply scanFrom_firstN
    intro i hi
    rw [scan_and_bit ws i (by omega)]
    by_cases h0 : i = 0
    · rw [if_pos h0, if_pos h0]
      cases bitL ws i <;> simp [bnum] <;> omega
    · rw [if_neg h0, if_neg h0]
      cases bitL (scan_and ws) (i-1) <;> cases bitL ws i <;> rfl

/-- C37. `` 𝕨⌈`𝕩 `` with an `i32` 𝕨 on a boolean list. -/
theorem scan_max_bit_init_correct (wv : Int) (ws : List Word) (n : Nat) (hn : n ≤ 64 * ws.length) :
    scan2_max_bit wv ws n = scanFrom max wv ((listL ws n).map bnum) := by
  unfold scan2_max_bit
  split
  · symm
    rw [scanFrom_max_high wv 1 _ (by omega) (by simp only [List.mem_map]; rintro v ⟨b, _, rfl⟩; cases b <;> simp [bnum])]
    apply List.ext_getElem?
    intro i
    simp only [List.getElem?_map, List.getElem?_replicate, getElem?_firstN]
    split <;> simp
  · symm
    show _ = (firstN _ _).map bnum
    rw [map_bnum_firstN, map_bnum_firstN]
    apply scanFrom_firstN
    intro i hi
    rw [scan_or_bit ws i (by omega)]
    by_cases h0 : i = 0
    · rw [if_pos h0, if_pos h0]
      cases bitL ws i <;> simp [bnum] <;> omega
    · rw [if_neg h0, if_neg h0]
      cases bitL (scan_or ws) (i-1) <;> cases bitL ws i <;> rfl

-- concrete cases
example : scan_add_bool [0xF0#64, 0x1#64] 66 = scan (· + ·) ((listL [0xF0#64, 0x1#64] 66).map bnum) ∧
    (scan_add_bool [0xF0#64, 0x1#64] 66).getLast? = some 5 := by decide +kernel
example : scan_sub_bool [0x7#64] 4 = [1, 0, -1, -1] := by decide +kernel
example : scan_plus (· + ·) 0 [2147483647, 5, -10] = [2147483647, 2147483652, 2147483642] := by decide
example : ∀ v ∈ scanFrom (· + ·) 0 [2147483647, 5, -10], -2^53 ≤ v ∧ v ≤ 2^53 := by decide
example : scan2_min_num .i8 300 [5, -7, 127] = [5, -7, -7] := by decide
example : scan2_max_num .i8 300 [5, -7, 127] = [300, 300, 300] := by decide

end Verif.Scan
