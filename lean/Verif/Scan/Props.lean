import Verif.Scan.Lemmas
/-! # C17: boolean scans -/
namespace Verif.Scan
open Verif.Bits Spec

/-- The BQN function each primitive denotes on booleans. -/
def fnOf : Prim → Bool → Bool → Bool
  | .or, w, x => w || x
  | .and, w, x => w && x
  | .ne, w, x => ne w x
  | .eq, w, x => eq w x
  | .lt, w, x => lt w x
  | .le, w, x => le w x
  | .gt, w, x => gt w x
  | .ge, w, x => ge w x

theorem bitL_flipFirst (ws : List Word) (i : Nat) (h : i < 64 * ws.length) :
    bitL (flipFirst ws) i = (bitL ws i ^^ decide (i = 0)) := by
  cases ws with
  | nil => simp at h
  | cons w ws =>
    simp only [flipFirst]
    by_cases h64 : i < 64
    · rw [bitL_cons_lt _ _ _ h64, bitL_cons_lt _ _ _ h64, BitVec.getLsbD_xor]
      congr 1
      rw [BitVec.getLsbD_one]; simp
    · obtain ⟨j, rfl⟩ : ∃ j, i = 64 + j := ⟨i - 64, by omega⟩
      rw [bitL_cons_add, bitL_cons_add]
      have : ¬ 64 + j = 0 := by omega
      simp

theorem length_flipFirst (ws : List Word) : (flipFirst ws).length = ws.length := by cases ws <;> simp [flipFirst]

theorem aa_bit (i : Nat) : (0xAAAAAAAAAAAAAAAA#64).getLsbD (i % 64) = decide (i % 2 = 1) := by
  have : ∀ i : Fin 64, (0xAAAAAAAAAAAAAAAA#64).getLsbD i = decide (i.val % 2 = 1) := by decide
  rw [this ⟨i % 64, by omega⟩]
  congr 1; simp only [eq_iff_iff]; omega

theorem bitL_map_xor_aa (ws : List Word) (i : Nat) (h : i < 64 * ws.length) :
    bitL (ws.map (· ^^^ 0xAAAAAAAAAAAAAAAA#64)) i = (bitL ws i ^^ decide (i % 2 = 1)) := by
  have hi : i/64 < ws.length := by omega
  simp only [bitL, List.getD_eq_getElem?_getD, List.getElem?_map, List.getElem?_eq_getElem hi, Option.map_some,
    Option.getD_some, BitVec.getLsbD_xor, aa_bit]

/-- C17. For every boolean list (any length, any content, any padding bits) and every primitive with a special boolean
scan, the packed scan is the element-by-element scan. -/
theorem scan_bool_correct (p : Prim) (ws : List Word) (n : Nat) (hn : n ≤ 64 * ws.length) :
    listL (scan_c1_bit p ws) n = scan (fnOf p) (listL ws n) := by
  cases p with
  | or =>
    rw [scan_eq_scanFrom _ false (by simp [fnOf]), scan_c1_bit, scan_or_eq]
    exact mapCarry_scanFrom or_kernel ws false n hn
  | and =>
    symm
    rw [scan_eq_scanFrom _ true (by simp [fnOf])]
    exact scanFrom_firstN _ n _ _ _ fun i hi => scan_and_bit ws i (by omega)
  | ne =>
    rw [scan_eq_scanFrom _ false (by simp [fnOf, ne]), scan_c1_bit]
    exact (congrArg (listL · n) (scan_ne_eq ws false)).trans (mapCarry_scanFrom ne_kernel ws false n hn)
  | eq =>
    symm
    have hx : ∀ i, i < n → bitL (scan_eq ws) i = (bitL (scan_ne 0#64 ws) i ^^ decide (i % 2 = 1)) := fun i hi =>
      bitL_map_xor_aa _ i (by rw [length_scan_ne]; omega)
    have hs : ∀ i, i < n → bitL (scan_ne 0#64 ws) i = ((if i = 0 then false else bitL (scan_ne 0#64 ws) (i-1)) != bitL ws i) := by
      intro i hi
      have := mapCarry_bit ne_kernel ws false i (by omega)
      rw [← scan_ne_eq] at this
      exact this
    apply scan_firstN
    · intro h
      rw [scan_c1_bit, hx 0 h, hs 0 h]; cases bitL ws 0 <;> rfl
    · intro i hi
      rw [scan_c1_bit, hx _ hi, hx _ (by omega), hs _ hi, if_neg (by omega), Nat.add_sub_cancel]
      simp only [fnOf, Spec.eq]
      by_cases h2 : i % 2 = 1
      · have : ¬ (i+1) % 2 = 1 := by omega
        cases bitL (scan_ne 0#64 ws) i <;> cases bitL ws (i+1) <;> simp [h2, this]
      · have : (i+1) % 2 = 1 := by omega
        cases bitL (scan_ne 0#64 ws) i <;> cases bitL ws (i+1) <;> simp [h2, this]
  | lt =>
    rw [scan_eq_scanFrom _ false (by simp [fnOf, lt]), scan_c1_bit, scan_lt_eq]
    exact mapCarry_scanFrom lt_kernel ws false n hn
  | le =>
    symm
    have hb : ∀ i, i < n → bitL (scan_c1_bit .le ws) i = !bitL (scan_lt 0#64 (bit_negate ws)) i := fun i hi =>
      bitL_map_not _ i (by rw [length_scan_lt]; simp [bit_negate]; omega)
    have hs : ∀ i, i < n → bitL (scan_lt 0#64 (bit_negate ws)) i
        = (!(if i = 0 then false else bitL (scan_lt 0#64 (bit_negate ws)) (i-1)) && !bitL ws i) := by
      intro i hi
      have := mapCarry_bit lt_kernel (bit_negate ws) false i (by simp [bit_negate]; omega)
      rw [scan_lt_eq]
      rw [bit_negate, bitL_map_not _ _ (by omega)] at this
      exact this
    apply scan_firstN
    · intro h
      rw [hb 0 h, hs 0 h]; simp
    · intro i hi
      rw [hb _ hi, hb _ (by omega), hs _ hi, if_neg (by omega), Nat.add_sub_cancel]
      simp only [fnOf, le]
      cases bitL (scan_lt 0#64 (bit_negate ws)) i <;> simp
  | gt =>
    symm
    have hb : ∀ i, i < n → bitL (flipFirst (bit_negate ws)) i = (!bitL ws i ^^ decide (i = 0)) := fun i hi => by
      rw [bitL_flipFirst _ _ (by simp [bit_negate]; omega), bit_negate, bitL_map_not _ _ (by omega)]
    have hs : ∀ i, i < n → _ := fun i hi => scan_and_bit (flipFirst (bit_negate ws)) i
      (by rw [length_flipFirst]; simp [bit_negate]; omega)
    apply scan_firstN
    · intro h
      rw [scan_c1_bit, hs 0 h, hb 0 h]; simp
    · intro i hi
      rw [scan_c1_bit, hs _ hi, if_neg (by omega), hb _ hi, Nat.add_sub_cancel]
      simp [fnOf, gt]
  | ge =>
    symm
    have hb : ∀ i, i < n → bitL (flipFirst (bit_negate ws)) i = (!bitL ws i ^^ decide (i = 0)) := fun i hi => by
      rw [bitL_flipFirst _ _ (by simp [bit_negate]; omega), bit_negate, bitL_map_not _ _ (by omega)]
    have hs : ∀ i, i < n → _ := fun i hi => scan_or_bit (flipFirst (bit_negate ws)) i
      (by rw [length_flipFirst]; simp [bit_negate]; omega)
    apply scan_firstN
    · intro h
      rw [scan_c1_bit, hs 0 h, hb 0 h]; simp
    · intro i hi
      rw [scan_c1_bit, hs _ hi, if_neg (by omega), hb _ hi, Nat.add_sub_cancel]
      simp [fnOf, ge]

theorem listL_const (ws : List Word) (v : Word) (b : Bool) (hv : ∀ i, i < 64 → v.getLsbD i = b) (n : Nat)
    (hn : n ≤ 64 * ws.length) : listL (ws.map fun _ => v) n = firstN (fun _ => b) n := by
  apply firstN_congr
  intro i hi
  have h1 : i/64 < ws.length := by omega
  simp only [bitL, List.getD_eq_getElem?_getD, List.getElem?_map, List.getElem?_eq_getElem h1, Option.map_some, Option.getD_some]
  exact hv _ (by omega)

/-- C17. Scans with a boolean initial value, where CBQN has a special path, are the element-by-element scan from it. -/
theorem scan_bool_init_correct (p : Prim) (w : Bool) (ws : List Word) (n : Nat) (hn : n ≤ 64 * ws.length)
    (r : List Word) (hr : scan_c2_bit p w ws = some r) : listL r n = scanFrom (fnOf p) w (listL ws n) := by
  cases p <;> simp only [scan_c2_bit, Option.some.injEq, reduceCtorEq] at hr <;> subst hr
  · cases w with
    | false => simp only [Bool.not_false, if_true, scan_or_eq]; exact mapCarry_scanFrom or_kernel ws false n hn
    | true =>
      simp only [Bool.not_true, Bool.false_eq_true, if_false]
      rw [listL_const ws _ true (by intro i hi; rw [BitVec.getLsbD_not]; simp only [hi, decide_true, Bool.true_and, BitVec.getLsbD_zero, Bool.not_false]) n hn]
      exact (scanFrom_firstN _ n _ _ _ fun i _ => by simp [fnOf]).symm
  · cases w with
    | true =>
      simp only [if_true]
      exact (scanFrom_firstN _ n _ _ _ fun i hi => scan_and_bit ws i (by omega)).symm
    | false =>
      simp only [Bool.false_eq_true, if_false]
      rw [listL_const ws _ false (by intro i hi; simp) n hn]
      exact (scanFrom_firstN _ n _ _ _ fun i _ => by simp [fnOf]).symm
  · rw [neg_bit, scan_ne_eq]; exact mapCarry_scanFrom ne_kernel ws w n hn
  · rw [scan_lt_eq]
    have : (bitx w).getLsbD 63 = w := by cases w <;> decide
    rw [this]
    exact mapCarry_scanFrom lt_kernel ws w n hn

/-- C17. With a non-boolean number as initial value, `𝕨≠`𝕩` starts with 1 (the first comparison is unequal whatever
the element is) and continues as the boolean scan. -/
theorem scan_ne_nonbit_correct (ws : List Word) (n : Nat) (hn : n + 1 ≤ 64 * ws.length) :
    listL (scan_ne_nonbit ws) (n+1) = true :: scanFrom ne true ((listL ws (n+1)).tail) := by
  cases ws with
  | nil => simp at hn
  | cons w ws =>
    have hc : -(1#64 &&& ~~~w) = carryWord (!w.getLsbD 0) := by
      have : 1#64 &&& ~~~w = (if !w.getLsbD 0 then 1#64 else 0#64) := by
        apply word_ext
        intro i hi
        rw [BitVec.getLsbD_and, BitVec.getLsbD_one, BitVec.getLsbD_not]
        by_cases h0 : i = 0
        · subst h0; cases h : w.getLsbD 0 <;> simp
        · cases h : w.getLsbD 0 <;> simp [h0]
      rw [this, neg_bit]
    have hh : scan_ne_nonbit (w :: ws) = scan_ne (carryWord (!w.getLsbD 0)) (w :: ws) := by
      rw [scan_ne_nonbit, ← hc]; rfl
    rw [hh, scan_ne_eq, mapCarry_scanFrom ne_kernel _ _ _ hn, listL, firstN_succ, bitL_cons_lt _ _ _ (by omega)]
    simp only [scanFrom, List.tail_cons]
    have : ne (!w.getLsbD 0) (w.getLsbD 0) = true := by cases w.getLsbD 0 <;> rfl
    rw [this]

/-- Non-vacuity: a three-word list of 130 elements with junk padding. -/
example : (130 : Nat) ≤ 64 * ([0xF0F0#64, 0xFFFFFFFFFFFFFFFF#64, 0xDEADBEEF#64] : List Word).length := by decide
example : scan_c1_bit .lt [0xFFFFFFFFFFFFFFFF#64, 0x7#64] = [0x5555555555555555#64, 0x5#64] := by decide
example : scan_c2_bit .lt true [0xFFFFFFFFFFFFFFFF#64, 0x7#64] = some [0xAAAAAAAAAAAAAAAA#64, 0x2#64] := by decide
example : scan_c1_bit .ne [0x8000000000000001#64, 0x8#64] = [0x7FFFFFFFFFFFFFFF#64, 0xFFFFFFFFFFFFFFF8#64] := by decide

end Verif.Scan
