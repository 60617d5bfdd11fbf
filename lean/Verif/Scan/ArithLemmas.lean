import Verif.Scan.ArithModel
import Verif.Scan.Lemmas
import Verif.Fold.Lemmas
/-! # Lemmas -/
namespace Verif.Scan
open Verif.Bits Spec Fold

/-- Booleans as numbers. -/
def bnum (b : Bool) : Int := if b then 1 else 0

/-- `m` fits the element type. -/
def NumEl.fits : NumEl → Int → Prop
  | .i8, m => m ≤ 127 | .i16, m => m ≤ 32767 | .i32, m => m ≤ 2147483647 | .f64, _ => True

theorem store_exact (re : NumEl) (v m : Int) (h0 : 0 ≤ v) (h1 : v ≤ m)
    (hm : re.fits m) : re.store v = v := by
  cases re <;> simp only [NumEl.store, NumEl.fits] at * <;> (try rw [Int.bmod_eq_of_le] <;> omega)

theorem sumBitwise_eq (re : NumEl) (b : Nat → Bool) (m : Int) (n : Nat) :
    ∀ c : Int, 0 ≤ c → c + cnt b n ≤ m →
    re.fits m →
    sumBitwise re c (firstN b n) = firstN (fun i => c + (cnt b (i+1) : Int)) n := by
  induction n generalizing b with
  | zero => intros; rfl
  | succ n ih =>
    intro c h0 h1 hm
    rw [firstN_succ, firstN_succ, sumBitwise]
    rw [cnt_shift] at h1
    have hb : (if b 0 = true then (1:Int) else 0) = ((if b 0 then 1 else 0 : Nat) : Int) := by split <;> rfl
    have he : re.store (c + if b 0 = true then 1 else 0) = c + if b 0 = true then 1 else 0 := by
      apply store_exact re _ m _ _ hm <;> rw [hb] <;> omega
    rw [he, ih (fun i => b (i+1)) _ (by rw [hb]; omega) (by rw [hb]; omega) hm]
    congr 1
    · rw [hb]; simp [cnt]
    · apply firstN_congr
      intro i _
      rw [cnt_shift b (i+1), hb]; omega

theorem replicate_firstN {α} (v : α) (r : Nat → α) (n : Nat) (h : ∀ i, i < n → r i = v) : List.replicate n v = firstN r n := by
  apply List.ext_getElem?
  intro i
  rw [getElem?_firstN, List.getElem?_replicate]
  split
  · rename_i hi; rw [h i hi]
  · rfl

/-- Positions in `[p, p+k)` where `b` holds. -/
def onesFrom (b : Nat → Bool) (p k : Nat) : List Nat := (List.range' p k).filter b

theorem cnt_mono (b : Nat → Bool) {m n : Nat} (h : m ≤ n) : cnt b m ≤ cnt b n := by
  obtain ⟨d, rfl⟩ : ∃ d, n = m + d := ⟨n - m, by omega⟩
  rw [cnt_add]; omega

theorem sumSparse_eq (re : NumEl) (b : Nat → Bool) (ia : Nat)
    (hm : re.fits (cnt b ia)) :
    ∀ k p ri, p + k = ia → ri ≤ p → (∀ j, ri ≤ j → j < p → cnt b (j+1) = cnt b p) →
    sumSparse re (cnt b ia) ia (cnt b p) ri (onesFrom b p k) = firstN (fun i => (cnt b (ri + i + 1) : Int)) (ia - ri) := by
  intro k
  induction k with
  | zero =>
    intro p ri hp hri inv
    simp only [onesFrom, List.range'_zero, List.filter_nil, sumSparse]
    have hp' : p = ia := by omega
    subst hp'
    split
    · rw [store_exact re _ (cnt b p) (by omega) (by omega) hm]
      apply replicate_firstN
      intro i hi
      rw [inv (ri+i) (by omega) (by omega)]
    · rw [show p - ri = 0 by omega]; rfl
  | succ k ih =>
    intro p ri hp hri inv
    rw [onesFrom, List.range'_succ, List.filter_cons]
    cases hb : b p
    · have hc : cnt b (p+1) = cnt b p := by simp [cnt, hb]
      simp only [Bool.false_eq_true, if_false]
      rw [← hc]
      apply ih (p+1) ri (by omega) (by omega)
      intro j h1 h2
      rw [hc]
      by_cases hj : j = p
      · rw [hj, hc]
      · exact inv j h1 (by omega)
    · have hc : cnt b (p+1) = cnt b p + 1 := by simp [cnt, hb]
      simp only [if_true, sumSparse]
      rw [← hc]
      have := ih (p+1) p (by omega) (by omega) (fun j h1 h2 => by rw [show j = p by omega])
      rw [onesFrom] at this
      rw [this, show ia - ri = (p - ri) + (ia - p) by omega, firstN_add]
      congr 1
      · have := cnt_mono b (show p ≤ ia by omega)
        rw [store_exact re _ (cnt b ia) (by omega) (by omega) hm]
        apply replicate_firstN
        intro i hi
        rw [inv (ri+i) (by omega) (by omega)]
      · apply firstN_congr
        intro i hi
        rw [show ri + (p - ri + i) + 1 = p + i + 1 by omega]

theorem map_bnum_firstN (b : Nat → Bool) (n : Nat) : (firstN b n).map bnum = firstN (fun i => bnum (b i)) n := by
  simp [firstN, List.map_map, Function.comp_def]

theorem cnt_bnum (b : Nat → Bool) (n : Nat) : (cnt b (n+1) : Int) = cnt b n + bnum (b n) := by
  simp only [cnt, bnum]; split <;> simp

theorem scan_add_cnt (b : Nat → Bool) (n : Nat) :
    scan (· + ·) ((firstN b n).map bnum) = firstN (fun i => (cnt b (i+1) : Int)) n := by
  rw [map_bnum_firstN]
  apply scan_firstN
  · intro _; rw [cnt_bnum]; simp [cnt]
  · intro i _; rw [cnt_bnum b (i+1)]

theorem bitF_getD (ws : List Word) : bitF (fun i => ws.getD i 0#64) = bitL ws := rfl

theorem cnt_pos_iff (b : Nat → Bool) (n : Nat) : 0 < cnt b n ↔ ∃ i, i < n ∧ b i = true := by
  induction n with
  | zero => simp [cnt]
  | succ n ih =>
    simp only [cnt]
    constructor
    · intro h
      rcases Bool.eq_false_or_eq_true (b n) with hb | hb
      · exact ⟨n, by omega, hb⟩
      · simp only [hb, Bool.false_eq_true, if_false, Nat.add_zero] at h
        obtain ⟨i, hi, h'⟩ := ih.1 h
        exact ⟨i, by omega, h'⟩
    · rintro ⟨i, hi, hb⟩
      by_cases hin : i = n
      · subst hin; simp [hb]
      · have := ih.2 ⟨i, by omega, hb⟩; omega

/-- The boolean ∨-scan at `i` tells whether a one was seen. -/
theorem scan_or_cnt (ws : List Word) (i : Nat) (h : i < 64 * ws.length) :
    bitL (scan_or ws) i = decide (0 < cnt (bitL ws) (i+1)) := by
  induction i with
  | zero =>
    rw [scan_or_bit ws 0 h]
    simp only [cnt, if_true, Bool.false_or]
    rcases Bool.eq_false_or_eq_true (bitL ws 0) with hb | hb <;> simp [hb]
  | succ i ih =>
    rw [scan_or_bit ws (i+1) h, if_neg (by omega), Nat.add_sub_cancel, ih (by omega)]
    rw [cnt.eq_2 (bitL ws) (i+1)]
    rcases Bool.eq_false_or_eq_true (bitL ws (i+1)) with hb | hb <;> simp [hb]

theorem map_firstN {α β} (f : α → β) (r : Nat → α) (n : Nat) : (firstN r n).map f = firstN (fun i => f (r i)) n := by
  simp [firstN, List.map_map, Function.comp_def]

/-! ## Integer scans -/

theorem plusI32_some {c : Int} {xs r : List Int} (h : plusI32 c xs = some r) :
    r = scanFrom (· + ·) c xs ∧ ∀ v ∈ r, -2^31 ≤ v ∧ v ≤ 2^31 - 1 := by
  induction xs generalizing c r with
  | nil => simp only [plusI32, Option.some.injEq] at h; subst h; simp [scanFrom]
  | cons x xs ih =>
    simp only [plusI32] at h
    split at h
    · contradiction
    · rename_i hs
      simp only [addOverflows, Bool.not_eq_true, decide_eq_false_iff_not] at hs
      have hw : NumEl.i32.store (c + x) = c + x := by
        simp only [NumEl.store]; rw [Int.bmod_eq_of_le] <;> omega
      rw [hw] at h
      obtain ⟨t, ht, rfl⟩ := Option.map_eq_some_iff.1 h
      have := ih ht
      refine ⟨by rw [scanFrom, ← this.1], ?_⟩
      intro v hv
      rcases List.mem_cons.1 hv with rfl | hv
      · omega
      · exact this.2 v hv

theorem plusF64_exact (fadd : Int → Int → Int) (hf : ∀ a b : Int, -2^53 ≤ a + b → a + b ≤ 2^53 → fadd a b = a + b)
    (c : Int) (xs : List Int) (hb : ∀ v ∈ scanFrom (· + ·) c xs, -2^53 ≤ v ∧ v ≤ 2^53) :
    plusF64 fadd c xs = scanFrom (· + ·) c xs := by
  induction xs generalizing c with
  | nil => rfl
  | cons x xs ih =>
    simp only [scanFrom, List.mem_cons, forall_eq_or_imp] at hb
    rw [plusF64, hf c x hb.1.1 hb.1.2, scanFrom, ih _ hb.2]

theorem minmaxLoop_min (c : Int) (x : List Int) : minmaxLoop (fun a b => decide (a < b)) c x = scanFrom min c x := by
  induction x generalizing c with
  | nil => rfl
  | cons a x ih =>
    have : (if decide (a < c) = true then a else c) = min c a := by
      simp only [decide_eq_true_eq]; split <;> omega
    simp only [minmaxLoop, scanFrom, this, ih]

theorem minmaxLoop_max (c : Int) (x : List Int) : minmaxLoop (fun a b => decide (a > b)) c x = scanFrom max c x := by
  induction x generalizing c with
  | nil => rfl
  | cons a x ih =>
    have : (if decide (a > c) = true then a else c) = max c a := by
      simp only [decide_eq_true_eq]; split <;> omega
    simp only [minmaxLoop, scanFrom, this, ih]

theorem scanFrom_min_low (w m : Int) (x : List Int) (hw : w ≤ m) (hx : ∀ v ∈ x, m ≤ v) : scanFrom min w x = x.map fun _ => w := by
  induction x with
  | nil => rfl
  | cons a x ih =>
    have := hx a (by simp)
    rw [scanFrom, show min w a = w by omega, ih fun v hv => hx v (List.mem_cons_of_mem _ hv)]; rfl

theorem scanFrom_max_high (w m : Int) (x : List Int) (hw : m ≤ w) (hx : ∀ v ∈ x, v ≤ m) : scanFrom max w x = x.map fun _ => w := by
  induction x with
  | nil => rfl
  | cons a x ih =>
    have := hx a (by simp)
    rw [scanFrom, show max w a = w by omega, ih fun v hv => hx v (List.mem_cons_of_mem _ hv)]; rfl

theorem scanFrom_min_top (w m : Int) (x : List Int) (hw : m ≤ w) (hx : ∀ v ∈ x, v ≤ m) : scanFrom min m x = scanFrom min w x := by
  cases x with
  | nil => rfl
  | cons a x => have := hx a (by simp); rw [scanFrom, scanFrom, show min m a = min w a by omega]

theorem scanFrom_max_bot (w m : Int) (x : List Int) (hw : w ≤ m) (hx : ∀ v ∈ x, m ≤ v) : scanFrom max m x = scanFrom max w x := by
  cases x with
  | nil => rfl
  | cons a x => have := hx a (by simp); rw [scanFrom, scanFrom, show max m a = max w a by omega]

theorem store_neg {xe : NumEl} (h : xe = .i8 ∨ xe = .i16) {wv : Int} (hne : wv ≠ xe.store wv) : wv < xe.minV ∨ xe.maxV < wv := by
  rcases Int.lt_or_le wv xe.minV with h1 | h1
  · exact .inl h1
  · rcases Int.lt_or_le xe.maxV wv with h2 | h2
    · exact .inr h2
    · exfalso; apply hne
      rcases h with rfl | rfl <;> simp only [NumEl.store, NumEl.minV, NumEl.maxV] at * <;> rw [Int.bmod_eq_of_le] <;> omega

end Verif.Scan
