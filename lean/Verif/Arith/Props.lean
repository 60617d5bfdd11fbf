import Verif.Arith.Lemmas
import Verif.Arith.ModLemmas
/-!
# C13, C14, C40: arithmetic on typed integer arrays never wraps
-/
namespace Verif.Arith

/-- The values an element type can hold. -/
def El.Holds : El → List Int → Prop
  | .bit, x => ∀ v ∈ x, v = 0 ∨ v = 1
  | .i8, x => ∀ v ∈ x, Fits 8 v
  | .i16, x => ∀ v ∈ x, Fits 16 v
  | .i32, x => ∀ v ∈ x, Fits 32 v
  | .f64, _ => True

theorem Loop.orElse_correct (fop) (hf : F64Arith fop) (f op n) (hn : W n) (e : El) (he : ∀ x, (∀ v ∈ x, Fits n v) → e.Holds x)
    (w x : List Int) (hl : w.length = x.length) (hw : ∀ v ∈ w, Fits n v) (hx : ∀ v ∈ x, Fits n v) (k : Out)
    (hk : k = .arr .f64 (List.zipWith (fop op) w x)) :
    ∃ e', (DOI fop f op n w x).orElse e k = .arr e' (List.zipWith (fop op) w x) ∧ e'.Holds (List.zipWith (fop op) w x) := by
  rcases DOI_eq fop hf f op n hn w x hl hw hx with h | ⟨r, h, h2, h3⟩
  · exact ⟨.f64, by rw [h, hk]; rfl, trivial⟩
  · exact ⟨e, by rw [h, h2]; rfl, by rw [← h2]; exact he _ h3⟩

theorem fits_mono {m n : Nat} (h : m ≤ n) {v : Int} (hv : Fits m v) : Fits n v := by
  have : (2:Int)^(m-1) ≤ 2^(n-1) := by exact_mod_cast Nat.pow_le_pow_right (by omega) (by omega)
  simp only [Fits] at *; omega

theorem typedAA_correct (fop) (hf : F64Arith fop) (op : Op) (we xe : El) (w x : List Int) (hl : w.length = x.length)
    (hw : we.Holds w) (hx : xe.Holds x) :
    ∃ e, typedAA fop op we xe w x = .arr e (List.zipWith (fop op) w x) ∧ e.Holds (List.zipWith (fop op) w x) := by
  have w8 : W 8 := Or.inl rfl
  have w16 : W 16 := Or.inr (Or.inl rfl)
  have w32 : W 32 := Or.inr (Or.inr rfl)
  have up : ∀ {m n : Nat} {l : List Int}, m ≤ n → (∀ v ∈ l, Fits m v) → ∀ v ∈ l, Fits n v :=
    fun h hv v hm => fits_mono h (hv v hm)
  cases we <;> cases xe <;> simp only [El.Holds] at hw hx <;> simp only [typedAA, DOF, recd] <;>
  first
  | exact ⟨_, rfl, trivial⟩
  | exact Loop.orElse_correct fop hf .aa op 8 w8 .i8 (fun _ h => h) w x hl hw hx _ rfl
  | exact Loop.orElse_correct fop hf .aa op 16 w16 .i16 (fun _ h => h) w x hl (up (by omega) hw) (up (by omega) hx) _ rfl
  | exact Loop.orElse_correct fop hf .aa op 32 w32 .i32 (fun _ h => h) w x hl (up (by omega) hw) (up (by omega) hx) _ rfl

theorem bits_fit {n : Nat} (hn : 8 ≤ n) {l : List Int} (h : ∀ v ∈ l, v = 0 ∨ v = 1) : ∀ v ∈ l, Fits n v := by
  intro v hv
  apply fits_mono hn
  rcases h v hv with rfl | rfl <;> simp [Fits]

theorem holds_of_bits (e : El) (he : e ≠ .bit) {l : List Int} (h : ∀ v ∈ l, v = 0 ∨ v = 1) : e.Holds l := by
  cases e <;> simp only [El.Holds] <;> first | exact absurd rfl he | exact bits_fit (by omega) h

theorem bitAA_correct (fop) (hf : F64Arith fop) (op : Op) (hop : op.bit ≠ 0) : ∀ (w x : List Int),
    (∀ v ∈ w, v = 0 ∨ v = 1) → (∀ v ∈ x, v = 0 ∨ v = 1) →
    List.zipWith (fun a b : Int => if op.bit = 1 then (if a = 1 ∨ b = 1 then 1 else 0) else (if a = 1 ∧ b = 1 then 1 else 0)) w x
      = List.zipWith (fop op) w x
  | [], _, _, _ => by simp
  | _ :: _, [], _, _ => by simp
  | a :: w, b :: x, hw, hx => by
    rw [List.zipWith_cons_cons, List.zipWith_cons_cons, bitAA_correct fop hf op hop w x
      (fun u hu => hw u (List.mem_cons_of_mem _ hu)) (fun u hu => hx u (List.mem_cons_of_mem _ hu))]
    congr 1
    have f0 : Fits 32 0 := by simp [Fits]
    have f1 : Fits 32 1 := by simp [Fits]
    rcases hw a (by simp) with rfl | rfl <;> rcases hx b (by simp) with rfl | rfl <;>
      (rw [hf.exact op _ _ (by assumption) (by assumption) (by cases op <;> simp [Op.exact, Fits])]
       cases op <;> simp_all [Op.bit, Op.exact])

/-- C13. Arithmetic between two numeric arrays of equal shape, of any element types: every element is what the scalar
primitive gives for that pair of elements, the result's element type can hold all of them, and nothing overflows on the
way. -/
theorem arith_arrays_correct (fop) (hf : F64Arith fop) (op : Op) (we xe : El) (w x : List Int) (hl : w.length = x.length)
    (hw : we.Holds w) (hx : xe.Holds x) :
    ∃ e, arithAA fop op we xe w x = .arr e (List.zipWith (fop op) w x) ∧ e.Holds (List.zipWith (fop op) w x) := by
  have t := typedAA_correct fop hf op
  by_cases hwb : we = .bit
  · subst hwb
    by_cases hxb : xe = .bit
    · subst hxb
      simp only [arithAA]
      by_cases hop : op.bit ≠ 0
      · rw [if_pos hop]
        refine ⟨.bit, by simp only [bitAA]; rw [bitAA_correct fop hf op hop w x hw hx], ?_⟩
        rw [← bitAA_correct fop hf op hop w x hw hx]
        intro v hv
        rw [List.mem_iff_getElem] at hv
        obtain ⟨i, hi, rfl⟩ := hv
        simp only [List.getElem_zipWith]
        split <;> split <;> simp
      · rw [if_neg hop]
        exact t .i8 .i8 w x hl (holds_of_bits _ (by decide) hw) (holds_of_bits _ (by decide) hx)
    · have : arithAA fop op .bit xe w x = typedAA fop op xe xe w x := by cases xe <;> first | exact absurd rfl hxb | rfl
      rw [this]; exact t xe xe w x hl (holds_of_bits _ hxb hw) hx
  · by_cases hxb : xe = .bit
    · subst hxb
      have : arithAA fop op we .bit w x = typedAA fop op we we w x := by cases we <;> first | exact absurd rfl hwb | rfl
      rw [this]; exact t we we w x hl hw (holds_of_bits _ hwb hx)
    · have : arithAA fop op we xe w x = typedAA fop op we xe w x := by
        cases we <;> cases xe <;> first | exact absurd rfl hwb | exact absurd rfl hxb | rfl
      rw [this]; exact t we xe w x hl hw hx

theorem zipWith_const (f : Int → Int → Int) (c : Int) : ∀ x : List Int, List.zipWith f (x.map fun _ => c) x = x.map (f c)
  | [] => rfl
  | _ :: x => by simp [zipWith_const f c x]
theorem zipWith_const' (f : Int → Int → Int) (c : Int) : ∀ x : List Int, List.zipWith f x (x.map fun _ => c) = x.map (f · c)
  | [] => rfl
  | _ :: x => by simp [zipWith_const' f c x]

/-- C13. The same for a scalar and an array, on either side. -/
theorem arith_scalar_correct (fop) (hf : F64Arith fop) (op : Op) (flip : Bool) (c : Int) (e : El) (x : List Int)
    (hx : e.Holds x) :
    ∃ e', arithSA fop op flip c e x = .arr e' (x.map fun v => if flip then fop op v c else fop op c v) ∧
      e'.Holds (x.map fun v => if flip then fop op v c else fop op c v) := by
  have w8 : W 8 := Or.inl rfl
  have w16 : W 16 := Or.inr (Or.inl rfl)
  have w32 : W 32 := Or.inr (Or.inr rfl)
  have hc : ∀ n, qi n c = true → ∀ v ∈ x.map fun _ => c, Fits n v := by
    intro n h v hv
    simp only [List.mem_map] at hv
    obtain ⟨_, _, rfl⟩ := hv
    simpa [qi, Fits] using h
  have main : ∀ n (e : El), W n → (∀ x, (∀ v ∈ x, Fits n v) → e.Holds x) → (∀ v ∈ x, Fits n v) →
      ∃ e', (if qi n c = true then
          (if flip then DOI fop .sa op n x (x.map fun _ => c) else DOI fop .sa op n (x.map fun _ => c) x).orElse e
            (if flip then recd fop op x (x.map fun _ => c) else recd fop op (x.map fun _ => c) x)
          else (if flip then recd fop op x (x.map fun _ => c) else recd fop op (x.map fun _ => c) x))
        = .arr e' (x.map fun v => if flip then fop op v c else fop op c v) ∧
        e'.Holds (x.map fun v => if flip then fop op v c else fop op c v) := by
    intro n e hn he hx
    cases flip
    · simp only [Bool.false_eq_true, if_false]
      rw [← zipWith_const (fop op)]
      split
      · rename_i hq
        exact Loop.orElse_correct fop hf .sa op n hn e he _ _ (by simp) (hc n hq) hx _ rfl
      · exact ⟨.f64, rfl, trivial⟩
    · simp only [if_true]
      rw [← zipWith_const' (fop op)]
      split
      · rename_i hq
        exact Loop.orElse_correct fop hf .sa op n hn e he _ _ (by simp) hx (hc n hq) _ rfl
      · exact ⟨.f64, rfl, trivial⟩
  cases e with
  | bit =>
    refine ⟨.f64, ?_, trivial⟩
    simp only [arithSA]
    congr 1
    apply List.map_congr_left
    intro v hv
    rcases hx v hv with rfl | rfl <;> simp
  | i8 => exact main 8 .i8 w8 (fun _ h => h) hx
  | i16 => exact main 16 .i16 w16 (fun _ h => h) hx
  | i32 => exact main 32 .i32 w32 (fun _ h => h) hx
  | f64 =>
    refine ⟨.f64, ?_, trivial⟩
    simp only [arithSA, DOF]
    cases flip
    · simp [zipWith_const]
    · simp [zipWith_const']

/-- C13. In particular the result elements are exact whenever the exact result fits 32 bits. -/
theorem arith_exact (fop) (hf : F64Arith fop) (op : Op) (we xe : El) (w x : List Int) (hl : w.length = x.length)
    (hw : we.Holds w) (hx : xe.Holds x) (i : Nat) (a b : Int) (ha : w[i]? = some a) (hb : x[i]? = some b)
    (h1 : Fits 32 a) (h2 : Fits 32 b) (h3 : Fits 32 (op.exact a b)) :
    ∃ e r, arithAA fop op we xe w x = .arr e r ∧ r[i]? = some (op.exact a b) := by
  obtain ⟨e, he, _⟩ := arith_arrays_correct fop hf op we xe w x hl hw hx
  refine ⟨e, _, he, ?_⟩
  rw [List.getElem?_zipWith, ha, hb]
  simp [hf.exact op a b h1 h2 h3]

-- concrete arrays; exact arithmetic satisfies the assumption for every operation
example : F64Arith Op.exact := by
  refine ⟨fun _ _ _ _ _ _ => rfl, fun op a b ha hb h => ⟨h, ?_⟩⟩
  have hm := mulb 32 (by omega) ha hb
  cases op <;> simp only [Op.exact, Fits, Nat.reduceMul, Nat.reduceSub, Int.reducePow] at * <;>
    (try generalize a * b = ab at *) <;> (try split) <;> omega
example : arithAA Op.exact .add .i8 .i8 [100, -3] [27, 5] = .arr .i8 [127, 2] := by decide
example : arithAA Op.exact .add .i8 .i8 [100, -3] [28, 5] = .arr .f64 [128, 2] := by decide
example : arithAA Op.exact .mul .i16 .i8 [-32768, 3] [-128, 2] = .arr .f64 [4194304, 6] := by decide
example : arithSA Op.exact .sub true (-128) .i8 [127] = .arr .f64 [255] := by decide
example : arithSA Op.exact .or false 5 .bit [1, 0] = .arr .f64 [1, 5] := by decide

/-! ## characters -/

/-- C40. Character ± number: if the outcome is defined it is the exact code point, or an error exactly if that is not a
code point. -/
theorem chr_add_correct (w : Nat) (hw : w ≤ 1114111) (x : Int) (hx : Fits 32 x) (h : w + x ≤ 2^31 - 1) :
    chrAddElem w x = if 0 ≤ w + x ∧ w + x ≤ 1114111 then .ok (w + x).toNat else .err := by
  simp only [Fits, Nat.reduceSub, Int.reducePow] at hx
  unfold chrAddElem
  rw [ck_some (show Fits 32 (x + w) by simp only [Fits]; omega)]
  have hC : CHR_MAX = 1114111 := rfl
  simp only []
  by_cases hc : 0 ≤ w + x ∧ w + x ≤ 1114111
  · rw [if_pos hc, if_neg (by omega)]; congr 1; omega
  · rw [if_neg hc, if_pos (by omega)]

theorem chr_sub_correct (w : Nat) (hw : w ≤ 1114111) (x : Int) (hx : Fits 32 x) (h : w - x ≤ 2^31 - 1) :
    chrSubElem w x = if 0 ≤ w - x ∧ w - x ≤ 1114111 then .ok (w - x).toNat else .err := by
  simp only [Fits, Nat.reduceSub, Int.reducePow] at hx
  unfold chrSubElem
  rw [ck_some (show Fits 32 (w - x) by simp only [Fits]; omega)]
  have hC : CHR_MAX = 1114111 := rfl
  simp only []
  by_cases hc : 0 ≤ w - x ∧ w - x ≤ 1114111
  · rw [if_pos hc, if_neg (by omega)]; congr 1; omega
  · rw [if_neg hc, if_pos (by omega)]

/-- C40. Scalars: exact for every number up to 2^62 in magnitude. -/
theorem chr_add_scalar_correct (w : Nat) (hw : w ≤ 1114111) (x : Int) (hx : -2^62 ≤ x ∧ x ≤ 2^62) :
    chrAddScalar w x = if 0 ≤ w + x ∧ w + x ≤ 1114111 then .ok (w + x).toNat else .err := by
  unfold chrAddScalar
  rw [ck_some (show Fits 64 (w + x) by simp only [Fits]; omega)]
  have hC : CHR_MAX = 1114111 := rfl
  simp only []
  by_cases hc : 0 ≤ w + x ∧ w + x ≤ 1114111
  · rw [if_pos hc, if_neg (by omega)]; congr 1; omega
  · rw [if_neg hc, if_pos (by omega)]
theorem chr_sub_scalar_correct (w : Nat) (hw : w ≤ 1114111) (x : Int) (hx : -2^62 ≤ x ∧ x ≤ 2^62) :
    chrSubScalar w x = if 0 ≤ w - x ∧ w - x ≤ 1114111 then .ok (w - x).toNat else .err := by
  unfold chrSubScalar
  rw [ck_some (show Fits 64 (w - x) by simp only [Fits]; omega)]
  have hC : CHR_MAX = 1114111 := rfl
  simp only []
  by_cases hc : 0 ≤ w - x ∧ w - x ≤ 1114111
  · rw [if_pos hc, if_neg (by omega)]; congr 1; omega
  · rw [if_neg hc, if_pos (by omega)]

/-- C40. Differences of characters are exact. -/
theorem chr_diff_correct (w x : Nat) (hw : w ≤ 1114111) (hx : x ≤ 1114111) : chrDiff w x = .ok ((w:Int) - x) := by
  unfold chrDiff
  rw [ck_some (show Fits 32 ((w:Int) - x) by simp only [Fits]; omega)]

/-- Finding: the element loops overflow `i32` for numbers near the ends of the range, e.g. `"b"+⟨2147483647⟩` and
`"b"-⟨¯2147483648⟩`. -/
theorem chr_add_undefined : chrAddElem 98 2147483647 = .ub ∧ chrSubElem 98 (-2147483648) = .ub := by decide
/-- Finding: the scalar form overflows `i64` for the largest double below 2^63. -/
theorem chr_add_scalar_undefined : chrAddScalar 98000 (2^63 - 1024) = .ub := by decide

-- concrete characters
example : chrAddElem 97 1 = .ok 98 := by decide
example : chrAddElem 97 (-98) = .err := by decide
example : chrSubElem 98 1 = .ok 97 := by decide
example : chrAddScalar 1114111 1 = .err := by decide

/-! ## modulus by a power of two -/
namespace Pow2
open Verif.Bits

/-- C14. `(2⋆k)|𝕩` for `2^k` a positive 32-bit integer: every element of an `n`-element integer array is replaced by
its residue in `[0,2^k)`, and the array has a valid element type; as long as the array, in the type it is computed in,
occupies fewer than 2^32 bytes. -/
theorem mod_pow2_correct_partial (k : Nat) (hk : k ≤ 30) (t : ITy) (n : Nat) (x r0 : Nat → Word) (hn : n * 4 < 2^32) :
    ∃ t' r, stilePow2 k t n x r0 = some (t', r) ∧ ∀ j, j < n → t'.val r j = t.val x j % 2^k := by
  by_cases hk0 : k = 0
  · subst hk0
    refine ⟨_, _, rfl, ?_⟩
    intro j _
    rw [val_pack_bit _ _ (by omega) (by omega)]
    omega
  have hw2 : 2 ≤ 2^k := by
    have := Nat.pow_le_pow_right (n := 2) (by omega) (show 1 ≤ k by omega)
    omega
  unfold stilePow2
  simp only []
  rw [if_neg (by omega)]
  by_cases ht : t = .bit
  · subst ht
    refine ⟨.bit, x, by rw [if_pos rfl], ?_⟩
    intro j _
    have h1 : ITy.bit.val x j = 0 ∨ ITy.bit.val x j = 1 := by
      simp only [ITy.val]
      have := (lane 1 x j).isLt
      omega
    have h2 : (2:Int) ≤ 2^k := by exact_mod_cast hw2
    rw [Int.emod_eq_of_lt (by omega) (by omega)]
  · rw [if_neg ht]
    -- after the optional widening: type t1, memory x1 with the same values, k below the width
    have hwid : ∃ t1 x1, (if 2^k > 2^(t.width - 1) then
        if 2^k > 32768 then some (ITy.i32, pack 32 (t.val x))
        else if 2^k > 128 then some (ITy.i16, pack 16 (t.val x)) else none
      else some (t, x)) = some (t1, x1) ∧ t1 ≠ .bit ∧ k < t1.width ∧ ∀ j, t1.val x1 j = t.val x j := by
      have hr := val_range t ht x
      by_cases c1 : 2^k > 2^(t.width - 1)
      · rw [if_pos c1]
        by_cases c2 : 2^k > 32768
        · rw [if_pos c2]
          refine ⟨.i32, _, rfl, by decide, by simp only [ITy.width]; omega, fun j => ?_⟩
          have := hr j
          apply val_pack .i32 (by decide) <;> cases t <;> simp only [ITy.width] at * <;> omega
        · rw [if_neg c2]
          have c3 : 2^k > 128 := by
            have h8 : 2^7 ≤ 2^(t.width - 1) := Nat.pow_le_pow_right (by omega) (by cases t <;> simp only [ITy.width] <;> first | exact absurd rfl ht | omega)
            omega
          rw [if_pos c3]
          have hk16 : k < 16 := by
            have : 2^k < 2^16 := by omega
            exact (Nat.pow_lt_pow_iff_right (by omega)).1 this
          refine ⟨.i16, _, rfl, by decide, hk16, fun j => ?_⟩
          have := hr j
          have ht8 : t = .i8 := by
            cases t
            · exact absurd rfl ht
            · rfl
            · simp only [ITy.width, Nat.reduceSub, Nat.reducePow] at c1; omega
            · simp only [ITy.width, Nat.reduceSub, Nat.reducePow] at c1; omega
          subst ht8
          simp only [ITy.width, Nat.reduceSub, Int.reducePow] at this
          apply val_pack .i16 (by decide) <;> simp only [ITy.width, Nat.reduceSub, Int.reducePow] <;> omega
      · rw [if_neg c1]
        refine ⟨t, x, rfl, ht, ?_, fun _ => rfl⟩
        have h1 : 2^k ≤ 2^(t.width-1) := by omega
        have := (Nat.pow_le_pow_iff_right (a := 2) (by omega)).1 h1
        have : 0 < t.width := by cases t <;> decide
        omega
    obtain ⟨t1, x1, e, ht1, hk1, hv1⟩ := hwid
    rw [e]
    simp only [Option.map_some]
    have hbytes : n * (t1.width/8) % 2^32 = n * (t1.width/8) := by
      apply Nat.mod_eq_of_lt
      have : t1.width/8 ≤ 4 := by cases t1 <;> decide
      have := Nat.mul_le_mul_left n this
      omega
    rw [hbytes]
    have hval : ∀ j, j < n → t1.val (andBytes r0 x1 ((BitVec.ofNat 64 (2^k) - 1#64) * repeatNum t1) (n * (t1.width/8))) j
        = t.val x j % 2^k := by
      intro j hj
      have hl := and_lane t1 ht1 k hk1 r0 x1 n j hj
      rw [← hv1 j]
      cases t1 <;> simp only [ITy.val] <;> first | exact absurd rfl ht1 | (rw [hl, and_val _ _ hk1])
    generalize andBytes r0 x1 ((BitVec.ofNat 64 (2^k) - 1#64) * repeatNum t1) (n * (t1.width/8)) = r at hval
    have hpos : (0:Int) < 2^k := Int.pow_pos (by omega)
    have hrange : ∀ j, 0 ≤ t.val x j % 2^k ∧ t.val x j % 2^k < 2^k := fun j => ⟨Int.emod_nonneg _ (by omega), Int.emod_lt_of_pos _ hpos⟩
    have hcast : ((2^k : Nat) : Int) = 2^k := by norm_cast
    by_cases c2 : 2^k = 2
    · rw [if_pos c2]
      refine ⟨_, _, rfl, fun j hj => ?_⟩
      have := hrange j
      rw [val_pack_bit _ _ (by rw [hval j hj]; omega) (by rw [hval j hj]; omega), hval j hj]
    · rw [if_neg c2]
      have small : ∀ m, 2^k < 2^(m+1) → (2:Int)^k ≤ 2^m := by
        intro m h
        have h1 := (Nat.pow_lt_pow_iff_right (a := 2) (by omega)).1 h
        have h2 := Nat.pow_le_pow_right (n := 2) (by omega) (show k ≤ m by omega)
        exact_mod_cast h2
      by_cases c8 : 2^k < 256
      · rw [if_pos c8]
        refine ⟨_, _, rfl, fun j hj => ?_⟩
        have := hrange j
        have := small 7 c8
        have h3 := val_pack .i8 (by decide) (t1.val r) j (by rw [hval j hj]; simp only [ITy.width]; omega) (by rw [hval j hj]; simp only [ITy.width]; omega)
        rw [← hval j hj]; exact h3
      · rw [if_neg c8]
        by_cases c16 : 2^k < 65536
        · rw [if_pos c16]
          refine ⟨_, _, rfl, fun j hj => ?_⟩
          have := hrange j
          have := small 15 c16
          have h3 := val_pack .i16 (by decide) (t1.val r) j (by rw [hval j hj]; simp only [ITy.width]; omega) (by rw [hval j hj]; simp only [ITy.width]; omega)
          rw [← hval j hj]; exact h3
        · rw [if_neg c16]
          exact ⟨_, _, rfl, hval⟩

/-- Finding: the byte count is a 32-bit product, so for a list of 2^30 32-bit integers no byte at all is computed: the
elements of `8|𝕩` are whatever the fresh result memory `r0` held. -/
theorem mod_pow2_uninitialised (x r0 : Nat → Word) :
    stilePow2 3 .i32 (2^30) x r0 = some (.i8, pack 8 (ITy.i32.val r0)) := by
  have h0 : ∀ mask, andBytes r0 x mask 0 = r0 := by
    intro mask
    funext i
    simp only [andBytes, Nat.zero_div, Nat.not_lt_zero, if_false]
    rw [if_neg (by omega)]
  simp [stilePow2, ITy.width, h0]

-- concrete: 16-bit elements -1, 5, 300 modulo 256, and 8-bit elements modulo 512 (widened)
example : ((stilePow2 8 .i16 3 (fun _ => 0x0000012C0005FFFF#64) (fun _ => 0#64)).map fun (t, r) => (t, t.val r 0, t.val r 1, t.val r 2))
    = some (.i16, 255, 5, 44) := by decide +kernel
example : ((stilePow2 9 .i8 2 (fun _ => 0x00000000000005FF#64) (fun _ => 0#64)).map fun (t, r) => (t, t.val r 0, t.val r 1))
    = some (.i16, 511, 5) := by decide +kernel

end Pow2
end Verif.Arith
