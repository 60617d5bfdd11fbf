import Verif.Sort.DispatchLemmas
/-!
# Sorting and grading

`sortC1 true` is `∧𝕩` and `sortC1 false` is `∨𝕩`; `gradeC1` likewise is `⍋𝕩` and `⍒𝕩`. `none` would be a read or write outside of
a buffer. What it means to be sorted is in `Verif.Sort.Spec`.
-/
namespace Verif.Sort
open Verif.Bits

/-! ### concrete arguments -/
def bits : Nat → Word := fun i => if i = 0 then 0b0110100#64 else 0#64
def ints : List Int := [3, -1, 4, 1, -5, 9, 2, 6, -5, 3, 5, -128, 127, 0, 8, 7, 3, -2]
/-- 300 integers, with repetitions -/
def many (m : Int) : List Int := (List.range 300).map fun i : Nat => (i : Int) * 7919 % m - m/2
def value (f : BitVec 64) : Value := ⟨.num f, trivial⟩
def values : List Value := [value 0x4000000000000000#64, value 0x8000000000000000#64, value 0#64, ⟨.chr 97, trivial⟩, value 0xBFF0000000000000#64]
/-- The order of values, ascending or descending. -/
def valueOrder (up : Bool) (a b : Value) : Int := if up then cmpValue a b else -cmpValue a b

/-- Sorting booleans. `hf`: a list marked as sorted is sorted. -/
theorem sort_booleans (up : Bool) (c : α → α → Int) (flag : Bool) (rp : List Int) (junk : Nat → Nat) (x : Nat → Word) (n : Nat)
    (hf : flag = true → (listF x n).Pairwise fun a b => boolOrder up a b ≤ 0) :
    ∃ r, sortC1 up c flag rp junk (.bit x n) = some (.bit r n) ∧ IsSort (boolOrder up) (listF x n) (listF r n) := by
  rw [sortC1]
  split
  · rename_i h
    exact ⟨x, rfl, isSort_self (h.elim (fun h => pairwise_short (by rw [length_firstN]; exact h)) hf)⟩
  · exact ⟨_, rfl, sortBits_spec up x n⟩

example : (match sortC1 (α := Value) true cmpValue false [] (fun _ => 0) (.bit bits 7) with | some (.bit r n) => some (listF r n) | _ => none)
    = some [false, false, false, false, true, true, true] := by decide +kernel
example : (match sortC1 (α := Value) false cmpValue false [] (fun _ => 0) (.bit bits 70) with | some (.bit r n) => some (listF r n) | _ => none)
    = some (List.replicate 3 true ++ List.replicate 67 false) := by decide +kernel

/-- Sorting integers: all element types and lengths, except `i32` lists of 2^30 and more. -/
theorem sort_integers (up : Bool) (c : α → α → Int) (flag : Bool) (rp : List Int) (junk : Nat → Nat) (t : IntTy) (xs : List Int)
    (hx : ∀ x ∈ xs, t.has x) (hn : xs.length < 2^32) (hb : t = .i32 → xs.length < 2^30) (hr : rp.length = xs.length)
    (hf : flag = true → xs.Pairwise fun a b => intOrder up a b ≤ 0) :
    ∃ r, sortC1 up c flag rp junk (.int t xs) = some (.int t r) ∧ IsSort (intOrder up) xs r := by
  rw [sortC1]
  split
  · rename_i h
    exact ⟨xs, rfl, isSort_self (h.elim pairwise_short hf)⟩
  · rename_i h
    obtain ⟨r, h1, h2⟩ := sortInt_spec up t rp junk xs hr hn hb (fun e => h (.inl (by rw [e]; decide))) hx
    exact ⟨r, by rw [h1]; rfl, h2⟩

example : (∀ x ∈ ints, IntTy.has .i8 x) ∧ (match sortC1 (α := Value) false cmpValue false [] (fun j => j) (.int .i8 ints) with | some (.int _ r) => some r | _ => none)
    = some [127, 9, 8, 7, 6, 5, 4, 3, 3, 3, 2, 1, 0, -1, -2, -5, -5, -128] := by decide +kernel
example : (∀ x ∈ many 60000, IntTy.has .i16 x) ∧ (many 60000).length = 300 := by decide +kernel
example : (∀ x ∈ many 4000000, IntTy.has .i32 x) ∧ ¬ (∀ x ∈ many 4000000, IntTy.has .i16 x) := by decide +kernel

/-- Only identical integers are equivalent, so the sorted list is the argument reordered. -/
theorem sort_integers_perm (up : Bool) (c : α → α → Int) (rp : List Int) (junk : Nat → Nat) (t : IntTy) (xs r : List Int)
    (hx : ∀ x ∈ xs, t.has x) (hn : xs.length < 2^32) (hb : t = .i32 → xs.length < 2^30) (hr : rp.length = xs.length)
    (h : sortC1 up c false rp junk (.int t xs) = some (.int t r)) : r.Perm xs := by
  obtain ⟨r', h1, h2⟩ := sort_integers up c false rp junk t xs hx hn hb hr (fun h => by cases h)
  rw [h1] at h
  injection h with h
  injection h with _ h
  subst h
  exact perm_of_sameClasses (intOrder_order up) h2.2

example : ∃ r, sortC1 (α := Value) true cmpValue false [0, 0, 0] (fun _ => 0) (.int .i32 [2, 1, 2]) = some (.int .i32 r) ∧ r = [1, 2, 2] := ⟨_, rfl, by decide⟩

/-- The exception: the buffer for a list of 2^30 or more `i32` elements is too small, and sorting such a list writes outside of it. -/
theorem sort_integers_overflow (up : Bool) (c : α → α → Int) (rp : List Int) (junk : Nat → Nat) (xs : List Int)
    (h1 : 2^30 ≤ xs.length) (h2 : xs.length < 2^32) : sortC1 up c false rp junk (.int .i32 xs) = none := by
  rw [sortC1, if_neg (by simp; omega), sortInt_none up rp junk xs h1 h2]; rfl

example : ∃ xs : List Int, 2^30 ≤ xs.length ∧ xs.length < 2^32 ∧ ∀ x ∈ xs, IntTy.has .i32 x :=
  ⟨List.replicate (2^30) 0, by rw [List.length_replicate]; exact Nat.le_refl _, by rw [List.length_replicate]; decide, fun x h => by rw [List.eq_of_mem_replicate h]; decide⟩

/-- Sorting anything else, by the order of values. -/
theorem sort_values (up : Bool) (flag : Bool) (rp : List Int) (junk : Nat → Nat) (xs : List Value) (hn : xs.length < 2^32)
    (hf : flag = true → xs.Pairwise fun a b => valueOrder up a b ≤ 0) :
    ∃ r, sortC1 up cmpValue flag rp junk (.other xs) = some (.other r) ∧ IsSort (valueOrder up) xs r := by
  rw [sortC1]
  split
  · rename_i h
    exact ⟨xs, rfl, isSort_self (h.elim pairwise_short hf)⟩
  · obtain ⟨M, h1, h2⟩ := timSort_spec (order_dir cmpValue_order up) xs hn
    exact ⟨M, by rw [h1]; rfl, h2⟩

/-- Both zeroes are equivalent and keep their order; numbers come before characters. -/
example : (match sortC1 true cmpValue false [] (fun _ => 0) (.other values) with
    | some (.other r) => some (r.map fun v => match v.1 with | .num f => f.toNat | _ => 1) | _ => none)
    = some [0xBFF0000000000000, 0x8000000000000000, 0, 0x4000000000000000, 1] := by decide +kernel

/-- Grading booleans. -/
theorem grade_booleans (up : Bool) (c : α → α → Int) (junk : Nat → Nat) (x : Nat → Word) (n : Nat) (hn : n < 2^32) :
    ∃ r : List Nat, gradeC1 up c junk (.bit x n) = some (.ok (r.map fun i : Nat => (i : Int))) ∧ IsGrade (boolOrder up) (listF x n) r :=
  gradeBit_spec up c junk x n hn

example : gradeC1 (α := Value) true cmpValue (fun _ => 0) (.bit bits 7) = some (.ok [0, 1, 3, 6, 2, 4, 5]) ∧
    gradeC1 (α := Value) false cmpValue (fun _ => 0) (.bit bits 7) = some (.ok [2, 4, 5, 0, 1, 3, 6]) := by decide +kernel

/-- Grading integers. -/
theorem grade_integers (up : Bool) (c : α → α → Int) (junk : Nat → Nat) (t : IntTy) (xs : List Int) (hx : ∀ x ∈ xs, t.has x) (hn : xs.length < 2^31) :
    ∃ r : List Nat, gradeC1 up c junk (.int t xs) = some (.ok (r.map fun i : Nat => (i : Int))) ∧ IsGrade (intOrder up) xs r :=
  gradeInt_spec up c t junk xs hn hx

example : gradeC1 (α := Value) true cmpValue (fun _ => 0) (.int .i32 [12, 10, 11, 13]) = some (.ok [1, 2, 0, 3]) ∧
    gradeC1 (α := Value) false cmpValue (fun _ => 0) (.int .i32 [12, 10, 11, 10]) = some (.ok [0, 2, 1, 3]) ∧
    gradeC1 (α := Value) false cmpValue (fun _ => 0) (.int .i32 [12, 1000, 11, 12]) = some (.ok [1, 0, 3, 2]) ∧
    gradeC1 (α := Value) true cmpValue (fun _ => 0) (.int .i8 ints) = some (.ok [11, 4, 8, 17, 1, 13, 3, 6, 0, 9, 16, 2, 10, 7, 15, 14, 5, 12]) := by decide +kernel

/-- Grading characters, given by their code points. -/
theorem grade_characters (up : Bool) (c : α → α → Int) (junk : Nat → Nat) (xs : List Int) (hx : ∀ x ∈ xs, 0 ≤ x ∧ x ≤ 1114111) (hn : xs.length < 2^31) :
    ∃ r : List Nat, gradeC1 up c junk (.chr xs) = some (.ok (r.map fun i : Nat => (i : Int))) ∧ IsGrade (intOrder up) xs r :=
  gradeChr_spec up c junk xs hn hx

example : gradeC1 (α := Value) true cmpValue (fun _ => 0) (.chr [98, 97, 99, 97]) = some (.ok [1, 3, 0, 2]) := by decide +kernel

/-- Grading anything else, by the order of values. -/
theorem grade_values (up : Bool) (junk : Nat → Nat) (xs : List Value) (hn : xs.length < 2^31) :
    ∃ r : List Nat, gradeC1 up cmpValue junk (.other xs) = some (.ok (r.map fun i : Nat => (i : Int))) ∧ IsGrade (valueOrder up) xs r :=
  gradeOther_spec up cmpValue_order junk xs hn

example : gradeC1 true cmpValue (fun _ => 0) (.other values) = some (.ok [4, 1, 2, 0, 3]) := by decide +kernel

/-- Longer lists, other than of booleans, are refused. -/
theorem grade_too_large (up : Bool) (c : α → α → Int) (junk : Nat → Nat) :
    (∀ (t : IntTy) (xs : List Int), 2^31 ≤ xs.length → gradeC1 up c junk (.int t xs) = some .tooLarge) ∧
    (∀ xs : List Int, 2^31 ≤ xs.length → gradeC1 up c junk (.chr xs) = some .tooLarge) ∧
    (∀ xs : List α, 2^31 ≤ xs.length → gradeC1 up c junk (.other xs) = some .tooLarge) := by
  refine ⟨fun t xs h => ?_, fun xs h => ?_, fun xs h => ?_⟩ <;> rw [gradeC1, if_neg (by omega), gradeBig, if_pos (by omega)]

example : ∃ xs : List Int, 2^31 ≤ xs.length := ⟨List.replicate (2^31) 0, by rw [List.length_replicate]; exact Nat.le_refl _⟩

/-- The sort is the selection from the argument by the grade: `(∧𝕩)≡(⍋𝕩)⊏𝕩`, for any order. -/
theorem sort_selects_by_grade {α : Type} {c : α → α → Int} (hc : Order c) {xs s : List α} {g : List Nat} (hs : IsSort c xs s) (hg : IsGrade c xs g) :
    s.map some = g.map fun i => xs[i]? := grade_selects hc hs hg

example : IsSort (intOrder true) [2, 1, 2] [1, 2, 2] ∧ IsGrade (intOrder true) [2, 1, 2] [1, 0, 2] := by
  refine ⟨isSort_of_perm (intOrder_zero true) (by decide) (by decide), by decide, ?_⟩
  simp [intOrder]

/-- A list has one sort and one grade, so the theorems above determine the results. -/
theorem sort_unique {α : Type} {c : α → α → Int} (hc : Order c) {xs r s : List α} (hr : IsSort c xs r) (hs : IsSort c xs s) : r = s :=
  sameClasses_unique hc hr.1 hs.1 fun x => (hs.2 x).trans (hr.2 x).symm

example : Order cmpValue ∧ Order (intOrder false) := ⟨cmpValue_order, intOrder_order false⟩

theorem grade_unique {α : Type} {c : α → α → Int} (hc : Order c) {xs : List α} {r s : List Nat} (hr : IsGrade c xs r) (hs : IsGrade c xs s) : r = s := by
  refine List.Perm.eq_of_pairwise (le := fun i j => ∃ a b, xs[i]? = some a ∧ xs[j]? = some b ∧ (c a b < 0 ∨ (c a b = 0 ∧ i < j))) ?_ hr.2 hs.2 (hr.1.trans hs.1.symm)
  rintro i j _ _ ⟨a, b, h1, h2, h3⟩ ⟨b', a', h4, h5, h6⟩
  rw [h1] at h5; rw [h2] at h4
  injection h5 with h5; injection h4 with h4
  subst h5; subst h4
  have := hc.neg a b
  have := hc.neg b a
  omega

example : IsGrade (intOrder true) [2, 1, 2] [1, 0, 2] := ⟨by decide, by simp [intOrder]⟩

end Verif.Sort
