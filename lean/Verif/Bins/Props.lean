import Verif.Bins.Main
/-!
# Bins

`binsC2 true` is `𝕨⍋𝕩` and `binsC2 false` is `𝕨⍒𝕩`. `none` would be a read outside of an array. `flag` tells that `𝕨` is marked as
sorted; `junk` is what memory holds before the result is written. What bins means is in `Verif.Bins.Spec`.
-/
namespace Verif.Bins
open Verif.Bits Verif.Sort

/-! ### concrete arguments -/
def w01 : Nat → Word := fun i => if i = 0 then 0xFFFFFFFFFFFFFF00#64 else ~~~0#64
def w10 : Nat → Word := fun i => if i = 0 then ~~~0#64 else 0x3#64
def xbits : Nat → Word := fun _ => 0b0110#64
def one : BitVec 64 := 0x3FF0000000000000#64
def half : BitVec 64 := 0x3FE0000000000000#64
def notNumber : BitVec 64 := 0x7FF8000000000000#64
def anys : List Value := [numV 0#64, ⟨.arr [2] [.num 0#64, .chr 97], by simp [Compare.Ok, Compare.Oks, Compare.count]⟩, numV one, chrV 97]

/-- For a sorted `𝕨` of any element type and any `𝕩`, each element of the result is the number of elements of `𝕨` that do not come
after the element of `𝕩`. -/
theorem bins_counts (up flag : Bool) (junk : Nat → Word) (w x : BArr) (hw : w.Ok) (hx : x.Ok) (hs : InOrder up w.elems)
    (hn : w.len ≤ 2^31 - 11) : binsC2 up junk flag w x = some (.ok (x.elems.map (bin up w.elems))) := by
  rcases Nat.eq_zero_or_pos x.len with h | h
  · have e : x.elems = [] := List.length_eq_zero_iff.1 (by rw [elems_length, h])
    unfold binsC2
    rw [binsN, if_pos (.inr h), h, e]; rfl
  · rcases Nat.lt_or_ge w.len 2 with h2 | h2
    · rcases Nat.eq_zero_or_pos w.len with h0 | h0
      · have e : w.elems = [] := List.length_eq_zero_iff.1 (by rw [elems_length, h0])
        unfold binsC2
        rw [binsN, if_pos (.inl h0), e, ← elems_length]
        rw [map_const (f := bin up []) (c := 0) (fun _ _ => rfl)]
      · have h1 : w.len = 1 := by omega
        obtain ⟨c, e⟩ := List.length_eq_one_iff.1 (by rw [elems_length]; exact h1 : w.elems.length = 1)
        unfold binsC2
        rw [binsN, if_neg (by omega), if_pos h1, e]
        show some (Out.ok (single up junk c w x)) = _
        rw [single_spec up junk hw hx (by rw [e]; exact List.mem_singleton.2 rfl)]
    · exact bins_start ⟨hw, hx, h2, h, hn, hs⟩

theorem inOrder_of_isSorted {up : Bool} {w : BArr} (hw : w.Ok) (h : isSorted up w = some true) : InOrder up w.elems := by
  obtain ⟨r, h1, h2⟩ := isSorted_spec up w hw
  rw [h1] at h; injection h with h; exact h2.1 h

example : InOrder true (BArr.int [-3, 0, 0, 7]).elems ∧
    binsC2 true (fun _ => 0#64) false (.int [-3, 0, 0, 7]) (.int [-4, -3, -1, 0, 5, 7, 100]) = some (.ok [0, 1, 1, 3, 3, 4, 4]) :=
  ⟨inOrder_of_isSorted (by intro i hi; simp at hi; omega) (by decide +kernel), by decide +kernel⟩
example : binsC2 false (fun _ => 0#64) false (.int [7, 0, 0, -3]) (.int [-4, -3, -1, 0, 5, 7, 100]) = some (.ok [4, 4, 3, 3, 1, 1, 0]) := by decide +kernel
example : InOrder true (BArr.bit w01 130).elems ∧
    binsC2 true (fun _ => 0#64) false (.bit w01 130) (.flt [half, one, 0#64, notNumber, 0xBFF0000000000000#64]) = some (.ok [8, 130, 8, 130, 0]) :=
  ⟨inOrder_of_isSorted trivial (by decide +kernel), by decide +kernel⟩
example : binsC2 false (fun _ => 0#64) false (.bit w10 70) (.bit xbits 5) = some (.ok [70, 66, 66, 70, 70]) := by decide +kernel
example : binsC2 true (fun _ => 0#64) false (.any anys) (.any (anys.reverse ++ [chrV 98, numV half])) = some (.ok [4, 3, 2, 1, 4, 2]) := by decide +kernel
example : binsC2 true (fun _ => 0#64) false (.flt [notNumber]) (.flt [notNumber, half]) = some (.ok [1, 0]) := by decide +kernel
example : binsC2 true (fun _ => ~~~0#64) false (.any [chrV 97]) (.any (anys ++ List.replicate 70 (chrV 97))) = some (.ok ([0, 0, 0, 1] ++ List.replicate 70 1)) := by decide +kernel

/-- `𝕨` that is not in order, and not marked to be, is an error (if `𝕩` has elements). -/
theorem bins_unsorted (up : Bool) (junk : Nat → Word) (w x : BArr) (hw : w.Ok) (hs : ¬ InOrder up w.elems) (hx : x.len ≠ 0)
    (hn : w.len ≤ 2^31 - 11) : binsC2 up junk false w x = some .notSorted := by
  have h2 : 2 ≤ w.len := by
    rcases Nat.lt_or_ge w.len 2 with h | h
    · exact absurd (pairwise_short (by rw [elems_length]; omega)) hs
    · exact h
  obtain ⟨r, h1, h3⟩ := isSorted_spec up w hw
  have hr : r = false := by
    cases r with
    | false => rfl
    | true => exact absurd (h3.1 rfl) hs
  unfold binsC2
  rw [binsN, if_neg (by omega), if_neg (by omega), if_neg (by omega), if_neg Bool.false_ne_true, h1, hr]
  rfl

example : binsC2 true (fun _ => 0#64) false (.int [3, 1, 4]) (.int [0]) = some .notSorted := by decide +kernel
example : binsC2 true (fun _ => 0#64) false (.bit w10 66) (.int [0]) = some (.ok [0]) ∧ binsC2 true (fun _ => 0#64) false (.bit w10 67) (.int [0]) = some .notSorted := by decide +kernel

/-- A longer `𝕨` is an error. -/
theorem bins_too_big (up flag : Bool) (junk : Nat → Word) (w x : BArr) (hx : x.len ≠ 0) (hn : 2^31 - 11 < w.len) :
    binsC2 up junk flag w x = some .tooBig := by
  unfold binsC2
  rw [binsN, if_neg (by omega), if_neg (by omega), if_pos (by omega)]

example : (BArr.bit (fun _ => 0#64) (2^31 - 10)).len = 2^31 - 10 := rfl

/-- What the result is good for: the element of `𝕩` can be inserted there, after those equal to it. -/
theorem bin_insert (up : Bool) (ws : List Value) (v : Value) (hs : InOrder up ws) :
    InOrder up (ws.take (bin up ws v) ++ v :: ws.drop (bin up ws v)) ∧ ∀ a ∈ ws.drop (bin up ws v), notAfter up a v = false := by
  have hb : ∀ i a, ws[i]? = some a → notAfter up a v = decide (i < bin up ws v) := fun i a h => sorted_bin up v hs h
  have h1 : ∀ a ∈ ws.take (bin up ws v), notAfter up a v = true := by
    intro a ha
    obtain ⟨i, hi, rfl⟩ := List.mem_iff_getElem.1 ha
    rw [List.length_take] at hi
    rw [List.getElem_take, hb i _ (List.getElem?_eq_getElem _), decide_eq_true (by omega)]
  have h2 : ∀ a ∈ ws.drop (bin up ws v), notAfter up a v = false := by
    intro a ha
    obtain ⟨i, hi, rfl⟩ := List.mem_iff_getElem.1 ha
    rw [List.getElem_drop, hb _ _ (List.getElem?_eq_getElem _), decide_eq_false (by omega)]
  have total : ∀ a, notAfter up a v = false → notAfter up v a = true := by
    intro a h
    have e1 := lt_cmp up a v
    rw [h] at e1
    have hn := cmpValue_order.neg a v
    have hn' := cmpValue_order.neg v a
    unfold lt at e1
    unfold notAfter
    cases up <;> simp at e1 ⊢ <;> omega
  refine ⟨?_, h2⟩
  have hs' : InOrder up (ws.take (bin up ws v) ++ ws.drop (bin up ws v)) := by rw [List.take_append_drop]; exact hs
  obtain ⟨p1, p2, p3⟩ := List.pairwise_append.1 hs'
  refine List.pairwise_append.2 ⟨p1, List.pairwise_cons.2 ⟨fun a ha => total a (h2 a ha), p2⟩, ?_⟩
  intro a ha b hb'
  rcases List.mem_cons.1 hb' with rfl | hb'
  · exact h1 a ha
  · exact p3 a ha b hb'

example : InOrder true anys := inOrder_of_isSorted (w := .any anys) trivial (by decide +kernel)
example : bin true anys (chrV 97) = 4 ∧ bin true anys (numV half) = 2 := by decide +kernel

end Verif.Bins
