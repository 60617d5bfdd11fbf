import Verif.Transpose.Basic
/-!
# Transpose
-/
namespace Verif.Transpose
open Verif.Bits Verif.Fold Verif.Slash Verif.Rep Verif.Select Verif.Under Verif.Rotate

theorem last_row {w h : Nat} (hw : 0 < w) : (w - 1) * h + h = w * h := by
  rw [← Nat.succ_mul]
  congr 1
  omega

theorem noshape_spec {α} (x : Mem α) (w h : Nat) (hw : 0 < w) (hh : 0 < h) (hx : Has x (w * h)) (junk : Nat → Word) (jb : Nat → Bool) (d : Nat → α) :
    ∃ r, transposeNoshape x (w * h) w h junk jb d = some r ∧ Has r (w * h) ∧ ∀ i j, i < w → j < h → elemAt r (i * h + j) = elemAt x (j * w + i) := by
  cases x with
  | elems xs =>
    have hx : xs.length = w * h := hx
    obtain ⟨m, e, hm⟩ := transposeT_spec xs (fresh d (w * h)) w h w h (Nat.le_refl _) (.inr (by rw [length_fresh, last_row hw]; exact Nat.le_refl _))
      (.inr (by rw [hx, last_row hh, Nat.mul_comm]; exact Nat.le_refl _))
    refine ⟨.elems m, by rw [transposeNoshape, e]; rfl, hm.len.trans (length_fresh _ _), fun i j hi hj => ?_⟩
    show (m[i * h + j]?).map _ = (xs[j * w + i]?).map _
    rw [hm.done i j hi hj trivial]
  | bits x =>
    have hx : x.length = (w * h + 63) / 64 := hx
    rw [transposeNoshape]
    by_cases h2 : h = 2
    · subst h2
      rw [if_pos rfl]
      obtain ⟨x1, e1, hb1⟩ := bitCpy_get (fun i => x.getD i 0#64) (fresh junk ((w + 63) / 64)) 0 w w (by rw [length_fresh]; omega)
      have e1 : bitSlice (fun i => x.getD i 0#64) w w junk = some x1 := e1
      rw [e1, Option.bind_some]
      obtain ⟨hl1, hb1⟩ := hb1
      rw [length_fresh] at hl1
      obtain ⟨m, em, hlm, hm⟩ := interleaveBits_spec x x1 (w * 2) (fresh junk ((w * 2 + 63) / 64)) (length_fresh _ _) (by omega) (by omega)
      rw [em]
      refine ⟨.bits m, rfl, hlm, fun i j hi hj => ?_⟩
      show (getBit m (i * 2 + j)).map _ = (getBit x (j * w + i)).map _
      have hjc : j = 0 ∨ j = 1 := by omega
      rw [getBit_some (by omega), getBit_some (by rcases hjc with rfl | rfl <;> omega), hm _ (by omega)]
      rcases hjc with rfl | rfl
      · rw [if_pos (by omega), show (i * 2 + 0) / 2 = i by omega, Nat.zero_mul, Nat.zero_add]
      · rw [if_neg (by omega), show (i * 2 + 1) / 2 = i by omega, hb1 i (by rw [length_fresh]; omega), if_pos ⟨by omega, by omega⟩, bitL_getD, Nat.one_mul, Nat.sub_zero]
    · rw [if_neg h2]
      have hlen := length_listF (fun i => x.getD i 0#64) (w * h)
      obtain ⟨m, e, hm⟩ := transposeT_spec (listF (fun i => x.getD i 0#64) (w * h)) (fresh jb (w * h)) w h w h (Nat.le_refl _)
        (.inr (by rw [length_fresh, last_row hw]; exact Nat.le_refl _)) (.inr (by rw [hlen, last_row hh, Nat.mul_comm]; exact Nat.le_refl _))
      rw [e, Option.map_some]
      have hml : m.length = w * h := hm.len.trans (length_fresh _ _)
      have hpl : (packBits m).length = (w * h + 63) / 64 := by
        unfold packBits
        rw [List.length_map, List.length_range, hml]
      refine ⟨_, rfl, hpl, fun i j hi hj => ?_⟩
      show (getBit (packBits m) (i * h + j)).map _ = (getBit x (j * w + i)).map _
      have hk : i * h + j < w * h := by
        have := pair_le (h := h) hi hj
        rw [last_row hw] at this
        exact this
      have hk2 : j * w + i < w * h := by
        have := pair_le (h := w) hj hi
        rw [last_row hh, Nat.mul_comm h w] at this
        exact this
      rw [getBit_some (by omega), getBit_some (by omega)]
      have h3 := hm.done i j hi hj trivial
      rw [getElem?_listF, if_pos hk2, bitL_getD] at h3
      have h4 := packBits_spec m
      have h5 : (listL (packBits m) m.length)[i * h + j]? = some (bitL (packBits m) (i * h + j)) := by
        unfold listL
        rw [getElem?_firstN, if_pos (by omega)]
      rw [h4, h3] at h5
      rw [Option.some.inj h5]

/-- The first axis goes to the end. -/
theorem transpC1_spec {α} (x : Mem α) (h : Nat) (sh : List Nat) (hsh : sh ≠ []) (hx : Has x (prod (h :: sh))) (junk : Nat → Word) (jb : Nat → Bool) (d : Nat → α) :
    ∃ r, transpC1 x (h :: sh) junk jb d = some (r, sh ++ [h]) ∧ Has r (prod (sh ++ [h])) ∧
      ∀ i is, i < h → InShape sh is → elemAt r (ravel (sh ++ [h]) (is ++ [i])) = elemAt x (ravel (h :: sh) (i :: is)) := by
  have hp : prod (sh ++ [h]) = prod (h :: sh) := by
    rw [prod_append, prod, prod, prod, Nat.mul_one, Nat.mul_comm]
  have hr : ∀ i is, InShape sh is → ravel (sh ++ [h]) (is ++ [i]) = ravel sh is * h + i := by
    intro i is his
    rw [ravel_append his]
    show _ * (h * 1) + (i * 1 + 0) = _
    rw [Nat.mul_one, Nat.mul_one, Nat.add_zero]
  cases sh with
  | nil => exact absurd rfl hsh
  | cons s1 rest =>
    unfold transpC1
    dsimp only
    by_cases hc : prod (h :: s1 :: rest) = 0 ∨ h = 1 ∨ h = prod (h :: s1 :: rest)
    · rw [if_pos hc]
      refine ⟨x, rfl, by rw [hp]; exact hx, fun i is hi his => ?_⟩
      congr 1
      have hlt := ravel_lt his
      rw [hr i is his]
      show ravel (s1 :: rest) is * h + i = i * prod (s1 :: rest) + ravel (s1 :: rest) is
      have hpp : prod (h :: s1 :: rest) = h * prod (s1 :: rest) := rfl
      rcases hc with hc | hc | hc
      · rw [hpp] at hc
        rcases Nat.mul_eq_zero.1 hc with hc | hc <;> omega
      · subst hc
        obtain rfl : i = 0 := by omega
        omega
      · rw [hpp] at hc
        have : prod (s1 :: rest) = 1 := Nat.eq_of_mul_eq_mul_left (show 0 < h by omega) (by omega)
        rw [this] at hlt ⊢
        obtain hz : ravel (s1 :: rest) is = 0 := by omega
        rw [hz]
        omega
    · rw [if_neg hc]
      have hpos : 0 < h * prod (s1 :: rest) := Nat.pos_of_ne_zero fun e => hc (.inl e)
      have hh : 0 < h := Nat.pos_of_ne_zero fun e => by rw [e, Nat.zero_mul] at hpos; omega
      have hw : 0 < prod (s1 :: rest) := Nat.pos_of_ne_zero fun e => by rw [e, Nat.mul_zero] at hpos; omega
      have hpp : prod (h :: s1 :: rest) = prod (s1 :: rest) * h := Nat.mul_comm _ _
      rw [hpp] at hx ⊢
      obtain ⟨r, e, hr1, hr2⟩ := noshape_spec x (prod (s1 :: rest)) h hw hh hx junk jb d
      have e : transposeNoshape x (prod (s1 :: rest) * h) (s1 * prod rest) h junk jb d = some r := e
      rw [e]
      refine ⟨r, rfl, by rw [hp, hpp]; exact hr1, fun i is hi his => ?_⟩
      rw [hr i is his, hr2 _ _ (ravel_lt his) hi]
      rfl

/-- The last axis goes to the front. -/
theorem transpIm_spec {α} (x : Mem α) (w : Nat) (sh : List Nat) (hsh : sh ≠ []) (hx : Has x (prod (sh ++ [w]))) (junk : Nat → Word) (jb : Nat → Bool) (d : Nat → α) :
    ∃ r, transpIm x (sh ++ [w]) junk jb d = some (r, w :: sh) ∧ Has r (prod (w :: sh)) ∧
      ∀ i is, i < w → InShape sh is → elemAt r (ravel (w :: sh) (i :: is)) = elemAt x (ravel (sh ++ [w]) (is ++ [i])) := by
  have hp : prod (sh ++ [w]) = prod sh * w := by
    rw [prod_append, prod, prod, Nat.mul_one]
  have hp2 : prod (w :: sh) = w * prod sh := rfl
  have hr : ∀ i is, InShape sh is → ravel (sh ++ [w]) (is ++ [i]) = ravel sh is * w + i := by
    intro i is his
    rw [ravel_append his]
    show _ * (w * 1) + (i * 1 + 0) = _
    rw [Nat.mul_one, Nat.mul_one, Nat.add_zero]
  have hlen : 0 < sh.length := List.length_pos_iff.2 hsh
  have hlast : (sh ++ [w]).getLastD 0 = w := by
    rw [List.getLastD_eq_getLast?, List.getLast?_concat]
    rfl
  unfold transpIm
  rw [if_neg (by rw [List.length_append, List.length_singleton]; omega)]
  dsimp only
  rw [hlast, List.dropLast_concat]
  by_cases hc : prod (sh ++ [w]) = 0 ∨ w = 1 ∨ w = prod (sh ++ [w])
  · rw [if_pos hc]
    refine ⟨x, rfl, by rw [hp2, Nat.mul_comm, ← hp]; exact hx, fun i is hi his => ?_⟩
    congr 1
    have hlt := ravel_lt his
    rw [hr i is his]
    show i * prod sh + ravel sh is = _
    rw [hp] at hc
    rcases hc with hc | hc | hc
    · rcases Nat.mul_eq_zero.1 hc with hc | hc <;> omega
    · subst hc
      obtain rfl : i = 0 := by omega
      omega
    · have : prod sh = 1 := Nat.eq_of_mul_eq_mul_right (show 0 < w by omega) (by omega)
      rw [this] at hlt ⊢
      obtain hz : ravel sh is = 0 := by omega
      rw [hz]
      omega
  · rw [if_neg hc]
    rw [hp] at hc hx ⊢
    have hpos : 0 < prod sh * w := Nat.pos_of_ne_zero fun e => hc (.inl e)
    have hw : 0 < w := Nat.pos_of_ne_zero fun e => by rw [e, Nat.mul_zero] at hpos; omega
    have hh : 0 < prod sh := Nat.pos_of_ne_zero fun e => by rw [e, Nat.zero_mul] at hpos; omega
    rw [Nat.mul_comm] at hx
    obtain ⟨r, e, hr1, hr2⟩ := noshape_spec x w (prod sh) hw hh hx junk jb d
    rw [Nat.mul_comm (prod sh) w, e]
    refine ⟨r, rfl, hr1, fun i is hi his => ?_⟩
    rw [hr i is his]
    exact hr2 _ _ hi (ravel_lt his)

end Verif.Transpose
