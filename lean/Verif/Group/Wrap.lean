import Verif.Group.Top
/-!
# Group: buckets of 4 GiB, and buckets as lists
-/
namespace Verif.Group
open Verif.Bits Verif.Fold Verif.Slash Verif.Rep Verif.Select Verif.Under Verif.Rotate

variable {M α : Type}

theorem allocAll_none {K : Kind M α} {c : Cells} {len : Nat → Nat} {k : Nat} (h : alloc K c (len (k + 1)) = none) : ∀ r, k < r → allocAll K c len r = none
  | 0, hk => absurd hk (Nat.not_lt_zero k)
  | r + 1, hk => by
    rw [allocAll]
    by_cases he : k = r
    · subst he
      rw [h]
      cases allocAll K c len k <;> rfl
    · rw [allocAll_none h r (by omega)]
      rfl

theorem change_le (w : Nat → Int) : ∀ n, (((List.range n).map w).foldl Stats.step {}).change ≤ n
  | 0 => Nat.le_refl _
  | n + 1 => by
    rw [List.range_succ, List.map_append, List.foldl_append]
    have := change_le w n
    generalize ((List.range n).map w).foldl Stats.step {} = s at this
    show s.change + _ ≤ _
    split <;> omega

theorem group_large (n : Nat) (h1 : 2^25 ≤ n) (h2 : n + 1 < 2^31) (x : List α) (d : Nat → α) : group (elems 6 true d) false (List.replicate n 0 ++ [1]) (n + 1) [16] x d = none := by
  generalize hw : (List.replicate n (0 : Int) ++ [1]) = w
  have hlen : w.length = n + 1 := by rw [← hw]; simp
  have hget : ∀ i, i < n + 1 → w.getD i 0 = if i = n then 1 else 0 := by
    intro i hi
    rw [← hw, List.getD_eq_getElem?_getD]
    by_cases he : i = n
    · subst he
      rw [List.getElem?_append_right (by simp), if_pos rfl]
      simp
    · rw [List.getElem?_append_left (by simp; omega), List.getElem?_replicate, if_pos (by omega), if_neg he]
      rfl
  unfold group
  dsimp only
  rw [if_neg (by omega), if_neg (by decide), take_eq_map w (n + 1) (by omega)]
  have hs := stats_spec (fun i => w.getD i 0) (n + 1)
  have hch := change_le (fun i => w.getD i 0) (n + 1)
  generalize ((List.range (n + 1)).map fun i => w.getD i 0).foldl Stats.step {} = s at hs hch ⊢
  have hmax : s.max = 1 := by
    have a := hs.le n (by omega)
    rw [hget n (by omega), if_pos rfl] at a
    rcases hs.reached with b | ⟨i, hi, b⟩
    · omega
    · rw [hget i hi] at b
      split at b <;> omega
  have hbad : s.bad = false := by
    cases hb : s.bad with
    | false => rfl
    | true =>
      obtain ⟨i, hi, hlt⟩ := hs.bad.1 hb
      rw [hget i hi] at hlt
      split at hlt <;> omega
  have hneg : s.neg = 0 := by
    rw [hs.neg]
    refine before_zero fun i hi => ?_
    rw [hget i hi]
    split <;> decide
  rw [if_neg (show ¬ n + 1 < w.length by omega), hbad, hmax, if_neg (by decide)]
  have hria : (if (1 : Int) + 1 > 0 then (1 : Int) + 1 else 0).toNat = 2 := by decide
  rw [hria]
  have hcells : cellsOf 6 [16] = { rank1 := false, csz := 16, xl := 7, bits := false, width := 128 } := rfl
  unfold groupInts
  rw [if_neg (show ¬ 2 = 0 by decide), if_neg (show ¬ (2 = 1 ∧ s.neg = 0) from fun h => absurd h.1 (by decide)), if_neg (show ¬ s.neg = n + 1 by omega)]
  show Option.map Res.ok (if 64 < n + 1 ∧ true = true ∧ s.change < (n + 1) * (cellsOf 6 [16]).width / 32 then _ else _) = none
  rw [hcells]
  dsimp only
  rw [if_pos ⟨by omega, rfl, by omega⟩]
  have hwr : ∀ i, i < n + 1 → -1 ≤ w.getD i 0 ∧ w.getD i 0 < ((2 : Nat) : Int) := by
    intro i hi
    rw [hget i hi]
    split <;> decide
  obtain ⟨t, ht, hpre, hruns⟩ := starts_spec (fun i => w.getD i 0) (n + 1)
  generalize runs (n + 1) _ = rl at hruns ⊢
  rw [starts_lt h2 hruns, if_neg (by decide)]
  obtain ⟨len, el, hl⟩ := chunkLens_spec (ria := 2) hwr rl t (fun _ => 0) hruns (fun k hk1 hk2 => by
    rw [before_zero fun i hi => by rw [hpre i hi]; omega])
  rw [el]
  dsimp only [Option.bind]
  have hl0 : len 1 = n := by
    have := hl 0 (by omega) (by omega)
    rw [show ((0 : Int) + 1).toNat = 1 from rfl] at this
    rw [this]
    show before _ 0 n + (if w.getD n 0 = 0 then 1 else 0) = n
    rw [hget n (by omega), if_pos rfl, if_neg (by decide), before_all]
    · rfl
    · intro i hi
      rw [hget i (by omega), if_neg (by omega)]
  have hal : alloc (elems 6 true d).toKind (cellsOf (elems 6 true d).log [16]) (len (0 + 1)) = none := by
    show alloc _ (cellsOf 6 [16]) _ = none
    rw [hcells]
    unfold alloc
    rw [show len (0 + 1) = n from hl0, if_neg (by omega), if_pos ⟨rfl, show 2^32 ≤ n * 128 by omega⟩]
  rw [allocAll_none hal 2 (by decide)]
  rfl

/-! ## Lists -/

/-- The elements of a bucket of `l` elements. -/
def contents (K : Kind M α) (x : M) (xn csz : Nat) (b : Bucket M α) : List (Option α) := (List.range (b.size xn * csz)).map (b.get K x)

theorem filter_before (w : Nat → Int) (k : Int) (n : Nat) :
    ((List.range n).filter fun i => decide (w i = k)).length = before w k n ∧ ∀ j : Nat, j < before w k n → ∃ i, i < n ∧ w i = k ∧ before w k i = j ∧ ((List.range n).filter fun i => decide (w i = k))[j]? = some i := by
  induction n with
  | zero => exact ⟨rfl, fun j hj => absurd hj (Nat.not_lt_zero j)⟩
  | succ n ih =>
    obtain ⟨h1, h2⟩ := ih
    rw [List.range_succ, List.filter_append]
    generalize (List.range n).filter (fun i => decide (w i = k)) = f at h1 h2
    show _ = before w k n + _ ∧ ∀ j : Nat, j < before w k n + _ → _
    by_cases hk : w n = k
    · rw [List.filter_cons_of_pos (by simpa using hk), if_pos hk]
      refine ⟨by simp [h1], fun j hj => ?_⟩
      by_cases hj2 : j < before w k n
      · obtain ⟨i, a, b, c, e⟩ := h2 j hj2
        exact ⟨i, by omega, b, c, by rw [List.getElem?_append_left (by omega)]; exact e⟩
      · refine ⟨n, by omega, hk, by omega, ?_⟩
        rw [List.getElem?_append_right (by omega), show j - f.length = 0 by omega]
        rfl
    · rw [List.filter_cons_of_neg (by simpa using hk), if_neg hk]
      simp only [List.filter_nil, List.append_nil, Nat.add_zero]
      refine ⟨h1, fun j hj => ?_⟩
      obtain ⟨i, a, b, c, e⟩ := h2 j hj
      exact ⟨i, by omega, b, c, e⟩

theorem contents_eq {K : Kind M α} {x : M} {w : Nat → Int} {n : Nat} {extra : Option Int} {rs : List (Bucket M α)}
    (h : Grouped w n extra 1 (K.get x) rs.length (sizeOf n rs) (getOf K x rs)) {k : Nat} (hk : k < rs.length) :
    contents K x n 1 rs[k] = ((List.range n).filter fun i => decide (w i = k)).map (K.get x) := by
  have e := List.getElem?_eq_getElem hk
  have hsz := h.size k hk
  unfold sizeOf at hsz
  rw [e] at hsz
  have hsz : rs[k].size n = before w k n := hsz
  obtain ⟨f1, f2⟩ := filter_before w k n
  unfold contents
  rw [hsz, Nat.mul_one]
  apply List.ext_getElem?
  intro j
  rw [List.getElem?_map, List.getElem?_map]
  by_cases hj : j < before w k n
  · obtain ⟨i, a, b, c, d⟩ := f2 j hj
    rw [List.getElem?_range hj, d]
    have := h.get i k a b 0 (by decide)
    rw [c] at this
    unfold getOf at this
    rw [e] at this
    simp only [Nat.mul_one, Nat.add_zero, Option.bind] at this
    show some _ = some _
    rw [this]
  · rw [List.getElem?_eq_none (by simpa using hj), List.getElem?_eq_none (by omega)]
    rfl

end Verif.Group
