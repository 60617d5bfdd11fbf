import Verif.Shift.Reverse
/-!
# Shifts and Reverse: properties
-/
namespace Verif.Shift
open Verif.Bits Verif.Slash Verif.Rep Verif.Select Verif.Under Verif.Rotate
open Verif.Take (Kind Res elemKind bitKind)

/-- A cell of `𝕩` that `source` gives is one of its cells. -/
theorem source_x {after : Bool} {m n i j : Nat} (hi : i < n) (h : source after m n i = .x j) : j < n := by
  cases after with
  | true =>
    rw [source_after] at h
    by_cases hc : i + m < n
    · rw [if_pos hc] at h; cases h; exact hc
    · rw [if_neg hc] at h; cases h
  | false =>
    rw [source_before] at h
    by_cases hc : i < m
    · rw [if_pos hc] at h; cases h
    · rw [if_neg hc] at h; cases h; omega

theorem source_w {after : Bool} {m n i j : Nat} (hi : i < n) (h : source after m n i = .w j) : j < m := by
  cases after with
  | true =>
    rw [source_after] at h
    by_cases hc : i + m < n
    · rw [if_pos hc] at h; cases h
    · rw [if_neg hc] at h; cases h; omega
  | false =>
    rw [source_before] at h
    by_cases hc : i < m
    · rw [if_pos hc] at h; cases h; exact hc
    · rw [if_neg hc] at h; cases h

/-- `»𝕩` and `«𝕩` of any rank from 1 on, for elements of any type: the shape stays, the cells move by one, and a cell of fills comes in. -/
theorem shift_fill_elems {α} (d : Nat → α) (after : Bool) (f : α) (x : List α) (n : Nat) (cell : List Nat) (hx : x.length = prod (n :: cell)) :
    ∃ res, (if after then shifta1 (elemKind d) f x (n :: cell) else shiftb1 (elemKind d) f x (n :: cell)) = some (.ok res) ∧ res.shape = n :: cell ∧
      (∀ m s, res = .made m s → m.length = prod s) ∧
      ∀ i is, InShape (n :: cell) (i :: is) → ∃ v, res.get (elemKind d) (ravel (n :: cell) (i :: is)) = some v ∧
        match source after 1 n i with
        | .w _ => v = f
        | .x j => x[ravel (n :: cell) (j :: is)]? = some v := by
  have fin (res : Res (List α) (List α)) (hs : res.shape = n :: cell) (hm : ∀ m s, res = .made m s → m.length = prod (n :: cell))
      (hg : ∀ i p, i < n → p < prod cell → res.get (elemKind d) (i * prod cell + p) = pick (elemKind d) x (fun _ => some f) (prod cell) p (source after 1 n i)) :
      res.shape = n :: cell ∧ (∀ m s, res = .made m s → m.length = prod s) ∧
      ∀ i is, InShape (n :: cell) (i :: is) → ∃ v, res.get (elemKind d) (ravel (n :: cell) (i :: is)) = some v ∧
        match source after 1 n i with
        | .w _ => v = f
        | .x j => x[ravel (n :: cell) (j :: is)]? = some v := by
    refine ⟨hs, fun m s h => ?_, fun i is h => ?_⟩
    · rw [hm m s h]
      subst h
      rw [← hs]
      rfl
    · cases h with
      | cons hi his =>
        show ∃ v, res.get (elemKind d) (i * prod cell + ravel cell is) = some v ∧ _
        rw [hg i (ravel cell is) hi (ravel_lt his)]
        cases hsrc : source after 1 n i with
        | w j => exact ⟨f, rfl, rfl⟩
        | x j =>
          have := pos_lt (source_x hi hsrc) (ravel_lt his)
          have hlt : j * prod cell + ravel cell is < x.length := by rw [hx]; exact this
          exact ⟨_, List.getElem?_eq_getElem hlt, List.getElem?_eq_getElem hlt⟩
  cases after with
  | true =>
    obtain ⟨res, e, h1, h2, h3⟩ := shifta1_spec (Take.elem_lawful d) f x n cell hx
    exact ⟨res, e, fin res h1 h2 h3⟩
  | false =>
    obtain ⟨res, e, h1, h2, h3⟩ := shiftb1_spec (Take.elem_lawful d) f x n cell hx
    exact ⟨res, e, fin res h1 h2 h3⟩

/-- The same for booleans. -/
theorem shift_fill_bits (junk : Nat → Word) (after f : Bool) (x : List Word) (n : Nat) (cell : List Nat) (hx : x.length = (prod (n :: cell) + 63) / 64) :
    ∃ res, (if after then shifta1 (bitKind junk) f x (n :: cell) else shiftb1 (bitKind junk) f x (n :: cell)) = some (.ok res) ∧ res.shape = n :: cell ∧
      ∀ i is, InShape (n :: cell) (i :: is) → ∃ v, res.get (bitKind junk) (ravel (n :: cell) (i :: is)) = some v ∧
        match source after 1 n i with
        | .w _ => v = f
        | .x j => getBit x (ravel (n :: cell) (j :: is)) = some v := by
  have fin (res : Res (List Word) (List Word)) (hs : res.shape = n :: cell)
      (hg : ∀ i p, i < n → p < prod cell → res.get (bitKind junk) (i * prod cell + p) = pick (bitKind junk) x (fun _ => some f) (prod cell) p (source after 1 n i)) :
      res.shape = n :: cell ∧
      ∀ i is, InShape (n :: cell) (i :: is) → ∃ v, res.get (bitKind junk) (ravel (n :: cell) (i :: is)) = some v ∧
        match source after 1 n i with
        | .w _ => v = f
        | .x j => getBit x (ravel (n :: cell) (j :: is)) = some v := by
    refine ⟨hs, fun i is h => ?_⟩
    cases h with
    | cons hi his =>
      show ∃ v, res.get (bitKind junk) (i * prod cell + ravel cell is) = some v ∧ _
      rw [hg i (ravel cell is) hi (ravel_lt his)]
      cases hsrc : source after 1 n i with
      | w j => exact ⟨f, rfl, rfl⟩
      | x j =>
        have := pos_lt (source_x hi hsrc) (ravel_lt his)
        have hlt : j * prod cell + ravel cell is < 64 * x.length := by rw [hx, prod]; omega
        exact ⟨_, getBit_some hlt, getBit_some hlt⟩
  cases after with
  | true =>
    obtain ⟨res, e, h1, _, h3⟩ := shifta1_spec (Take.bit_lawful junk) f x n cell hx
    exact ⟨res, e, fin res h1 h3⟩
  | false =>
    obtain ⟨res, e, h1, _, h3⟩ := shiftb1_spec (Take.bit_lawful junk) f x n cell hx
    exact ⟨res, e, fin res h1 h3⟩

/-- `𝕨»𝕩` and `𝕨«𝕩` for elements of any type, of any rank from 1 on, with a `𝕨` of `m` cells of `𝕩`; `m` may be more than `𝕩` has. -/
theorem shift_elems {α} (d : Nat → α) (after : Bool) (w : List α) (wsh : List Nat) (x : List α) (n : Nat) (cell : List Nat) (hw : w.length = prod wsh) (hx : x.length = prod (n :: cell))
    {m : Nat} (hm : cells wsh cell = some m) :
    ∃ r, (if after then shifta2 (elemKind d) w wsh x (n :: cell) else shiftb2 (elemKind d) w wsh x (n :: cell)) = some (.ok (.made r (n :: cell))) ∧ r.length = prod (n :: cell) ∧
      ∀ i is, InShape (n :: cell) (i :: is) → ∃ v, r[ravel (n :: cell) (i :: is)]? = some v ∧
        match source after m n i with
        | .w j => w[ravel (m :: cell) (j :: is)]? = some v
        | .x j => x[ravel (n :: cell) (j :: is)]? = some v := by
  have fin (r : List α)
      (hg : ∀ i p, i < n → p < prod cell → r[i * prod cell + p]? = pick (elemKind d) x (fun k => w[k]?) (prod cell) p (source after m n i)) :
      ∀ i is, InShape (n :: cell) (i :: is) → ∃ v, r[ravel (n :: cell) (i :: is)]? = some v ∧
        match source after m n i with
        | .w j => w[ravel (m :: cell) (j :: is)]? = some v
        | .x j => x[ravel (n :: cell) (j :: is)]? = some v := by
    intro i is h
    cases h with
    | cons hi his =>
      show ∃ v, r[i * prod cell + ravel cell is]? = some v ∧ _
      rw [hg i (ravel cell is) hi (ravel_lt his)]
      cases hsrc : source after m n i with
      | w j =>
        have := pos_lt (source_w hi hsrc) (ravel_lt his)
        have hlt : j * prod cell + ravel cell is < w.length := by rw [hw, cells_prod hm]; exact this
        exact ⟨_, List.getElem?_eq_getElem hlt, List.getElem?_eq_getElem hlt⟩
      | x j =>
        have := pos_lt (source_x hi hsrc) (ravel_lt his)
        have hlt : j * prod cell + ravel cell is < x.length := by rw [hx]; exact this
        exact ⟨_, List.getElem?_eq_getElem hlt, List.getElem?_eq_getElem hlt⟩
  cases after with
  | true =>
    obtain ⟨r, e, h1, h3⟩ := shifta2_spec (Take.elem_lawful d) w wsh x n cell hw hx hm
    exact ⟨r, e, h1, fin r h3⟩
  | false =>
    obtain ⟨r, e, h1, h3⟩ := shiftb2_spec (Take.elem_lawful d) w wsh x n cell hw hx hm
    exact ⟨r, e, h1, fin r h3⟩

/-- The same for booleans. -/
theorem shift_bits (junk : Nat → Word) (after : Bool) (w : List Word) (wsh : List Nat) (x : List Word) (n : Nat) (cell : List Nat) (hw : w.length = (prod wsh + 63) / 64)
    (hx : x.length = (prod (n :: cell) + 63) / 64) {m : Nat} (hm : cells wsh cell = some m) :
    ∃ r, (if after then shifta2 (bitKind junk) w wsh x (n :: cell) else shiftb2 (bitKind junk) w wsh x (n :: cell)) = some (.ok (.made r (n :: cell))) ∧
      ∀ i is, InShape (n :: cell) (i :: is) → ∃ v, getBit r (ravel (n :: cell) (i :: is)) = some v ∧
        match source after m n i with
        | .w j => getBit w (ravel (m :: cell) (j :: is)) = some v
        | .x j => getBit x (ravel (n :: cell) (j :: is)) = some v := by
  have fin (r : List Word)
      (hg : ∀ i p, i < n → p < prod cell → getBit r (i * prod cell + p) = pick (bitKind junk) x (fun k => getBit w k) (prod cell) p (source after m n i)) :
      ∀ i is, InShape (n :: cell) (i :: is) → ∃ v, getBit r (ravel (n :: cell) (i :: is)) = some v ∧
        match source after m n i with
        | .w j => getBit w (ravel (m :: cell) (j :: is)) = some v
        | .x j => getBit x (ravel (n :: cell) (j :: is)) = some v := by
    intro i is h
    cases h with
    | cons hi his =>
      show ∃ v, getBit r (i * prod cell + ravel cell is) = some v ∧ _
      rw [hg i (ravel cell is) hi (ravel_lt his)]
      cases hsrc : source after m n i with
      | w j =>
        have := pos_lt (source_w hi hsrc) (ravel_lt his)
        have hlt : j * prod cell + ravel cell is < 64 * w.length := by rw [hw, cells_prod hm]; omega
        exact ⟨_, getBit_some hlt, getBit_some hlt⟩
      | x j =>
        have := pos_lt (source_x hi hsrc) (ravel_lt his)
        have hlt : j * prod cell + ravel cell is < 64 * x.length := by rw [hx, prod]; omega
        exact ⟨_, getBit_some hlt, getBit_some hlt⟩
  cases after with
  | true =>
    obtain ⟨r, e, _, h3⟩ := shifta2_spec (Take.bit_lawful junk) w wsh x n cell hw hx hm
    exact ⟨r, e, fin r h3⟩
  | false =>
    obtain ⟨r, e, _, h3⟩ := shiftb2_spec (Take.bit_lawful junk) w wsh x n cell hw hx hm
    exact ⟨r, e, fin r h3⟩

/-- A `𝕩` without axes is refused, and a `𝕨` that isn't made of cells of `𝕩` is. -/
theorem shift_refused {M X α} (K : Kind M X α) (f : α) (w x : X) (wsh sh : List Nat) (h : sh = [] ∨ ∃ n cell, sh = n :: cell ∧ cells wsh cell = none) :
    shiftb2 K w wsh x sh = some .err ∧ shifta2 K w wsh x sh = some .err ∧ (sh = [] → shiftb1 K f x sh = some .err ∧ shifta1 K f x sh = some .err) := by
  rcases h with h | ⟨n, cell, h, hc⟩
  · subst h; exact ⟨rfl, rfl, fun _ => ⟨rfl, rfl⟩⟩
  · subst h
    unfold shiftb2 shifta2
    rw [shiftCheck_iff, hc]
    exact ⟨rfl, rfl, fun h => by cases h⟩

/-- Lists: `w»x` is the start of `w∾x`, and `w«x` is the end of `x∾w`. -/
theorem shift_lists {α} (d : Nat → α) (w x : List α) :
    shiftb2 (elemKind d) w [w.length] x [x.length] = some (.ok (.made ((w ++ x).take x.length) [x.length])) ∧
    shifta2 (elemKind d) w [w.length] x [x.length] = some (.ok (.made ((x ++ w).drop w.length) [x.length])) := by
  have hp (k : Nat) : prod [k] = k := Nat.mul_one k
  have hc : cells [w.length] [] = some w.length := rfl
  constructor
  · obtain ⟨r, e, hl, hg⟩ := shiftb2_spec (Take.elem_lawful d) w [w.length] x x.length [] (hp _).symm (hp _).symm hc
    rw [e]
    congr 3
    rw [hp] at hl
    refine List.ext_getElem? fun i => ?_
    by_cases hi : i < x.length
    · have := hg i 0 hi Nat.zero_lt_one
      rw [source_before, show prod [] = 1 from rfl, Nat.mul_one, Nat.add_zero] at this
      rw [List.getElem?_take, if_pos hi, List.getElem?_append]
      refine Eq.trans this ?_
      by_cases hw : i < w.length
      · rw [if_pos hw, if_pos hw]
        show w[i * 1 + 0]? = _
        rw [Nat.mul_one, Nat.add_zero]
      · rw [if_neg hw, if_neg hw]
        show x[(i - w.length) * 1 + 0]? = _
        rw [Nat.mul_one, Nat.add_zero]
    · rw [List.getElem?_eq_none (by omega), List.getElem?_eq_none (by rw [List.length_take]; omega)]
  · obtain ⟨r, e, hl, hg⟩ := shifta2_spec (Take.elem_lawful d) w [w.length] x x.length [] (hp _).symm (hp _).symm hc
    rw [e]
    congr 3
    rw [hp] at hl
    refine List.ext_getElem? fun i => ?_
    by_cases hi : i < x.length
    · have := hg i 0 hi Nat.zero_lt_one
      rw [source_after, show prod [] = 1 from rfl, Nat.mul_one, Nat.add_zero] at this
      rw [List.getElem?_drop, List.getElem?_append, Nat.add_comm w.length i]
      refine Eq.trans this ?_
      by_cases hw : i + w.length < x.length
      · rw [if_pos hw, if_pos hw]
        show x[(i + w.length) * 1 + 0]? = _
        rw [Nat.mul_one, Nat.add_zero]
      · rw [if_neg hw, if_neg hw]
        show w[(i + w.length - x.length) * 1 + 0]? = _
        rw [Nat.mul_one, Nat.add_zero]
    · rw [List.getElem?_eq_none (by omega), List.getElem?_eq_none (by rw [List.length_drop, List.length_append]; omega)]

/-- `⌽𝕩` of any rank from 1 on for numbers, characters and objects of `2^lw` bits: the shape stays, and the element at `i, is` is the one at `n-1-i, is`, with all of its bytes. -/
theorem reverse_bytes (junk : Nat → BitVec 8) (lw : Nat) (h3 : 3 ≤ lw) (h6 : lw ≤ 6) (x : List (BitVec 8)) (n : Nat) (cell : List Nat) (hx : x.length = prod (n :: cell) * 2^(lw - 3)) :
    ∃ res, reverseBytes junk lw x (n :: cell) = some (.ok res) ∧ res.shape = n :: cell ∧
      ∀ i is, InShape (n :: cell) (i :: is) → ∀ t, t < 2^(lw - 3) → ∃ v, res.get (elemKind junk) (ravel (n :: cell) (i :: is) * 2^(lw - 3) + t) = some v ∧
        x[ravel (n :: cell) ((n - 1 - i) :: is) * 2^(lw - 3) + t]? = some v := by
  obtain ⟨res, e, h1, h2⟩ := reverseBytes_spec junk lw h3 h6 x n cell hx
  refine ⟨res, e, h1, fun i is h t ht => ?_⟩
  cases h with
  | cons hi his =>
    show ∃ v, res.get (elemKind junk) ((i * prod cell + ravel cell is) * 2^(lw - 3) + t) = some v ∧ x[((n - 1 - i) * prod cell + ravel cell is) * 2^(lw - 3) + t]? = some v
    rw [h2 i (ravel cell is) hi (ravel_lt his) t ht]
    have hlt : ((n - 1 - i) * prod cell + ravel cell is) * 2^(lw - 3) + t < x.length := by
      rw [hx]
      exact pos_lt (pos_lt (show n - 1 - i < n by omega) (ravel_lt his)) ht
    exact ⟨_, List.getElem?_eq_getElem hlt, List.getElem?_eq_getElem hlt⟩

/-- The same for booleans. -/
theorem reverse_bools (junk : Nat → Word) (x : List Word) (n : Nat) (cell : List Nat) (hx : x.length = (prod (n :: cell) + 63) / 64) :
    ∃ res, reverseBits junk x (n :: cell) = some (.ok res) ∧ res.shape = n :: cell ∧
      ∀ i is, InShape (n :: cell) (i :: is) → ∃ v, res.get (bitKind junk) (ravel (n :: cell) (i :: is)) = some v ∧
        getBit x (ravel (n :: cell) ((n - 1 - i) :: is)) = some v := by
  obtain ⟨res, e, h1, h2⟩ := reverseBits_spec junk x n cell hx
  refine ⟨res, e, h1, fun i is h => ?_⟩
  cases h with
  | cons hi his =>
    show ∃ v, res.get (bitKind junk) (i * prod cell + ravel cell is) = some v ∧ getBit x ((n - 1 - i) * prod cell + ravel cell is) = some v
    rw [h2 i (ravel cell is) hi (ravel_lt his)]
    have := pos_lt (show n - 1 - i < n by omega) (ravel_lt his)
    have hlt : (n - 1 - i) * prod cell + ravel cell is < 64 * x.length := by rw [hx, prod]; omega
    exact ⟨_, getBit_some hlt, getBit_some hlt⟩

/-! ## Examples -/

/-- What a result has. -/
def look {M X α} (K : Kind M X α) (n : Nat) : Option (Out (Res M X)) → Option (List Nat × List (Option α))
  | some (.ok r) => some (r.shape, (List.range n).map (r.get K))
  | _ => none

/-- `»3‿2⥊1+↕6`. -/
example : look (elemKind fun _ => 99) 6 (shiftb1 (elemKind fun _ => 99) 0 [1, 2, 3, 4, 5, 6] [3, 2]) = some ([3, 2], [some 0, some 0, some 1, some 2, some 3, some 4]) := by decide +kernel
/-- `7‿8«3‿2⥊1+↕6`: a `𝕨` of one rank less. -/
example : look (elemKind fun _ => 99) 6 (shifta2 (elemKind fun _ => 99) [7, 8] [2] [1, 2, 3, 4, 5, 6] [3, 2]) = some ([3, 2], [some 3, some 4, some 5, some 6, some 7, some 8]) := by decide +kernel
/-- A longer `𝕨`. -/
example : look (elemKind fun _ => 99) 2 (shifta2 (elemKind fun _ => 99) [7, 8, 9] [3] [1, 2] [2]) = some ([2], [some 8, some 9]) := by decide +kernel
example : look (bitKind fun _ => 0xAAAA#64) 3 (shiftb2 (bitKind fun _ => 0xAAAA#64) [1#64] [] [0b101#64] [3]) = some ([3], [some true, some true, some false]) := by decide +kernel
/-- `⌽3‿2⥊…` for bytes: cells of 16 bits. -/
example : look (elemKind fun _ => 9#8) 6 (reverseBytes (fun _ => 9#8) 3 [1#8, 2#8, 3#8, 4#8, 5#8, 6#8] [3, 2]) = some ([3, 2], [some 5#8, some 6#8, some 3#8, some 4#8, some 1#8, some 2#8]) := by decide +kernel
/-- Cells of 24 bits. -/
example : look (elemKind fun _ => 9#8) 6 (reverseBytes (fun _ => 9#8) 3 [1#8, 2#8, 3#8, 4#8, 5#8, 6#8] [2, 3]) = some ([2, 3], [some 4#8, some 5#8, some 6#8, some 1#8, some 2#8, some 3#8]) := by decide +kernel
/-- Cells of 8 bits, as bytes. -/
example : look (bitKind fun _ => 0xAAAA#64) 16 (reverseBits (fun _ => 0xAAAA#64) [0x01F0#64] [2, 8]) =
    some ([2, 8], [true, false, false, false, false, false, false, false, false, false, false, false, true, true, true, true].map some) := by decide +kernel
example : InShape [3, 2] [2, 1] ∧ ravel [3, 2] [2, 1] = 5 := ⟨.cons (by decide) (.cons (by decide) .nil), rfl⟩
example : ([1, 2, 3, 4, 5, 6] : List Nat).length = prod [3, 2] ∧ cells [2] [2] = some 1 ∧ cells [4, 2] [2] = some 4 := by decide

end Verif.Shift
