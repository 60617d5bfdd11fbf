import Verif.Widen.Sel
/-!
# C44: cells that are padded to whole bytes or words hold the same bits, and give the same results

`bitF x b` is bit `b` of the memory at `x`, and `listF x n` the list of the first `n`. `newCell p` is the number of bits that cells of `p` bits are padded to. A result `none` of the
model is a read or write outside of memory, and `some .err` an error for the user. `junk` is the contents of fresh memory.
-/
namespace Verif.Widen
open Verif.Bits Verif.Fold Verif.Slash Verif.Rep Verif.Select

/-- Padding and removing the padding is the identity, for cells of any number of bits. The arguments of both must have at most 2^32-66 bits. -/
theorem widen_narrow (x : Nat → Word) (p cam : Nat) (h0 : 0 < p) (h : p < 2^32 - 63) (hne : newCell p ≠ p) (hs : cam * newCell p ≤ bitMax) (junk junk' : Nat → Word) :
    ∃ y, widenBitArr x ((cam * p + 63) / 64 + 1) p cam junk = some (.ok y) ∧ (narrow p cam y junk').map (Out.map fun m => listL m (cam * p)) = some (.ok (listF x (cam * p))) := by
  have fin : ∀ m : List Word, (∀ b, b < cam * p → bitL m b = bitF x b) → listL m (cam * p) = listF x (cam * p) := by
    intro m hb
    unfold listL listF
    exact firstN_congr hb
  by_cases h64 : p ≤ 64
  · obtain ⟨hn, hle⟩ := newCell_units h0 h64
    have hmul := Nat.mul_le_mul_left cam hle
    obtain ⟨m, e, hm⟩ := widen_units (x := x) (junk := junk) h0 h64 hne hs
    obtain ⟨r, e2, _, hb⟩ := narrow_units (n := newCell p) (junk := junk') h0 h64 hm (by omega)
    exact ⟨_, e, by rw [e2, ← fin r hb]; rfl⟩
  · have hn := newCell_words (show 64 < p by omega) h
    have hmul := Nat.mul_le_mul_left cam (show p ≤ newCell p by omega)
    obtain ⟨m, e, hm⟩ := widen_words (x := x) (junk := junk) (show 64 < p by omega) h (by omega) hs
    obtain ⟨r, e2, _, hb⟩ := narrow_words (junk := junk') (show p / 64 < newCell p / 64 by omega) hm (by omega)
    exact ⟨_, e, by rw [e2, ← fin r hb]; rfl⟩

/-- Three cells of 70 bits. -/
example : ∃ y, widenBitArr (fun i => BitVec.ofNat 64 (i * 12345)) 5 70 3 (fun _ => 9#64) = some (.ok y) ∧
    (narrow 70 3 y (fun _ => 7#64)).map (Out.map fun m => listL m 210) = some (.ok (listF (fun i => BitVec.ofNat 64 (i * 12345)) 210)) :=
  widen_narrow _ 70 3 (by decide) (by decide) (by decide) (by decide) _ _

/-- The padding is zero, and the padded cell has the bits of the cell: cells of at most 64 bits. -/
theorem widen_cells (x : Nat → Word) (p cam : Nat) (h0 : 0 < p) (h : p ≤ 64) (hne : newCell p ≠ p) (hs : cam * newCell p ≤ bitMax) (junk : Nat → Word) :
    ∃ m, widenBitArr x ((cam * p + 63) / 64 + 1) p cam junk = some (.ok (.units (newCell p) m)) ∧ m.length = cam ∧
      ∀ i, i < cam → ∃ v, m[i]? = some v ∧ ∀ j, j < 64 → v.getLsbD j = (decide (j < p) && bitF x (i * p + j)) :=
  widen_units h0 h hne hs

/-- Four cells of three bits. -/
example : ∃ m, widenBitArr (fun _ => 0xD27#64) 2 3 4 (fun _ => 9#64) = some (.ok (.units 8 m)) ∧ m.length = 4 ∧
    ∀ i, i < 4 → ∃ v, m[i]? = some v ∧ ∀ j, j < 64 → v.getLsbD j = (decide (j < 3) && bitF (fun _ => 0xD27#64) (i * 3 + j)) :=
  widen_cells _ 3 4 (by decide) (by decide) (by decide) (by decide) _

/-- Searches: when cells are compared as numbers, two cells give equal numbers exactly if all of their bits are equal. `csz` is the number of elements in a cell, and each has `2^meb` bits. -/
theorem cells_as_numbers (x y : Nat → Word) (csz meb n k : Nat) (hc : csz * 2^meb < 2^32) (ha : asNumbers csz meb = true) (hn : n * 64 ≤ bitMax) (hk : k * 64 ≤ bitMax) (junk : Nat → Word) :
    ∃ bits a b, toIntCell x ((n * (csz * 2^meb) + 63) / 64 + 1) (cellBits csz meb) n junk = some (.ok (bits, a)) ∧ toIntCell y ((k * (csz * 2^meb) + 63) / 64 + 1) (cellBits csz meb) k junk = some (.ok (bits, b)) ∧
      a.length = n ∧ b.length = k ∧ ∀ i u, a[i]? = some u → ∀ j v, b[j]? = some v →
        (numEq bits u v = true ↔ ∀ t, t < csz * 2^meb → bitF x (i * (csz * 2^meb) + t) = bitF y (j * (csz * 2^meb) + t)) := by
  unfold asNumbers at ha
  have hcb : cellBits csz meb = csz * 2^meb := Nat.mod_eq_of_lt hc
  rw [hcb] at ha ⊢
  simp only [ne_eq, decide_not, Bool.and_eq_true, Bool.not_eq_true', decide_eq_false_iff_not, decide_eq_true_eq] at ha
  generalize csz * 2^meb = p at *
  obtain ⟨hnc, _⟩ := newCell_units (show 0 < p by omega) (show p ≤ 64 by omega)
  obtain ⟨a, ea, la, ga⟩ := toIntCell_spec (x := x) (cam := n) (junk := junk) (show 0 < p by omega) ha.2 (by have := Nat.mul_le_mul_left n (show newCell p ≤ 64 by omega); omega)
  obtain ⟨b, eb, lb, gb⟩ := toIntCell_spec (x := y) (cam := k) (junk := junk) (show 0 < p by omega) ha.2 (by have := Nat.mul_le_mul_left k (show newCell p ≤ 64 by omega); omega)
  refine ⟨_, a, b, ea, eb, la, lb, fun i u hu j v hv => ?_⟩
  obtain ⟨u', f1, f2⟩ := ga i (by rw [← la]; exact (List.getElem?_eq_some_iff.1 hu).1)
  obtain ⟨v', g1, g2⟩ := gb j (by rw [← lb]; exact (List.getElem?_eq_some_iff.1 hv).1)
  rw [hu] at f1
  rw [hv] at g1
  cases f1
  cases g1
  rw [numEq_small (fun t ht => by
      by_cases h : t < 64
      · rw [f2 t h, decide_eq_false (by omega), Bool.false_and]
      · exact BitVec.getLsbD_of_ge _ _ (by omega)) (fun t ht => by
      by_cases h : t < 64
      · rw [g2 t h, decide_eq_false (by omega), Bool.false_and]
      · exact BitVec.getLsbD_of_ge _ _ (by omega))]
  constructor
  · rintro rfl t ht
    have h1 := f2 t (by omega)
    have h2 := g2 t (by omega)
    rw [decide_eq_true ht, Bool.true_and] at h1 h2
    rw [← h1, ← h2]
  · intro h
    apply word_ext
    intro t ht
    rw [f2 t ht, g2 t ht]
    by_cases hp : t < p
    · rw [h t hp]
    · rw [decide_eq_false hp, Bool.false_and, Bool.false_and]

/-- Cells of three elements of 16 bits. -/
example (x y : Nat → Word) : ∃ bits a b, toIntCell x ((2 * 48 + 63) / 64 + 1) 48 2 (fun _ => 0#64) = some (.ok (bits, a)) ∧ toIntCell y ((5 * 48 + 63) / 64 + 1) 48 5 (fun _ => 0#64) = some (.ok (bits, b)) ∧
      a.length = 2 ∧ b.length = 5 ∧ ∀ i u, a[i]? = some u → ∀ j v, b[j]? = some v → (numEq bits u v = true ↔ ∀ t, t < 48 → bitF x (i * 48 + t) = bitF y (j * 48 + t)) :=
  cells_as_numbers x y 3 4 2 5 (by decide) (by decide) (by decide) (by decide) _

/-- `𝕨⊏𝕩` for `𝕩` with cells of several booleans that are not whole bytes, widened first or not. Completes `Select.select_bit_cells_partial`. -/
theorem select_bit_cells (sq : Counts → Counts) (hsq : Keeps sq) (fl d1 : Bool) (w : Counts) (hw : w.Ok) (csz : Nat) (h1 : 1 < csz) (h8 : csz % 8 ≠ 0) (x : Nat → Word) (xn : Nat)
    (hn : xn < 2^32) (hx : xn * csz < 2^32) (hwl : w.len * csz ≤ bitMax) (hbig : widens w.len csz xn d1 = true → xn * newCell csz ≤ bitMax ∧ w.len * newCell csz ≤ bitMax) (junk : Nat → Word) :
    (selectBitCells sq fl d1 w csz x ((xn * csz + 63) / 64 + 1) xn junk).map (Out.map (Res.bitsFrom [] (w.len * csz))) =
      some (Select.orErr ((positions xn w.elems).map fun ps => (at_ ps (bitCells x csz xn)).flatten)) := by
  unfold selectBitCells
  by_cases hc : w.len ≥ 2 ∧ xn ≠ 0 ∧ widens w.len csz xn d1 = true
  · rw [if_pos hc]
    obtain ⟨hb1, hb2⟩ := hbig hc.2.2
    have h128 : csz < 128 := by
      have := hc.2.2
      unfold widens at this
      simp only [Bool.and_eq_true, decide_eq_true_eq] at this
      exact this.1.2.1
    exact selectWidened_spec sq hsq fl d1 w hw csz (by omega) h8 h128 x xn hb1 hb2 junk
  · rw [if_neg hc]
    refine selectC2_cases sq fl d1 false w _ xn junk junk _ (fun ps => (at_ ps (bitCells x csz xn)).flatten) (fun h => by rw [h, Nat.zero_mul]; rfl)
      (fun v hv => by rw [hv, Nat.one_mul]; exact selectOne_bitCells v csz (by omega) x xn hn hx junk) ?_
    intro _ h2
    exact selectMany_bitCells sq hsq fl false w hw csz hwl (by omega) x xn hn hx junk junk

/-- Four of two cells of three bits. -/
example : (selectBitCells id false true (.ints .i8 [-1, 0, 0, 1]) 3 (fun _ => 0b101001#64) 2 2 (fun _ => 7#64)).map (Out.map (Res.bitsFrom [] 12)) =
    some (.ok [true, false, true, true, false, false, true, false, false, true, false, true]) :=
  (select_bit_cells id keeps_id false true (.ints .i8 [-1, 0, 0, 1]) (show ∀ v ∈ ([-1, 0, 0, 1] : List Int), -2^(8 - 1) ≤ v ∧ v ≤ 2^(8 - 1) - 1 by decide) 3 (by decide) (by decide) _ 2 (by decide) (by decide) (by decide)
    (fun _ => by decide) _).trans (by rfl)

/-! ## What goes wrong -/

theorem widenUnits_outside (x : Nat → Word) (lim rcsz xcsz : Nat) : ∀ (cam i : Nat) (m : List Word), 0 < cam → m.length < i + cam → widenUnits x lim rcsz xcsz cam i m = none := by
  intro cam
  induction cam with
  | zero => intro i m h; omega
  | succ cam ih =>
    intro i m _ h
    rw [widenUnits]
    rcases cellOf x lim rcsz xcsz i with _ | v
    · rfl
    · rw [Option.bind_some]
      unfold wr
      by_cases hi : i < m.length
      · rw [if_pos hi, Option.bind_some]
        exact ih (i + 1) _ (by omega) (by rw [List.length_set]; omega)
      · rw [if_neg hi]; rfl

/-- With 2^26+1 cells of 33 bits, the number of bits after padding wraps to 64, and all cells but the first are written outside of the memory: `∊67108865‿33⥊0`. -/
theorem widen_writes_outside (x : Nat → Word) (lim : Nat) (junk : Nat → Word) : widenBitArr x lim 33 (2^26 + 1) junk = none ∧ (2^26 + 1) * 33 ≤ bitMax := by
  refine ⟨?_, by decide⟩
  unfold widenBitArr
  have e1 : newCell 33 = 64 := by decide
  have e2 : (2^26 + 1) * 64 % 2^32 = 64 := by decide
  simp only [e1]
  rw [e2, if_neg (by decide), if_neg (by decide), if_pos (by decide), if_pos (by decide), widenUnits_outside x lim 64 33 (2^26 + 1) 0 _ (by decide) (by unfold fresh; rw [List.length_map, List.length_range]; decide)]
  rfl

/-- 2^26 indices to cells of 33 bits: the cells are selected after padding to 64 bits, the size of that result wraps to 0, and it is written outside of its memory: `(67108864⥊0)⊏2‿33⥊0`. -/
theorem select_widened_writes_outside (ws : List Int) (x : Nat → Word) (junk : Nat → Word) (hl : ws.length = 2^26) (hf : ∀ v ∈ ws, v = 0) :
    selectBitCells id false true (.ints .i32 ws) 33 x 3 2 junk = none ∧ ws.length * 33 ≤ bitMax := by
  refine ⟨?_, by rw [hl]; decide⟩
  have hlen : (Counts.ints .i32 ws).len = 2^26 := hl
  unfold selectBitCells
  rw [hlen, if_pos ⟨by decide, by decide, by decide⟩]
  unfold selectWidened
  obtain ⟨m, e, hm, _⟩ := widen_units (x := x) (cam := 2) (junk := junk) (show 0 < 33 by decide) (by decide) (by decide) (by decide)
  rw [show (2 * 33 + 63) / 64 + 1 = 3 by decide] at e
  rw [e, Option.bind_some]
  simp only
  rw [show newCell 33 = 64 by decide]
  have hs : selectC2 id false true false (.ints .i32 ws) (.units 64 m) 2 junk junk = none := by
    rcases ws with _ | ⟨v, _ | ⟨v2, ws⟩⟩
    · cases hl
    · cases hl
    · obtain rfl := hf v List.mem_cons_self
      unfold selectC2 Counts.elems
      simp only [List.map_cons]
      rw [if_neg (by decide)]
      unfold selectWide selectMany
      simp only
      unfold selectBy
      simp only
      unfold selectInts
      simp only
      rw [hl, show 2^26 * 64 % 2^32 = 0 by decide]
      unfold cpusel units32
      rw [List.map_cons]
      unfold cellLoop
      rw [show (o2i64 (some 0)).bind (wrap · 2) = some 0 by decide]
      simp only
      have : memCpy m (fresh junk 0) 0 0 1 = none := by
        unfold memCpy
        rw [if_neg]
        intro h
        have : (fresh junk 0).length = 0 := rfl
        omega
      rcases hm0 : m[0]? with _ | e0
      · rfl
      · rfl
  rw [hs]
  rfl

/-- Cells of 2^29+1 bytes: their number of bits wraps to 8, so that searches compare them as bytes, and take the second byte of the first cell for the second cell. -/
theorem search_wraps : asNumbers (2^29 + 1) 3 = true ∧ ∃ (x y : Nat → Word) (a b : List Word) (v : Word),
    toIntCell x 134217731 (cellBits (2^29 + 1) 3) 2 (fun _ => 0#64) = some (.ok (8, a)) ∧ toIntCell y 134217731 (cellBits (2^29 + 1) 3) 2 (fun _ => 0#64) = some (.ok (8, b)) ∧
    a[1]? = some v ∧ b[1]? = some v ∧ numEq 8 v v = true ∧ bitF x ((2^29 + 1) * 8) ≠ bitF y ((2^29 + 1) * 8) := by
  refine ⟨by decide, fun _ => 0#64, fun i => if i = (2^29 + 1) * 8 / 64 then ~~~0#64 else 0#64, [0#64, 0#64], [0#64, 0#64], 0#64, ?_, ?_, rfl, rfl, by decide, ?_⟩
  · decide +kernel
  · decide +kernel
  · decide +kernel

end Verif.Widen
