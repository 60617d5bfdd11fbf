import Verif.Select.Many
/-!
# Select with no, one or more indices
-/
namespace Verif.Select
open Verif.Bits Verif.Fold Verif.Slash Verif.Rep

theorem packBits_spec (bs : List Bool) : listL (packBits bs) bs.length = bs := by
  apply List.ext_getElem?
  intro k
  unfold listL
  rw [getElem?_firstN]
  by_cases hk : k < bs.length
  · rw [if_pos hk]
    unfold bitL packBits
    rw [List.getD_eq_getElem?_getD, List.getElem?_map, List.getElem?_range (by omega), Option.map_some, Option.getD_some, BitVec.getLsbD_setWidth,
      decide_eq_true (show k % 64 < 64 by omega), Bool.true_and, BitVec.getLsbD_ofBoolListLE, List.getD_eq_getElem?_getD, List.getElem?_take_of_lt (by omega), List.getElem?_drop,
      show 64 * (k / 64) + k % 64 = k by omega, List.getElem?_eq_getElem hk]
    rfl
  · rw [if_neg hk, List.getElem?_eq_none (by omega)]

theorem sliceOf_spec {α} {xs : List α} {s l : Nat} (h : s + l ≤ xs.length) : sliceOf xs s l = some (slice xs s l) := if_pos h

theorem bitSlice_spec (x : Nat → Word) (s l : Nat) (junk : Nat → Word) : ∃ m, bitSlice x s l junk = some m ∧ listL m l = firstN (fun k => bitF x (s + k)) l := by
  unfold bitSlice
  obtain ⟨m, e, h⟩ := bitCpy_spec x (BitsOut.start (m := fresh junk ((l + 63) / 64))) s l (by rw [length_fresh, List.length_nil]; omega)
  exact ⟨m, e, listL_out h (length_firstN _ _)⟩

theorem position_one {n : Nat} (v : Option Int) : positions n [v] = (v.bind (position n)).map fun p => [p] := by
  rcases v with _ | v
  · rfl
  · show (position n v).bind _ = (position n v).map _
    cases position n v <;> rfl

/-- One index, given what happens with a good one. -/
theorem selectOne_spec {α β} (v : Option Int) (x : Src α) (xn : Nat) (hn : xn < 2^32) (junk : Nat → Word) (view : Res α → β) (f : List Nat → β)
    (h : ∀ i p, o2i64 v = some i → wrap i xn = some p → p < xn → (selectOne v x xn junk).map (Out.map view) = some (.ok (f [p]))) :
    (selectOne v x xn junk).map (Out.map view) = some (orErr ((positions xn [v]).map f)) := by
  rw [position_one]
  have hs := index_spec v hn
  rcases hi : o2i64 v with _ | i
  · rw [hi] at hs
    rw [← hs]
    unfold selectOne
    rw [hi]
    rfl
  · rw [hi, Option.bind_some] at hs
    rcases hp : wrap i xn with _ | p
    · rw [hp] at hs
      rw [← hs]
      unfold selectOne
      rw [hi]
      dsimp only
      rw [hp]
      rfl
    · rw [hp] at hs
      have hlt : p < xn := by
        rcases v with _ | v
        · cases hs
        · exact position_lt hs.symm
      rw [h i p hi hp hlt, ← hs]
      rfl

theorem selectOne_eq {α} {v : Option Int} {i : Int} {p xn : Nat} (h1 : o2i64 v = some i) (h2 : wrap i xn = some p) (x : Src α) (junk : Nat → Word) :
    selectOne v x xn junk = (match x with
      | .bits x => (bitSlice x p 1 junk).map fun m => .ok (.bits m)
      | .units csz xs => (sliceOf xs (p * csz % 2^32 / csz) 1).map fun m => .ok (.elems m)
      | .cells bits csz xs => (sliceOf xs (p * csz % 2^32 * bits / 8) (csz * bits / 8)).map fun m => .ok (.elems m)
      | .bitCells csz x => (bitSlice x (p * csz % 2^32) csz junk).map fun m => .ok (.bits m)
      | .objs xs => (sliceOf xs p 1).map fun m => .ok (.elems m)
      | .objCells csz xs => (sliceOf xs (p * csz % 2^32) csz).map fun m => .ok (.elems m)) := by
  unfold selectOne
  rw [h1]
  dsimp only
  rw [h2]
  cases x <;> rfl

theorem selectOne_plain {α} (v : Option Int) (x : Src α) (xs : List α) (hx : Plain x xs 1) (hn : xs.length < 2^32) (junk : Nat → Word) :
    selectOne v x xs.length junk = some (orErr ((positions xs.length [v]).map fun ps => .elems (at_ ps xs))) := by
  have := selectOne_spec (β := Res α) v x xs.length hn junk id (fun ps => .elems (at_ ps xs)) (by
    intro i p h1 h2 hp
    rw [selectOne_eq h1 h2]
    have hat : at_ [p] xs = slice xs p 1 := by
      rw [slice_one]
      unfold at_
      rw [List.flatMap_cons, List.flatMap_nil, List.append_nil]
    rcases hx with ⟨csz, c0, hx1, hx2, rfl⟩ | rfl
    · dsimp only
      rw [mul_div_self c0 (by have := mul_lt_of_lt hp c0; omega), sliceOf_spec (by omega), ← hat]
      rfl
    · dsimp only
      rw [sliceOf_spec (by omega), ← hat]
      rfl)
  have hid : ∀ r : Option (Out (Res α)), r.map (Out.map id) = r := by
    intro r
    rcases r with _ | _ | _ <;> rfl
  rw [hid] at this
  exact this

theorem at_one {α} {cs : List (List α)} {p : Nat} (h : p < cs.length) : (at_ [p] cs).flatten = cs[p] := by
  unfold at_
  rw [List.flatMap_cons, List.flatMap_nil, List.append_nil, List.getElem?_eq_getElem h]
  show [cs[p]].flatten = cs[p]
  rw [List.flatten_cons, List.flatten_nil, List.append_nil]

theorem selectOne_wide {α} (v : Option Int) (x : Src α) (cs : List (List α)) {csz width : Nat} {big : Bool} {wia : Nat} (hx : Wide x cs wia csz width big)
    (hcs : ∀ c ∈ cs, c.length = width) (hn : cs.length < 2^32) (h0 : 0 < csz) (hxc : cs.length * csz < 2^32) (junk : Nat → Word) :
    selectOne v x cs.length junk = some (orErr ((positions cs.length [v]).map fun ps => .elems (at_ ps cs).flatten)) := by
  have := selectOne_spec (β := Res α) v x cs.length hn junk id (fun ps => .elems (at_ ps cs).flatten) (by
    intro i p h1 h2 hp
    rw [selectOne_eq h1 h2, at_one hp]
    have hsl := slice_flatten hcs p hp
    have hfl := flatten_length hcs
    have hend := cell_end (width := width) hp
    have hmod : p * csz % 2^32 = p * csz := mod_small (by have := mul_lt_of_lt hp h0; omega)
    rcases hx with ⟨bits, hb, hb2, rfl, rfl⟩ | ⟨rfl, rfl, rfl⟩
    · dsimp only
      rw [hmod, Nat.mul_assoc, ← hb, ← Nat.mul_assoc, Nat.mul_div_cancel _ (by decide), Nat.mul_div_cancel _ (by decide), sliceOf_spec (by omega), hsl]
      rfl
    · dsimp only
      rw [hmod, sliceOf_spec (by omega), hsl]
      rfl)
  have hid : ∀ r : Option (Out (Res α)), r.map (Out.map id) = r := by
    intro r
    rcases r with _ | _ | _ <;> rfl
  rw [hid] at this
  exact this

theorem selectOne_bits {α} (v : Option Int) (x : Nat → Word) (xn : Nat) (hn : xn < 2^32) (junk : Nat → Word) :
    (selectOne v (Src.bits (α := α) x) xn junk).map (Out.map (Res.bitsFrom [] 1)) = some (orErr ((positions xn [v]).map fun ps => at_ ps (listF x xn))) := by
  refine selectOne_spec v _ xn hn junk _ _ ?_
  intro i p h1 h2 hp
  rw [selectOne_eq h1 h2]
  dsimp only
  obtain ⟨m, e, hm⟩ := bitSlice_spec x p 1 junk
  rw [e]
  show some (Out.ok (listL m 1)) = _
  rw [hm]
  unfold at_
  rw [List.flatMap_cons, List.flatMap_nil, List.append_nil, getElem?_listF, if_pos hp]
  rfl

theorem selectOne_bitCells {α} (v : Option Int) (csz : Nat) (h0 : 0 < csz) (x : Nat → Word) (xn : Nat) (hn : xn < 2^32) (hx : xn * csz < 2^32) (junk : Nat → Word) :
    (selectOne v (Src.bitCells (α := α) csz x) xn junk).map (Out.map (Res.bitsFrom [] csz)) = some (orErr ((positions xn [v]).map fun ps => (at_ ps (bitCells x csz xn)).flatten)) := by
  refine selectOne_spec v _ xn hn junk _ _ ?_
  intro i p h1 h2 hp
  rw [selectOne_eq h1 h2]
  dsimp only
  rw [mod_small (by have := mul_lt_of_lt hp h0; omega)]
  obtain ⟨m, e, hm⟩ := bitSlice_spec x (p * csz) csz junk
  rw [e]
  show some (Out.ok (listL m csz)) = _
  rw [hm, ← at_bitCells x csz xn (ps := [p]) (fun q hq => by rw [List.mem_singleton.1 hq]; exact hp), List.flatMap_cons, List.flatMap_nil, List.append_nil]

/-- The three cases of `select_c2`. -/
theorem selectC2_cases {α β} (sq : Counts → Counts) (fl d1 list : Bool) (w : Counts) (x : Src α) (xn : Nat) (junk : Nat → Word) (d : Nat → α) (view : Res α → β) (f : List Nat → β)
    (hempty : w.len = 0 → view (emptyOf x) = f [])
    (hone : ∀ v, w.len = 1 → (selectOne v x xn junk).map (Out.map view) = some (orErr ((positions xn [v]).map f)))
    (hmany : xn ≠ 0 → w.len ≥ 2 → (selectWide sq fl d1 list w x xn junk d).map (Out.map view) = some (orErr ((positions xn w.elems).map f))) :
    (selectC2 sq fl d1 list w x xn junk d).map (Out.map view) = some (orErr ((positions xn w.elems).map f)) := by
  have hel := elems_length w
  unfold selectC2
  rcases he : w.elems with _ | ⟨v, _ | ⟨v2, vs⟩⟩
  · rw [he] at hel
    show some (Out.ok (view (emptyOf x))) = some (.ok (f []))
    rw [hempty hel.symm]
  · rw [he] at hel
    exact hone v hel.symm
  · rw [he] at hel
    dsimp only
    by_cases h0 : xn = 0
    · rw [if_pos h0, h0]
      rcases v with _ | v
      · rfl
      · have : position 0 v = none := by
          unfold position
          rw [if_neg (by omega), if_neg (by omega)]
        show _ = some (orErr (((position 0 v).bind _).map f))
        rw [this]
        rfl
    · rw [if_neg h0, ← he]
      exact hmany h0 (by rw [← hel]; simp)

theorem map_id_out {β} (r : Option (Out β)) : r.map (Out.map id) = r := by
  rcases r with _ | _ | _ <;> rfl

end Verif.Select
