import Verif.Select.Loops
/-!
# Select by kind of array
-/
namespace Verif.Select
open Verif.Bits Verif.Fold Verif.Slash Verif.Rep

theorem mod_small {a b : Nat} (h : a < b) : a % b = a := Nat.mod_eq_of_lt h

theorem mul_div_self {i csz : Nat} (h0 : 0 < csz) (h : i * csz < 2^32) : i * csz % 2^32 / csz = i := by
  rw [Nat.mod_eq_of_lt h, Nat.mul_div_cancel _ h0]

theorem mul_lt_of_lt {i n k : Nat} (h : i < n) (hk : 0 < k) : i * k < n * k := Nat.mul_lt_mul_of_pos_right h hk

/-- The end of a loop over elements whose result has exactly the memory it needs. -/
theorem done_elems {α} {sl : Nat → List α} {ps : Option (List Nat)} {m : List α} {r : Option (Out (List α))} (h : Done (fun us m' => Ext m 0 us m') sl [] ps r)
    (hl : ∀ qs, ps = some qs → (qs.flatMap sl).length = m.length) :
    r.map (Out.map (Res.elems (α := α))) = some (orErr (ps.map fun qs => .elems (qs.flatMap sl))) := by
  cases ps with
  | none =>
    have h : r = some .err := h
    rw [h]
    rfl
  | some qs =>
    obtain ⟨m', e, hx⟩ := h
    rw [List.nil_append] at hx
    rw [e, hx.all (hl qs rfl)]
    rfl

theorem flatMap_length {β} {sl : Nat → List β} {w xn : Nat} (hs : ∀ c, c < xn → (sl c).length = w) : ∀ {qs : List Nat}, (∀ q ∈ qs, q < xn) → (qs.flatMap sl).length = qs.length * w
  | [], _ => by simp
  | q :: qs, h => by
    rw [List.flatMap_cons, List.length_append, hs q (h q List.mem_cons_self), flatMap_length hs (fun p hp => h p (List.mem_cons_of_mem _ hp)), List.length_cons, Nat.succ_mul,
      Nat.add_comm]

theorem slice_length {α} {xs : List α} {a l : Nat} (h : a + l ≤ xs.length) : (slice xs a l).length = l := by
  unfold slice
  rw [List.length_take, List.length_drop]
  omega

theorem at_slices {α} {width : Nat} {cs : List (List α)} (h : ∀ c ∈ cs, c.length = width) {ps : List Nat} (hp : ∀ p ∈ ps, p < cs.length) :
    ps.flatMap (fun c => slice cs.flatten (c * width) width) = (at_ ps cs).flatten := by
  induction ps with
  | nil => rfl
  | cons p ps ih =>
    rw [List.flatMap_cons, ih (fun q hq => hp q (List.mem_cons_of_mem _ hq)), slice_flatten h p (hp p List.mem_cons_self)]
    unfold at_
    rw [List.flatMap_cons, List.getElem?_eq_getElem (hp p List.mem_cons_self)]
    rfl

theorem slice_one {α} (xs : List α) (c : Nat) : slice xs c 1 = (xs[c]?).toList := by
  unfold slice
  by_cases h : c < xs.length
  · rw [List.getElem?_eq_getElem h, List.drop_eq_getElem_cons h]
    rfl
  · rw [List.drop_eq_nil_of_le (by omega), List.getElem?_eq_none (by omega)]
    rfl

/-- One cell of `width` after the other with `memcpy`, the positions being those of the cells. -/
theorem memLoop_spec {α} {cpy : List α → Nat → Nat → Option (List α)} (xs : List α) {xn width : Nat} (hn : xn < 2^32) (hx : xs.length = xn * width) (ws : List (Option Int)) (m : List α)
    (hm : m.length = ws.length * width)
    (hc : ∀ (m1 : List α) (i c : Nat), m1.length = m.length → i < ws.length → c < xn → ∃ m', cpy m1 i c = some m' ∧ Ext m1 (i * width) (slice xs (c * width) width) m') :
    (cellLoop cpy xn ws 0 m).map (Out.map (Res.elems (α := α))) = some (orErr ((positions xn ws).map fun ps => .elems (ps.flatMap fun c => slice xs (c * width) width))) := by
  have hs : ∀ c, c < xn → (slice xs (c * width) width).length = width := fun c hc => slice_length (by
    have := Nat.mul_le_mul_right width (show c + 1 ≤ xn by omega)
    rw [Nat.succ_mul] at this
    omega)
  refine done_elems (cellLoop_spec (O := fun us m' => Ext m 0 us m') (width := width) (total := ws.length) hn hs ?_ ws 0 [] m (Ext.nil (Nat.zero_le _)) (by simp) (by omega)) ?_
  · intro us m1 i c hO hl hi hcx
    obtain ⟨m', e, he⟩ := hc m1 i c hO.len hi hcx
    exact ⟨m', e, hO.append (by rw [Nat.zero_add, hl]; exact he)⟩
  · intro qs hq
    rw [flatMap_length hs (positions_lt hq), positions_length hq, hm]

theorem cell_end {xn width c : Nat} (h : c < xn) : c * width + width ≤ xn * width := by
  have := Nat.mul_le_mul_right width (show c + 1 ≤ xn by omega)
  rw [Nat.succ_mul] at this
  exact this

theorem memCpy_cell {α} (xs m1 : List α) {xn n width i c : Nat} (hx : xs.length = xn * width) (hm : m1.length = n * width) (hi : i < n) (hc : c < xn) :
    ∃ m', memCpy xs m1 (i * width) (c * width) width = some m' ∧ Ext m1 (i * width) (slice xs (c * width) width) m' :=
  memCpy_spec (by rw [hx]; exact cell_end hc) (by rw [hm]; exact cell_end hi)

/-! ## `generic_l` -/

theorem generic_units {α} (ints : Bool) (ws : List (Option Int)) (csz : Nat) (xs : List α) (hn : xs.length < 2^32) (h0 : 0 < csz) (hx : xs.length * csz < 2^32)
    (hw : ws.length * csz < 2^32) (junk : Nat → Word) (d : Nat → α) :
    generic ints ws (.units csz xs) xs.length junk d = some (orErr ((positions xs.length ws).map fun ps => .elems (at_ ps xs))) := by
  unfold generic
  dsimp only
  rw [mul_div_self h0 hw]
  have := memLoop_spec (cpy := fun m i c => memCpy xs m (i * csz % 2^32 / csz) (c * csz % 2^32 / csz) 1) xs (width := 1) hn (by omega) ws (fresh d ws.length)
    (by rw [length_fresh]; omega) (by
      intro m1 i c hl hi hc
      rw [mul_div_self h0 (by have := mul_lt_of_lt hi h0; omega), mul_div_self h0 (by have := mul_lt_of_lt hc h0; omega)]
      have := memCpy_cell (n := ws.length) xs m1 (width := 1) (by omega) (by rw [hl, length_fresh]; omega) hi hc
      rw [Nat.mul_one, Nat.mul_one] at this ⊢
      exact this)
  rw [this]
  congr 1
  rcases positions xs.length ws with _ | ps
  · rfl
  · refine congrArg (fun l => Out.ok (Res.elems l)) ?_
    unfold at_
    congr 1
    funext c
    rw [Nat.mul_one, slice_one]

theorem generic_objs {α} (ints : Bool) (ws : List (Option Int)) (xs : List α) (hn : xs.length < 2^32) (junk : Nat → Word) (d : Nat → α) :
    generic ints ws (.objs xs) xs.length junk d = some (orErr ((positions xs.length ws).map fun ps => .elems (at_ ps xs))) := by
  unfold generic
  dsimp only
  have := memLoop_spec (cpy := fun m i c => memCpy xs m i c 1) xs (width := 1) hn (by omega) ws (fresh d ws.length)
    (by rw [length_fresh]; omega) (by
      intro m1 i c hl hi hc
      have := memCpy_cell (n := ws.length) xs m1 (width := 1) (by omega) (by rw [hl, length_fresh]; omega) hi hc
      rw [Nat.mul_one, Nat.mul_one] at this ⊢
      exact this)
  rw [this]
  congr 1
  rcases positions xs.length ws with _ | ps
  · rfl
  · refine congrArg (fun l => Out.ok (Res.elems l)) ?_
    unfold at_
    congr 1
    funext c
    rw [Nat.mul_one, slice_one]

theorem generic_objCells {α} (ints : Bool) (ws : List (Option Int)) (csz : Nat) (cs : List (List α)) (hcs : ∀ c ∈ cs, c.length = csz) (hn : cs.length < 2^32) (h0 : 0 < csz)
    (hx : cs.length * csz < 2^32) (hw : ws.length * csz < 2^32) (junk : Nat → Word) (d : Nat → α) :
    generic ints ws (.objCells csz cs.flatten) cs.length junk d = some (orErr ((positions cs.length ws).map fun ps => .elems (at_ ps cs).flatten)) := by
  unfold generic
  dsimp only
  rw [if_neg (by omega), mod_small hw]
  have hfl := flatten_length hcs
  have := memLoop_spec (cpy := fun m i c => memCpy cs.flatten m (i * csz % 2^32) (c * csz % 2^32) csz) cs.flatten (width := csz) hn hfl ws (fresh d (ws.length * csz))
    (by rw [length_fresh]) (by
      intro m1 i c hl hi hc
      rw [mod_small (by have := mul_lt_of_lt hi h0; omega), mod_small (by have := mul_lt_of_lt hc h0; omega)]
      exact memCpy_cell (n := ws.length) cs.flatten m1 hfl (by rw [hl, length_fresh]) hi hc)
  rw [this]
  congr 1
  rcases hp : positions cs.length ws with _ | ps
  · rfl
  · rw [Option.map_some, at_slices hcs (positions_lt hp)]
    rfl

theorem generic_cells {α} (ints : Bool) (ws : List (Option Int)) (bits csz width : Nat) (hwd : width * 8 = csz * bits) (cs : List (List α)) (hcs : ∀ c ∈ cs, c.length = width)
    (hn : cs.length < 2^32) (h0 : 0 < csz) (hb : csz * bits < 2^32) (hx : cs.length * csz < 2^32) (hw : ws.length * csz < 2^32) (junk : Nat → Word) (d : Nat → α) :
    generic ints ws (.cells bits csz cs.flatten) cs.length junk d = some (if bits = 1 ∧ ws.length * csz > bitMax then .err else orErr ((positions cs.length ws).map fun ps => .elems (at_ ps cs).flatten)) := by
  unfold generic
  dsimp only
  rw [if_neg (by omega), mod_small hw]
  by_cases hbit : bits = 1 ∧ ws.length * csz > bitMax
  · rw [if_pos hbit, if_pos hbit]
  · rw [if_neg hbit, if_neg hbit]
    have hfl := flatten_length hcs
    have hcell : ∀ k, k * csz * bits / 8 = k * width := fun k => by
      rw [Nat.mul_assoc, ← hwd, ← Nat.mul_assoc, Nat.mul_div_cancel _ (by decide)]
    have hcell1 : csz * bits / 8 = width := by
      have := hcell 1
      rw [Nat.one_mul, Nat.one_mul] at this
      exact this
    rw [hcell]
    have hfin : (some (orErr ((positions cs.length ws).map fun ps => Res.elems (ps.flatMap fun c => slice cs.flatten (c * width) width)))) = some (orErr ((positions cs.length ws).map fun ps => .elems (at_ ps cs).flatten)) := by
      congr 1
      rcases hp : positions cs.length ws with _ | ps
      · rfl
      · rw [Option.map_some, at_slices hcs (positions_lt hp)]
        rfl
    cases ints with
    | true =>
      rw [if_pos rfl, mod_small hb, hcell1, ← hfin]
      exact memLoop_spec (cpy := fun m i c => cfCall cs.flatten (i * width) (c * width) (cfParts width) m) cs.flatten (width := width) hn hfl ws (fresh d (ws.length * width))
        (by rw [length_fresh]) (by
          intro m1 i c hl hi hc
          exact cfCall_spec _ _ _ _ _ (by rw [hfl]; exact cell_end hc) (by rw [hl, length_fresh]; exact cell_end hi))
    | false =>
      rw [if_neg (by simp), ← hfin]
      exact memLoop_spec (cpy := fun m i c => memCpy cs.flatten m (i * csz % 2^32 * bits / 8) (c * csz % 2^32 * bits / 8) (csz * bits / 8)) cs.flatten (width := width) hn hfl ws
        (fresh d (ws.length * width)) (by rw [length_fresh]) (by
          intro m1 i c hl hi hc
          rw [mod_small (by have := mul_lt_of_lt hi h0; omega), mod_small (by have := mul_lt_of_lt hc h0; omega), hcell, hcell, hcell1]
          exact memCpy_cell (n := ws.length) cs.flatten m1 hfl (by rw [hl, length_fresh]) hi hc)

/-- The end of a loop over booleans. -/
theorem done_bits {α} {sl : Nat → List Bool} {ps : Option (List Nat)} {cap : Nat} {r : Option (Out (List Word))} (h : Done (BitsOut cap) sl [] ps r) {len : Nat}
    (hl : ∀ qs, ps = some qs → (qs.flatMap sl).length = len) :
    (r.map (Out.map (Res.bits (α := α)))).map (Out.map (Res.bitsFrom [] len)) = some (orErr (ps.map fun qs => qs.flatMap sl)) := by
  cases ps with
  | none =>
    have h : r = some .err := h
    rw [h]
    rfl
  | some qs =>
    obtain ⟨m', e, hx⟩ := h
    rw [List.nil_append] at hx
    rw [e]
    show some (Out.ok (listL m' len)) = _
    rw [listL_out hx (hl qs rfl)]
    rfl

theorem BitsOut.start {m : List Word} : BitsOut m.length [] m := ⟨rfl, by simp, fun t ht => absurd ht (Nat.not_lt_zero t)⟩

theorem at_bitCells (x : Nat → Word) (width n : Nat) {ps : List Nat} (hp : ∀ p ∈ ps, p < n) :
    ps.flatMap (fun c => firstN (fun i => bitF x (c * width + i)) width) = (at_ ps (bitCells x width n)).flatten := by
  induction ps with
  | nil => rfl
  | cons p ps ih =>
    rw [List.flatMap_cons, ih (fun q hq => hp q (List.mem_cons_of_mem _ hq))]
    unfold at_
    rw [List.flatMap_cons, show (bitCells x width n)[p]? = some (firstN (fun i => bitF x (p * width + i)) width) by
      unfold bitCells
      rw [getElem?_firstN, if_pos (hp p List.mem_cons_self)]]
    rfl

theorem bitLoop_spec {α} {cpy : List Word → Nat → Nat → Option (List Word)} (x : Nat → Word) {xn width : Nat} (hn : xn < 2^32) (ws : List (Option Int)) (m : List Word)
    (hm : ws.length * width ≤ 64 * m.length)
    (hc : ∀ (us : List Bool) (m1 : List Word) (i c : Nat), BitsOut m.length us m1 → us.length = i * width → i < ws.length → c < xn →
      ∃ m', cpy m1 i c = some m' ∧ BitsOut m.length (us ++ firstN (fun k => bitF x (c * width + k)) width) m') :
    ((cellLoop cpy xn ws 0 m).map (Out.map (Res.bits (α := α)))).map (Out.map (Res.bitsFrom [] (ws.length * width))) = some (orErr ((positions xn ws).map fun ps => (at_ ps (bitCells x width xn)).flatten)) := by
  have hs : ∀ c, c < xn → (firstN (fun k => bitF x (c * width + k)) width).length = width := fun c _ => length_firstN _ _
  rw [done_bits (α := α) (cellLoop_spec (O := BitsOut m.length) (width := width) (total := ws.length) hn hs hc ws 0 [] m BitsOut.start (by simp) (by omega)) (len := ws.length * width)
    (fun qs hq => by rw [flatMap_length hs (positions_lt hq), positions_length hq])]
  congr 1
  rcases hp : positions xn ws with _ | ps
  · rfl
  · rw [Option.map_some, at_bitCells x width xn (positions_lt hp)]
    rfl

theorem bitCells_one (x : Nat → Word) (n : Nat) : bitCells x 1 n = (listF x n).map fun b => [b] := by
  unfold bitCells listF
  unfold firstN
  rw [List.map_map]
  congr 1
  funext c
  show [bitF x (c * 1 + 0)] = [bitF x c]
  rw [Nat.mul_one, Nat.add_zero]

theorem at_singles {β} (ps : List Nat) (l : List β) : (at_ ps (l.map fun b => [b])).flatten = at_ ps l := by
  induction ps with
  | nil => rfl
  | cons p ps ih =>
    unfold at_ at ih ⊢
    rw [List.flatMap_cons, List.flatMap_cons, List.flatten_append, ih, List.getElem?_map]
    cases l[p]? <;> rfl

theorem generic_bits {α} (ints : Bool) (ws : List (Option Int)) (x : Nat → Word) (xn : Nat) (hn : xn < 2^32) (junk : Nat → Word) (d : Nat → α) :
    (generic ints ws (.bits x) xn junk d).map (Out.map (Res.bitsFrom [] ws.length)) = some (if ws.length > bitMax then .err else orErr ((positions xn ws).map fun ps => at_ ps (listF x xn))) := by
  unfold generic
  dsimp only
  by_cases h : ws.length > bitMax
  · rw [if_pos h, if_pos h]
    rfl
  · rw [if_neg h, if_neg h]
    have := bitLoop_spec (α := α) (cpy := fun m i c => if ints = true then bitSet x m i c else bitCpy x m i c 1) x (width := 1) hn ws (fresh junk ((ws.length + 63) / 64))
      (by rw [length_fresh]; omega) (by
        intro us m1 i c hO hl hi hc
        have hlt : us.length < 64 * (fresh junk ((ws.length + 63) / 64)).length := by rw [length_fresh]; omega
        obtain rfl : us.length = i := by omega
        cases ints with
        | true =>
          obtain ⟨m', e, h2⟩ := bitSet_spec x hO c hlt
          refine ⟨m', by rw [if_pos rfl]; exact e, ?_⟩
          have : firstN (fun k => bitF x (c * 1 + k)) 1 = [bitF x c] := by
            show [bitF x (c * 1 + 0)] = _
            rw [Nat.mul_one, Nat.add_zero]
          rw [this]
          exact h2
        | false =>
          obtain ⟨m', e, h2⟩ := bitCpy_spec x hO c 1 (by omega)
          refine ⟨m', by rw [if_neg (by simp)]; exact e, ?_⟩
          rw [Nat.mul_one]
          exact h2)
    rw [Nat.mul_one] at this
    rw [this, bitCells_one]
    congr 1
    rcases positions xn ws with _ | ps
    · rfl
    · rw [Option.map_some, at_singles]
      rfl

theorem generic_bitCells {α} (ints : Bool) (ws : List (Option Int)) (csz : Nat) (x : Nat → Word) (xn : Nat) (hn : xn < 2^32) (h0 : 0 < csz) (hx : xn * csz < 2^32)
    (hw : ws.length * csz < 2^32) (junk : Nat → Word) (d : Nat → α) :
    (generic ints ws (.bitCells csz x) xn junk d).map (Out.map (Res.bitsFrom [] (ws.length * csz))) = some (if ws.length * csz > bitMax then .err else orErr ((positions xn ws).map fun ps => (at_ ps (bitCells x csz xn)).flatten)) := by
  unfold generic
  dsimp only
  rw [if_neg (by omega), mod_small hw]
  by_cases h : ws.length * csz > bitMax
  · rw [if_pos h, if_pos h]
    rfl
  · rw [if_neg h, if_neg h]
    exact bitLoop_spec (α := α) (cpy := fun m i c => if ints = true then cfBits x csz (i * csz) (c * csz) m else bitCpy x m (i * csz % 2^32) (c * csz % 2^32) csz) x (width := csz) hn ws
      (fresh junk ((ws.length * csz + 63) / 64)) (by rw [length_fresh]; omega) (by
        intro us m1 i c hO hl hi hc
        have hend := cell_end (width := csz) hi
        have hle : us.length + csz ≤ 64 * (fresh junk ((ws.length * csz + 63) / 64)).length := by rw [length_fresh]; omega
        rw [mod_small (by have := mul_lt_of_lt hi h0; omega), mod_small (by have := mul_lt_of_lt hc h0; omega), ← hl]
        cases ints with
        | true =>
          rw [if_pos rfl]
          unfold cfBits
          by_cases h1 : csz = 1
          · subst h1
            rw [if_pos rfl]
            obtain ⟨m', e, h2⟩ := bitSet_spec x hO (c * 1) (by omega)
            exact ⟨m', e, h2⟩
          · rw [if_neg h1]
            exact bitCpy_spec x hO (c * csz) csz hle
        | false =>
          rw [if_neg (by simp)]
          exact bitCpy_spec x hO (c * csz) csz hle)

end Verif.Select
