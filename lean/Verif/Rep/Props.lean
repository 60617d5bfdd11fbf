import Verif.Rep.Im
/-!
# Indices, Replicate and the inverse of Indices

`none` would be a read or write outside of memory, and `err` is an error for the user. `junk` and `d` are what fresh memory contains. `sq` stands for
squeezing a list of numbers, which keeps the numbers. Whatever the type of the list `𝕨`, `naturals w.elems` are its elements as natural numbers, if they all
are. The specification (`indices`, `copies`, `occurrences`, `dropZeros`) is in `Verif.Rep.Spec`.
-/
namespace Verif.Rep
open Verif.Bits Verif.Fold Verif.Slash

/-! ### concrete arguments -/
deriving instance DecidableEq for Out
theorem keeps_id : Keeps id := fun c h => ⟨h, rfl⟩
def exW : Counts := .ints .i8 [2, 0, 3]
theorem exW_ok : exW.Ok := by
  intro v hv
  simp only [List.mem_cons, List.not_mem_nil, or_false] at hv
  show -2^7 ≤ v ∧ v ≤ 2^7 - 1
  omega
def exNeg : Counts := .ints .i8 [2, -1, 3]
theorem exNeg_ok : exNeg.Ok := by
  intro v hv
  simp only [List.mem_cons, List.not_mem_nil, or_false] at hv
  show -2^7 ≤ v ∧ v ≤ 2^7 - 1
  omega

/-! ### Indices -/

/-- `/𝕩` lists every index as often as the number there says, in order; numbers that aren't natural are an error, and so is a result that is too long. -/
theorem indices_counts (sq : Counts → Counts) (hsq : Keeps sq) (x : Counts) (hx : x.Ok) (hl : x.len < 2^32) (junk : Nat → Word) :
    (slashC1 sq x junk).map (Out.map Ints.elems) = some (match naturals x.elems with
      | none => .err
      | some ns => if ns.sum ≥ 4294967295 then .err else .ok ((indices ns).map Int.ofNat)) := slashC1_spec sq hsq x hx hl junk

example : (slashC1 id exW fun _ => 9#64).map (Out.map Ints.elems) = some (.ok [0, 0, 2, 2, 2]) := by
  rw [indices_counts id keeps_id exW exW_ok (by decide)]
  decide +kernel
example : (slashC1 id exNeg fun _ => 9#64).map (Out.map Ints.elems) = some .err := by
  rw [indices_counts id keeps_id exNeg exNeg_ok (by decide)]
  decide +kernel

/-! ### Replicate by a list -/

/-- An empty `𝕨` leaves `𝕩` as it is. -/
theorem replicate_empty {α} (sq : Counts → Counts) (hsq : Keeps sq) (w : Counts) (hw : w.Ok) (h0 : w.len = 0) (x : Data α) (xlen : Nat) (junk : Nat → Word) (d : Nat → α) :
    slashC2 sq w x xlen junk d = some (.ok .same) := by
  obtain ⟨h1, h2, h3⟩ := squeezeFirst_keeps hsq hw
  unfold slashC2
  dsimp only
  rw [if_pos (by omega)]

example : slashC2 id (.any []) (.typed true ['a', 'b']) 2 (fun _ => 9#64) (fun _ => '?') = some (.ok .same) := replicate_empty id keeps_id (.any []) trivial rfl ..

/-- `𝕨/𝕩` for a list `𝕩` of elements of 1, 2, 4 or 8 bytes, or of objects, consists of `𝕨_i` copies of each `𝕩_i`, in order. Lists of different lengths,
counts that aren't natural numbers and results that are too long are errors. -/
theorem replicate_elements {α} (sq : Counts → Counts) (hsq : Keeps sq) (w : Counts) (hw : w.Ok) (hl : w.len < 4294967295) (h0 : w.len ≠ 0) (xs : List α) (x : Data α)
    (hx : (∃ small, x = .typed small xs) ∨ ∃ ptr, x = .objs ptr xs) (junk : Nat → Word) (d : Nat → α) :
    (slashC2 sq w x xs.length junk d).map (Out.map (Res.from xs)) = some (if w.len ≠ xs.length then .err else match naturals w.elems with
      | none => .err
      | some ns => if ns.sum ≥ 4294967295 then .err else .ok (copies ns xs)) := by
  by_cases hlen : w.len ≠ xs.length
  · rw [if_pos hlen, slashC2_none sq hsq w hw (by omega) h0 x _ junk d (Or.inl hlen)]
    rfl
  · rw [if_neg hlen]
    rcases hn : naturals w.elems with _ | ns
    · rw [slashC2_none sq hsq w hw (by omega) h0 x _ junk d (Or.inr hn)]
      rfl
    · have := slashC2_elems sq hsq w hw hl h0 xs x hx junk d ns hn (by omega)
      rw [show w.len = xs.length by omega] at this
      exact this

example : (slashC2 id exW (.typed true ['a', 'b', 'c']) 3 (fun _ => 9#64) fun _ => '?').map (Out.map (Res.from ['a', 'b', 'c'])) = some (.ok ['a', 'a', 'c', 'c', 'c']) := by
  exact (replicate_elements id keeps_id exW exW_ok (by decide) (by decide) ['a', 'b', 'c'] _ (Or.inl ⟨true, rfl⟩) _ _).trans (by decide +kernel)
example : (slashC2 id exNeg (.objs true ['a', 'b', 'c']) 3 (fun _ => 9#64) fun _ => '?').map (Out.map (Res.from ['a', 'b', 'c'])) = some .err := by
  exact (replicate_elements id keeps_id exNeg exNeg_ok (by decide) (by decide) ['a', 'b', 'c'] _ (Or.inr ⟨true, rfl⟩) _ _).trans (by decide +kernel)

/-- `𝕨/𝕩` for an array `𝕩` of higher rank copies cells, as long as the number of elements of the result is below 2^32. -/
theorem replicate_cells {α} (sq : Counts → Counts) (hsq : Keeps sq) (w : Counts) (hw : w.Ok) (hl : w.len < 4294967295) (h0 : w.len ≠ 0) (width : Nat) (cs : List (List α))
    (hcs : ∀ c ∈ cs, c.length = width) (x : Data α) (hx : x = .cells width cs.flatten ∨ x = .objCells width cs.flatten)
    (hfit : ∀ ns, naturals w.elems = some ns → ns.sum * width < 4294967296) (junk : Nat → Word) (d : Nat → α) :
    (slashC2 sq w x cs.length junk d).map (Out.map (Res.from cs.flatten)) = some (if w.len ≠ cs.length then .err else match naturals w.elems with
      | none => .err
      | some ns => if ns.sum ≥ 4294967295 then .err else .ok (copies ns cs).flatten) := by
  by_cases hlen : w.len ≠ cs.length
  · rw [if_pos hlen, slashC2_none sq hsq w hw (by omega) h0 x _ junk d (Or.inl hlen)]
    rfl
  · rw [if_neg hlen]
    rcases hn : naturals w.elems with _ | ns
    · rw [slashC2_none sq hsq w hw (by omega) h0 x _ junk d (Or.inr hn)]
      rfl
    · have := slashC2_cells sq hsq w hw hl h0 width cs hcs x hx junk d ns hn (by omega) (hfit ns hn)
      rw [show w.len = cs.length by omega] at this
      exact this

example : (slashC2 id exW (.objCells 2 ['a', 'b', 'c', 'd', 'e', 'f']) 3 (fun _ => 9#64) fun _ => '?').map (Out.map (Res.from ['a', 'b', 'c', 'd', 'e', 'f'])) =
    some (.ok ['a', 'b', 'a', 'b', 'e', 'f', 'e', 'f', 'e', 'f']) := by
  have := replicate_cells id keeps_id exW exW_ok (by decide) (by decide) 2 [['a', 'b'], ['c', 'd'], ['e', 'f']] (by decide) _ (Or.inr rfl)
    (fun ns h => by injection h with h; rw [← h]; decide) (fun _ => 9#64) (fun _ => '?')
  exact this.trans (by decide +kernel)

/-- `𝕨/𝕩` for a boolean list `𝕩`. Boolean arrays have at most `bitMax` elements. -/
theorem replicate_bits {α} (sq : Counts → Counts) (hsq : Keeps sq) (w : Counts) (hw : w.Ok) (hl : w.len ≤ bitMax) (h0 : w.len ≠ 0) (x : Nat → Word) (xlen : Nat)
    (junk : Nat → Word) (d : Nat → α) :
    (slashC2 sq w (.bits x) xlen junk d).map (Out.map (Res.bitsFrom (listF x xlen) (total w))) = some (if w.len ≠ xlen then .err else match naturals w.elems with
      | none => .err
      | some ns => if ns.sum > bitMax then .err else .ok (copies ns (listF x xlen))) := by
  have hbm : bitMax = 4294967230 := rfl
  by_cases hlen : w.len ≠ xlen
  · rw [if_pos hlen, slashC2_none sq hsq w hw (by omega) h0 _ _ junk d (Or.inl hlen)]
    rfl
  · rw [if_neg hlen]
    unfold total
    rcases hn : naturals w.elems with _ | ns
    · rw [slashC2_none sq hsq w hw (by omega) h0 _ _ junk d (Or.inr hn)]
      rfl
    · have := slashC2_bits sq hsq w hw hl h0 x junk d ns hn
      rw [show w.len = xlen by omega] at this
      exact this

example : (slashC2 id exW (.bits (α := Nat) fun _ => 0b011#64) 3 (fun _ => 9#64) fun _ => 0).map (Out.map (Res.bitsFrom (listF (fun _ => 0b011#64) 3) (total exW))) =
    some (.ok [true, true, false, false, false]) := by
  rw [replicate_bits id keeps_id exW exW_ok (by decide) (by decide)]
  decide +kernel

/-- `𝕨/𝕩` for a boolean array `𝕩` whose cells have `width` elements. -/
theorem replicate_bit_cells {α} (sq : Counts → Counts) (hsq : Keeps sq) (w : Counts) (hw : w.Ok) (hl : w.len < 4294967295) (h0 : w.len ≠ 0) (x : Nat → Word) (width xlen : Nat)
    (hwl : xlen * width ≤ bitMax) (hfit : ∀ ns, naturals w.elems = some ns → ns.sum * width < 4294967296) (junk : Nat → Word) (d : Nat → α) :
    (slashC2 sq w (.bitCells width x) xlen junk d).map (Out.map (Res.bitsFrom (bitCells x width xlen).flatten (total w * width))) =
      some (if w.len ≠ xlen then .err else match naturals w.elems with
      | none => .err
      | some ns => if ns.sum ≥ 4294967295 ∨ ns.sum * width > bitMax then .err else .ok (copies ns (bitCells x width xlen)).flatten) := by
  by_cases hlen : w.len ≠ xlen
  · rw [if_pos hlen, slashC2_none sq hsq w hw (by omega) h0 _ _ junk d (Or.inl hlen)]
    rfl
  · rw [if_neg hlen]
    unfold total
    rcases hn : naturals w.elems with _ | ns
    · rw [slashC2_none sq hsq w hw (by omega) h0 _ _ junk d (Or.inr hn)]
      rfl
    · have hlen' : w.len = xlen := by omega
      subst hlen'
      exact slashC2_bitCells sq hsq w hw hl h0 x width hwl junk d ns hn (hfit ns hn)

example : (slashC2 id exW (.bitCells (α := Nat) 2 fun _ => 0b101101#64) 3 (fun _ => 9#64) fun _ => 0).map
    (Out.map (Res.bitsFrom (bitCells (fun _ => 0b101101#64) 2 3).flatten (total exW * 2))) =
    some (.ok [true, false, true, false, false, true, false, true, false, true]) := by
  rw [replicate_bit_cells id keeps_id exW exW_ok (by decide) (by decide) _ 2 3 (by decide) (fun ns h => by injection h with h; rw [← h]; decide)]
  decide +kernel

/-! ### Replicate by an integer -/

/-- `𝕨/𝕩` for an integer `𝕨` consists of `𝕨` copies of each element; a negative `𝕨` is an error. -/
theorem replicate_all_elements {α} (wv : Int) (xs : List α) (x : Data α) (hx : (∃ small, x = .typed small xs) ∨ ∃ ptr, x = .objs ptr xs) (hl : xs.length < 2^32)
    (junk : Nat → Word) (d : Nat → α) :
    (slashAtom wv x xs.length junk d).map (Out.map (Res.from xs)) =
      some (if wv < 0 then .err else if xs.length * wv.toNat ≥ 4294967296 then .err else .ok (copies (List.replicate xs.length wv.toNat) xs)) := by
  rw [slashAtom_elems wv xs x hx hl junk d]
  split <;> rfl

example : (slashAtom 3 (.typed true ['a', 'b']) 2 (fun _ => 9#64) fun _ => '?').map (Out.map (Res.from ['a', 'b'])) = some (.ok ['a', 'a', 'a', 'b', 'b', 'b']) := by
  exact (replicate_all_elements 3 ['a', 'b'] _ (Or.inl ⟨true, rfl⟩) (by decide) _ _).trans (by decide +kernel)

/-- The same for cells, as long as the number of elements of the result is below 2^32. -/
theorem replicate_all_cells {α} (wv : Int) (width : Nat) (cs : List (List α)) (hcs : ∀ c ∈ cs, c.length = width) (x : Data α)
    (hx : x = .cells width cs.flatten ∨ x = .objCells width cs.flatten) (hl : cs.length < 2^32) (hfit : cs.length * wv.toNat * width < 4294967296) (junk : Nat → Word) (d : Nat → α) :
    (slashAtom wv x cs.length junk d).map (Out.map (Res.from cs.flatten)) =
      some (if wv < 0 then .err else if cs.length * wv.toNat ≥ 4294967296 then .err else .ok (copies (List.replicate cs.length wv.toNat) cs).flatten) := by
  rw [slashAtom_cells wv width cs hcs x hx hl hfit junk d]
  split <;> rfl

example : (slashAtom 2 (.cells 2 ['a', 'b', 'c', 'd']) 2 (fun _ => 9#64) fun _ => '?').map (Out.map (Res.from ['a', 'b', 'c', 'd'])) =
    some (.ok ['a', 'b', 'a', 'b', 'c', 'd', 'c', 'd']) := by
  have := replicate_all_cells 2 2 [['a', 'b'], ['c', 'd']] (by decide) _ (Or.inl rfl) (by decide) (by decide) (fun _ => 9#64) (fun _ => '?')
  exact this.trans (by decide +kernel)

/-- The same for boolean lists. -/
theorem replicate_all_bits {α} (wv : Int) (x : Nat → Word) (n : Nat) (hl : n ≤ bitMax) (junk : Nat → Word) (d : Nat → α) :
    (slashAtom wv (.bits x) n junk d).map (Out.map (Res.bitsFrom (listF x n) (n * wv.toNat))) =
      some (if wv < 0 then .err else if n * wv.toNat > bitMax then .err else .ok (copies (List.replicate n wv.toNat) (listF x n))) := by
  rw [slashAtom_bits wv x n hl junk d]
  split <;> rfl

example : (slashAtom 70 (.bits (α := Nat) fun _ => 0b01#64) 2 (fun _ => 9#64) fun _ => 0).map (Out.map (Res.bitsFrom (listF (fun _ => 0b01#64) 2) 140)) =
    some (.ok (List.replicate 70 true ++ List.replicate 70 false)) := by
  have := replicate_all_bits (α := Nat) 70 (fun _ => 0b01#64) 2 (by decide) (fun _ => 9#64) (fun _ => 0)
  exact this.trans (by decide +kernel)

/-- The same for boolean arrays whose cells have `width` elements. -/
theorem replicate_all_bit_cells {α} (wv : Int) (x : Nat → Word) (width n : Nat) (hl : n < 2^32) (hwl : n * width ≤ bitMax) (hfit : n * wv.toNat * width < 4294967296)
    (junk : Nat → Word) (d : Nat → α) :
    (slashAtom wv (.bitCells width x) n junk d).map (Out.map (Res.bitsFrom (bitCells x width n).flatten (n * wv.toNat * width))) =
      some (if wv < 0 then .err else if n * wv.toNat ≥ 4294967296 ∨ n * wv.toNat * width > bitMax then .err
        else .ok (copies (List.replicate n wv.toNat) (bitCells x width n)).flatten) := by
  rw [slashAtom_bitCells wv x width n hl hwl hfit junk d]
  split <;> rfl

example : (slashAtom 2 (.bitCells (α := Nat) 2 fun _ => 0b1001#64) 2 (fun _ => 9#64) fun _ => 0).map (Out.map (Res.bitsFrom (bitCells (fun _ => 0b1001#64) 2 2).flatten 8)) =
    some (.ok [true, false, true, false, false, true, false, true]) := by
  have := replicate_all_bit_cells (α := Nat) 2 (fun _ => 0b1001#64) 2 2 (by decide) (by decide) (by decide) (fun _ => 9#64) (fun _ => 0)
  exact this.trans (by decide +kernel)

/-! ### What happens to cells beyond -/

theorem fresh_length {α} (d : Nat → α) (n : Nat) : (fresh d n).length = n := length_fresh d n

/-- The number of elements of the result is computed with 32 bits, and only the number of cells is checked: `1431655766/1‿3⥊"abc"` writes outside of the 2
elements it makes. -/
theorem replicate_all_writes_outside (junk : Nat → Word) (d : Nat → Char) : slashAtom 1431655766 (.cells 3 ['a', 'b', 'c']) 1 junk d = none := by
  unfold slashAtom
  have h1 : ((1431655766 : Int).toNat) = 1431655766 := rfl
  rw [if_neg (by decide)]
  dsimp only
  rw [h1, if_neg (by decide), if_neg (by decide), if_neg (by decide)]
  have h2 : 1 * 3 * 1431655766 % 4294967296 = 2 := rfl
  rw [h2]
  have h3 : ∀ k, slashAtom.run64 (memCpy ['a', 'b', 'c']) 0 3 (k + 1) (fresh d 2) 0 = none := by
    intro k
    rw [slashAtom.run64]
    have : memCpy ['a', 'b', 'c'] (fresh d 2) (0 % 4294967296) (0 * 3 % 4294967296) 3 = none := if_neg (by rw [fresh_length]; decide)
    rw [this]
    rfl
  show ((slashAtom.cells64 (memCpy ['a', 'b', 'c']) 3 [1431655766] 0 (fresh d 2) 0).map fun m => Out.ok (Res.elems m)) = none
  rw [slashAtom.cells64, h3 1431655765]
  rfl

/-- The same for a list `𝕨` and objects: `⟨1431655766⟩/1‿3⥊"a"‿"b"‿"c"`. -/
theorem replicate_writes_outside {α} (a b c : α) (junk : Nat → Word) (d : Nat → α) : slashC2 id (.ints .i32 [1431655766]) (.objCells 3 [a, b, c]) 1 junk d = none := by
  have hus : usumC (.ints .i32 [1431655766]) = .ok 1431655766 := by
    rcases usumC_spec (.ints .i32 [1431655766]) (by
      intro v hv
      rw [List.mem_singleton] at hv
      subst hv
      decide) (by decide) with h | ⟨ns, h1, h2⟩
    · exact absurd h.1 (by decide)
    · have h3 : naturals (Counts.ints .i32 [1431655766]).elems = some [1431655766] := by decide
      rw [h3] at h1
      injection h1 with h1
      rw [h2, ← h1]
      rfl
  unfold slashC2 squeezeFirst
  dsimp only
  rw [if_neg (show ¬ (Counts.ints .i32 [1431655766]).len = 0 by decide), if_neg (by simp [Counts.len])]
  unfold repList
  dsimp only
  rw [hus]
  dsimp only
  rw [if_neg (by decide), if_pos (by rfl)]
  unfold arrWBase
  rw [if_neg (by decide)]
  dsimp only
  have ho : o2sAll ([(1431655766 : Int)].map some) = some [1431655766] := by decide
  rw [ho]
  dsimp only
  have hroom : mutRoom true (1431655766 * 3 % 2^64) = 2 := rfl
  rw [hroom]
  have h3 : ∀ k, copyRun (memCpy [a, b, c]) 0 3 (k + 1) (fresh d 2) 0 = none := by
    intro k
    rw [copyRun]
    have : memCpy [a, b, c] (fresh d 2) 0 (0 * 3) 3 = none := if_neg (by rw [fresh_length]; simp)
    rw [this]
    rfl
  rw [copyCells, h3 1431655765]
  rfl

/-- In the typed cases with cells of several elements the stored number of elements wraps: 2^29 cells of 8 bits each get the length 0. -/
theorem replicate_length_wraps : storedLength (2^29) 8 = 0 := rfl

/-! ### The inverse of Indices -/

/-- `/⁼𝕩` of a list of natural numbers that fit counts how often each number occurs, up to the greatest one. -/
theorem indices_inverse_counts (x : Counts) (hx : x.Ok) (hl : x.len < 2^32) (ns : List Nat) (hn : naturals x.elems = some ns)
    (hfit : ∀ es, x = .any es → x.len ≤ 2147483647 ∧ ∀ n ∈ ns, n < bitMax) :
    (slashIm x).map (Out.map Nums.elems) = some (.ok ((occurrences ns).map Int.ofNat)) := by
  have hnl : ns.length = x.len := by rw [naturals_length hn, elems_length]
  unfold slashIm
  by_cases h0 : x.len = 0
  · rw [if_pos h0, List.eq_nil_of_length_eq_zero (hnl.trans h0)]
    rfl
  · rw [if_neg h0]
    cases x with
    | bit x n =>
      obtain ⟨h1, h2⟩ := bit_total x n hn
      rw [h1, show listF x n = firstN (bitF x) n from rfl, occurrences_bits _ _ (by have : n ≠ 0 := h0; omega), ← bit_sum_eq]
      rfl
    | ints t xs =>
      have := slashImInts_spec t xs hx (fun e => h0 (by rw [e]; rfl)) hl
      have hn' : naturals (xs.map some) = some ns := hn
      rw [hn'] at this
      exact this
    | any xs =>
      obtain ⟨hl2, hb⟩ := hfit xs rfl
      obtain ⟨r, e, h⟩ := slashImF64_spec ns (fun e => h0 (by rw [← hnl, e]; rfl))
      have hxs : xs = ns.map fun n => some (Int.ofNat n) := naturals_map hn
      dsimp only
      rw [hxs, e]
      rcases h with h | ⟨_, ⟨n, hn1, hn2⟩ | h⟩
      · rw [h]
      · have := hb n hn1
        omega
      · omega

example : (slashIm (.ints .i8 [2, 0, 2, 3])).map (Out.map Nums.elems) = some (.ok [1, 0, 2, 1]) := by
  rw [indices_inverse_counts (.ints .i8 [2, 0, 2, 3]) (by
    intro v hv
    simp only [List.mem_cons, List.not_mem_nil, or_false] at hv
    show -2^7 ≤ v ∧ v ≤ 2^7 - 1
    omega) (by decide) [2, 0, 2, 3] (by decide) (fun es h => by cases h)]
  decide +kernel

/-- `/⁼𝕩` is an error if an element is not a natural number. -/
theorem indices_inverse_rejects (x : Counts) (hx : x.Ok) (hl : x.len < 2^32) (hn : naturals x.elems = none) : (slashIm x).map (Out.map Nums.elems) = some .err := by
  have h0 : x.len ≠ 0 := fun h => by
    rw [← elems_length] at h
    rw [List.eq_nil_of_length_eq_zero h] at hn
    cases hn
  unfold slashIm
  rw [if_neg h0]
  cases x with
  | bit x n => exact absurd ((naturals_bits (listF x n)).symm.trans hn) (by simp)
  | ints t xs =>
    have := slashImInts_spec t xs hx (fun e => h0 (by rw [e]; rfl)) hl
    have hn' : naturals (xs.map some) = none := hn
    rw [hn'] at this
    exact this
  | any xs =>
    dsimp only
    rw [slashImF64_bad xs (naturals_none_bad hn)]
    rfl

example : (slashIm (.any [some 2, none])).map (Out.map Nums.elems) = some .err := indices_inverse_rejects _ trivial (by decide) (by decide)

/-- `/⁼𝕩` never reads or writes outside of memory. -/
theorem indices_inverse_safe (x : Counts) (hx : x.Ok) (hl : x.len < 2^32) : slashIm x ≠ none := by
  intro h
  rcases hn : naturals x.elems with _ | ns
  · have := indices_inverse_rejects x hx hl hn
    rw [h] at this
    cases this
  · cases x with
    | any xs =>
      unfold slashIm at h
      by_cases h0 : (Counts.any xs).len = 0
      · rw [if_pos h0] at h; cases h
      · rw [if_neg h0] at h
        have hxs : xs = ns.map fun n => some (Int.ofNat n) := naturals_map hn
        have hnl : ns.length = xs.length := naturals_length hn
        obtain ⟨r, e, _⟩ := slashImF64_spec ns (fun e => h0 (by show xs.length = 0; rw [← hnl, e]; rfl))
        dsimp only at h
        rw [← hxs, h] at e
        cases e
    | bit x n =>
      have := indices_inverse_counts _ hx hl ns hn (fun es h => by cases h)
      rw [h] at this
      cases this
    | ints t xs =>
      have := indices_inverse_counts _ hx hl ns hn (fun es h => by cases h)
      rw [h] at this
      cases this

example : slashIm (.any [some 4294967295]) ≠ none := indices_inverse_safe _ trivial (by decide)

/-- `/⁼/𝕨` is `𝕨` without the zeros at its end: if `x` holds the numbers of `/𝕨` in an array of whatever type, `/⁼` of it gives `𝕨` back. -/
theorem indices_inverse_round_trip (sq : Counts → Counts) (hsq : Keeps sq) (w : Counts) (hw : w.Ok) (hwl : w.len < bitMax) (ns : List Nat) (hn : naturals w.elems = some ns)
    (hs : ns.sum ≤ 2147483647) (junk : Nat → Word) (r : Ints) (hr : slashC1 sq w junk = some (.ok r)) (x : Counts) (hx : x.Ok) (hxr : x.elems = r.elems.map some) :
    (slashIm x).map (Out.map Nums.elems) = some (.ok ((dropZeros ns).map Int.ofNat)) := by
  have hbm : bitMax = 4294967230 := rfl
  have hi := indices_counts sq hsq w hw (by omega) junk
  rw [hn, hr] at hi
  have hlt : ¬ ns.sum ≥ 4294967295 := by omega
  dsimp only at hi
  rw [if_neg hlt] at hi
  injection hi with hi
  injection hi with hi
  have hnx : naturals x.elems = some (indices ns) := by
    rw [hxr, hi, List.map_map]
    exact naturals_of_map (indices ns)
  have hxl : x.len = ns.sum := by
    rw [← elems_length, ← naturals_length hnx, indices_eq, copies_length _ _ (by rw [List.length_range]; exact Nat.le_refl _)]
  have hnl : ns.length = w.len := by rw [naturals_length hn, elems_length]
  rw [indices_inverse_counts x hx (by omega) (indices ns) hnx (fun es _ => ⟨by omega, fun n hn => by have := indices_lt hn; omega⟩), occurrences_indices]

example : (slashIm (.ints .i16 [0, 0, 2, 2, 2])).map (Out.map Nums.elems) = some (.ok [2, 0, 3]) := by
  have hn : naturals (Counts.ints .i8 [2, 0, 3, 0]).elems = some [2, 0, 3, 0] := by decide
  have hw : (Counts.ints .i8 [2, 0, 3, 0]).Ok := by
    intro v hv
    simp only [List.mem_cons, List.not_mem_nil, or_false] at hv
    show -2^7 ≤ v ∧ v ≤ 2^7 - 1
    omega
  have hi := indices_counts id keeps_id (.ints .i8 [2, 0, 3, 0]) hw (by decide) (fun _ => 9#64)
  rw [hn] at hi
  rcases hr : slashC1 id (.ints .i8 [2, 0, 3, 0]) (fun _ => 9#64) with _ | r
  · rw [hr] at hi; cases hi
  · rw [hr] at hi
    cases r with
    | err => exact absurd hi (by simp [Out.map])
    | ok r =>
      have hr2 : r.elems = [0, 0, 2, 2, 2] := by
        injection hi with hi
        injection hi
      exact (indices_inverse_round_trip id keeps_id _ hw (by decide) _ hn (by decide) _ r hr (.ints .i16 [0, 0, 2, 2, 2]) (by
        intro v hv
        simp only [List.mem_cons, List.not_mem_nil, or_false] at hv
        show -2^15 ≤ v ∧ v ≤ 2^15 - 1
        omega) (by rw [hr2]; rfl)).trans (by decide +kernel)

end Verif.Rep
