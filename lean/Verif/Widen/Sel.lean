import Verif.Widen.Main
import Verif.Select.Props
/-!
# Select on widened cells
-/
namespace Verif.Widen
open Verif.Bits Verif.Fold Verif.Slash Verif.Rep Verif.Select

theorem bytesOf_length (v : Word) : (bytesOf v).length = 8 := by simp [bytesOf]

theorem wordOf_bytesOf (v : Word) : wordOf (bytesOf v) = v := by
  apply BitVec.eq_of_toNat_eq
  unfold wordOf bytesOf
  rw [show List.range 8 = [0, 1, 2, 3, 4, 5, 6, 7] by decide]
  simp only [List.map_cons, List.map_nil, List.foldr_cons, List.foldr_nil, BitVec.toNat_ofNat, BitVec.toNat_setWidth, BitVec.toNat_ushiftRight, Nat.shiftRight_eq_div_pow]
  have := v.isLt
  omega

theorem wordsOf_flatMap (ws : List Word) : wordsOf ws.length (ws.flatMap bytesOf) = ws := by
  induction ws with
  | nil => rfl
  | cons w ws ih =>
    rw [List.length_cons, wordsOf, List.flatMap_cons, List.take_left' (bytesOf_length w), List.drop_left' (bytesOf_length w), ih, wordOf_bytesOf]

theorem at_map {α β} (f : α → β) (ps : List Nat) (l : List α) : at_ ps (l.map f) = (at_ ps l).map f := by
  unfold at_
  rw [List.map_flatMap]
  congr 1
  funext p
  rw [List.getElem?_map]
  cases l[p]? <;> rfl

theorem at_get {α} : ∀ {ps : List Nat} {l : List α}, (∀ p ∈ ps, p < l.length) → ∀ i (hi : i < ps.length), (at_ ps l)[i]? = l[ps[i]]? := by
  intro ps l
  induction ps with
  | nil => intro _ i hi; cases hi
  | cons p ps ih =>
    intro h i hi
    have e : at_ (p :: ps) l = l[p]'(h p List.mem_cons_self) :: at_ ps l := by
      unfold at_
      rw [List.flatMap_cons, List.getElem?_eq_getElem (h p List.mem_cons_self)]
      rfl
    rw [e]
    cases i with
    | zero => rw [List.getElem?_cons_zero, List.getElem_cons_zero, List.getElem?_eq_getElem (h p List.mem_cons_self)]
    | succ i =>
      rw [List.getElem?_cons_succ, List.getElem_cons_succ]
      exact ih (fun q hq => h q (List.mem_cons_of_mem _ hq)) i (by simpa using hi)

theorem flatten_get {α} {k : Nat} : ∀ {cs : List (List α)}, (∀ c ∈ cs, c.length = k) → ∀ i q, q < k → cs.flatten[i * k + q]? = (cs[i]?).bind (·[q]?) := by
  intro cs
  induction cs with
  | nil => intro _ i q hq; simp
  | cons c cs ih =>
    intro h i q hq
    have hc := h c List.mem_cons_self
    rw [List.flatten_cons]
    cases i with
    | zero => rw [Nat.zero_mul, Nat.zero_add, List.getElem?_append_left (by omega), List.getElem?_cons_zero]; rfl
    | succ i =>
      rw [Nat.succ_mul, List.getElem?_append_right (by omega), List.getElem?_cons_succ, ← ih (fun d hd => h d (List.mem_cons_of_mem _ hd)) i q hq]
      congr 1
      omega

/-- The cells of `k` elements. -/
def chunks {α} (k : Nat) : Nat → List α → List (List α)
  | 0, _ => []
  | n + 1, l => l.take k :: chunks k n (l.drop k)

theorem chunks_spec {α} (k : Nat) : ∀ (n : Nat) (l : List α), l.length = n * k → (chunks k n l).length = n ∧ (chunks k n l).flatten = l ∧ ∀ c ∈ chunks k n l, c.length = k := by
  intro n
  induction n with
  | zero => intro l hl; rw [Nat.zero_mul] at hl; exact ⟨rfl, (List.length_eq_zero_iff.1 hl).symm, fun c hc => by cases hc⟩
  | succ n ih =>
    intro l hl
    rw [Nat.succ_mul] at hl
    obtain ⟨h1, h2, h3⟩ := ih (l.drop k) (by rw [List.length_drop]; omega)
    refine ⟨by rw [chunks, List.length_cons, h1], by rw [chunks, List.flatten_cons, h2, List.take_append_drop], fun c hc => ?_⟩
    rw [chunks, List.mem_cons] at hc
    rcases hc with rfl | hc
    · rw [List.length_take]; omega
    · exact h3 c hc

theorem flatten_map_flatMap {α β} (f : α → List β) (l : List (List α)) : (l.map fun c => c.flatMap f).flatten = l.flatten.flatMap f := by
  induction l with
  | nil => rfl
  | cons a l ih => rw [List.map_cons, List.flatten_cons, ih, List.flatten_cons, List.flatMap_append]

theorem flatMap_bytes_length (l : List Word) : (l.flatMap bytesOf).length = l.length * 8 := by
  induction l with
  | nil => rfl
  | cons a l ih => rw [List.flatMap_cons, List.length_append, ih, bytesOf_length, List.length_cons]; omega

/-- The bits of the selected cells. -/
theorem sel_bits {x : Nat → Word} {csz xn : Nat} {ps : List Nat} (hp : ∀ p ∈ ps, p < xn) (i j : Nat) (hi : i < ps.length) (hj : j < csz) :
    ((at_ ps (bitCells x csz xn)).flatten[i * csz + j]?).getD false = bitF x (ps[i] * csz + j) := by
  have hlen : (bitCells x csz xn).length = xn := length_firstN _ _
  have hcl : ∀ c ∈ at_ ps (bitCells x csz xn), c.length = csz := by
    intro c hc
    unfold at_ at hc
    obtain ⟨p, hp1, hp2⟩ := List.mem_flatMap.1 hc
    have : p < (bitCells x csz xn).length := by rw [hlen]; exact hp p hp1
    rw [List.getElem?_eq_getElem this] at hp2
    have hc : (bitCells x csz xn)[p]? = some c := by
      have e : c = (bitCells x csz xn)[p] := by simpa using hp2
      rw [List.getElem?_eq_getElem this, e]
    unfold bitCells at hc
    rw [getElem?_firstN, if_pos (hp p hp1)] at hc
    cases hc
    exact length_firstN _ _
  rw [flatten_get hcl i j hj, at_get (fun p h => by rw [hlen]; exact hp p h) i hi]
  unfold bitCells
  rw [getElem?_firstN, if_pos (hp _ (List.getElem_mem hi)), Option.bind_some, getElem?_firstN, if_pos hj]
  rfl

theorem sel_length {x : Nat → Word} {csz xn : Nat} {ps : List Nat} (hp : ∀ p ∈ ps, p < xn) : (at_ ps (bitCells x csz xn)).flatten.length = ps.length * csz := by
  rw [← at_bitCells x csz xn hp, flatMap_length (fun c _ => length_firstN _ _) hp]

/-- Memory with the bits of a list. -/
theorem listL_of_bits {m : List Word} {n : Nat} {l : List Bool} (hl : l.length = n) (h : ∀ b, b < n → bitL m b = (l[b]?).getD false) : listL m n = l := by
  apply List.ext_getElem?
  intro k
  unfold listL
  rw [getElem?_firstN]
  by_cases hk : k < n
  · rw [if_pos hk, h k hk, List.getElem?_eq_getElem (by omega)]
    rfl
  · rw [if_neg hk, List.getElem?_eq_none (by omega)]

theorem selectWidened_spec (sq : Counts → Counts) (hsq : Keeps sq) (fl d1 : Bool) (w : Counts) (hw : w.Ok) (csz : Nat) (h0 : 0 < csz) (h8 : csz % 8 ≠ 0) (h128 : csz < 128)
    (x : Nat → Word) (xn : Nat) (hn : xn * newCell csz ≤ bitMax) (hwl : w.len * newCell csz ≤ bitMax) (junk : Nat → Word) :
    (selectWidened sq fl d1 w csz x ((xn * csz + 63) / 64 + 1) xn junk).map (Out.map (Res.bitsFrom [] (w.len * csz))) =
      some (orErr ((positions xn w.elems).map fun ps => (at_ ps (bitCells x csz xn)).flatten)) := by
  have hbm : bitMax = 4294967230 := rfl
  unfold selectWidened
  by_cases h64 : csz ≤ 64
  · obtain ⟨hnc, hle⟩ := newCell_units h0 h64
    have hxn : xn ≤ xn * newCell csz := Nat.le_mul_of_pos_right _ (by omega)
    have hwcs : w.len * csz ≤ w.len * newCell csz := Nat.mul_le_mul_left _ hle
    obtain ⟨vals, e, hl, hv⟩ := widen_units (x := x) (junk := junk) h0 h64 (by omega) hn
    have hs := select_elements sq hsq fl d1 false w hw (.units (newCell csz) vals) vals (.inl ⟨newCell csz, by omega, by rw [hl]; omega, by omega, rfl⟩) (by omega) junk junk
    rw [hl] at hs
    rw [e, Option.bind_some]
    simp only
    rw [hs]
    rcases hp : positions xn w.elems with _ | ps
    · rfl
    · have hplt := positions_lt hp
      have hpl : ps.length = w.len := by rw [positions_length hp, elems_length]
      have hpad : Padded (fun b => ((at_ ps (bitCells x csz xn)).flatten[b]?).getD false) csz w.len (at_ ps vals) := by
        refine ⟨by rw [at_length (fun p h => by rw [hl]; exact hplt p h), hpl], fun i hi => ?_⟩
        obtain ⟨v, f1, f2⟩ := hv ps[i] (hplt _ (List.getElem_mem (by omega)))
        refine ⟨v, by rw [at_get (fun p h => by rw [hl]; exact hplt p h) i (by omega), f1], fun j hj => ?_⟩
        rw [f2 j hj]
        by_cases hjc : j < csz
        · show _ = (_ && (((at_ ps (bitCells x csz xn)).flatten[i * csz + j]?).getD false))
          rw [sel_bits hplt i j (by omega) hjc]
        · rw [decide_eq_false hjc, Bool.false_and, Bool.false_and]
      obtain ⟨m, e2, _, hb⟩ := narrow_units (n := newCell csz) (junk := junk) h0 h64 hpad (by omega)
      simp only [Option.map_some, Select.orErr, Option.bind_some]
      rw [e2]
      show some (Out.ok (listL m (w.len * csz))) = _
      rw [listL_of_bits (by rw [sel_length hplt, hpl]) hb]
  · have hnc := newCell_words (show 64 < csz by omega) (by omega)
    have hn128 : newCell csz = 128 := by omega
    rw [hn128] at hn hwl
    obtain ⟨ms, e, hl, hv⟩ := widen_words (x := x) (junk := junk) (show 64 < csz by omega) (by omega) (by omega) (show xn * newCell csz ≤ bitMax by rw [hn128]; exact hn)
    rw [hn128, show 128 / 64 = 2 by rfl] at hl hv e
    obtain ⟨c1, c2, c3⟩ := chunks_spec 2 xn ms hl
    have hs := select_cells sq hsq fl d1 false w hw (.cells 1 (64 * 2) (ms.flatMap bytesOf)) ((chunks 2 xn ms).map fun c => c.flatMap bytesOf) 128 1 (by omega)
      (.inl ⟨by decide, by decide, by rw [flatten_map_flatMap, c2], fun c hc => by
        obtain ⟨d, hd, rfl⟩ := List.mem_map.1 hc
        rw [flatMap_bytes_length, c3 d hd]⟩) (by rw [List.length_map, c1]; omega) (by rw [List.length_map, c1]; omega) (fun _ => by rw [List.length_map, c1]; omega) (by omega) junk
      (fun i => (junk i).setWidth 8)
    rw [List.length_map, c1, if_neg (by omega)] at hs
    rw [e, Option.bind_some]
    simp only
    rw [hs]
    rcases hp : positions xn w.elems with _ | ps
    · rfl
    · have hplt := positions_lt hp
      have hpl : ps.length = w.len := by rw [positions_length hp, elems_length]
      have hatl : (at_ ps (chunks 2 xn ms)).length = w.len := by rw [at_length (fun p h => by rw [c1]; exact hplt p h), hpl]
      have hatc : ∀ c ∈ at_ ps (chunks 2 xn ms), c.length = 2 := by
        intro c hc
        unfold at_ at hc
        obtain ⟨p, hp1, hp2⟩ := List.mem_flatMap.1 hc
        have hpl : p < (chunks 2 xn ms).length := by rw [c1]; exact hplt p hp1
        rw [List.getElem?_eq_getElem hpl] at hp2
        have : c = (chunks 2 xn ms)[p] := by simpa using hp2
        rw [this]
        exact c3 _ (List.getElem_mem hpl)
      have hfl : (at_ ps (chunks 2 xn ms)).flatten.length = w.len * 2 := by
        rw [← hatl]
        clear hs hatl
        revert hatc
        generalize at_ ps (chunks 2 xn ms) = l0
        intro hatc
        induction l0 with
        | nil => rfl
        | cons a l ih =>
          rw [List.flatten_cons, List.length_append, hatc a List.mem_cons_self, ih fun c hc => hatc c (List.mem_cons_of_mem _ hc), List.length_cons]
          omega
      have hpad : PaddedW (fun b => ((at_ ps (bitCells x csz xn)).flatten[b]?).getD false) csz 2 w.len (at_ ps (chunks 2 xn ms)).flatten := by
        refine ⟨hfl, fun i hi q hq => ?_⟩
        have hpi : ps[i] < xn := hplt _ (List.getElem_mem (by omega))
        obtain ⟨v, f1, f2⟩ := hv ps[i] hpi q hq
        refine ⟨v, ?_, fun b hb => ?_⟩
        · rw [flatten_get hatc i q hq, at_get (fun p h => by rw [c1]; exact hplt p h) i (by omega), ← flatten_get c3 _ q hq, c2, f1]
        · rw [f2 b hb]
          by_cases hjc : q * 64 + b < csz
          · show _ = (_ && (((at_ ps (bitCells x csz xn)).flatten[i * csz + (q * 64 + b)]?).getD false))
            rw [sel_bits hplt i (q * 64 + b) (by omega) hjc]
          · rw [decide_eq_false hjc, Bool.false_and, Bool.false_and]
      have hwcs : w.len * csz ≤ w.len * 128 := Nat.mul_le_mul_left _ (by omega)
      obtain ⟨m, e2, _, hb⟩ := narrow_words (junk := junk) (show csz / 64 < 2 by omega) hpad (by omega)
      simp only [Option.map_some, Select.orErr, Option.bind_some]
      rw [at_map, flatten_map_flatMap, ← hfl, wordsOf_flatMap, e2]
      show some (Out.ok (listL m (w.len * csz))) = _
      rw [listL_of_bits (by rw [sel_length hplt, hpl]) hb]

end Verif.Widen
