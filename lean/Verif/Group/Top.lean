import Verif.Group.Main
/-!
# Group: the whole function
-/
namespace Verif.Group
open Verif.Bits Verif.Fold Verif.Slash Verif.Rep Verif.Select Verif.Under Verif.Rotate

variable {M α : Type}

/-- Sizes for which no computation of a size wraps: fewer than 2⋆31 cells, 2⋆32 elements, and 4 GiB. -/
structure Fits (K : GKind M α) (xn : Nat) (cell : List Nat) : Prop where
  cells : xn < 2^31
  elements : xn * prod cell < 2^32
  bytes : xn * prod cell * 2^K.log < 2^35

/-- Number of cells and elements of bucket `k`. -/
def sizeOf (xn : Nat) (rs : List (Bucket M α)) (k : Nat) : Nat := ((rs[k]?).map (Bucket.size xn)).getD 0
def getOf (K : Kind M α) (x : M) (rs : List (Bucket M α)) (k c : Nat) : Option α := (rs[k]?).bind fun b => b.get K x c

theorem AllFinal.grouped {K : Kind M α} {w : Nat → Int} {n csz : Nat} {x : M} {ria : Nat} {rs : List (Bucket M α)} (h : AllFinal K w n csz x ria rs) {extra : Option Int} (h1 : Enough w n extra ria)
    (h2 : ∀ r', Enough w n extra r' → ria ≤ r') : Grouped w n extra csz (K.get x) rs.length (sizeOf n rs) (getOf K x rs) := by
  obtain ⟨hl, hf⟩ := h
  rw [hl]
  refine ⟨h1, h2, fun k hk => ?_, fun i k hi hw c hc => ?_⟩
  · have e := List.getElem?_eq_getElem (l := rs) (i := k) (by omega)
    unfold sizeOf
    rw [e]
    exact (hf k _ e).1
  · have hk : k < rs.length := by
      have := h1.1 i hi
      omega
    have e := List.getElem?_eq_getElem hk
    unfold getOf
    rw [e]
    exact (hf k _ e).2 i hi hw c hc

theorem take_eq_map (w : List Int) (n : Nat) (h : n ≤ w.length) : w.take n = (List.range n).map fun i => w.getD i 0 := by
  apply List.ext_getElem?
  intro k
  rw [List.getElem?_map]
  by_cases hk : k < n
  · rw [List.getElem?_take_of_lt hk, List.getElem?_range hk, List.getElem?_eq_getElem (by omega)]
    show _ = some (w.getD k 0)
    rw [List.getD_eq_getElem?_getD, List.getElem?_eq_getElem (by omega)]
    rfl
  · rw [List.getElem?_eq_none (by rw [List.length_take]; omega), List.getElem?_eq_none (by simpa using hk)]
    rfl

theorem getD_mem {w : List Int} {i : Nat} (h : i < w.length) : w.getD i 0 ∈ w := by
  rw [List.getD_eq_getElem?_getD, List.getElem?_eq_getElem h]
  exact List.getElem_mem h

theorem fits_width {K : GKind M α} (hl : IsLog K.log) {xn : Nat} {cell : List Nat} (hf : Fits K xn cell) (h0 : xn ≠ 0) :
    CellsOk K.log cell (cellsOf K.log cell) ∧ xn * (cellsOf K.log cell).width < 2^32 := by
  have hc := cellsOf_ok K.log cell hl (Nat.lt_of_le_of_lt (Nat.le_mul_of_pos_left _ (by omega)) hf.elements)
  refine ⟨hc, ?_⟩
  by_cases hz : K.log = 0
  · have h1 := hc.width
    rw [hz, Nat.pow_zero, Nat.mul_one] at h1
    rw [hz]
    exact Nat.lt_of_le_of_lt (Nat.mul_le_mul_left xn (show _ ≤ prod cell by omega)) hf.elements
  · have h1 := hc.width8 hz
    have h2 := hf.bytes
    rw [Nat.mul_assoc, ← h1, ← Nat.mul_assoc] at h2
    omega

/-- `group` for indices that aren't booleans. -/
theorem group_ints {K : GKind M α} {ok : Nat → M → Prop} (L : GLawful K ok) (hl : IsLog K.log) (hB : K.log = 0 → K.notB = true) (w : List Int) (xn : Nat) (cell : List Nat) (x : M) (d : Nat → α)
    (hx : ok (xn * prod cell) x) (hf : Fits K xn cell) (hlen : w.length = xn ∨ w.length = xn + 1) (hw : ∀ v ∈ w, -1 ≤ v) :
    ∃ rs, group K false w xn cell x d = some (.ok rs) ∧ Grouped (fun i => w.getD i 0) xn w[xn]? (prod cell) (K.get x) rs.length (sizeOf xn rs) (getOf K.toKind x rs) := by
  unfold group
  dsimp only
  rw [if_neg (by omega), if_neg (by decide), take_eq_map w xn (by omega)]
  have hs := stats_spec (fun i => w.getD i 0) xn
  generalize ((List.range xn).map fun i => w.getD i 0).foldl Stats.step {} = s at hs ⊢
  have hwi : ∀ i, i < xn → -1 ≤ w.getD i 0 := fun i hi => hw _ (getD_mem (by omega))
  have hextra : (if xn < w.length then w.getD xn 0 else 0) = (w[xn]?).getD 0 := by
    split
    · rw [List.getD_eq_getElem?_getD]
    · rw [List.getElem?_eq_none (by omega)]
      rfl
  rw [hextra]
  have hr0 : -1 ≤ (w[xn]?).getD 0 := by
    cases he : w[xn]? with
    | none => decide
    | some e => exact hw e (List.mem_of_getElem? he)
  have hbad : s.bad = false := by
    cases hb : s.bad with
    | false => rfl
    | true =>
      obtain ⟨i, hi, hlt⟩ := hs.bad.1 hb
      have := hwi i hi
      omega
  rw [hbad, if_neg (by rw [Bool.false_or, decide_eq_true_iff]; omega)]
  have hge := hs.ge
  generalize hria : (if s.max + 1 > (w[xn]?).getD 0 then s.max + 1 else (w[xn]?).getD 0) = ria
  have hria0 : 0 ≤ ria := by rw [← hria]; split <;> omega
  have hle := hs.le
  have hwr : ∀ i, i < xn → -1 ≤ w.getD i 0 ∧ w.getD i 0 < ((ria.toNat : Nat) : Int) := by
    intro i hi
    have h1 := hle i hi
    refine ⟨hwi i hi, ?_⟩
    rw [show ((ria.toNat : Nat) : Int) = ria by omega, ← hria]
    split <;> omega
  have hwid : xn * (cellsOf K.log cell).width < 2^32 := by
    by_cases h0 : xn = 0
    · rw [h0, Nat.zero_mul]; decide
    · exact (fits_width hl hf h0).2
  obtain ⟨rs, e, h⟩ := groupInts_spec L rfl hB (fun h0 => (fits_width hl hf h0).1) d hx hwr hf.cells hwid hs
  rw [e]
  refine ⟨rs, rfl, h.grouped ⟨fun i hi => (hwr i hi).2, fun e he => ?_⟩ (fun r' h' => ?_)⟩
  · rw [he] at hria
    have hria : (if s.max + 1 > e then s.max + 1 else e) = ria := hria
    rw [show ((ria.toNat : Nat) : Int) = ria by omega, ← hria]
    split <;> omega
  · have : ria ≤ r' := by
      rw [← hria]
      split
      · rcases hs.reached with h1 | ⟨i, hi, h1⟩
        · omega
        · have := h'.1 i hi
          dsimp only at this h1
          omega
      · cases he : w[xn]? with
        | none => show (0 : Int) ≤ r'; omega
        | some e => exact h'.2 e he
    omega

/-- `group` for booleans. -/
theorem group_bools {K : GKind M α} {ok : Nat → M → Prop} (L : GLawful K ok) (hl : IsLog K.log) (w : List Int) (xn : Nat) (cell : List Nat) (x : M) (d : Nat → α)
    (hx : ok (xn * prod cell) x) (hf : Fits K xn cell) (hlen : w.length = xn ∨ w.length = xn + 1) (hw : ∀ v ∈ w, v = 0 ∨ v = 1) :
    ∃ rs, group K true w xn cell x d = some (.ok rs) ∧ Grouped (fun i => w.getD i 0) xn w[xn]? (prod cell) (K.get x) rs.length (sizeOf xn rs) (getOf K.toKind x rs) := by
  unfold group
  dsimp only
  rw [if_neg (by omega), if_pos rfl]
  have hwi : ∀ i, i < xn → w.getD i 0 = 0 ∨ w.getD i 0 = 1 := fun i hi => hw _ (getD_mem (by omega))
  have hex : ∀ e, w[xn]? = some e → e = 0 ∨ e = 1 := fun e he => hw e (List.mem_of_getElem? he)
  have hany : ((w.take xn).any fun v => v == 1) = true ↔ ∃ i, i < xn ∧ w.getD i 0 = 1 := by
    rw [List.any_eq_true, take_eq_map w xn (by omega)]
    constructor
    · rintro ⟨v, hv, h1⟩
      obtain ⟨i, hi, rfl⟩ := List.mem_map.1 hv
      exact ⟨i, List.mem_range.1 hi, by simpa using h1⟩
    · rintro ⟨i, hi, h1⟩
      exact ⟨_, List.mem_map.2 ⟨i, List.mem_range.2 hi, rfl⟩, by simpa using h1⟩
  by_cases h0 : xn = 0
  · -- no cells
    subst h0
    rw [if_neg (show ¬ (0 : Nat) ≠ 0 by decide)]
    have hg : ∀ (ria : Nat) (rs : List (Bucket M α)), AllFinal K.toKind (fun i => w.getD i 0) 0 (prod cell) x ria rs → (∀ e : Int, w[0]? = some e → e ≤ (ria : Nat)) → (∀ r' : Nat, (∀ e : Int, w[0]? = some e → e ≤ r') → ria ≤ r') →
        Grouped (fun i => w.getD i 0) 0 w[0]? (prod cell) (K.get x) rs.length (sizeOf 0 rs) (getOf K.toKind x rs) := by
      intro ria rs h1 h2 h3
      exact h1.grouped ⟨fun i hi => absurd hi (Nat.not_lt_zero i), h2⟩ (fun r' h' => h3 r' h'.2)
    have h00 : AllFinal K.toKind (fun i => w.getD i 0) 0 (prod cell) x 0 ([] : List (Bucket M α)) := ⟨rfl, fun k b hb => nomatch hb⟩
    cases w with
    | nil =>
      rw [if_neg (show ¬ ([] : List Int).length ≠ 0 by decide), if_pos rfl]
      exact ⟨[], rfl, hg 0 [] h00 (fun e he => nomatch he) (fun r' _ => Nat.zero_le _)⟩
    | cons v ws =>
      rw [if_pos (show (v :: ws).length ≠ 0 by simp)]
      have hv := hex v rfl
      have he : ((v :: ws).getD 0 0) = v := rfl
      rw [he]
      rcases hv with rfl | rfl
      · rw [if_pos (show Int.toNat 0 = 0 from rfl)]
        refine ⟨[], rfl, hg 0 [] h00 (fun e he => ?_) (fun r' _ => Nat.zero_le _)⟩
        cases he
        decide
      · rw [if_neg (show ¬ Int.toNat 1 = 0 by decide), if_pos (show Int.toNat 1 = 1 from rfl)]
        refine ⟨[.all], rfl, hg 1 [.all] ⟨rfl, fun k b hb => ?_⟩ (fun e he => ?_) (fun r' h => ?_)⟩
        · cases k with
          | zero => cases hb; exact ⟨rfl, fun i hi => absurd hi (Nat.not_lt_zero i)⟩
          | succ k => exact nomatch hb
        · cases he
          decide
        · have := h 1 rfl
          omega
  · rw [if_pos h0, if_neg (by omega)]
    have hleast : ∀ r', Enough (fun i => w.getD i 0) xn w[xn]? r' → 1 ≤ r' := by
      intro r' h'
      have := h'.1 0 (by omega)
      dsimp only at this
      rcases hwi 0 (by omega) with h | h <;> omega
    by_cases ha : ((w.take xn).any fun v => v == 1) = true
    · obtain ⟨i1, hi1, hv1⟩ := hany.1 ha
      rw [if_pos ha, if_neg (by decide)]
      have hcsz := (fits_width hl hf h0).1.csz
      have htl : (w.take xn).length = xn := by rw [List.length_take]; omega
      have hget : ∀ (p : Int → Bool) i, i < xn → ((w.take xn).map p).getD i false = p (w.getD i 0) := by
        intro p i hi
        rw [List.getD_eq_getElem?_getD, List.getElem?_map, List.getElem?_take_of_lt hi, List.getD_eq_getElem?_getD, List.getElem?_eq_getElem (show i < w.length by omega)]
        rfl
      obtain ⟨r1, e1, _, p1⟩ := slash_spec L hx ((w.take xn).map (· == 1)) (by rw [List.length_map]; exact htl)
      obtain ⟨r0, e0, _, p0⟩ := slash_spec L hx ((w.take xn).map fun v => !(v == 1)) (by rw [List.length_map]; exact htl)
      rw [hcsz, e1, e0]
      have c1 : ∀ i, i < xn → (chosen ((w.take xn).map (· == 1)) i = 1 ↔ w.getD i 0 = 1) := by
        intro i hi
        rw [chosen_eq, hget _ i hi]
        simp
      have c0 : ∀ i, i < xn → (chosen ((w.take xn).map fun v => !(v == 1)) i = 1 ↔ w.getD i 0 = 0) := by
        intro i hi
        rw [chosen_eq, hget _ i hi]
        rcases hwi i hi with h | h <;> rw [h] <;> decide
      refine ⟨_, rfl, AllFinal.grouped (ria := 2) ⟨rfl, fun k b hb => ?_⟩ ⟨fun i hi => ?_, fun e he => ?_⟩ (fun r' h' => ?_)⟩
      · have key : ∀ (m : List Bool) (r : M) (k : Nat), (∀ i, i < xn → (chosen m i = 1 ↔ w.getD i 0 = k)) → Placed K.toKind (chosen m) (prod cell) x xn 1 (K.get r) →
            Final K.toKind (fun i => w.getD i 0) xn (prod cell) x k (.mem r (before (chosen m) 1 xn)) := by
          intro m r k hm hp
          refine ⟨before_congr hm, fun i hi hwi c hc => ?_⟩
          have := hp i hi ((hm i hi).2 hwi) c hc
          rw [before_congr (w' := fun i => w.getD i 0) (k' := k) fun j hj => hm j (by omega)] at this
          exact this
        match k, hb with
        | 0, hb => cases hb; exact key _ r0 0 c0 p0
        | 1, hb => cases hb; exact key _ r1 1 c1 p1
      · show w.getD i 0 < _
        rcases hwi i hi with h | h <;> rw [h] <;> decide
      · rcases hex e he with h | h <;> rw [h] <;> decide
      · have := h'.1 i1 hi1
        dsimp only at this
        omega
    · have hall : ∀ i, i < xn → w.getD i 0 = 0 := by
        intro i hi
        rcases hwi i hi with h | h
        · exact h
        · exact absurd (hany.2 ⟨i, hi, h⟩) ha
      rw [if_neg ha, if_pos rfl]
      refine ⟨[.all], rfl, AllFinal.grouped (ria := 1) ⟨rfl, fun k b hb => ?_⟩ ⟨fun i hi => ?_, fun e he => ?_⟩ hleast⟩
      · cases k with
        | zero =>
          cases hb
          refine ⟨(before_all hall).symm, fun i hi _ cc hcc => ?_⟩
          have : before (fun i => w.getD i 0) ((0 : Nat) : Int) i = i := before_all fun j hj => hall j (by omega)
          rw [this]
          rfl
        | succ k => exact nomatch hb
      · show w.getD i 0 < _
        rw [hall i hi]
        decide
      · rcases hex e he with h | h <;> rw [h] <;> decide

end Verif.Group
