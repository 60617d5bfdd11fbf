import Verif.Under.Basic
/-!
# The loops of Under Select for each kind of array
-/
namespace Verif.Under
open Verif.Bits Verif.Fold Verif.Slash Verif.Rep Verif.Select

theorem Equiv.lift {α} {compat : α → α → Bool} (h : Equiv compat) : Equiv (lift compat) := by
  refine ⟨fun a => ?_, fun a b => ?_, fun a b c => ?_⟩
  · cases a
    · rfl
    · exact h.refl _
  · cases a <;> cases b <;> first | exact fun h => h | exact h.symm _ _
  · cases a <;> cases b <;> cases c <;> first | exact fun h _ => Bool.noConfusion h | exact fun _ h => Bool.noConfusion h | exact fun h _ => h | exact h.trans _ _ _

theorem equiv_beq : Equiv (fun a b : Bool => a == b) := ⟨fun a => by simp, fun a b => by simp; exact Eq.symm, fun a b c => by simp; exact Eq.trans⟩

theorem eqRange_spec {α} (compat : α → α → Bool) (get rep : Nat → Option α) (a b : Nat) : ∀ (l j : Nat), (∀ t, j ≤ t → t < j + l → ∃ e, get (a + t) = some e) →
    (∀ t, j ≤ t → t < j + l → ∃ e, rep (b + t) = some e) →
    ∃ bb, eqRange compat get rep a b l j = some bb ∧ (bb = true ↔ ∀ t, j ≤ t → t < j + l → lift compat (get (a + t)) (rep (b + t)) = true)
  | 0, j, _, _ => ⟨true, rfl, fun _ t h1 h2 => by omega, fun _ => rfl⟩
  | l + 1, j, h1, h2 => by
    obtain ⟨e, he⟩ := h1 j (Nat.le_refl _) (by omega)
    obtain ⟨f, hf⟩ := h2 j (Nat.le_refl _) (by omega)
    obtain ⟨bb, eb, hb⟩ := eqRange_spec compat get rep a b l (j + 1) (fun t ht1 ht2 => h1 t (by omega) (by omega)) (fun t ht1 ht2 => h2 t (by omega) (by omega))
    rw [eqRange, he, hf, Option.bind_some, Option.bind_some]
    cases hc : compat e f with
    | false =>
      refine ⟨false, rfl, fun h => Bool.noConfusion h, fun h => ?_⟩
      have := h j (Nat.le_refl _) (by omega)
      rw [he, hf] at this
      have : compat e f = true := this
      rw [hc] at this
      exact this
    | true =>
      refine ⟨bb, eb, hb.trans ⟨fun h t ht1 ht2 => ?_, fun h t ht1 ht2 => h t (by omega) (by omega)⟩⟩
      by_cases ht : t = j
      · rw [ht, he, hf]
        exact hc
      · exact h t (by omega) (by omega)

theorem memCpy_get {α} {xs m : List α} {ri xi l : Nat} (h1 : xi + l ≤ xs.length) (h2 : ri + l ≤ m.length) :
    ∃ m', memCpy xs m ri xi l = some m' ∧ m'.length = m.length ∧ (∀ k : Nat, k < ri ∨ ri + l ≤ k → m'[k]? = m[k]?) ∧ ∀ j : Nat, j < l → m'[ri + j]? = xs[xi + j]? := by
  refine ⟨_, if_pos ⟨h1, h2⟩, ?_, ?_, ?_⟩
  all_goals
    have ht : (m.take ri).length = ri := by rw [List.length_take]; omega
    have hx : ((xs.drop xi).take l).length = l := by rw [List.length_take, List.length_drop]; omega
  · rw [List.length_append, List.length_append, ht, hx, List.length_drop]
    omega
  · intro k hk
    rw [List.append_assoc]
    rcases hk with hk | hk
    · rw [List.getElem?_append_left (by omega), List.getElem?_take, if_pos hk]
    · rw [List.getElem?_append_right (by omega), ht, List.getElem?_append_right (by omega), hx, List.getElem?_drop]
      congr 1
      omega
  · intro j hj
    rw [List.append_assoc, List.getElem?_append_right (by omega), ht, List.getElem?_append_left (by omega), List.getElem?_take, if_pos (by omega), List.getElem?_drop]
    congr 1
    omega

theorem bitCpy_get (x : Nat → Word) (m : List Word) (ri xi l : Nat) (h : ri + l ≤ 64 * m.length) :
    ∃ m', bitCpy x m ri xi l = some m' ∧ m'.length = m.length ∧ ∀ k, k < 64 * m.length → bitL m' k = if ri ≤ k ∧ k < ri + l then bitF x (xi + (k - ri)) else bitL m k := by
  unfold bitCpy
  dsimp only
  have hlog : ((BitCopy.bit_cpy (fun i => m.getD i 0#64) ri (fun i => x i.toNat) xi l).log.all fun i => decide (i < m.length)) = true := by
    rw [List.all_eq_true]
    intro k hk
    obtain ⟨i, h1, h2, h3⟩ := BitCopy.bit_cpy_writes _ _ _ _ _ _ hk
    exact decide_eq_true (by omega)
  rw [if_pos hlog]
  refine ⟨_, rfl, by rw [List.length_map, List.length_range], fun k hk => ?_⟩
  have hget : bitL ((List.range m.length).map (BitCopy.bit_cpy (fun i => m.getD i 0#64) ri (fun i => x i.toNat) xi l).mem) k =
      bitF (BitCopy.bit_cpy (fun i => m.getD i 0#64) ri (fun i => x i.toNat) xi l).mem k := by
    unfold bitL bitF
    rw [List.getD_eq_getElem?_getD, List.getElem?_map, List.getElem?_range (by omega)]
    rfl
  rw [hget, BitCopy.bit_cpy_correct]
  rfl

theorem bitSet_get (x : Nat → Word) (m : List Word) (c i : Nat) (h : c < 64 * m.length) :
    ∃ m', bitSet x m c i = some m' ∧ m'.length = m.length ∧ ∀ k, bitL m' k = if k = c then bitF x i else bitL m k := by
  have hlt : c / 64 < m.length := by omega
  unfold bitSet
  rw [List.getElem?_eq_getElem hlt, Option.bind_some]
  refine ⟨_, wr_some hlt _, List.length_set, fun k => ?_⟩
  rw [bitL_set hlt]
  by_cases hk : k / 64 = c / 64
  · rw [if_pos hk]
    have hml : bitL m k = (m[c / 64]).getLsbD (k % 64) := by
      unfold bitL
      rw [List.getD_eq_getElem?_getD, hk, List.getElem?_eq_getElem hlt]
      rfl
    have hs : k % 64 < 64 := Nat.mod_lt _ (by decide)
    have e1 : (1#64 <<< (c % 64)).getLsbD (k % 64) = decide (k = c) := by
      rw [BitVec.getLsbD_shiftLeft, BitVec.getLsbD_one, decide_eq_true hs, Bool.true_and]
      by_cases h5 : k % 64 < c % 64
      · rw [decide_eq_true h5, decide_eq_false (show ¬ k = c by omega)]
        rfl
      · rw [decide_eq_false h5]
        by_cases h6 : k = c
        · rw [decide_eq_true h6, decide_eq_true (show k % 64 - c % 64 = 0 by omega)]
          rfl
        · rw [decide_eq_false h6, decide_eq_false (show ¬ k % 64 - c % 64 = 0 by omega)]
          rfl
    rw [hml]
    cases hx : bitF x i
    · rw [if_neg (by simp), BitVec.getLsbD_and, BitVec.getLsbD_not, e1, decide_eq_true hs, Bool.true_and]
      by_cases h6 : k = c
      · rw [decide_eq_true h6, if_pos h6]; simp
      · rw [decide_eq_false h6, if_neg h6]; simp
    · rw [if_pos rfl, BitVec.getLsbD_or, e1]
      by_cases h6 : k = c
      · rw [decide_eq_true h6, if_pos h6]; simp
      · rw [decide_eq_false h6, if_neg h6]; simp
  · rw [if_neg hk, if_neg (fun h => hk (by rw [h]))]

theorem getBit_some {m : List Word} {k : Nat} (h : k < 64 * m.length) : getBit m k = some (bitL m k) := by
  unfold getBit bitL
  rw [List.getD_eq_getElem?_getD, List.getElem?_eq_getElem (show k / 64 < m.length by omega)]
  rfl

theorem get_some {α} {xs : List α} {k : Nat} (h : k < xs.length) : ∃ e, xs[k]? = some e := ⟨_, List.getElem?_eq_getElem h⟩

/-- Elements copied with `memcpy`, after a comparison at the right offsets. -/
theorem acts_cells {α} (compat : α → α → Bool) (cam csz wia : Nat) (n : Nat) (rep : List α) (hn : n = cam * csz) (hrep : rep.length = wia * csz) {off : Nat → Nat}
    (hoff : ∀ i, off i = i * csz) :
    Acts (M := List α) (lift compat) cam csz wia (rep[·]?) (fun m => m.length = n) (fun m k => m[k]?) (fun m c i => eqRange compat (m[·]?) (rep[·]?) (off c) (off i) csz 0)
      (fun m c i => memCpy rep m (c * csz) (i * csz) csz) := by
  refine ⟨fun m c i hm hc hi => ?_, fun m c i hm hc hi => ?_⟩
  all_goals
    have h1 := cell_end (width := csz) hc
    have h2 := cell_end (width := csz) hi
  · obtain ⟨b, e, hb⟩ := eqRange_spec compat (m[·]?) (rep[·]?) (c * csz) (i * csz) csz 0 (fun t _ ht => get_some (by omega)) (fun t _ ht => get_some (by omega))
    rw [hoff, hoff]
    exact ⟨b, e, hb.trans ⟨fun h j hj => h j (Nat.zero_le _) (by omega), fun h t _ ht => h t (by omega)⟩⟩
  · obtain ⟨m', e, hl, hk, hnew⟩ := memCpy_get (xs := rep) (m := m) (ri := c * csz) (xi := i * csz) (l := csz) (by omega) (by omega)
    refine ⟨m', e, hl.trans hm, fun k hkn hkc => hk k ?_, hnew⟩
    rcases Nat.lt_or_ge k (c * csz) with h3 | h3
    · exact Or.inl h3
    · refine Or.inr (Classical.byContradiction fun h4 => hkc ?_)
      rw [show k = c * csz + (k - c * csz) by omega]
      exact div_cell (by omega)

theorem acts_elems {α} (compat : α → α → Bool) (cam wia : Nat) (n : Nat) (rep : List α) (hn : n = cam) (hrep : rep.length = wia) :
    Acts (M := List α) (lift compat) cam 1 wia (rep[·]?) (fun m => m.length = n) (fun m k => m[k]?) (fun m c i => (m[c]?).bind fun e => (rep[i]?).map fun f => compat e f)
      (fun m c i => (rep[i]?).bind fun e => wr m c e) := by
  refine ⟨fun m c i hm hc hi => ?_, fun m c i hm hc hi => ?_⟩
  · obtain ⟨e, he⟩ := get_some (xs := m) (k := c) (by omega)
    obtain ⟨f, hf⟩ := get_some (xs := rep) (k := i) (by omega)
    refine ⟨compat e f, by rw [he, hf]; rfl, fun h j hj => ?_, fun h => ?_⟩
    · obtain rfl : j = 0 := by omega
      simp only [Nat.mul_one, Nat.add_zero]
      rw [he, hf]
      exact h
    · have := h 0 (by decide)
      simp only [Nat.mul_one, Nat.add_zero] at this
      rw [he, hf] at this
      exact this
  · obtain ⟨f, hf⟩ := get_some (xs := rep) (k := i) (by omega)
    refine ⟨m.set c f, by rw [hf]; exact wr_some (by omega) f, by rw [List.length_set]; exact hm, fun k hk hkc => ?_, fun j hj => ?_⟩
    · rw [Nat.div_one] at hkc
      exact List.getElem?_set_ne (Ne.symm hkc)
    · obtain rfl : j = 0 := by omega
      simp only [Nat.mul_one, Nat.add_zero]
      rw [List.getElem?_set_self (by omega), hf]

theorem acts_bits (cam wia n : Nat) (rep : Nat → Word) (hn : cam ≤ 64 * n) :
    Acts (M := List Word) (fun a b : Bool => a == b) cam 1 wia (bitF rep) (fun m => m.length = n) bitL (fun m c i => (getBit m c).map fun b => b == bitF rep i) (fun m c i => bitSet rep m c i) := by
  refine ⟨fun m c i hm hc hi => ?_, fun m c i hm hc hi => ?_⟩
  · refine ⟨_, by rw [getBit_some (by omega)]; rfl, fun h j hj => ?_, fun h => ?_⟩
    · obtain rfl : j = 0 := by omega
      rw [Nat.mul_one, Nat.add_zero, Nat.mul_one, Nat.add_zero]
      exact h
    · have := h 0 (by decide)
      rw [Nat.mul_one, Nat.add_zero, Nat.mul_one, Nat.add_zero] at this
      exact this
  · obtain ⟨m', e, hl, hk⟩ := bitSet_get rep m c i (by omega)
    refine ⟨m', e, hl.trans hm, fun k _ hkc => ?_, fun j hj => ?_⟩
    · rw [Nat.div_one] at hkc
      rw [hk, if_neg hkc]
    · obtain rfl : j = 0 := by omega
      rw [Nat.mul_one, Nat.add_zero, Nat.mul_one, Nat.add_zero, hk, if_pos rfl]

theorem lift_beq (a b : Bool) : lift (fun a b : Bool => a == b) (some a) (some b) = (a == b) := rfl

theorem acts_bitCells (cam csz wia n : Nat) (rep : Nat → Word) (hn : cam * csz ≤ 64 * n) :
    Acts (M := List Word) (fun a b : Bool => a == b) cam csz wia (bitF rep) (fun m => m.length = n) bitL
      (fun m c i => eqRange (· == ·) (getBit m) (fun k => some (bitF rep k)) (c * csz) (i * csz) csz 0) (fun m c i => bitCpy rep m (c * csz) (i * csz) csz) := by
  refine ⟨fun m c i hm hc hi => ?_, fun m c i hm hc hi => ?_⟩
  all_goals have h1 := cell_end (width := csz) hc
  · obtain ⟨b, e, hb⟩ := eqRange_spec (fun a b : Bool => a == b) (getBit m) (fun k => some (bitF rep k)) (c * csz) (i * csz) csz 0
      (fun t _ ht => ⟨_, getBit_some (by omega)⟩) (fun t _ ht => ⟨_, rfl⟩)
    refine ⟨b, e, hb.trans ⟨fun h j hj => ?_, fun h t _ ht => ?_⟩⟩
    · have := h j (Nat.zero_le _) (by omega)
      rw [getBit_some (by omega)] at this
      exact this
    · rw [getBit_some (by omega)]
      exact h t (by omega)
  · obtain ⟨m', e, hl, hk⟩ := bitCpy_get rep m (c * csz) (i * csz) csz (by omega)
    refine ⟨m', e, hl.trans hm, fun k hkn hkc => ?_, fun j hj => ?_⟩
    · rw [hk k (by omega), if_neg]
      intro h3
      apply hkc
      rw [show k = c * csz + (k - c * csz) by omega]
      exact div_cell (by omega)
    · rw [hk _ (by omega), if_pos (by omega)]
      congr 1
      omega

/-! ## The indices -/

theorem positions_poss {cam : Nat} : ∀ {ws : List (Option Int)} {ps : List Nat}, positions cam ws = some ps → poss cam (ws.filterMap id) = ps ∧ InRange cam (ws.filterMap id)
  | [], ps, h => by
    injection h with h
    subst h
    exact ⟨rfl, fun v hv => by simp at hv⟩
  | none :: ws, ps, h => by cases h
  | some v :: ws, ps, h => by
    have h : (position cam v).bind (fun p => (positions cam ws).map (p :: ·)) = some ps := h
    rcases hp : position cam v with _ | p
    · rw [hp] at h; cases h
    · rw [hp, Option.bind_some] at h
      rcases hq : positions cam ws with _ | qs
      · rw [hq] at h; cases h
      · rw [hq, Option.map_some] at h
        injection h with h
        subst h
        obtain ⟨h1, h2⟩ := positions_poss hq
        have hfm : (some v :: ws).filterMap id = v :: ws.filterMap id := rfl
        have hr : (-cam ≤ v ∧ v < cam) ∧ (readW v cam).toNat = p := by
          unfold position at hp
          unfold readW
          by_cases hv : 0 ≤ v ∧ v < cam
          · rw [if_pos hv] at hp
            injection hp with hp
            rw [if_neg (by omega)]
            exact ⟨by omega, hp⟩
          · rw [if_neg hv] at hp
            by_cases hv2 : -cam ≤ v ∧ v < 0
            · rw [if_pos hv2] at hp
              injection hp with hp
              rw [if_pos hv2.2, Int.add_comm]
              exact ⟨by omega, hp⟩
            · rw [if_neg hv2] at hp
              cases hp
        rw [hfm]
        refine ⟨?_, ?_⟩
        · show (readW v cam).toNat :: poss cam (ws.filterMap id) = _
          rw [h1, hr.2]
        · intro u hu
          rcases List.mem_cons.1 hu with h | h
          · rw [h]; exact hr.1
          · exact h2 u h

theorem getRange_spec : ∀ (ws : List (Option Int)) (lo hi : Int), (∀ r, getRange ws lo hi = some r → r.1 ≤ lo ∧ hi ≤ r.2 ∧ (∀ w ∈ ws, ∃ v, w = some v ∧ r.1 ≤ v ∧ v ≤ r.2) ∧
      (r.1 = lo ∨ some r.1 ∈ ws) ∧ (r.2 = hi ∨ some r.2 ∈ ws)) ∧ (getRange ws lo hi = none → ∃ w ∈ ws, o2i64 w = none)
  | [], lo, hi => by
    refine ⟨fun r h => ?_, fun h => by cases h⟩
    injection h with h
    subst h
    exact ⟨Int.le_refl _, Int.le_refl _, fun w h => by simp at h, Or.inl rfl, Or.inl rfl⟩
  | w :: ws, lo, hi => by
    rw [getRange]
    rcases hw : o2i64 w with _ | v
    · exact ⟨fun r h => (by cases h), fun _ => ⟨w, List.mem_cons_self, hw⟩⟩
    · have hwv : w = some v := by
        unfold o2i64 at hw
        rcases w with _ | u
        · cases hw
        · rw [Option.bind_some] at hw
          by_cases hc : u < -2^63 ∨ 2^63 ≤ u
          · rw [if_pos hc] at hw; cases hw
          · rw [if_neg hc] at hw
            exact hw
      rw [Option.bind_some]
      obtain ⟨h1, h2⟩ := getRange_spec ws (if v < lo then v else lo) (if v > hi then v else hi)
      refine ⟨fun r h => ?_, fun h => ?_⟩
      · obtain ⟨a1, a2, a3, a4, a5⟩ := h1 r h
        have b1 : (if v < lo then v else lo) ≤ v ∧ (if v < lo then v else lo) ≤ lo ∧ ((if v < lo then v else lo) = lo ∨ (if v < lo then v else lo) = v) := by
          by_cases hc : v < lo
          · rw [if_pos hc]; omega
          · rw [if_neg hc]; omega
        have b2 : v ≤ (if v > hi then v else hi) ∧ hi ≤ (if v > hi then v else hi) ∧ ((if v > hi then v else hi) = hi ∨ (if v > hi then v else hi) = v) := by
          by_cases hc : v > hi
          · rw [if_pos hc]; omega
          · rw [if_neg hc]; omega
        refine ⟨by omega, by omega, fun u hu => ?_, ?_, ?_⟩
        · rcases List.mem_cons.1 hu with h | h
          · exact ⟨v, h.trans hwv, by omega, by omega⟩
          · exact a3 u h
        · rcases a4 with a | a
          · rcases b1.2.2 with b | b
            · exact Or.inl (a.trans b)
            · exact Or.inr (by rw [a, b, hwv]; exact List.mem_cons_self)
          · exact Or.inr (List.mem_cons_of_mem _ a)
        · rcases a5 with a | a
          · rcases b2.2.2 with b | b
            · exact Or.inl (a.trans b)
            · exact Or.inr (by rw [a, b, hwv]; exact List.mem_cons_self)
          · exact Or.inr (List.mem_cons_of_mem _ a)
      · obtain ⟨u, hu, hu2⟩ := h2 h
        exact ⟨u, List.mem_cons_of_mem _ hu, hu2⟩

theorem positions_all_of {cam : Nat} : ∀ {ws : List (Option Int)}, (∀ w ∈ ws, ∃ v, w = some v ∧ -cam ≤ v ∧ v < cam) → ∃ ps, positions cam ws = some ps
  | [], _ => ⟨[], rfl⟩
  | w :: ws, h => by
    obtain ⟨v, rfl, h1, h2⟩ := h w List.mem_cons_self
    obtain ⟨ps, hps⟩ := positions_all_of (fun u hu => h u (List.mem_cons_of_mem _ hu))
    refine ⟨(if v < 0 then v + (cam : Int) else v).toNat :: ps, ?_⟩
    show (position cam v).bind (fun p => (positions cam ws).map (p :: ·)) = _
    rw [position_some h1 h2, hps]
    rfl

theorem positions_none_of {cam : Nat} {w : Option Int} (hw : w.bind (position cam) = none) : ∀ {ws : List (Option Int)}, w ∈ ws → positions cam ws = none
  | u :: ws, h => by
    rcases List.mem_cons.1 h with h | h
    · subst h
      rcases w with _ | v
      · rfl
      · have hw : position cam v = none := hw
        show (position cam v).bind _ = none
        rw [hw]
        rfl
    · have ih := positions_none_of hw h
      rcases u with _ | v
      · rfl
      · show (position cam v).bind (fun p => (positions cam ws).map (p :: ·)) = none
        rw [ih]
        cases position cam v <;> rfl

theorem rangeBad_spec {cam : Nat} (hn : cam < 2^32) (ws : List (Option Int)) : rangeBad cam ws = true ↔ positions cam ws = none := by
  have hbad : ∀ {w : Option Int}, o2i64 w = none → w.bind (position cam) = none := by
    intro w h
    rw [← index_spec w hn, h]
    rfl
  cases ws with
  | nil => exact ⟨fun h => Bool.noConfusion h, fun h => by cases h⟩
  | cons w ws =>
    rw [rangeBad]
    rcases hw : o2i64 w with _ | v
    · exact ⟨fun _ => positions_none_of (hbad hw) List.mem_cons_self, fun _ => rfl⟩
    · have hwv : w = some v := by
        unfold o2i64 at hw
        rcases w with _ | u
        · cases hw
        · rw [Option.bind_some] at hw
          by_cases hc : u < -2^63 ∨ 2^63 ≤ u
          · rw [if_pos hc] at hw; cases hw
          · rw [if_neg hc] at hw
            exact hw
      dsimp only
      obtain ⟨h1, h2⟩ := getRange_spec ws v v
      rcases hg : getRange ws v v with _ | ⟨lo, hi⟩
      · obtain ⟨u, hu, hu2⟩ := h2 hg
        exact ⟨fun _ => positions_none_of (hbad hu2) (List.mem_cons_of_mem _ hu), fun _ => rfl⟩
      · obtain ⟨a1, a2, a3, a4, a5⟩ := h1 _ hg
        dsimp only at a1 a2 a3 a4 a5 ⊢
        have hlo : some lo ∈ w :: ws := by
          rcases a4 with a | a
          · rw [a, hwv]; exact List.mem_cons_self
          · exact List.mem_cons_of_mem _ a
        have hhi : some hi ∈ w :: ws := by
          rcases a5 with a | a
          · rw [a, hwv]; exact List.mem_cons_self
          · exact List.mem_cons_of_mem _ a
        rw [Bool.or_eq_true, decide_eq_true_eq, decide_eq_true_eq]
        constructor
        · rintro (h | h)
          · exact positions_none_of (w := some lo) (show position cam lo = none from position_bad (Or.inl h)) hlo
          · exact positions_none_of (w := some hi) (show position cam hi = none from position_bad (Or.inr h)) hhi
        · intro h
          refine Classical.byContradiction fun hc => ?_
          rw [not_or] at hc
          obtain ⟨ps, hps⟩ := positions_all_of (cam := cam) (ws := w :: ws) (fun u hu => by
            rcases List.mem_cons.1 hu with h | h
            · exact ⟨v, h.trans hwv, by omega, by omega⟩
            · obtain ⟨z, hz, hz1, hz2⟩ := a3 u h
              exact ⟨z, hz, by omega, by omega⟩)
          rw [hps] at h
          cases h

end Verif.Under
