import Verif.Select.Model
import Verif.Select.Spec
import Verif.Rep.Main
/-!
# Lemmas about the loops of Select
-/
namespace Verif.Select
open Verif.Bits Verif.Fold Verif.Slash Verif.Rep

theorem wrap_spec {v : Int} {n : Nat} (h1 : -2^63 ≤ v) (h2 : v < 2^63) (hn : n < 2^32) : wrap v n = position n v := by
  unfold wrap position
  dsimp only
  rw [BitVec.toNat_add, BitVec.toNat_ofNat, BitVec.toNat_ofInt]
  by_cases h0 : 0 ≤ v
  · have e : (v % ((2^64 : Nat) : Int)).toNat = v.toNat := by rw [Int.emod_eq_of_lt h0 (by omega)]
    rw [e]
    by_cases hv : n ≤ v.toNat
    · rw [if_pos hv, if_pos (by omega), if_neg (by omega), if_neg (by omega)]
    · rw [if_neg hv, if_pos ⟨h0, by omega⟩, Nat.mod_eq_of_lt (by omega)]
  · have e : (v % ((2^64 : Nat) : Int)).toNat = 2^64 - (-v).toNat := by
      have : v % ((2^64 : Nat) : Int) = v + 2^64 := by
        rw [← Int.add_emod_right, Int.emod_eq_of_lt (by omega) (by omega)]
        rfl
      omega
    rw [e, if_pos (by omega)]
    by_cases hv : -(n : Int) ≤ v
    · rw [if_neg (by omega), if_neg (by omega), if_pos ⟨hv, by omega⟩]
      congr 1
      omega
    · rw [if_pos (by omega), if_neg (by omega), if_neg (by omega)]

theorem position_lt {n : Nat} {i : Int} {p : Nat} (h : position n i = some p) : p < n := by
  unfold position at h
  by_cases h1 : 0 ≤ i ∧ i < n
  · rw [if_pos h1] at h
    injection h with h
    omega
  · rw [if_neg h1] at h
    by_cases h2 : -n ≤ i ∧ i < 0
    · rw [if_pos h2] at h
      injection h with h
      omega
    · rw [if_neg h2] at h
      cases h

theorem index_spec (w : Option Int) {n : Nat} (hn : n < 2^32) : (o2i64 w).bind (wrap · n) = w.bind (position n) := by
  cases w with
  | none => rfl
  | some v =>
    unfold o2i64
    show (if v < -2^63 ∨ 2^63 ≤ v then (none : Option Int) else some v).bind (wrap · n) = position n v
    by_cases h : v < -2^63 ∨ 2^63 ≤ v
    · rw [if_pos h]
      unfold position
      rw [if_neg (by omega), if_neg (by omega)]
      rfl
    · rw [if_neg h]
      exact wrap_spec (by omega) (by omega) hn

theorem positions_cons (n : Nat) (w : Option Int) (ws : List (Option Int)) :
    positions n (w :: ws) = (w.bind (position n)).bind fun p => (positions n ws).map (p :: ·) := by
  cases w <;> rfl

theorem positions_append (n : Nat) : ∀ (as bs : List (Option Int)), positions n (as ++ bs) = (positions n as).bind fun ps => (positions n bs).map (ps ++ ·)
  | [], bs => by
    show positions n bs = (positions n bs).map fun qs => [] ++ qs
    simp
  | a :: as, bs => by
    rw [List.cons_append, positions_cons, positions_cons, positions_append n as bs]
    rcases a.bind (position n) with _ | p
    · rfl
    · show ((positions n as).bind fun ps => (positions n bs).map (ps ++ ·)).map (p :: ·) = ((positions n as).map (p :: ·)).bind fun ps => (positions n bs).map (ps ++ ·)
      rcases positions n as with _ | ps
      · rfl
      · show ((positions n bs).map (ps ++ ·)).map (p :: ·) = (positions n bs).map ((p :: ps) ++ ·)
        rw [Option.map_map]
        rfl

theorem positions_lt {n : Nat} : ∀ {ws : List (Option Int)} {ps : List Nat}, positions n ws = some ps → ∀ p ∈ ps, p < n
  | [], ps, h, p, hp => by
    injection h with h
    rw [← h] at hp
    cases hp
  | w :: ws, ps, h, p, hp => by
    rw [positions_cons] at h
    rcases hw : w.bind (position n) with _ | q
    · rw [hw] at h; cases h
    · rw [hw] at h
      rcases hr : positions n ws with _ | qs
      · rw [hr] at h; cases h
      · rw [hr] at h
        injection h with h
        rw [← h] at hp
        rcases List.mem_cons.1 hp with rfl | hp
        · cases w with
          | none => cases hw
          | some v => exact position_lt hw
        · exact positions_lt hr p hp

theorem positions_length {n : Nat} : ∀ {ws : List (Option Int)} {ps : List Nat}, positions n ws = some ps → ps.length = ws.length
  | [], ps, h => by
    injection h with h
    rw [← h]
    rfl
  | w :: ws, ps, h => by
    rw [positions_cons] at h
    rcases hw : w.bind (position n) with _ | q
    · rw [hw] at h; cases h
    · rw [hw] at h
      rcases hr : positions n ws with _ | qs
      · rw [hr] at h; cases h
      · rw [hr] at h
        injection h with h
        rw [← h, List.length_cons, List.length_cons, positions_length hr]

theorem positions_none {n : Nat} : ∀ {ws : List (Option Int)}, positions n ws = none → ∃ (k : Nat) (w : Option Int), ws[k]? = some w ∧ w.bind (position n) = none
  | [], h => by cases h
  | w :: ws, h => by
    rw [positions_cons] at h
    rcases hw : w.bind (position n) with _ | q
    · exact ⟨0, w, rfl, hw⟩
    · rw [hw] at h
      rcases hr : positions n ws with _ | qs
      · obtain ⟨k, w', h1, h2⟩ := positions_none hr
        exact ⟨k + 1, w', h1, h2⟩
      · rw [hr] at h; cases h

theorem positions_get {n : Nat} : ∀ {ws : List (Option Int)} {ps : List Nat}, positions n ws = some ps → ∀ (k : Nat) (w : Option Int), ws[k]? = some w →
    ∃ p, ps[k]? = some p ∧ w.bind (position n) = some p
  | [], ps, h, k, w, hk => by simp at hk
  | w :: ws, ps, h, k, w', hk => by
    rw [positions_cons] at h
    rcases hw : w.bind (position n) with _ | q
    · rw [hw] at h; cases h
    · rw [hw] at h
      rcases hr : positions n ws with _ | qs
      · rw [hr] at h; cases h
      · rw [hr] at h
        injection h with h
        rw [← h]
        cases k with
        | zero =>
          injection hk with hk
          exact ⟨q, rfl, by rw [← hk]; exact hw⟩
        | succ k => exact positions_get hr k w' hk

/-- The result of a loop: an error for a bad index, or what `sl` gives for the positions. -/
def Done {M β} (O : List β → M → Prop) (sl : Nat → List β) (us : List β) (ps : Option (List Nat)) (r : Option (Out M)) : Prop :=
  match ps with
  | none => r = some .err
  | some ps => ∃ m, r = some (.ok m) ∧ O (us ++ ps.flatMap sl) m

theorem cellLoop_spec {M β} {cpy : M → Nat → Nat → Option M} {O : List β → M → Prop} {sl : Nat → List β} {xn width total : Nat} (hn : xn < 2^32)
    (hs : ∀ c, c < xn → (sl c).length = width)
    (hc : ∀ us m i c, O us m → us.length = i * width → i < total → c < xn → ∃ m', cpy m i c = some m' ∧ O (us ++ sl c) m') :
    ∀ (ws : List (Option Int)) (i : Nat) (us : List β) (m : M), O us m → us.length = i * width → i + ws.length ≤ total →
      Done O sl us (positions xn ws) (cellLoop cpy xn ws i m)
  | [], i, us, m, hO, hl, ht => ⟨m, rfl, by rw [List.flatMap_nil, List.append_nil]; exact hO⟩
  | w :: ws, i, us, m, hO, hl, ht => by
    rw [cellLoop, index_spec w hn, positions_cons]
    rcases hw : w.bind (position xn) with _ | p
    · exact rfl
    · have hp : p < xn := by
        cases w with
        | none => cases hw
        | some v => exact position_lt hw
      rw [List.length_cons] at ht
      obtain ⟨m', e, hO'⟩ := hc us m i p hO hl (by omega) hp
      have := cellLoop_spec hn hs hc ws (i + 1) (us ++ sl p) m' hO' (by rw [List.length_append, hs p hp, hl, Nat.succ_mul]) (by omega)
      show Done O sl us ((positions xn ws).map (p :: ·)) ((cpy m i p).bind fun m => cellLoop cpy xn ws (i + 1) m)
      rw [e]
      show Done O sl us ((positions xn ws).map (p :: ·)) (cellLoop cpy xn ws (i + 1) m')
      rcases hr : positions xn ws with _ | ps
      · rw [hr] at this
        exact this
      · rw [hr] at this
        obtain ⟨m2, e2, h2⟩ := this
        refine ⟨m2, e2, ?_⟩
        rw [List.flatMap_cons, ← List.append_assoc]
        exact h2

/-! ## Copies of cells of bytes -/

theorem cfParts_cover (bytes : Nat) : (∀ q ∈ cfParts bytes, q.1 + q.2 ≤ bytes) ∧ ∀ j, j < bytes → ∃ q ∈ cfParts bytes, q.1 ≤ j ∧ j < q.1 + q.2 := by
  unfold cfParts
  repeat' split
  all_goals
    constructor
    · intro q hq
      simp only [List.mem_cons, List.not_mem_nil, or_false] at hq
      rcases hq with rfl | rfl <;> dsimp only <;> omega
    · intro j hj
      first
        | (refine ⟨_, List.mem_cons_self, ?_, ?_⟩ <;> dsimp only <;> omega)
        | (rcases Nat.lt_or_ge j (bytes - 4) with hlt | hge
           · exact ⟨_, List.mem_cons_self, by dsimp only; omega, by dsimp only; omega⟩
           · exact ⟨_, List.mem_cons_of_mem _ List.mem_cons_self, by dsimp only; omega, by dsimp only; omega⟩)
        | (rcases Nat.lt_or_ge j (bytes - 8) with hlt | hge
           · exact ⟨_, List.mem_cons_self, by dsimp only; omega, by dsimp only; omega⟩
           · exact ⟨_, List.mem_cons_of_mem _ List.mem_cons_self, by dsimp only; omega, by dsimp only; omega⟩)

theorem cfCall_get {α} (x : List α) (rs xs bytes : Nat) (hx : xs + bytes ≤ x.length) : ∀ (ps : List (Nat × Nat)) (m : List α), rs + bytes ≤ m.length →
    (∀ q ∈ ps, q.1 + q.2 ≤ bytes) → ∃ m', cfCall x rs xs ps m = some m' ∧ m'.length = m.length ∧ (∀ i, i < rs → m'[i]? = m[i]?) ∧
      ∀ j, j < bytes → m'[rs + j]? = if ps.any (fun q => decide (q.1 ≤ j ∧ j < q.1 + q.2)) then x[xs + j]? else m[rs + j]?
  | [], m, hm, hp => ⟨m, rfl, rfl, fun _ _ => rfl, fun j hj => rfl⟩
  | (o, l) :: ps, m, hm, hp => by
    have hol : o + l ≤ bytes := hp (o, l) List.mem_cons_self
    rw [cfCall]
    have e : memCpy x m (rs + o) (xs + o) l = some (m.take (rs + o) ++ (x.drop (xs + o)).take l ++ m.drop (rs + o + l)) := if_pos ⟨by omega, by omega⟩
    have g : ∀ i, (m.take (rs + o) ++ (x.drop (xs + o)).take l ++ m.drop (rs + o + l))[i]? = if rs + o ≤ i ∧ i < rs + o + l then x[xs + (i - rs)]? else m[i]? := by
      intro i
      rw [List.getElem?_append, List.getElem?_append, List.length_append, List.length_take, List.length_take, List.length_drop]
      rw [Nat.min_eq_left (show rs + o ≤ m.length by omega), Nat.min_eq_left (show l ≤ x.length - (xs + o) by omega)]
      by_cases h1 : i < rs + o
      · rw [if_pos (by omega), if_pos h1, if_neg (by omega), List.getElem?_take_of_lt h1]
      · by_cases h2 : i < rs + o + l
        · rw [if_pos h2, if_neg h1, if_pos ⟨by omega, h2⟩, List.getElem?_take_of_lt (by omega), List.getElem?_drop]
          congr 1
          omega
        · rw [if_neg h2, if_neg (by omega), List.getElem?_drop]
          congr 1
          omega
    have gl : (m.take (rs + o) ++ (x.drop (xs + o)).take l ++ m.drop (rs + o + l)).length = m.length := by
      rw [List.length_append, List.length_append, List.length_take, List.length_take, List.length_drop, List.length_drop]
      omega
    rw [e]
    obtain ⟨m', e', hl, hb, hg⟩ := cfCall_get x rs xs bytes hx ps _ (by rw [gl]; exact hm) (fun q hq => hp q (List.mem_cons_of_mem _ hq))
    refine ⟨m', e', by rw [hl, gl], fun i hi => by rw [hb i hi, g, if_neg (by omega)], fun j hj => ?_⟩
    rw [hg j hj, List.any_cons, g, show xs + (rs + j - rs) = xs + j by omega]
    by_cases h1 : o ≤ j ∧ j < o + l
    · rw [decide_eq_true h1, Bool.true_or, if_pos (show rs + o ≤ rs + j ∧ rs + j < rs + o + l by omega)]
      split <;> rfl
    · rw [decide_eq_false h1, Bool.false_or, if_neg (show ¬ (rs + o ≤ rs + j ∧ rs + j < rs + o + l) by omega)]

/-- `cf_call` copies the whole cell and leaves what is before. -/
theorem cfCall_spec {α} (x m : List α) (rs xs bytes : Nat) (hx : xs + bytes ≤ x.length) (hm : rs + bytes ≤ m.length) :
    ∃ m', cfCall x rs xs (cfParts bytes) m = some m' ∧ Ext m rs (slice x xs bytes) m' := by
  obtain ⟨hp, hcov⟩ := cfParts_cover bytes
  obtain ⟨m', e, hl, hb, hg⟩ := cfCall_get x rs xs bytes hx _ m hm hp
  have hsl : (slice x xs bytes).length = bytes := by unfold slice; rw [List.length_take, List.length_drop]; omega
  refine ⟨m', e, hl, by rw [hsl]; exact hm, hb, fun k hk => ?_⟩
  rw [hsl] at hk
  obtain ⟨q, hq, h1⟩ := hcov k hk
  rw [hg k hk, if_pos (List.any_eq_true.2 ⟨q, hq, decide_eq_true h1⟩)]
  unfold slice
  rw [List.getElem?_take_of_lt hk, List.getElem?_drop]

/-! ## Single bits -/

theorem bitSet_spec (x : Nat → Word) {cap : Nat} {us : List Bool} {m : List Word} (h : BitsOut cap us m) (c : Nat) (hc : us.length < 64 * cap) :
    ∃ m', bitSet x m us.length c = some m' ∧ BitsOut cap (us ++ [bitF x c]) m' := by
  obtain ⟨h1, h2, h3⟩ := h
  have hlt : us.length / 64 < m.length := by omega
  unfold bitSet
  rw [List.getElem?_eq_getElem hlt]
  show ∃ m', wr m (us.length / 64) _ = some m' ∧ _
  refine ⟨_, wr_some hlt _, by rw [List.length_set]; exact h1, by rw [List.length_append]; show us.length + 1 ≤ _; omega, fun t ht => ?_⟩
  rw [List.length_append] at ht
  have ht : t < us.length + 1 := ht
  rw [bitL_set hlt]
  have hb : ∀ s, s < 64 → (if bitF x c = true then m[us.length / 64] ||| 1#64 <<< (us.length % 64) else m[us.length / 64] &&& ~~~(1#64 <<< (us.length % 64))).getLsbD s =
      if s = us.length % 64 then bitF x c else m[us.length / 64].getLsbD s := by
    intro s hs
    have e1 : (1#64 <<< (us.length % 64)).getLsbD s = decide (s = us.length % 64) := by
      rw [BitVec.getLsbD_shiftLeft, BitVec.getLsbD_one, decide_eq_true hs, Bool.true_and]
      by_cases h5 : s < us.length % 64
      · rw [decide_eq_true h5, decide_eq_false (show ¬ s = us.length % 64 by omega)]
        rfl
      · rw [decide_eq_false h5]
        by_cases h6 : s = us.length % 64
        · rw [decide_eq_true h6, decide_eq_true (show s - us.length % 64 = 0 by omega)]
          rfl
        · rw [decide_eq_false h6, decide_eq_false (show ¬ s - us.length % 64 = 0 by omega)]
          rfl
    cases hx : bitF x c
    · rw [if_neg (by simp), BitVec.getLsbD_and, BitVec.getLsbD_not, e1, decide_eq_true hs, Bool.true_and]
      by_cases h6 : s = us.length % 64
      · rw [decide_eq_true h6, if_pos h6]; simp
      · rw [decide_eq_false h6, if_neg h6]; simp
    · rw [if_pos rfl, BitVec.getLsbD_or, e1]
      by_cases h6 : s = us.length % 64
      · rw [decide_eq_true h6, if_pos h6]; simp
      · rw [decide_eq_false h6, if_neg h6]; simp
  have hm : ∀ s, (m[us.length / 64]).getLsbD (s % 64) = bitL m (us.length / 64 * 64 + s % 64) := by
    intro s
    unfold bitL
    rw [show (us.length / 64 * 64 + s % 64) / 64 = us.length / 64 by omega, show (us.length / 64 * 64 + s % 64) % 64 = s % 64 by omega,
      List.getD_eq_getElem?_getD, List.getElem?_eq_getElem hlt]
    rfl
  by_cases he : t = us.length
  · subst he
    rw [List.getElem?_append_right (Nat.le_refl _), Nat.sub_self, if_pos rfl, hb _ (Nat.mod_lt _ (by omega)), if_pos rfl]
    rfl
  · rw [List.getElem?_append_left (by omega), h3 t (by omega)]
    congr 1
    by_cases hd : t / 64 = us.length / 64
    · rw [if_pos hd, hb _ (Nat.mod_lt _ (by omega)), if_neg (by omega), hm t]
      congr 1
      omega
    · rw [if_neg hd]

end Verif.Select
