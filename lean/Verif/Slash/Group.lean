import Verif.Slash.CompressLemmas
/-!
# Replicate by a boolean list: lemmas about runs of ones and about bits
-/
namespace Verif.Slash
open Verif.Bits Verif.Fold

/-- `wv` has the bits of word `i` from position `pos` on. -/
def From (w : Nat → Word) (pos : Nat) (wv : Word) (i : Nat) : Prop := ∀ j, j < 64 → wv.getLsbD j = (decide (pos ≤ 64 * i + j) && bitF w (64 * i + j))

theorem skip0_spec (w : Nat → Word) (wn : Nat) : ∀ (k i pos : Nat) (wv : Word), i + k + 1 = wn → 64 * i ≤ pos → pos ≤ 64 * (i + 1) → From w pos wv i →
    (∃ p, pos ≤ p ∧ p < 64 * wn ∧ bitF w p = true) →
    ∃ wv' i' k' pos', skip0 w k wv i = some (wv', i', k') ∧ i' + k' + 1 = wn ∧ 64 * i' ≤ pos' ∧ From w pos' wv' i' ∧ wv' ≠ 0#64 ∧
      pos ≤ pos' ∧ ∀ p, pos ≤ p → p < pos' → bitF w p = false
  | k, i, pos, wv, hk, hpos, hpos2, hF, hex => by
    unfold skip0
    by_cases hz : wv = 0#64
    · rw [if_pos hz]
      have hzero : ∀ p, pos ≤ p → p < 64 * (i + 1) → bitF w p = false := by
        intro p h1 h2
        have := hF (p - 64 * i) (by omega)
        rw [show 64 * i + (p - 64 * i) = p by omega, hz, BitVec.getLsbD_zero, decide_eq_true h1, Bool.true_and] at this
        exact this.symm
      obtain ⟨p, h1, h2, h3⟩ := hex
      have hp : 64 * (i + 1) ≤ p := by
        rcases Nat.lt_or_ge p (64 * (i + 1)) with h | h
        · rw [hzero p h1 h] at h3
          cases h3
        · exact h
      cases k with
      | zero => omega
      | succ k =>
        dsimp only
        obtain ⟨wv', i', k', pos', e, h1, h2, h3, h4, h5, h6⟩ := skip0_spec w wn k (i + 1) (64 * (i + 1)) (w (i + 1)) (by omega) (by omega) (by omega)
          (fun j hj => by rw [decide_eq_true (by omega), Bool.true_and, bitF_word _ _ _ hj]) ⟨p, hp, h2, h3⟩
        refine ⟨wv', i', k', pos', e, h1, h2, h3, h4, by omega, fun p hp1 hp2 => ?_⟩
        rcases Nat.lt_or_ge p (64 * (i + 1)) with h | h
        · exact hzero p hp1 h
        · exact h6 p h hp2
    · rw [if_neg hz]
      exact ⟨wv, i, k, pos, rfl, hk, hpos, hF, hz, Nat.le_refl _, fun p h1 h2 => by omega⟩

theorem ones_bit (j : Nat) (hj : j < 64) : (~~~0#64).getLsbD j = true := by
  rw [BitVec.getLsbD_not, decide_eq_true hj, BitVec.getLsbD_zero]
  rfl

/-- After the last one of a run has been found. -/
theorem skip1_spec (w : Nat → Word) (wn i0 : Nat) : ∀ (k i : Nat) (wv : Word), i + k + 1 = wn → i0 < 64 * (i + 1) →
    (∀ j, j < 64 → wv.getLsbD j = (decide (64 * i + j < i0) || bitF w (64 * i + j))) → (∀ p, i0 ≤ p → p < 64 * i → bitF w p = true) →
    ∃ wv' i' k' c, skip1 w k wv i = (wv', i', k') ∧ CTZ (~~~wv') = some c ∧ i0 ≤ 64 * i' + c ∧ 64 * i' + c ≤ 64 * wn ∧
      (∀ p, i0 ≤ p → p < 64 * i' + c → bitF w p = true) ∧
      ((i' + k' + 1 = wn ∧ From w (64 * i' + c) (wv' &&& (wv' + 1#64)) i' ∧ c < 64 ∧ bitF w (64 * i' + c) = false) ∨
        (i' = wn ∧ c = 0 ∧ wv' &&& (wv' + 1#64) = 0#64))
  | k, i, wv, hk, hi0, hb, hrun => by
    unfold skip1
    by_cases hz : wv = ~~~0#64
    · rw [if_pos hz]
      have hall : ∀ p, i0 ≤ p → p < 64 * (i + 1) → bitF w p = true := by
        intro p h1 h2
        rcases Nat.lt_or_ge p (64 * i) with h | h
        · exact hrun p h1 h
        · have := hb (p - 64 * i) (by omega)
          rw [show 64 * i + (p - 64 * i) = p by omega, hz, decide_eq_false (by omega), Bool.false_or, ones_bit _ (by omega)] at this
          exact this.symm
      cases k with
      | zero =>
        exact ⟨0#64, i + 1, 0, 0, rfl, by decide, by omega, by omega, fun p h1 h2 => hall p h1 (by omega), Or.inr ⟨by omega, rfl, by decide⟩⟩
      | succ k =>
        dsimp only
        exact skip1_spec w wn i0 k (i + 1) (w (i + 1)) (by omega) (by omega)
          (fun j hj => by rw [decide_eq_false (by omega), Bool.false_or, bitF_word _ _ _ hj]) hall
    · rw [if_neg hz]
      have hnz : ~~~wv ≠ 0#64 := by
        intro h
        apply hz
        rw [← h, BitVec.not_not]
      obtain ⟨c, hc⟩ := CTZ_isSome hnz
      obtain ⟨c1, c2, c3⟩ := CTZ_spec hc
      have hc0 : wv.getLsbD c = false := by
        rw [BitVec.getLsbD_not] at c2
        cases h : wv.getLsbD c with
        | false => rfl
        | true => rw [h] at c2; simp at c2
      have hones : ∀ j, j < c → wv.getLsbD j = true := by
        intro j hj
        have := c3 j hj
        rw [BitVec.getLsbD_not, decide_eq_true (by omega), Bool.true_and] at this
        simpa using this
      have hcb := hb c c1
      rw [hc0] at hcb
      have hcb1 : ¬ 64 * i + c < i0 := by
        intro h
        rw [decide_eq_true h, Bool.true_or] at hcb
        cases hcb
      rw [decide_eq_false hcb1, Bool.false_or] at hcb
      refine ⟨wv, i, k, c, rfl, hc, by omega, by omega, fun p h1 h2 => ?_, Or.inl ⟨hk, fun j hj => ?_, c1, hcb.symm⟩⟩
      · rcases Nat.lt_or_ge p (64 * i) with h | h
        · exact hrun p h1 h
        · have := hb (p - 64 * i) (by omega)
          rw [show 64 * i + (p - 64 * i) = p by omega, hones _ (by omega), decide_eq_false (by omega), Bool.false_or] at this
          exact this.symm
      · rw [clear_ones wv c1 hc0 hones, hb j hj]
        have : (64 * i + c ≤ 64 * i + j) = (c ≤ j) := propext (by omega)
        simp only [this]
        by_cases h : c ≤ j
        · rw [decide_eq_false (by omega), Bool.false_or, Bool.and_comm]
        · rw [decide_eq_false h, Bool.and_false, Bool.false_and]

theorem P_none {b : Nat → Bool} {i n : Nat} (h : ∀ p, i ≤ p → p < i + n → b p = false) : P b i n = [] := by
  apply List.eq_nil_of_length_eq_zero
  rw [P_length]
  exact (cnt_congr fun j hj => h _ (by omega) (by omega)).trans (cnt_false n)

theorem P_ones {b : Nat → Bool} {i n : Nat} (h : ∀ p, i ≤ p → p < i + n → b p = true) : P b i n = List.range' i n := by
  unfold P
  apply List.filter_eq_self.2
  intro k hk
  have := List.mem_range'_1.1 hk
  exact h k this.1 this.2

/-- `COMPRESS_GROUP` copies exactly the cells at ones. -/
theorem groupLoop_spec {M β} {cpy : M → Nat → Nat → Nat → Option M} (w : Nat → Word) (wn width n cap : Nat) (sl : Nat → Nat → List β)
    (Out : List β → M → Prop) (hw : 0 < width) (hsl : Slices sl (n * width)) (hn : ∀ p, p < 64 * wn → bitF w p = true → p < n)
    (hcpy : ∀ us m xi l, Out us m → xi + l ≤ n * width → us.length + l ≤ cap → ∃ m', cpy m us.length xi l = some m' ∧ Out (us ++ sl xi l) m') :
    ∀ (fuel k i pos : Nat) (wv : Word) (us : List β) (m : M), 64 * i ≤ pos → pos ≤ 64 * (i + 1) → pos ≤ 64 * wn →
      ((i + k + 1 = wn ∧ From w pos wv i) ∨ pos = 64 * wn) →
      (P (bitF w) pos (64 * wn - pos)).length ≤ fuel → Out us m →
      us.length + (P (bitF w) pos (64 * wn - pos)).length * width = cap →
      ∃ m', groupLoop cpy w width cap fuel k wv i us.length m = some m' ∧ Out (us ++ pickCells sl width (P (bitF w) pos (64 * wn - pos))) m'
  | fuel, k, i, pos, wv, us, m, hp1, hp2, hp3, hst, hf, hOut, hcap => by
    unfold groupLoop
    by_cases hlt : us.length < cap
    · rw [if_pos hlt]
      have hpos : 0 < (P (bitF w) pos (64 * wn - pos)).length := by
        rcases Nat.eq_zero_or_pos (P (bitF w) pos (64 * wn - pos)).length with h | h
        · rw [h] at hcap; omega
        · exact h
      have hex : ∃ p, pos ≤ p ∧ p < 64 * wn ∧ bitF w p = true := by
        have hm := List.getElem_mem hpos
        have := P_mem hm
        exact ⟨_, this.1, by omega, this.2.2⟩
      cases fuel with
      | zero => omega
      | succ fuel =>
        dsimp only
        have hst' : i + k + 1 = wn ∧ From w pos wv i := by
          rcases hst with h | h
          · exact h
          · obtain ⟨p, h1, h2, _⟩ := hex
            omega
        obtain ⟨wv1, i1, k1, pos1, e1, hk1, hi1, hF1, hz1, hle1, hzero1⟩ := skip0_spec w wn k i pos wv hst'.1 hp1 hp2 hst'.2 hex
        rw [e1, Option.bind_some]
        dsimp only
        obtain ⟨c0, hc0⟩ := CTZ_isSome hz1
        obtain ⟨a1, a2, a3⟩ := CTZ_spec hc0
        rw [hc0, Option.bind_some]
        have hone := hF1 c0 a1
        rw [a2] at hone
        obtain ⟨hone1, hone2⟩ := Bool.and_eq_true_iff.1 hone.symm
        have hone1 := of_decide_eq_true hone1
        have hzero2 : ∀ p, pos ≤ p → p < 64 * i1 + c0 → bitF w p = false := by
          intro p h1 h2
          rcases Nat.lt_or_ge p pos1 with h | h
          · exact hzero1 p h1 h
          · have := hF1 (p - 64 * i1) (by omega)
            rw [a3 _ (by omega), show 64 * i1 + (p - 64 * i1) = p by omega, decide_eq_true h, Bool.true_and] at this
            exact this.symm
        have hskip := skip1_spec w wn (64 * i1 + c0) k1 i1 (wv1 ||| (wv1 - 1#64)) hk1 (by omega)
          (fun j hj => by
            rw [set_below wv1 a2 a3, hF1 j hj]
            have : (64 * i1 + j < 64 * i1 + c0) = (j < c0) := propext (by omega)
            simp only [this]
            by_cases h : j < c0
            · rw [decide_eq_true h, Bool.or_true, Bool.true_or]
            · rw [decide_eq_false h, Bool.or_false, Bool.false_or, decide_eq_true (by omega), Bool.true_and])
          (fun p h1 h2 => by omega)
        obtain ⟨wv2, i2, k2, c1, e2, hc1, b1, b2, b3, b4⟩ := hskip
        rw [e2]
        dsimp only
        rw [hc1, Option.bind_some]
        have hgt : 64 * i1 + c0 < 64 * i2 + c1 := by
          rcases Nat.eq_or_lt_of_le b1 with h | h
          · rcases b4 with ⟨_, _, _, h4⟩ | ⟨h1, h2, _⟩
            · rw [← h, hone2] at h4
              cases h4
            · have := hn (64 * i1 + c0)
              omega
          · exact h
        have hP : P (bitF w) pos (64 * wn - pos) = List.range' (64 * i1 + c0) (64 * i2 + c1 - (64 * i1 + c0)) ++ P (bitF w) (64 * i2 + c1) (64 * wn - (64 * i2 + c1)) := by
          have e : 64 * wn - pos = (64 * i1 + c0 - pos) + ((64 * i2 + c1 - (64 * i1 + c0)) + (64 * wn - (64 * i2 + c1))) := by omega
          rw [e, P_add, P_add, P_none (fun p h1 h2 => hzero2 p h1 (by omega)), List.nil_append, show pos + (64 * i1 + c0 - pos) = 64 * i1 + c0 by omega,
            P_ones (fun p h1 h2 => b3 p h1 (by omega)), show 64 * i1 + c0 + (64 * i2 + c1 - (64 * i1 + c0)) = 64 * i2 + c1 by omega]
        have hend : 64 * i2 + c1 ≤ n := by
          have := hn (64 * i2 + c1 - 1) (by omega) (b3 _ (by omega) (by omega))
          omega
        rw [hP, List.length_append, List.length_range', Nat.add_mul] at hcap
        rw [hP, List.length_append, List.length_range'] at hf
        have hmul : (64 * i1 + c0) * width + (64 * i2 + c1 - (64 * i1 + c0)) * width ≤ n * width := by
          rw [← Nat.add_mul]
          exact Nat.mul_le_mul_right _ (by omega)
        obtain ⟨m1, e3, hO1⟩ := hcpy us m ((64 * i1 + c0) * width) ((64 * i2 + c1 - (64 * i1 + c0)) * width) hOut hmul (by omega)
        rw [e3, Option.bind_some]
        have hlen : (us ++ sl ((64 * i1 + c0) * width) ((64 * i2 + c1 - (64 * i1 + c0)) * width)).length = us.length + (64 * i2 + c1 - (64 * i1 + c0)) * width := by
          rw [List.length_append, hsl.len _ _ hmul]
        obtain ⟨m2, e4, hO2⟩ := groupLoop_spec w wn width n cap sl Out hw hsl hn hcpy fuel k2 i2 (64 * i2 + c1) (wv2 &&& (wv2 + 1#64)) _ m1 (by omega)
          (by rcases b4 with ⟨_, _, h, _⟩ | ⟨_, h, _⟩ <;> omega) b2
          (by rcases b4 with ⟨h1, h2, _, _⟩ | ⟨h1, h2, _⟩
              · exact Or.inl ⟨h1, h2⟩
              · exact Or.inr (by omega))
          (by omega) hO1 (by rw [hlen]; omega)
        rw [hlen] at e4
        refine ⟨m2, e4, ?_⟩
        rw [hP, pickCells_append, ← slice_run hsl width _ _ (by rw [Nat.add_mul]; exact hmul), ← List.append_assoc]
        exact hO2
    · rw [if_neg hlt]
      refine ⟨m, rfl, ?_⟩
      have : (P (bitF w) pos (64 * wn - pos)).length = 0 := by
        rcases Nat.eq_zero_or_pos (P (bitF w) pos (64 * wn - pos)).length with h | h
        · exact h
        · have := Nat.mul_le_mul_right width h
          omega
      rw [List.eq_nil_of_length_eq_zero this]
      show Out (us ++ []) m
      rw [List.append_nil]
      exact hOut

theorem compressGroup_spec {M β} {cpy : M → Nat → Nat → Nat → Option M} (w : Nat → Word) (width wia n : Nat) (sl : Nat → Nat → List β)
    (Out : List β → M → Prop) (hw : 0 < width) (hsl : Slices sl (n * width)) (h0 : 0 < wia) (hn : wia ≤ n) (hx : Clean w wia) (m : M) (hO : Out [] m)
    (hcpy : ∀ us m xi l, Out us m → xi + l ≤ n * width → us.length + l ≤ cnt (bitF w) wia * width →
      ∃ m', cpy m us.length xi l = some m' ∧ Out (us ++ sl xi l) m') :
    ∃ m', compressGroup cpy w width wia (cnt (bitF w) wia) m = some m' ∧ Out (pickCells sl width (P (bitF w) 0 wia)) m' := by
  have hwn : (wia + 63) / 64 = (wia - 1) / 64 + 1 := by omega
  have hP := hx.P
  have hlen : (P (bitF w) 0 (64 * ((wia + 63) / 64) - 0)).length = cnt (bitF w) wia := by rw [Nat.sub_zero, hP, P_length0]
  obtain ⟨m', e, hO'⟩ := groupLoop_spec w ((wia + 63) / 64) width n (cnt (bitF w) wia * width) sl Out hw hsl
    (fun p h1 h2 => by
      rcases Nat.lt_or_ge p wia with h | h
      · omega
      · rw [hx p h h1] at h2
        cases h2) hcpy (cnt (bitF w) wia) ((wia - 1) / 64) 0 0 (w 0) [] m (by omega) (by omega) (by omega)
    (Or.inl ⟨by omega, fun j hj => by rw [decide_eq_true (by omega), Bool.true_and, bitF_word _ _ _ hj]⟩) (by omega) hO
    (by rw [hlen, List.length_nil]; omega)
  refine ⟨m', e, ?_⟩
  rw [Nat.sub_zero, hP] at hO'
  exact hO'

/-! ## Elements -/

def slice {α} (xs : List α) (a l : Nat) : List α := (xs.drop a).take l

theorem slices {α} (xs : List α) : Slices (slice xs) xs.length := by
  refine ⟨fun a l h => ?_, fun a l l' h => ?_⟩
  · unfold slice
    rw [List.length_take, List.length_drop]
    omega
  · unfold slice
    rw [List.take_add, List.drop_drop]

theorem compressGroup_mem {α} (w : Nat → Word) (xs m : List α) (width wia n : Nat) (hw : 0 < width) (hlen : xs.length = n * width) (h0 : 0 < wia) (hn : wia ≤ n)
    (hx : Clean w wia) (hm : m.length = cnt (bitF w) wia * width) :
    compressGroup (memCpy xs) w width wia (cnt (bitF w) wia) m = some (pickCells (slice xs) width (P (bitF w) 0 wia)) := by
  have hsl := slices xs
  rw [hlen] at hsl
  obtain ⟨m', e, h⟩ := compressGroup_spec (cpy := memCpy xs) w width wia n (slice xs) (fun us m' => Ext m 0 us m') hw hsl h0 hn hx m (Ext.nil (by omega))
    (fun us m1 xi l hO h1 h2 => by
      obtain ⟨m2, e, hx⟩ := memCpy_spec (xs := xs) (m := m1) (ri := us.length) (xi := xi) (l := l) (by omega) (by rw [hO.len]; omega)
      refine ⟨m2, e, hO.append ?_⟩
      rw [Nat.zero_add]
      exact hx)
  rw [e, h.all]
  rw [pickCells_length hsl width _ (fun p hp => Nat.mul_le_mul_right _ (by have := P_mem hp; omega)), P_length0, hm]

theorem compressGet_spec {α} (w : Nat → Word) (xs : List α) (width n : Nat) (hlen : xs.length = n * width) : ∀ (k i : Nat) (m : List α) (p : Nat),
    i + k ≤ n → p + cnt (fun j => bitF w (i + j)) k * width ≤ m.length →
    ∃ m', compressGet w xs width k i m p = some m' ∧ Ext m p (pickCells (slice xs) width (P (bitF w) i k)) m'
  | 0, i, m, p, _, hp => ⟨m, rfl, Ext.nil (by rw [cnt] at hp; omega)⟩
  | k + 1, i, m, p, hk, hp => by
    have hsh : cnt (fun j => bitF w (i + j)) (k + 1) = (if bitF w i then 1 else 0) + cnt (fun j => bitF w (i + 1 + j)) k := by
      rw [cnt_shift, Nat.add_zero]
      congr 1
      exact cnt_congr fun j _ => by rw [show i + (j + 1) = i + 1 + j by omega]
    rw [compressGet, P_succ, pickCells_append]
    rw [hsh, Nat.add_mul] at hp
    by_cases hb : bitF w i = true
    · rw [if_pos hb] at hp ⊢
      rw [if_pos hb]
      rw [Nat.one_mul] at hp
      have hmul : i * width + width ≤ xs.length := by
        rw [hlen, ← Nat.succ_mul]
        exact Nat.mul_le_mul_right _ (by omega)
      obtain ⟨m1, e1, x1⟩ := memCpy_spec (xs := xs) (m := m) (ri := p) (xi := i * width) (l := width) hmul (by omega)
      obtain ⟨m2, e2, x2⟩ := compressGet_spec w xs width n hlen k (i + 1) m1 (p + width) (by omega) (by rw [x1.len]; omega)
      rw [e1, Option.bind_some, e2]
      refine ⟨m2, rfl, ?_⟩
      have : pickCells (slice xs) width [i] = slice xs (i * width) width := by simp [pickCells]
      rw [this]
      refine Ext.append x1 ?_
      have hl : (slice xs (i * width) width).length = width := (slices xs).len _ _ hmul
      rw [hl]
      exact x2
    · rw [if_neg hb] at hp ⊢
      rw [if_neg hb]
      obtain ⟨m2, e2, x2⟩ := compressGet_spec w xs width n hlen k (i + 1) m p (by omega) (by omega)
      exact ⟨m2, e2, x2⟩

/-! ## Bits -/

/-- The first bits in memory. -/
def BitsOut (cap : Nat) (us : List Bool) (m : List Word) : Prop := m.length = cap ∧ us.length ≤ 64 * cap ∧ ∀ t, t < us.length → us[t]? = some (bitL m t)

theorem bitCpy_spec (x : Nat → Word) {cap : Nat} {us : List Bool} {m : List Word} (h : BitsOut cap us m) (xi l : Nat) (hc : us.length + l ≤ 64 * cap) :
    ∃ m', bitCpy x m us.length xi l = some m' ∧ BitsOut cap (us ++ firstN (fun i => bitF x (xi + i)) l) m' := by
  unfold bitCpy
  dsimp only
  have hlog : ((BitCopy.bit_cpy (fun i => m.getD i 0#64) us.length (fun i => x i.toNat) xi l).log.all fun i => decide (i < m.length)) = true := by
    rw [List.all_eq_true]
    intro k hk
    obtain ⟨i, h1, h2, h3⟩ := BitCopy.bit_cpy_writes _ _ _ _ _ _ hk
    rw [h.1]
    exact decide_eq_true (by omega)
  rw [if_pos hlog]
  refine ⟨_, rfl, by rw [List.length_map, List.length_range, h.1], by rw [List.length_append, length_firstN]; omega, fun t ht => ?_⟩
  rw [List.length_append, length_firstN] at ht
  have hget : bitL ((List.range m.length).map (BitCopy.bit_cpy (fun i => m.getD i 0#64) us.length (fun i => x i.toNat) xi l).mem) t =
      bitF (BitCopy.bit_cpy (fun i => m.getD i 0#64) us.length (fun i => x i.toNat) xi l).mem t := by
    unfold bitL bitF
    rw [List.getD_eq_getElem?_getD, List.getElem?_map, List.getElem?_range (by rw [h.1]; omega)]
    rfl
  rw [hget, BitCopy.bit_cpy_correct]
  rcases Nat.lt_or_ge t us.length with h1 | h1
  · rw [if_neg (by omega), List.getElem?_append_left h1, h.2.2 t h1]
    rfl
  · rw [if_pos (by omega), List.getElem?_append_right h1, getElem?_firstN, if_pos (by omega)]
    rfl

theorem slices_bits (x : Nat → Word) (N : Nat) : Slices (fun a l => firstN (fun i => bitF x (a + i)) l) N := by
  refine ⟨fun a l _ => length_firstN _ _, fun a l l' _ => ?_⟩
  rw [firstN_add]
  congr 1
  exact firstN_congr fun i _ => by rw [Nat.add_assoc]

theorem compressGroup_bits (w x : Nat → Word) (m : List Word) (width wia : Nat) (hw : 0 < width) (h0 : 0 < wia) (hx : Clean w wia)
    (hm : m.length = (cnt (bitF w) wia * width + 63) / 64) :
    ∃ m', compressGroup (bitCpy x) w width wia (cnt (bitF w) wia) m = some m' ∧
      listL m' (cnt (bitF w) wia * width) = pickCells (fun a l => firstN (fun i => bitF x (a + i)) l) width (P (bitF w) 0 wia) := by
  have hsl := slices_bits x (wia * width)
  obtain ⟨m', e, h⟩ := compressGroup_spec (cpy := bitCpy x) w width wia wia _ (BitsOut m.length) hw hsl h0 (Nat.le_refl _) hx m ⟨rfl, by simp, fun t ht => absurd ht (Nat.not_lt_zero t)⟩
    (fun us m1 xi l hO h1 h2 => bitCpy_spec x hO xi l (by omega))
  refine ⟨m', e, ?_⟩
  have hl := pickCells_length hsl width (P (bitF w) 0 wia) (fun p hp => Nat.mul_le_mul_right _ (by have := P_mem hp; omega))
  rw [P_length0] at hl
  apply List.ext_getElem?
  intro t
  rw [getElem?_firstN]
  split
  · rename_i ht
    rw [h.2.2 t (by omega)]
  · rw [List.getElem?_eq_none (by omega)]

/-- What `compress` of booleans has written: whole words, and the rest at the top of `o`. -/
def Packed (cap : Nat) (us : List Bool) (o : Word) (j : Nat) (m : List Word) : Prop :=
  us.length = j ∧ m.length = cap ∧ (∀ t, t < 64 * (j / 64) → us[t]? = some (bitL m t)) ∧
    ∀ t, t < j % 64 → us[64 * (j / 64) + t]? = some (o.getLsbD (64 - j % 64 + t))

theorem packWord_spec (x : Word) (cap : Nat) : ∀ (fuel : Nat) (v o : Word) (j : Nat) (m : List Word) (us : List Bool), cnt v.getLsbD 64 ≤ fuel →
    j + cnt v.getLsbD 64 ≤ 64 * cap + 63 → (j + cnt v.getLsbD 64) / 64 ≤ cap → Packed cap us o j m →
    ∃ o' m', packWord x fuel v o j m = some (o', j + cnt v.getLsbD 64, m') ∧
      Packed cap (us ++ (P v.getLsbD 0 64).map x.getLsbD) o' (j + cnt v.getLsbD 64) m' := by
  intro fuel
  induction fuel with
  | zero =>
    intro v o j m us hf _ _ hI
    have hP : P v.getLsbD 0 64 = [] := List.eq_nil_of_length_eq_zero (by rw [P_length0]; omega)
    have hc : cnt v.getLsbD 64 = 0 := by omega
    have hz : v = 0#64 := by
      by_cases hz : v = 0#64
      · exact hz
      · obtain ⟨c, hc⟩ := CTZ_isSome hz
        obtain ⟨c1, c2, c3⟩ := CTZ_spec hc
        rw [P_first c1 c2 c3] at hP
        cases hP
    unfold packWord
    rw [if_pos hz, hP, hc, List.map_nil, List.append_nil]
    exact ⟨o, m, rfl, hI⟩
  | succ fuel ih =>
    intro v o j m us hf hcap hcap2 hI
    unfold packWord
    by_cases hz : v = 0#64
    · rw [if_pos hz]
      have hc : cnt v.getLsbD 64 = 0 := by rw [hz]; decide
      have hP : P v.getLsbD 0 64 = [] := List.eq_nil_of_length_eq_zero (by rw [P_length0]; omega)
      rw [hP, hc, List.map_nil, List.append_nil]
      exact ⟨o, m, rfl, hI⟩
    · rw [if_neg hz]
      obtain ⟨c, hc⟩ := CTZ_isSome hz
      obtain ⟨c1, c2, c3⟩ := CTZ_spec hc
      have hP : P v.getLsbD 0 64 = c :: P (v &&& (v - 1#64)).getLsbD 0 64 := by
        rw [P_first c1 c2 c3]
        congr 1
        exact P_congr fun k _ _ => (clear_lowest v c2 c3 k).symm
      have hn : cnt v.getLsbD 64 = cnt (v &&& (v - 1#64)).getLsbD 64 + 1 := by
        rw [← P_length0, hP, List.length_cons, P_length0]
      dsimp only
      rw [hc, Option.bind_some]
      generalize hO : (o >>> 1) ||| ((x >>> c) <<< 63) = O
      have hObit : ∀ t, t < 63 → O.getLsbD t = o.getLsbD (1 + t) := by
        intro t ht
        rw [← hO, BitVec.getLsbD_or, BitVec.getLsbD_ushiftRight, BitVec.getLsbD_shiftLeft, decide_eq_true ht]
        simp
      have hO63 : O.getLsbD 63 = x.getLsbD c := by
        rw [← hO, BitVec.getLsbD_or, BitVec.getLsbD_ushiftRight, BitVec.getLsbD_shiftLeft]
        simp
      obtain ⟨I1, I2, I3, I4⟩ := hI
      -- the new bit is at the top of `O`, after the others
      have hnew : ∀ t, t < j % 64 + 1 → (us ++ [x.getLsbD c])[64 * (j / 64) + t]? = some (O.getLsbD (64 - (j % 64 + 1) + t)) := by
        intro t ht
        rcases Nat.lt_or_ge t (j % 64) with h | h
        · rw [List.getElem?_append_left (by omega), I4 t h, hObit _ (by omega)]
          congr 2
          omega
        · have e : t = j % 64 := by omega
          subst e
          rw [List.getElem?_append_right (by omega), show 64 * (j / 64) + j % 64 - us.length = 0 by omega, show 64 - (j % 64 + 1) + j % 64 = 63 by omega, hO63]
          rfl
      have step : ∃ m1, (if (j + 1) % 64 = 0 then wr m ((j + 1) / 64 - 1) O else some m) = some m1 ∧ Packed cap (us ++ [x.getLsbD c]) O (j + 1) m1 := by
        by_cases h64 : (j + 1) % 64 = 0
        · rw [if_pos h64]
          have hb : (j + 1) / 64 - 1 < m.length := by omega
          refine ⟨_, wr_some hb O, by rw [List.length_append]; simp; omega, by rw [List.length_set, I2], fun t ht => ?_, fun t ht => by omega⟩
          unfold bitL
          rcases Nat.lt_or_ge t (64 * (j / 64)) with h | h
          · rw [List.getElem?_append_left (by omega), I3 t h]
            unfold bitL
            rw [List.getD_eq_getElem?_getD, List.getD_eq_getElem?_getD, List.getElem?_set_ne (by omega)]
          · have := hnew (t - 64 * (j / 64)) (by omega)
            rw [show 64 * (j / 64) + (t - 64 * (j / 64)) = t by omega] at this
            rw [this, List.getD_eq_getElem?_getD, show t / 64 = (j + 1) / 64 - 1 by omega, List.getElem?_set_self hb]
            show _ = some (O.getLsbD (t % 64))
            congr 2
            omega
        · rw [if_neg h64]
          refine ⟨m, rfl, by rw [List.length_append]; simp; omega, I2, fun t ht => ?_, fun t ht => ?_⟩
          · rw [List.getElem?_append_left (by omega)]
            exact I3 t (by omega)
          · have := hnew t (by omega)
            rw [show (j + 1) / 64 = j / 64 by omega, show (j + 1) % 64 = j % 64 + 1 by omega]
            exact this
      obtain ⟨m1, e1, hI1⟩ := step
      rw [e1, Option.bind_some]
      obtain ⟨o', m', e, h⟩ := ih (v &&& (v - 1#64)) O (j + 1) m1 (us ++ [x.getLsbD c]) (by omega) (by omega) (by rw [hn] at hcap2; rwa [show j + 1 + cnt (v &&& (v - 1#64)).getLsbD 64 = j + (cnt (v &&& (v - 1#64)).getLsbD 64 + 1) by omega]) hI1
      have ej : j + 1 + cnt (v &&& (v - 1#64)).getLsbD 64 = j + cnt v.getLsbD 64 := by omega
      rw [ej] at e h
      refine ⟨o', m', e, ?_⟩
      rw [hP, List.map_cons]
      rw [List.append_assoc] at h
      exact h

theorem packWords_spec (w x : Nat → Word) (cap : Nat) : ∀ (k i : Nat) (o : Word) (j : Nat) (m : List Word) (us : List Bool),
    (j + cnt (fun t => bitF w (64 * i + t)) (64 * k)) / 64 ≤ cap → Packed cap us o j m →
    ∃ o' m', packWords w x k i o j m = some (o', j + cnt (fun t => bitF w (64 * i + t)) (64 * k), m') ∧
      Packed cap (us ++ (P (bitF w) (64 * i) (64 * k)).map (bitF x)) o' (j + cnt (fun t => bitF w (64 * i + t)) (64 * k)) m'
  | 0, i, o, j, m, us, _, hI => ⟨o, m, rfl, by rw [Nat.mul_zero, P_zero, List.map_nil, List.append_nil]; exact hI⟩
  | k + 1, i, o, j, m, us, hcap, hI => by
    have hw : ∀ t, t < 64 → bitF w (64 * i + t) = (w i).getLsbD t := fun t ht => bitF_word w i t ht
    have hs : cnt (fun t => bitF w (64 * i + t)) (64 * (k + 1)) = cnt (w i).getLsbD 64 + cnt (fun t => bitF w (64 * (i + 1) + t)) (64 * k) := by
      rw [show 64 * (k + 1) = 64 + 64 * k by omega, cnt_add, cnt_congr hw]
      congr 1
      exact cnt_congr fun t _ => by rw [show 64 * i + (64 + t) = 64 * (i + 1) + t by omega]
    have hl := cnt_le (w i).getLsbD 64
    rw [packWords]
    rw [hs] at hcap ⊢
    obtain ⟨o1, m1, e1, h1⟩ := packWord_spec (x i) cap 64 (w i) o j m us hl (by omega) (by omega) hI
    rw [e1, Option.bind_some]
    obtain ⟨o2, m2, e2, h2⟩ := packWords_spec w x cap k (i + 1) o1 (j + cnt (w i).getLsbD 64) m1 _ (by rw [Nat.add_assoc]; exact hcap) h1
    rw [Nat.add_assoc] at e2 h2
    refine ⟨o2, m2, e2, ?_⟩
    rw [show 64 * (k + 1) = 64 + 64 * k by omega, P_add, List.map_append, ← List.append_assoc, show 64 * i + 64 = 64 * (i + 1) by omega]
    have : (P (bitF w) (64 * i) 64).map (bitF x) = (P (w i).getLsbD 0 64).map (x i).getLsbD := by
      have h := P_shift (bitF w) (64 * i) 0 64
      rw [Nat.add_zero] at h
      rw [h, P_congr (fun t _ ht => hw t (by omega)), List.map_map]
      apply List.map_congr_left
      intro t ht
      have := P_mem ht
      exact bitF_word x i t (by omega)
    rw [this]
    exact h2

theorem compressBits_spec (w x : Nat → Word) (wia : Nat) (junk : Nat → Word) (hx : Clean w wia) :
    ∃ m', compressBits w x wia (cnt (bitF w) wia) junk = some m' ∧ listL m' (cnt (bitF w) wia) = (P (bitF w) 0 wia).map (bitF x) := by
  have hc : cnt (fun t => bitF w (64 * 0 + t)) (64 * ((wia + 63) / 64)) = cnt (bitF w) wia := by
    rw [← hx.cnt]
    exact cnt_congr fun t _ => by rw [Nat.mul_zero, Nat.zero_add]
  obtain ⟨o, m, e, I1, I2, I3, I4⟩ := packWords_spec w x ((cnt (bitF w) wia + 63) / 64) ((wia + 63) / 64) 0 0#64 0 (fresh junk ((cnt (bitF w) wia + 63) / 64)) []
    (by rw [hc]; omega) ⟨rfl, length_fresh _ _, fun t ht => by omega, fun t ht => by omega⟩
  rw [hc, Nat.zero_add] at e I1 I3 I4
  rw [Nat.mul_zero, hx.P, List.nil_append] at I1 I3 I4
  unfold compressBits
  rw [e, Option.bind_some]
  dsimp only
  generalize cnt (bitF w) wia = s at *
  by_cases hq : (64 - s % 64) % 64 ≠ 0
  · rw [if_pos hq]
    have hb : s / 64 < m.length := by omega
    refine ⟨_, wr_some hb _, ?_⟩
    apply List.ext_getElem?
    intro t
    rw [getElem?_firstN]
    split
    · rename_i ht
      unfold bitL
      rcases Nat.lt_or_ge t (64 * (s / 64)) with h | h
      · rw [I3 t h, List.getD_eq_getElem?_getD, List.getElem?_set_ne (by omega)]
        unfold bitL
        rw [List.getD_eq_getElem?_getD]
      · have := I4 (t - 64 * (s / 64)) (by omega)
        rw [show 64 * (s / 64) + (t - 64 * (s / 64)) = t by omega] at this
        rw [this, List.getD_eq_getElem?_getD, show t / 64 = s / 64 by omega, List.getElem?_set_self hb]
        show some ((o >>> ((64 - s % 64) % 64)).getLsbD (t % 64)) = _
        rw [BitVec.getLsbD_ushiftRight]
        congr 2
        omega
    · exact (List.getElem?_eq_none (by omega)).symm
  · rw [if_neg hq]
    refine ⟨m, rfl, ?_⟩
    apply List.ext_getElem?
    intro t
    rw [getElem?_firstN]
    split
    · rw [I3 t (by omega)]
    · exact (List.getElem?_eq_none (by omega)).symm

end Verif.Slash
