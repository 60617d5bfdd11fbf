import Verif.Reshape.Model
import Verif.BitCopy.Lemmas
/-!
# Lemmas about filling a reshaped array
-/
namespace Verif.Reshape
open Verif.Bits

theorem elem_bit (m : Mem) (w i j : Nat) (hj : j < w) : (elem m w i).getLsbD j = m (w * i + j) := by
  unfold elem
  rw [BitVec.getLsbD_setWidth, BitVec.getLsbD_ofBoolListLE, List.getD_eq_getElem?_getD, getElem?_firstN, if_pos hj]
  simp [hj]

theorem word_bit (m : Mem) (i j : Nat) (hj : j < 64) : (word m i).getLsbD j = m (64 * i + j) := elem_bit m 64 i j hj

/-! ## Copying bits within an array -/

/-- The memory after the bits from `rs` up to `t` are copied. -/
def upTo (m : Mem) (rs t : Nat) : Mem := fun k => if rs ≤ k ∧ k < t then m (k - rs) else m k

theorem upTo_le (m : Mem) (rs t : Nat) (h : t ≤ rs) : upTo m rs t = m := by
  funext k
  unfold upTo
  rw [if_neg (by omega)]

theorem READ_upTo (before : Int → Word) (m : Mem) (rs t ti j : Nat) (hj : j < 64) (h1 : rs ≤ 64 * ti + j) (h2 : 64 * ti + j < rs + rs) :
    (READ before (upTo m rs t) rs ti).getLsbD j = m (64 * ti + j - rs) := by
  unfold READ
  rw [BitCopy.READ_bit _ _ _ _ hj]
  unfold BitCopy.bitZ
  have hp : (64 * (ti : Int) + j + -(rs : Int)) = ((64 * ti + j - rs : Nat) : Int) := by omega
  rw [hp]
  generalize hq : 64 * ti + j - rs = p
  have h3 : ((p : Int) / 64) = ((p / 64 : Nat) : Int) := by omega
  have h4 : ((p : Int) % 64).toNat = p % 64 := by omega
  rw [h3, h4]
  simp only
  rw [if_neg (by omega), Int.toNat_natCast, word_bit _ _ _ (Nat.mod_lt _ (by decide)), Nat.div_add_mod]
  unfold upTo
  rw [if_neg (by omega)]

theorem store_upTo (lim : Nat) (m : Mem) (rs t0 ti t : Nat) (v : Word) (hlim : 8 * ti + 8 ≤ lim) (ht1 : t0 ≤ t) (ht : t ≤ 64 * ti + 64) (ht0 : 64 * ti ≤ t0 ∨ t0 ≤ rs ∧ 64 * ti ≤ rs)
    (hv : ∀ j, j < 64 → v.getLsbD j = upTo m rs t (64 * ti + j)) : store lim (upTo m rs t0) ti v = some (upTo m rs t) := by
  unfold store
  rw [if_pos hlim]
  congr 1
  funext k
  by_cases hk : k / 64 = ti
  · rw [if_pos hk, hv _ (Nat.mod_lt _ (by decide))]
    congr 1
    omega
  · rw [if_neg hk]
    unfold upTo
    by_cases h : rs ≤ k ∧ k < t0
    · rw [if_pos h, if_pos (by omega)]
    · rw [if_neg h, if_neg (by omega)]

theorem copyWords_ok (lim : Nat) (before : Int → Word) (m : Mem) (rs : Nat) (n : Nat) : ∀ ti t0, (t0 = 64 * ti ∨ t0 ≤ rs ∧ 64 * ti = rs) → rs ≤ 64 * ti → 64 * (ti + n) ≤ rs + rs → 8 * (ti + n) ≤ lim →
    copyWords lim before rs n ti (upTo m rs t0) = some (upTo m rs (if n = 0 then t0 else 64 * (ti + n))) := by
  induction n with
  | zero => intro ti t0 _ _ _ _; rfl
  | succ n ih =>
    intro ti t0 h0 h1 h2 h3
    rw [copyWords, store_upTo lim m rs t0 ti (64 * (ti + 1)) _ (by omega) (by omega) (by omega) (by omega)]
    · rw [Option.bind_some, ih (ti + 1) _ (.inl rfl) (by omega) (by omega) (by omega)]
      congr 2
      rw [if_neg (Nat.succ_ne_zero n)]
      split <;> omega
    · intro j hj
      rw [READ_upTo before m rs t0 ti j hj (by omega) (by omega)]
      unfold upTo
      rw [if_pos (by omega)]

theorem bitCpy_ok (lim : Nat) (before : Int → Word) (m : Mem) (rs l : Nat) (hl : l ≤ rs) (hlim : rs + l ≤ 8 * lim) (h8 : 8 ∣ lim) :
    bitCpy lim before m rs l = some (upTo m rs (rs + l)) := by
  obtain ⟨nw, rfl⟩ := h8
  have hm0 : upTo m rs rs = m := upTo_le m rs rs (Nat.le_refl _)
  have e1 : rs >>> 6 = rs / 64 := Nat.shiftRight_eq_div_pow rs 6
  have e2 : (rs + l) >>> 6 = (rs + l) / 64 := Nat.shiftRight_eq_div_pow (rs + l) 6
  unfold bitCpy
  simp only [e1, e2]
  by_cases hne : rs / 64 ≠ (rs + l) / 64
  · rw [if_pos hne]
    have first : (if rs % 64 ≠ 0 then
        (store (8 * nw) m (rs / 64) ((READ before m rs (rs / 64) &&& ~~~BitCopy.mask (rs % 64)) ||| (word m (rs / 64) &&& BitCopy.mask (rs % 64)))).map fun m => (m, rs / 64 + 1)
        else some (m, rs / 64)) = some (if rs % 64 ≠ 0 then (upTo m rs (64 * (rs / 64 + 1)), rs / 64 + 1) else (m, rs / 64)) := by
      by_cases hr : rs % 64 ≠ 0
      · rw [if_pos hr, if_pos hr]
        have := store_upTo (8 * nw) m rs rs (rs / 64) (64 * (rs / 64 + 1)) ((READ before m rs (rs / 64) &&& ~~~BitCopy.mask (rs % 64)) ||| (word m (rs / 64) &&& BitCopy.mask (rs % 64)))
          (by omega) (by omega) (by omega) (by omega) ?_
        · rw [hm0] at this
          rw [this]; rfl
        · intro j hj
          rw [BitVec.getLsbD_or, BitVec.getLsbD_and, BitVec.getLsbD_and, BitVec.getLsbD_not, BitCopy.mask_bit _ (Nat.mod_lt _ (by decide)), word_bit _ _ _ hj]
          unfold upTo
          by_cases hc : j < rs % 64
          · rw [if_neg (by omega)]
            simp [hc]
          · rw [if_pos (by omega)]
            have := READ_upTo before m rs rs (rs / 64) j hj (by omega) (by omega)
            rw [hm0] at this
            rw [this]
            simp [hc, hj]
      · rw [if_neg hr, if_neg hr]
    rw [first, Option.bind_some]
    -- the whole words
    have mid : ∃ t0, (copyWords (8 * nw) before rs ((rs + l) / 64 - (if rs % 64 ≠ 0 then (upTo m rs (64 * (rs / 64 + 1)), rs / 64 + 1) else (m, rs / 64)).2)
        (if rs % 64 ≠ 0 then (upTo m rs (64 * (rs / 64 + 1)), rs / 64 + 1) else (m, rs / 64)).2
        (if rs % 64 ≠ 0 then (upTo m rs (64 * (rs / 64 + 1)), rs / 64 + 1) else (m, rs / 64)).1) = some (upTo m rs t0) ∧ (t0 = 64 * ((rs + l) / 64)) := by
      by_cases hr : rs % 64 ≠ 0
      · rw [if_pos hr]
        simp only
        rw [copyWords_ok (8 * nw) before m rs _ (rs / 64 + 1) _ (.inl rfl) (by omega) (by omega) (by omega)]
        exact ⟨_, rfl, by split <;> omega⟩
      · rw [if_neg hr]
        simp only
        have := copyWords_ok (8 * nw) before m rs ((rs + l) / 64 - rs / 64) (rs / 64) rs (by omega) (by omega) (by omega) (by omega)
        rw [hm0] at this
        rw [this]
        exact ⟨_, rfl, by split <;> omega⟩
    obtain ⟨t0, hmid, ht0⟩ := mid
    rw [hmid, Option.bind_some]
    subst ht0
    by_cases hr : (rs + l) % 64 ≠ 0
    · rw [if_pos hr]
      apply store_upTo <;> try omega
      intro j hj
      rw [BitVec.getLsbD_or, BitVec.getLsbD_and, BitVec.getLsbD_and, BitVec.getLsbD_not, BitCopy.mask_bit _ (Nat.mod_lt _ (by decide)), word_bit _ _ _ hj]
      unfold upTo
      by_cases hc : j < (rs + l) % 64
      · rw [if_pos (by omega : rs ≤ 64 * ((rs + l) / 64) + j ∧ 64 * ((rs + l) / 64) + j < rs + l)]
        have := READ_upTo before m rs (64 * ((rs + l) / 64)) ((rs + l) / 64) j hj (by omega) (by omega)
        unfold upTo at this
        rw [this]
        simp [hc]
      · rw [if_neg (by omega : ¬(rs ≤ 64 * ((rs + l) / 64) + j ∧ 64 * ((rs + l) / 64) + j < rs + l)), if_neg (by omega)]
        simp [hc, hj]
    · rw [if_neg hr]
      congr 2
      omega
  · rw [if_neg hne]
    by_cases hne2 : rs ≠ rs + l
    · rw [if_pos hne2]
      have := store_upTo (8 * nw) m rs rs (rs / 64) (rs + l)
        ((READ before m rs (rs / 64) &&& (BitCopy.mask (rs % 64) ^^^ BitCopy.mask ((rs + l) % 64))) ||| (word m (rs / 64) &&& ~~~(BitCopy.mask (rs % 64) ^^^ BitCopy.mask ((rs + l) % 64))))
        (by omega) (by omega) (by omega) (by omega) ?_
      · rw [hm0] at this; exact this
      · intro j hj
        rw [BitVec.getLsbD_or, BitVec.getLsbD_and, BitVec.getLsbD_and, BitVec.getLsbD_not, BitVec.getLsbD_xor, BitCopy.mask_bit _ (Nat.mod_lt _ (by decide)),
          BitCopy.mask_bit _ (Nat.mod_lt _ (by decide)), word_bit _ _ _ hj]
        unfold upTo
        by_cases hc : rs % 64 ≤ j ∧ j < (rs + l) % 64
        · rw [if_pos (by omega)]
          have := READ_upTo before m rs rs (rs / 64) j hj (by omega) (by omega)
          rw [hm0] at this
          rw [this]
          have h1 : ¬ j < rs % 64 := by omega
          simp [hc.2, h1]
        · rw [if_neg (by omega)]
          by_cases h1 : j < rs % 64
          · have h2 : j < (rs + l) % 64 := by omega
            simp [h1, h2, hj]
          · have h2 : ¬ j < (rs + l) % 64 := by omega
            simp [h1, h2, hj]
    · rw [if_neg hne2]
      rw [upTo_le m rs (rs + l) (by omega)]

/-! ## Repeated bits -/

/-- The first `n` bits of `m` are those of `x` repeated with period `p`. -/
def Per (x : Mem) (p n : Nat) (m : Mem) : Prop := ∀ k, k < n → m k = x (k % p)

/-- The low `b` bits of a word are those of `x` repeated, the others are zero. -/
def WPer (x : Mem) (p b : Nat) (v : Word) : Prop := ∀ k, k < 64 → v.getLsbD k = (decide (k < b) && x (k % p))

theorem sub_mod_of_dvd {k b p : Nat} (h : p ∣ b) (hb : b ≤ k) : (k - b) % p = k % p := by
  obtain ⟨q, rfl⟩ := h
  rw [Nat.sub_mul_mod hb]

theorem WPer.double {x : Mem} {p b : Nat} {v : Word} (h : WPer x p b v) (hp : p ∣ b) : WPer x p (b * 2) (v ||| (v <<< b)) := by
  intro k hk
  rw [BitVec.getLsbD_or, BitVec.getLsbD_shiftLeft, h k hk]
  by_cases hb : k < b
  · have : k < b * 2 := by omega
    simp [hb, this]
  · rw [h (k - b) (by omega), sub_mod_of_dvd hp (by omega)]
    by_cases h2 : k < b * 2
    · have : k - b < b := by omega
      simp [hb, h2, hk, this]
    · have : ¬ k - b < b := by omega
      simp [hb, h2, this]

theorem grow_ok (x : Mem) (p : Nat) : ∀ fuel b v, 64 ≤ b * 2 ^ fuel → 0 < b → b < 64 → p ∣ b → WPer x p b v →
    ∃ c, p ∣ c ∧ 0 < c ∧ c < 64 ∧ (grow fuel v b).2 = c * 2 ∧ WPer x p (c * 2) (grow fuel v b).1 ∧ (c * 2 % 8 = 0 ∨ 64 ≤ c * 2) := by
  intro fuel
  induction fuel with
  | zero => intro b v h _ _ _ _; simp at h; omega
  | succ fuel ih =>
    intro b v h h0 hb hp hv
    have hd := hv.double hp
    rw [grow]
    split
    · rename_i hc
      exact ih (b * 2) _ (by rw [Nat.pow_succ] at h; have := Nat.mul_assoc b 2 (2 ^ fuel); rw [Nat.mul_comm 2] at this; omega) (by omega) hc.2 (Nat.dvd_trans hp (Nat.dvd_mul_right _ _)) hd
    · exact ⟨b, hp, h0, hb, rfl, hd, by omega⟩

theorem fillOut_ok (x : Mem) (p : Nat) : ∀ fuel b v, 64 ≤ b * 2 ^ fuel → p ∣ b → b ∣ 64 → WPer x p b v → ∀ k, k < 64 → (fillOut fuel v b).getLsbD k = x (k % p) := by
  intro fuel
  induction fuel with
  | zero =>
    intro b v h _ _ hv k hk
    rw [fillOut, hv k hk]
    simp at h
    have : k < b := by omega
    simp [this]
  | succ fuel ih =>
    intro b v h hp hb hv k hk
    rw [fillOut]
    split
    · rename_i hlt
      refine ih (b * 2) _ ?_ (Nat.dvd_trans hp (Nat.dvd_mul_right _ _)) ?_ (hv.double hp) k hk
      · rw [Nat.pow_succ] at h
        have := Nat.mul_assoc b 2 (2 ^ fuel)
        rw [Nat.mul_comm 2] at this
        omega
      · obtain ⟨q, hq⟩ := hb
        have hb64 : b < 64 := hlt
        have : ∀ b' < 64, ∀ q' < 65, 64 = b' * q' → (b' * 2) ∣ 64 := by decide
        refine this b hb64 q ?_ hq
        rcases Nat.eq_zero_or_pos b with h | h
        · rw [h] at hq; simp at hq
        · have := Nat.le_mul_of_pos_left q h; omega
    · rename_i hge
      rw [hv k hk]
      have : k < b := by omega
      simp [this]

theorem fillLoop_ok (lim : Nat) (v : Word) (n : Nat) : ∀ i m, 8 * (i + n) ≤ lim → ∃ m', fillLoop lim v n i m = some m' ∧ ∀ k, m' k = if 64 * i ≤ k ∧ k < 64 * (i + n) then v.getLsbD (k % 64) else m k := by
  induction n with
  | zero => intro i m _; exact ⟨m, rfl, fun k => by rw [if_neg (by omega)]⟩
  | succ n ih =>
    intro i m h
    rw [fillLoop, store, if_pos (by omega), Option.bind_some]
    obtain ⟨m', h1, h2⟩ := ih (i + 1) (fun k => if k / 64 = i then v.getLsbD (k % 64) else m k) (by omega)
    refine ⟨m', h1, fun k => ?_⟩
    rw [h2]
    by_cases hk : k / 64 = i
    · rw [if_neg (by omega), if_pos hk, if_pos (by omega)]
    · rw [if_neg hk]
      by_cases hc : 64 * (i + 1) ≤ k ∧ k < 64 * (i + 1 + n)
      · rw [if_pos hc, if_pos (by omega)]
      · rw [if_neg hc, if_neg (by omega)]

theorem fillWords_ok (lim : Nat) (m : Mem) (v : Word) (bytes : Nat) (h : bytes ≤ lim) : ∃ m', fillWords lim m v bytes = some m' ∧ ∀ k, k < 8 * bytes → m' k = v.getLsbD (k % 64) := by
  obtain ⟨m1, h1, h2⟩ := fillLoop_ok lim v (bytes / 8) 0 m (by omega)
  unfold fillWords
  rw [h1, Option.bind_some]
  split
  · refine ⟨_, rfl, fun k hk => ?_⟩
    by_cases hc : 64 * (bytes / 8) ≤ k
    · rw [if_pos ⟨hc, hk⟩]
      congr 1
      omega
    · rw [if_neg (by omega), h2, if_pos (by omega)]
  · exact ⟨_, rfl, fun k hk => by rw [h2, if_pos (by omega)]⟩

/-! ## The bytes -/

theorem memcpySelf_ok {x : Mem} {p lim d n : Nat} {m : Mem} (h1 : d + n ≤ lim) (h2 : n ≤ d) (hp : p ∣ 8 * d) (hm : Per x p (8 * d) m) :
    ∃ m', memcpySelf lim m d n = some m' ∧ Per x p (8 * (d + n)) m' ∧ ∀ k, k < 8 * d → m' k = m k := by
  unfold memcpySelf
  rw [if_pos ⟨h1, .inr h2⟩]
  refine ⟨_, rfl, fun k hk => ?_, fun k hk => by rw [if_neg (by omega)]⟩
  by_cases hc : 8 * d ≤ k ∧ k < 8 * (d + n)
  · simp only [if_pos hc]
    rw [hm _ (by omega), sub_mod_of_dvd hp hc.1]
  · simp only [if_neg hc]
    exact hm k (by omega)

theorem doubleBytes_ok {x : Mem} {p lim l : Nat} (hl : l ≤ lim) : ∀ fuel bi m, l < bi * 2 ^ fuel → 0 < bi → p ∣ 8 * bi → Per x p (8 * bi) m →
    ∃ bi' m', doubleBytes lim l (fuel + 1) bi m = some (bi', m') ∧ 0 < bi' ∧ bi ≤ bi' ∧ p ∣ 8 * bi' ∧ Per x p (8 * bi') m' ∧ (bi ≤ l → bi' ≤ l) := by
  intro fuel
  induction fuel with
  | zero =>
    intro bi m h h0 hp hm
    rw [doubleBytes, if_neg (by simp at h; omega)]
    exact ⟨bi, m, rfl, h0, Nat.le_refl _, hp, hm, id⟩
  | succ fuel ih =>
    intro bi m h h0 hp hm
    rw [doubleBytes]
    split
    · rename_i hc
      obtain ⟨m1, e1, q1, _⟩ := memcpySelf_ok (n := bi) (lim := lim) (by omega) (Nat.le_refl _) hp hm
      rw [e1, Option.bind_some]
      have hp2 : p ∣ 8 * (bi + bi) := by rw [Nat.mul_add]; exact Nat.dvd_add hp hp
      obtain ⟨bi', m', a, b, c, d, e, f⟩ := ih (bi + bi) m1 (by rw [Nat.pow_succ] at h; rw [← Nat.two_mul, Nat.mul_comm 2 bi, Nat.mul_assoc, Nat.mul_comm 2]; exact h) (by omega) hp2 q1
      exact ⟨bi', m', a, b, by omega, d, e, fun _ => f (by omega)⟩
    · exact ⟨bi, m, rfl, h0, Nat.le_refl _, hp, hm, id⟩

theorem copyBlocks_ok {x : Mem} {p lim bi bf : Nat} (hbf : bf ≤ lim) (h0 : 0 < bi) (hpb : p ∣ 8 * bi) : ∀ fuel e m, bf < e + fuel → bi ≤ e → p ∣ 8 * e → Per x p (8 * e) m →
    ∃ e' m', copyBlocks lim bi bf (fuel + 1) e m = some (e', m') ∧ e ≤ e' ∧ bf < e' + bi ∧ p ∣ 8 * e' ∧ Per x p (8 * e') m' := by
  intro fuel
  induction fuel with
  | zero =>
    intro e m h hb hp hm
    rw [copyBlocks, if_neg (by omega)]
    exact ⟨e, m, rfl, Nat.le_refl _, by omega, hp, hm⟩
  | succ fuel ih =>
    intro e m h hb hp hm
    rw [copyBlocks]
    split
    · rename_i hc
      obtain ⟨m1, e1, q1, _⟩ := memcpySelf_ok (n := bi) (lim := lim) (by omega) hb hp hm
      rw [e1, Option.bind_some]
      have hp2 : p ∣ 8 * (e + bi) := by rw [Nat.mul_add]; exact Nat.dvd_add hp hpb
      obtain ⟨e', m', a, b, c, d, f⟩ := ih (e + bi) m1 (by omega) (by omega) hp2 q1
      exact ⟨e', m', a, by omega, c, d, f⟩
    · exact ⟨e, m, rfl, Nat.le_refl _, by omega, hp, hm⟩

theorem pow2_dvd64 {bi : Nat} (h0 : 0 < bi) (h8 : bi ≤ 8) (h : bi &&& (bi - 1) = 0) : bi * 8 ∣ 64 := by
  have : ∀ b, b < 9 → 0 < b → b &&& (b - 1) = 0 → b * 8 ∣ 64 := by decide
  exact this bi (by omega) h0 h

theorem finish_ok {x : Mem} {p lim bi bf : Nat} {m : Mem} (h0 : 0 < bi) (hbf : bf ≤ lim) (hle : bi ≤ bf) (hp : p ∣ 8 * bi) (hm : Per x p (8 * bi) m) :
    ∃ m', finish lim bi bf m = some m' ∧ Per x p (8 * bf) m' := by
  unfold finish
  by_cases hc : bi ≤ 8 ∧ bi &&& (bi - 1) = 0
  · rw [if_pos hc]
    simp only
    have hd := pow2_dvd64 h0 hc.1 hc.2
    have hp8 : p ∣ bi * 8 := by rw [Nat.mul_comm]; exact hp
    have hw : WPer x p (bi * 8) (word m 0 &&& (BitVec.allOnes 64 >>> (64 - bi * 8))) := by
      intro k hk
      rw [BitVec.getLsbD_and, word_bit _ _ _ hk, BitVec.getLsbD_ushiftRight, BitVec.getLsbD_allOnes]
      by_cases hkb : k < bi * 8
      · rw [hm (64 * 0 + k) (by omega)]
        have : 64 - bi * 8 + k < 64 := by omega
        simp [hkb, this]
      · have : ¬ 64 - bi * 8 + k < 64 := by omega
        simp [hkb, this]
    have hv := fillOut_ok x p 7 (bi * 8) _ (by omega) hp8 hd hw
    obtain ⟨m', e, h⟩ := fillWords_ok lim m (fillOut 7 (word m 0 &&& (BitVec.allOnes 64 >>> (64 - bi * 8))) (bi * 8)) bf hbf
    refine ⟨m', e, fun k hk => ?_⟩
    rw [h k hk, hv _ (Nat.mod_lt _ (by decide)), Nat.mod_mod_of_dvd _ (Nat.dvd_trans hp8 hd)]
  · rw [if_neg hc]
    simp only
    generalize hl : (if 2 ^ 15 > bf then bf else 2 ^ 15) = l
    have hll : l ≤ bf ∧ l ≤ 2 ^ 15 := by rw [← hl]; split <;> omega
    obtain ⟨b1, m1, e1, q1, q2, q3, q4, q5⟩ := doubleBytes_ok (lim := lim) (l := l) (by omega) 16 bi m (by omega) h0 hp hm
    rw [e1, Option.bind_some]
    simp only
    obtain ⟨e', m2, e2, r1, r2, r3, r4⟩ := copyBlocks_ok (lim := lim) (bf := bf) hbf q1 q3 bf b1 m1 (by omega) (Nat.le_refl _) q3 q4
    rw [e2, Option.bind_some]
    simp only
    split
    · obtain ⟨m3, e3, s1, _⟩ := memcpySelf_ok (n := bf - e') (lim := lim) (by omega) (by omega) r3 r4
      refine ⟨m3, e3, fun k hk => s1 k (by omega)⟩
    · exact ⟨m2, rfl, fun k hk => r4 k (by omega)⟩

/-- Nothing is done when there are enough bytes. -/
theorem finish_skip {lim bi bf : Nat} {m : Mem} (h0 : 8 ≤ bf) (hbf : bf ≤ lim) (hle : bf ≤ bi) : ∃ m', finish lim bi bf m = some m' ∧ ∀ k, k < 8 * bf → m' k = m k := by
  by_cases he : bi = bf
  · subst he
    obtain ⟨m', e, h⟩ := finish_ok (x := m) (p := 8 * bi) (m := m) (bi := bi) (bf := bi) (lim := lim) (by omega) hbf (Nat.le_refl _) (Nat.dvd_refl _) (fun k hk => by rw [Nat.mod_eq_of_lt hk])
    exact ⟨m', e, fun k hk => by rw [h k hk, Nat.mod_eq_of_lt hk]⟩
  · unfold finish
    rw [if_neg (by omega)]
    simp only
    generalize hl : (if 2 ^ 15 > bf then bf else 2 ^ 15) = l
    have hll : l ≤ bf := by rw [← hl]; split <;> omega
    rw [doubleBytes, if_neg (by omega), Option.bind_some]
    simp only
    rw [copyBlocks, if_neg (by omega), Option.bind_some]
    simp only
    rw [if_neg (by omega)]
    exact ⟨m, rfl, fun k _ => rfl⟩

/-! ## The bits -/

theorem doubleBits_ok {x : Mem} {p nw nia : Nat} (before : Int → Word) (hnia : 0 < nia) (hnw : nia ≤ 64 * nw) (hnw2 : 64 * nw < nia + 64) : ∀ fuel b m, 8 ∣ b * 2 ^ fuel → 0 < b → p ∣ b →
    (∀ k, k < b → k < 64 * nw → m k = x (k % p)) →
    ∃ b' m', doubleBits (8 * nw) nw nia before (fuel + 1) b m = some (b', m') ∧ 8 ∣ b' ∧ 0 < b' ∧
      ((p ∣ b' ∧ ∀ k, k < b' → k < 64 * nw → m' k = x (k % p)) ∨ (b' = 64 * nw ∧ Per x p nia m')) := by
  intro fuel
  induction fuel with
  | zero =>
    intro b m h8 h0 hp hm
    simp only [Nat.pow_zero, Nat.mul_one] at h8
    rw [doubleBits, if_pos (Nat.mod_eq_zero_of_dvd h8)]
    exact ⟨b, m, rfl, h8, h0, .inl ⟨hp, hm⟩⟩
  | succ fuel ih =>
    intro b m h8 h0 hp hm
    rw [doubleBits]
    split
    · rename_i hz
      exact ⟨b, m, rfl, Nat.dvd_of_mod_eq_zero hz, h0, .inl ⟨hp, hm⟩⟩
    · split
      · rename_i hbig
        by_cases hlt : b < nia
        · rw [if_pos hlt, bitCpy_ok _ before m b (nia - b) (by omega) (by omega) (Nat.dvd_mul_right _ _)]
          refine ⟨64 * nw, _, rfl, ⟨8 * nw, by omega⟩, by omega, .inr ⟨rfl, fun k hk => ?_⟩⟩
          unfold upTo
          by_cases hc : b ≤ k
          · rw [if_pos (by omega), hm _ (by omega) (by omega), sub_mod_of_dvd hp hc]
          · rw [if_neg (by omega), hm _ (by omega) (by omega)]
        · rw [if_neg hlt]
          exact ⟨64 * nw, m, rfl, ⟨8 * nw, by omega⟩, by omega, .inr ⟨rfl, fun k hk => hm k (by omega) (by omega)⟩⟩
      · rw [bitCpy_ok _ before m b b (Nat.le_refl _) (by omega) (Nat.dvd_mul_right _ _), Option.bind_some]
        refine ih (b * 2) _ (by rw [Nat.mul_assoc, Nat.mul_comm 2, ← Nat.pow_succ]; exact h8) (by omega) (Nat.dvd_trans hp (Nat.dvd_mul_right _ _)) ?_
        intro k hk hk2
        unfold upTo
        by_cases hc : b ≤ k
        · rw [if_pos (by omega), hm _ (by omega) (by omega), sub_mod_of_dvd hp hc]
        · rw [if_neg (by omega), hm _ (by omega) (by omega)]

end Verif.Reshape
