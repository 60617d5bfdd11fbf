import Verif.Slash.Where
import Verif.Fold.Lemmas
/-!
# Indices and Replicate: lemmas about positions and memory
-/
namespace Verif.Slash
open Verif.Bits Verif.Fold

/-- Positions of ones between `i` and `i + n`. -/
def P (b : Nat → Bool) (i n : Nat) : List Nat := (List.range' i n).filter b

theorem P_zero (b : Nat → Bool) (i : Nat) : P b i 0 = [] := rfl

theorem P_succ (b : Nat → Bool) (i n : Nat) : P b i (n+1) = (if b i then [i] else []) ++ P b (i+1) n := by
  unfold P
  rw [List.range'_succ, List.filter_cons]
  split <;> simp [*]

theorem P_add (b : Nat → Bool) (i m n : Nat) : P b i (m+n) = P b i m ++ P b (i+m) n := by
  induction m generalizing i with
  | zero => simp [P_zero]
  | succ m ih =>
    rw [show m + 1 + n = (m + n) + 1 by omega, P_succ, P_succ, ih, List.append_assoc]
    rw [show i + 1 + m = i + (m + 1) by omega]

theorem P_congr {a b : Nat → Bool} {i n : Nat} (h : ∀ k, i ≤ k → k < i + n → a k = b k) : P a i n = P b i n := by
  unfold P
  apply List.filter_congr
  intro k hk
  have := List.mem_range'_1.1 hk
  exact h k this.1 this.2

theorem P_shift (b : Nat → Bool) (o i n : Nat) : P b (o + i) n = (P (fun k => b (o + k)) i n).map (o + ·) := by
  induction n generalizing i with
  | zero => rfl
  | succ n ih =>
    rw [P_succ, P_succ, List.map_append, Nat.add_assoc, ih]
    congr 1
    split <;> rfl

theorem P_length (b : Nat → Bool) (i n : Nat) : (P b i n).length = cnt (fun k => b (i + k)) n := by
  induction n generalizing i with
  | zero => rfl
  | succ n ih =>
    rw [P_succ, List.length_append, ih, cnt_shift, Nat.add_zero]
    congr 1
    · rw [Nat.add_zero]
      split <;> rfl
    · exact cnt_congr fun k _ => by rw [show i + 1 + k = i + (k + 1) by omega]

theorem P_length0 (b : Nat → Bool) (n : Nat) : (P b 0 n).length = cnt b n := by
  rw [P_length]
  exact cnt_congr fun k _ => by rw [Nat.zero_add]

theorem positions_eq (b : Nat → Bool) (n : Nat) : positions (firstN b n) = P b 0 n := by
  unfold positions P
  rw [length_firstN, List.range_eq_range']
  apply List.filter_congr
  intro k hk
  have := (List.mem_range'_1.1 hk).2
  rw [List.getD_eq_getElem?_getD, getElem?_firstN, if_pos (by omega)]
  rfl

theorem P_mem {b : Nat → Bool} {i n k : Nat} (h : k ∈ P b i n) : i ≤ k ∧ k < i + n ∧ b k = true := by
  unfold P at h
  have := List.mem_filter.1 h
  have h2 := List.mem_range'_1.1 this.1
  exact ⟨h2.1, h2.2, this.2⟩

/-- When the first one is at `c`. -/
theorem P_first {b : Nat → Bool} {n c : Nat} (hc : c < n) (h1 : b c = true) (h0 : ∀ i, i < c → b i = false) :
    P b 0 n = c :: P (fun i => b i && decide (i ≠ c)) 0 n := by
  have e : n = c + (1 + (n - c - 1)) := by omega
  rw [e, P_add, P_add, P_add, P_add]
  have z : P b 0 c = [] := by
    unfold P
    apply List.filter_eq_nil_iff.2
    intro k hk
    have := (List.mem_range'_1.1 hk).2
    rw [h0 k (by omega)]
    simp
  have z' : P (fun i => b i && decide (i ≠ c)) 0 c = [] := by
    unfold P
    apply List.filter_eq_nil_iff.2
    intro k hk
    have := (List.mem_range'_1.1 hk).2
    rw [h0 k (by omega)]
    simp
  rw [z, z']
  have o : P b (0 + c) 1 = [c] := by rw [P_succ, Nat.zero_add, if_pos h1, P_zero]; rfl
  have o' : P (fun i => b i && decide (i ≠ c)) (0 + c) 1 = [] := by rw [P_succ, Nat.zero_add, P_zero]; simp
  rw [o, o']
  simp only [List.nil_append, List.cons_append]
  congr 1
  apply P_congr
  intro k hk _
  simp
  intro _
  omega

/-- `v & (v-1)` clears the lowest one. -/
theorem clear_lowest {w : Nat} (v : BitVec w) {c : Nat} (h1 : v.getLsbD c = true) (h0 : ∀ i, i < c → v.getLsbD i = false) (i : Nat) :
    (v &&& (v - 1#w)).getLsbD i = (v.getLsbD i && decide (i ≠ c)) := by
  have hcw : c < w := BitVec.lt_of_getLsbD h1
  -- v = q * 2^(c+1) + 2^c
  have hv : ∃ q, v.toNat = 2^(c+1) * q + 2^c := by
    refine ⟨v.toNat / 2^(c+1), ?_⟩
    have hm : v.toNat % 2^(c+1) = 2^c := by
      apply Nat.eq_of_testBit_eq
      intro j
      rw [Nat.testBit_mod_two_pow, Nat.testBit_two_pow]
      rcases Nat.lt_trichotomy j c with h | h | h
      · have := h0 j h
        rw [BitVec.getLsbD] at this
        rw [this, Bool.and_false]
        exact (decide_eq_false (by omega)).symm
      · subst h
        rw [BitVec.getLsbD] at h1
        simp [h1]
      · rw [decide_eq_false (show ¬ j < c + 1 by omega), Bool.false_and]
        exact (decide_eq_false (by omega)).symm
    have := Nat.div_add_mod v.toNat (2^(c+1))
    omega
  obtain ⟨q, hq⟩ := hv
  have hpos : 0 < 2^c := Nat.two_pow_pos c
  have hlt := v.isLt
  have h1w : (1#w).toNat = 1 := by
    rw [BitVec.toNat_ofNat]
    exact Nat.mod_eq_of_lt (Nat.one_lt_two_pow (by omega))
  have hs : (v - 1#w).toNat = 2^(c+1) * q + (2^c - 1) := by
    rw [BitVec.toNat_sub, h1w]
    have : 2^w - 1 + v.toNat = 2^w + (v.toNat - 1) := by omega
    rw [this, Nat.add_mod_left, Nat.mod_eq_of_lt (by omega)]
    omega
  rw [BitVec.getLsbD_and]
  have e1 : v.getLsbD i = (2^(c+1) * q + 2^c).testBit i := by rw [BitVec.getLsbD, hq]
  have e2 : (v - 1#w).getLsbD i = (2^(c+1) * q + (2^c - 1)).testBit i := by rw [BitVec.getLsbD, hs]
  have hp2 : 2^c < 2^(c+1) := Nat.pow_lt_pow_right (by omega) (by omega)
  rw [e2]
  rcases Nat.lt_trichotomy i c with h | h | h
  · rw [h0 i h]; rfl
  · subst h
    rw [Nat.testBit_two_pow_mul_add _ (by omega), if_pos (by omega)]
    simp
  · rw [e1, Nat.testBit_two_pow_mul_add _ hp2, Nat.testBit_two_pow_mul_add _ (by omega), if_neg (by omega), if_neg (by omega),
      decide_eq_true (by omega), Bool.and_true, Bool.and_self]

/-! ## Memory -/

/-- `m'` is `m` with `vs` written from `p` on; after that it may contain anything. -/
structure Ext {α} (m : List α) (p : Nat) (vs : List α) (m' : List α) : Prop where
  len : m'.length = m.length
  fits : p + vs.length ≤ m.length
  before : ∀ i, i < p → m'[i]? = m[i]?
  new : ∀ k, k < vs.length → m'[p + k]? = vs[k]?

theorem Ext.nil {α} {m : List α} {p : Nat} (h : p ≤ m.length) : Ext m p [] m :=
  ⟨rfl, h, fun _ _ => rfl, fun k hk => absurd hk (Nat.not_lt_zero k)⟩

theorem Ext.append {α} {m m1 m2 : List α} {p : Nat} {us vs : List α} (h1 : Ext m p us m1) (h2 : Ext m1 (p + us.length) vs m2) :
    Ext m p (us ++ vs) m2 := by
  refine ⟨h2.len.trans h1.len, ?_, fun i hi => ?_, fun k hk => ?_⟩
  · have := h2.fits
    rw [h1.len] at this
    rw [List.length_append]
    omega
  · rw [h2.before i (by omega), h1.before i hi]
  · rcases Nat.lt_or_ge k us.length with h | h
    · rw [h2.before _ (by omega), h1.new k h, List.getElem?_append_left h]
    · rw [List.length_append] at hk
      have := h2.new (k - us.length) (by omega)
      rw [show p + us.length + (k - us.length) = p + k by omega] at this
      rw [this, List.getElem?_append_right h]

/-- A write that may be written over again. -/
theorem Ext.dirty {α} {m m1 m2 : List α} {p : Nat} {vs : List α} (h0 : ∀ i, i < p → m1[i]? = m[i]?) (hl : m1.length = m.length) (h : Ext m1 p vs m2) :
    Ext m p vs m2 :=
  ⟨h.len.trans hl, hl ▸ h.fits, fun i hi => (h.before i hi).trans (h0 i hi), h.new⟩

theorem wr_some {α} {m : List α} {i : Nat} (h : i < m.length) (v : α) : wr m i v = some (m.set i v) := if_pos h

theorem wr_ext {α} {m : List α} {i : Nat} (h : i < m.length) (v : α) : Ext m i [v] (m.set i v) := by
  refine ⟨List.length_set, h, fun j hj => List.getElem?_set_ne (by omega), fun k hk => ?_⟩
  have : k = 0 := by simpa using hk
  subst this
  rw [Nat.add_zero, List.getElem?_set_self h]
  rfl

theorem Ext.take {α} {m m' vs : List α} (h : Ext m 0 vs m') : m'.take vs.length = vs := by
  apply List.ext_getElem?
  intro i
  rw [List.getElem?_take]
  split
  · rename_i hi
    have := h.new i hi
    rwa [Nat.zero_add] at this
  · rename_i hi
    exact (List.getElem?_eq_none (by omega)).symm

theorem Ext.all {α} {m m' vs : List α} (h : Ext m 0 vs m') (hl : vs.length = m.length) : m' = vs := by
  have := h.take
  rwa [hl, ← h.len, List.take_length] at this

/-! ## Dense -/

/-- The loop of `denseByte` and `dense`, bit by bit. -/
def denseBits {α} (f : Nat → α) (b : Nat → Bool) : Nat → Nat → List α → Nat → Option (List α × Nat)
  | 0, _, m, p => some (m, p)
  | n + 1, i, m, p => (wr m p (f i)).bind fun m => denseBits f b n (i + 1) m (p + if b i then 1 else 0)

theorem denseBits_add {α} (f : Nat → α) (b : Nat → Bool) (k n i : Nat) (m : List α) (p : Nat) :
    denseBits f b (k + n) i m p = (denseBits f b k i m p).bind fun (m, p) => denseBits f b n (i + k) m p := by
  induction k generalizing i m p with
  | zero => rw [Nat.zero_add]; rfl
  | succ k ih =>
    rw [show k + 1 + n = (k + n) + 1 by omega, denseBits, denseBits, Option.bind_assoc]
    congr 1
    funext m'
    rw [ih, show i + 1 + k = i + (k + 1) by omega]

theorem and_one {w : Nat} (v : BitVec w) (hw : 0 < w) : (v &&& 1).toNat = if v.getLsbD 0 then 1 else 0 := by
  have : (1 : BitVec w).toNat = 1 := by
    show (BitVec.ofNat w 1).toNat = 1
    rw [BitVec.toNat_ofNat]
    exact Nat.mod_eq_of_lt (Nat.one_lt_two_pow (by omega))
  rw [BitVec.toNat_and, this, Nat.and_one_is_mod, BitVec.getLsbD, Nat.testBit_zero]
  rcases Nat.mod_two_eq_zero_or_one v.toNat with h | h <;> simp [h]

theorem denseByte_eq {α} (f : Nat → α) (b : Nat → Bool) (o : Nat) : ∀ (k : Nat) (v : BitVec 8) (m : List α) (p : Nat), k ≤ 8 →
    (∀ j, j < k → v.getLsbD j = b (o + (8 - k) + j)) → denseByte f o k v m p = denseBits f b k (o + (8 - k)) m p
  | 0, _, _, _, _, _ => rfl
  | k + 1, v, m, p, hk, h => by
    rw [denseByte, denseBits]
    congr 1
    funext m'
    rw [and_one v (by omega), h 0 (by omega), denseByte_eq f b o k _ m' _ (by omega), Nat.add_zero]
    · rw [show o + (8 - (k + 1)) + 1 = o + (8 - k) by omega]
    · intro j hj
      rw [BitVec.getLsbD_ushiftRight, h _ (by omega)]
      congr 1
      omega

theorem byteAt_bit (x : Nat → Word) (ii j : Nat) (hj : j < 8) : (byteAt x ii).getLsbD j = bitF x (8 * ii + j) := by
  unfold byteAt bitF
  rw [BitVec.getLsbD_setWidth, BitVec.getLsbD_ushiftRight]
  have h1 : (8 * ii + j) / 64 = ii / 8 := by omega
  have h2 : (8 * ii + j) % 64 = 8 * (ii % 8) + j := by omega
  rw [h1, h2]
  simp [hj]

theorem dense_eq {α} (f : Nat → α) (x : Nat → Word) (off : Nat) : ∀ (k ii : Nat) (m : List α) (p : Nat),
    dense f x off k ii m p = denseBits (fun i => f (off + i)) (bitF x) (8 * k) (8 * ii) m p
  | 0, _, _, _ => rfl
  | k + 1, ii, m, p => by
    have e : ∀ (n i : Nat) (m : List α) (p : Nat), denseBits f (fun i => bitF x (i - off)) n (off + i) m p =
        denseBits (fun i => f (off + i)) (bitF x) n i m p := by
      intro n
      induction n with
      | zero => intros; rfl
      | succ n ih =>
        intro i m p
        rw [denseBits, denseBits]
        congr 1
        funext m'
        rw [show off + i + 1 = off + (i + 1) by omega, ih, Nat.add_sub_cancel_left]
    rw [dense, denseByte_eq f (fun i => bitF x (i - off)) (off + 8 * ii) 8 _ m p (Nat.le_refl _) ?_, show 8 * (k + 1) = 8 + 8 * k by omega, denseBits_add,
      Nat.sub_self, Nat.add_zero, e]
    · congr 1
      funext ⟨m', p'⟩
      exact dense_eq f x off k (ii + 1) m' p'
    · intro j hj
      rw [byteAt_bit x ii j hj, Nat.sub_self]
      congr 1
      omega

theorem denseBits_spec {α} (f : Nat → α) (b : Nat → Bool) : ∀ (n i : Nat) (m : List α) (p : Nat),
    (∀ j, j < n → p + cnt (fun k => b (i + k)) j < m.length) → p ≤ m.length →
    p + cnt (fun k => b (i + k)) n ≤ m.length →
    ∃ m', denseBits f b n i m p = some (m', p + cnt (fun k => b (i + k)) n) ∧ Ext m p ((P b i n).map f) m'
  | 0, i, m, p, _, hp, _ => ⟨m, rfl, Ext.nil hp⟩
  | n + 1, i, m, p, h, hp, hn => by
    have h0 : p < m.length := h 0 (by omega)
    have hsh : ∀ j, cnt (fun k => b (i + k)) (j + 1) = (if b i then 1 else 0) + cnt (fun k => b (i + 1 + k)) j := by
      intro j
      rw [cnt_shift, Nat.add_zero]
      congr 1
      exact cnt_congr fun k _ => by rw [show i + (k + 1) = i + 1 + k by omega]
    rw [denseBits, wr_some h0, Option.bind_some]
    rw [hsh] at hn ⊢
    obtain ⟨m', e, hx⟩ := denseBits_spec f b n (i + 1) (m.set p (f i)) (p + if b i then 1 else 0)
      (fun j hj => by
        have := h (j + 1) (by omega)
        rw [hsh] at this
        rw [List.length_set]
        omega) (by rw [List.length_set]; split <;> omega) (by rw [List.length_set]; omega)
    refine ⟨m', by rw [e]; congr 2; omega, ?_⟩
    rw [P_succ, List.map_append]
    by_cases hb : b i = true
    · rw [if_pos hb] at hx ⊢
      exact (wr_ext h0 (f i)).append hx
    · rw [if_neg hb] at hx ⊢
      exact Ext.dirty (fun j hj => List.getElem?_set_ne (by omega)) List.length_set hx

/-- `WHERE_DENSE`, when the bits after the end of its bytes are zero. -/
theorem whereDense_spec {α} (f : Nat → α) (x : Nat → Word) (m : List α) (p len off : Nat)
    (hz : ∀ i, len ≤ i → i < 8 * ((len + 7) / 8) → bitF x i = false)
    (hm : p + cnt (bitF x) len < m.length ∨ p + 8 * ((len + 7) / 8) ≤ m.length) :
    ∃ m', whereDense f x m p len off = some m' ∧ Ext m p ((P (bitF x) 0 len).map fun i => f (off + i)) m' := by
  have hc : ∀ j, cnt (fun k => bitF x (0 + k)) j = cnt (bitF x) j := fun j => cnt_congr fun k _ => by rw [Nat.zero_add]
  have hle : ∀ (b : Nat → Bool) j, cnt b j ≤ j := by
    intro b j
    induction j with
    | zero => exact Nat.le_refl _
    | succ j ih => rw [cnt]; split <;> omega
  have hmono : ∀ (b : Nat → Bool) j k, j ≤ k → cnt b j ≤ cnt b k := by
    intro b j k h
    obtain ⟨d, rfl⟩ := Nat.le.dest h
    rw [cnt_add]
    omega
  have hall : cnt (bitF x) (8 * ((len + 7) / 8)) = cnt (bitF x) len := by
    obtain ⟨d, hd⟩ := Nat.le.dest (show len ≤ 8 * ((len + 7) / 8) by omega)
    rw [← hd, cnt_add]
    have : cnt (fun i => bitF x (len + i)) d = cnt (fun _ => false) d := cnt_congr fun i hi => hz _ (by omega) (by omega)
    rw [this, cnt_false, Nat.add_zero]
  obtain ⟨m', e, hx⟩ := denseBits_spec (fun i => f (off + i)) (bitF x) (8 * ((len + 7) / 8)) 0 m p
    (fun j hj => by
      rw [hc]
      rcases hm with h | h
      · have := hmono (bitF x) j _ (Nat.le_of_lt hj); omega
      · have := hle (bitF x) j; omega)
    (by rcases hm with h | h <;> omega)
    (by
      rw [hc]
      rcases hm with h | h
      · omega
      · have := hle (bitF x) (8 * ((len + 7) / 8)); omega)
  refine ⟨m', by unfold whereDense; rw [dense_eq, Nat.mul_zero, e]; rfl, ?_⟩
  have : P (bitF x) 0 (8 * ((len + 7) / 8)) = P (bitF x) 0 len := by
    obtain ⟨d, hd⟩ := Nat.le.dest (show len ≤ 8 * ((len + 7) / 8) by omega)
    rw [← hd, P_add]
    have : P (bitF x) (0 + len) d = [] := by
      apply List.eq_nil_of_length_eq_zero
      rw [P_length]
      exact (cnt_congr fun i hi => hz _ (by omega) (by omega)).trans (cnt_false d)
    rw [this, List.append_nil]
  rwa [this] at hx

/-! ## Sparse -/

theorem sparseWord_spec {α} (f : Nat → α) (o : Nat) : ∀ (fuel : Nat) (v : Word) (m : List α) (p : Nat),
    cnt v.getLsbD 64 ≤ fuel → p + cnt v.getLsbD 64 ≤ m.length →
    ∃ m', sparseWord f o fuel v m p = some (m', p + cnt v.getLsbD 64) ∧ Ext m p ((P v.getLsbD 0 64).map fun i => f (o + i)) m' := by
  intro fuel
  induction fuel with
  | zero =>
    intro v m p h hm
    have hz : v = 0#64 := by
      by_cases hz : v = 0#64
      · exact hz
      · obtain ⟨c, hc⟩ := CTZ_isSome hz
        obtain ⟨c1, c2, c3⟩ := CTZ_spec hc
        rw [← P_length0, P_first c1 c2 c3] at h
        simp at h
    subst hz
    unfold sparseWord
    rw [if_pos rfl]
    have : cnt (0#64).getLsbD 64 = 0 := by decide
    rw [this]
    exact ⟨m, rfl, Ext.nil (by omega)⟩
  | succ fuel ih =>
    intro v m p h hm
    unfold sparseWord
    by_cases hz : v = 0#64
    · subst hz
      rw [if_pos rfl]
      have : cnt (0#64).getLsbD 64 = 0 := by decide
      rw [this]
      exact ⟨m, rfl, Ext.nil (by omega)⟩
    · rw [if_neg hz]
      obtain ⟨c, hc⟩ := CTZ_isSome hz
      obtain ⟨c1, c2, c3⟩ := CTZ_spec hc
      have hP : P v.getLsbD 0 64 = c :: P (v &&& (v - 1#64)).getLsbD 0 64 := by
        rw [P_first c1 c2 c3]
        congr 1
        exact P_congr fun k _ _ => (clear_lowest v c2 c3 k).symm
      have hn : cnt v.getLsbD 64 = cnt (v &&& (v - 1#64)).getLsbD 64 + 1 := by
        rw [← P_length0, hP, List.length_cons, P_length0]
      dsimp only
      rw [hc, Option.bind_some, wr_some (by omega), Option.bind_some]
      obtain ⟨m', e, hx⟩ := ih (v &&& (v - 1#64)) (m.set p (f (o + c))) (p + 1) (by omega) (by rw [List.length_set]; omega)
      refine ⟨m', by rw [e]; congr 2; omega, ?_⟩
      rw [hP, List.map_cons]
      exact (wr_ext (by omega) (f (o + c))).append hx

theorem sparse_spec {α} (f : Nat → α) (x : Nat → Word) (e : Nat) : ∀ (k ii : Nat) (m : List α) (p : Nat),
    p + cnt (fun i => bitF x (64 * ii + i)) (64 * k) = e → e ≤ m.length →
    ∃ m', sparse f x e k ii m p = some m' ∧ Ext m p ((P (bitF x) (64 * ii) (64 * k)).map f) m'
  | k, ii, m, p, h, hm => by
    unfold sparse
    by_cases hp : p < e
    · rw [if_pos hp]
      cases k with
      | zero => rw [Nat.mul_zero, cnt] at h; omega
      | succ k =>
        dsimp only
        have hw : ∀ i, i < 64 → bitF x (64 * ii + i) = (x ii).getLsbD i := fun i hi => bitF_word x ii i hi
        have h64 : cnt (fun i => bitF x (64 * ii + i)) 64 = cnt (x ii).getLsbD 64 := cnt_congr hw
        have hs : cnt (fun i => bitF x (64 * ii + i)) (64 * (k + 1)) = cnt (x ii).getLsbD 64 + cnt (fun i => bitF x (64 * (ii + 1) + i)) (64 * k) := by
          rw [show 64 * (k + 1) = 64 + 64 * k by omega, cnt_add, h64]
          congr 1
          exact cnt_congr fun i _ => by rw [show 64 * ii + (64 + i) = 64 * (ii + 1) + i by omega]
        have hl : cnt (x ii).getLsbD 64 ≤ 64 := by
          rw [← P_length0]
          unfold P
          exact Nat.le_trans (List.length_filter_le _ _) (by rw [List.length_range']; exact Nat.le_refl _)
        obtain ⟨m1, e1, hx1⟩ := sparseWord_spec f (64 * ii) 64 (x ii) m p hl (by omega)
        rw [e1, Option.bind_some]
        obtain ⟨m2, e2, hx2⟩ := sparse_spec f x e k (ii + 1) m1 (p + cnt (x ii).getLsbD 64) (by omega) (by rw [hx1.len]; exact hm)
        refine ⟨m2, e2, ?_⟩
        rw [show 64 * (k + 1) = 64 + 64 * k by omega, P_add, List.map_append]
        have hpw : P (bitF x) (64 * ii) 64 = (P (x ii).getLsbD 0 64).map (64 * ii + ·) := by
          have := P_shift (bitF x) (64 * ii) 0 64
          rw [Nat.add_zero] at this
          rw [this]
          congr 1
          exact P_congr fun i _ hi => hw i (by omega)
        rw [hpw, List.map_map]
        refine Ext.append hx1 ?_
        rw [show 64 * ii + 64 = 64 * (ii + 1) by omega]
        rw [List.length_map, P_length0]
        exact hx2
    · rw [if_neg hp]
      refine ⟨m, rfl, ?_⟩
      have : P (bitF x) (64 * ii) (64 * k) = [] := by
        apply List.eq_nil_of_length_eq_zero
        rw [P_length]
        omega
      rw [this]
      exact Ext.nil (by omega)

end Verif.Slash
