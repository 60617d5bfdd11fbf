import Verif.Slash.Bsp
/-!
# Indices of a boolean list: lemmas
-/
namespace Verif.Slash
open Verif.Bits Verif.Fold

/-- The bits of the last word after the end are 0. -/
def Clean (x : Nat → Word) (n : Nat) : Prop := ∀ i, n ≤ i → i < 64 * ((n + 63) / 64) → bitF x i = false

theorem cnt_zeros {b : Nat → Bool} {n n' : Nat} (h : n ≤ n') (hz : ∀ i, n ≤ i → i < n' → b i = false) : cnt b n' = cnt b n := by
  obtain ⟨d, rfl⟩ := Nat.le.dest h
  rw [cnt_add]
  have : cnt (fun i => b (n + i)) d = 0 := (cnt_congr fun i hi => hz _ (by omega) (by omega)).trans (cnt_false d)
  omega

theorem P_zeros {b : Nat → Bool} {n n' : Nat} (h : n ≤ n') (hz : ∀ i, n ≤ i → i < n' → b i = false) : P b 0 n' = P b 0 n := by
  obtain ⟨d, rfl⟩ := Nat.le.dest h
  rw [P_add]
  have : P b (0 + n) d = [] := by
    apply List.eq_nil_of_length_eq_zero
    rw [P_length]
    exact (cnt_congr fun i hi => hz _ (by omega) (by omega)).trans (cnt_false d)
  rw [this, List.append_nil]

theorem Clean.cnt {x : Nat → Word} {n : Nat} (h : Clean x n) : cnt (bitF x) (64 * ((n + 63) / 64)) = cnt (bitF x) n :=
  cnt_zeros (by omega) h

theorem Clean.P {x : Nat → Word} {n : Nat} (h : Clean x n) : P (bitF x) 0 (64 * ((n + 63) / 64)) = P (bitF x) 0 n :=
  P_zeros (by omega) h

theorem Clean.byte {x : Nat → Word} {n : Nat} (h : Clean x n) : ∀ i, n ≤ i → i < 8 * ((n + 7) / 8) → bitF x i = false :=
  fun i h1 h2 => h i h1 (by omega)

theorem cnt_le (b : Nat → Bool) (n : Nat) : Fold.cnt b n ≤ n := by
  induction n with
  | zero => exact Nat.le_refl _
  | succ n ih => rw [Fold.cnt]; split <;> omega

/-! ## Buffers -/

theorem law32 (m : List (BitVec 32)) (o : Nat) :
    Law (buf32 o) (fun m' => m'.length = m.length ∧ ∀ i, i < o → m'[i]? = m[i]?) (m.length - o) := by
  refine ⟨fun m1 j h hj => ?_, fun m1 j v h hj => ?_⟩
  · have : o + j < m1.length := by rw [h.1]; omega
    exact ⟨m1[o + j], List.getElem?_eq_getElem this⟩
  · have : o + j < m1.length := by rw [h.1]; omega
    refine ⟨m1.set (o + j) v, wr_some this v, ⟨by rw [List.length_set, h.1], fun i hi => ?_⟩, ?_, fun j' _ hne => ?_⟩
    · rw [List.getElem?_set_ne (by omega)]
      exact h.2 i hi
    · exact List.getElem?_set_self this
    · exact List.getElem?_set_ne (by omega)

theorem halves (v : BitVec 32) : v.extractLsb' 16 16 ++ v.setWidth 16 = v := by
  apply BitVec.eq_of_getLsbD_eq
  intro i hi
  rw [BitVec.getLsbD_append]
  split
  · rename_i h
    rw [BitVec.getLsbD_setWidth]
    simp; omega
  · rename_i h
    rw [BitVec.getLsbD_extractLsb', show 16 + (i - 16) = i by omega]
    simp; omega

theorem law16 (n : Nat) : Law buf16 (fun m => m.length = n) (n / 2) := by
  refine ⟨fun m j h hj => ?_, fun m j v h hj => ?_⟩
  · refine ⟨m[2 * j + 1]'(by omega) ++ m[2 * j]'(by omega), ?_⟩
    show (m[2 * j]?).bind _ = _
    rw [List.getElem?_eq_getElem (by omega), List.getElem?_eq_getElem (by omega)]
    rfl
  · refine ⟨(m.set (2 * j) (v.setWidth 16)).set (2 * j + 1) (v.extractLsb' 16 16), ?_, ?_, ?_, fun j' _ hne => ?_⟩
    · show (wr m (2 * j) _).bind _ = _
      rw [wr_some (by omega), Option.bind_some, wr_some (by rw [List.length_set]; omega)]
    · rw [List.length_set, List.length_set, h]
    · show (getElem? _ _).bind _ = _
      rw [List.getElem?_set_ne (by omega), List.getElem?_set_self (by omega), List.getElem?_set_self (by rw [List.length_set]; omega)]
      show some (_ ++ _) = _
      rw [halves]
    · show (getElem? _ _).bind _ = (getElem? _ _).bind _
      rw [List.getElem?_set_ne (by omega), List.getElem?_set_ne (by omega), List.getElem?_set_ne (by omega), List.getElem?_set_ne (by omega)]

theorem lawPair (n : Nat) (d : List (BitVec 16)) : Law bufPair (fun m => m.1.length = n ∧ m.2 = d) n := by
  refine ⟨fun m j h hj => ?_, fun m j v h hj => ?_⟩
  · exact ⟨m.1[j]'(by omega), List.getElem?_eq_getElem (by omega)⟩
  · refine ⟨(m.1.set j v, m.2), ?_, ⟨by rw [List.length_set, h.1], h.2⟩, ?_, fun j' _ hne => ?_⟩
    · show (wr m.1 j v).map _ = _
      rw [wr_some (by omega)]
      rfl
    · exact List.getElem?_set_self (by omega)
    · exact List.getElem?_set_ne (by omega)

/-- Filling the buffer after clearing it. -/
theorem fill_cleared {M} {B : Buf M} {Ok : M → Prop} {n : Nat} (L : Law B Ok n) (x : Nat → Word) (k sum : Nat) (m : M) (hm : Ok m)
    (hs : sum < n) (hsum : Fold.cnt (bitF x) (64 * k) = sum) (hz : ∀ j, j < sum → B.rd m j = some 0#32) :
    ∃ m', bspFill B x k 0 m 0 = some (m', sum) ∧ Ok m' ∧ (∀ j, j < n → sum < j → B.rd m' j = B.rd m j) ∧
      ∀ i, i < sum → B.rd m' (0 + i) = (fillPure 0#32 (wordGroups x k 0))[i]? := by
  have ht : gtotal (wordGroups x k 0) = sum := by
    rw [gtotal_words, ← hsum]
    exact cnt_congr fun i _ => by rw [Nat.mul_zero, Nat.zero_add]
  obtain ⟨m', e, o, f, g⟩ := fillG_spec L hs (wordGroups x k 0) m 0 0#32 hm (by omega) (fun h => hz 0 h) (fun j _ h => hz j h)
  refine ⟨m', by rw [bspFill_eq, e], o, fun j h1 h2 => f j h1 (Or.inr h2), fun i hi => g i (by omega)⟩

theorem fillPure_words_length (x : Nat → Word) (k : Nat) : (fillPure 0#32 (wordGroups x k 0)).length = Fold.cnt (bitF x) (64 * k) := by
  rw [fillPure_length, gtotal_words]
  exact cnt_congr fun i _ => by rw [Nat.mul_zero, Nat.zero_add]

theorem bspBlock32_spec (x : Nat → Word) (m : List (BitVec 32)) (o len sum off : Nat) (hl : len ≤ bspMax) (hx : Clean x len)
    (hs : sum = Fold.cnt (bitF x) len) (hm : o + sum < m.length) (h8 : off % 8 = 0) (ho : off < 2^32) :
    ∃ m', bspBlock32 x m o len sum off = some m' ∧ Ext m o ((P (bitF x) 0 len).map fun i => BitVec.ofNat 32 (off + i)) m' := by
  have hk : (len + 63) / 64 ≤ 31 := by unfold bspMax at hl; omega
  have L := law32 m o
  obtain ⟨m1, e1, o1, z1, f1⟩ := clear_spec L sum 0 m ⟨rfl, fun _ _ => rfl⟩ (by omega)
  have hc : Fold.cnt (bitF x) (64 * ((len + 63) / 64)) = sum := by rw [hx.cnt, hs]
  obtain ⟨m2, e2, o2, f2, g2⟩ := fill_cleared L x ((len + 63) / 64) sum m1 o1 (by omega) hc (fun j hj => z1 j (by omega) (by omega))
  have hlen : (fillPure 0#32 (wordGroups x ((len + 63) / 64) 0)).length = sum := by rw [fillPure_words_length, hc]
  obtain ⟨m3, e3, i3⟩ := bspWrite_spec (B := buf32 o) (e := sum) (put := fun m j v => wr m (o + j) (BitVec.ofNat 32 v))
    (fun j os m' => os.length = j ∧ Ext m o (os.map (BitVec.ofNat 32)) m')
    (fun j os v m' hI hj => by
      have hb : o + j < m'.length := by rw [hI.2.len]; omega
      refine ⟨m'.set (o + j) (BitVec.ofNat 32 v), wr_some hb _, ⟨by simp [hI.1], ?_⟩, fun j' h1 h2 => ?_⟩
      · rw [List.map_append]
        refine hI.2.append ?_
        rw [List.length_map, hI.1]
        exact wr_ext hb _
      · exact List.getElem?_set_ne (by omega))
    (fillPure 0#32 (wordGroups x ((len + 63) / 64) 0)) 0 (bspStart off) m2 [] _
    ⟨rfl, ⟨o2.1, by simp; omega, o2.2, fun k hk => absurd hk (Nat.not_lt_zero k)⟩⟩ (by omega) (fun i hi => g2 i (by omega))
    (write_words x _ off hk h8 ho)
  refine ⟨m3, ?_, ?_⟩
  · unfold bspBlock32
    rw [e1, Option.bind_some, e2, Option.bind_some]
    rw [hlen] at e3
    exact e3
  · have := i3.2
    rw [List.nil_append, hx.P, List.map_map] at this
    exact this

/-- `where_block_u16`. -/
theorem whereBlock_spec (x : Nat → Word) (m : List (BitVec 16)) (len sum : Nat) (hl : len ≤ bspMax) (hx : Clean x len)
    (hs : sum = Fold.cnt (bitF x) len) (hm : bspMax ≤ m.length) :
    ∃ m', whereBlock x m len sum = some m' ∧ Ext m 0 ((P (bitF x) 0 len).map (BitVec.ofNat 16)) m' := by
  unfold bspMax at hl hm
  unfold whereBlock
  by_cases h1 : sum ≥ len / 4 + len / 8
  · rw [if_pos h1]
    obtain ⟨m', e, hx⟩ := whereDense_spec (BitVec.ofNat 16) x m 0 len 0 hx.byte (Or.inr (by omega))
    refine ⟨m', e, ?_⟩
    simp only [Nat.zero_add] at hx
    exact hx
  rw [if_neg h1]
  by_cases h2 : sum ≥ len / 128
  · rw [if_pos h2]
    have hk : (len + 63) / 64 ≤ 31 := by omega
    have L := law16 m.length
    obtain ⟨m1, e1, o1, z1, f1⟩ := clear_spec L sum 0 m rfl (by omega)
    have hc : Fold.cnt (bitF x) (64 * ((len + 63) / 64)) = sum := by rw [hx.cnt, hs]
    obtain ⟨m2, e2, o2, f2, g2⟩ := fill_cleared L x ((len + 63) / 64) sum m1 o1 (by omega) hc (fun j hj => z1 j (by omega) (by omega))
    have hlen : (fillPure 0#32 (wordGroups x ((len + 63) / 64) 0)).length = sum := by rw [fillPure_words_length, hc]
    obtain ⟨m3, e3, i3⟩ := bspWrite_spec (B := buf16) (e := sum) (put := fun m j v => wr m j (BitVec.ofNat 16 v))
      (fun j os m' => os.length = j ∧ Ext m 0 (os.map (BitVec.ofNat 16)) m')
      (fun j os v m' hI hj => by
        have hb : j < m'.length := by rw [hI.2.len]; omega
        refine ⟨m'.set j (BitVec.ofNat 16 v), wr_some hb _, ⟨by simp [hI.1], ?_⟩, fun j' h1 h2 => ?_⟩
        · rw [List.map_append]
          refine hI.2.append ?_
          rw [List.length_map, hI.1, Nat.zero_add]
          exact wr_ext hb _
        · show (getElem? _ _).bind _ = (getElem? _ _).bind _
          rw [List.getElem?_set_ne (by omega), List.getElem?_set_ne (by omega)])
      (fillPure 0#32 (wordGroups x ((len + 63) / 64) 0)) 0 (bspStart 0) m2 [] _
      ⟨rfl, ⟨o2, by simp, fun i hi => absurd hi (Nat.not_lt_zero i), fun k hk => absurd hk (Nat.not_lt_zero k)⟩⟩ (by omega) (fun i hi => g2 i (by omega))
      (write_words x _ 0 hk rfl (by omega))
    refine ⟨m3, ?_, ?_⟩
    · rw [e1, Option.bind_some, e2, Option.bind_some]
      rw [hlen] at e3
      exact e3
    · have := i3.2
      rw [List.nil_append, hx.P] at this
      simpa using this
  · rw [if_neg h2]
    have hle := cnt_le (bitF x) len
    have hc : Fold.cnt (fun i => bitF x (64 * 0 + i)) (64 * ((len + 63) / 64)) = sum := by
      rw [hs, ← hx.cnt]
      exact cnt_congr fun i _ => by rw [Nat.mul_zero, Nat.zero_add]
    obtain ⟨m', e, h⟩ := sparse_spec (BitVec.ofNat 16) x sum ((len + 63) / 64) 0 m 0 (by omega) (by omega)
    refine ⟨m', e, ?_⟩
    rw [Nat.mul_zero, hx.P] at h
    exact h

/-! ## Block by block -/

theorem bitF_block (x : Nat → Word) {i : Nat} (h : i % 64 = 0) (j : Nat) : bitF (fun k => x (i / 64 + k)) j = bitF x (i + j) := by
  unfold bitF
  rw [show (i + j) / 64 = i / 64 + j / 64 by omega, show (i + j) % 64 = j % 64 by omega]

theorem Clean.block {x : Nat → Word} {n i b : Nat} (h : Clean x n) (hi : i % 64 = 0) (hb : i + b = n ∨ b % 64 = 0) : Clean (fun k => x (i / 64 + k)) b := by
  intro j h1 h2
  rcases hb with hb | hb
  · rw [bitF_block x hi]
    exact h _ (by omega) (by omega)
  · omega

/-- One block of the argument. -/
theorem block_facts {x : Nat → Word} {n i b : Nat} (h : Clean x n) (hi : i % 64 = 0) (hb : i + b = n ∨ b % 64 = 0) :
    Clean (fun k => x (i / 64 + k)) b ∧ Fold.cnt (bitF x) (i + b) = Fold.cnt (bitF x) i + Fold.cnt (bitF fun k => x (i / 64 + k)) b ∧
    P (bitF x) i b = (P (bitF fun k => x (i / 64 + k)) 0 b).map (i + ·) := by
  refine ⟨h.block hi hb, ?_, ?_⟩
  · rw [cnt_add]
    congr 1
    exact cnt_congr fun j _ => (bitF_block x hi j).symm
  · have := P_shift (bitF x) i 0 b
    rw [Nat.add_zero] at this
    rw [this]
    congr 1
    exact P_congr fun j _ _ => (bitF_block x hi j).symm

theorem cnt_mono (b : Nat → Bool) {i n : Nat} (h : i ≤ n) : Fold.cnt b i ≤ Fold.cnt b n := by
  obtain ⟨d, rfl⟩ := Nat.le.dest h
  rw [cnt_add]
  omega

theorem bspBlocks_spec (x : Nat → Word) (n N : Nat) (hx : Clean x n) (h32 : n < 2^32) : ∀ (fuel i : Nat) (c : List (BitVec 32)) (d : List (BitVec 16)),
    (i < n → i % 64 = 0) → i ≤ n → n ≤ i + fuel * bspMax → N = min bspMax (Fold.cnt (bitF x) n) → c.length = N + 1 → (∀ j, j < N → c[j]? = some 0#32) →
    Fold.cnt (bitF x) n ≤ d.length →
    ∃ m', bspBlocks x n fuel i (Fold.cnt (bitF x) i) (c, d) = some m' ∧ Ext d (Fold.cnt (bitF x) i) ((P (bitF x) i (n - i)).map (BitVec.ofNat 16)) m'
  | fuel, i, c, d, hi, hin, hf, hN, hcl, hz, hd => by
    by_cases hlt : i < n
    · have hi := hi hlt
      cases fuel with
      | zero => omega
      | succ fuel =>
        rw [bspBlocks, if_pos hlt]
        generalize hb : (if bspMax > n - i then n - i else bspMax) = b
        have hb1 : b ≤ bspMax ∧ i + b ≤ n ∧ (i + b = n ∨ b = bspMax) := by
          unfold bspMax at hb ⊢
          split at hb <;> omega
        have hb64 : i + b = n ∨ b % 64 = 0 := by
          rcases hb1.2.2 with h | h
          · exact Or.inl h
          · exact Or.inr (by rw [h]; decide)
        obtain ⟨hcx, hcc, hcP⟩ := block_facts hx hi hb64
        have hmono := cnt_mono (bitF x) hb1.2.1
        have hmono0 := cnt_mono (bitF x) hin
        generalize hbs : Fold.cnt (bitF fun k => x (i / 64 + k)) b = bs at hcc
        have hbs' : Fold.cnt (bitF fun k => x (i / 64 + k)) (64 * ((b + 63) / 64)) = bs := by rw [hcx.cnt, hbs]
        have hbsb : bs ≤ b := by rw [← hbs]; exact cnt_le _ _
        have hbN : bs ≤ N := by omega
        have hk : (b + 63) / 64 ≤ 31 := by have := hb1.1; unfold bspMax at this; omega
        obtain ⟨m2, e2, o2, f2, g2⟩ := fill_cleared (lawPair (N + 1) d) (fun k => x (i / 64 + k)) ((b + 63) / 64) bs (c, d) ⟨hcl, rfl⟩
          (by omega) hbs' (fun j hj => hz j (by omega))
        dsimp only
        rw [e2, Option.bind_some]
        dsimp only
        have hlen : (fillPure 0#32 (wordGroups (fun k => x (i / 64 + k)) ((b + 63) / 64) 0)).length = bs := by rw [fillPure_words_length, hbs']
        generalize hp : Fold.cnt (bitF x) i = p at *
        obtain ⟨m3, e3, i3⟩ := bspWrite_spec (B := bufPair) (e := bs)
          (put := fun m j v => (wr m.2 (p + j) (BitVec.ofNat 16 v)).bind fun d => (wr m.1 j 0#32).map fun c => (c, d))
          (fun j os m' => os.length = j ∧ Ext d p (os.map (BitVec.ofNat 16)) m'.2 ∧ m'.1.length = N + 1 ∧ (∀ k, k < j → m'.1[k]? = some 0#32) ∧
            ∀ k, bs < k → k < N → m'.1[k]? = some 0#32)
          (fun j os v m' hI hj => by
            obtain ⟨I1, I2, I3, I4, I5⟩ := hI
            have hb : p + j < m'.2.length := by rw [I2.len]; omega
            have hb' : j < m'.1.length := by omega
            refine ⟨(m'.1.set j 0#32, m'.2.set (p + j) (BitVec.ofNat 16 v)), ?_, ⟨by simp [I1], ?_, by rw [List.length_set, I3], fun k hk => ?_, fun k h1 h2 => ?_⟩,
              fun j' h1 h2 => ?_⟩
            · rw [wr_some hb, Option.bind_some, wr_some hb']
              rfl
            · rw [List.map_append]
              refine I2.append ?_
              rw [List.length_map, I1]
              exact wr_ext hb _
            · rcases Nat.lt_or_ge k j with h | h
              · rw [List.getElem?_set_ne (by omega)]
                exact I4 k h
              · rw [show k = j by omega, List.getElem?_set_self hb']
            · rw [List.getElem?_set_ne (by omega)]
              exact I5 k h1 h2
            · exact List.getElem?_set_ne (by omega))
          (fillPure 0#32 (wordGroups (fun k => x (i / 64 + k)) ((b + 63) / 64) 0)) 0 (bspStart i) m2 [] _
          ⟨rfl, by rw [o2.2]; exact Ext.nil (by omega), o2.1, fun k hk => absurd hk (Nat.not_lt_zero k), fun k h1 h2 => (f2 k (by omega) h1).trans (hz k h2)⟩
          (by omega) (fun j hj => g2 j (by omega)) (write_words _ _ i hk (by omega) (by omega))
        rw [hlen] at e3
        obtain ⟨I1, I2, I3, I4, I5⟩ := i3
        rw [e3, Option.bind_some, wr_some (by omega), Option.bind_some]
        rw [List.nil_append] at I1 I2
        obtain ⟨m4, e4, x4⟩ := bspBlocks_spec x n N hx h32 fuel (i + b) (m3.1.set bs 0#32) m3.2
          (fun h => by omega)
          hb1.2.1 (by rw [Nat.succ_mul] at hf; omega) hN (by rw [List.length_set, I3])
          (fun k hk => by
            rcases Nat.lt_trichotomy k bs with h | h | h
            · rw [List.getElem?_set_ne (by omega)]; exact I4 k h
            · subst h; exact List.getElem?_set_self (by omega)
            · rw [List.getElem?_set_ne (by omega)]; exact I5 k h hk)
          (by rw [I2.len]; exact hd)
        rw [hcc] at e4 x4
        refine ⟨m4, e4, ?_⟩
        rw [show n - i = b + (n - (i + b)) by omega, P_add, List.map_append, hcP]
        rw [hcx.P] at I2 I1
        refine I2.append ?_
        rw [List.length_map, I1]
        exact x4
    · have hd' := cnt_mono (bitF x) hin
      have : n - i = 0 := by omega
      rw [this, P_zero]
      refine ⟨d, ?_, Ext.nil (by omega)⟩
      cases fuel with
      | zero => rw [bspBlocks, if_neg hlt]
      | succ fuel => rw [bspBlocks, if_neg hlt]

end Verif.Slash
