import Verif.Slash.WhereLemmas
/-!
# Indices of a boolean list: the whole function
-/
namespace Verif.Slash
open Verif.Bits Verif.Fold

/-- The size of the next block, and what is in it. -/
theorem next_block {x : Nat → Word} {n i : Nat} (hx : Clean x n) (hi : i % 64 = 0) (hlt : i < n) {b bs : Nat}
    (hb : (if bspMax > n - i then n - i else bspMax) = b)
    (hbs : (if bspMax > n - i then cnt (bitF x) n - cnt (bitF x) i else bit_sum (fun k => x (i / 64 + k)) b) = bs) :
    b ≤ bspMax ∧ i + b ≤ n ∧ (i + b = n ∨ b = bspMax) ∧ 0 < b ∧ Clean (fun k => x (i / 64 + k)) b ∧ bs = cnt (bitF fun k => x (i / 64 + k)) b ∧
    cnt (bitF x) (i + b) = cnt (bitF x) i + bs ∧ P (bitF x) i b = (P (bitF fun k => x (i / 64 + k)) 0 b).map (i + ·) ∧ (i + b < n → (i + b) % 64 = 0) := by
  have hb1 : b ≤ bspMax ∧ i + b ≤ n ∧ (i + b = n ∨ b = bspMax) ∧ 0 < b := by
    unfold bspMax at hb ⊢
    split at hb <;> omega
  have hb64 : i + b = n ∨ b % 64 = 0 := by
    rcases hb1.2.2.1 with h | h
    · exact Or.inl h
    · exact Or.inr (by rw [h]; decide)
  obtain ⟨hcx, hcc, hcP⟩ := block_facts hx hi hb64
  have hbs' : bs = cnt (bitF fun k => x (i / 64 + k)) b := by
    rw [← hbs]
    split
    · rename_i h
      rw [if_pos h] at hb
      have : i + b = n := by omega
      rw [this] at hcc
      omega
    · exact bit_sum_eq _ _
  exact ⟨hb1.1, hb1.2.1, hb1.2.2.1, hb1.2.2.2, hcx, hbs', by omega, hcP, by omega⟩

theorem where32_spec (x : Nat → Word) (n s : Nat) (hx : Clean x n) (h32 : n < 2^32) (hs : s = cnt (bitF x) n) : ∀ (fuel i : Nat) (m : List (BitVec 32)),
    (i < n → i % 64 = 0) → i ≤ n → n ≤ i + fuel * bspMax → s < m.length →
    ∃ m', where32 x n s fuel i m (cnt (bitF x) i) = some m' ∧ Ext m (cnt (bitF x) i) ((P (bitF x) i (n - i)).map (BitVec.ofNat 32)) m'
  | fuel, i, m, hi, hin, hf, hm => by
    have hmono0 := cnt_mono (bitF x) hin
    by_cases hlt : i < n
    · have hi := hi hlt
      cases fuel with
      | zero => omega
      | succ fuel =>
        rw [where32, if_pos hlt]
        dsimp only
        generalize hb : (if bspMax > n - i then n - i else bspMax) = b
        generalize hbs : (if bspMax > n - i then s - cnt (bitF x) i else bit_sum (fun k => x (i / 64 + k)) b) = bs
        rw [hs] at hbs
        obtain ⟨hb1, hb2, hb3, hb0, hcx, hbe, hcc, hcP, hi'⟩ := next_block hx hi hlt hb hbs
        have hmono := cnt_mono (bitF x) hb2
        have step : ∃ m1, (if bs ≥ b / 2 then whereDense (BitVec.ofNat 32) (fun k => x (i / 64 + k)) m (cnt (bitF x) i) b i
            else if bs ≥ b / 256 then bspBlock32 (fun k => x (i / 64 + k)) m (cnt (bitF x) i) b bs i
            else sparse (BitVec.ofNat 32) x (cnt (bitF x) i + bs) ((b + 63) / 64) (i / 64) m (cnt (bitF x) i)) = some m1 ∧
            Ext m (cnt (bitF x) i) ((P (bitF x) i b).map (BitVec.ofNat 32)) m1 := by
          by_cases h1 : bs ≥ b / 2
          · rw [if_pos h1]
            obtain ⟨m1, e1, x1⟩ := whereDense_spec (BitVec.ofNat 32) (fun k => x (i / 64 + k)) m (cnt (bitF x) i) b i hcx.byte (Or.inl (by omega))
            refine ⟨m1, e1, ?_⟩
            rw [hcP, List.map_map]
            exact x1
          rw [if_neg h1]
          by_cases h2 : bs ≥ b / 256
          · rw [if_pos h2]
            obtain ⟨m1, e1, x1⟩ := bspBlock32_spec (fun k => x (i / 64 + k)) m (cnt (bitF x) i) b bs i hb1 hcx hbe (by omega) (by omega) (by omega)
            refine ⟨m1, e1, ?_⟩
            rw [hcP, List.map_map]
            exact x1
          · rw [if_neg h2]
            have h64 : 64 * (i / 64) = i := by omega
            have hcnt : cnt (fun j => bitF x (64 * (i / 64) + j)) (64 * ((b + 63) / 64)) = bs := by
              rw [hbe, ← hcx.cnt]
              exact cnt_congr fun j _ => by rw [h64, bitF_block x hi]
            obtain ⟨m1, e1, x1⟩ := sparse_spec (BitVec.ofNat 32) x (cnt (bitF x) i + bs) ((b + 63) / 64) (i / 64) m (cnt (bitF x) i) (by omega) (by omega)
            refine ⟨m1, e1, ?_⟩
            rw [h64] at x1
            have : P (bitF x) i (64 * ((b + 63) / 64)) = P (bitF x) i b := by
              rw [hcP, ← hcx.P]
              have := P_shift (bitF x) i 0 (64 * ((b + 63) / 64))
              rw [Nat.add_zero] at this
              rw [this]
              congr 1
              exact P_congr fun j _ _ => (bitF_block x hi j).symm
            rwa [this] at x1
        obtain ⟨m1, e1, x1⟩ := step
        rw [e1, Option.bind_some]
        obtain ⟨m2, e2, x2⟩ := where32_spec x n s hx h32 hs fuel (i + b) m1 hi' hb2 (by rw [Nat.succ_mul] at hf; omega) (by rw [x1.len]; exact hm)
        rw [hcc] at e2 x2
        refine ⟨m2, e2, ?_⟩
        rw [show n - i = b + (n - (i + b)) by omega, P_add, List.map_append]
        refine x1.append ?_
        rw [List.length_map, P_length]
        have : cnt (fun k => bitF x (i + k)) b = bs := by rw [cnt_add] at hcc; omega
        rw [this]
        exact x2
    · have : n - i = 0 := by omega
      rw [this, P_zero]
      refine ⟨m, ?_, Ext.nil (by omega)⟩
      cases fuel with
      | zero => rw [where32, if_neg hlt]
      | succ fuel => rw [where32, if_neg hlt]

theorem addAll_spec (i : Nat) (buf : List (BitVec 16)) (p : Nat) (vs : List Nat) (hb : ∀ k, k < vs.length → buf[k]? = (vs[k]?).map (BitVec.ofNat 16))
    (hv : ∀ v ∈ vs, v < 65536 ∧ i + v < 4294967296) : ∀ (k j : Nat) (m : List Nat), j + k = vs.length → p + vs.length ≤ m.length →
    ∃ m', addAll i buf p k j m = some m' ∧ Ext m (p + j) ((vs.drop j).map (i + ·)) m'
  | 0, j, m, h, hm => by
    refine ⟨m, rfl, ?_⟩
    rw [List.drop_eq_nil_of_le (by omega)]
    exact Ext.nil (by omega)
  | k + 1, j, m, h, hm => by
    have hj : j < vs.length := by omega
    have ⟨hv1, hv2⟩ := hv vs[j] (List.getElem_mem hj)
    rw [addAll, hb j hj, List.getElem?_eq_getElem hj, Option.map_some, Option.bind_some, BitVec.toNat_ofNat,
      Nat.mod_eq_of_lt (by omega : vs[j] < 2^16), Nat.mod_eq_of_lt hv2, wr_some (by omega), Option.bind_some]
    obtain ⟨m', e, hx⟩ := addAll_spec i buf p vs hb hv k (j + 1) (m.set (p + j) (i + vs[j])) (by omega) (by rw [List.length_set]; exact hm)
    refine ⟨m', e, ?_⟩
    rw [List.drop_eq_getElem_cons hj, List.map_cons]
    exact (wr_ext (by omega) _).append hx

theorem whereF64_spec (x : Nat → Word) (n s : Nat) (hx : Clean x n) (h32 : n < 2^32) (hs : s = cnt (bitF x) n) :
    ∀ (fuel i : Nat) (buf : List (BitVec 16)) (m : List Nat), (i < n → i % 64 = 0) → i ≤ n → n ≤ i + fuel * bspMax → bspMax ≤ buf.length → s ≤ m.length →
    ∃ m', whereF64 x n s fuel i buf m (cnt (bitF x) i) = some m' ∧ Ext m (cnt (bitF x) i) (P (bitF x) i (n - i)) m'
  | fuel, i, buf, m, hi, hin, hf, hbuf, hm => by
    have hmono0 := cnt_mono (bitF x) hin
    by_cases hlt : i < n
    · have hi := hi hlt
      cases fuel with
      | zero => omega
      | succ fuel =>
        rw [whereF64, if_pos hlt]
        dsimp only
        generalize hb : (if bspMax > n - i then n - i else bspMax) = b
        generalize hbs : (if bspMax > n - i then s - cnt (bitF x) i else bit_sum (fun k => x (i / 64 + k)) b) = bs
        rw [hs] at hbs
        obtain ⟨hb1, hb2, hb3, hb0, hcx, hbe, hcc, hcP, hi'⟩ := next_block hx hi hlt hb hbs
        have hmono := cnt_mono (bitF x) hb2
        obtain ⟨buf1, e1, x1⟩ := whereBlock_spec (fun k => x (i / 64 + k)) buf b bs hb1 hcx hbe hbuf
        have hlen : (P (bitF fun k => x (i / 64 + k)) 0 b).length = bs := by rw [P_length0, hbe]
        rw [e1, Option.bind_some]
        obtain ⟨m1, e2, x2⟩ := addAll_spec i buf1 (cnt (bitF x) i) (P (bitF fun k => x (i / 64 + k)) 0 b)
          (fun k hk => by
            have := x1.new k (by rw [List.length_map]; exact hk)
            rw [Nat.zero_add, List.getElem?_map] at this
            exact this)
          (fun v hv => by
            have := P_mem hv
            unfold bspMax at hb1
            omega) bs 0 m (by omega) (by omega)
        rw [e2, Option.bind_some]
        rw [List.drop_zero, Nat.add_zero, ← hcP] at x2
        obtain ⟨m2, e3, x3⟩ := whereF64_spec x n s hx h32 hs fuel (i + b) buf1 m1 hi' hb2 (by rw [Nat.succ_mul] at hf; omega) (by rw [x1.len]; exact hbuf)
          (by rw [x2.len]; exact hm)
        rw [hcc] at e3 x3
        refine ⟨m2, e3, ?_⟩
        rw [show n - i = b + (n - (i + b)) by omega, P_add]
        refine x2.append ?_
        rw [P_length]
        have : cnt (fun k => bitF x (i + k)) b = bs := by rw [cnt_add] at hcc; omega
        rw [this]
        exact x3
    · have : n - i = 0 := by omega
      rw [this, P_zero]
      refine ⟨m, ?_, Ext.nil (by omega)⟩
      cases fuel with
      | zero => rw [whereF64, if_neg hlt]
      | succ fuel => rw [whereF64, if_neg hlt]

theorem low_mask (w : Word) {k i : Nat} (hk : k < 64) : (w &&& ((1#64 <<< k) - 1#64)).getLsbD i = (decide (i < k) && w.getLsbD i) := by
  rw [BitVec.getLsbD_and]
  have h1 : (1#64 <<< k).toNat = 2^k := by
    rw [BitVec.toNat_shiftLeft, Nat.shiftLeft_eq]
    show 1 * 2^k % 2^64 = _
    rw [Nat.one_mul, Nat.mod_eq_of_lt (Nat.pow_lt_pow_right (by omega) hk)]
  have h2 : ((1#64 <<< k) - 1#64).toNat = 2^k - 1 := by
    rw [BitVec.toNat_sub, h1]
    have : 0 < 2^k := Nat.two_pow_pos k
    have h3 : 2^k < 2^64 := Nat.pow_lt_pow_right (by omega) hk
    show (2^64 - 1 + 2^k) % 2^64 = _
    omega
  have : ((1#64 <<< k) - 1#64).getLsbD i = decide (i < k) := by
    rw [BitVec.getLsbD, h2, Nat.testBit_two_pow_sub_one]
  rw [this, Bool.and_comm]

theorem bitF_trim (x : Nat → Word) (n i : Nat) (h : i < 64 * ((n + 63) / 64)) : bitF (trim x n) i = (decide (i < n) && bitF x i) := by
  unfold bitF trim
  split
  · rename_i hh
    rw [low_mask _ (by omega)]
    have : (i % 64 < n % 64) = (i < n) := propext (by omega)
    simp only [this]
  · rename_i hh
    have : i < n := by omega
    rw [decide_eq_true this, Bool.true_and]

theorem length_fresh {α} (junk : Nat → α) (n : Nat) : (fresh junk n).length = n := by unfold fresh; simp

/-- `where` gives the positions of ones. -/
theorem where_spec (x : Nat → Word) (n s : Nat) (junk : Nat → Word) (hn : n < 2^32) (hs : s = cnt (bitF x) n) :
    (where_ x n s junk).map Ints.elems = some ((P (bitF x) 0 n).map Int.ofNat) := by
  have hx : Clean (trim x n) n := by
    intro i h1 h2
    rw [bitF_trim x n i h2, decide_eq_false (by omega)]
    rfl
  have hP : P (bitF (trim x n)) 0 n = P (bitF x) 0 n := P_congr fun i _ hi => by
    rw [bitF_trim x n i (by omega), decide_eq_true (by omega), Bool.true_and]
  have hc : cnt (bitF (trim x n)) n = s := by
    rw [hs]
    exact cnt_congr fun i hi => by rw [bitF_trim x n i (by omega), decide_eq_true (by omega), Bool.true_and]
  have hlen : (P (bitF x) 0 n).length = s := by rw [P_length0, hs]
  have hmem : ∀ v ∈ P (bitF x) 0 n, v < n := fun v hv => by have := P_mem hv; omega
  unfold where_
  dsimp only
  rw [← hP] at hlen hmem ⊢
  generalize trim x n = y at *
  have hsp : ∀ {α} (f : Nat → α) (m : List α), m.length = s → sparse f y s ((n + 63) / 64) 0 m 0 = some ((P (bitF y) 0 n).map f) := by
    intro α f m hm
    have hcc : cnt (fun i => bitF y (64 * 0 + i)) (64 * ((n + 63) / 64)) = s := by
      rw [← hc, ← hx.cnt]
      exact cnt_congr fun i _ => by rw [Nat.mul_zero, Nat.zero_add]
    obtain ⟨m', e, h⟩ := sparse_spec f y s ((n + 63) / 64) 0 m 0 (by omega) (by omega)
    rw [Nat.mul_zero, hx.P] at h
    rw [e, h.all (by rw [List.length_map]; omega)]
  have conv : ∀ (w : Nat), n ≤ 2^(w - 1) → 0 < w → (P (bitF y) 0 n).map (fun i => (BitVec.ofNat w i).toInt) = (P (bitF y) 0 n).map Int.ofNat := by
    intro w hw h0
    apply List.map_congr_left
    intro v hv
    have h1 : v < 2^(w - 1) := Nat.lt_of_lt_of_le (hmem v hv) hw
    have h2 : 2^w = 2 * 2^(w - 1) := by
      obtain ⟨k, rfl⟩ : ∃ k, w = k + 1 := ⟨w - 1, by omega⟩
      rw [Nat.add_sub_cancel, Nat.pow_succ]
      omega
    rw [BitVec.toInt_eq_toNat_of_lt]
    · rw [BitVec.toNat_ofNat, Nat.mod_eq_of_lt (by omega)]
      rfl
    · rw [BitVec.toNat_ofNat, Nat.mod_eq_of_lt (by omega)]
      omega
  by_cases h1 : n ≤ 128
  · rw [if_pos h1, hsp _ _ (length_fresh _ _)]
    show some (List.map _ (List.map _ _)) = _
    rw [List.map_map]
    exact congrArg some (conv 8 h1 (by omega))
  rw [if_neg h1]
  by_cases h2 : n ≤ 32768
  · rw [if_pos h2]
    by_cases h3 : s ≥ n / 4 + n / 8
    · rw [if_pos h3]
      obtain ⟨m', e, h⟩ := whereDense_spec (BitVec.ofNat 16) y (fresh (fun i => (junk i).setWidth 16) (s + 1)) 0 n 0 hx.byte
        (Or.inl (by rw [length_fresh]; omega))
      have ht := h.take
      rw [List.length_map, hlen] at ht
      rw [e, Option.map_some, Option.map_some, ht]
      show some (List.map _ (List.map _ _)) = _
      rw [List.map_map]
      have := conv 16 h2 (by omega)
      rw [← this]
      congr 1
      apply List.map_congr_left
      intro v _
      show (BitVec.ofNat 16 (0 + v)).toInt = _
      rw [Nat.zero_add]
    rw [if_neg h3]
    by_cases h4 : s ≥ n / 128
    · rw [if_pos h4]
      generalize hfr : fresh (fun i => (junk i).setWidth 16) s = m
      have hml : m.length = s := by rw [← hfr, length_fresh]
      unfold bspU16
      dsimp only
      generalize hN : (if bspMax < s then bspMax else s) = N
      generalize hB : (List.range (N + 1)).map (fun i => (junk i).setWidth 32) = b0
      have hb0 : b0.length = N + 1 := by rw [← hB]; simp
      obtain ⟨m1, e1, o1, z1, _⟩ := clear_spec (law32 b0 0) N 0 b0 ⟨rfl, fun _ _ => rfl⟩ (by omega)
      rw [e1, Option.bind_some]
      obtain ⟨m2, e2, x2⟩ := bspBlocks_spec y n N hx hn (n / bspMax + 1) 0 m1 m (fun _ => rfl) (by omega)
        (by unfold bspMax; omega) (by rw [hc, ← hN]; split <;> omega) (by rw [o1.1, hb0])
        (fun j hj => by
          have := z1 j (by omega) (by omega)
          have e : (buf32 0).rd m1 j = m1[0 + j]? := rfl
          rw [e, Nat.zero_add] at this
          exact this) (by omega)
      have e2' : bspBlocks y n (n / bspMax + 1) 0 0 (m1, m) = some m2 := e2
      rw [e2']
      have x2' : Ext m 0 ((P (bitF y) 0 n).map (BitVec.ofNat 16)) m2 := x2
      have := x2'.all (by rw [List.length_map]; omega)
      rw [this]
      show some (List.map _ (List.map _ _)) = _
      rw [List.map_map]
      exact congrArg some (conv 16 h2 (by omega))
    · rw [if_neg h4, hsp _ _ (length_fresh _ _)]
      show some (List.map _ (List.map _ _)) = _
      rw [List.map_map]
      exact congrArg some (conv 16 h2 (by omega))
  rw [if_neg h2]
  by_cases h5 : n ≤ 2147483648
  · rw [if_pos h5]
    obtain ⟨m', e, h⟩ := where32_spec y n s hx hn hc.symm (n / bspMax + 1) 0 (fresh (fun i => (junk i).setWidth 32) (s + 1)) (fun _ => rfl) (by omega)
      (by unfold bspMax; omega) (by rw [length_fresh]; omega)
    have h' : Ext _ 0 ((P (bitF y) 0 n).map (BitVec.ofNat 32)) m' := h
    have ht := h'.take
    rw [List.length_map, hlen] at ht
    have e' : where32 y n s (n / bspMax + 1) 0 (fresh (fun i => (junk i).setWidth 32) (s + 1)) 0 = some m' := e
    rw [e', Option.map_some, Option.map_some, ht]
    show some (List.map _ (List.map _ _)) = _
    rw [List.map_map]
    exact congrArg some (conv 32 h5 (by omega))
  · rw [if_neg h5]
    obtain ⟨m', e, h⟩ := whereF64_spec y n s hx hn hc.symm (n / bspMax + 1) 0 (fresh (fun i => (junk i).setWidth 16) bspMax) (fresh (fun i => (junk i).toNat) s)
      (fun _ => rfl) (by omega) (by unfold bspMax; omega) (by rw [length_fresh]; exact Nat.le_refl _) (by rw [length_fresh]; exact Nat.le_refl _)
    have h' : Ext _ 0 (P (bitF y) 0 n) m' := h
    have e' : whereF64 y n s (n / bspMax + 1) 0 (fresh (fun i => (junk i).setWidth 16) bspMax) (fresh (fun i => (junk i).toNat) s) 0 = some m' := e
    rw [e', h'.all (by rw [length_fresh]; omega)]
    rfl

end Verif.Slash
