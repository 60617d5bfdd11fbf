import Verif.Slash.Basic
/-!
# Indices and Replicate: lemmas about the branchless loops
-/
namespace Verif.Slash
open Verif.Bits Verif.Fold

/-! ## The values of the buffer -/

theorem ctz32_spec {v : BitVec 32} {c : Nat} (h1 : v.getLsbD c = true) (h0 : ∀ i, i < c → v.getLsbD i = false) : ctz32 v = some c := by
  have hc : c < 32 := BitVec.lt_of_getLsbD h1
  unfold ctz32
  rw [List.find?_range_eq_some]
  exact ⟨h1, List.mem_range.2 hc, fun j hj => by rw [h0 j hj]; rfl⟩

/-- `BSP_WRITE`, from a list of buffered values. -/
def writePure : Word → List (BitVec 32) → Option (List Nat)
  | _, [] => some []
  | t, v :: vs =>
    (ctz32 ((t + v.setWidth 64).setWidth 32)).bind fun c =>
    (writePure ((t + v.setWidth 64) &&& (t + v.setWidth 64 - 1#64)) vs).map fun r => (8 * ((t + v.setWidth 64) >>> 24).toNat + c) :: r

theorem cnt_pos_first {b : Nat → Bool} : ∀ {n : Nat}, 0 < cnt b n → ∃ c, c < n ∧ b c = true ∧ ∀ i, i < c → b i = false
  | 0, h => absurd h (Nat.lt_irrefl 0)
  | n + 1, h => by
    rcases Nat.eq_zero_or_pos (cnt b n) with h0 | h0
    · have hb : b n = true := by
        rw [cnt, h0] at h
        by_cases hb : b n = true
        · exact hb
        · rw [if_neg hb] at h; omega
      refine ⟨n, by omega, hb, fun i hi => ?_⟩
      cases hbi : b i with
      | false => rfl
      | true =>
        obtain ⟨d, hd⟩ := Nat.le.dest (show i + 1 ≤ n from hi)
        rw [← hd, cnt_add, cnt, if_pos hbi] at h0
        omega
    · obtain ⟨c, h1, h2, h3⟩ := cnt_pos_first h0
      exact ⟨c, by omega, h2, h3⟩

theorem cnt_first {b : Nat → Bool} {n c : Nat} (hc : c < n) (h1 : b c = true) (h0 : ∀ i, i < c → b i = false) :
    cnt b n = cnt (fun i => b i && decide (i ≠ c)) n + 1 := by
  rw [← P_length0, P_first hc h1 h0, List.length_cons, P_length0]

theorem drain (rest : List (BitVec 32)) : ∀ (n : Nat) (T : Word), cnt T.getLsbD 24 = n →
    writePure T (List.replicate n 0#32 ++ rest) = (writePure (T >>> 24 <<< 24) rest).map fun r => (P T.getLsbD 0 24).map (8 * (T >>> 24).toNat + ·) ++ r
  | 0, T, h => by
    have hT : T = T >>> 24 <<< 24 := by
      apply word_ext
      intro i hi
      rw [BitVec.getLsbD_shiftLeft, BitVec.getLsbD_ushiftRight]
      by_cases h24 : i < 24
      · cases hb : T.getLsbD i with
        | false => simp [h24]
        | true =>
          obtain ⟨d, hd⟩ := Nat.le.dest (show i + 1 ≤ 24 from h24)
          rw [← hd, cnt_add, cnt, if_pos hb] at h
          omega
      · rw [show 24 + (i - 24) = i by omega]
        simp [h24]
        intro hh
        exact BitVec.lt_of_getLsbD hh
    have hP : P T.getLsbD 0 24 = [] := List.eq_nil_of_length_eq_zero (by rw [P_length0, h])
    rw [← hT, hP]
    simp
  | n + 1, T, h => by
    obtain ⟨c, c1, c2, c3⟩ := cnt_pos_first (by omega : 0 < cnt T.getLsbD 24)
    have hcl := clear_lowest T c2 c3
    have hz : T + (0#32).setWidth 64 = T := by simp
    rw [List.replicate_succ, List.cons_append, writePure, hz, ctz32_spec (c := c) ?_ ?_, Option.bind_some]
    · have hn : cnt (T &&& (T - 1#64)).getLsbD 24 = n := by
        have := cnt_first c1 c2 c3
        rw [cnt_congr (fun i _ => (hcl i).symm)] at this
        omega
      have hs : (T &&& (T - 1#64)) >>> 24 = T >>> 24 := by
        apply word_ext
        intro i hi
        rw [BitVec.getLsbD_ushiftRight, BitVec.getLsbD_ushiftRight, hcl, decide_eq_true (by omega), Bool.and_true]
      rw [drain rest n _ hn, hs, P_first c1 c2 c3, P_congr (fun i _ _ => hcl i), Option.map_map]
      rfl
    · rw [BitVec.getLsbD_setWidth, decide_eq_true (by omega), c2]; rfl
    · intro i hi
      rw [BitVec.getLsbD_setWidth, c3 i hi, Bool.and_false]

/-- What a group adds: so many bytes further, and bits there. -/
abbrev Group := BitVec 32 × BitVec 32

def gpop (p : BitVec 32) : Nat := POPC (p.setWidth 64)

/-- The buffer after `bsp_fill`. -/
def fillPure : BitVec 32 → List Group → List (BitVec 32)
  | _, [] => []
  | acc, (a, p) :: gs =>
    match gpop p with
    | 0 => fillPure (acc + ((a * bspTop) ||| p)) gs
    | n + 1 => (acc + ((a * bspTop) ||| p)) :: (List.replicate n 0#32 ++ fillPure 0#32 gs)

/-- The positions in groups; `d` is two more than the byte where they begin. -/
def posns : Nat → List Group → List Nat
  | _, [] => []
  | d, (a, p) :: gs => (P p.getLsbD 0 24).map (8 * (d + a.toNat - 2) + ·) ++ posns (d + a.toNat) gs

def advance : List Group → Nat
  | [] => 0
  | (a, _) :: gs => a.toNat + advance gs

def gtotal : List Group → Nat
  | [] => 0
  | (_, p) :: gs => gpop p + gtotal gs

theorem gpop_eq {p : BitVec 32} (hp : p.toNat < 2^24) : gpop p = cnt p.getLsbD 24 := by
  unfold gpop
  rw [POPC_eq, show 64 = 24 + 40 from rfl, cnt_add]
  have h1 : cnt (p.setWidth 64).getLsbD 24 = cnt p.getLsbD 24 := cnt_congr fun i hi => by
    rw [BitVec.getLsbD_setWidth, decide_eq_true (by omega), Bool.true_and]
  have h2 : cnt (fun i => (p.setWidth 64).getLsbD (24 + i)) 40 = 0 := by
    refine (cnt_congr fun i hi => ?_).trans (cnt_false 40)
    rw [BitVec.getLsbD_setWidth, BitVec.getLsbD, Nat.testBit_lt_two_pow (Nat.lt_of_lt_of_le hp (Nat.pow_le_pow_right (by omega) (by omega))), Bool.and_false]
  rw [h1, h2, Nat.add_zero]

theorem group_val {a p : BitVec 32} (ha : a.toNat < 256) (hp : p.toNat < 2^24) : ((a * bspTop) ||| p).toNat = a.toNat * 2^24 + p.toNat := by
  rw [BitVec.toNat_or, BitVec.toNat_mul]
  have : bspTop.toNat = 2^24 := by decide
  rw [this, Nat.mod_eq_of_lt (by omega), Nat.mul_comm, ← Nat.two_pow_add_eq_or_of_lt hp]

theorem write_fill : ∀ (gs : List Group) (acc : BitVec 32) (t : Word) (D E : Nat),
    (∀ g ∈ gs, 2 ≤ g.1.toNat ∧ g.2.toNat < 2^24) →
    acc.toNat = E * 2^24 → E + advance gs < 256 → (t.toNat + acc.toNat + 2^25) % 2^64 = D * 2^24 → (D + advance gs) < 2^40 →
    writePure t (fillPure acc gs) = some (posns D gs) := by
  intro gs
  induction gs with
  | nil => intros; rfl
  | cons g gs ih =>
    obtain ⟨a, p⟩ := g
    intro acc t D E hg hacc hE hD h40
    have ⟨ha, hp⟩ := hg (a, p) (List.mem_cons_self ..)
    have hg' : ∀ g ∈ gs, 2 ≤ g.1.toNat ∧ g.2.toNat < 2^24 := fun g h => hg g (List.mem_cons_of_mem _ h)
    dsimp only at ha hp
    rw [advance] at hE h40
    have hv := group_val (show a.toNat < 256 by omega) hp
    have hsum : (acc + ((a * bspTop) ||| p)).toNat = (E + a.toNat) * 2^24 + p.toNat := by
      rw [BitVec.toNat_add, hv, Nat.mod_eq_of_lt (by omega)]
      omega
    have hpc := gpop_eq hp
    have htt := t.isLt
    have hT : (t + (acc + ((a * bspTop) ||| p)).setWidth 64).toNat = (D + a.toNat - 2) * 2^24 + p.toNat := by
      rw [BitVec.toNat_add, BitVec.toNat_setWidth, hsum]
      omega
    rw [fillPure, posns]
    cases hn : gpop p with
    | zero =>
      dsimp only
      have hz : p.toNat = 0 := by
        apply Nat.eq_of_testBit_eq
        intro i
        rw [Nat.zero_testBit]
        cases hb : p.toNat.testBit i with
        | false => rfl
        | true =>
          have h24 : i < 24 := by
            rcases Nat.lt_or_ge i 24 with h | h
            · exact h
            · rw [Nat.testBit_lt_two_pow (Nat.lt_of_lt_of_le hp (Nat.pow_le_pow_right (by omega) h))] at hb
              cases hb
          obtain ⟨d, hd⟩ := Nat.le.dest (show i + 1 ≤ 24 from h24)
          rw [hn, ← hd, cnt_add, cnt, if_pos (show p.getLsbD i = true from hb)] at hpc
          omega
      have hP : P p.getLsbD 0 24 = [] := List.eq_nil_of_length_eq_zero (by rw [P_length0, ← hpc, hn])
      rw [hP]
      refine (ih _ t (D + a.toNat) (E + a.toNat) hg' (by rw [hsum, hz]; omega) (by omega) (by rw [hsum]; omega) (by omega)).trans ?_
      rfl
    | succ n =>
      dsimp only
      rw [writePure]
      generalize hTe : t + (acc + ((a * bspTop) ||| p)).setWidth 64 = T at hT ⊢
      have hlow : ∀ i, i < 24 → T.getLsbD i = p.getLsbD i := by
        intro i hi
        rw [BitVec.getLsbD, BitVec.getLsbD, hT, Nat.mul_comm, Nat.testBit_two_pow_mul_add _ hp, if_pos hi]
      have hcnt : cnt T.getLsbD 24 = n + 1 := by rw [cnt_congr hlow, ← hpc, hn]
      have h24 : (T >>> 24).toNat = D + a.toNat - 2 := by
        rw [BitVec.toNat_ushiftRight, Nat.shiftRight_eq_div_pow, hT]
        omega
      have hdr := drain (fillPure 0#32 gs) (n + 1) T hcnt
      rw [List.replicate_succ, List.cons_append, writePure, show T + (0#32).setWidth 64 = T by simp] at hdr
      rw [hdr, h24]
      rw [ih 0#32 (T >>> 24 <<< 24) (D + a.toNat) 0 hg' rfl (by omega) ?_ (by omega), Option.map_some,
        P_congr (fun i _ hi => hlow i (by omega))]
      rw [BitVec.toNat_shiftLeft, h24, Nat.shiftLeft_eq]
      have : (0#32).toNat = 0 := rfl
      rw [this]
      omega

/-- The groups of words. -/
def wordGroups (x : Nat → Word) : Nat → Nat → List Group
  | 0, _ => []
  | k + 1, i => (2#32, (x i &&& bspMask).setWidth 32) :: (3#32, ((x i >>> 24) &&& bspMask).setWidth 32) ::
      (3#32, (x i >>> 24 >>> 24).setWidth 32) :: wordGroups x k (i + 1)

theorem mask24 (v : Word) : (v &&& bspMask).toNat = v.toNat % 2^24 := by
  rw [BitVec.toNat_and]
  have : bspMask.toNat = 2^24 - 1 := by decide
  rw [this, Nat.and_two_pow_sub_one_eq_mod]

theorem g1_nat (v : Word) : ((v &&& bspMask).setWidth 32).toNat = v.toNat % 2^24 := by
  rw [BitVec.toNat_setWidth, mask24]; omega

theorem g3_nat (v : Word) : ((v >>> 24 >>> 24).setWidth 32).toNat = v.toNat / 2^48 := by
  rw [BitVec.toNat_setWidth, BitVec.toNat_ushiftRight, BitVec.toNat_ushiftRight, Nat.shiftRight_eq_div_pow, Nat.shiftRight_eq_div_pow]
  have := v.isLt
  omega

theorem wordGroups_ok (x : Nat → Word) : ∀ (k i : Nat), ∀ g ∈ wordGroups x k i, 2 ≤ g.1.toNat ∧ g.2.toNat < 2^24
  | 0, _, g, h => by cases h
  | k + 1, i, g, h => by
    rw [wordGroups] at h
    rcases List.mem_cons.1 h with rfl | h
    · exact ⟨by show 2 ≤ (2#32).toNat; decide, by rw [g1_nat]; omega⟩
    rcases List.mem_cons.1 h with rfl | h
    · exact ⟨by show 2 ≤ (3#32).toNat; decide, by rw [g1_nat]; omega⟩
    rcases List.mem_cons.1 h with rfl | h
    · refine ⟨by show 2 ≤ (3#32).toNat; decide, ?_⟩
      rw [g3_nat]
      have := (x i).isLt
      omega
    · exact wordGroups_ok x k (i + 1) g h

theorem wordGroups_advance (x : Nat → Word) : ∀ (k i : Nat), advance (wordGroups x k i) = 8 * k
  | 0, _ => rfl
  | k + 1, i => by
    rw [wordGroups, advance, advance, advance, wordGroups_advance x k]
    have h2 : (2#32).toNat = 2 := rfl
    have h3 : (3#32).toNat = 3 := rfl
    omega

theorem g1_bit (v : Word) (i : Nat) (hi : i < 24) : ((v &&& bspMask).setWidth 32).getLsbD i = v.getLsbD i := by
  rw [BitVec.getLsbD, g1_nat, Nat.testBit_mod_two_pow, decide_eq_true hi, Bool.true_and]
  rfl

theorem g3_bit (v : Word) (i : Nat) : ((v >>> 24 >>> 24).setWidth 32).getLsbD i = v.getLsbD (48 + i) := by
  rw [BitVec.getLsbD, g3_nat, Nat.testBit_div_two_pow, BitVec.getLsbD, Nat.add_comm]

theorem posns_words (x : Nat → Word) (D : Nat) : ∀ (k i : Nat),
    posns (D + 8 * i) (wordGroups x k i) = (P (bitF x) (64 * i) (64 * k)).map (8 * D + ·)
  | 0, _ => rfl
  | k + 1, i => by
    rw [wordGroups, posns, posns, posns]
    have h2 : (2#32).toNat = 2 := rfl
    have h3 : (3#32).toNat = 3 := rfl
    rw [h2, h3, show D + 8 * i + 2 + 3 + 3 = D + 8 * (i + 1) by omega, posns_words x D k (i + 1)]
    rw [show 64 * (k + 1) = 24 + (24 + (16 + 64 * k)) by omega, P_add, P_add, P_add]
    simp only [List.map_append]
    have hs : ∀ o n, o + n ≤ 64 → P (bitF x) (64 * i + o) n = (P (fun j => (x i).getLsbD (o + j)) 0 n).map (64 * i + o + ·) := by
      intro o n h
      have := P_shift (bitF x) (64 * i + o) 0 n
      rw [Nat.add_zero] at this
      rw [this]
      congr 1
      apply P_congr
      intro j _ hj
      rw [Nat.add_assoc, bitF_word x i _ (by omega)]
    have e1 : P (bitF x) (64 * i) 24 = _ := hs 0 24 (by omega)
    have e2 := hs 24 24 (by omega)
    have e3 := hs 48 16 (by omega)
    have p1 : P ((x i &&& bspMask).setWidth 32).getLsbD 0 24 = P (fun j => (x i).getLsbD (0 + j)) 0 24 :=
      P_congr fun j _ hj => by rw [g1_bit _ _ (by omega), Nat.zero_add]
    have p2 : P (((x i >>> 24) &&& bspMask).setWidth 32).getLsbD 0 24 = P (fun j => (x i).getLsbD (24 + j)) 0 24 :=
      P_congr fun j _ hj => by rw [g1_bit _ _ (by omega), BitVec.getLsbD_ushiftRight]
    have p3 : P ((x i >>> 24 >>> 24).setWidth 32).getLsbD 0 24 = P (fun j => (x i).getLsbD (48 + j)) 0 16 := by
      rw [show 24 = 16 + 8 from rfl, P_add]
      have : P ((x i >>> (16 + 8) >>> (16 + 8)).setWidth 32).getLsbD (0 + 16) 8 = [] := by
        apply List.eq_nil_of_length_eq_zero
        rw [P_length]
        refine (cnt_congr fun j hj => ?_).trans (cnt_false 8)
        have := g3_bit (x i) (0 + 16 + j)
        rw [show 24 = 16 + 8 from rfl] at this
        rw [this]
        apply BitVec.getLsbD_of_ge
        omega
      rw [this, List.append_nil]
      exact P_congr fun j _ _ => g3_bit (x i) j
    rw [p1, p2, p3, e1, e2, show 64 * i + 24 + 24 = 64 * i + 48 by omega, e3]
    simp only [List.map_map]
    have f : ∀ (a b : Nat) (L : List Nat), a = b → L.map (a + ·) = L.map (b + ·) := fun a b L h => by rw [h]
    rw [show 64 * i + 48 + 16 = 64 * (i + 1) by omega]
    congr 1
    · apply List.map_congr_left
      intro j _
      show _ = 8 * D + (64 * i + 0 + j)
      omega
    · congr 1
      · apply List.map_congr_left
        intro j _
        show _ = 8 * D + (64 * i + 24 + j)
        omega
      · congr 1
        apply List.map_congr_left
        intro j _
        show _ = 8 * D + (64 * i + 48 + j)
        omega

theorem gtotal_words (x : Nat → Word) : ∀ (k i : Nat), gtotal (wordGroups x k i) = cnt (fun j => bitF x (64 * i + j)) (64 * k) := by
  have key : ∀ (gs : List Group) (D : Nat), (∀ g ∈ gs, 2 ≤ g.1.toNat ∧ g.2.toNat < 2^24) → (posns D gs).length = gtotal gs := by
    intro gs
    induction gs with
    | nil => intros; rfl
    | cons g gs ih =>
      intro D h
      obtain ⟨a, p⟩ := g
      rw [posns, gtotal, List.length_append, List.length_map, P_length0, ih _ fun g hg => h g (List.mem_cons_of_mem _ hg),
        gpop_eq (h (a, p) (List.mem_cons_self ..)).2]
  intro k i
  rw [← key _ (0 + 8 * i) (wordGroups_ok x k i), posns_words, List.length_map, P_length]

/-- `bsp_fill` then `BSP_WRITE`, on values. -/
theorem write_words (x : Nat → Word) (k off : Nat) (hk : k ≤ 31) (h8 : off % 8 = 0) (ho : off < 2^32) :
    writePure (bspStart off) (fillPure 0#32 (wordGroups x k 0)) = some ((P (bitF x) 0 (64 * k)).map (off + ·)) := by
  have := write_fill (wordGroups x k 0) 0#32 (bspStart off) (off / 8) 0 (wordGroups_ok x k 0) rfl
    (by rw [wordGroups_advance]; omega) ?_ (by rw [wordGroups_advance]; omega)
  · rw [this]
    have := posns_words x (off / 8) k 0
    rw [Nat.mul_zero, Nat.add_zero] at this
    rw [this, show 8 * (off / 8) = off by omega]
  · unfold bspStart
    rw [BitVec.toNat_sub, BitVec.toNat_shiftLeft, BitVec.toNat_ofNat, BitVec.toNat_ofNat, Nat.shiftLeft_eq]
    have h0 : (0#32).toNat = 0 := rfl
    rw [h0]
    omega

theorem fillPure_length : ∀ (gs : List Group) (acc : BitVec 32), (fillPure acc gs).length = gtotal gs
  | [], _ => rfl
  | (a, p) :: gs, acc => by
    rw [fillPure, gtotal]
    cases gpop p with
    | zero => dsimp only; rw [fillPure_length gs]; omega
    | succ n => dsimp only; rw [List.length_cons, List.length_append, List.length_replicate, fillPure_length gs]; omega

/-! ## The buffer in memory -/

/-- A buffer behaves like memory at indices below `n`, in every state it can get to. -/
structure Law {M} (B : Buf M) (Ok : M → Prop) (n : Nat) : Prop where
  rd : ∀ m j, Ok m → j < n → ∃ v, B.rd m j = some v
  wr : ∀ m j v, Ok m → j < n → ∃ m', B.wr m j v = some m' ∧ Ok m' ∧ B.rd m' j = some v ∧ ∀ j', j' < n → j' ≠ j → B.rd m' j' = B.rd m j'

theorem clear_spec {M} {B : Buf M} {Ok : M → Prop} {n : Nat} (L : Law B Ok n) : ∀ (k j : Nat) (m : M), Ok m → j + k ≤ n →
    ∃ m', clear B k j m = some m' ∧ Ok m' ∧ (∀ j', j ≤ j' → j' < j + k → B.rd m' j' = some 0#32) ∧ ∀ j', j' < n → (j' < j ∨ j + k ≤ j') → B.rd m' j' = B.rd m j'
  | 0, j, m, h, _ => ⟨m, rfl, h, fun _ _ _ => by omega, fun _ _ _ => rfl⟩
  | k + 1, j, m, h, hn => by
    obtain ⟨m1, e1, o1, r1, f1⟩ := L.wr m j 0#32 h (by omega)
    obtain ⟨m2, e2, o2, r2, f2⟩ := clear_spec L k (j + 1) m1 o1 (by omega)
    refine ⟨m2, by rw [clear, e1, Option.bind_some, e2], o2, fun j' h1 h2 => ?_, fun j' h1 h2 => ?_⟩
    · rcases Nat.eq_or_lt_of_le h1 with h | h
      · subst h
        rw [f2 j (by omega) (Or.inl (by omega)), r1]
      · exact r2 j' h (by omega)
    · rw [f2 j' h1 (by omega), f1 j' h1 (by omega)]

/-- `bsp_fill`, group by group. -/
def fillG {M} (B : Buf M) : List Group → M → Nat → Option (M × Nat)
  | [], m, j => some (m, j)
  | (a, p) :: gs, m, j => (fill1 B a p m j).bind fun (m, j) => fillG B gs m j

theorem bspFill_eq {M} (B : Buf M) (x : Nat → Word) : ∀ (k i : Nat) (m : M) (j : Nat), bspFill B x k i m j = fillG B (wordGroups x k i) m j
  | 0, _, _, _ => rfl
  | k + 1, i, m, j => by
    rw [bspFill, wordGroups, fillG]
    congr 1
    funext ⟨m, j⟩
    dsimp only
    rw [fillG]
    congr 1
    funext ⟨m, j⟩
    dsimp only
    rw [fillG]
    congr 1
    funext ⟨m, j⟩
    exact bspFill_eq B x k (i + 1) m j

theorem fillG_spec {M} {B : Buf M} {Ok : M → Prop} {n : Nat} (L : Law B Ok n) {sum : Nat} (hs : sum < n) :
    ∀ (gs : List Group) (m : M) (j : Nat) (acc : BitVec 32), Ok m → j + gtotal gs = sum → (j < sum → B.rd m j = some acc) →
      (∀ j', j < j' → j' < sum → B.rd m j' = some 0#32) →
      ∃ m', fillG B gs m j = some (m', sum) ∧ Ok m' ∧ (∀ j', j' < n → (j' < j ∨ sum < j') → B.rd m' j' = B.rd m j') ∧
        ∀ i, i < gtotal gs → B.rd m' (j + i) = (fillPure acc gs)[i]?
  | [], m, j, acc, h, ht, _, _ => ⟨m, by rw [gtotal] at ht; rw [fillG, ← ht]; rfl, h, fun _ _ _ => rfl, fun i hi => absurd hi (Nat.not_lt_zero i)⟩
  | (a, p) :: gs, m, j, acc, h, ht, ha, hz => by
    rw [gtotal] at ht
    obtain ⟨v, hv⟩ := L.rd m j h (by omega)
    obtain ⟨m1, e1, o1, r1, f1⟩ := L.wr m j (v + ((a * bspTop) ||| p)) h (by omega)
    rw [fillG, fill1, hv, Option.bind_some, e1, Option.map_some, Option.bind_some]
    show ∃ m', fillG B gs m1 (j + gpop p) = _ ∧ _
    rw [fillPure, gtotal]
    cases hn : gpop p with
    | zero =>
      rw [hn] at ht
      obtain ⟨m2, e2, o2, f2, g2⟩ := fillG_spec L hs gs m1 j (acc + ((a * bspTop) ||| p)) o1 (by omega)
        (fun hj => by
          have := ha hj
          rw [hv] at this
          rw [r1]
          injection this with this
          rw [this])
        (fun j' h1 h2 => by rw [f1 j' (by omega) (by omega), hz j' h1 h2])
      refine ⟨m2, e2, o2, fun j' h1 h2 => by rw [f2 j' h1 h2, f1 j' h1 (by omega)], fun i hi => ?_⟩
      dsimp only
      exact g2 i (by omega)
    | succ c =>
      rw [hn] at ht
      have hva : v = acc := by
        have := ha (by omega)
        rw [hv] at this
        injection this
      obtain ⟨m2, e2, o2, f2, g2⟩ := fillG_spec L hs gs m1 (j + (c + 1)) 0#32 o1 (by omega)
        (fun hj => by rw [f1 _ (by omega) (by omega), hz _ (by omega) hj])
        (fun j' h1 h2 => by rw [f1 j' (by omega) (by omega), hz j' (by omega) h2])
      refine ⟨m2, e2, o2, fun j' h1 h2 => by rw [f2 j' h1 (by omega), f1 j' h1 (by omega)], fun i hi => ?_⟩
      dsimp only
      rcases Nat.lt_or_ge i (c + 1) with h1 | h1
      · rw [f2 (j + i) (by omega) (Or.inl (by omega))]
        cases i with
        | zero => rw [Nat.add_zero, r1, hva]; rfl
        | succ i =>
          rw [f1 _ (by omega) (by omega), hz _ (by omega) (by omega), List.getElem?_cons_succ,
            List.getElem?_append_left (by rw [List.length_replicate]; omega), List.getElem?_replicate, if_pos (by omega)]
      · have := g2 (i - (c + 1)) (by omega)
        rw [show j + (c + 1) + (i - (c + 1)) = j + i by omega] at this
        rw [this]
        obtain ⟨d, rfl⟩ := Nat.le.dest h1
        rw [show c + 1 + d = (c + d) + 1 by omega, List.getElem?_cons_succ, List.getElem?_append_right (by rw [List.length_replicate]; omega),
          List.length_replicate]
        congr 1
        omega

theorem bspWrite_spec {M} {B : Buf M} {put : M → Nat → Nat → Option M} {e : Nat} (I : Nat → List Nat → M → Prop)
    (hput : ∀ j os v m, I j os m → j < e → ∃ m', put m j v = some m' ∧ I (j + 1) (os ++ [v]) m' ∧ ∀ j', j < j' → j' < e → B.rd m' j' = B.rd m j') :
    ∀ (es : List (BitVec 32)) (j : Nat) (t : Word) (m : M) (os vs : List Nat), I j os m → j + es.length = e → (∀ i, i < es.length → B.rd m (j + i) = es[i]?) →
      writePure t es = some vs → ∃ m', bspWrite B put es.length j t m = some m' ∧ I e (os ++ vs) m'
  | [], j, t, m, os, vs, hI, he, _, hw => by
    rw [writePure] at hw
    cases hw
    rw [List.append_nil, ← he]
    exact ⟨m, rfl, hI⟩
  | v :: es, j, t, m, os, vs, hI, he, hr, hw => by
    rw [List.length_cons] at he
    rw [writePure] at hw
    obtain ⟨c, hc, hw⟩ := Option.bind_eq_some_iff.1 hw
    obtain ⟨r, hr', hw⟩ := Option.map_eq_some_iff.1 hw
    subst hw
    have h0 := hr 0 (by simp)
    rw [Nat.add_zero] at h0
    rw [List.length_cons, bspWrite, h0]
    rw [List.getElem?_cons_zero, Option.bind_some]
    dsimp only
    rw [hc, Option.bind_some]
    obtain ⟨m1, e1, i1, f1⟩ := hput j os (8 * ((t + v.setWidth 64) >>> 24).toNat + c) m hI (by omega)
    rw [e1, Option.bind_some]
    obtain ⟨m2, e2, i2⟩ := bspWrite_spec I hput es (j + 1) _ m1 _ r i1 (by omega)
      (fun i hi => by
        rw [f1 _ (by omega) (by omega)]
        have := hr (i + 1) (by rw [List.length_cons]; omega)
        rw [List.getElem?_cons_succ] at this
        rw [← this]
        congr 1
        omega) hr'
    refine ⟨m2, e2, ?_⟩
    rwa [List.append_assoc] at i2

end Verif.Slash
