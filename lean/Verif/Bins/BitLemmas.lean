import Verif.Bins.Lemmas
/-! # Lemmas about bins: sortedness, booleans and 𝕨 of one element -/
namespace Verif.Bins
open Verif.Bits Verif.Sort Verif.Fold

variable {α β : Type}

/-! ## booleans -/

def bitV (b : Bool) : Value := numV (ofInt b.toNat)

theorem notAfter_bit (up a b : Bool) : notAfter up (bitV a) (bitV b) = ((a != up) || (b == up)) := by
  rw [bitV, bitV, notAfter_int up (by cases a <;> decide) (by cases b <;> decide)]
  cases up <;> cases a <;> cases b <;> rfl

theorem bits_inOrder (up : Bool) (b : Nat → Bool) (n : Nat) :
    InOrder up ((firstN b n).map bitV) ↔ ∀ j, firstIdx b up n ≤ j → j < n → b j = up := by
  obtain ⟨f1, f2, f3⟩ := firstIdx_spec b up n
  unfold InOrder
  rw [List.pairwise_map, List.pairwise_iff_getElem]
  simp only [firstN, List.getElem_map, List.getElem_range, notAfter_bit]
  have hl : (List.map b (List.range n)).length = n := by simp
  constructor
  · intro h j h1 h2
    rcases Nat.lt_or_ge (firstIdx b up n) j with h3 | h3
    · have := h _ _ (by omega) (by rw [hl]; exact h2) h3
      rw [f3 (by omega)] at this
      simpa using this
    · have e : j = firstIdx b up n := by omega
      rw [e]; exact f3 (by omega)
  · intro h i j h1 h2 h3
    rw [hl] at h1 h2
    rcases Nat.lt_or_ge i (firstIdx b up n) with h4 | h4
    · have := f2 i h4
      simp [this]
    · simp [h j (by omega) h2]

theorem bitIsSorted_spec (x : Nat → Word) (up : Bool) (n : Nat) :
    ∃ r, bitIsSorted x (!up) n = some r ∧ (r = true ↔ InOrder up ((listF x n).map bitV)) := by
  rw [bits_inOrder]
  unfold bitIsSorted
  rw [bit_find_eq, Bool.not_not, Option.bind_some]
  obtain ⟨f1, f2, f3⟩ := firstIdx_spec (bitF x) up n
  generalize hi : firstIdx (bitF x) up n = i at *
  dsimp only
  -- the bits of d
  have hd : ∀ j, j < 64 → ((if (!up) = true then ~~~ x (i/64) else x (i/64)) ^^^ (~~~0#64 <<< (i%64))).getLsbD j
      = ((bitF x (64*(i/64)+j) == up) ^^ decide (i ≤ 64*(i/64)+j)) := by
    intro j hj
    rw [BitVec.getLsbD_xor, ones_shl _ _ hj, bitF_word x _ _ hj]
    congr 1
    · cases up
      · rw [if_pos (by decide), BitVec.getLsbD_not, decide_eq_true hj]; simp
      · rw [if_neg (by decide)]; simp
    · exact decide_eq_decide.2 (by omega)
  generalize hD : ((if (!up) = true then ~~~ x (i/64) else x (i/64)) ^^^ (~~~0#64 <<< (i%64))) = D at *
  have hbelow : ∀ j, j < i → (bitF x j == up) = false := by
    intro j hj; have := f2 j hj; simpa using this
  split
  · rename_i hw
    refine ⟨_, rfl, ?_⟩
    rw [decide_eq_true_eq]
    constructor
    · intro h j h1 h2
      have hj : j - 64*(i/64) < 64 := by omega
      have := congrArg (fun w => w.getLsbD (j - 64*(i/64))) h
      simp only [BitVec.getLsbD_and, BitVec.getLsbD_not, ones_shl _ _ hj, hd _ hj, decide_eq_true hj, Bool.true_and] at this
      rw [show 64*(i/64) + (j - 64*(i/64)) = j by omega, decide_eq_false (show ¬ n%64 ≤ j - 64*(i/64) by omega), decide_eq_true h1] at this
      simpa using this
    · intro h
      apply word_ext
      intro j hj
      rw [BitVec.getLsbD_and, BitVec.getLsbD_not, ones_shl _ _ hj, hd _ hj, decide_eq_true hj, Bool.true_and]
      by_cases hq : n % 64 ≤ j
      · rw [decide_eq_true hq]; simp
      · rcases Nat.lt_or_ge (64*(i/64)+j) i with h1 | h1
        · rw [hbelow _ h1, decide_eq_false (by omega)]; simp
        · rw [h _ h1 (by omega), decide_eq_true h1]; simp
  · rename_i hw
    have hlt : i/64 < n/64 := by
      have : i/64 ≤ n/64 := Nat.div_le_div_right f1
      omega
    split
    · rename_i h
      refine ⟨false, rfl, ?_⟩
      constructor
      · intro h; cases h
      · intro hall
        refine absurd ?_ h
        apply word_ext
        intro j hj
        rw [hd _ hj, BitVec.getLsbD_zero]
        rcases Nat.lt_or_ge (64*(i/64)+j) i with h1 | h1
        · rw [hbelow _ h1, decide_eq_false (by omega)]; rfl
        · rw [hall _ h1 (by omega), decide_eq_true h1]; simp
    · rename_i h
      have h0 : D = 0#64 := Decidable.byContradiction h
      rw [bit_find_eq]
      refine ⟨_, rfl, ?_⟩
      have e : ∀ j, bitF (fun j => x (i/64 + 1 + j)) j = bitF x (64*(i/64+1) + j) := by
        intro j
        unfold bitF
        rw [show (64*(i/64+1) + j)/64 = i/64 + 1 + j/64 by omega, show (64*(i/64+1) + j)%64 = j%64 by omega]
      obtain ⟨g1, g2, g3⟩ := firstIdx_spec (bitF fun j => x (i/64 + 1 + j)) (!up) (n - 64*(i/64+1))
      rw [decide_eq_true_eq]
      constructor
      · intro hl j h1 h2
        rcases Nat.lt_or_ge j (64*(i/64+1)) with h3 | h3
        · have := hd (j - 64*(i/64)) (by omega)
          rw [h0, BitVec.getLsbD_zero, show 64*(i/64) + (j - 64*(i/64)) = j by omega, decide_eq_true h1] at this
          simpa using this
        · have := g2 (j - 64*(i/64+1)) (by omega)
          rw [e, show 64*(i/64+1) + (j - 64*(i/64+1)) = j by omega] at this
          cases up <;> simpa using this
      · intro hall
        refine Decidable.byContradiction fun hne => ?_
        have := g3 (by omega)
        rw [e, hall _ (by omega) (by omega)] at this
        cases up <;> simp at this

theorem cnt_lt (m : Nat) : ∀ n, m ≤ n → cnt (fun i => decide (i < m)) n = m := by
  intro n
  induction n with
  | zero => intro h; simp [cnt]; omega
  | succ n ih =>
    intro h
    rcases Nat.lt_or_ge m (n+1) with h1 | h1
    · rw [cnt, ih (by omega), if_neg (by simp; omega)]; rfl
    · have e : m = n+1 := by omega
      have hall : ∀ k, k ≤ n+1 → cnt (fun i => decide (i < n+1)) k = k := by
        intro k
        induction k with
        | zero => intro _; rfl
        | succ k ihk => intro hk; rw [cnt, ihk (by omega), if_pos (by simp; omega)]
      rw [e]; exact hall _ (Nat.le_refl _)

theorem bitBoundary_spec (up : Bool) (x : Nat → Word) (n k : Nat) (hk : k ≤ n) (hx : ∀ i, i < n → bitF x i = (decide (i < k) ^^ up)) :
    bitBoundary up x n = some k := by
  unfold bitBoundary
  dsimp only
  let after : Nat → Bool := fun i => lt up (if up = true then 0#64 else ~~~0#64).toNat (x i).toNat
  -- some bit of the word is `up`
  have ha : ∀ i, after i = true ↔ ∃ j, j < 64 ∧ (x i).getLsbD j = up := by
    intro i
    show lt up _ _ = true ↔ _
    cases up
    · simp only [lt, Bool.false_eq_true, if_false, decide_eq_true_eq]
      constructor
      · intro h
        refine Decidable.byContradiction fun hn => ?_
        have : x i = ~~~0#64 := by
          apply word_ext
          intro j hj
          rw [BitVec.getLsbD_not, decide_eq_true hj, BitVec.getLsbD_zero]
          cases hb : (x i).getLsbD j with
          | true => rfl
          | false => exact absurd ⟨j, hj, hb⟩ hn
        rw [this] at h; omega
      · rintro ⟨j, hj, hb⟩
        have h1 := (x i).isLt
        have h2 : (~~~0#64 : Word).toNat = 2^64 - 1 := by decide
        rw [h2]
        rcases Nat.lt_or_ge (x i).toNat (2^64-1) with h | h
        · omega
        · have : x i = ~~~0#64 := BitVec.eq_of_toNat_eq (by rw [h2]; omega)
          rw [this, BitVec.getLsbD_not, decide_eq_true hj, BitVec.getLsbD_zero] at hb
          cases hb
    · simp only [lt, if_true, decide_eq_true_eq]
      constructor
      · intro h
        refine Decidable.byContradiction fun hn => ?_
        have : x i = 0#64 := by
          apply word_ext
          intro j hj
          rw [BitVec.getLsbD_zero]
          cases hb : (x i).getLsbD j with
          | false => rfl
          | true => exact absurd ⟨j, hj, hb⟩ hn
        rw [this] at h; omega
      · rintro ⟨j, hj, hb⟩
        rcases Nat.eq_zero_or_pos (x i).toNat with h | h
        · have : x i = 0#64 := BitVec.eq_of_toNat_eq h
          rw [this, BitVec.getLsbD_zero] at hb
          cases hb
        · show ((0 : Nat) : Int) < _; omega
  have hb : ∀ i j, j < 64 → 64*i + j < n → (x i).getLsbD j = (decide (64*i+j < k) ^^ up) := by
    intro i j hj h
    rw [← bitF_word x i j hj]; exact hx _ h
  -- words before and after the boundary
  have before : ∀ i, i < k/64 → after i = false := by
    intro i hi
    cases h : after i with
    | false => rfl
    | true =>
      obtain ⟨j, hj, h⟩ := (ha i).1 h
      rw [hb i j hj (by omega), decide_eq_true (by omega)] at h
      cases up <;> cases h
  have beyond : ∀ i, k/64 < i → i < (n+63)/64 → after i = true := by
    intro i h1 h2
    refine (ha i).2 ⟨0, by decide, ?_⟩
    rw [hb i 0 (by decide) (by omega), decide_eq_false (by omega)]
    cases up <;> rfl
  have search : ∀ S, S ≤ (n+63)/64 → (∀ i, i < (n+63)/64 → after i = decide (S ≤ i)) →
      narrow (fun i => if i < (n+63)/64 then some (lt up (if up = true then 0#64 else ~~~0#64).toNat (x i).toNat) else none)
        ((n+63)/64 + 2) 0 ((n+63)/64 + 1) = some S := by
    intro S h1 h2
    refine narrow_spec (n := (n+63)/64) (fun i hi => ?_) _ _ _ (by omega) (by omega) (by omega) (by omega)
    rw [if_pos hi]
    exact congrArg some (h2 i hi)
  have at_ : k < n → after (k/64) = true := by
    intro h
    refine (ha _).2 ⟨k%64, by omega, ?_⟩
    rw [hb _ _ (by omega) (by omega), decide_eq_false (by omega)]
    cases up <;> rfl
  by_cases hq : k/64 < (n+63)/64 ∧ after (k/64) = true
  · rw [search (k/64) (by omega) ?_]
    · rw [Option.map_some]
      rw [if_neg (by omega)]
      congr 1
      rw [POPC_eq]
      have key : ∀ v : Word, (∀ j, j < 64 → v.getLsbD j = decide (j < k%64)) → 64*(k/64) + cnt v.getLsbD 64 = k := by
        intro v hv
        rw [cnt_congr hv, cnt_lt _ _ (by omega)]
        omega
      apply key
      intro j hj
      have hv : 64*(k/64)+j < n → (if up = true then ~~~ x (k/64) else x (k/64)).getLsbD j = decide (j < k%64) := by
        intro h
        have e : decide (64*(k/64)+j < k) = decide (j < k%64) := decide_eq_decide.2 (by omega)
        cases up
        · rw [if_neg Bool.false_ne_true, hb _ _ hj h, e]; simp
        · rw [if_pos rfl, BitVec.getLsbD_not, decide_eq_true hj, hb _ _ hj h, e]; simp
      split
      · rename_i hn
        rw [BitVec.getLsbD_and, BitVec.getLsbD_ushiftRight, BitVec.getLsbD_not, BitVec.getLsbD_zero]
        rcases Nat.lt_or_ge (64*(k/64)+j) n with h | h
        · rw [hv h, decide_eq_true (show (64 - n%64)%64 + j < 64 by omega)]; simp
        · rw [decide_eq_false (show ¬ (64 - n%64)%64 + j < 64 by omega), decide_eq_false (show ¬ j < k%64 by omega)]; simp
      · exact hv (by omega)
    · intro i hi
      rcases Nat.lt_trichotomy i (k/64) with h | h | h
      · rw [before i h, decide_eq_false (by omega)]
      · rw [h, hq.2, decide_eq_true (Nat.le_refl _)]
      · rw [beyond i h hi, decide_eq_true (by omega)]
  · have hkn : k = n := by
      rcases Nat.lt_or_ge k n with h | h
      · exact absurd ⟨by omega, at_ h⟩ hq
      · omega
    rw [search ((n+63)/64) (Nat.le_refl _) ?_]
    · rw [Option.map_some]
      rw [if_pos (by omega), hkn]
    · intro i hi
      rw [decide_eq_false (by omega)]
      rcases Nat.lt_or_ge i (k/64) with h | h
      · exact before i h
      · have e : i = k/64 := by omega
        cases h : after i with
        | false => rfl
        | true => exact absurd ⟨by omega, by rw [← e]; exact h⟩ hq

/-! ## sortedness -/

theorem cmpLoop_spec {R : α → α → Bool} (ht : ∀ a b d, R a b = true → R b d = true → R a d = true) :
    ∀ xs : List α, cmpLoop (fun a b => !R a b) xs = true ↔ xs.Pairwise fun a b => R a b = true := by
  intro xs
  induction xs with
  | nil => simp [cmpLoop]
  | cons a l ih =>
    cases l with
    | nil => simp [cmpLoop]
    | cons b l =>
      rw [cmpLoop, List.pairwise_cons]
      cases h : R a b with
      | false =>
        simp only [Bool.not_false, if_true, Bool.false_eq_true, false_iff]
        intro hh
        rw [hh.1 b (List.mem_cons_self ..)] at h; cases h
      | true =>
        simp only [Bool.not_true, Bool.false_eq_true, if_false, ih]
        constructor
        · intro hp
          refine ⟨?_, hp⟩
          intro d hd
          rcases List.mem_cons.1 hd with rfl | hd
          · exact h
          · exact ht _ _ _ h ((List.pairwise_cons.1 hp).1 _ hd)
        · exact fun h => h.2

/-- An array's elements: integers are 32 bit. -/
def BArr.Ok : BArr → Prop
  | .int xs => ∀ x ∈ xs, -2^31 ≤ x ∧ x < 2^31
  | _ => True

theorem lt_trans' (up : Bool) (a b d : Int) : (!lt up b a) = true → (!lt up d b) = true → (!lt up d a) = true := by
  unfold lt
  cases up <;> simp <;> omega

theorem isSorted_spec (up : Bool) (w : BArr) (hw : w.Ok) : ∃ r, isSorted up w = some r ∧ (r = true ↔ InOrder up w.elems) := by
  unfold isSorted
  split
  · rename_i h
    refine ⟨true, rfl, ⟨fun _ => pairwise_short ?_, fun _ => rfl⟩⟩
    cases w <;> simpa [BArr.elems, BArr.len] using h
  · match w, hw with
    | .bit x n, _ => exact bitIsSorted_spec x up n
    | .int xs, hw =>
      refine ⟨_, rfl, ?_⟩
      have e : (fun a b : Int => lt up b a) = fun a b => !!lt up b a := by funext a b; rw [Bool.not_not]
      rw [e, cmpLoop_spec (R := fun a b => !lt up b a) (fun a b d => lt_trans' up a b d)]
      show _ ↔ List.Pairwise _ (xs.map _)
      rw [List.pairwise_map]
      constructor
      · refine List.Pairwise.imp_of_mem ?_
        intro a b ha hb h
        have h1 := hw a ha
        have h2 := hw b hb
        rw [notAfter_int up (by omega) (by omega)]; exact h
      · refine List.Pairwise.imp_of_mem ?_
        intro a b ha hb h
        have h1 := hw a ha
        have h2 := hw b hb
        rw [notAfter_int up (by omega) (by omega)] at h; exact h
    | .flt xs, _ =>
      refine ⟨_, rfl, ?_⟩
      have e : (fun a b => lt (!up) (Compare.floatCompare a b) 0) = fun a b => !notAfter up (numV a) (numV b) := by
        funext a b; rw [← lt_cmp']; rfl
      rw [e, cmpLoop_spec (R := fun a b => notAfter up (numV a) (numV b)) (fun a b d h1 h2 => notAfter_trans up h1 h2)]
      show _ ↔ List.Pairwise _ (xs.map _)
      rw [List.pairwise_map]
    | .chr xs, _ =>
      refine ⟨_, rfl, ?_⟩
      have e : (fun a b : Nat => lt up (b : Nat) (a : Nat)) = fun a b => !notAfter up (chrV a) (chrV b) := by
        funext a b; rw [notAfter_chr, Bool.not_not]
      rw [e, cmpLoop_spec (R := fun a b => notAfter up (chrV a) (chrV b)) (fun a b d h1 h2 => notAfter_trans up h1 h2)]
      show _ ↔ List.Pairwise _ (xs.map _)
      rw [List.pairwise_map]
    | .any xs, _ =>
      refine ⟨_, rfl, ?_⟩
      have e : (fun a b => lt (!up) (cmpValue a b) 0) = fun a b => !notAfter up a b := by
        funext a b; rw [← lt_cmp']
      rw [e, cmpLoop_spec (R := fun a b => notAfter up a b) (fun a b d h1 h2 => notAfter_trans up h1 h2)]
      rfl

/-! ## one element -/

theorem packLoop_spec (t : Nat → Bool) (N : Nat) : ∀ i b r, i ≤ N → (∀ j, j < 64 → i + j < N → b.getLsbD j = t (i+j)) →
    (∀ k, i ≤ 64*(k/64) → k < N → bitF r k = t k) → ∀ k, k < N → bitF (packLoop t i b r) k = t k := by
  intro i
  induction i with
  | zero => intro b r _ _ hr k hk; exact hr k (by omega) hk
  | succ i ih =>
    intro b r hi hb hr
    have hb' : ∀ j, j < 64 → i + j < N → (2#64 * b + (if t i then 1#64 else 0#64)).getLsbD j = t (i+j) := by
      have e : 2#64 * b + (if t i then 1#64 else 0#64) = (b <<< 1) ||| (if t i then 1#64 else 0#64) := by
        have h1 : b <<< 1 = 2#64 * b := by
          apply BitVec.eq_of_toNat_eq
          rw [BitVec.toNat_shiftLeft, BitVec.toNat_mul, Nat.shiftLeft_eq]
          show _ % _ = 2 * _ % _
          congr 1; omega
        rw [← h1, BitVec.add_eq_or_of_and_eq_zero]
        apply word_ext
        intro j hj
        rw [BitVec.getLsbD_and, BitVec.getLsbD_shiftLeft, BitVec.getLsbD_zero]
        cases t i with
        | false => simp
        | true => cases j <;> simp
      intro j hj h
      rw [e, BitVec.getLsbD_or, BitVec.getLsbD_shiftLeft, decide_eq_true hj]
      match j with
      | 0 => cases h : t i <;> simp [h]
      | j+1 =>
        have h2 : (if t i = true then 1#64 else 0#64).getLsbD (j+1) = false := by cases t i <;> simp
        rw [h2, Nat.add_sub_cancel, hb j (by omega) (by omega)]
        simp [Nat.add_assoc, Nat.add_comm 1 j]
    rw [packLoop]
    refine ih _ _ (by omega) hb' ?_
    intro k h1 h2
    split
    · rename_i h0
      unfold bitF Radix.upd
      split
      · rename_i he
        rw [hb' _ (by omega) (by omega)]
        congr 1; omega
      · exact hr k (by omega) h2
    · exact hr k (by omega) h2

theorem bin_one (up : Bool) (c v : Value) : bin up [c] v = (notAfter up c v).toNat := by
  unfold bin
  cases h : notAfter up c v <;> simp [h]

theorem notAfter_num (up : Bool) (f g : BitVec 64) : notAfter up (numV f) (numV g) =
    if up then Compare.nan g || (!Compare.nan f && decide (Compare.key f ≤ Compare.key g))
    else Compare.nan f || (!Compare.nan g && decide (Compare.key g ≤ Compare.key f)) := by
  have key : ∀ f g, decide (Compare.floatCompare f g ≤ 0) = (Compare.nan g || (!Compare.nan f && decide (Compare.key f ≤ Compare.key g))) := by
    intro f g
    cases hf : Compare.nan f
    · cases hg : Compare.nan g
      · simp only [Bool.false_or, Bool.not_false, Bool.true_and]
        exact decide_eq_decide.2 (floatCompare_le f g hf hg)
      · unfold Compare.floatCompare; rw [hf, hg]; rfl
    · cases hg : Compare.nan g
      · unfold Compare.floatCompare; rw [hf, hg]; rfl
      · unfold Compare.floatCompare; rw [hf, hg]; rfl
  unfold notAfter
  rw [cmp_num, cmp_num, key, key]

/-- What elements of an array of one of the simple types can be. -/
theorem simple_elems {x : BArr} (hx : x.Ok) (hs : x.simple = true) : ∀ v ∈ x.elems,
    (∃ g, v = numV g ∧ x.isNum = true ∧ (x.isF64 = false → Compare.nan g = false)) ∨
    (∃ c, v = chrV c ∧ x.isNum = false ∧ x.isF64 = false) := by
  intro v hv
  match x, hx, hs with
  | .bit x n, _, _ =>
    obtain ⟨b, _, rfl⟩ := List.mem_map.1 hv
    exact .inl ⟨_, rfl, rfl, fun _ => ofInt_nan (by cases b <;> decide)⟩
  | .int xs, hx, _ =>
    obtain ⟨i, hi, rfl⟩ := List.mem_map.1 hv
    have := hx i hi
    exact .inl ⟨_, rfl, rfl, fun _ => ofInt_nan (by omega)⟩
  | .flt xs, _, _ =>
    obtain ⟨f, _, rfl⟩ := List.mem_map.1 hv
    exact .inl ⟨_, rfl, rfl, fun h => by cases h⟩
  | .chr xs, _, _ =>
    obtain ⟨c, _, rfl⟩ := List.mem_map.1 hv
    exact .inr ⟨_, rfl, rfl, rfl⟩

theorem leA_num (f g : BitVec 64) : leA (numV f).1 (numV g).1 = (!Compare.nan f && !Compare.nan g && decide (Compare.key f ≤ Compare.key g)) := rfl
theorem ltA_num (f g : BitVec 64) : ltA (numV f).1 (numV g).1 = (!Compare.nan f && !Compare.nan g && decide (Compare.key f < Compare.key g)) := rfl
theorem neA_num (f g : BitVec 64) : neA (numV f).1 (numV g).1 = (Compare.nan f || Compare.nan g || decide (Compare.key f ≠ Compare.key g)) := rfl
theorem isNaN_num (f : BitVec 64) : isNaN (numV f).1 = Compare.nan f := rfl

theorem not_lt_key (a b : Int) : (!decide (a < b)) = decide (b ≤ a) := by
  rw [← decide_not]; exact decide_eq_decide.2 (by omega)

theorem single_spec (up : Bool) (junk : Nat → Word) {w x : BArr} (hw : w.Ok) (hx : x.Ok) {c : Value} (hc : c ∈ w.elems) :
    single up junk c w x = x.elems.map (bin up [c]) := by
  unfold single
  dsimp only
  split
  · rename_i hs
    obtain ⟨hs1, hs2⟩ := Bool.and_eq_true_iff.1 hs
    have hc := simple_elems hw hs1 c hc
    have hv := simple_elems hx hs2
    split
    · rename_i h
      obtain ⟨h1, h2⟩ := Bool.and_eq_true_iff.1 h
      obtain ⟨h1, h3⟩ := Bool.and_eq_true_iff.1 h1
      rcases hc with ⟨f, rfl, -, hf⟩ | ⟨d, rfl, hd, hd2⟩
      · rw [isNaN_num] at h2
        split
        · rename_i hu
          apply List.map_congr_left
          intro v hv'
          rcases hv v hv' with ⟨g, rfl, -, -⟩ | ⟨d, rfl, hd, -⟩
          · rw [bin_one, notAfter_num, neA_num, hu, h2]; simp
          · rw [hd] at h3; cases h3
        · rename_i hu
          apply List.map_congr_left
          intro v hv'
          rcases hv v hv' with ⟨g, rfl, -, -⟩ | ⟨d, rfl, hd, -⟩
          · rw [bin_one, notAfter_num, if_neg hu, h2]; rfl
          · rw [hd] at h3; cases h3
      · rw [hd2] at h1; cases h1
    · rename_i h
      -- the element is not NaN, or the others are characters
      have hn : ∀ f, c = numV f → x.isNum = true → Compare.nan f = false := by
        intro f hf hxn
        rcases hc with ⟨g, rfl, -, hg⟩ | ⟨d, rfl, hd, hd2⟩
        · cases h64 : w.isF64 with
          | false => have := hg h64; rw [← isNaN_num] at this ⊢; rw [← hf]; exact this
          | true =>
            rw [h64, hxn, isNaN_num] at h
            have : Compare.nan g = false := by simpa using h
            rw [← isNaN_num] at this ⊢; rw [← hf]; exact this
        · rw [← isNaN_num, ← hf]; rfl
      split
      · rename_i h2
        obtain ⟨hu, h64⟩ := Bool.and_eq_true_iff.1 h2
        apply List.map_congr_left
        intro v hv'
        rw [bin_one]
        congr 1
        rcases hv v hv' with ⟨g, rfl, hgn, -⟩ | ⟨d, rfl, -, hd⟩
        · rcases hc with ⟨f, rfl, -, -⟩ | ⟨d, rfl, -, -⟩
          · rw [notAfter_num, ltA_num, hu, hn f rfl hgn]
            cases hg : Compare.nan g
            · simp [not_lt_key]
            · simp
          · rw [notAfter_chr_num, hu]; rfl
        · rw [hd] at h64; cases h64
      · rename_i h2
        apply List.map_congr_left
        intro v hv'
        rw [bin_one]
        congr 1
        rcases hv v hv' with ⟨g, rfl, hgn, hg64⟩ | ⟨d, rfl, -, hd⟩
        · rcases hc with ⟨f, rfl, -, -⟩ | ⟨d, rfl, -, -⟩
          · rw [notAfter_num, leA_num, leA_num, hn f rfl hgn]
            cases hu : up with
            | false => simp
            | true =>
              have h64 : x.isF64 = false := by rw [hu] at h2; simpa using h2
              rw [hg64 h64]; simp
          · rw [notAfter_chr_num]; cases up <;> rfl
        · rcases hc with ⟨f, rfl, -, -⟩ | ⟨e, rfl, -, -⟩
          · rw [notAfter_num_chr]; cases up <;> rfl
          · rw [notAfter_chr]
            unfold lt
            cases up
            · show decide (d ≤ e) = _
              simp only [Bool.false_eq_true, if_false, not_lt_key]
              exact decide_eq_decide.2 (by omega)
            · show decide (e ≤ d) = _
              simp only [if_true, not_lt_key]
              exact decide_eq_decide.2 (by omega)
  · have ht : ∀ t : Nat → Bool, (∀ i (hi : i < x.elems.length), t i = !lt up (cmpValue x.elems[i] c) 0) →
        (listF (packLoop t x.elems.length 0#64 junk) x.elems.length).map Bool.toNat = x.elems.map (bin up [c]) := by
      intro t ht
      have e : listF (packLoop t x.elems.length 0#64 junk) x.elems.length = x.elems.map fun v => notAfter up c v := by
        apply List.ext_getElem?
        intro i
        rw [getElem?_firstN]
        split
        · rename_i hi
          rw [packLoop_spec _ x.elems.length _ _ _ (Nat.le_refl _) (by intro j _ h; omega) (by intro k h1 h2; omega) i hi, ht i hi,
            List.getElem?_map, List.getElem?_eq_getElem hi, lt_cmp, Bool.not_not]
          rfl
        · rename_i hi
          rw [List.getElem?_eq_none (by rw [List.length_map]; omega)]
      rw [e, List.map_map]
      apply List.map_congr_left
      intro v _
      rw [bin_one]; rfl
    refine ht _ fun i hi => ?_
    rw [List.getElem?_eq_getElem hi]

end Verif.Bins
