import Verif.Scan.Model
import Verif.Scan.Spec
/-! # Lemmas for boolean scans -/
namespace Verif.Scan
open Verif.Bits Spec

/-- A word-by-word scan where the carry is the last bit of the previous result word. -/
def mapCarry (k : Bool → Word → Word) : Bool → List Word → List Word
  | _, [] => []
  | p, w :: ws => k p w :: mapCarry k ((k p w).getLsbD 63) ws

/-- The recurrence a word kernel must satisfy to implement the scan of `f`. -/
def KernelOK (f : Bool → Bool → Bool) (k : Bool → Word → Word) : Prop :=
  ∀ p w i, i < 64 → (k p w).getLsbD i = f (if i = 0 then p else (k p w).getLsbD (i-1)) (w.getLsbD i)

theorem mapCarry_bit {f k} (hk : KernelOK f k) : ∀ (ws : List Word) (p : Bool) (i : Nat), i < 64 * ws.length →
    bitL (mapCarry k p ws) i = f (if i = 0 then p else bitL (mapCarry k p ws) (i-1)) (bitL ws i) := by
  intro ws
  induction ws with
  | nil => intro p i h; simp at h
  | cons w ws ih =>
    intro p i h
    simp only [mapCarry]
    by_cases h64 : i < 64
    · rw [bitL_cons_lt _ _ _ h64, bitL_cons_lt _ _ _ h64, hk p w i h64]
      by_cases h0 : i = 0
      · simp [h0]
      · rw [if_neg h0, if_neg h0, bitL_cons_lt _ _ _ (by omega)]
    · obtain ⟨j, rfl⟩ : ∃ j, i = 64 + j := ⟨i - 64, by omega⟩
      simp only [List.length_cons] at h
      rw [bitL_cons_add, bitL_cons_add, ih _ j (by omega), if_neg (by omega : ¬ 64 + j = 0)]
      by_cases h0 : j = 0
      · subst h0; rw [if_pos rfl, bitL_cons_lt _ _ _ (by omega)]
      · rw [if_neg h0, show 64 + j - 1 = 64 + (j-1) by omega, bitL_cons_add]

theorem scanFrom_firstN {α β} (f : β → α → β) (n : Nat) : ∀ (x : Nat → α) (r : Nat → β) (w : β),
    (∀ i, i < n → r i = f (if i = 0 then w else r (i-1)) (x i)) → scanFrom f w (firstN x n) = firstN r n := by
  induction n with
  | zero => intros; rfl
  | succ n ih =>
    intro x r w h
    rw [firstN_succ, firstN_succ]
    have h0 := h 0 (by omega)
    simp only [if_true] at h0
    simp only [scanFrom]
    rw [← h0]
    congr 1
    apply ih
    intro i hi
    have := h (i+1) (by omega)
    rw [if_neg (by omega), Nat.add_sub_cancel] at this
    rw [this]
    by_cases h1 : i = 0
    · simp [h1]
    · rw [if_neg h1]; congr 2; omega

theorem scan_firstN {α} (f : α → α → α) (n : Nat) (x r : Nat → α)
    (h0 : 0 < n → r 0 = x 0) (h : ∀ i, i + 1 < n → r (i+1) = f (r i) (x (i+1))) : scan f (firstN x n) = firstN r n := by
  cases n with
  | zero => rfl
  | succ n =>
    rw [firstN_succ, firstN_succ]
    simp only [scan]
    rw [← h0 (by omega)]
    congr 1
    apply scanFrom_firstN
    intro i hi
    by_cases h1 : i = 0
    · subst h1; exact h 0 (by omega)
    · rw [if_neg h1, h i (by omega)]; congr 2; omega

theorem mapCarry_scanFrom {f k} (hk : KernelOK f k) (ws : List Word) (p : Bool) (n : Nat) (hn : n ≤ 64 * ws.length) :
    listL (mapCarry k p ws) n = scanFrom f p (listL ws n) :=
  (scanFrom_firstN f n _ _ _ fun i hi => mapCarry_bit hk ws p i (by omega)).symm

theorem scan_eq_scanFrom {α} (f : α → α → α) (w : α) (hw : ∀ x, f w x = x) (l : List α) : scan f l = scanFrom f w l := by
  cases l <;> simp [scan, scanFrom, hw]

/-! ## ≠ -/

/-- Exclusive or of the bits below `i`. -/
def pfx (c : Word) : Nat → Bool
  | 0 => false
  | i+1 => pfx c i ^^ c.getLsbD i

theorem window_step (c r : Word) (k : Nat)
    (h : ∀ i, i < 64 → r.getLsbD i = (pfx c (i+1) ^^ pfx c (i+1-k))) :
    ∀ i, i < 64 → (r ^^^ (r <<< k)).getLsbD i = (pfx c (i+1) ^^ pfx c (i+1-2*k)) := by
  intro i hi
  rw [BitVec.getLsbD_xor, BitVec.getLsbD_shiftLeft, h i hi]
  by_cases hk : i < k
  · have h1 : i + 1 - k = 0 := by omega
    have h2 : i + 1 - 2*k = 0 := by omega
    simp [hk, h1, h2]
  · rw [h (i-k) (by omega)]
    have h1 : i - k + 1 = i + 1 - k := by omega
    have h2 : i + 1 - k - k = i + 1 - 2*k := by omega
    simp [hi, hk, h1, h2]

theorem neWord_bit (p c : Word) (i : Nat) (hi : i < 64) : (neWord p c).getLsbD i = (pfx c (i+1) ^^ p.getLsbD i) := by
  unfold neWord
  rw [BitVec.getLsbD_xor]
  congr 1
  have h0 : ∀ i, i < 64 → c.getLsbD i = (pfx c (i+1) ^^ pfx c (i+1-1)) := by
    intro i _; simp only [pfx, Nat.add_sub_cancel]; cases pfx c i <;> cases c.getLsbD i <;> rfl
  have h1 := window_step c c 1 h0
  have h2 := window_step c _ 2 h1
  have h3 := window_step c _ 4 h2
  have h4 := window_step c _ 8 h3
  have h5 := window_step c _ 16 h4
  have h6 := window_step c _ 32 h5
  have e : i + 1 - 2 * 32 = 0 := by omega
  have := h6 i hi
  rw [e] at this
  simpa [pfx] using this

/-- The carry word holding a boolean in every bit. -/
def carryWord (b : Bool) : Word := if b then BitVec.allOnes 64 else 0#64

theorem carryWord_bit (b : Bool) (i : Nat) (hi : i < 64) : (carryWord b).getLsbD i = b := by
  cases b
  · simp [carryWord]
  · rw [carryWord, if_pos rfl, BitVec.getLsbD_allOnes]; simpa using hi

theorem neg_shift63 (r : Word) : -(r >>> 63) = carryWord (r.getLsbD 63) := by
  have hr := r.isLt
  have hb : r.getLsbD 63 = decide (2^63 ≤ r.toNat) := by
    rw [BitVec.getLsbD, Nat.testBit_eq_decide_div_mod_eq]
    congr 1; simp only [eq_iff_iff]; omega
  apply BitVec.eq_of_toNat_eq
  rw [BitVec.toNat_neg, BitVec.toNat_ushiftRight, Nat.shiftRight_eq_div_pow, hb]
  unfold carryWord
  by_cases h : 2^63 ≤ r.toNat
  · simp only [h, decide_true, if_true, BitVec.toNat_allOnes]; omega
  · simp only [h, decide_false, Bool.false_eq_true, if_false, BitVec.toNat_ofNat]; omega

theorem neg_bit (b : Bool) : -(if b then 1#64 else 0#64) = carryWord b := by cases b <;> decide

theorem scan_ne_eq (ws : List Word) : ∀ b, scan_ne (carryWord b) ws = mapCarry (fun p w => neWord (carryWord p) w) b ws := by
  induction ws with
  | nil => intro b; rfl
  | cons w ws ih => intro b; simp only [scan_ne, mapCarry, neg_shift63, ih]

theorem ne_kernel : KernelOK ne (fun p w => neWord (carryWord p) w) := by
  intro p w i hi
  show _ = (_ != _)
  rw [neWord_bit _ _ _ hi, carryWord_bit _ _ hi]
  by_cases h0 : i = 0
  · subst h0; simp only [pfx, if_true]; cases p <;> cases w.getLsbD 0 <;> rfl
  · rw [if_neg h0, neWord_bit _ _ _ (by omega), carryWord_bit _ _ (by omega), show i - 1 + 1 = i by omega]
    simp only [pfx]; cases p <;> cases w.getLsbD i <;> cases pfx w i <;> rfl

/-! ## ∨ and ∧ -/

theorem lowbit (x : Word) (i : Nat) (hi : i < 64) :
    (x &&& -x).getLsbD i = (x.getLsbD i && !decide (∃ j, j < i ∧ x.getLsbD j = true)) := by
  rw [BitVec.getLsbD_and, BitVec.getLsbD_neg]
  cases x.getLsbD i <;> simp [hi]

theorem neg_lowbit (x : Word) (i : Nat) (hi : i < 64) :
    (-(x &&& -x)).getLsbD i = decide (∃ j, j ≤ i ∧ x.getLsbD j = true) := by
  rw [BitVec.getLsbD_neg, lowbit x i hi]
  have key : (∃ j, j < i ∧ (x &&& -x).getLsbD j = true) ↔ (∃ j, j < i ∧ x.getLsbD j = true) := by
    constructor
    · rintro ⟨j, hj, h⟩
      rw [lowbit x j (by omega)] at h
      exact ⟨j, hj, by simp at h; exact h.1⟩
    · rintro ⟨j, hj, h⟩
      -- take the least such j
      induction j using Nat.strongRecOn with
      | ind j ih =>
        by_cases hm : ∃ k, k < j ∧ x.getLsbD k = true
        · obtain ⟨k, hk, hx⟩ := hm
          exact ih k hk (by omega) hx
        · exact ⟨j, hj, by rw [lowbit x j (by omega)]; simp only [h, hm]; rfl⟩
  have key' : (∃ j, j ≤ i ∧ x.getLsbD j = true) ↔ ((∃ j, j < i ∧ x.getLsbD j = true) ∨ x.getLsbD i = true) := by
    constructor
    · rintro ⟨j, hj, h⟩
      rcases Nat.lt_or_eq_of_le hj with h' | rfl
      · exact .inl ⟨j, h', h⟩
      · exact .inr h
    · rintro (⟨j, hj, h⟩ | h)
      · exact ⟨j, by omega, h⟩
      · exact ⟨i, by omega, h⟩
  simp only [key, key', hi, decide_true, Bool.true_and]
  by_cases h1 : (∃ j, j < i ∧ x.getLsbD j = true) <;> cases x.getLsbD i <;> simp [h1]

/-- Kernel of the or-scan. -/
def orK (p : Bool) (w : Word) : Word := if p then BitVec.allOnes 64 else -(w &&& -w)

theorem or_kernel : KernelOK (fun a b => a || b) orK := by
  intro p w i hi
  cases p with
  | true =>
    have h1 : ∀ i, i < 64 → (orK true w).getLsbD i = true := by
      intro i hi; rw [orK, if_pos rfl, BitVec.getLsbD_allOnes]; simpa using hi
    by_cases h0 : i = 0
    · rw [if_pos h0, h1 i hi]; rfl
    · rw [if_neg h0, h1 i hi, h1 (i-1) (by omega)]; rfl
  | false =>
    simp only [orK, Bool.false_eq_true, if_false]
    rw [neg_lowbit w i hi]
    by_cases h0 : i = 0
    · subst h0
      simp
    · rw [if_neg h0, neg_lowbit w (i-1) (by omega)]
      have : (∃ j, j ≤ i ∧ w.getLsbD j = true) ↔ ((∃ j, j ≤ i-1 ∧ w.getLsbD j = true) ∨ w.getLsbD i = true) := by
        constructor
        · rintro ⟨j, hj, h⟩
          rcases Nat.lt_or_eq_of_le hj with h' | rfl
          · exact .inl ⟨j, by omega, h⟩
          · exact .inr h
        · rintro (⟨j, hj, h⟩ | h)
          · exact ⟨j, by omega, h⟩
          · exact ⟨i, by omega, h⟩
      simp only [this]
      by_cases h1 : (∃ j, j ≤ i-1 ∧ w.getLsbD j = true) <;> cases w.getLsbD i <;> simp [h1]

theorem mapCarry_orK_true (ws : List Word) : mapCarry orK true ws = ws.map (fun _ => ~~~0#64) := by
  induction ws with
  | nil => rfl
  | cons w ws ih =>
    simp only [mapCarry, List.map_cons]
    have : (orK true w).getLsbD 63 = true := by simp [orK]
    rw [this, ih]; rfl

theorem exists_bit {x : Word} (h : x ≠ 0#64) : ∃ j, j ≤ 63 ∧ x.getLsbD j = true := by
  apply Classical.byContradiction
  intro hn
  apply h
  apply word_ext
  intro i hi
  cases hb : x.getLsbD i with
  | false => simp
  | true => exact absurd ⟨i, by omega, hb⟩ hn

theorem scan_or_eq (ws : List Word) : scan_or ws = mapCarry orK false ws := by
  induction ws with
  | nil => rfl
  | cons w ws ih =>
    simp only [scan_or, mapCarry]
    by_cases h : w = 0#64
    · subst h
      have h1 : orK false 0#64 = 0#64 := by decide
      rw [if_neg (by simp), h1, ih]
      simp
    · rw [if_pos h]
      have h1 : (orK false w).getLsbD 63 = true := by
        simp only [orK, Bool.false_eq_true, if_false]
        rw [neg_lowbit w 63 (by omega)]
        simpa using exists_bit h
      rw [h1, mapCarry_orK_true]; rfl

/-- `∧` is the complement of `∨` on complements. -/
theorem lowmask (y : Word) : y - 1#64 = ~~~(-y) := by
  apply BitVec.eq_of_toNat_eq
  have := y.isLt
  simp only [BitVec.toNat_sub, BitVec.toNat_neg, BitVec.toNat_not, BitVec.toNat_ofNat]
  omega

theorem scan_and_eq (ws : List Word) : scan_and ws = (scan_or (ws.map (fun w => ~~~w))).map (fun w => ~~~w) := by
  induction ws with
  | nil => rfl
  | cons w ws ih =>
    rw [scan_and, List.map_cons, scan_or]
    by_cases h : ~~~w = 0#64
    · rw [if_neg (by simp [h]), if_neg (by simp [h]), ih, List.map_cons]
    · rw [if_pos h, if_pos h, List.map_cons, lowmask, List.map_map, List.map_map]
      have : (List.map (fun _ => 0#64) ws : List Word) = List.map (((fun w => ~~~w) ∘ fun _ => ~~~0#64) ∘ fun w => ~~~w) ws := by
        apply List.map_congr_left
        intro a _
        simp only [Function.comp, BitVec.not_not]
      rw [this]

theorem bitL_map_not (ws : List Word) (i : Nat) (h : i < 64 * ws.length) : bitL (ws.map (fun w => ~~~w)) i = !bitL ws i := by
  have hi : i/64 < ws.length := by omega
  have hm : i % 64 < 64 := by omega
  simp [bitL, hi, hm]

theorem length_scan_or (ws : List Word) : (scan_or ws).length = ws.length := by
  induction ws with
  | nil => rfl
  | cons w ws ih => simp only [scan_or]; split <;> simp [ih]

theorem length_scan_ne (ws : List Word) : ∀ p, (scan_ne p ws).length = ws.length := by
  induction ws with
  | nil => intro; rfl
  | cons w ws ih => intro; simp [scan_ne, ih]

theorem length_scan_lt (ws : List Word) : ∀ p, (scan_lt p ws).length = ws.length := by
  induction ws with
  | nil => intro; rfl
  | cons w ws ih => intro; simp [scan_lt, ih]

theorem scan_or_bit (ws : List Word) (i : Nat) (h : i < 64 * ws.length) :
    bitL (scan_or ws) i = ((if i = 0 then false else bitL (scan_or ws) (i-1)) || bitL ws i) := by
  rw [scan_or_eq]; exact mapCarry_bit or_kernel ws false i h

theorem scan_and_bit (ws : List Word) (i : Nat) (h : i < 64 * ws.length) :
    bitL (scan_and ws) i = ((if i = 0 then true else bitL (scan_and ws) (i-1)) && bitL ws i) := by
  have hl : (scan_or (ws.map (fun w => ~~~w))).length = ws.length := by simp [length_scan_or]
  rw [scan_and_eq, bitL_map_not _ _ (by omega), scan_or_bit _ _ (by simpa using h), bitL_map_not _ _ h]
  by_cases h0 : i = 0
  · simp [h0]
  · rw [if_neg h0, if_neg h0, bitL_map_not _ _ (by omega)]; simp

/-! ## < -/

theorem trailing (x : Word) (i : Nat) (hi : i < 64) :
    (x &&& ~~~(x + 1#64)).getLsbD i = decide (∀ j, j ≤ i → x.getLsbD j = true) := by
  have e : x + 1#64 = -(~~~x) := by
    apply BitVec.eq_of_toNat_eq
    have := x.isLt
    simp only [BitVec.toNat_add, BitVec.toNat_neg, BitVec.toNat_not, BitVec.toNat_ofNat]; omega
  rw [e, BitVec.getLsbD_and, BitVec.getLsbD_not, BitVec.getLsbD_neg]
  have key : (∃ j, j < i ∧ (~~~x).getLsbD j = true) ↔ ¬ (∀ j, j < i → x.getLsbD j = true) := by
    constructor
    · rintro ⟨j, hj, h⟩ ha
      rw [BitVec.getLsbD_not, ha j hj] at h; simp at h
    · intro h
      apply Classical.byContradiction
      intro hn
      apply h
      intro j hj
      cases hb : x.getLsbD j with
      | true => rfl
      | false => exact absurd ⟨j, hj, by simp [hb]; omega⟩ hn
  have key2 : (∀ j, j ≤ i → x.getLsbD j = true) ↔ (∀ j, j < i → x.getLsbD j = true) ∧ x.getLsbD i = true :=
    ⟨fun h => ⟨fun j hj => h j (by omega), h i (by omega)⟩, fun ⟨h1, h2⟩ j hj => by
      rcases Nat.lt_or_eq_of_le hj with h' | rfl
      · exact h1 j h'
      · exact h2⟩
  rw [show decide (∃ j, j < i ∧ (~~~x).getLsbD j = true) = !decide (∀ j, j < i → x.getLsbD j = true) by simp only [key, decide_not]]
  simp only [key2, hi, decide_true, Bool.true_and, BitVec.getLsbD_not]
  by_cases h1 : (∀ j, j < i → x.getLsbD j = true) <;> cases x.getLsbD i <;> simp [h1]

theorem m_bit (i : Nat) (hi : i < 64) : (0x5555555555555555#64).getLsbD i = decide (i % 2 = 0) := by
  have : ∀ i : Fin 64, (0x5555555555555555#64).getLsbD i = decide (i.val % 2 = 0) := by decide
  exact this ⟨i, hi⟩

/-- Borrow of `A - x` into bit `i`, `A = x<<1 | m`. -/
def cry (x : Word) (i : Nat) : Bool := BitVec.carry i ((x <<< 1) ||| 0x5555555555555555#64) (~~~x) true

theorem c_bit (x : Word) (i : Nat) (hi : i < 64) :
    (((x <<< 1) ||| 0x5555555555555555#64) - x).getLsbD i
      = (((x <<< 1) ||| 0x5555555555555555#64).getLsbD i ^^ (!x.getLsbD i ^^ cry x i)) := by
  have e : ((x <<< 1) ||| 0x5555555555555555#64) - x
      = ((x <<< 1) ||| 0x5555555555555555#64) + ~~~x + BitVec.setWidth 64 (BitVec.ofBool true) := by
    generalize (x <<< 1) ||| 0x5555555555555555#64 = A
    apply BitVec.eq_of_toNat_eq
    have := x.isLt
    have := A.isLt
    have : (BitVec.setWidth 64 (BitVec.ofBool true)).toNat = 1 := by decide
    simp only [BitVec.toNat_add, BitVec.toNat_sub, BitVec.toNat_not, this]
    omega
  rw [e, BitVec.getLsbD_add_add_bool hi, BitVec.getLsbD_not]
  simp [hi, cry]

theorem A_bit (x : Word) (i : Nat) (hi : i < 64) :
    ((x <<< 1) ||| 0x5555555555555555#64).getLsbD i = ((decide (1 ≤ i) && x.getLsbD (i-1)) || decide (i % 2 = 0)) := by
  rw [BitVec.getLsbD_or, m_bit i hi, BitVec.getLsbD_shiftLeft]
  by_cases h : 1 ≤ i
  · have : ¬ i = 0 := by omega
    simp [hi, h, this]
  · have : i = 0 := by omega
    simp [this]

theorem cry_zero (x : Word) : cry x 0 = true := by simp [cry, BitVec.carry_zero]

theorem cry_succ (x : Word) (i : Nat) (hi : i < 64) :
    cry x (i+1) = Bool.atLeastTwo ((decide (1 ≤ i) && x.getLsbD (i-1)) || decide (i % 2 = 0)) (!x.getLsbD i) (cry x i) := by
  unfold cry
  rw [BitVec.carry_succ, A_bit x i hi, BitVec.getLsbD_not]
  simp [hi]

/-- What the subtraction does: inside a run of ones that started at `s`, the borrow is set iff `s` is odd; outside runs
it is clear. `st x i` says whether the run of ones containing or ending just before `i` started at an odd position. -/
def alt (x : Word) : Nat → Bool
  | 0 => x.getLsbD 0
  | i+1 => !(alt x i) && x.getLsbD (i+1)

/-- Value of the scan kernel without carry-in. -/
theorem alt_spec (x : Word) (i : Nat) (hi : i < 64) :
    (x &&& (0x5555555555555555#64 ^^^ (((x <<< 1) ||| 0x5555555555555555#64) - x))).getLsbD i = alt x i ∧
    (x.getLsbD i = false → cry x (i+1) = true) ∧
    (x.getLsbD i = true → cry x (i+1) = ((alt x i) == decide (i % 2 = 0))) := by
  induction i with
  | zero =>
    rw [BitVec.getLsbD_and, BitVec.getLsbD_xor, c_bit x 0 hi, m_bit 0 hi, A_bit x 0 hi, cry_succ x 0 hi, cry_zero]
    simp only [alt]
    cases x.getLsbD 0 <;> simp [Bool.atLeastTwo]
  | succ i ih =>
    have ⟨_, h2, h3⟩ := ih (by omega)
    rw [BitVec.getLsbD_and, BitVec.getLsbD_xor, c_bit x _ hi, m_bit _ hi, A_bit x _ hi, cry_succ x _ hi]
    have hA : ¬ (i + 1) % 2 = 0 ↔ i % 2 = 0 := by omega
    simp only [alt, Nat.add_sub_cancel, show 1 ≤ i + 1 by omega, decide_true, Bool.true_and]
    have ha : x.getLsbD i = false → alt x i = false := by
      intro hx; cases i <;> simp only [alt, hx, Bool.and_false]
    cases hx : x.getLsbD i
    · have hc : cry x (i+1) = true := h2 hx
      rw [hc, ha hx]
      by_cases hp : i % 2 = 0
      · have : ¬ (i+1) % 2 = 0 := by omega
        cases x.getLsbD (i+1) <;> simp [Bool.atLeastTwo, this]
      · have : (i+1) % 2 = 0 := by omega
        cases x.getLsbD (i+1) <;> simp [Bool.atLeastTwo, this]
    · have hc := h3 hx
      rw [hc]
      by_cases hp : i % 2 = 0
      · have : ¬ (i+1) % 2 = 0 := by omega
        cases x.getLsbD (i+1) <;> cases alt x i <;> simp [Bool.atLeastTwo, this, hp]
      · have : (i+1) % 2 = 0 := by omega
        cases x.getLsbD (i+1) <;> cases alt x i <;> simp [Bool.atLeastTwo, this, hp]

theorem ltWord_bit (p : Word) (x : Word) (i : Nat) (hi : i < 64) :
    (ltWord p x).getLsbD i = (alt x i ^^ (p.getLsbD 63 && decide (∀ j, j ≤ i → x.getLsbD j = true))) := by
  have h1 := (alt_spec x i hi).1
  have h2 := trailing x i hi
  rw [BitVec.getLsbD_and] at h1 h2
  unfold ltWord
  simp only
  rw [neg_shift63, BitVec.getLsbD_and, BitVec.getLsbD_xor, BitVec.getLsbD_and, carryWord_bit _ _ hi, ← h1, ← h2]
  generalize (0x5555555555555555#64 ^^^ ((x <<< 1 ||| 0x5555555555555555#64) - x)).getLsbD i = a
  generalize (~~~(x + 1#64)).getLsbD i = b
  generalize p.getLsbD 63 = c
  cases a <;> cases b <;> cases c <;> cases x.getLsbD i <;> rfl

/-- In an all-ones prefix the plain alternation is 1,0,1,0,... -/
theorem lt_kernel : KernelOK lt (fun p w => ltWord (carryWord p) w) := by
  intro p w i hi
  show _ = (!_ && _)
  rw [ltWord_bit _ _ _ hi, carryWord_bit p 63 (by omega)]
  cases i with
  | zero =>
    simp only [alt, if_true]
    have : (∀ j, j ≤ 0 → w.getLsbD j = true) ↔ w.getLsbD 0 = true :=
      ⟨fun h => h 0 (by omega), fun h j hj => by rw [show j = 0 by omega]; exact h⟩
    simp only [this]
    cases p <;> cases w.getLsbD 0 <;> rfl
  | succ i =>
    rw [if_neg (by omega), Nat.add_sub_cancel, ltWord_bit _ _ _ (by omega), carryWord_bit p 63 (by omega)]
    simp only [alt]
    have : (∀ j, j ≤ i+1 → w.getLsbD j = true) ↔ (∀ j, j ≤ i → w.getLsbD j = true) ∧ w.getLsbD (i+1) = true :=
      ⟨fun h => ⟨fun j hj => h j (by omega), h _ (by omega)⟩, fun ⟨h1, h2⟩ j hj => by
        rcases Nat.lt_or_eq_of_le hj with h' | rfl
        · exact h1 j (by omega)
        · exact h2⟩
    simp only [this]
    by_cases h1 : (∀ j, j ≤ i → w.getLsbD j = true) <;> cases p <;> cases w.getLsbD (i+1) <;> cases alt w i <;> simp [h1]

theorem scan_lt_eq (ws : List Word) : ∀ p, scan_lt p ws = mapCarry (fun p w => ltWord (carryWord p) w) (p.getLsbD 63) ws := by
  induction ws with
  | nil => intro p; rfl
  | cons w ws ih =>
    intro p
    have : ltWord p w = ltWord (carryWord (p.getLsbD 63)) w := by
      simp only [ltWord, neg_shift63, carryWord_bit _ 63 (by omega)]
    simp only [scan_lt, mapCarry, ih, ← this]

end Verif.Scan
