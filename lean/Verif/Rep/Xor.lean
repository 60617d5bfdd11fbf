import Verif.Rep.Ind
/-!
# Replicate of booleans by a running exclusive or: proofs
-/
namespace Verif.Rep
open Verif.Bits Verif.Fold Verif.Slash

/-- A bit on all places. -/
def all64 (b : Bool) : Word := if b then ~~~0#64 else 0#64

theorem all64_bit (b : Bool) {i : Nat} (h : i < 64) : (all64 b).getLsbD i = b := by
  unfold all64
  cases b with
  | true => rw [if_pos rfl, ones_bit i h]
  | false => rw [if_neg (by simp), BitVec.getLsbD_zero]

theorem neg_one_bit (v : Word) : -(v &&& 1#64) = all64 (v.getLsbD 0) := by
  have : v &&& 1#64 = if v.getLsbD 0 then 1#64 else 0#64 := by
    apply word_ext
    intro i hi
    rw [BitVec.getLsbD_and]
    cases i with
    | zero => cases h : v.getLsbD 0 <;> rfl
    | succ i =>
      have h1 : (1#64).getLsbD (i + 1) = false := by
        rw [BitVec.getLsbD_one]
        simp
      rw [h1, Bool.and_false]
      cases v.getLsbD 0
      · simp
      · simp
  rw [this]
  unfold all64
  cases v.getLsbD 0 <;> rfl

theorem shift63 (v : Word) : v >>> 63 = if v.getLsbD 63 then 1#64 else 0#64 := by
  apply word_ext
  intro i hi
  rw [BitVec.getLsbD_ushiftRight]
  cases i with
  | zero => cases h : v.getLsbD 63 <;> rfl
  | succ i =>
    rw [BitVec.getLsbD_of_ge v _ (by omega)]
    cases v.getLsbD 63 <;> simp

theorem neg_top_bit (v : Word) : -(v >>> 63) = all64 (v.getLsbD 63) := by
  rw [shift63]
  unfold all64
  cases v.getLsbD 63 <;> rfl

theorem shl_all (b : Bool) (k t : Nat) (ht : t < 64) : (all64 b <<< k).getLsbD t = (decide (k ≤ t) && b) := by
  rw [BitVec.getLsbD_shiftLeft, decide_eq_true ht, Bool.true_and]
  by_cases h : k ≤ t
  · rw [decide_eq_false (by omega), decide_eq_true h, all64_bit _ (by omega)]
    rfl
  · rw [decide_eq_true (by omega), decide_eq_false h]
    rfl

/-! ## Bits of memory -/

theorem bitL_get {m : List Word} {r : Word} {p : Nat} (h : m[p / 64]? = some r) : bitL m p = r.getLsbD (p % 64) := by
  unfold bitL
  rw [List.getD_eq_getElem?_getD, h]
  rfl

theorem bitL_set {m : List Word} {i : Nat} (h : i < m.length) (v : Word) (p : Nat) :
    bitL (m.set i v) p = if p / 64 = i then v.getLsbD (p % 64) else bitL m p := by
  unfold bitL
  rw [List.getD_eq_getElem?_getD, List.getD_eq_getElem?_getD]
  by_cases hp : p / 64 = i
  · rw [if_pos hp, hp, List.getElem?_set_self h]
    rfl
  · rw [if_neg hp, List.getElem?_set_ne (by omega)]

theorem zeroWords_spec : ∀ (n i : Nat) (m : List Word), i + n ≤ m.length →
    ∃ m', zeroWords n i m = some m' ∧ m'.length = m.length ∧ ∀ p, bitL m' p = if i ≤ p / 64 ∧ p / 64 < i + n then false else bitL m p
  | 0, i, m, _ => ⟨m, rfl, rfl, fun p => by rw [if_neg (by omega)]⟩
  | n + 1, i, m, h => by
    rw [zeroWords, wr_some (by omega), Option.bind_some]
    obtain ⟨m', e, hl, hb⟩ := zeroWords_spec n (i + 1) (m.set i 0#64) (by rw [List.length_set]; omega)
    refine ⟨m', e, by rw [hl, List.length_set], fun p => ?_⟩
    rw [hb, bitL_set (by omega)]
    by_cases h1 : p / 64 = i
    · rw [if_neg (by omega), if_pos h1, if_pos (by omega), BitVec.getLsbD_zero]
    · rw [if_neg h1]
      by_cases h2 : i + 1 ≤ p / 64 ∧ p / 64 < i + 1 + n
      · rw [if_pos h2, if_pos (by omega)]
      · rw [if_neg h2, if_neg (by omega)]

/-! ## The sum of changes -/

section
variable (b : Nat → Bool) (S : Nat → Nat)

/-- Exclusive or of the changes at the groups 1 to `j` whose start fulfils `q`. -/
def G (q : Nat → Bool) : Nat → Bool
  | 0 => false
  | j + 1 => G q j ^^ (q (S (j + 1)) && (b (j + 1) ^^ b j))

theorem G_xor {q1 q2 q3 : Nat → Bool} (h : ∀ s, (q1 s ^^ q2 s) = q3 s) : ∀ j, (G b S q1 j ^^ G b S q2 j) = G b S q3 j
  | 0 => rfl
  | j + 1 => by
    have ih := G_xor h j
    rw [G, G, G, ← ih, ← h]
    cases G b S q1 j <;> cases G b S q2 j <;> cases q1 (S (j + 1)) <;> cases q2 (S (j + 1)) <;> cases (b (j + 1) ^^ b j) <;> rfl

theorem G_none {q : Nat → Bool} {j : Nat} (h : ∀ i, 0 < i → i ≤ j → q (S i) = false) : G b S q j = false := by
  induction j with
  | zero => rfl
  | succ j ih => rw [G, ih fun i h1 h2 => h i h1 (by omega), h (j + 1) (by omega) (Nat.le_refl _)]; rfl

theorem G_stop {q : Nat → Bool} {j : Nat} : ∀ {j'}, j ≤ j' → (∀ i, j < i → i ≤ j' → q (S i) = false) → G b S q j' = G b S q j
  | 0, h, _ => by rw [show j = 0 by omega]
  | j' + 1, h, hq => by
    rcases Nat.eq_or_lt_of_le h with h | h
    · rw [h]
    · rw [G, hq (j' + 1) h (Nat.le_refl _), Bool.false_and, Bool.xor_false]
      exact G_stop (by omega) fun i h1 h2 => hq i h1 (by omega)

theorem G_all {q : Nat → Bool} {j : Nat} (h : ∀ i, 0 < i → i ≤ j → q (S i) = true) : (b 0 ^^ G b S q j) = b j := by
  induction j with
  | zero => rw [G, Bool.xor_false]
  | succ j ih =>
    have := ih fun i h1 h2 => h i h1 (by omega)
    rw [G, h (j + 1) (by omega) (Nat.le_refl _), Bool.true_and, ← Bool.xor_assoc, this]
    cases b j <;> cases b (j + 1) <;> rfl
end

/-! ## The loops -/

/-- The groups: `S j` is where group `j` starts. -/
structure Groups (wv : Nat → Option Nat) (S : Nat → Nat) (len s : Nat) : Prop where
  zero : S 0 = 0
  step : ∀ j, j < len → ∃ c, wv j = some c ∧ S (j + 1) = S j + c
  last : S len = s

theorem Groups.mono {wv : Nat → Option Nat} {S : Nat → Nat} {len s : Nat} (h : Groups wv S len s) {i : Nat} : ∀ {j}, i ≤ j → j ≤ len → S i ≤ S j
  | 0, h1, _ => by rw [show i = 0 by omega]; exact Nat.le_refl _
  | j + 1, h1, h2 => by
    rcases Nat.eq_or_lt_of_le h1 with e | e
    · rw [e]; exact Nat.le_refl _
    · obtain ⟨c, _, hc⟩ := h.step j (by omega)
      have := Groups.mono h (i := i) (j := j) (by omega) (by omega)
      omega

/-- Changes within the word of `p` up to `p`. -/
def inWord (p : Nat) : Nat → Bool := fun s => decide (64 * (p / 64) ≤ s ∧ s ≤ p)

theorem xorGroups_spec {wv : Nat → Option Nat} {S : Nat → Nat} {len s : Nat} (hS : Groups wv S len s) (x : Nat → Word) (k e : Nat) (hes : e ≤ s) :
    ∀ (fuel j : Nat) (xx xs : Word) (m : List Word), j < len → len ≤ fuel + j + 1 → k ≤ S (j + 1) → e ≤ 64 * m.length →
      (∀ t, j % 64 + t < 64 → 0 < j + t → xx.getLsbD t = (bitF x (j + t) ^^ bitF x (j + t - 1))) → xs = x (j / 64) >>> 63 →
      (∀ p, 64 * (k / 64) ≤ p → p < 64 * m.length → p / 64 ≤ (e - 1) / 64 → bitL m p = G (bitF x) S (inWord p) j) →
      ∃ j' xx' m', xorGroups wv x e fuel j (S (j + 1)) xx xs m = some (j', S (j' + 1), xx', x (j' / 64) >>> 63, m') ∧ j ≤ j' ∧ j' < len ∧ e ≤ S (j' + 1) ∧
        (∀ i, j < i → i ≤ j' → S i < e) ∧ m'.length = m.length ∧
        (∀ t, j' % 64 + t < 64 → 0 < j' + t → xx'.getLsbD t = (bitF x (j' + t) ^^ bitF x (j' + t - 1))) ∧
        (∀ p, 64 * (k / 64) ≤ p → p < 64 * m.length → p / 64 ≤ (e - 1) / 64 → bitL m' p = G (bitF x) S (inWord p) j') ∧
        (∀ p, p < 64 * (k / 64) → bitL m' p = bitL m p)
  | fuel, j, xx, xs, m, hj, hf, hk, hm, hxx, hxs, hb => by
    unfold xorGroups
    by_cases hlt : S (j + 1) < e
    · rw [if_pos hlt]
      have hj1 : j + 1 < len := by
        rcases Nat.lt_or_ge (j + 1) len with h | h
        · exact h
        · rw [show j + 1 = len by omega, hS.last] at hlt
          omega
      cases fuel with
      | zero => omega
      | succ fuel =>
        dsimp only
        generalize hpair : (if (j + 1) % 64 = 0 then (x ((j + 1) / 64) ^^^ x ((j + 1) / 64) <<< 1 ^^^ xs, x ((j + 1) / 64) >>> 63) else (xx >>> 1, xs)) = pr
        have hpr : (∀ t, (j + 1) % 64 + t < 64 → pr.1.getLsbD t = (bitF x (j + 1 + t) ^^ bitF x (j + 1 + t - 1))) ∧ pr.2 = x ((j + 1) / 64) >>> 63 := by
          rw [← hpair]
          by_cases h64 : (j + 1) % 64 = 0
          · rw [if_pos h64]
            refine ⟨fun t ht => ?_, rfl⟩
            show (x ((j + 1) / 64) ^^^ x ((j + 1) / 64) <<< 1 ^^^ xs).getLsbD t = _
            rw [BitVec.getLsbD_xor, BitVec.getLsbD_xor, hxs, BitVec.getLsbD_shiftLeft, decide_eq_true (by omega), Bool.true_and]
            unfold bitF
            cases t with
            | zero =>
              rw [decide_eq_true (by omega), BitVec.getLsbD_ushiftRight, show (j + 1 + 0) / 64 = (j + 1) / 64 by omega, show (j + 1 + 0) % 64 = 0 by omega,
                show (j + 1 + 0 - 1) / 64 = j / 64 by omega, show (j + 1 + 0 - 1) % 64 = 63 by omega]
              simp
            | succ t =>
              rw [decide_eq_false (by omega), BitVec.getLsbD_ushiftRight, BitVec.getLsbD_of_ge (x (j / 64)) (63 + (t + 1)) (by omega),
                show (j + 1 + (t + 1)) / 64 = (j + 1) / 64 by omega, show (j + 1 + (t + 1)) % 64 = t + 1 by omega,
                show (j + 1 + (t + 1) - 1) / 64 = (j + 1) / 64 by omega, show (j + 1 + (t + 1) - 1) % 64 = t by omega]
              simp
          · rw [if_neg h64]
            refine ⟨fun t ht => ?_, by show xs = _; rw [hxs, show (j + 1) / 64 = j / 64 by omega]⟩
            show (xx >>> 1).getLsbD t = _
            rw [BitVec.getLsbD_ushiftRight, hxx (1 + t) (by omega) (by omega)]
            rw [show j + (1 + t) = j + 1 + t by omega]
        obtain ⟨hp1, hp2⟩ := hpr
        obtain ⟨xx1, xs1⟩ := pr
        dsimp only at hp1 hp2 ⊢
        have hw : S (j + 1) / 64 < m.length := by omega
        rw [List.getElem?_eq_getElem hw, Option.bind_some, wr_some hw, Option.bind_some]
        obtain ⟨c, hc1, hc2⟩ := hS.step (j + 1) hj1
        rw [hc1, Option.bind_some, ← hc2]
        have hmono : S (j + 1) ≤ S (j + 1 + 1) := by omega
        generalize hm1 : m.set (S (j + 1) / 64) (m[S (j + 1) / 64] ^^^ ((-(xx1 &&& 1#64)) <<< (S (j + 1) % 64))) = m1
        have hm1l : m1.length = m.length := by rw [← hm1, List.length_set]
        have hbit : ∀ p, bitL m1 p = (bitL m p ^^ (decide (p / 64 = S (j + 1) / 64 ∧ S (j + 1) ≤ p) && (bitF x (j + 1) ^^ bitF x j))) := by
          intro p
          rw [← hm1, bitL_set hw]
          by_cases hp : p / 64 = S (j + 1) / 64
          · rw [if_pos hp, BitVec.getLsbD_xor, neg_one_bit, shl_all _ _ _ (by omega), show xx1.getLsbD 0 = (bitF x (j + 1) ^^ bitF x j) from hp1 0 (by omega)]
            congr 1
            · unfold bitL
              rw [hp, List.getD_eq_getElem?_getD, List.getElem?_eq_getElem hw]
              rfl
            · congr 1
              apply decide_eq_decide.2
              omega
          · rw [if_neg hp, decide_eq_false (by omega), Bool.false_and, Bool.xor_false]
        obtain ⟨j', xx', m', e1, e2, e3, e4, e45, e5, e6, e7, e8⟩ := xorGroups_spec hS x k e hes fuel (j + 1) xx1 xs1 m1 hj1 (by omega) (by omega) (by omega)
          (fun t ht _ => hp1 t ht) hp2 (fun p h1 h2 h3 => by
            rw [hbit, hb p h1 (by omega) h3, G]
            congr 2
            unfold inWord
            apply decide_eq_decide.2
            omega)
        refine ⟨j', xx', m', e1, by omega, e3, e4, fun i h1 h2 => by
          rcases Nat.eq_or_lt_of_le h1 with h | h
          · rw [← h]; exact hlt
          · exact e45 i h h2, by omega, e6, fun p h1 h2 h3 => e7 p h1 (by omega) h3, fun p hp => ?_⟩
        rw [e8 p hp, hbit, decide_eq_false (by omega), Bool.false_and, Bool.xor_false]
    · rw [if_neg hlt]
      subst hxs
      exact ⟨j, xx, m, rfl, Nat.le_refl _, hj, by omega, fun i h1 h2 => by omega, rfl, hxx, hb, fun _ _ => rfl⟩

theorem carryWords_spec (x : Nat → Word) (S : Nat → Nat) (j : Nat) : ∀ (n i : Nat) (m : List Word), i + n ≤ m.length →
    (∀ p, i ≤ p / 64 → p / 64 < i + n → bitL m p = G (bitF x) S (inWord p) j) →
    ∃ m', carryWords n i (all64 (bitF x 0 ^^ G (bitF x) S (fun s => decide (s < 64 * i)) j)) m =
        some (all64 (bitF x 0 ^^ G (bitF x) S (fun s => decide (s < 64 * (i + n))) j), m') ∧ m'.length = m.length ∧
      (∀ p, i ≤ p / 64 → p / 64 < i + n → bitL m' p = (bitF x 0 ^^ G (bitF x) S (fun s => decide (s ≤ p)) j)) ∧
      ∀ p, p / 64 < i → bitL m' p = bitL m p
  | 0, i, m, _, _ => ⟨m, rfl, rfl, fun p h1 h2 => by omega, fun _ _ => rfl⟩
  | n + 1, i, m, h, hb => by
    have hi : i < m.length := by omega
    rw [carryWords, List.getElem?_eq_getElem hi, Option.bind_some, wr_some hi, Option.bind_some]
    generalize hv : m[i] ^^^ all64 (bitF x 0 ^^ G (bitF x) S (fun s => decide (s < 64 * i)) j) = v
    have hbit : ∀ t, t < 64 → v.getLsbD t = (bitF x 0 ^^ G (bitF x) S (fun s => decide (s ≤ 64 * i + t)) j) := by
      intro t ht
      have h1 := hb (64 * i + t) (by omega) (by omega)
      rw [bitL_get (r := m[i]) (by rw [show (64 * i + t) / 64 = i by omega, List.getElem?_eq_getElem hi]), show (64 * i + t) % 64 = t by omega] at h1
      rw [← hv, BitVec.getLsbD_xor, all64_bit _ ht, h1,
        ← G_xor (bitF x) S (q1 := inWord (64 * i + t)) (q2 := fun s => decide (s < 64 * i)) (q3 := fun s => decide (s ≤ 64 * i + t)) (fun s => by
          unfold inWord
          by_cases ha : s < 64 * i
          · rw [decide_eq_false (by omega), decide_eq_true ha, decide_eq_true (by omega)]; rfl
          · by_cases hb : s ≤ 64 * i + t
            · rw [decide_eq_true (by omega), decide_eq_false ha, decide_eq_true hb]; rfl
            · rw [decide_eq_false (by omega), decide_eq_false ha, decide_eq_false hb]; rfl)]
      cases bitF x 0 <;> cases G (bitF x) S (inWord (64 * i + t)) j <;> cases G (bitF x) S (fun s => decide (s < 64 * i)) j <;> rfl
    rw [neg_top_bit, hbit 63 (by omega)]
    have hq : (fun s => decide (s ≤ 64 * i + 63)) = fun s => decide (s < 64 * (i + 1)) := funext fun s => decide_eq_decide.2 (by omega)
    rw [hq]
    obtain ⟨m', e, hl, hnew, hold⟩ := carryWords_spec x S j n (i + 1) (m.set i v) (by rw [List.length_set]; omega) (fun p h1 h2 => by
      rw [bitL_set hi, if_neg (by omega)]
      exact hb p (by omega) (by omega))
    rw [show i + 1 + n = i + (n + 1) by omega] at e
    refine ⟨m', e, by rw [hl, List.length_set], fun p h1 h2 => ?_, fun p hp => ?_⟩
    · rcases Nat.eq_or_lt_of_le h1 with h3 | h3
      · rw [hold p (by omega), bitL_set hi, if_pos h3.symm, hbit _ (by omega), show 64 * i + p % 64 = p by omega]
      · exact hnew p h3 (by omega)
    · rw [hold p (by omega), bitL_set hi, if_neg (by omega)]

theorem xorBlocks_spec {wv : Nat → Option Nat} {S : Nat → Nat} {len s : Nat} (hS : Groups wv S len s) (x : Nat → Word) : ∀ (fuel k j : Nat) (xx : Word) (m : List Word),
    k % 64 = 0 → k < s → s ≤ k + 4096 * fuel → m.length = (s + 63) / 64 → j < len → k ≤ S (j + 1) → (∀ i, 0 < i → i ≤ j → S i < k) →
    (∀ t, j % 64 + t < 64 → 0 < j + t → xx.getLsbD t = (bitF x (j + t) ^^ bitF x (j + t - 1))) →
    (∀ p, p < k → bitL m p = (bitF x 0 ^^ G (bitF x) S (fun s => decide (s ≤ p)) len)) →
    ∃ m', xorBlocks wv x len s fuel k j (S (j + 1)) xx (x (j / 64) >>> 63) (all64 (bitF x 0 ^^ G (bitF x) S (fun s => decide (s < k)) j)) m = some m' ∧
      m'.length = m.length ∧ ∀ p, p < s → bitL m' p = (bitF x 0 ^^ G (bitF x) S (fun s => decide (s ≤ p)) len)
  | 0, k, j, xx, m, _, h1, h2, _, _, _, _, _, _ => by omega
  | fuel + 1, k, j, xx, m, hk64, hks, hf, hm, hj, hkj, hSk, hxx, hfin => by
    rw [xorBlocks]
    dsimp only
    generalize he : (if 4096 < s - k then k + 4096 else s) = e
    have he1 : k < e ∧ e ≤ s ∧ (e = s ∨ (e = k + 4096 ∧ e < s)) := by
      rw [← he]; split <;> omega
    obtain ⟨m1, e1, l1, b1⟩ := zeroWords_spec ((e - 1) / 64 + 1 - k / 64) (k / 64) m (by omega)
    rw [e1, Option.bind_some]
    obtain ⟨j', xx', m2, e2, hjj, hj', hej, hlt, l2, hxx', b2, b2'⟩ := xorGroups_spec hS x k e he1.2.1 len j xx (x (j / 64) >>> 63) m1 hj (by omega) hkj (by omega) hxx rfl
      (fun p h1 h2 h3 => by
        rw [b1, if_pos (by omega), G_none]
        intro i hi1 hi2
        have := hSk i hi1 hi2
        unfold inWord
        exact decide_eq_false (by omega))
    rw [e2, Option.bind_some]
    dsimp only
    have hjs : G (bitF x) S (fun s => decide (s < k)) j' = G (bitF x) S (fun s => decide (s < k)) j := by
      apply G_stop _ _ hjj
      intro i h1 h2
      have := hS.mono (i := j + 1) (j := i) (by omega) (by omega)
      exact decide_eq_false (by omega)
    obtain ⟨m3, e3, l3, b3, b3'⟩ := carryWords_spec x S j' ((e - 1) / 64 + 1 - k / 64) (k / 64) m2 (by omega) (fun p h1 h2 => b2 p (by omega) (by omega) (by omega))
    rw [show 64 * (k / 64) = k by omega, hjs] at e3
    rw [e3, Option.bind_some]
    dsimp only
    have hfin3 : ∀ p, p < e → bitL m3 p = (bitF x 0 ^^ G (bitF x) S (fun s => decide (s ≤ p)) len) := by
      intro p hp
      rcases Nat.lt_or_ge p k with h | h
      · rw [b3' p (by omega), b2' p (by omega), b1, if_neg (by omega), hfin p h]
      · rw [b3 p (by omega) (by omega)]
        congr 1
        apply (G_stop _ _ (Nat.le_of_lt hj') _).symm
        intro i h1 h2
        have := hS.mono (i := j' + 1) (j := i) (by omega) (by omega)
        exact decide_eq_false (by omega)
    by_cases hes : e = s
    · rw [if_pos hes]
      exact ⟨m3, rfl, by omega, fun p hp => hfin3 p (by omega)⟩
    · rw [if_neg hes]
      have hee : 64 * (k / 64 + ((e - 1) / 64 + 1 - k / 64)) = e := by omega
      rw [hee]
      obtain ⟨m4, e4, l4, b4⟩ := xorBlocks_spec hS x fuel e j' xx' m3 (by omega) (by omega) (by omega) (by omega) hj' hej (fun i h1 h2 => by
          rcases Nat.lt_or_ge j i with h | h
          · exact hlt i h h2
          · exact Nat.lt_trans (hSk i h1 h) he1.1) hxx' hfin3
      exact ⟨m4, e4, by omega, b4⟩

/-! ## The result -/

theorem firstN_copies {β} : ∀ (cs : List Nat) (f b : Nat → β), (∀ j, j < cs.length → ∀ p, (cs.take j).sum ≤ p → p < (cs.take (j + 1)).sum → f p = b j) →
    firstN f cs.sum = copies cs (firstN b cs.length)
  | [], _, _, _ => rfl
  | c :: cs, f, b, h => by
    rw [List.sum_cons, List.length_cons, firstN_succ, firstN_add]
    show _ = List.replicate c (b 0) ++ copies cs _
    congr 1
    · apply List.ext_getElem?
      intro i
      rw [getElem?_firstN, List.getElem?_replicate]
      by_cases hi : i < c
      · rw [if_pos hi, if_pos hi, h 0 (by simp) i (by simp) (by simpa using hi)]
      · rw [if_neg hi, if_neg hi]
    · apply firstN_copies cs
      intro j hj p h1 h2
      apply h (j + 1) (by rw [List.length_cons]; omega)
      · rw [List.take_succ_cons, List.sum_cons]; omega
      · rw [List.take_succ_cons, List.sum_cons]; omega

theorem take_succ_sum (cs : List Nat) (j : Nat) (h : j < cs.length) : (cs.take (j + 1)).sum = (cs.take j).sum + cs[j] := by
  rw [List.take_succ_eq_append_getElem h, List.sum_append]
  simp

theorem groups_of (cs : List Nat) (wv : Nat → Option Nat) (h : ∀ j, j < cs.length → wv j = cs[j]?) : Groups wv (fun j => (cs.take j).sum) cs.length cs.sum where
  zero := rfl
  step j hj := ⟨cs[j], by rw [h j hj, List.getElem?_eq_getElem hj], take_succ_sum cs j hj⟩
  last := by rw [List.take_length]

theorem boolRepXorScan_spec (cs : List Nat) (wv : Nat → Option Nat) (h : ∀ j, j < cs.length → wv j = cs[j]?) (x : Nat → Word) (m : List Word) (hs : 0 < cs.sum)
    (hm : m.length = (cs.sum + 63) / 64) :
    ∃ m', boolRepXorScan wv x cs.length cs.sum m = some m' ∧ listL m' cs.sum = copies cs (listF x cs.length) := by
  have hg := groups_of cs wv h
  have hl : 0 < cs.length := by
    cases cs with
    | nil => simp at hs
    | cons c cs => simp
  obtain ⟨c, hc1, hc2⟩ := hg.step 0 hl
  have hc3 : c = (cs.take (0 + 1)).sum := by
    have : (cs.take (0 + 1)).sum = (cs.take 0).sum + c := hc2
    rw [this]; simp
  unfold boolRepXorScan
  dsimp only
  rw [hc1, Option.bind_some]
  obtain ⟨m', e, l, b⟩ := xorBlocks_spec hg x (cs.sum / 4096 + 1) 0 0 (x 0 ^^^ x 0 <<< 1) m rfl hs (by omega) hm hl (Nat.zero_le _) (fun i h1 h2 => by omega)
    (fun t ht ht0 => by
      rw [BitVec.getLsbD_xor, BitVec.getLsbD_shiftLeft, decide_eq_true (by omega), decide_eq_false (by omega), Bool.true_and]
      unfold bitF
      rw [show (0 + t) / 64 = 0 by omega, show (0 + t - 1) / 64 = 0 by omega, show (0 + t) % 64 = t by omega, show (0 + t - 1) % 64 = t - 1 by omega]
      rfl)
    (fun p hp => by omega)
  have hjs : -(x 0 &&& 1#64) = all64 (bitF x 0 ^^ G (bitF x) (fun j => (cs.take j).sum) (fun s => decide (s < 0)) 0) := by
    rw [neg_one_bit, G, Bool.xor_false]
    rfl
  refine ⟨m', ?_, ?_⟩
  · rw [hjs, hc3]
    exact e
  · apply firstN_copies
    intro j hj p h1 h2
    have hmono := hg.mono (i := j + 1) (j := cs.length) hj (Nat.le_refl _)
    rw [hg.last] at hmono
    rw [b p (Nat.lt_of_lt_of_le h2 hmono), G_stop _ _ (Nat.le_of_lt hj)]
    · apply G_all
      intro i _ hi
      have : (cs.take i).sum ≤ (cs.take j).sum := hg.mono hi (by omega)
      exact decide_eq_true (by omega)
    · intro i h3 h4
      have : (cs.take (j + 1)).sum ≤ (cs.take i).sum := hg.mono (i := j + 1) (j := i) (by omega) h4
      exact decide_eq_false (by omega)

/-! ## Word by word -/

theorem overWords_spec (v : Word) : ∀ (n j : Nat) (m : List Word), j + n ≤ m.length →
    ∃ m', overWords v n j m = some m' ∧ m'.length = m.length ∧ ∀ p, bitL m' p = if j ≤ p / 64 ∧ p / 64 < j + n then v.getLsbD (p % 64) else bitL m p
  | 0, i, m, _ => ⟨m, rfl, rfl, fun p => by rw [if_neg (by omega)]⟩
  | n + 1, i, m, h => by
    rw [overWords, wr_some (by omega), Option.bind_some]
    obtain ⟨m', e, hl, hb⟩ := overWords_spec v n (i + 1) (m.set i v) (by rw [List.length_set]; omega)
    refine ⟨m', e, by rw [hl, List.length_set], fun p => ?_⟩
    rw [hb, bitL_set (by omega)]
    by_cases h1 : p / 64 = i
    · rw [if_neg (by omega), if_pos h1, if_pos (by omega)]
    · rw [if_neg h1]
      by_cases h2 : i + 1 ≤ p / 64 ∧ p / 64 < i + 1 + n
      · rw [if_pos h2, if_pos (by omega)]
      · rw [if_neg h2, if_neg (by omega)]

theorem spread_eq (x : Nat → Word) (i : Nat) : spread x i = all64 (bitF x i) := by
  unfold spread bitF
  rw [neg_one_bit, BitVec.getLsbD_ushiftRight, Nat.add_zero]

/-- The word in which the value changes from `a` to `b` at place `k`, given that the places from `k` on are `a`. -/
theorem change_bit (r : Word) (a b : Bool) (k : Nat) (hr : ∀ t, k ≤ t → t < 64 → r.getLsbD t = a) (t : Nat) (ht : t < 64) :
    (r ^^^ ((all64 b ^^^ all64 a) <<< k)).getLsbD t = if t < k then r.getLsbD t else b := by
  rw [BitVec.getLsbD_xor, BitVec.getLsbD_shiftLeft, decide_eq_true ht, Bool.true_and]
  by_cases h : t < k
  · rw [decide_eq_true h, if_pos h, Bool.not_true, Bool.false_and, Bool.xor_false]
  · rw [decide_eq_false h, if_neg h, Bool.not_false, Bool.true_and, BitVec.getLsbD_xor, all64_bit _ (by omega), all64_bit _ (by omega), hr t (by omega) ht]
    cases a <;> cases b <;> rfl

/-- `F` is the wanted bit at every place. -/
theorem overLoop_spec (x : Nat → Word) (F : Nat → Bool) (s : Nat) : ∀ (cs : List Nat) (i ri : Nat) (rc : Word) (a : Bool) (m : List Word),
    ri + cs.sum ≤ s → s ≤ 64 * m.length →
    (∀ j, j < cs.length → ∀ p, ri + (cs.take j).sum ≤ p → p < ri + (cs.take (j + 1)).sum → F p = bitF x (i + j)) →
    (∀ p, p < 64 * (ri / 64) → bitL m p = F p) → (∀ t, t < ri % 64 → rc.getLsbD t = F (64 * (ri / 64) + t)) →
    (∀ t, ri % 64 ≤ t → t < 64 → rc.getLsbD t = a) →
    ∃ rc' m', overLoop x cs i ri rc (all64 a) (ri / 64) m = some (ri + cs.sum, rc', (ri + cs.sum) / 64, m') ∧ m'.length = m.length ∧
      (∀ p, p < 64 * ((ri + cs.sum) / 64) → bitL m' p = F p) ∧ (∀ t, t < (ri + cs.sum) % 64 → rc'.getLsbD t = F (64 * ((ri + cs.sum) / 64) + t))
  | [], i, ri, rc, a, m, _, _, _, h1, h2, _ => ⟨rc, m, rfl, rfl, h1, h2⟩
  | c :: cs, i, ri, rc, a, m, hs, hm, hF, h1, h2, h3 => by
    rw [List.sum_cons] at hs ⊢
    rw [overLoop]
    rw [spread_eq]
    have hch := change_bit rc a (bitF x i) (ri % 64) h3
    have hF0 : ∀ p, ri ≤ p → p < ri + c → F p = bitF x i := fun p hp1 hp2 => by
      have := hF 0 (by simp) p (by simpa using hp1) (by simpa using hp2)
      simpa using this
    have hFn : ∀ j, j < cs.length → ∀ p, ri + c + (cs.take j).sum ≤ p → p < ri + c + (cs.take (j + 1)).sum → F p = bitF x (i + 1 + j) := fun j hj p hp1 hp2 => by
      have := hF (j + 1) (by simpa using hj) p (by simp; omega) (by rw [List.take_succ_cons, List.sum_cons]; omega)
      rw [this, show i + (j + 1) = i + 1 + j by omega]
    by_cases he : ri / 64 < (ri + c) / 64
    · rw [if_pos he, wr_some (by omega), Option.bind_some]
      obtain ⟨m1, e1, l1, b1⟩ := overWords_spec (all64 (bitF x i)) ((ri + c) / 64 - (ri / 64 + 1)) (ri / 64 + 1)
        (m.set (ri / 64) (rc ^^^ ((all64 (bitF x i) ^^^ all64 a) <<< (ri % 64)))) (by rw [List.length_set]; omega)
      rw [e1, Option.bind_some]
      rw [List.length_set] at l1
      obtain ⟨rc', m', e2, l2, b2, b3⟩ := overLoop_spec x F s cs (i + 1) (ri + c) (all64 (bitF x i)) (bitF x i) m1 (by omega) (by omega) hFn
        (fun p hp => by
          rw [b1]
          by_cases hp1 : ri / 64 + 1 ≤ p / 64
          · rw [if_pos (by omega), all64_bit _ (by omega), hF0 p (by omega) (by omega)]
          · rw [if_neg (by omega), bitL_set (by omega)]
            by_cases hp2 : p / 64 = ri / 64
            · rw [if_pos hp2, hch _ (by omega)]
              by_cases hp3 : p % 64 < ri % 64
              · rw [if_pos hp3, h2 _ hp3, show 64 * (ri / 64) + p % 64 = p by omega]
              · rw [if_neg hp3, hF0 p (by omega) (by omega)]
            · rw [if_neg hp2, h1 p (by omega)])
        (fun t ht => by rw [all64_bit _ (by omega), hF0 _ (by omega) (by omega)])
        (fun t _ ht => all64_bit _ ht)
      rw [show ri + (c + cs.sum) = ri + c + cs.sum by omega]
      exact ⟨rc', m', e2, by omega, b2, b3⟩
    · rw [if_neg he]
      have hee : (ri + c) / 64 = ri / 64 := by omega
      rw [← hee]
      obtain ⟨rc', m', e2, l2, b2, b3⟩ := overLoop_spec x F s cs (i + 1) (ri + c) (rc ^^^ ((all64 (bitF x i) ^^^ all64 a) <<< (ri % 64))) (bitF x i) m (by omega) hm hFn
        (fun p hp => h1 p (by omega))
        (fun t ht => by
          rw [hch _ (by omega)]
          by_cases hp3 : t < ri % 64
          · rw [if_pos hp3, h2 _ hp3, hee]
          · rw [if_neg hp3, hF0 _ (by omega) (by omega)])
        (fun t ht1 ht => by rw [hch _ ht, if_neg (by omega)])
      rw [show ri + (c + cs.sum) = ri + c + cs.sum by omega]
      exact ⟨rc', m', e2, l2, b2, b3⟩

/-- The wanted bits. -/
def wanted (l : List Bool) (p : Nat) : Bool := l.getD p false

theorem wanted_spec (cs : List Nat) (x : Nat → Word) {j : Nat} (hj : j < cs.length) {p : Nat} (h1 : (cs.take j).sum ≤ p) (h2 : p < (cs.take (j + 1)).sum) :
    wanted (copies cs (listF x cs.length)) p = bitF x j := by
  suffices h : ∀ (cs : List Nat) (b : Nat → Bool) (j p : Nat), j < cs.length → (cs.take j).sum ≤ p → p < (cs.take (j + 1)).sum →
      (copies cs (firstN b cs.length))[p]? = some (b j) by
    unfold wanted
    rw [List.getD_eq_getElem?_getD, h cs (bitF x) j p hj h1 h2]
    rfl
  intro cs
  induction cs with
  | nil => intro b j p hj; simp at hj
  | cons c cs ih =>
    intro b j p hj h1 h2
    rw [List.length_cons, firstN_succ]
    show (List.replicate c (b 0) ++ copies cs (firstN (fun i => b (i + 1)) cs.length))[p]? = _
    rw [List.getElem?_append, List.length_replicate, List.getElem?_replicate]
    cases j with
    | zero =>
      have : p < c := by simpa using h2
      rw [if_pos this, if_pos this]
    | succ j =>
      rw [List.take_succ_cons, List.sum_cons] at h1 h2
      rw [if_neg (by omega)]
      exact ih (fun i => b (i + 1)) j (p - c) (by simpa using hj) (by omega) (by omega)

theorem listL_wanted {l : List Bool} {m : List Word} {n : Nat} (hl : l.length = n) (h : ∀ p, p < n → bitL m p = wanted l p) : listL m n = l := by
  apply List.ext_getElem?
  intro i
  show (firstN (bitL m) n)[i]? = _
  rw [getElem?_firstN]
  by_cases hi : i < n
  · rw [if_pos hi, h i hi, List.getElem?_eq_getElem (by omega)]
    unfold wanted
    rw [List.getD_eq_getElem?_getD, List.getElem?_eq_getElem (by omega)]
    rfl
  · rw [if_neg hi, List.getElem?_eq_none (by omega)]

theorem boolRepOver_spec (cs : List Nat) (x : Nat → Word) (m : List Word) (hm : m.length = (cs.sum + 63) / 64) :
    ∃ m', boolRepOver x cs m = some m' ∧ listL m' cs.sum = copies cs (listF x cs.length) := by
  unfold boolRepOver
  obtain ⟨rc, m1, e, l, b1, b2⟩ := overLoop_spec x (wanted (copies cs (listF x cs.length))) cs.sum cs 0 0 0#64 false m (by omega) (by omega)
    (fun j hj p h1 h2 => by
      rw [Nat.zero_add] at h1 h2 ⊢
      exact wanted_spec cs x hj h1 h2)
    (fun p hp => by omega) (fun t ht => by omega) (fun t _ _ => by rw [BitVec.getLsbD_zero])
  rw [Nat.zero_add] at e b1 b2
  have e' : overLoop x cs 0 0 0#64 0#64 0 m = some (cs.sum, rc, cs.sum / 64, m1) := e
  rw [e', Option.bind_some]
  dsimp only
  have hlen : (copies cs (listF x cs.length)).length = cs.sum := copies_length cs _ (by rw [listF, length_firstN]; exact Nat.le_refl _)
  by_cases h : cs.sum % 64 ≠ 0
  · rw [if_pos h, wr_some (by omega)]
    refine ⟨_, rfl, listL_wanted hlen fun p hp => ?_⟩
    rw [bitL_set (by omega)]
    by_cases hp2 : p / 64 = cs.sum / 64
    · rw [if_pos hp2, b2 _ (by omega), show 64 * (cs.sum / 64) + p % 64 = p by omega]
    · rw [if_neg hp2, b1 p (by omega)]
  · rw [if_neg h]
    exact ⟨m1, rfl, listL_wanted hlen fun p hp => b1 p (by omega)⟩

/-! ## A constant above 64 -/

theorem constLoop_spec (x : Nat → Word) (F : Nat → Bool) (wv s : Nat) (hwv : 64 < wv) : ∀ (n i : Nat) (a : Bool) (m : List Word),
    (i + n) * wv = s → m.length = (s + 63) / 64 →
    (∀ j, j < i + n → ∀ p, j * wv ≤ p → p < j * wv + wv → F p = bitF x j) →
    (∀ p, p < 64 * (i * wv / 64) → bitL m p = F p) → (i ≠ 0 → a = bitF x (i - 1)) →
    ∃ m', constLoop x wv n i (i * wv) (all64 a) (i * wv / 64) m = some m' ∧ ∀ p, p < s → bitL m' p = F p
  | 0, i, a, m, hs, hm, hF, h1, ha => by
    rw [Nat.add_zero] at hs hF
    rw [constLoop, hs]
    rw [hs] at h1
    by_cases h : s % 64 ≠ 0
    · rw [if_pos h, wr_some (by omega)]
      refine ⟨_, rfl, fun p hp => ?_⟩
      rw [bitL_set (by omega)]
      by_cases hp2 : p / 64 = s / 64
      · have hi : i ≠ 0 := fun e => by rw [e, Nat.zero_mul] at hs; omega
        obtain ⟨i, rfl⟩ := Nat.exists_eq_succ_of_ne_zero hi
        rw [Nat.succ_mul] at hs
        rw [if_pos hp2, all64_bit _ (by omega), ha hi, hF i (by omega) p (by omega) (by omega)]
        rfl
      · rw [if_neg hp2, h1 p (by omega)]
    · rw [if_neg h]
      exact ⟨m, rfl, fun p hp => h1 p (by omega)⟩
  | n + 1, i, a, m, hs, hm, hF, h1, ha => by
    rw [constLoop]
    rw [spread_eq]
    have hle : i * wv + wv ≤ s := by
      rw [← hs, ← Nat.succ_mul]
      exact Nat.mul_le_mul_right _ (by omega)
    have hsucc : (i + 1) * wv = i * wv + wv := Nat.succ_mul i wv
    have hprev : i ≠ 0 → ∀ p, i * wv - 64 ≤ p → p < i * wv → F p = a := by
      intro hi p hp1 hp2
      rw [ha hi]
      obtain ⟨i, rfl⟩ := Nat.exists_eq_succ_of_ne_zero hi
      rw [Nat.succ_mul] at hp1 hp2
      exact hF i (by omega) p (by omega) (by omega)
    have h0 : i = 0 → i * wv = 0 := fun e => by rw [e, Nat.zero_mul]
    have hFi := hF i (by omega)
    have hch := change_bit (all64 a) a (bitF x i) (i * wv % 64) (fun t _ ht => all64_bit _ ht)
    generalize hr : all64 a ^^^ ((all64 (bitF x i) ^^^ all64 a) <<< (i * wv % 64)) = r0 at *
    generalize hri : i * wv = ri at *
    rw [wr_some (by omega), Option.bind_some, wr_some (by rw [List.length_set]; omega), Option.bind_some]
    obtain ⟨m1, e1, l1, b1⟩ := overWords_spec (all64 (bitF x i)) (wv / 64 - 1) (ri / 64 + 1)
      ((m.set ((ri + wv) / 64 - 1) (all64 (bitF x i))).set (ri / 64) r0) (by rw [List.length_set, List.length_set]; omega)
    rw [e1, Option.bind_some]
    rw [List.length_set, List.length_set] at l1
    obtain ⟨m', e2, b2⟩ := constLoop_spec x F wv s hwv n (i + 1) (bitF x i) m1 (by rw [← hs, show i + 1 + n = i + (n + 1) by omega]) (by omega)
      (fun j hj => hF j (by omega))
      (fun p hp => by
        rw [hsucc] at hp
        rw [b1, bitL_set (by rw [List.length_set]; omega), bitL_set (by omega)]
        by_cases hp1 : ri / 64 + 1 ≤ p / 64
        · rw [if_neg (c := p / 64 = ri / 64) (by omega)]
          rw [hFi p (by omega) (by omega)]
          by_cases hp3 : p / 64 < ri / 64 + 1 + (wv / 64 - 1)
          · rw [if_pos ⟨hp1, hp3⟩, all64_bit _ (by omega)]
          · rw [if_neg (by omega), if_pos (by omega), all64_bit _ (by omega)]
        · rw [if_neg (by omega)]
          by_cases hp2 : p / 64 = ri / 64
          · rw [if_pos hp2, hch _ (by omega)]
            by_cases hp3 : p % 64 < ri % 64
            · have hi : i ≠ 0 := fun e => by have := h0 e; omega
              rw [if_pos hp3, all64_bit _ (by omega), hprev hi p (by omega) (by omega)]
            · rw [if_neg hp3, hFi p (by omega) (by omega)]
          · rw [if_neg hp2, if_neg (by omega), h1 p (by omega)])
      (fun _ => rfl)
    rw [hsucc] at e2
    exact ⟨m', e2, b2⟩

theorem take_replicate_sum (n wv j : Nat) (h : j ≤ n) : ((List.replicate n wv).take j).sum = j * wv := by
  rw [List.take_replicate, Nat.min_eq_left h, List.sum_replicate_nat]

theorem constLoop_all (x : Nat → Word) (n wv : Nat) (hwv : 64 < wv) (m : List Word) (hm : m.length = (n * wv + 63) / 64) :
    ∃ m', constLoop x wv n 0 0 0#64 0 m = some m' ∧ listL m' (n * wv) = copies (List.replicate n wv) (listF x n) := by
  have hn : (List.replicate n wv).length = n := List.length_replicate
  have hlen : (copies (List.replicate n wv) (listF x n)).length = n * wv := by
    rw [copies_length _ _ (by rw [hn, listF, length_firstN]; exact Nat.le_refl _), List.sum_replicate_nat]
  obtain ⟨m', e, b⟩ := constLoop_spec x (wanted (copies (List.replicate n wv) (listF x n))) wv (n * wv) hwv n 0 false m (by rw [Nat.zero_add]) hm
    (fun j hj p h1 h2 => by
      have := wanted_spec (List.replicate n wv) x (j := j) (p := p) (by rw [hn]; omega) (by rw [take_replicate_sum _ _ _ (by omega)]; exact h1)
        (by rw [take_replicate_sum _ _ _ (by omega), Nat.succ_mul]; exact h2)
      rw [hn] at this
      exact this)
    (fun p hp => by rw [Nat.zero_mul] at hp; omega) (fun h => absurd rfl h)
  rw [Nat.zero_mul] at e
  exact ⟨m', e, listL_wanted hlen b⟩

end Verif.Rep
