import Verif.UnderSlash.Lemmas
/-!
# Under Replicate of objects: proofs
-/
namespace Verif.UnderSlash
open Verif.Bits Verif.Fold Verif.Slash Verif.Rep Verif.Under Verif.Rotate

/-! ## Going through the bits of a word -/

theorem clear_lowest {c : Word} {k : Nat} (hk : CTZ c = some k) (j : Nat) : (c &&& (c - 1#64)).getLsbD j = (c.getLsbD j && decide (j ≠ k)) := by
  obtain ⟨h1, h2, h3⟩ := CTZ_spec hk
  rw [BitVec.getLsbD_and]
  have hc : ∃ q, c.toNat = 2 ^ (k + 1) * q + 2 ^ k := by
    refine ⟨c.toNat / 2 ^ (k + 1), ?_⟩
    have hm : c.toNat % 2 ^ (k + 1) = 2 ^ k := by
      apply Nat.eq_of_testBit_eq
      intro i
      rw [Nat.testBit_mod_two_pow, Nat.testBit_two_pow]
      rcases Nat.lt_trichotomy i k with hi | hi | hi
      · have := h3 i hi
        rw [BitVec.getLsbD] at this
        rw [this, Bool.and_false, decide_eq_false (by omega)]
      · subst hi
        rw [BitVec.getLsbD] at h2
        rw [h2, decide_eq_true (by omega), decide_eq_true rfl, Bool.and_true]
      · rw [decide_eq_false (by omega), decide_eq_false (by omega), Bool.false_and]
    conv => lhs; rw [← Nat.div_add_mod c.toNat (2 ^ (k + 1)), hm]
  obtain ⟨q, hq⟩ := hc
  have hp : 0 < 2 ^ k := Nat.two_pow_pos k
  have hlt : 2 ^ k < 2 ^ (k + 1) := Nat.pow_lt_pow_right (by omega) (by omega)
  have hsub : (c - 1#64).toNat = 2 ^ (k + 1) * q + (2 ^ k - 1) := by
    rw [BitVec.toNat_sub_of_le (by rw [BitVec.le_def]; show 1 ≤ c.toNat; omega)]
    show c.toNat - 1 = _
    omega
  have e1 : c.getLsbD j = (2 ^ (k + 1) * q + 2 ^ k).testBit j := by rw [BitVec.getLsbD, hq]
  have e2 : (c - 1#64).getLsbD j = (2 ^ (k + 1) * q + (2 ^ k - 1)).testBit j := by rw [BitVec.getLsbD, hsub]
  rw [e1, e2, Nat.testBit_two_pow_mul_add q hlt, Nat.testBit_two_pow_mul_add q (by omega), Nat.testBit_two_pow, Nat.testBit_two_pow_sub_one]
  rcases Nat.lt_trichotomy j k with hj | hj | hj
  · rw [if_pos (by omega), if_pos (by omega), decide_eq_false (show ¬ k = j by omega), Bool.false_and, Bool.false_and]
  · subst hj
    rw [if_pos (by omega), if_pos (by omega), decide_eq_false (show ¬ j < j by omega), decide_eq_false (show ¬ j ≠ j from fun h => h rfl), Bool.and_false]
  · rw [if_neg (by omega), if_neg (by omega), Bool.and_self, decide_eq_true (show j ≠ k by omega), Bool.and_true]

/-- The elements from `p` on at the places from `q` on where `f` is true. -/
def picked {α} (elts : List α) (f : Nat → Bool) (q n : Nat) : List α := ((List.range' q n).filter f).filterMap fun j => elts[j]?

theorem picked_append {α} (elts : List α) (f : Nat → Bool) (q n m : Nat) : picked elts f q (n + m) = picked elts f q n ++ picked elts f (q + n) m := by
  rw [picked, ← List.range'_append_1, List.filter_append, List.filterMap_append]
  rfl

theorem picked_congr {α} (elts : List α) {f g : Nat → Bool} {q n : Nat} (h : ∀ j, q ≤ j → j < q + n → f j = g j) : picked elts f q n = picked elts g q n := by
  rw [picked, picked, List.filter_congr fun j hj => ?_]
  have := List.mem_range'_1.1 hj
  exact h j this.1 this.2

theorem picked_none {α} (elts : List α) {f : Nat → Bool} {q n : Nat} (h : ∀ j, q ≤ j → j < q + n → f j = false) : picked elts f q n = [] := by
  rw [picked_congr elts h, picked]
  simp

theorem byMaskWord_spec {α} {elts : List α} {p : Nat} : ∀ (fuel q : Nat) (c : Word), 65 ≤ fuel + q → q ≤ 64 → (∀ j, j < q → c.getLsbD j = false) → (∀ j, c.getLsbD j = true → p + j < elts.length) →
    byMaskWord elts p fuel c = some (picked elts (fun j => c.getLsbD (j - p)) (p + q) (64 - q))
  | 0, q, c, h1, h2, _, _ => by omega
  | fuel + 1, q, c, h1, h2, h3, h4 => by
    rw [byMaskWord]
    by_cases hc : c = 0#64
    · rw [if_pos hc, picked_none]
      intro j _ _
      rw [hc]
      simp
    · rw [if_neg hc]
      obtain ⟨k, hk⟩ := CTZ_isSome hc
      obtain ⟨hk1, hk2, hk3⟩ := CTZ_spec hk
      have hqk : q ≤ k := by
        by_cases h : q ≤ k
        · exact h
        · rw [h3 k (by omega)] at hk2
          cases hk2
      have hlt := h4 k hk2
      have hcl := clear_lowest hk
      rw [hk, Option.bind_some, List.getElem?_eq_getElem hlt, Option.bind_some, byMaskWord_spec fuel (k + 1) (c &&& (c - 1#64)) (by omega) (by omega)
        (fun j hj => by
          rw [hcl]
          by_cases hjk : j = k
          · simp [hjk]
          · rw [hk3 j (by omega)]; rfl)
        (fun j hj => h4 j (by rw [hcl, Bool.and_eq_true] at hj; exact hj.1)), Option.map_some]
      congr 1
      rw [show 64 - q = (k - q) + (1 + (64 - (k + 1))) by omega, picked_append, picked_append, picked_none elts (n := k - q), List.nil_append]
      · have e1 : picked elts (fun j => c.getLsbD (j - p)) (p + q + (k - q)) 1 = [elts[p + k]] := by
          rw [show p + q + (k - q) = p + k by omega, picked]
          have : c.getLsbD (p + k - p) = true := by rw [Nat.add_sub_cancel_left]; exact hk2
          rw [List.range'_one, List.filter_cons_of_pos (p := fun j => c.getLsbD (j - p)) this, List.filter_nil, List.filterMap_cons, List.getElem?_eq_getElem hlt]
          rfl
        rw [e1, List.singleton_append]
        congr 1
        rw [show p + q + (k - q) + 1 = p + (k + 1) by omega]
        refine picked_congr elts fun j hj _ => ?_
        rw [hcl]
        simp
        intro _
        omega
      · intro j hj1 hj2
        exact hk3 _ (by omega)

theorem bit_word {d : List Word} {i j : Nat} {m : Word} (hm : d[i]? = some m) (hj : j < 64) : getBit d (i * 64 + j) = some (m.getLsbD j) := by
  rw [getBit, show (i * 64 + j) / 64 = i by omega, show (i * 64 + j) % 64 = j by omega, hm]
  rfl

theorem getLsbD_not_zero (j : Nat) (hj : j < 64) : (~~~0#64).getLsbD j = true := by
  rw [BitVec.getLsbD_not]
  simp [hj]

theorem xor_bit (inv : Bool) (m : Word) {j : Nat} (hj : j < 64) : ((if inv then ~~~0#64 else 0#64) ^^^ m).getLsbD j = (inv != m.getLsbD j) := by
  rw [BitVec.getLsbD_xor]
  cases inv
  · simp
  · rw [if_pos rfl, getLsbD_not_zero j hj]

theorem byMaskWords_spec {α} {inv : Bool} {d : List Word} {b : Nat → Bool} {elts : List α} : ∀ (n i : Nat), (∀ j, j < (i + n) * 64 → getBit d j = some (b j)) → (i + n) * 64 ≤ elts.length →
    byMaskWords (if inv then ~~~0#64 else 0#64) d elts n i = some (picked elts (fun j => inv != b j) (i * 64) (n * 64))
  | 0, i, _, _ => by rw [byMaskWords, Nat.zero_mul]; rfl
  | n + 1, i, hd, hl => by
    have h0 := hd (i * 64) (by omega)
    rw [getBit, show i * 64 / 64 = i by omega] at h0
    obtain ⟨m, hm, _⟩ := Option.map_eq_some_iff.1 h0
    have hbit : ∀ j, j < 64 → m.getLsbD j = b (i * 64 + j) := fun j hj => by
      have h1 := bit_word hm hj
      rw [hd _ (by omega)] at h1
      exact (Option.some.inj h1).symm
    rw [byMaskWords, hm, Option.bind_some, byMaskWord_spec 65 0 _ (by omega) (by omega) (by intro j hj; omega)
      (fun j hj => by
        have : j < 64 := by
          by_cases h : j < 64
          · exact h
          · rw [BitVec.getLsbD_of_ge _ _ (by omega)] at hj
            cases hj
        omega), Option.bind_some, byMaskWords_spec n (i + 1) (fun j hj => hd j (by omega)) (by omega), Option.map_some]
    congr 1
    rw [show (n + 1) * 64 = 64 + n * 64 by omega, picked_append, show i * 64 + 64 = (i + 1) * 64 by omega, Nat.add_zero]
    congr 1
    refine picked_congr elts fun j hj1 hj2 => ?_
    rw [xor_bit inv m (by omega), hbit _ (by omega), show i * 64 + (j - i * 64) = j by omega]

theorem low_mask (r j : Nat) (hr : r < 64) : ((1#64 <<< r) - 1#64).getLsbD j = decide (j < r) := by
  have h1 : (1#64 <<< r).toNat = 2 ^ r := by
    rw [BitVec.toNat_shiftLeft]
    show 1 <<< r % 2 ^ 64 = 2 ^ r
    rw [Nat.one_shiftLeft, Nat.mod_eq_of_lt (Nat.pow_lt_pow_right (by omega) hr)]
  have hp := Nat.two_pow_pos r
  have h2 : ((1#64 <<< r) - 1#64).toNat = 2 ^ r - 1 := by
    rw [BitVec.toNat_sub_of_le (by rw [BitVec.le_def, h1]; show 1 ≤ _; omega), h1]
    rfl
  rw [BitVec.getLsbD, h2, Nat.testBit_two_pow_sub_one]

theorem byMask_spec {α} (inv : Bool) {d : List Word} {b : Nat → Bool} {elts : List α} (hd : ∀ j, j < elts.length → getBit d j = some (b j)) :
    byMask inv d elts elts.length = some (picked elts (fun j => inv != b j) 0 elts.length) := by
  rw [byMask]
  rw [byMaskWords_spec (elts.length / 64) 0 (fun j hj => hd j (by omega)) (by omega), Option.bind_some]
  have hsplit : elts.length = elts.length / 64 * 64 + elts.length % 64 := by omega
  by_cases hr : elts.length % 64 ≠ 0
  · rw [if_pos hr]
    have h0 := hd (elts.length / 64 * 64) (by omega)
    rw [getBit, show elts.length / 64 * 64 / 64 = elts.length / 64 by omega] at h0
    obtain ⟨m, hm, _⟩ := Option.map_eq_some_iff.1 h0
    have hbit : ∀ j, j < elts.length % 64 → m.getLsbD j = b (elts.length / 64 * 64 + j) := fun j hj => by
      have h1 := bit_word hm (show j < 64 by omega)
      rw [hd _ (by omega)] at h1
      exact (Option.some.inj h1).symm
    have hlow : ∀ j, (((if inv then ~~~0#64 else 0#64) ^^^ m) &&& ((1#64 <<< (elts.length % 64)) - 1#64)).getLsbD j =
        (((if inv then ~~~0#64 else 0#64) ^^^ m).getLsbD j && decide (j < elts.length % 64)) := fun j => by rw [BitVec.getLsbD_and, low_mask _ _ (by omega)]
    rw [hm, Option.bind_some, byMaskWord_spec 65 0 _ (by omega) (by omega) (by intro j hj; omega)
      (fun j hj => by
        rw [hlow, Bool.and_eq_true] at hj
        have := of_decide_eq_true hj.2
        omega), Option.map_some]
    congr 1
    conv => rhs; rw [hsplit, picked_append, Nat.zero_add]
    rw [Nat.zero_mul, Nat.add_zero, show 64 - 0 = elts.length % 64 + (64 - elts.length % 64) by omega, picked_append, picked_none elts (n := 64 - elts.length % 64), List.append_nil]
    · congr 1
      refine picked_congr elts fun j hj1 hj2 => ?_
      rw [hlow, xor_bit inv m (by omega), hbit _ (by omega), show elts.length / 64 * 64 + (j - elts.length / 64 * 64) = j by omega]
      simp
      intro _
      omega
    · intro j hj1 hj2
      rw [hlow]
      simp
      intro _
      omega
  · rw [if_neg hr, Nat.zero_mul]
    conv => rhs; rw [hsplit, show elts.length % 64 = 0 by omega, Nat.add_zero]

/-! ## Counting -/

/-- The sum of the first `n`. -/
def S (f : Nat → Int) : Nat → Int
  | 0 => 0
  | n + 1 => S f n + f n

theorem S_congr {f g : Nat → Int} : ∀ {n : Nat}, (∀ j, j < n → f j = g j) → S f n = S g n
  | 0, _ => rfl
  | n + 1, h => by rw [S, S, S_congr fun j hj => h j (by omega), h n (by omega)]

theorem S_add (f g : Nat → Int) : ∀ n, S (fun j => f j + g j) n = S f n + S g n
  | 0 => rfl
  | n + 1 => by rw [S, S, S, S_add f g n]; omega

variable {α : Type} [DecidableEq α]

/-- Whether `v` is `a`, as a number. -/
def one (a : α) (v : Option α) : Int := if v = some a then 1 else 0

theorem net_append (a : α) : ∀ (es fs : List (Bool × α)), net a (es ++ fs) = net a es + net a fs
  | [], fs => by rw [List.nil_append, net]; omega
  | (up, b) :: es, fs => by rw [List.cons_append, net, net, net_append a es fs]; omega

theorem net_picked (a : α) (up : Bool) (x : List α) (f : Nat → Bool) : ∀ n, n ≤ x.length → net a ((picked x f 0 n).map fun v => (up, v)) = S (fun j => if f j then (if up then one a x[j]? else - one a x[j]?) else 0) n
  | 0, _ => rfl
  | n + 1, h => by
    rw [picked_append, List.map_append, net_append, net_picked a up x f n (by omega), S, Nat.zero_add]
    congr 1
    rw [picked, List.range'_one]
    by_cases hf : f n = true
    · rw [List.filter_cons_of_pos hf, if_pos hf, List.filter_nil, List.filterMap_cons, List.getElem?_eq_getElem (show n < x.length by omega)]
      show net a [(up, x[n])] = _
      rw [net, net, one]
      by_cases he : x[n] = a
      · rw [if_pos he, if_pos (show some x[n] = some a by rw [he]), Int.add_zero]
      · rw [if_neg he, if_neg (fun h => he (Option.some.inj h))]
        cases up <;> rfl
    · rw [List.filter_cons_of_neg hf, if_neg hf]
      rfl

theorem count_S (a : α) : ∀ (r : List α), (r.count a : Int) = S (fun j => one a r[j]?) r.length := by
  intro r
  induction hn : r.length generalizing r with
  | zero =>
    obtain rfl := List.eq_nil_of_length_eq_zero hn
    rfl
  | succ n ih =>
    obtain ⟨cs, c, rfl⟩ : ∃ cs c, r = cs ++ [c] := ⟨r.dropLast, r.getLast (by intro h; rw [h] at hn; cases hn), (List.dropLast_concat_getLast _).symm⟩
    have hcs : cs.length = n := by simpa using hn
    rw [S, List.count_append, Int.natCast_add, ih cs hcs]
    congr 1
    · refine S_congr fun j hj => ?_
      rw [List.getElem?_append_left (by omega)]
    · rw [List.getElem?_append_right (by omega), hcs, Nat.sub_self, one]
      show ((List.count a [c] : Nat) : Int) = if some c = some a then 1 else 0
      rw [List.count_singleton]
      by_cases he : c = a
      · simp [he]
      · simp [he]

/-! ## The loops -/

theorem store_some {r : List α} {i : Nat} (v : α) (h : i < r.length) : store r i v = some (r.set i v) := by rw [store, if_pos h]

/-- What the loops have to do at each step. -/
theorem obj_step {x rep r : List α} {b : Nat → Bool} {i : Nat} (e : α) (hr : r.length = x.length) (hi : i < x.length) (he : some e = if b i then rep[rk b i]? else x[i]?)
    (h1 : ∀ j, j < i → r[j]? = if b j then rep[rk b j]? else x[j]?) : ∀ j, j < i + 1 → (r.set i e)[j]? = if b j then rep[rk b j]? else x[j]? := by
  intro j hj
  by_cases hji : j = i
  · rw [hji, List.getElem?_set_self (by omega), he]
  · rw [List.getElem?_set_ne (Ne.symm hji), h1 j (by omega)]

/-- The change for one place. -/
def delta (own : Bool) (b : Nat → Bool) (rep x : List α) (a : α) (j : Nat) : Int := one a (if b j then rep[rk b j]? else x[j]?) - if own then one a x[j]? else 0

theorem net_up (a n : α) : net a [(true, n)] = one a (some n) := by
  rw [net, net, one]
  by_cases h : n = a
  · rw [if_pos h, if_pos (show some n = some a by rw [h])]; rfl
  · rw [if_neg h, if_neg (fun h2 => h (Option.some.inj h2))]; rfl

theorem net_down (a n : α) : net a [(false, n)] = - one a (some n) := by
  rw [net, net, one]
  by_cases h : n = a
  · rw [if_pos h, if_pos (show some n = some a by rw [h])]; rfl
  · rw [if_neg h, if_neg (fun h2 => h (Option.some.inj h2))]; rfl

theorem blendPtr_spec {own : Bool} {d : List Word} {b : Nat → Bool} {rep x : List α} {xp : Option (List α)} (hd : ∀ i, i < x.length → getBit d i = some (b i)) (hnr : rk b x.length ≤ rep.length)
    (hxp : xp = none ∨ xp = some x) : ∀ (k i : Nat) (r : List α), i + k = x.length → r.length = x.length →
    (∀ j, j < i → r[j]? = if b j then rep[rk b j]? else x[j]?) → (xp = none → ∀ j, i ≤ j → r[j]? = x[j]?) →
    ∃ r' es, blendPtr own d rep xp k i (rk b i) r = some (r', es) ∧ r'.length = x.length ∧ (∀ j, j < x.length → r'[j]? = if b j then rep[rk b j]? else x[j]?) ∧
      ∀ a, S (delta own b rep x a) i + net a es = S (delta own b rep x a) x.length
  | 0, i, r, hi, hr, h1, _ => by
    obtain rfl : i = x.length := by omega
    exact ⟨r, [], rfl, hr, h1, fun a => by rw [net]; omega⟩
  | k + 1, i, r, hi, hr, h1, h2 => by
    have hix : i < x.length := by omega
    have hsrc : (xp.getD r)[i]? = some x[i] := by
      rw [← List.getElem?_eq_getElem hix]
      rcases hxp with e | e
      · rw [e]; exact h2 e i (Nat.le_refl _)
      · rw [e]; rfl
    rw [blendPtr, hd i hix, Option.bind_some, rk_step, hsrc]
    have hstep : ∃ e es, (if own then ((some x[i]).bind fun xv => (if b i then (rep[rk b i]?).map fun n => (n, [(false, xv), (true, n)]) else some (xv, [])))
        else if b i then (rep[rk b i]?).map fun n => (n, [(true, n)]) else (some x[i]).map fun n => (n, [(true, n)])) = some (e, es) ∧ some e = (if b i then rep[rk b i]? else x[i]?) ∧
        ∀ a, net a es = delta own b rep x a i := by
      by_cases hb : b i = true
      · have hlt := rk_lt b hix hb
        have hn : rep[rk b i]? = some (rep[rk b i]'(by omega)) := List.getElem?_eq_getElem (by omega)
        rw [hb, if_pos rfl, if_pos rfl, hn]
        cases own with
        | true =>
          refine ⟨_, _, rfl, rfl, fun a => ?_⟩
          rw [delta, hb, if_pos rfl, if_pos rfl, hn, List.getElem?_eq_getElem hix]
          have := net_append a [(false, x[i])] [(true, rep[rk b i]'(by omega))]
          rw [net_up, net_down] at this
          rw [show ([(false, x[i]), (true, rep[rk b i]'(by omega))] : List (Bool × α)) = [(false, x[i])] ++ [(true, rep[rk b i]'(by omega))] from rfl, this]
          omega
        | false =>
          refine ⟨_, _, rfl, rfl, fun a => ?_⟩
          rw [delta, hb, if_pos rfl, hn, net_up]
          simp
      · have hb : b i = false := by simpa using hb
        cases own with
        | true =>
          refine ⟨x[i], [], by rw [hb]; rfl, by rw [hb, List.getElem?_eq_getElem hix]; rfl, fun a => ?_⟩
          rw [delta, hb, net]
          simp
        | false =>
          refine ⟨x[i], [(true, x[i])], by rw [hb]; rfl, by rw [hb, List.getElem?_eq_getElem hix]; rfl, fun a => ?_⟩
          rw [delta, hb, net_up, List.getElem?_eq_getElem hix]
          simp
    obtain ⟨e, es, e1, e2, e3⟩ := hstep
    rw [e1, Option.bind_some]
    dsimp only
    rw [store_some e (by omega), Option.bind_some]
    obtain ⟨r', fs, e4, hl, hg, hs⟩ := blendPtr_spec (own := own) hd hnr hxp k (i + 1) (r.set i e) (by omega) (by rw [List.length_set]; exact hr) (obj_step e hr hix e2 h1)
      (fun en j hj => by rw [List.getElem?_set_ne (by omega)]; exact h2 en j (by omega))
    rw [e4]
    refine ⟨r', es ++ fs, rfl, hl, hg, fun a => ?_⟩
    rw [net_append, e3 a, ← hs a, S]
    omega

theorem blendGet_spec {d : List Word} {b : Nat → Bool} {rep x : List α} {xp : Option (List α)} (hd : ∀ i, i < x.length → getBit d i = some (b i)) (hnr : rk b x.length ≤ rep.length)
    (hxp : xp = none ∨ xp = some x) : ∀ (k i : Nat) (r : List α), i + k = x.length → r.length = x.length →
    (∀ j, j < i → r[j]? = if b j then rep[rk b j]? else x[j]?) → (xp = none → ∀ j, i ≤ j → r[j]? = x[j]?) →
    ∃ r' es, blendGet d rep xp k i (rk b i) r = some (r', es) ∧ r'.length = x.length ∧ (∀ j, j < x.length → r'[j]? = if b j then rep[rk b j]? else x[j]?) ∧
      ∀ a, S (fun j => if b j then one a rep[rk b j]? else 0) i + net a es = S (fun j => if b j then one a rep[rk b j]? else 0) x.length
  | 0, i, r, hi, hr, h1, _ => by
    obtain rfl : i = x.length := by omega
    exact ⟨r, [], rfl, hr, h1, fun a => by rw [net]; omega⟩
  | k + 1, i, r, hi, hr, h1, h2 => by
    have hix : i < x.length := by omega
    have hsrc : (xp.getD r)[i]? = some x[i] := by
      rw [← List.getElem?_eq_getElem hix]
      rcases hxp with e | e
      · rw [e]; exact h2 e i (Nat.le_refl _)
      · rw [e]; rfl
    rw [blendGet, hd i hix, Option.bind_some, rk_step, hsrc]
    have hstep : ∃ e es, (if b i then (rep[rk b i]?).map fun n => (n, [(true, n)]) else (some x[i]).map fun n => (n, [])) = some (e, es) ∧ some e = (if b i then rep[rk b i]? else x[i]?) ∧
        ∀ a, net a es = if b i then one a rep[rk b i]? else 0 := by
      by_cases hb : b i = true
      · have hlt := rk_lt b hix hb
        have hn : rep[rk b i]? = some (rep[rk b i]'(by omega)) := List.getElem?_eq_getElem (by omega)
        refine ⟨_, _, by rw [hb, if_pos rfl, hn]; rfl, by rw [hb, if_pos rfl, hn], fun a => ?_⟩
        rw [hb, if_pos rfl, hn, net_up]
      · have hb : b i = false := by simpa using hb
        refine ⟨x[i], [], by rw [hb]; rfl, by rw [hb, List.getElem?_eq_getElem hix]; rfl, fun a => ?_⟩
        rw [hb]
        rfl
    obtain ⟨e, es, e1, e2, e3⟩ := hstep
    rw [e1, Option.bind_some]
    dsimp only
    rw [store_some e (by omega), Option.bind_some]
    obtain ⟨r', fs, e4, hl, hg, hs⟩ := blendGet_spec hd hnr hxp k (i + 1) (r.set i e) (by omega) (by rw [List.length_set]; exact hr) (obj_step e hr hix e2 h1)
      (fun en j hj => by rw [List.getElem?_set_ne (by omega)]; exact h2 en j (by omega))
    rw [e4]
    refine ⟨r', es ++ fs, rfl, hl, hg, fun a => ?_⟩
    rw [net_append, e3 a, ← hs a, S]
    omega

theorem blendObj_spec (ptr own reuse : Bool) {d : List Word} {b : Nat → Bool} {rep x fresh : List α} (hd : ∀ i, i < x.length → getBit d i = some (b i)) (hnr : rk b x.length ≤ rep.length)
    (hf : fresh.length = x.length) :
    ∃ r es, blendObj ptr own reuse d rep x fresh = some (r, es) ∧ r.length = x.length ∧ (∀ j, j < x.length → r[j]? = if b j then rep[rk b j]? else x[j]?) ∧
      ∀ a, net a es = (r.count a : Int) - if own then (x.count a : Int) else 0 := by
  have hxp : (if reuse then none else some x) = none ∨ (if reuse then none else some x) = some x := by cases reuse <;> simp
  have hr : (if reuse then x else fresh).length = x.length := by cases reuse <;> simp [hf]
  have h2 : (if reuse then none else some x) = none → ∀ j, 0 ≤ j → (if reuse then x else fresh)[j]? = x[j]? := by cases reuse <;> simp
  have hcount : ∀ (r : List α), r.length = x.length → (∀ j, j < x.length → r[j]? = if b j then rep[rk b j]? else x[j]?) → ∀ a, S (delta own b rep x a) x.length = (r.count a : Int) - if own then (x.count a : Int) else 0 := by
    intro r hl hg a
    have h3 : S (fun j => one a r[j]?) x.length = S (fun j => delta own b rep x a j + if own then one a x[j]? else 0) x.length := S_congr fun j hj => by
      rw [hg j hj, delta]
      omega
    rw [count_S a r, hl, h3, S_add]
    cases own with
    | true =>
      rw [count_S a x]
      simp only [if_true]
      omega
    | false =>
      have : S (fun j => if false = true then one a x[j]? else 0) x.length = S (fun _ => 0) x.length := S_congr fun j _ => by simp
      have h0 : ∀ n, S (fun _ => (0 : Int)) n = 0 := fun n => by induction n with | zero => rfl | succ n ih => rw [S, ih]; rfl
      rw [this, h0]
      simp
  rw [blendObj]
  dsimp only
  cases ptr with
  | true =>
    rw [if_pos rfl]
    obtain ⟨r, es, e, hl, hg, hs⟩ := blendPtr_spec (own := own) hd hnr hxp x.length 0 _ (by omega) hr (fun j hj => by omega) h2
    refine ⟨r, es, e, hl, hg, fun a => ?_⟩
    rw [← hcount r hl hg a, ← hs a, S]
    omega
  | false =>
    rw [if_neg (by simp)]
    obtain ⟨r, es, e, hl, hg, hs⟩ := blendGet_spec hd hnr hxp x.length 0 _ (by omega) hr (fun j hj => by omega) h2
    have hm : ∃ fs, (if own then (byMask false d x x.length).map fun l => l.map fun v => (false, v) else (byMask true d x x.length).map fun l => l.map fun v => (true, v)) = some fs ∧
        ∀ a, net a fs = S (fun j => delta own b rep x a j - if b j then one a rep[rk b j]? else 0) x.length := by
      cases own with
      | true =>
        refine ⟨_, by rw [if_pos rfl, byMask_spec false hd]; rfl, fun a => ?_⟩
        rw [net_picked a false x _ _ (Nat.le_refl _)]
        refine S_congr fun j hj => ?_
        rw [delta]
        cases b j <;> simp <;> omega
      | false =>
        refine ⟨_, by rw [if_neg (by simp), byMask_spec true hd]; rfl, fun a => ?_⟩
        rw [net_picked a true x _ _ (Nat.le_refl _)]
        refine S_congr fun j hj => ?_
        rw [delta]
        cases b j <;> simp
    obtain ⟨fs, e2, hn⟩ := hm
    rw [e2, Option.bind_some]
    have e' : blendGet d rep (if reuse then none else some x) x.length 0 0 (if reuse then x else fresh) = some (r, es) := e
    rw [e']
    refine ⟨r, fs ++ es, rfl, hl, hg, fun a => ?_⟩
    rw [net_append, hn a, ← hcount r hl hg a]
    have h5 := hs a
    rw [S, Int.zero_add] at h5
    rw [h5, ← S_add]
    exact S_congr fun j _ => by omega

end Verif.UnderSlash
