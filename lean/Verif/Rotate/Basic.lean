import Verif.Rotate.Model
import Verif.Under.Paths
/-!
# Rotate: copies, indices and the odometer
-/
namespace Verif.Rotate
open Verif.Bits Verif.Fold Verif.Slash Verif.Rep Verif.Select Verif.Under

/-- What is used of a kind of memory: `ok n m` says that `m` has memory for `n` elements. -/
structure Lawful {M α} (K : Kind M α) (ok : Nat → M → Prop) : Prop where
  new : ∀ n, ok n (K.new n)
  copy : ∀ n r x rs xs l, ok n r → ok n x → rs + l ≤ n → xs + l ≤ n →
    ∃ r', K.copy r rs x xs l = some r' ∧ ok n r' ∧ ∀ k, k < n → K.get r' k = if rs ≤ k ∧ k < rs + l then K.get x (xs + (k - rs)) else K.get r k

theorem elem_lawful {α} (d : Nat → α) : Lawful (elemKind d) (fun n m => m.length = n) := by
  refine ⟨fun n => ?_, fun n r x rs xs l hr hx h1 h2 => ?_⟩
  · show ((List.range n).map d).length = n
    simp
  · obtain ⟨m', e, hl, hk, hn⟩ := memCpy_get (xs := x) (m := r) (ri := rs) (xi := xs) (l := l) (by omega) (by omega)
    refine ⟨m', e, hl.trans hr, fun k hkn => ?_⟩
    show m'[k]? = if rs ≤ k ∧ k < rs + l then x[xs + (k - rs)]? else r[k]?
    by_cases h : rs ≤ k ∧ k < rs + l
    · rw [if_pos h]
      have := hn (k - rs) (by omega)
      rw [show rs + (k - rs) = k by omega] at this
      exact this
    · rw [if_neg h]
      exact hk k (by omega)

theorem bitL_getD (x : List Word) (k : Nat) : bitF (fun i => x.getD i 0#64) k = bitL x k := rfl

theorem bit_lawful (junk : Nat → Word) : Lawful (bitKind junk) (fun n m => m.length = (n + 63) / 64) := by
  refine ⟨fun n => ?_, fun n r x rs xs l hr hx h1 h2 => ?_⟩
  · show ((List.range ((n + 63) / 64)).map junk).length = _
    simp
  · obtain ⟨m', e, hl, hk⟩ := bitCpy_get (fun i => x.getD i 0#64) r rs xs l (by omega)
    refine ⟨m', e, hl.trans hr, fun k hkn => ?_⟩
    show getBit m' k = if rs ≤ k ∧ k < rs + l then getBit x (xs + (k - rs)) else getBit r k
    rw [getBit_some (by omega), hk k (by omega)]
    by_cases h : rs ≤ k ∧ k < rs + l
    · rw [if_pos h, if_pos h, getBit_some (by omega), bitL_getD]
    · rw [if_neg h, if_neg h, getBit_some (by omega)]

/-! ## Amounts -/

theorem wrapRot_spec (v : Int) (l : Nat) (h1 : -2^63 ≤ v) (h2 : v < 2^63) (h0 : 0 < l) (hl : l < 2^32) : wrapRot v l = some (v % l) := by
  unfold wrapRot
  have hto : (BitVec.ofInt 64 v).toNat = (v % (2^64 : Nat)).toNat := BitVec.toNat_ofInt v
  rw [hto]
  rw [if_neg (show ¬ l = 0 by omega)]
  by_cases hv : v < 0
  · have e : v % (2^64 : Nat) = v + 2^64 := by omega
    rw [e, if_pos (by omega)]
    have h3 : v.tmod l = -((-v) % l) := by
      have : v = -(-v) := by omega
      rw [this, Int.neg_tmod, Int.tmod_eq_emod_of_nonneg (by omega)]
      simp
    have hm := Int.emod_nonneg (-v) (show (l : Int) ≠ 0 by omega)
    have hm2 := Int.emod_lt_of_pos (-v) (show (0 : Int) < l by omega)
    have h4 := Int.mul_ediv_add_emod (-v) l
    dsimp only
    rw [h3]
    generalize hr : (-v) % (l : Int) = r at *
    generalize hq : (-v) / (l : Int) = q at *
    by_cases hr0 : r = 0
    · rw [if_neg (by omega)]
      have e2 : v = (l : Int) * -q := by rw [Int.mul_neg]; omega
      rw [e2, Int.mul_emod_right, hr0]
      rfl
    · rw [if_pos (by omega)]
      have e2 : v = (-r + l) + (l : Int) * (-q - 1) := by
        rw [Int.mul_sub, Int.mul_neg]; omega
      have : v % l = (-r + l) % l := by rw [e2, Int.add_mul_emod_self_left]
      rw [this, Int.emod_eq_of_lt (by omega) (by omega)]
  · have e : v % (2^64 : Nat) = v := Int.emod_eq_of_lt (by omega) (by omega)
    rw [e]
    by_cases hb : l ≤ v.toNat
    · rw [if_pos hb]
      dsimp only
      rw [Int.tmod_eq_emod_of_nonneg (by omega), if_neg (by have := Int.emod_nonneg v (show (l : Int) ≠ 0 by omega); omega)]
    · rw [if_neg hb, Int.emod_eq_of_lt (by omega) (by omega)]

theorem o2i64_some {v : Int} (h1 : -2^63 ≤ v) (h2 : v < 2^63) : o2i64 (some v) = some v := if_neg (by omega)

/-! ## Indices -/

theorem prod_append (a b : List Nat) : prod (a ++ b) = prod a * prod b := by
  induction a with
  | nil => exact (Nat.one_mul _).symm
  | cons s a ih => rw [List.cons_append, prod, prod, ih, Nat.mul_assoc]

theorem prod_reverse (a : List Nat) : prod a.reverse = prod a := by
  induction a with
  | nil => rfl
  | cons s a ih => rw [List.reverse_cons, prod_append, ih, prod, prod, prod, Nat.mul_one, Nat.mul_comm]

theorem InShape.length {sh is : List Nat} (h : InShape sh is) : is.length = sh.length := by
  induction h with
  | nil => rfl
  | cons _ _ ih => rw [List.length_cons, List.length_cons, ih]

theorem InShape.append {sh is sh' is' : List Nat} (h : InShape sh is) (h' : InShape sh' is') : InShape (sh ++ sh') (is ++ is') := by
  induction h with
  | nil => exact h'
  | cons hi _ ih => exact .cons hi ih

theorem InShape.reverse {sh is : List Nat} (h : InShape sh is) : InShape sh.reverse is.reverse := by
  induction h with
  | nil => exact .nil
  | cons hi _ ih =>
    rw [List.reverse_cons, List.reverse_cons]
    exact ih.append (.cons hi .nil)

theorem InShape.split : ∀ {a b is : List Nat}, InShape (a ++ b) is → ∃ i1 i2, is = i1 ++ i2 ∧ InShape a i1 ∧ InShape b i2
  | [], b, is, h => ⟨[], is, rfl, .nil, h⟩
  | s :: a, b, _, .cons hi h => by
    obtain ⟨i1, i2, e, h1, h2⟩ := InShape.split h
    exact ⟨_ :: i1, i2, by rw [e]; rfl, .cons hi h1, h2⟩

theorem ravel_lt {sh is : List Nat} (h : InShape sh is) : ravel sh is < prod sh := by
  induction h with
  | nil => exact Nat.one_pos
  | @cons s i sh is hi _ ih =>
    rw [ravel, prod]
    have := Nat.mul_le_mul_right (prod sh) hi
    rw [Nat.succ_mul] at this
    omega

theorem ravel_append {a i1 : List Nat} (h : InShape a i1) (b i2 : List Nat) : ravel (a ++ b) (i1 ++ i2) = ravel a i1 * prod b + ravel b i2 := by
  induction h with
  | nil =>
    show ravel b i2 = 0 * prod b + ravel b i2
    rw [Nat.zero_mul, Nat.zero_add]
  | @cons s i sh is hi _ ih =>
    show i * prod (sh ++ b) + ravel (sh ++ b) (is ++ i2) = (i * prod sh + ravel sh is) * prod b + _
    rw [ih, prod_append, Nat.add_mul, Nat.mul_assoc, Nat.add_assoc]

/-- Every element has an index. -/
theorem exists_index : ∀ (sh : List Nat) (k : Nat), k < prod sh → ∃ is, InShape sh is ∧ ravel sh is = k
  | [], k, hk => ⟨[], .nil, by have : k < 1 := hk; show 0 = k; omega⟩
  | s :: sh, k, hk => by
    have hk : k < s * prod sh := hk
    have hp : 0 < prod sh := by
      rcases Nat.eq_zero_or_pos (prod sh) with h | h
      · rw [h] at hk; simp at hk
      · exact h
    obtain ⟨is, h1, h2⟩ := exists_index sh (k % prod sh) (Nat.mod_lt _ hp)
    refine ⟨k / prod sh :: is, .cons ((Nat.div_lt_iff_lt_mul hp).2 hk) h1, ?_⟩
    rw [ravel, h2, Nat.mul_comm]
    exact Nat.div_add_mod _ _

/-- The same with the fastest axis first. -/
def rav : List Nat → List Nat → Nat
  | s :: ss, i :: is => i + s * rav ss is
  | _, _ => 0

theorem rav_append {a i1 : List Nat} (h : InShape a i1) (b i2 : List Nat) : rav (a ++ b) (i1 ++ i2) = rav a i1 + prod a * rav b i2 := by
  induction h with
  | nil =>
    show rav b i2 = 0 + 1 * _
    omega
  | @cons s i sh is hi _ ih =>
    show i + s * rav (sh ++ b) (is ++ i2) = i + s * rav sh is + s * prod sh * _
    rw [ih, Nat.mul_add, Nat.mul_assoc, Nat.add_assoc]

theorem rav_reverse {sh is : List Nat} (h : InShape sh is) : rav sh.reverse is.reverse = ravel sh is := by
  induction h with
  | nil => rfl
  | @cons s i sh is hi h ih =>
    rw [List.reverse_cons, List.reverse_cons, rav_append h.reverse, ih, prod_reverse]
    show _ + prod sh * (i + s * 0) = i * prod sh + _
    rw [Nat.mul_zero, Nat.add_zero, Nat.mul_comm, Nat.add_comm]

theorem InShape.rotated : ∀ {sh : List Nat} (ws : List Int) {is : List Nat}, InShape sh is → InShape sh (rotated sh ws is)
  | _, [], _, h => by
    rw [Rotate.rotated]
    · exact h
    · intros; contradiction
  | _, _ :: _, _, .nil => .nil
  | s :: sh, w :: ws, i :: is, .cons hi h => by
    refine .cons ?_ (InShape.rotated ws h)
    have := Int.emod_lt_of_pos (i + w) (show (0 : Int) < s by omega)
    have := Int.emod_nonneg (i + w) (show (s : Int) ≠ 0 by omega)
    omega

theorem rotated_nil (sh is : List Nat) : rotated sh [] is = is := by
  rw [rotated]
  intros; contradiction

theorem rotated_append {a i1 : List Nat} (h : InShape a i1) : ∀ (w1 : List Int), w1.length = a.length → ∀ (b i2 : List Nat) (w2 : List Int),
    rotated (a ++ b) (w1 ++ w2) (i1 ++ i2) = rotated a w1 i1 ++ rotated b w2 i2 := by
  induction h with
  | nil =>
    intro w1 hw b i2 w2
    obtain rfl : w1 = [] := List.length_eq_zero_iff.1 hw
    rfl
  | @cons s i sh is hi _ ih =>
    intro w1 hw b i2 w2
    cases w1 with
    | nil => cases hw
    | cons w w1 =>
      show _ :: rotated (sh ++ b) (w1 ++ w2) (is ++ i2) = _ :: (rotated sh w1 is ++ _)
      rw [ih w1 (by simpa using hw)]

theorem mod_zero_self {i s : Nat} {w : Int} (hi : i < s) (hw : w % s = 0) : (((i : Int) + w) % s).toNat = i := by
  rw [Int.add_emod, hw, Int.add_zero, Int.emod_emod, Int.emod_eq_of_lt (by omega) (by omega)]
  omega

/-- Amounts that are multiples of the lengths leave the index as it is. -/
theorem rotated_zero {ps : List (Nat × Int)} : ∀ {is : List Nat}, InShape (ps.map Prod.fst) is → (∀ p ∈ ps, p.2 % (p.1 : Int) = 0) →
    rotated (ps.map Prod.fst) (ps.map Prod.snd) is = is := by
  induction ps with
  | nil =>
    intro is h _
    cases h
    rfl
  | cons p ps ih =>
    intro is h hz
    cases h with
    | cons hi h =>
      show _ :: rotated (ps.map Prod.fst) (ps.map Prod.snd) _ = _
      rw [ih h fun q hq => hz q (List.mem_cons_of_mem _ hq), mod_zero_self hi (hz p List.mem_cons_self)]

/-- Rotating back. -/
theorem rotated_neg : ∀ {sh : List Nat} (ws : List Int) {is : List Nat}, InShape sh is → rotated sh ws (rotated sh (ws.map fun w => -w) is) = is
  | _, [], _, _ => by rw [List.map_nil, rotated_nil, rotated_nil]
  | _, _ :: _, _, .nil => rfl
  | s :: sh, w :: ws, i :: is, .cons hi h => by
    show ((((((i : Int) + -w) % s).toNat : Int) + w) % s).toNat :: rotated sh ws (rotated sh (ws.map fun w => -w) is) = _
    rw [rotated_neg ws h]
    congr 1
    have h1 := Int.emod_nonneg (i + -w) (show (s : Int) ≠ 0 by omega)
    rw [Int.toNat_of_nonneg h1, Int.emod_add_emod, show (i : Int) + -w + w = i by omega, Int.emod_eq_of_lt (by omega) (by omega)]
    omega

/-! ## The odometer -/

/-- The axes after `t` steps. -/
def stateAt : List Axis → Nat → List Axis
  | [], _ => []
  | a :: as, t => { a with pos := (t % a.len + a.rot) % a.len } :: stateAt as (t / a.len)

/-- The position in `x` after `t` steps. -/
def offAt : List Axis → Nat → Nat
  | [], _ => 0
  | a :: as, t => (t % a.len + a.rot) % a.len * a.skip + offAt as (t / a.len)

def total : List Axis → Nat
  | [] => 1
  | a :: as => a.len * total as

def GoodAxis (a : Axis) : Prop := 0 < a.len ∧ a.rot < a.len ∧ a.skip * a.len < 2^32

theorem advance_spec : ∀ (as : List Axis), (∀ a ∈ as, GoodAxis a) → ∀ (t c xi : Nat), t < total as → xi % 2^32 = (c + offAt as t) % 2^32 →
    if t + 1 < total as then advance (stateAt as t) xi = some (stateAt as (t + 1), (c + offAt as (t + 1)) % 2^32) else advance (stateAt as t) xi = none
  | [], _, t, c, xi, ht, _ => by
    have : t < 1 := ht
    rw [if_neg (show ¬ t + 1 < total [] from fun h => by have h : t + 1 < 1 := h; omega)]
    rfl
  | a :: as, hg, t, c, xi, ht, hx => by
    obtain ⟨hl, hr, hs⟩ := hg a List.mem_cons_self
    have ht : t < a.len * total as := ht
    have hx : xi % 2^32 = (c + ((t % a.len + a.rot) % a.len * a.skip + offAt as (t / a.len))) % 2^32 := hx
    have htd : a.len * (t / a.len) + t % a.len = t := Nat.div_add_mod _ _
    have hdl := Nat.mod_lt t hl
    have hq : t / a.len < total as := (Nat.div_lt_iff_lt_mul hl).2 (by rw [Nat.mul_comm]; exact ht)
    -- the new position and offset
    have hp : (if a.len = (t % a.len + a.rot) % a.len + 1 then (0, (xi + 2^32 - a.skip * ((t % a.len + a.rot) % a.len + 1)) % 2^32) else ((t % a.len + a.rot) % a.len + 1, xi)).1 =
        (t % a.len + 1 + a.rot) % a.len ∧
        ((if a.len = (t % a.len + a.rot) % a.len + 1 then (0, (xi + 2^32 - a.skip * ((t % a.len + a.rot) % a.len + 1)) % 2^32) else ((t % a.len + a.rot) % a.len + 1, xi)).2 + a.skip) % 2^32 =
          (c + (t % a.len + 1 + a.rot) % a.len * a.skip + offAt as (t / a.len)) % 2^32 := by
      have e : (t % a.len + 1 + a.rot) % a.len = ((t % a.len + a.rot) % a.len + 1) % a.len := by
        rw [Nat.mod_add_mod]
        congr 1
        omega
      rw [e]
      have hpl := Nat.mod_lt (t % a.len + a.rot) hl
      generalize (t % a.len + a.rot) % a.len = p at hx hpl ⊢
      generalize offAt as (t / a.len) = o at hx ⊢
      by_cases h : a.len = p + 1
      · rw [if_pos h, ← h, Nat.mod_self, Nat.zero_mul]
        refine ⟨rfl, ?_⟩
        dsimp only
        have e2 : a.skip * a.len = p * a.skip + a.skip := by rw [h, Nat.mul_succ, Nat.mul_comm]
        generalize a.skip * a.len = u at e2 hs ⊢
        generalize p * a.skip = v at e2 hx ⊢
        omega
      · rw [if_neg h, Nat.mod_eq_of_lt (show p + 1 < a.len by omega)]
        refine ⟨rfl, ?_⟩
        dsimp only
        rw [Nat.succ_mul]
        generalize p * a.skip = v at hx ⊢
        omega
    rw [stateAt, advance]
    dsimp only
    generalize (if a.len = (t % a.len + a.rot) % a.len + 1 then (0, (xi + 2^32 - a.skip * ((t % a.len + a.rot) % a.len + 1)) % 2^32) else ((t % a.len + a.rot) % a.len + 1, xi)) = P at hp ⊢
    obtain ⟨p, x2⟩ := P
    obtain ⟨hp1, hp2⟩ := hp
    dsimp only at hp1 hp2 ⊢
    rw [total]
    by_cases hc : t % a.len + 1 = a.len
    · -- the axis is through
      have hpr : p = a.rot := by rw [hp1, hc, Nat.add_mod_left, Nat.mod_eq_of_lt hr]
      have e1 : t + 1 = a.len * (t / a.len + 1) := by rw [Nat.mul_succ]; omega
      have e2 : (t + 1) / a.len = t / a.len + 1 := by rw [e1, Nat.mul_div_cancel_left _ hl]
      have e3 : (t + 1) % a.len = 0 := by rw [e1, Nat.mul_mod_right]
      rw [if_neg (show ¬ p ≠ a.rot from fun h => h hpr)]
      have ih := advance_spec as (fun b hb => hg b (List.mem_cons_of_mem _ hb)) (t / a.len) (c + p * a.skip) ((x2 + a.skip) % 2^32) hq
        (by rw [Nat.mod_mod, hp2, hp1])
      by_cases hlt : t / a.len + 1 < total as
      · rw [if_pos (show t + 1 < a.len * total as by rw [e1]; exact (Nat.mul_lt_mul_left hl).2 hlt)]
        rw [if_pos hlt] at ih
        rw [ih]
        show some _ = some _
        rw [stateAt, offAt, e2, e3, Nat.zero_add, Nat.mod_eq_of_lt hr, ← hpr, Nat.add_assoc]
      · rw [if_neg (show ¬ t + 1 < a.len * total as by
            rw [e1]; exact fun h => hlt ((Nat.mul_lt_mul_left hl).1 h))]
        rw [if_neg hlt] at ih
        rw [ih]
        rfl
    · have e1 : t + 1 = a.len * (t / a.len) + (t % a.len + 1) := by omega
      have hd1 : t % a.len + 1 < a.len := by omega
      have e2 : (t + 1) / a.len = t / a.len := by
        rw [e1, Nat.mul_add_div hl, Nat.div_eq_of_lt hd1, Nat.add_zero]
      have e3 : (t + 1) % a.len = t % a.len + 1 := by
        rw [e1, Nat.mul_add_mod, Nat.mod_eq_of_lt hd1]
      have hpr : p ≠ a.rot := by
        rw [hp1]
        intro h
        by_cases hh : t % a.len + 1 + a.rot < a.len
        · rw [Nat.mod_eq_of_lt hh] at h
          omega
        · rw [Nat.mod_eq_sub_mod (by omega), Nat.mod_eq_of_lt (by omega)] at h
          omega
      have hlt : t + 1 < a.len * total as := by
        have := Nat.mul_le_mul_left a.len (show t / a.len + 1 ≤ total as from hq)
        rw [Nat.mul_succ] at this
        omega
      rw [if_pos hpr, if_pos hlt]
      rw [stateAt, offAt, e2, e3, hp1, hp2, ← Nat.add_assoc]

end Verif.Rotate
