import Verif.Match.Model
import Verif.Squeeze.Main
/-!
# Comparison of typed arrays: proofs
-/
namespace Verif.Match
open Verif.Squeeze (Val El Data Arr feq EqF feq_iff)
open Verif.Bits (Word bitF)
open Verif.Bins (ofInt)

/-- Atoms that match, as a function: what `equal` does for two atoms that are not functions. -/
def atomEq (r : Bool) : Val → Val → Bool
  | .num f, .num g => if r then feqR f g else feq f g
  | .chr c, .chr d => c == d
  | _, _ => false

/-- `b` tells whether all elements match. -/
def Tells (r : Bool) (ws xs : List Val) (b : Bool) : Prop :=
  b = true ↔ ∀ (k : Nat) u v, ws[k]? = some u → xs[k]? = some v → atomEq r u v = true

theorem loop_spec {f : Nat → Option Bool} {g : Nat → Bool} : ∀ (n i : Nat), (∀ k, i ≤ k → k < i + n → f k = some (g k)) →
    ∃ b, loop n i f = some b ∧ (b = true ↔ ∀ k, i ≤ k → k < i + n → g k = true)
  | 0, i, _ => ⟨true, rfl, by simp; intro k h1 h2; omega⟩
  | n+1, i, h => by
    rw [loop, h i (by omega) (by omega)]
    obtain ⟨b, e, hb⟩ := loop_spec (f := f) (g := g) n (i+1) (fun k h1 h2 => h k (by omega) (by omega))
    rw [Option.bind_some]
    by_cases hg : g i = true
    · rw [if_pos hg, e]
      refine ⟨b, rfl, hb.trans ⟨fun a k h1 h2 => ?_, fun a k h1 h2 => a k (by omega) (by omega)⟩⟩
      by_cases hk : k = i
      · rw [hk]; exact hg
      · exact a k (by omega) (by omega)
    · rw [if_neg hg]
      exact ⟨false, rfl, by simp; exact ⟨i, by omega, by omega, by simpa using hg⟩⟩

/-- A loop over the elements of two arrays. -/
theorem loop_tells {r : Bool} {ws xs : List Val} {l : Nat} {f : Nat → Option Bool} (hw : ws.length = l) (hx : xs.length = l)
    (h : ∀ (i : Nat) u v, ws[i]? = some u → xs[i]? = some v → f i = some (atomEq r u v)) :
    ∃ b, loop l 0 f = some b ∧ Tells r ws xs b := by
  have key : ∀ k, 0 ≤ k → k < 0 + l → f k = some (atomEq r (ws[k]?.getD (.chr 0)) (xs[k]?.getD (.chr 0))) := by
    intro k _ hk
    have a : ws[k]? = some ws[k] := List.getElem?_eq_getElem (by omega)
    have b : xs[k]? = some xs[k] := List.getElem?_eq_getElem (by omega)
    rw [h k _ _ a b, a, b]; rfl
  obtain ⟨b, e, hb⟩ := loop_spec l 0 key
  refine ⟨b, e, hb.trans ⟨fun a k u v hu hv => ?_, fun a k _ hk => ?_⟩⟩
  · have := a k (by omega) (by have := (List.getElem?_eq_some_iff.1 hu).1; omega)
    rwa [hu, hv] at this
  · have p : ws[k]? = some ws[k] := List.getElem?_eq_getElem (by omega)
    have q : xs[k]? = some xs[k] := List.getElem?_eq_getElem (by omega)
    rw [p, q]; exact a k _ _ p q

theorem Tells.symm {r : Bool} {ws xs : List Val} {b : Bool} (h : Tells r ws xs b)
    (hs : ∀ (k : Nat) u v, ws[k]? = some u → xs[k]? = some v → atomEq r u v = atomEq r v u) : Tells r xs ws b :=
  h.trans ⟨fun a k u v hu hv => hs k v u hv hu ▸ a k v u hv hu, fun a k u v hu hv => hs k u v hu hv ▸ a k v u hv hu⟩

/-! ## Numbers -/

theorem feq_comm (a b : BitVec 64) : feq a b = feq b a := by
  rw [Bool.eq_iff_iff, feq_iff, feq_iff]; exact ⟨.symm, .symm⟩

theorem feqR_comm (a b : BitVec 64) : feqR a b = feqR b a := by
  unfold feqR; rw [feq_comm a b, Bool.and_comm]

theorem atomEq_comm (r : Bool) (u v : Val) : atomEq r u v = atomEq r v u := by
  cases u <;> cases v <;> simp [atomEq]
  · rw [feq_comm, feqR_comm]
  · rename_i a b; exact BEq.comm

theorem feq_ofInt {i j : Int} (hi : i.natAbs < 2^53) (hj : j.natAbs < 2^53) : feq (ofInt i) (ofInt j) = decide (i = j) := by
  rw [Bool.eq_iff_iff, feq_iff, decide_eq_true_iff]
  constructor
  · intro h; exact Squeeze.ofInt_inj hi hj h.2.2
  · rintro rfl; exact Squeeze.eqF_self hi

theorem feqR_of_not_nan {a b : BitVec 64} (h : Compare.nan a = false) : feqR a b = feq a b := by simp [feqR, h]
theorem feqR_of_not_nan' {a b : BitVec 64} (h : Compare.nan b = false) : feqR a b = feq a b := by simp [feqR, h]

theorem ofInt_not_nan {i : Int} (hi : i.natAbs < 2^53) : Compare.nan (ofInt i) = false := (Squeeze.eqF_self hi).1

theorem atomEq_int (r : Bool) {i j : Int} (hi : i.natAbs < 2^53) (hj : j.natAbs < 2^53) :
    atomEq r (.num (ofInt i)) (.num (ofInt j)) = decide (i = j) := by
  cases r <;> simp [atomEq, feqR_of_not_nan (ofInt_not_nan hi), feq_ofInt hi hj]

theorem atomEq_intF (r : Bool) {i : Int} (hi : i.natAbs < 2^53) (f : BitVec 64) :
    atomEq r (.num (ofInt i)) (.num f) = feq (ofInt i) f := by
  cases r <;> simp [atomEq, feqR_of_not_nan (ofInt_not_nan hi)]

theorem small8 (a : BitVec 8) : a.toInt.natAbs < 2^53 := by have := Squeeze.range8 a; omega
theorem small16 (a : BitVec 16) : a.toInt.natAbs < 2^53 := by have := Squeeze.range16 a; omega
theorem small32 (a : BitVec 32) : a.toInt.natAbs < 2^53 := by have := Squeeze.range32 a; omega
theorem small1 (b : Bool) : (b.toNat : Int).natAbs < 2^53 := by cases b <;> decide

/-! ## Bits -/

theorem wordsOf_bit (xs : List Bool) (tail : Nat → Word) (i : Nat) {b : Bool} (h : xs[i]? = some b) :
    bitF (wordsOf xs tail) i = b := by
  unfold bitF wordsOf
  rw [BitVec.getLsbD_setWidth, BitVec.getLsbD_ofBoolListLE]
  have e : 64*(i/64) + i%64 = i := Nat.div_add_mod i 64
  have hm : i % 64 < 64 := Nat.mod_lt _ (by omega)
  simp [List.getElem?_map, List.getElem?_range hm, hm, e, h]

theorem equal11_spec (w x : Nat → Word) (l : Nat) (hl : l < 2^64) :
    equal11 w x l = true ↔ ∀ k, k < l → bitF w k = bitF x k := by
  unfold equal11
  have hr : (-(BitVec.ofNat 64 l)).toNat % 64 = (64 - l % 64) % 64 := by
    rw [BitVec.toNat_neg, BitVec.toNat_ofNat, Nat.mod_eq_of_lt hl]; omega
  simp only [hr, Bool.and_eq_true, List.all_eq_true, List.mem_range, beq_iff_eq, Bool.or_eq_true]
  have wordlt : ∀ q, w q = x q → ∀ j, bitF w (64*q+j%64) = bitF x (64*q+j%64) := by
    intro q hq j
    unfold bitF
    rw [show (64*q+j%64)/64 = q by omega, hq]
  constructor
  · rintro ⟨h1, h2⟩ k hk
    have hk2 : 64*(k/64) + k%64 = k := Nat.div_add_mod k 64
    by_cases hq : k/64 < l/64
    · have := wordlt _ (h1 _ hq) (k%64)
      rwa [Nat.mod_mod, hk2] at this
    · have hq : k/64 = l/64 := by omega
      rcases h2 with h2 | h2
      · omega
      · have hb : ((w (l/64) ^^^ x (l/64)) <<< ((64 - l%64)%64)).getLsbD (k%64 + (64 - l%64)%64) = false := by rw [h2]; simp
        rw [BitVec.getLsbD_shiftLeft] at hb
        have h3 : k%64 + (64 - l%64)%64 < 64 := by omega
        have h4 : ¬ (k%64 + (64 - l%64)%64 < (64 - l%64)%64) := by omega
        rw [decide_eq_true h3, decide_eq_false h4, Nat.add_sub_cancel] at hb
        simp only [Bool.true_and, Bool.not_false, BitVec.getLsbD_xor] at hb
        unfold bitF
        rw [hq]
        revert hb; cases (w (l/64)).getLsbD (k%64) <;> cases (x (l/64)).getLsbD (k%64) <;> simp
  · intro h
    refine ⟨fun i hi => Bits.word_ext fun j hj => ?_, ?_⟩
    · have := h (64*i+j) (by omega)
      unfold bitF at this
      rwa [show (64*i+j)/64 = i by omega, show (64*i+j)%64 = j by omega] at this
    · by_cases h0 : (64 - l%64)%64 = 0
      · exact Or.inl h0
      · refine Or.inr (Bits.word_ext fun j hj => ?_)
        rw [BitVec.getLsbD_shiftLeft]
        by_cases hj2 : j < (64 - l%64)%64
        · simp [hj2]
        · have := h (64*(l/64) + (j - (64 - l%64)%64)) (by omega)
          unfold bitF at this
          rw [show (64*(l/64) + (j - (64 - l%64)%64))/64 = l/64 by omega,
            show (64*(l/64) + (j - (64 - l%64)%64))%64 = j - (64 - l%64)%64 by omega] at this
          simp [this]

/-! ## Bytes -/

theorem length_le {w : Nat} (n : Nat) (v : BitVec w) : (le n v).length = n := by simp [le]

theorem le_inj {w n : Nat} (hn : w = 8*n) {a b : BitVec w} (h : le n a = le n b) : a = b := by
  apply BitVec.eq_of_getLsbD_eq
  intro i hi
  have hk : i/8 < n := by omega
  have := congrArg (fun l => (l[i/8]?).map fun (v : BitVec 8) => v.getLsbD (i%8)) h
  simp only [le, List.getElem?_map, List.getElem?_range hk, Option.map_some, BitVec.getLsbD_setWidth, BitVec.getLsbD_ushiftRight,
    Nat.div_add_mod, decide_eq_true (Nat.mod_lt i (by omega : 0 < 8)), Bool.true_and, Option.some.injEq] at this
  exact this

theorem flat_inj {w n : Nat} (hn : w = 8*n) : ∀ {xs ys : List (BitVec w)}, xs.length = ys.length →
    (xs.flatMap (le n) = ys.flatMap (le n) ↔ xs = ys)
  | [], [], _ => by simp
  | [], _ :: _, h => by simp at h
  | _ :: _, [], h => by simp at h
  | x :: xs, y :: ys, h => by
    rw [List.flatMap_cons, List.flatMap_cons]
    constructor
    · intro e
      obtain ⟨e1, e2⟩ := List.append_inj e (by rw [length_le, length_le])
      rw [le_inj hn e1, (flat_inj hn (by simpa using h)).1 e2]
    · intro e; obtain ⟨e1, e2⟩ := List.cons.inj e; rw [e1, e2]

theorem flat_length {w n : Nat} : ∀ (xs : List (BitVec w)), (xs.flatMap (le n)).length = xs.length * n
  | [] => by simp
  | x :: xs => by rw [List.flatMap_cons, List.length_append, length_le, flat_length xs, List.length_cons, Nat.succ_mul]; omega

/-- `equal_8_8` on two arrays of one type. -/
theorem f88_spec {w d l : Nat} {xs ys : List (BitVec w)} (hd : w = 8 * 2^d) (hx : xs.length = l) (hy : ys.length = l)
    {n : Nat} (hn : n = 2^d) :
    ∃ b, (loop (l <<< d) 0 fun i => (xs.flatMap (le n))[i]?.bind fun a => (ys.flatMap (le n))[i]?.map fun b => a == b) = some b ∧
      (b = true ↔ xs = ys) := by
  subst hn
  have lx : (xs.flatMap (le (2^d))).length = l <<< d := by rw [flat_length, hx, Nat.shiftLeft_eq]
  have ly : (ys.flatMap (le (2^d))).length = l <<< d := by rw [flat_length, hy, Nat.shiftLeft_eq]
  generalize hp : xs.flatMap (le (2^d)) = p at *
  generalize hq : ys.flatMap (le (2^d)) = q at *
  obtain ⟨b, e, hb⟩ := loop_spec (f := fun i => p[i]?.bind fun a => q[i]?.map fun b => a == b)
    (g := fun i => p[i]? == q[i]?) (l <<< d) 0 (by
      intro k _ hk
      have a : p[k]? = some p[k] := List.getElem?_eq_getElem (by omega)
      have b : q[k]? = some q[k] := List.getElem?_eq_getElem (by omega)
      simp only [a, b, Option.bind_some, Option.map_some]; rfl)
  refine ⟨b, e, hb.trans ?_⟩
  rw [← flat_inj hd (hx.trans hy.symm), hp, hq]
  constructor
  · intro h
    apply List.ext_getElem?
    intro k
    by_cases hk : k < l <<< d
    · exact eq_of_beq (h k (by omega) (by omega))
    · rw [List.getElem?_eq_none (by omega), List.getElem?_eq_none (by omega)]
  · intro h k _ _; rw [h]; simp

/-- Equal lists, when equality of the elements is matching. -/
theorem tells_of_eq {α} {r : Bool} {xs ys : List α} {f : α → Val} (h : xs.length = ys.length)
    (hf : ∀ a b, atomEq r (f a) (f b) = true ↔ a = b) {b : Bool} (hb : b = true ↔ xs = ys) : Tells r (xs.map f) (ys.map f) b := by
  unfold Tells
  rw [hb]
  constructor
  · rintro rfl k u v hu hv
    rw [hu] at hv; cases hv
    rw [List.getElem?_map] at hu
    obtain ⟨a, _, e⟩ := Option.map_eq_some_iff.1 hu
    rw [← e, hf]
  · intro e
    apply List.ext_getElem?
    intro k
    by_cases hk : k < xs.length
    · have a : xs[k]? = some xs[k] := List.getElem?_eq_getElem hk
      have b : ys[k]? = some ys[k] := List.getElem?_eq_getElem (by omega)
      rw [a, b, (hf _ _).1 (e k (f xs[k]) (f ys[k]) (by simp [a]) (by simp [b]))]
    · rw [List.getElem?_eq_none (by omega), List.getElem?_eq_none (by omega)]

theorem hit {α} {xs : List α} {f : α → Val} {i : Nat} {u : Val} (h : (xs.map f)[i]? = some u) : ∃ a, xs[i]? = some a ∧ u = f a := by
  rw [List.getElem?_map] at h
  obtain ⟨a, h1, h2⟩ := Option.map_eq_some_iff.1 h
  exact ⟨a, h1, h2.symm⟩

end Verif.Match
