import Verif.Take.Model
import Verif.Rotate.Basic
import Verif.Rep.Xor
/-!
# Take and Drop: copying and filling
-/
namespace Verif.Take
open Verif.Bits Verif.Slash Verif.Rep Verif.Select Verif.Under Verif.Rotate

/-- What is used of a kind of memory: `okr n m` says that `m` has memory for `n` elements. -/
structure Lawful {M X α} (K : Kind M X α) (okr : Nat → M → Prop) (okx : Nat → X → Prop) : Prop where
  new : ∀ n, okr n (K.new n)
  copy : ∀ n nx r x rs xs l, okr n r → okx nx x → rs + l ≤ n → xs + l ≤ nx →
    ∃ r', K.copy r rs x xs l = some r' ∧ okr n r' ∧ ∀ k, k < n → K.get r' k = if rs ≤ k ∧ k < rs + l then K.getX x (xs + (k - rs)) else K.get r k
  fill : ∀ n r ms v l, okr n r → ms + l ≤ n → ∃ r', K.fill r ms v l = some r' ∧ okr n r' ∧ ∀ k, k < n → K.get r' k = if ms ≤ k ∧ k < ms + l then some v else K.get r k

theorem fillElems_get {α} (v : α) : ∀ (l ms : Nat) (m : List α), ms + l ≤ m.length →
    ∃ m', fillElems v l ms m = some m' ∧ m'.length = m.length ∧ ∀ k : Nat, m'[k]? = if ms ≤ k ∧ k < ms + l then some v else m[k]? := by
  intro l
  induction l with
  | zero => intro ms m _; exact ⟨m, rfl, rfl, fun k => by rw [if_neg (by omega)]⟩
  | succ l ih =>
    intro ms m h
    obtain ⟨m', e, hl, hg⟩ := ih (ms + 1) (m.set ms v) (by rw [List.length_set]; omega)
    refine ⟨m', by rw [fillElems, wr, if_pos (by omega), Option.bind_some, e], by rw [hl, List.length_set], fun k => ?_⟩
    rw [hg k]
    by_cases hk : k = ms
    · subst hk
      rw [if_neg (by omega), if_pos (by omega), List.getElem?_set_self (by omega)]
    · rw [List.getElem?_set_ne (by omega)]
      by_cases h2 : ms + 1 ≤ k ∧ k < ms + 1 + l
      · rw [if_pos h2, if_pos (by omega)]
      · rw [if_neg h2, if_neg (by omega)]

theorem elem_lawful {α} (d : Nat → α) : Lawful (elemKind d) (fun n m => m.length = n) (fun n m => m.length = n) := by
  refine ⟨fun n => ?_, fun n nx r x rs xs l hr hx h1 h2 => ?_, fun n r ms v l hr h => ?_⟩
  · show ((List.range n).map d).length = n
    simp
  · obtain ⟨m', e, hl, hk, hn⟩ := memCpy_get (xs := x) (m := r) (ri := rs) (xi := xs) (l := l) (by omega) (by omega)
    refine ⟨m', e, hl.trans hr, fun k hkn => ?_⟩
    show m'[k]? = if rs ≤ k ∧ k < rs + l then x[xs + (k - rs)]? else r[k]?
    by_cases h : rs ≤ k ∧ k < rs + l
    · rw [if_pos h]
      have := hn (k - rs) (by omega)
      rw [show rs + (k - rs) = k by omega] at this
      exact this
    · rw [if_neg h]
      exact hk k (by omega)
  · obtain ⟨m', e, hl, hg⟩ := fillElems_get v l ms r (by omega)
    exact ⟨m', e, hl.trans hr, fun k _ => hg k⟩

/-! ## Bits -/

theorem setMask_get (v : Bool) (p : List Word) (i : Nat) (m : Word) (hi : i < p.length) :
    ∃ p', setMask v p i m = some p' ∧ p'.length = p.length ∧ ∀ k, k < 64 * p.length → bitL p' k = if k / 64 = i ∧ m.getLsbD (k % 64) then v else bitL p k := by
  unfold setMask
  rw [List.getElem?_eq_getElem hi, Option.bind_some, wr, if_pos hi]
  refine ⟨_, rfl, List.length_set, fun k hk => ?_⟩
  rw [bitL_set hi]
  by_cases h : k / 64 = i
  · rw [if_pos h]
    have e : bitL p k = (p[i]).getLsbD (k % 64) := bitL_get (by rw [h]; exact List.getElem?_eq_getElem hi)
    have h64 : k % 64 < 64 := Nat.mod_lt _ (by decide)
    rw [e]
    cases v
    · rw [if_neg Bool.false_ne_true, BitVec.getLsbD_and, BitVec.getLsbD_not]
      generalize m.getLsbD (k % 64) = a
      generalize (p[i]).getLsbD (k % 64) = b
      cases a <;> cases b <;> simp [h, h64]
    · rw [if_pos rfl, BitVec.getLsbD_or]
      generalize m.getLsbD (k % 64) = a
      generalize (p[i]).getLsbD (k % 64) = b
      cases a <;> cases b <;> simp [h]
  · rw [if_neg h, if_neg (by simp [h])]

theorem fillBits_get (v : Bool) (ms l : Nat) (p : List Word) (h : ms + l < 64 * p.length) :
    ∃ p', fillBits v ms l p = some p' ∧ p'.length = p.length ∧ ∀ k, k < 64 * p.length → bitL p' k = if ms ≤ k ∧ k < ms + l then v else bitL p k := by
  unfold fillBits
  have e1 : ms >>> 6 = ms / 64 := Nat.shiftRight_eq_div_pow ms 6
  have e2 : (ms + l) >>> 6 = (ms + l) / 64 := Nat.shiftRight_eq_div_pow (ms + l) 6
  simp only [e1, e2]
  by_cases hs : ms / 64 = (ms + l) / 64
  · rw [if_pos hs]
    obtain ⟨p', e, hl, hg⟩ := setMask_get v p (ms / 64) ((1#64 <<< ((ms + l) % 64)) - (1#64 <<< (ms % 64))) (by omega)
    refine ⟨p', e, hl, fun k hk => ?_⟩
    rw [hg k hk, BitCopy.range_mask_bit _ _ (by omega) (Nat.mod_lt _ (by decide))]
    by_cases hc : ms ≤ k ∧ k < ms + l
    · rw [if_pos hc, if_pos ⟨by omega, by simp; omega⟩]
    · rw [if_neg hc, if_neg (by simp; omega)]
  · rw [if_neg hs]
    obtain ⟨p1, d1, l1, g1⟩ := setMask_get v p (ms / 64) (~~~((1#64 <<< (ms % 64)) - 1#64)) (by omega)
    rw [d1, Option.bind_some]
    obtain ⟨p2, d2, l2, g2⟩ := fillElems_get (if v then BitVec.allOnes 64 else 0#64) ((ms + l) / 64 - (ms / 64 + 1)) (ms / 64 + 1) p1 (by omega)
    rw [d2, Option.bind_some]
    obtain ⟨p3, d3, l3, g3⟩ := setMask_get v p2 ((ms + l) / 64) ((1#64 <<< ((ms + l) % 64)) - 1#64) (by omega)
    refine ⟨p3, d3, by omega, fun k hk => ?_⟩
    have mb := BitCopy.mask_bit
    unfold BitCopy.mask at mb
    have hk64 : k % 64 < 64 := Nat.mod_lt _ (by decide)
    rw [g3 k (by omega), mb _ (Nat.mod_lt _ (by decide))]
    by_cases h3 : k / 64 = (ms + l) / 64 ∧ k % 64 < (ms + l) % 64
    · rw [if_pos ⟨h3.1, by simp; exact h3.2⟩, if_pos (by omega)]
    · rw [if_neg (by simp; omega)]
      by_cases h2 : ms / 64 + 1 ≤ k / 64 ∧ k / 64 < (ms + l) / 64
      · have := g2 (k / 64)
        rw [if_pos (by omega)] at this
        rw [bitL_get this, if_pos (show ms ≤ k ∧ k < ms + l by omega)]
        cases v
        · simp
        · rw [if_pos rfl, BitVec.getLsbD_allOnes, decide_eq_true hk64]
      · have := g2 (k / 64)
        rw [if_neg (by omega)] at this
        have e : bitL p2 k = bitL p1 k := by
          unfold bitL
          rw [List.getD_eq_getElem?_getD, List.getD_eq_getElem?_getD, this]
        rw [e, g1 k hk, BitVec.getLsbD_not, mb _ (Nat.mod_lt _ (by decide))]
        by_cases h1 : k / 64 = ms / 64 ∧ ms % 64 ≤ k % 64
        · rw [if_pos ⟨h1.1, by simp [hk64]; omega⟩, if_pos (by omega)]
        · rw [if_neg (by simp [hk64]; omega), if_neg (by omega)]

theorem word_ext {p p' : List Word} {i : Nat} (hi : i < p.length) (hl : p'.length = p.length) (h : ∀ k, k / 64 = i → bitL p' k = bitL p k) : p'[i]? = p[i]? := by
  rw [List.getElem?_eq_getElem hi, List.getElem?_eq_getElem (by omega)]
  congr 1
  apply BitVec.eq_of_getLsbD_eq
  intro j hj
  have := h (64 * i + j) (by omega)
  have ei : (64 * i + j) / 64 = i := by omega
  rw [bitL_get (r := p'[i]'(by omega)) (by rw [ei]; exact List.getElem?_eq_getElem _), bitL_get (r := p[i]) (by rw [ei]; exact List.getElem?_eq_getElem _)] at this
  rw [show (64 * i + j) % 64 = j by omega] at this
  exact this

/-- Memory for `n` bits, and one word more that still has the contents that it had. -/
def OkBits (junk : Nat → Word) (n : Nat) (m : List Word) : Prop := m.length = (n + 63) / 64 + 1 ∧ m[(n + 63) / 64]? = some (junk ((n + 63) / 64))

theorem bit_lawful (junk : Nat → Word) : Lawful (bitKind junk) (OkBits junk) (fun n m => m.length = (n + 63) / 64) := by
  refine ⟨fun n => ?_, fun n nx r x rs xs l hr hx h1 h2 => ?_, fun n r ms v l hr h => ?_⟩
  · show OkBits junk n ((List.range ((n + 63) / 64 + 1)).map junk)
    refine ⟨by simp, by simp⟩
  · obtain ⟨hr1, hr2⟩ := hr
    obtain ⟨m', e, hl, hk⟩ := bitCpy_get (fun i => x.getD i 0#64) r rs xs l (by omega)
    refine ⟨m', e, ⟨hl.trans hr1, ?_⟩, fun k hkn => ?_⟩
    · rw [word_ext (p := r) (by omega) hl, hr2]
      intro k hk2
      rw [hk k (by omega), if_neg (by omega)]
    · show getBit m' k = if rs ≤ k ∧ k < rs + l then getBit x (xs + (k - rs)) else getBit r k
      rw [getBit_some (by omega), hk k (by omega)]
      by_cases h : rs ≤ k ∧ k < rs + l
      · rw [if_pos h, if_pos h, getBit_some (by omega), bitL_getD]
      · rw [if_neg h, if_neg h, getBit_some (by omega)]
  · obtain ⟨hr1, hr2⟩ := hr
    obtain ⟨m', e, hl, hk⟩ := fillBits_get v ms l r (by omega)
    refine ⟨m', e, ⟨hl.trans hr1, ?_⟩, fun k hkn => ?_⟩
    · rw [word_ext (p := r) (by omega) hl, hr2]
      intro k hk2
      rw [hk k (by omega), if_neg (by omega)]
    · show getBit m' k = if ms ≤ k ∧ k < ms + l then some v else getBit r k
      rw [getBit_some (by omega), hk k (by omega)]
      by_cases h : ms ≤ k ∧ k < ms + l
      · rw [if_pos h, if_pos h]
      · rw [if_neg h, if_neg h, getBit_some (by omega)]

end Verif.Take
