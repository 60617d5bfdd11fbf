import Verif.Widen.Narrow
/-!
# Widening and narrowing, put together
-/
namespace Verif.Widen
open Verif.Bits Verif.Slash Verif.Rep Verif.Select

theorem newCell_units {p : Nat} (h0 : 0 < p) (h : p ≤ 64) : (newCell p = 8 ∨ newCell p = 16 ∨ newCell p = 32 ∨ newCell p = 64) ∧ p ≤ newCell p := by
  unfold newCell
  by_cases h8 : p ≤ 8
  · rw [if_pos h8]; omega
  · by_cases h16 : p ≤ 16
    · rw [if_neg h8, if_pos h16]; omega
    · by_cases h32 : p ≤ 32
      · rw [if_neg h8, if_neg h16, if_pos h32]; omega
      · rw [if_neg h8, if_neg h16, if_neg h32]; omega

theorem newCell_words {p : Nat} (h : 64 < p) (h2 : p < 2^32 - 63) : newCell p = (p + 63) / 64 * 64 := by
  unfold newCell
  rw [if_neg (by omega), if_neg (by omega), if_neg (by omega), Nat.mod_eq_of_lt (by omega)]

/-- Values that are cells of `p` of these bits, padded with zeros. -/
def Padded (want : Nat → Bool) (p cam : Nat) (m : List Word) : Prop :=
  m.length = cam ∧ ∀ i, i < cam → ∃ v, m[i]? = some v ∧ ∀ j, j < 64 → v.getLsbD j = (decide (j < p) && want (i * p + j))

/-- The same with cells of `W` words. -/
def PaddedW (want : Nat → Bool) (p W cam : Nat) (m : List Word) : Prop :=
  m.length = cam * W ∧ ∀ i, i < cam → ∀ q, q < W → ∃ v, m[i * W + q]? = some v ∧ ∀ b, b < 64 → v.getLsbD b = (decide (q * 64 + b < p) && want (i * p + (q * 64 + b)))

theorem cell_before {p k cam : Nat} (h : k < cam) (b : Nat) (hb : b < p) : k * p + b < cam * p := by
  have := Nat.mul_le_mul_right p (show k + 1 ≤ cam from h)
  rw [Nat.succ_mul] at this
  omega

theorem widen_units {x : Nat → Word} {p cam : Nat} {junk : Nat → Word} (h0 : 0 < p) (h : p ≤ 64) (hne : newCell p ≠ p) (hs : cam * newCell p ≤ bitMax) :
    ∃ m, widenBitArr x ((cam * p + 63) / 64 + 1) p cam junk = some (.ok (.units (newCell p) m)) ∧ Padded (bitF x) p cam m := by
  obtain ⟨hn, hle⟩ := newCell_units h0 h
  have hbm : bitMax = 4294967230 := rfl
  unfold widenBitArr
  simp only
  have hmod : cam * newCell p % 2^32 = cam * newCell p := Nat.mod_eq_of_lt (by omega)
  rw [if_neg hne, hmod, if_neg (by omega), if_pos (by omega), Nat.mul_div_cancel cam (by omega)]
  have hroom : cam ≤ (cam * newCell p + 63) / 64 * 64 / newCell p := (Nat.le_div_iff_mul_le (by omega)).2 (by omega)
  by_cases hz : 0 < cam * newCell p
  · rw [if_pos hz]
    obtain ⟨m', e, hl, _, hg⟩ := widenUnits_spec x ((cam * p + 63) / 64 + 1) (newCell p) p hn h0 (by omega) cam 0 (fresh junk ((cam * newCell p + 63) / 64 * 64 / newCell p))
      (fun k hk => by have := cell_before (p := p) (show k < cam by omega) 0 h0; omega) (by unfold fresh; rw [List.length_map, List.length_range]; omega)
    rw [e]
    unfold fresh at hl
    rw [List.length_map, List.length_range] at hl
    refine ⟨_, rfl, by rw [List.length_take]; omega, fun i hi => ?_⟩
    obtain ⟨v, f1, f2⟩ := hg i (by omega) (by omega)
    exact ⟨v, by rw [List.getElem?_take_of_lt hi, f1], f2⟩
  · have hc : cam = 0 := by
      apply Classical.byContradiction
      intro hc
      exact hz (Nat.mul_pos (by omega) (by omega))
    subst hc
    rw [if_neg hz]
    exact ⟨_, rfl, by simp, fun i hi => by omega⟩

theorem widen_words {x : Nat → Word} {p cam : Nat} {junk : Nat → Word} (h : 64 < p) (h2 : p < 2^32 - 63) (hp : p % 64 ≠ 0) (hs : cam * newCell p ≤ bitMax) :
    ∃ m, widenBitArr x ((cam * p + 63) / 64 + 1) p cam junk = some (.ok (.words (newCell p / 64) m)) ∧ PaddedW (bitF x) p (newCell p / 64) cam m := by
  have hn := newCell_words h h2
  have hbm : bitMax = 4294967230 := rfl
  have hne : newCell p ≠ p := by omega
  have h64 : newCell p % 64 = 0 := by omega
  have hle : p < newCell p ∧ newCell p - p < 64 := by omega
  unfold widenBitArr
  simp only
  have hmod : cam * newCell p % 2^32 = cam * newCell p := Nat.mod_eq_of_lt (by omega)
  rw [if_neg hne, hmod, if_neg (by omega), if_neg (by omega)]
  have hroom : (cam * newCell p + 63) / 64 = cam * (newCell p / 64) := by
    have : cam * newCell p = cam * (newCell p / 64) * 64 := by rw [Nat.mul_assoc]; congr 1; omega
    omega
  rw [hroom]
  by_cases hz : 0 < cam * newCell p
  · rw [if_pos hz]
    obtain ⟨m', e, hl, _, hg⟩ := widenWords_spec x ((cam * p + 63) / 64 + 1) (newCell p) p h64 hle.1 hle.2 cam 0 (fresh junk (cam * (newCell p / 64)))
      (fun k hk q hq => by have := cell_before (p := p) (show k < cam by omega) (q * 64) (by omega); omega) (by unfold fresh; rw [List.length_map, List.length_range, Nat.zero_add]; exact Nat.le_refl _)
    rw [e]
    unfold fresh at hl
    rw [List.length_map, List.length_range] at hl
    exact ⟨_, rfl, hl, fun i hi => hg i (by omega) (by omega)⟩
  · have hc : cam = 0 := by
      apply Classical.byContradiction
      intro hc
      exact hz (Nat.mul_pos (by omega) (by omega))
    subst hc
    rw [if_neg hz]
    exact ⟨_, rfl, by simp [fresh], fun i hi => by omega⟩

theorem inv_start (want : Nat → Bool) (n : Nat) (junk : Nat → Word) : Inv want n ⟨0, 0#64, 0, fresh junk n⟩ 0 :=
  ⟨by unfold fresh; simp, show (0:Nat) < 64 by omega, rfl, Nat.zero_le _, fun b hb => absurd hb (by simp), fun j hj => by simp⟩

theorem narrow_units {want : Nat → Bool} {p cam n : Nat} {vs : List Word} {junk : Nat → Word} (h0 : 0 < p) (h : p ≤ 64) (hv : Padded want p cam vs) (hs : cam * p ≤ bitMax) :
    ∃ m, narrow p cam (.units n vs) junk = some (.ok m) ∧ m.length = (cam * p + 63) / 64 ∧ ∀ b, b < cam * p → bitL m b = want b := by
  have hbm : bitMax = 4294967230 := rfl
  obtain ⟨hl, hg⟩ := hv
  unfold narrow
  simp only
  rw [Nat.mod_eq_of_lt (by omega), if_neg (by omega)]
  by_cases hz : cam * p = 0
  · rw [if_pos hz]
    exact ⟨_, rfl, by unfold fresh; simp, fun b hb => by omega⟩
  · rw [if_neg hz]
    have htk : vs.take cam = vs := List.take_of_length_le (by omega)
    obtain ⟨s, e, hi⟩ := narrowUnits_spec p h vs _ 0 (inv_start want ((cam * p + 63) / 64) junk) (fun i v hv j hj => by
      have hi : i < cam := by
        rw [← hl]
        exact (List.getElem?_eq_some_iff.1 hv).1
      obtain ⟨u, f1, f2⟩ := hg i hi
      rw [hv] at f1
      cases f1
      rw [f2 j hj, Nat.zero_add]) (by rw [hl]; omega)
    rw [hl, Nat.zero_add] at hi
    rw [htk, e, Option.bind_some]
    obtain ⟨m, e2, l2, g2⟩ := abDone_spec hi (by omega)
    rw [e2]
    exact ⟨m, rfl, l2, g2⟩

theorem narrow_words {want : Nat → Bool} {p cam W : Nat} {vs : List Word} {junk : Nat → Word} (hW : p / 64 < W) (hv : PaddedW want p W cam vs) (hs : cam * p ≤ bitMax) :
    ∃ m, narrow p cam (.words W vs) junk = some (.ok m) ∧ m.length = (cam * p + 63) / 64 ∧ ∀ b, b < cam * p → bitL m b = want b := by
  have hbm : bitMax = 4294967230 := rfl
  obtain ⟨hl, hg⟩ := hv
  unfold narrow
  simp only
  rw [Nat.mod_eq_of_lt (by omega), if_neg (by omega)]
  by_cases hz : cam * p = 0
  · rw [if_pos hz]
    exact ⟨_, rfl, by unfold fresh; simp, fun b hb => by omega⟩
  · rw [if_neg hz]
    obtain ⟨s, e, hi⟩ := narrowWords_spec vs p W hW cam 0 _ 0 (inv_start want ((cam * p + 63) / 64) junk) (fun i hi q hq => by
      obtain ⟨u, f1, f2⟩ := hg i hi q hq
      refine ⟨u, by rw [Nat.zero_add]; exact f1, fun b hb hqb => ?_⟩
      rw [f2 b hb, decide_eq_true hqb, Bool.true_and, Nat.zero_add]) (by omega)
    rw [Nat.zero_add] at hi
    rw [e, Option.bind_some]
    obtain ⟨m, e2, l2, g2⟩ := abDone_spec hi (by omega)
    rw [e2]
    exact ⟨m, rfl, l2, g2⟩

/-! ## Numbers -/

theorem mapM_some {α β} (f : α → Option β) (g : α → β) : ∀ (l : List α), (∀ a ∈ l, f a = some (g a)) → l.mapM f = some (l.map g) := by
  intro l
  induction l with
  | nil => intro _; rfl
  | cons a l ih =>
    intro h
    rw [List.mapM_cons, h a List.mem_cons_self, ih fun b hb => h b (List.mem_cons_of_mem _ hb)]
    rfl

theorem toIntCell_spec {x : Nat → Word} {p cam : Nat} {junk : Nat → Word} (h0 : 0 < p) (h : p ≤ 62) (hs : cam * newCell p ≤ bitMax) :
    ∃ m, toIntCell x ((cam * p + 63) / 64 + 1) p cam junk = some (.ok (newCell p, m)) ∧ Padded (bitF x) p cam m := by
  obtain ⟨hn, hle⟩ := newCell_units h0 (show p ≤ 64 by omega)
  unfold toIntCell
  by_cases hne : newCell p = p
  · have e : widenBitArr x ((cam * p + 63) / 64 + 1) p cam junk = some (.ok .same) := by
      unfold widenBitArr
      simp only
      rw [if_pos hne]
    rw [e, Option.bind_some]
    simp only
    rw [hne] at hn
    rw [mapM_some _ (fun i => ((x (i * p / 64) >>> (i * p % 64)).setWidth p).setWidth 64) _ (fun i hi => by
      have := cell_before (p := p) (List.mem_range.1 hi) 0 h0
      unfold rd
      rw [if_pos (by omega)]
      rfl), Option.map_some, hne]
    refine ⟨_, rfl, by simp, fun i hi => ⟨_, by rw [List.getElem?_map, List.getElem?_range hi]; rfl, fun j hj => ?_⟩⟩
    rw [BitVec.getLsbD_setWidth, BitVec.getLsbD_setWidth, BitVec.getLsbD_ushiftRight, decide_eq_true hj, Bool.true_and]
    by_cases hjp : j < p
    · rw [decide_eq_true hjp, Bool.true_and, Bool.true_and]
      unfold bitF
      have : i * p % 64 + j < 64 := by
        rcases hn with rfl | rfl | rfl | rfl <;> omega
      rw [show (i * p + j) / 64 = i * p / 64 by omega, show (i * p + j) % 64 = i * p % 64 + j by omega]
    · rw [decide_eq_false hjp, Bool.false_and, Bool.false_and]
  · obtain ⟨m, e, hm⟩ := widen_units (x := x) (junk := junk) h0 (by omega) hne hs
    rw [e, Option.bind_some]
    exact ⟨m, rfl, hm⟩

theorem numEq_small {n : Nat} {a b : Word} (ha : ∀ j, 62 ≤ j → a.getLsbD j = false) (hb : ∀ j, 62 ≤ j → b.getLsbD j = false) : numEq n a b = true ↔ a = b := by
  unfold numEq
  by_cases hn : n = 64
  · rw [if_pos hn]
    unfold f64Eq
    have nan : ∀ v : Word, v.getLsbD 62 = false → isNaN v = false := by
      intro v hv
      unfold isNaN
      rw [Bool.and_eq_false_iff]
      left
      rw [beq_eq_false_iff_ne]
      intro e
      have := congrArg (fun w : Word => w.getLsbD 62) e
      rw [BitVec.getLsbD_and, hv] at this
      cases this
    have zero : ∀ v : Word, v.getLsbD 63 = false → v <<< 1 = 0#64 → v = 0#64 := by
      intro v hv e
      apply word_ext
      intro i hi
      have : (v <<< 1).getLsbD (i + 1) = (0#64).getLsbD (i + 1) := by rw [e]
      rw [BitVec.getLsbD_shiftLeft] at this
      by_cases h63 : i = 63
      · subst h63; rw [hv]; rfl
      · rw [decide_eq_true (show i + 1 < 64 by omega), decide_eq_false (show ¬ i + 1 < 1 by omega), Nat.add_sub_cancel] at this
        simpa using this
    rw [nan a (ha 62 (by omega)), nan b (hb 62 (by omega))]
    constructor
    · intro h
      simp only [Bool.not_false, Bool.true_and, Bool.or_eq_true, beq_iff_eq, Bool.and_eq_true] at h
      rcases h with h | ⟨h1, h2⟩
      · exact h
      · rw [zero a (ha 63 (by omega)) h1, zero b (hb 63 (by omega)) h2]
    · rintro rfl
      simp
  · rw [if_neg hn]
    exact beq_iff_eq

end Verif.Widen
