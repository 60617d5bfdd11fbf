import Verif.Widen.Read
/-!
# Narrowing: bits appended one after the other
-/
namespace Verif.Widen
open Verif.Bits Verif.Slash Verif.Rep Verif.Select

/-- `k` bits of `want` have been appended. -/
structure Inv (want : Nat → Bool) (n : Nat) (s : AB) (k : Nat) : Prop where
  len : s.mem.length = n
  off : s.off < 64
  cnt : k = 64 * s.ptr + s.off
  room : s.ptr ≤ n
  done : ∀ b, b < 64 * s.ptr → bitL s.mem b = want b
  tmp : ∀ j, j < 64 → s.tmp.getLsbD j = (decide (j < s.off) && want (64 * s.ptr + j))

theorem abAdd_spec {want : Nat → Bool} {n : Nat} {s : AB} {k : Nat} (h : Inv want n s k) (val : Word) (count : Nat) (hc : count ≤ 64) (hv : ∀ j, j < 64 → val.getLsbD j = (decide (j < count) && want (k + j)))
    (hn : k + count ≤ 64 * n) : ∃ s', abAdd s val count = some s' ∧ Inv want n s' (k + count) := by
  obtain ⟨h1, h2, h3, h6, h4, h5⟩ := h
  unfold abAdd
  simp only
  have htmp : ∀ j, j < 64 → (s.tmp ||| val <<< s.off).getLsbD j = (decide (j < s.off + count) && want (64 * s.ptr + j)) := by
    intro j hj
    rw [BitVec.getLsbD_or, BitVec.getLsbD_shiftLeft, h5 j hj, decide_eq_true hj, Bool.true_and]
    by_cases hjo : j < s.off
    · rw [decide_eq_true hjo, decide_eq_true (show j < s.off + count by omega)]
      simp
    · have e : decide (j - s.off < count) = decide (j < s.off + count) := decide_eq_decide.2 (by omega)
      rw [decide_eq_false hjo, hv (j - s.off) (by omega), show k + (j - s.off) = 64 * s.ptr + j by omega, e]
      simp
  by_cases h64 : s.off + count ≥ 64
  · rw [if_pos h64, wr, if_pos (show s.ptr < s.mem.length by omega), Option.map_some]
    refine ⟨_, rfl, by rw [List.length_set, h1], Nat.mod_lt _ (by decide), by show k + count = 64 * (s.ptr + 1) + (s.off + count) % 64; omega, by show s.ptr + 1 ≤ n; omega, fun b hb => ?_, fun j hj => ?_⟩
    · rw [bitL_set (by omega)]
      by_cases hbp : b / 64 = s.ptr
      · rw [if_pos hbp, htmp _ (Nat.mod_lt _ (by decide)), decide_eq_true (by omega), Bool.true_and]
        congr 1; omega
      · rw [if_neg hbp, h4 b (by have : b < 64 * (s.ptr + 1) := hb; omega)]
    · by_cases ho : s.off = 0
      · show (if s.off = 0 then 0#64 else val >>> (64 - s.off)).getLsbD j = _
        rw [if_pos ho, decide_eq_false (show ¬ j < (s.off + count) % 64 by omega)]
        simp
      · show (if s.off = 0 then 0#64 else val >>> (64 - s.off)).getLsbD j = _
        rw [if_neg ho, BitVec.getLsbD_ushiftRight]
        by_cases hb : 64 - s.off + j < 64
        · have e : decide (64 - s.off + j < count) = decide (j < (s.off + count) % 64) := decide_eq_decide.2 (by omega)
          rw [hv _ hb, show k + (64 - s.off + j) = 64 * (s.ptr + 1) + j by omega, e]
        · rw [BitVec.getLsbD_of_ge _ _ (by omega), decide_eq_false (show ¬ j < (s.off + count) % 64 by omega)]
          rfl
  · rw [if_neg h64]
    refine ⟨_, rfl, h1, Nat.mod_lt _ (by decide), ?_, h6, h4, fun j hj => ?_⟩
    · show k + count = 64 * s.ptr + (s.off + count) % 64
      rw [Nat.mod_eq_of_lt (by omega)]; omega
    · show (s.tmp ||| val <<< s.off).getLsbD j = (decide (j < (s.off + count) % 64) && _)
      rw [Nat.mod_eq_of_lt (by omega)]
      exact htmp j hj

theorem abDone_spec {want : Nat → Bool} {n : Nat} {s : AB} {k : Nat} (h : Inv want n s k) (hn : (k + 63) / 64 ≤ n) : ∃ m, abDone s = some m ∧ m.length = n ∧ ∀ b, b < k → bitL m b = want b := by
  obtain ⟨h1, h2, h3, h6, h4, h5⟩ := h
  unfold abDone
  by_cases ho : s.off ≠ 0
  · rw [if_pos ho, wr, if_pos (by omega)]
    refine ⟨_, rfl, by rw [List.length_set, h1], fun b hb => ?_⟩
    rw [bitL_set (by omega)]
    by_cases hbp : b / 64 = s.ptr
    · rw [if_pos hbp, h5 _ (Nat.mod_lt _ (by decide)), decide_eq_true (by omega), Bool.true_and]
      congr 1; omega
    · rw [if_neg hbp, h4 b (by omega)]
  · rw [if_neg ho]
    exact ⟨_, rfl, h1, fun b hb => h4 b (by omega)⟩

theorem narrowUnits_spec {want : Nat → Bool} {n : Nat} (rcsz : Nat) (hr : rcsz ≤ 64) : ∀ (vs : List Word) (s : AB) (k : Nat), Inv want n s k →
    (∀ (i : Nat) (v : Word), vs[i]? = some v → ∀ j, j < 64 → v.getLsbD j = (decide (j < rcsz) && want (k + i * rcsz + j))) → k + vs.length * rcsz ≤ 64 * n →
    ∃ s', narrowUnits rcsz vs s = some s' ∧ Inv want n s' (k + vs.length * rcsz) := by
  intro vs
  induction vs with
  | nil => intro s k h _ _; exact ⟨s, rfl, by rw [List.length_nil, Nat.zero_mul]; exact h⟩
  | cons v vs ih =>
    intro s k h hv hn
    rw [List.length_cons, Nat.succ_mul] at hn
    obtain ⟨s1, e1, i1⟩ := abAdd_spec h v rcsz hr (fun j hj => by have := hv 0 v rfl j hj; rw [Nat.zero_mul, Nat.add_zero] at this; exact this) (by omega)
    obtain ⟨s2, e2, i2⟩ := ih s1 (k + rcsz) i1 (fun i u hu j hj => by
      have := hv (i + 1) u hu j hj
      rw [Nat.succ_mul] at this
      rw [this]; congr 2; omega) (by omega)
    refine ⟨s2, by rw [narrowUnits, e1, Option.bind_some, e2], ?_⟩
    rw [List.length_cons, Nat.succ_mul, show k + (vs.length * rcsz + rcsz) = k + rcsz + vs.length * rcsz by omega]
    exact i2

theorem addWords_spec {want : Nat → Bool} {n : Nat} (x : List Word) : ∀ (l j : Nat) (s : AB) (k : Nat), Inv want n s k →
    (∀ q, q < l → ∃ v, x[j + q]? = some v ∧ ∀ b, b < 64 → v.getLsbD b = want (k + q * 64 + b)) → k + l * 64 ≤ 64 * n →
    ∃ s', addWords x l j s = some s' ∧ Inv want n s' (k + l * 64) := by
  intro l
  induction l with
  | zero => intro j s k h _ _; exact ⟨s, rfl, by rw [Nat.zero_mul]; exact h⟩
  | succ l ih =>
    intro j s k h hv hn
    obtain ⟨v, e, hb⟩ := hv 0 (by omega)
    obtain ⟨s1, e1, i1⟩ := abAdd_spec h v 64 (by omega) (fun j hj => by have := hb j hj; rw [Nat.zero_mul, Nat.add_zero] at this; rw [this, decide_eq_true hj, Bool.true_and]) (by omega)
    obtain ⟨s2, e2, i2⟩ := ih (j + 1) s1 (k + 64) i1 (fun q hq => by
      obtain ⟨u, f1, f2⟩ := hv (q + 1) (by omega)
      refine ⟨u, by rw [show j + 1 + q = j + (q + 1) by omega]; exact f1, fun b hb => ?_⟩
      rw [f2 b hb]; congr 1; omega) (by omega)
    rw [Nat.add_zero] at e
    refine ⟨s2, by rw [addWords, e, Option.bind_some, e1, Option.bind_some, e2], ?_⟩
    rw [show k + (l + 1) * 64 = k + 64 + l * 64 by omega]
    exact i2

theorem narrowWords_spec {want : Nat → Bool} {n : Nat} (x : List Word) (rcsz W : Nat) (hW : rcsz / 64 < W) : ∀ (cam xp : Nat) (s : AB) (k : Nat), Inv want n s k →
    (∀ i, i < cam → ∀ q, q < W → ∃ v, x[xp + i * W + q]? = some v ∧ ∀ b, b < 64 → q * 64 + b < rcsz → v.getLsbD b = want (k + i * rcsz + (q * 64 + b))) → k + cam * rcsz ≤ 64 * n →
    ∃ s', narrowWords x rcsz W cam xp s = some s' ∧ Inv want n s' (k + cam * rcsz) := by
  have e1 : rcsz >>> 6 = rcsz / 64 := Nat.shiftRight_eq_div_pow rcsz 6
  intro cam
  induction cam with
  | zero => intro xp s k h _ _; exact ⟨s, rfl, by rw [Nat.zero_mul]; exact h⟩
  | succ cam ih =>
    intro xp s k h hv hn
    rw [Nat.succ_mul] at hn
    have hv0 : ∀ q, q < W → ∃ v, x[xp + q]? = some v ∧ ∀ b, b < 64 → q * 64 + b < rcsz → v.getLsbD b = want (k + (q * 64 + b)) := fun q hq => by
      have := hv 0 (by omega) q hq
      rwa [Nat.zero_mul, Nat.zero_mul, Nat.add_zero, Nat.add_zero] at this
    obtain ⟨s1, d1, i1⟩ := addWords_spec x (rcsz / 64) xp s k h (fun q hq => by
      obtain ⟨v, f1, f2⟩ := hv0 q (by omega)
      refine ⟨v, f1, fun b hb => ?_⟩
      rw [f2 b hb (by omega)]; congr 1; omega) (by omega)
    obtain ⟨v, f1, f2⟩ := hv0 (rcsz / 64) hW
    have hm64 : rcsz % 64 < 64 := Nat.mod_lt _ (by decide)
    obtain ⟨s2, d2, i2⟩ := abAdd_spec i1 (v &&& ((1#64 <<< (rcsz % 64)) - 1#64)) (rcsz % 64) (by omega) (fun j hj => by
      rw [BitVec.getLsbD_and, tmsk_bit _ _ hm64]
      by_cases hjr : j < rcsz % 64
      · rw [decide_eq_true hjr, Bool.and_true, Bool.true_and, f2 j hj (by omega)]; congr 1; omega
      · rw [decide_eq_false hjr, Bool.and_false, Bool.false_and]) (by omega)
    rw [show k + rcsz / 64 * 64 + rcsz % 64 = k + rcsz by omega] at i2
    obtain ⟨s3, d3, i3⟩ := ih (xp + W) s2 (k + rcsz) i2 (fun i hi q hq => by
      obtain ⟨u, g1, g2⟩ := hv (i + 1) (by omega) q hq
      rw [Nat.succ_mul] at g1
      refine ⟨u, by rw [show xp + W + i * W + q = xp + (i * W + W) + q by omega]; exact g1, fun b hb hqb => ?_⟩
      rw [g2 b hb hqb, Nat.succ_mul]; congr 1; omega) (by omega)
    refine ⟨s3, ?_, by rw [Nat.succ_mul, show k + (cam * rcsz + rcsz) = k + rcsz + cam * rcsz by omega]; exact i3⟩
    rw [narrowWords]
    simp only [e1]
    rw [d1, Option.bind_some, f1, Option.bind_some, d2, Option.bind_some, d3]

end Verif.Widen
