import Verif.Arith.Model
namespace Verif.Arith

theorem mulb (n : Nat) (hn : 0 < n) {a b : Int} (ha : Fits n a) (hb : Fits n b) : -2^(2*n-2) ≤ a * b ∧ a * b ≤ 2^(2*n-2) := by
  have hp : (2:Int)^(2*n-2) = 2^(n-1) * 2^(n-1) := by rw [← Int.pow_add]; congr 1; omega
  rw [hp]
  have hP : (0:Int) < 2^(n-1) := Int.pow_pos (by omega)
  obtain ⟨a1, a2⟩ := ha
  obtain ⟨b1, b2⟩ := hb
  generalize (2:Int)^(n-1) = P at *
  have h1 := Int.mul_nonneg (show 0 ≤ P - a by omega) (show 0 ≤ P + b by omega)
  have h2 := Int.mul_nonneg (show 0 ≤ P + a by omega) (show 0 ≤ P - b by omega)
  have h3 := Int.mul_nonneg (show 0 ≤ P + a by omega) (show 0 ≤ P + b by omega)
  have h4 := Int.mul_nonneg (show 0 ≤ P - a by omega) (show 0 ≤ P - b by omega)
  simp only [Int.sub_mul, Int.mul_sub, Int.add_mul, Int.mul_add] at h1 h2 h3 h4
  have e : P * a = a * P := Int.mul_comm _ _
  have e2 : P * b = b * P := Int.mul_comm _ _
  generalize a * b = ab at *
  generalize P * P = PP at *
  omega

theorem fits_bmod {n : Nat} (hn : 0 < n) {v : Int} (h : Fits n v) : v.bmod (2^n) = v := by
  obtain ⟨h1, h2⟩ := h
  have hp : (2:Int)^n = 2 * 2^(n-1) := by rw [← Int.pow_succ']; congr 1; omega
  have hn2 : ((2^n : Nat) : Int) = 2 * 2^(n-1) := by rw [← hp]; norm_cast
  apply Int.bmod_eq_of_le <;> rw [hn2] <;> omega

theorem bmod_fits {n : Nat} (hn : 0 < n) (v : Int) : Fits n (v.bmod (2^n)) := by
  have hp : (2:Int)^n = 2 * 2^(n-1) := by rw [← Int.pow_succ']; congr 1; omega
  have hn2 : ((2^n : Nat) : Int) = 2 * 2^(n-1) := by rw [← hp]; norm_cast
  have h1 := Int.le_bmod (x := v) (m := 2^n) (Nat.pow_pos (by omega))
  have h2 := Int.bmod_lt (x := v) (m := 2^n) (Nat.pow_pos (by omega))
  rw [hn2] at h1 h2
  constructor <;> omega

theorem fits_iff {n : Nat} (hn : 0 < n) (v : Int) : v = v.bmod (2^n) ↔ Fits n v :=
  ⟨fun h => by rw [h]; exact bmod_fits hn v, fun h => (fits_bmod hn h).symm⟩

theorem ck_some {p : Nat} {v : Int} (h : Fits p v) : ck p v = some v := if_pos h

/-- The three loop widths. -/
def W (n : Nat) : Prop := n = 8 ∨ n = 16 ∨ n = 32

theorem W.fits32 {n v} (hn : W n) (h : Fits n v) : Fits 32 v := by
  rcases hn with rfl | rfl | rfl <;> simp only [Fits, Nat.reduceSub, Int.reducePow] at * <;> omega

theorem cexpr_eq (fop) (hf : F64Arith fop) (f : Form) (op : Op) (n : Nat) (hn : W n) (a b : Int) (ha : Fits n a) (hb : Fits n b) :
    ∃ v, cexpr fop f op (if 2*n < 32 then 32 else 2*n) (2*n) a b = some v ∧
      (Fits n v → v = fop op a b) := by
  have hm := mulb n (by rcases hn with rfl | rfl | rfl <;> omega) ha hb
  have ha' := hn.fits32 ha
  have hb' := hn.fits32 hb
  have hex : ∀ v, v = op.exact a b → Fits n v → v = fop op a b := by
    intro v hv h; rw [hf.exact op a b ha' hb' (hv ▸ hn.fits32 h), hv]
  have key : ∀ v, Fits (2*n) v → v = op.exact a b → ((ck (if 2*n < 32 then 32 else 2*n) v).map (·.bmod (2^(2*n)))) = some v := by
    intro v h _
    have : Fits (if 2*n < 32 then 32 else 2*n) v := by
      rcases hn with rfl | rfl | rfl <;> simp only [Fits, Nat.reduceMul, Nat.reduceLT, if_true, if_false, Nat.reduceSub, Int.reducePow] at * <;> omega
    rw [ck_some this, Option.map_some, fits_bmod (by rcases hn with rfl | rfl | rfl <;> omega) h]
  have hor : Fits (2*n) (a + b) ∧ Fits (2*n) (a - b) ∧ Fits (2*n) (a * b) ∧ Fits (2*n) (a + b - a * b) := by
    generalize a * b = ab at *
    rcases hn with rfl | rfl | rfl <;> simp only [Fits, Nat.reduceMul, Nat.reduceSub, Int.reducePow] at * <;> omega
  obtain ⟨o1, o2, o3, o4⟩ := hor
  cases op with
  | add => exact ⟨a + b, key _ o1 rfl, hex _ rfl⟩
  | sub => exact ⟨a - b, key _ o2 rfl, hex _ rfl⟩
  | mul => exact ⟨a * b, key _ o3 rfl, hex _ rfl⟩
  | and => exact ⟨a * b, key _ o3 rfl, hex _ rfl⟩
  | min => exact ⟨_, rfl, hex _ (by simp only [Op.exact]; split <;> split <;> omega)⟩
  | max => exact ⟨_, rfl, hex _ (by simp only [Op.exact]; split <;> split <;> omega)⟩
  | or =>
    cases f with
    | sa =>
      refine ⟨a + b - a * b, ?_, hex _ rfl⟩
      have big : ∀ v, Fits (2*n) v → Fits (if 2*n < 32 then 32 else 2*n) v := by
        intro v h
        rcases hn with rfl | rfl | rfl <;> simp only [Fits, Nat.reduceMul, Nat.reduceLT, if_true, if_false, Nat.reduceSub, Int.reducePow] at * <;> omega
      simp only [cexpr]
      rw [ck_some (big _ o1), Option.bind_some, ck_some (big _ o3), Option.bind_some]
      exact key _ o4 rfl
    | aa =>
      refine ⟨fop .or a b, ?_, fun _ => rfl⟩
      apply ck_some
      by_cases h : Fits 32 (Op.exact .or a b)
      · rw [hf.exact _ _ _ ha' hb' h]; exact o4
      · have := (hf.big _ _ _ ha' hb' h).2
        rcases hn with rfl | rfl | rfl
        · exact absurd o4 (fun o => h (by simp only [Op.exact, Fits, Nat.reduceMul, Nat.reduceSub, Int.reducePow] at *; omega))
        · exact absurd o4 (fun o => h (by simp only [Op.exact, Fits, Nat.reduceMul, Nat.reduceSub, Int.reducePow] at *; omega))
        · exact this

theorem DOI_eq (fop) (hf : F64Arith fop) (f : Form) (op : Op) (n : Nat) (hn : W n) : ∀ (w x : List Int), w.length = x.length →
    (∀ v ∈ w, Fits n v) → (∀ v ∈ x, Fits n v) →
    DOI fop f op n w x = .base ∨ ∃ r, DOI fop f op n w x = .ok r ∧ r = List.zipWith (fop op) w x ∧ ∀ v ∈ r, Fits n v
  | [], [], _, _, _ => Or.inr ⟨[], rfl, rfl, by simp⟩
  | [], _ :: _, h, _, _ => by simp at h
  | _ :: _, [], h, _, _ => by simp at h
  | a :: w, b :: x, h, hw, hx => by
    have hn0 : 0 < n := by rcases hn with rfl | rfl | rfl <;> omega
    obtain ⟨v, e, hv⟩ := cexpr_eq fop hf f op n hn a b (hw a (by simp)) (hx b (by simp))
    rw [DOI, e]
    by_cases hc : v = v.bmod (2^n)
    · have hfit := (fits_iff hn0 v).1 hc
      rcases DOI_eq fop hf f op n hn w x (by simpa using h) (fun u hu => hw u (List.mem_cons_of_mem _ hu))
        (fun u hu => hx u (List.mem_cons_of_mem _ hu)) with h1 | ⟨r, h1, h2, h3⟩
      · left; simp only [h1]; rw [if_neg (fun hh => hh hc)]
      · right
        refine ⟨v :: r, ?_, ?_, ?_⟩
        · simp only [h1]; rw [if_neg (fun hh => hh hc)]
        · rw [List.zipWith_cons_cons, ← h2, hv hfit]
        · intro u hu
          rcases List.mem_cons.1 hu with rfl | hu
          · exact hfit
          · exact h3 u hu
    · left; simp only []; rw [if_pos hc]

end Verif.Arith
