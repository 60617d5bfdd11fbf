import Verif.Known.Model
import Verif.Cells.Main
/-!
# Lemmas for Known
-/
namespace Verif.Known
open Verif.Cells
open Verif.Rotate (prod prod_append)
variable {E : Type} {m : Type → Type}

theorem mapM_pure_eq [Monad m] [LawfulMonad m] {A B : Type} (f : A → m B) (g : A → B) : ∀ l : List A, (∀ a ∈ l, f a = pure (g a)) → l.mapM f = pure (l.map g)
  | [], _ => by simp
  | a :: l, h => by
    rw [List.mapM_cons, h a (List.mem_cons_self ..), pure_bind, mapM_pure_eq f g l (fun b hb => h b (List.mem_cons_of_mem _ hb)), pure_bind, List.map_cons]

theorem mapM_congr [Monad m] [LawfulMonad m] {A B : Type} {f g : A → m B} : ∀ {l : List A}, (∀ a ∈ l, f a = g a) → l.mapM f = l.mapM g
  | [], _ => rfl
  | a :: l, h => by rw [List.mapM_cons, List.mapM_cons, h a List.mem_cons_self, mapM_congr fun b hb => h b (List.mem_cons_of_mem _ hb)]

/-- What a call on each cell gives when the results have one shape that the fill cell has as well. -/
theorem regular [Monad m] [LawfulMonad m] (fill : Arr E → E) (f : Operand m (Val E) E) {x : Arr E} {k : Nat} (hk : k ≠ 0) (hkl : k ≤ x.sh.length) (hl : tooLarge (x.sh.drop k) = false)
    (g : List Nat) (res : Nat → Val E) (hg : ∀ i, i < prod (x.sh.take k) → (res i).sh = g) (hr : ∀ i, i < prod (x.sh.take k) → f.run (.arr (cellAt x k i)) = pure (res i))
    (hs : prod (x.sh.take k) = 0 → ∃ p v, f.safe = some p ∧ p (.arr ⟨x.sh.drop k, List.replicate (prod (x.sh.drop k)) (fill x)⟩) = some v ∧ v.sh = g) :
    onCells fill f (.arr x) k = pure (if k + g.length > 255 then .rank else .ok ⟨x.sh.take k ++ g, (List.range (prod (x.sh.take k))).flatMap fun i => (res i).els⟩) := by
  have htl : (x.sh.take k).length = k := by rw [List.length_take]; omega
  unfold onCells
  dsimp only
  rw [show (Val.arr x).sh = x.sh from rfl]
  by_cases h0 : prod (x.sh.take k) = 0
  · rw [if_pos h0]
    obtain ⟨p, v, e1, e2, e3⟩ := hs h0
    unfold fillCell
    dsimp only
    rw [if_neg hk, hl, e1]
    simp only [Bool.false_eq_true, if_false]
    unfold emptyResult
    dsimp only
    rw [e2]
    dsimp only
    rw [e3, htl, h0]
    rfl
  · rw [if_neg h0, mapM_pure_eq _ res _ (fun i hi => by rw [argCell_own]; exact hr i (List.mem_range.1 hi)), pure_bind]
    congr 1
    obtain ⟨n, hn⟩ : ∃ n, prod (x.sh.take k) = n + 1 := ⟨prod (x.sh.take k) - 1, by omega⟩
    have hall : ((List.range n).map fun i => res (i + 1)).all (fun v => v.sh == (res 0).sh) = true := by
      rw [List.all_eq_true]
      intro v hv
      obtain ⟨i, hi, rfl⟩ := List.mem_map.1 hv
      rw [hg (i+1) (by have := List.mem_range.1 hi; omega), hg 0 (by omega)]
      simp
    rw [hn, List.range_succ_eq_map, List.map_cons, List.map_map]
    unfold merge
    dsimp only
    rw [hg 0 (by omega), htl]
    by_cases hr2 : k + g.length > 255
    · rw [if_pos ⟨by omega, hr2⟩, if_pos hr2]
    · rw [if_neg (fun h => hr2 h.2), if_neg hr2]
      rw [if_pos (by rw [← hg 0 (by omega)]; exact hall)]
      rw [← List.range_succ_eq_map, ← hn]
      congr 2
      rw [hn, List.range_succ_eq_map, List.flatMap_cons, List.flatMap_cons, List.flatMap_map, List.flatMap_map]
      rfl

/-- The cells one after another. -/
theorem rows_all {x : Arr E} (hf : Full x) (k : Nat) : ((List.range (prod (x.sh.take k))).flatMap fun i => (cellAt x k i).els) = x.els := by
  have key : ∀ n, n ≤ prod (x.sh.take k) → ((List.range n).flatMap fun i => (cellAt x k i).els) = x.els.take (n * prod (x.sh.drop k)) := by
    intro n
    induction n with
    | zero => intro _; simp
    | succ n ih =>
      intro hn
      rw [List.range_succ, List.flatMap_append, ih (by omega), List.flatMap_cons, List.flatMap_nil, List.append_nil, Nat.succ_mul]
      unfold cellAt
      dsimp only
      rw [List.take_add]
  rw [key _ (Nat.le_refl _), prod_take_drop, ← hf, List.take_length]

theorem cell_sh (x : Arr E) (k i : Nat) : (cellAt x k i).sh = x.sh.drop k := rfl

theorem cell_full {x : Arr E} (hf : Full x) {k i : Nat} (hi : i < prod (x.sh.take k)) : (cellAt x k i).els.length = prod (x.sh.drop k) := by
  have hb := Nat.mul_le_mul_right (prod (x.sh.drop k)) hi
  rw [Nat.succ_mul, prod_take_drop] at hb
  show ((x.els.drop _).take _).length = _
  rw [List.length_take, List.length_drop, hf]
  omega

theorem not_large {c : List Nat} (h : tooLarge c = false) : prod c < 2^32 := by
  unfold tooLarge at h
  rw [List.any_eq_false] at h
  have := h c.length (List.mem_range.2 (by omega))
  rw [List.take_length] at this
  simp only [ge_iff_le, decide_eq_true_eq, Nat.not_le] at this
  exact this

theorem gather_eq (els : List E) (b n : Nat) (h : b + n ≤ els.length) : gather els ((List.range n).map fun j => b + j) = some ((els.drop b).take n) := by
  unfold gather
  induction n with
  | zero => simp
  | succ n ih =>
    rw [List.range_succ, List.map_append, List.mapM_append, ih (by omega), List.map_cons, List.map_nil, List.mapM_cons, List.mapM_nil, List.getElem?_eq_getElem (by omega)]
    rw [List.take_succ, List.getElem?_drop, List.getElem?_eq_getElem (by omega)]
    rfl

theorem mapM_some_eq {A B : Type} (f : A → Option B) (g : A → B) (l : List A) (h : ∀ a ∈ l, f a = some (g a)) : l.mapM f = some (l.map g) := mapM_pure_eq f g l h

theorem gather_single (els : List E) (q p : Nat → Nat) (n : Nat) (hp : ∀ i, i < n → p i < els.length) (hq : ∀ i, i < n → q i = p i) :
    gather els ((List.range n).map q) = some ((List.range n).flatMap fun i => (els.drop (p i)).take 1) := by
  unfold gather
  induction n with
  | zero => simp
  | succ n ih =>
    have h := hp n (by omega)
    rw [List.range_succ, List.map_append, List.mapM_append, ih (fun i hi => hp i (by omega)) (fun i hi => hq i (by omega)), List.map_cons, List.map_nil, List.mapM_cons, List.mapM_nil, hq n (by omega), List.getElem?_eq_getElem h,
      List.flatMap_append, List.flatMap_cons, List.flatMap_nil, List.append_nil, show (els.drop (p n)).take 1 = [els[p n]] by rw [List.drop_eq_getElem_cons h]; rfl]
    rfl

theorem ctz_zero {n : Nat} (f : Nat) (h : ctz (f+1) n = 0) : n % 2 = 1 := by
  unfold ctz at h
  by_cases h1 : n % 2 = 1
  · exact h1
  · rw [if_neg h1] at h; omega

theorem one_of {n : Nat} (ho : n % 2 = 1) (ha : n &&& (n - 1) = 0) : n = 1 := by
  have : n / 2 = 0 := by
    apply Nat.eq_of_testBit_eq
    intro i
    have h1 : (n &&& (n - 1)).testBit (i + 1) = false := by rw [ha]; exact Nat.zero_testBit _
    rw [Nat.testBit_and, Nat.testBit_succ, Nat.testBit_succ, show (n - 1) / 2 = n / 2 by omega, Bool.and_self] at h1
    rw [h1, Nat.zero_testBit]
  omega

theorem or_odd {n b : Nat} (h : (n ||| b) % 2 = 1) (hb : b % 2 = 0) : n % 2 = 1 := by
  have e : (n ||| b).testBit 0 = true := by rw [Nat.testBit_zero]; exact decide_eq_true h
  rw [Nat.testBit_or, Nat.testBit_zero, Nat.testBit_zero, hb] at e
  simpa using e

/-- A single element is selected from each row only if the cells have one element. -/
theorem width_single {n lw : Nat} (hlw : lw ≤ 6) (h : multWidthLog n lw = lw) : n = 1 := by
  unfold multWidthLog at h
  by_cases h1 : n &&& (n - 1) ≠ 0
  · rw [if_pos h1] at h; omega
  · rw [if_neg h1] at h
    have h2 : ctz (31+1) (n ||| (128 >>> lw)) = 0 := by
      have : ctz 32 (n ||| (128 >>> lw)) = 0 := by omega
      exact this
    refine one_of (or_odd (ctz_zero 31 h2) ?_) (by omega)
    rcases lw with _|_|_|_|_|_|_|lw
    all_goals first | rfl | omega

/-- The widths that exist: 1 bit, or bytes; nested arrays have words of 64 bits. -/
def Info.Good (io : Info E) : Prop := io.ewl ≤ 6 ∧ (io.boxed = true → io.ewl = 6)

/-- Element or cell number `ind` of each of `cam` rows. -/
theorem selectSingle_eq {io : Info E} (hio : io.Good) {x : Arr E} {ind cam l csz : Nat} (hlen : x.els.length = cam * (l * csz)) (h32 : x.els.length < 2^32) (hind : ind < l) :
    selectSingle io ind x cam l csz = some ((List.range cam).flatMap fun i => (x.els.drop (i * (l * csz) + ind * csz)).take csz) := by
  unfold selectSingle
  have hrow : ∀ i, i < cam → i * (l * csz) + ind * csz + csz ≤ x.els.length := by
    intro i hi
    have h1 := Nat.mul_le_mul_right (l * csz) hi
    rw [Nat.succ_mul] at h1
    have h3 := Nat.mul_le_mul_right csz hind
    rw [Nat.succ_mul] at h3
    omega
  by_cases h1 : l = 1
  · rw [if_pos h1]
    obtain rfl : ind = 0 := by omega
    subst h1
    congr 1
    simp only [Nat.one_mul, Nat.zero_mul, Nat.add_zero]
    have key : ∀ n, ((List.range n).flatMap fun i => (x.els.drop (i * csz)).take csz) = x.els.take (n * csz) := by
      intro n
      induction n with
      | zero => simp
      | succ n ih => rw [List.range_succ, List.flatMap_append, ih, List.flatMap_cons, List.flatMap_nil, List.append_nil, Nat.succ_mul, List.take_add]
    rw [key, show cam * csz = x.els.length by rw [hlen, Nat.one_mul], List.take_length]
  · rw [if_neg h1]
    dsimp only
    by_cases h2 : multWidthLog csz io.ewl ≥ 7 ∨ (multWidthLog csz io.ewl < 3 ∧ multWidthLog csz io.ewl > 0)
    · rw [if_pos h2]
      rw [mapM_some_eq _ (fun i => (x.els.drop (i * (l * csz) + ind * csz)).take csz)]
      · rw [List.flatMap_def]; rfl
      · intro i hi
        have hi := List.mem_range.1 hi
        have hr := hrow i hi
        by_cases hc : csz = 0
        · subst hc; simp [gather]
        · have hl0 : cam * (l * csz) ≥ l * csz := Nat.le_mul_of_pos_left _ (by omega)
          rw [Nat.mod_eq_of_lt (show l * csz < 2^32 by omega), Nat.mul_comm csz ind, Nat.add_comm (ind * csz), Nat.mod_eq_of_lt (by omega), gather_eq _ _ _ (by omega)]
    · rw [if_neg h2]
      by_cases h3 : io.boxed = true ∨ multWidthLog csz io.ewl = 0
      · rw [if_pos h3]
        obtain rfl : csz = 1 := by
          rcases h3 with h3 | h3
          · apply width_single hio.1
            have : multWidthLog csz io.ewl ≥ io.ewl ∨ multWidthLog csz io.ewl = 7 := by
              unfold multWidthLog
              by_cases h : csz &&& (csz - 1) ≠ 0
              · rw [if_pos h]; omega
              · rw [if_neg h]; omega
            have h6 := hio.2 h3
            omega
          · have : multWidthLog csz io.ewl ≥ io.ewl ∨ multWidthLog csz io.ewl = 7 := by
              unfold multWidthLog
              by_cases h : csz &&& (csz - 1) ≠ 0
              · rw [if_pos h]; omega
              · rw [if_neg h]; omega
            exact width_single hio.1 (by omega)
        simp only [Nat.mul_one] at hrow ⊢
        exact gather_single _ _ _ _ (fun i hi => by have := hrow i hi; omega) (by
          intro i hi
          have := hrow i hi
          exact Nat.mod_eq_of_lt (by omega))
      · rw [if_neg h3]
        rw [mapM_some_eq _ (fun i => (x.els.drop (i * (l * csz) + ind * csz)).take csz)]
        · rw [List.flatMap_def]; rfl
        · intro i hi
          have hi := List.mem_range.1 hi
          have hr := hrow i hi
          by_cases hc : csz = 0
          · subst hc; simp [gather]
          · have e : (i * l + ind) * csz = i * (l * csz) + ind * csz := by rw [Nat.add_mul, Nat.mul_assoc]
            have h5 : i * l + ind ≤ (i * l + ind) * csz := Nat.le_mul_of_pos_right _ (by omega)
            rw [Nat.mod_eq_of_lt (by omega), e, gather_eq _ _ _ (by omega)]

end Verif.Known
