import Verif.Sort.RadixLemmas
import Verif.Sort.TimLemmas
import Verif.Fold.Lemmas
/-! # The insertion, counting and boolean sorts -/
namespace Verif.Sort
open Verif.Radix Verif.Bits

/-! ## sorting where only identical elements are equivalent -/

theorem isSort_of_perm [DecidableEq α] {c : α → α → Int} (h0 : ∀ a b, c a b = 0 ↔ a = b) {xs r : List α} (hp : r.Perm xs)
    (hs : r.Pairwise fun a b => c a b ≤ 0) : IsSort c xs r := by
  refine ⟨hs, fun x => ?_⟩
  have e : ∀ l : List α, l.filter (fun y => decide (c x y = 0)) = List.replicate (l.count x) x := by
    intro l
    rw [← List.filter_beq]
    apply List.filter_congr
    intro y _
    rw [Bool.eq_iff_iff, decide_eq_true_eq, h0, beq_iff_eq]
    exact eq_comm
  rw [e, e, hp.count_eq]

theorem intOrder_zero (up : Bool) (a b : Int) : intOrder up a b = 0 ↔ a = b := by
  unfold intOrder; cases up <;> simp <;> omega

theorem boolOrder_zero (up : Bool) (a b : Bool) : boolOrder up a b = 0 ↔ a = b := by
  cases up <;> cases a <;> cases b <;> decide

theorem intOrder_order (up : Bool) : Order (intOrder up) := by
  constructor
  · intro a b; unfold intOrder; cases up <;> simp <;> omega
  · intro a b d; unfold intOrder; cases up <;> simp <;> omega

/-! ## insertion sort -/

theorem lt_iff (up : Bool) (a b : Int) : lt up a b = true ↔ intOrder up a b < 0 := by
  unfold lt intOrder; cases up <;> simp <;> omega

theorem insLoop_spec (up : Bool) (x : Int) : ∀ (j : Nat) (S : List Int) (t : Int) (T : List Int), S.length = j →
    ∃ A B, S = A ++ B ∧ insLoop up x j (S ++ t :: T) = some (A ++ x :: (B ++ T)) ∧ (∀ b ∈ B, intOrder up x b < 0) ∧
      (∀ y, A.getLast? = some y → ¬ intOrder up x y < 0)
  | 0, S, t, T, h => by
    cases List.length_eq_zero_iff.1 h
    exact ⟨[], [], rfl, rfl, fun _ h => (by cases h), fun _ h => (by cases h)⟩
  | j+1, S, t, T, h => by
    obtain ⟨S0, s, rfl⟩ : ∃ S0 s, S = S0 ++ [s] := by
      refine ⟨S.dropLast, S.getLast (by intro e; rw [e] at h; simp at h), (List.dropLast_concat_getLast _).symm⟩
    have h0 : S0.length = j := by simpa using h
    have hget : (S0 ++ [s] ++ t :: T)[j]? = some s := by rw [← h0]; simp
    have hput : ∀ v, put (S0 ++ [s] ++ t :: T) (j+1) v = some (S0 ++ [s] ++ v :: T) := fun v => put_mid (by simp [h0])
    unfold insLoop
    rw [hget]
    simp only [Option.bind_some, hput]
    by_cases c : lt up x s = true
    · rw [if_pos c]
      obtain ⟨A, B, rfl, h1, h2, h3⟩ := insLoop_spec up x j S0 s (s :: T) h0
      refine ⟨A, B ++ [s], by simp, ?_, ?_, h3⟩
      · rw [show A ++ B ++ [s] ++ s :: T = A ++ B ++ s :: s :: T by simp, h1]; simp
      · intro b hb
        rcases List.mem_append.1 hb with hb | hb
        · exact h2 b hb
        · rw [List.mem_singleton.1 hb]; exact (lt_iff _ _ _).1 c
    · rw [if_neg c]
      refine ⟨S0 ++ [s], [], by simp, by simp, fun _ h => (by cases h), ?_⟩
      intro y hy
      simp at hy
      subst hy
      rw [lt_iff] at c
      exact c

theorem insert_sorted (up : Bool) {x : Int} {A B : List Int} (hs : (A ++ B).Pairwise fun a b => intOrder up a b ≤ 0)
    (hB : ∀ b ∈ B, intOrder up x b < 0) (hA : ∀ y, A.getLast? = some y → ¬ intOrder up x y < 0) :
    (A ++ x :: B).Pairwise fun a b => intOrder up a b ≤ 0 := by
  obtain ⟨h1, h2, h3⟩ := List.pairwise_append.1 hs
  have hAx : ∀ a ∈ A, intOrder up a x ≤ 0 := by
    intro a ha
    obtain ⟨A0, y, rfl⟩ : ∃ A0 y, A = A0 ++ [y] := by
      have : A ≠ [] := by intro e; rw [e] at ha; cases ha
      exact ⟨A.dropLast, A.getLast this, (List.dropLast_concat_getLast _).symm⟩
    have hy := (intOrder_order up).ge_of (hA y (by simp))
    rcases List.mem_append.1 ha with ha | ha
    · exact (intOrder_order up).trans _ _ _ ((List.pairwise_append.1 h1).2.2 a ha y (by simp)) hy
    · rw [List.mem_singleton.1 ha]; exact hy
  refine List.pairwise_append.2 ⟨h1, List.pairwise_cons.2 ⟨fun b hb => Int.le_of_lt (hB b hb), h2⟩, ?_⟩
  intro a ha b hb
  rcases List.mem_cons.1 hb with rfl | hb
  · exact hAx a ha
  · exact h3 a ha b hb

theorem insOuter_spec (up : Bool) : ∀ (xs S J : List Int), J.length = xs.length → (S.Pairwise fun a b => intOrder up a b ≤ 0) →
    ∃ r, insOuter up S.length xs (S ++ J) = some r ∧ r.Perm (S ++ xs) ∧ r.Pairwise fun a b => intOrder up a b ≤ 0
  | [], S, J, hJ, hS => by
    cases List.length_eq_zero_iff.1 hJ
    exact ⟨S, by simp [insOuter], by simp, hS⟩
  | x :: xs, S, [], hJ, _ => by simp at hJ
  | x :: xs, S, t :: T, hJ, hS => by
    obtain ⟨A, B, rfl, h1, h2, h3⟩ := insLoop_spec up x S.length S t T rfl
    have hs := insert_sorted up hS h2 h3
    obtain ⟨r, h4, h5, h6⟩ := insOuter_spec up xs (A ++ x :: B) T (by simpa using hJ) hs
    refine ⟨r, ?_, h5.trans ?_, h6⟩
    · unfold insOuter
      rw [h1]
      simp only [Option.bind_some]
      rw [← h4]
      simp [Nat.add_assoc, Nat.add_comm 1]
    · simp only [List.append_assoc, List.cons_append]
      refine List.Perm.append_left A ?_
      exact (List.perm_middle (a := x) (l₁ := B) (l₂ := xs)).symm

theorem insertionSort_spec (up : Bool) (rp xs : List Int) (hr : rp.length = xs.length) (hx : xs ≠ []) :
    ∃ r, insertionSort up rp xs = some r ∧ IsSort (intOrder up) xs r := by
  cases xs with
  | nil => exact absurd rfl hx
  | cons x xs =>
    cases rp with
    | nil => simp at hr
    | cons t rp =>
      obtain ⟨r, h1, h2, h3⟩ := insOuter_spec up (x :: xs) [] (x :: rp) (by simpa using hr) List.Pairwise.nil
      refine ⟨r, ?_, isSort_of_perm (intOrder_zero up) (by simpa using h2) h3⟩
      unfold insertionSort
      simp only [List.getElem?_cons_zero, Option.bind_some, put, List.length_cons, Nat.zero_lt_succ, if_pos, List.set_cons_zero]
      exact h1

/-! ## counting sort -/

/-- The place of a value in the order. -/
def ord (up : Bool) (H : Nat) (x : Int) : Nat := if up then (x + H).toNat else (H - 1 - x).toNat
/-- The value at a place. -/
def val (up : Bool) (H : Nat) (t : Nat) : Int := if up then (t : Int) - H else (H : Int) - 1 - t

theorem step_val (up : Bool) (H t : Nat) : step up (val up H t) = val up H (t+1) := by
  unfold step val; cases up <;> simp <;> omega

def InT (H : Nat) (x : Int) : Prop := -(H : Int) ≤ x ∧ x < H

theorem ord_lt (up : Bool) {H : Nat} {x : Int} (h : InT H x) : ord up H x < 2*H := by
  unfold ord InT at *; cases up <;> simp <;> omega

theorem val_ord (up : Bool) {H : Nat} {x : Int} (h : InT H x) : val up H (ord up H x) = x := by
  unfold ord val InT at *; cases up <;> simp <;> omega

theorem tally_at (C : Nat) (xs : List Int) (j : Nat) (hn : xs.length < 2^32) :
    tally C xs j = cnt (fun (x : Int) => (x + (C/2 : Nat)).toNat) xs j := by
  have : ∀ (xs : List Int) (c : Nat → Nat), c j + xs.length < 2^32 →
      xs.foldl (fun c (x : Int) => upd c (x + (C/2 : Nat)).toNat ((c (x + (C/2 : Nat)).toNat + 1) % 2^32)) c j
        = c j + cnt (fun (x : Int) => (x + (C/2 : Nat)).toNat) xs j := by
    intro xs
    induction xs with
    | nil => intro c _; simp [cnt]
    | cons x xs ih =>
      intro c hc
      rw [List.foldl_cons, cnt_cons]
      simp only [List.length_cons] at hc
      by_cases e : (x + ((C/2 : Nat) : Int)).toNat = j
      · rw [ih _ (by rw [e, upd_same, Nat.mod_eq_of_lt (by omega)]; omega), e, upd_same, Nat.mod_eq_of_lt (by omega)]
        simp; omega
      · rw [ih _ (by rw [upd_other _ _ (Ne.symm e)]; omega), upd_other _ _ (Ne.symm e)]
        rw [if_neg e]; omega
  have := this xs (fun _ => 0) (by simpa using hn)
  simpa [tally] using this

section
variable {up : Bool} {H : Nat} {xs : List Int}

theorem look_val (hx : ∀ x ∈ xs, InT H x) (hn : xs.length < 2^32) {t : Nat} (ht : t < 2*H) :
    look (2*H) (tally (2*H) xs) (val up H t) = some (cnt (ord up H) xs t) := by
  have e : 2*H/2 = H := by omega
  unfold look
  rw [e, if_pos (by unfold val; cases up <;> simp <;> omega), tally_at _ _ _ hn, e]
  congr 1
  unfold cnt
  apply List.countP_congr
  intro x hx'
  have := hx x hx'
  simp only [decide_eq_true_eq]
  unfold InT val ord at *
  cases up <;> simp <;> omega

theorem skip_spec (hx : ∀ x ∈ xs, InT H x) (hn : xs.length < 2^32) (h0 : 0 < xs.length) : ∀ (f t : Nat), 2*H ≤ t + f → t ≤ 2*H →
    below (ord up H) xs t = 0 →
    ∃ t0, t0 < 2*H ∧ skip up (2*H) (tally (2*H) xs) f (val up H t) = some (val up H t0, cnt (ord up H) xs t0) ∧ below (ord up H) xs t0 = 0
  | 0, t, hf, ht, hb => by
    rw [show t = 2*H by omega, below_all _ (fun x hx' => ord_lt up (hx x hx'))] at hb
    omega
  | f+1, t, hf, ht, hb => by
    have ht' : t < 2*H := by
      rcases Nat.lt_or_ge t (2*H) with h | h
      · exact h
      · rw [show t = 2*H by omega, below_all _ (fun x hx' => ord_lt up (hx x hx'))] at hb; omega
    unfold skip
    rw [look_val hx hn ht']
    simp only [Option.bind_some]
    by_cases c : cnt (ord up H) xs t = 0
    · rw [if_pos c, step_val]
      exact skip_spec hx hn h0 f (t+1) (by omega) (by omega) (by rw [below_succ, hb, c])
    · rw [if_neg c]
      exact ⟨t, ht', rfl, hb⟩

/-- `+1` or `-1` -/
def sg (up : Bool) : Int := if up then 1 else -1

theorem step_eq (up : Bool) (j : Int) : step up j = j + sg up := by unfold step sg; cases up <;> simp <;> omega

theorem tot_inc (g : Nat → Nat) (p : Nat) : ∀ m, tot (upd g p (g p + 1)) 0 m = tot g 0 m + if p < m then 1 else 0
  | 0 => by simp [tot]
  | m+1 => by
    rw [tot, tot, tot_inc g p m, Nat.zero_add]
    by_cases c : m = p
    · subst c; rw [upd_same]; simp; omega
    · rw [upd_other _ _ c]
      by_cases d : p < m
      · rw [if_pos d, if_pos (by omega)]; omega
      · rw [if_neg d, if_neg (by omega)]; omega

/-- The state of the scan: the value for entry `i` is at place `t0 + tot g 0 (i+1)`. -/
def Scan (up : Bool) (H : Nat) (xs : List Int) (t0 t : Nat) (g : Nat → Nat) : Prop :=
  ∀ i, i < xs.length → t0 + tot g 0 (i+1) ≤ t ∧ below (ord up H) xs (t0 + tot g 0 (i+1)) ≤ i ∧
    (t0 + tot g 0 (i+1) = t ∨ i < below (ord up H) xs (t0 + tot g 0 (i+1) + 1))

theorem sparse_spec (hx : ∀ x ∈ xs, InT H x) (hn : xs.length < 2^32) (t0 : Nat) : ∀ (f t ij : Nat) (rp : Nat → Int) (g : Nat → Nat),
    2*H ≤ t + f → 1 ≤ f → t < 2*H → ij = below (ord up H) xs (t+1) → (∀ p, rp p = Int.bmod (sg up * g p) (2*H)) → Scan up H xs t0 t g →
    ∃ rp' g' t', sparse up (2*H) xs.length (tally (2*H) xs) f (val up H t) ij rp = some rp' ∧ (∀ p, rp' p = Int.bmod (sg up * g' p) (2*H)) ∧
      Scan up H xs t0 t' g' ∧ below (ord up H) xs (t'+1) = xs.length
  | 0, _, _, _, _, _, h1, _, _, _, _ => by omega
  | f+1, t, ij, rp, g, hf, h1, ht, hij, hrp, hsc => by
    unfold sparse
    by_cases c : ij < xs.length
    · have ht' : t + 1 < 2*H := by
        rcases Nat.lt_or_ge (t+1) (2*H) with h | h
        · exact h
        · have := below_mono (ord up H) xs h
          rw [below_all _ (fun x hx' => ord_lt up (hx x hx'))] at this
          omega
      rw [if_pos c, step_val]
      dsimp only
      rw [look_val hx hn ht']
      simp only [Option.bind_some]
      refine sparse_spec hx hn t0 f (t+1) _ _ (upd g ij (g ij + 1)) (by omega) (by omega) ht' ?_ ?_ ?_
      · rw [hij, ← below_succ]
        exact Nat.mod_eq_of_lt (Nat.lt_of_le_of_lt (below_le _ _ _) hn)
      · intro p
        unfold upd
        by_cases e : p = ij
        · rw [if_pos e, if_pos e, step_eq, hrp, Int.bmod_add_bmod]
          congr 1
          rw [Int.natCast_add, Int.mul_add]; simp
        · rw [if_neg e, if_neg e]; exact hrp p
      · intro i hi
        obtain ⟨s1, s2, s3⟩ := hsc i hi
        rw [tot_inc]
        by_cases d : ij < i + 1
        · rw [if_pos d]
          have e : t0 + tot g 0 (i+1) = t := by
            rcases s3 with s3 | s3
            · exact s3
            · exfalso
              rcases Nat.lt_or_ge (t0 + tot g 0 (i+1)) t with h | h
              · have := below_mono (ord up H) xs (show t0 + tot g 0 (i+1) + 1 ≤ t + 1 by omega)
                omega
              · have : t0 + tot g 0 (i+1) = t := by omega
                rw [this] at s3; omega
          rw [← Nat.add_assoc, e]
          exact ⟨by omega, by omega, .inl rfl⟩
        · rw [if_neg d, Nat.add_zero]
          refine ⟨by omega, s2, .inr ?_⟩
          rcases s3 with s3 | s3
          · rw [s3]; omega
          · exact s3
    · rw [if_neg c]
      refine ⟨rp, g, t, rfl, hrp, hsc, ?_⟩
      have := below_le (ord up H) xs (t+1)
      omega

theorem running_spec (C : Nat) (rp : Nat → Int) (g : Nat → Nat) (s j0 : Int) (hrp : ∀ p, rp p = Int.bmod (s * g p) C) : ∀ (m i : Nat) (js : Int),
    js = Int.bmod (j0 + s * tot g 0 i) C →
    running C rp m i js = (List.range' i m).map fun k => Int.bmod (j0 + s * tot g 0 (k+1)) C
  | 0, _, _, _ => rfl
  | m+1, i, js, h => by
    have e : Int.bmod (rp i + js) C = Int.bmod (j0 + s * tot g 0 (i+1)) C := by
      rw [hrp, h, Int.bmod_add_bmod, Int.add_bmod_bmod, tot, Nat.zero_add, Int.natCast_add, Int.mul_add]
      congr 1; omega
    unfold running
    dsimp only
    rw [e, List.range'_succ, List.map_cons, running_spec C rp g s j0 hrp m (i+1) _ rfl]

theorem bmod_inT {x : Int} (h : InT H x) : Int.bmod x (2*H) = x := by
  unfold InT at h
  apply Int.bmod_eq_of_le <;> omega

theorem val_inT {t : Nat} (h : t < 2*H) : InT H (val up H t) := by
  unfold InT val; cases up <;> simp <;> omega

theorem val_add (t0 k : Nat) : val up H t0 + sg up * k = val up H (t0 + k) := by
  unfold val sg; cases up <;> simp <;> omega

theorem bsort_at (hx : ∀ x ∈ xs, InT H x) {i k : Nat} (hk : k < 2*H) (h1 : below (ord up H) xs k ≤ i) (h2 : i < below (ord up H) xs (k+1)) :
    (bsort (ord up H) (2*H) xs)[i]? = some (val up H k) := by
  rw [below_succ] at h2
  have ht : i - below (ord up H) xs k < cnt (ord up H) xs k := by omega
  have := bsort_get (ord up H) xs hk ht
  rw [show below (ord up H) xs k + (i - below (ord up H) xs k) = i by omega] at this
  rw [this]
  rw [← cnt_filter] at ht
  have hm : (xs.filter fun x => ord up H x = k)[i - below (ord up H) xs k] ∈ xs.filter fun x => ord up H x = k := List.getElem_mem ht
  rw [List.getElem?_eq_getElem ht]
  obtain ⟨m1, m2⟩ := List.mem_filter.1 hm
  simp only [decide_eq_true_eq] at m2
  have := val_ord up (hx _ m1)
  rw [m2] at this
  rw [this]

theorem start_eq (hC : 2*H = 2^8 ∨ 2*H = 2^16) : start up (2*H) = val up H 0 := by
  unfold start val
  cases up
  · simp
  · rcases hC with h | h
    · rw [h, show H = 128 by omega]; decide
    · rw [h, show H = 32768 by omega]; decide

theorem sparse_result (hC : 2*H = 2^8 ∨ 2*H = 2^16) (hx : ∀ x ∈ xs, InT H x) (hn : xs.length < 2^32) (h0 : 0 < xs.length) :
    ((skip up (2*H) (tally (2*H) xs) (2*H) (start up (2*H))).bind fun (j, ij) =>
      (sparse up (2*H) xs.length (tally (2*H) xs) (2*H+1) j ij fun _ => 0).map fun rp => running (2*H) rp xs.length 0 j)
      = some (bsort (ord up H) (2*H) xs) := by
  obtain ⟨t0, k1, k2, k3⟩ := skip_spec (up := up) hx hn h0 (2*H) 0 (by omega) (by omega) (below_zero _ _)
  rw [start_eq hC, k2]
  simp only [Option.bind_some]
  have hz : ∀ m, tot (fun _ => 0) 0 m = 0 := by
    intro m
    induction m with
    | zero => rfl
    | succ m ih => rw [tot, ih]
  obtain ⟨rp, g, t, p1, p2, p3, p4⟩ := sparse_spec (up := up) hx hn t0 (2*H+1) t0 (cnt (ord up H) xs t0) (fun _ => 0) (fun _ => 0) (by omega) (by omega) k1
    (by rw [below_succ, k3, Nat.zero_add]) (fun p => by simp) (fun i hi => by rw [hz]; exact ⟨by omega, by rw [Nat.add_zero, k3]; omega, .inl rfl⟩)
  rw [p1]
  simp only [Option.map_some, Option.some.injEq]
  rw [running_spec (2*H) rp g (sg up) (val up H t0) p2 xs.length 0 _ (by simp [tot, bmod_inT (val_inT k1)])]
  apply List.ext_getElem?
  intro i
  rcases Nat.lt_or_ge i xs.length with hi | hi
  · obtain ⟨s1, s2, s3⟩ := p3 i hi
    have s4 : i < below (ord up H) xs (t0 + tot g 0 (i+1) + 1) := by
      rcases s3 with s3 | s3
      · rw [s3, p4]; exact hi
      · exact s3
    have s5 : t0 + tot g 0 (i+1) < 2*H := by
      rcases Nat.lt_or_ge (t0 + tot g 0 (i+1)) (2*H) with h | h
      · exact h
      · have := below_mono (ord up H) xs h
        rw [below_all _ (fun x hx' => ord_lt up (hx x hx'))] at this
        omega
    rw [bsort_at hx s5 s2 s4, List.getElem?_map, List.getElem?_range' (by omega)]
    simp only [Option.map_some, Nat.zero_add, Nat.one_mul]
    rw [val_add, bmod_inT (val_inT s5)]
  · rw [List.getElem?_eq_none (by simpa using hi), List.getElem?_eq_none (by rw [bsort_length_all _ (fun x hx' => ord_lt up (hx x hx'))]; exact hi)]

theorem branchy_result (hx : ∀ x ∈ xs, InT H x) (hn : xs.length < 2^32) :
    ((if up then List.range (2*H) else (List.range (2*H)).reverse).flatMap fun j =>
      List.replicate (tally (2*H) xs j) (Int.bmod (j - (2*H/2 : Nat)) (2*H))) = bsort (ord up H) (2*H) xs := by
  have e2 : 2*H/2 = H := by omega
  have hl : (if up then List.range (2*H) else (List.range (2*H)).reverse) = (List.range (2*H)).map fun t => (val up H t + H).toNat := by
    cases up
    · simp only [Bool.false_eq_true, if_false]
      rw [List.range_eq_range', List.reverse_range', List.range_eq_range']
      apply List.map_congr_left
      intro t ht
      unfold val
      simp at ht ⊢
      omega
    · simp only [if_true]
      conv => lhs; rw [← List.map_id (List.range (2*H))]
      apply List.map_congr_left
      intro t ht
      unfold val
      simp at ht ⊢
  rw [hl, List.flatMap_map]
  unfold bsort
  simp only [List.flatMap]
  congr 1
  apply List.map_congr_left
  intro t ht
  have ht : t < 2*H := List.mem_range.1 ht
  have hv := val_inT (up := up) ht
  have h1 := look_val (up := up) hx hn ht
  unfold look at h1
  rw [e2, if_pos (by exact hv)] at h1
  injection h1 with h1
  rw [h1, e2]
  have h2 : ((((val up H t + (H : Int)).toNat : Nat) : Int) - (H : Int)) = val up H t := by unfold InT at hv; omega
  rw [h2, bmod_inT hv, ← cnt_filter]
  symm
  rw [List.eq_replicate_iff]
  refine ⟨rfl, ?_⟩
  intro b hb
  obtain ⟨m1, m2⟩ := List.mem_filter.1 hb
  simp only [decide_eq_true_eq] at m2
  rw [← m2, val_ord up (hx _ m1)]

theorem bsort_isSort (hx : ∀ x ∈ xs, InT H x) : IsSort (intOrder up) xs (bsort (ord up H) (2*H) xs) := by
  have hp : (bsort (ord up H) (2*H) xs).Perm xs := bsort_perm _ fun x hx' => ord_lt up (hx x hx')
  refine isSort_of_perm (intOrder_zero up) hp ?_
  have := bsort_pairwise (ord up H) (2*H) (xs := xs) (R := fun _ _ => True) (List.pairwise_of_forall (fun _ _ => trivial))
  refine List.Pairwise.imp_of_mem ?_ this
  intro a b ha hb h
  have ha := hx a (hp.mem_iff.1 ha)
  have hb := hx b (hp.mem_iff.1 hb)
  unfold ord InT intOrder at *
  cases up <;> simp at * <;> omega

end

theorem countingSort_spec (up : Bool) (size : Nat) (hs : size = 1 ∨ size = 2) (xs : List Int) (hx : ∀ x ∈ xs, InT (2^(8*size-1)) x) (hn : xs.length < 2^32)
    (h0 : 0 < xs.length) : ∃ r, countingSort up size xs = some r ∧ IsSort (intOrder up) xs r := by
  have hC : 2^(8*size) = 2*2^(8*size-1) := by rcases hs with rfl | rfl <;> rfl
  refine ⟨bsort (ord up (2^(8*size-1))) (2*2^(8*size-1)) xs, ?_, bsort_isSort hx⟩
  unfold countingSort
  rw [hC]
  dsimp only
  split
  · exact sparse_result (by rcases hs with rfl | rfl <;> decide) hx hn h0
  · exact congrArg some (branchy_result hx hn)

/-! ## booleans -/

theorem firstN_count (b : Nat → Bool) : ∀ n, (firstN b n).count true = Fold.cnt b n
  | 0 => rfl
  | n+1 => by
    rw [firstN_succ_last, List.count_append, firstN_count b n, Fold.cnt]
    cases b n <;> simp

theorem cnt_le_self (b : Nat → Bool) : ∀ n, Fold.cnt b n ≤ n
  | 0 => Nat.le_refl _
  | n+1 => by rw [Fold.cnt]; have := cnt_le_self b n; split <;> omega

/-- The words have `i ≥ n0` (or its negation) at bit `i`. -/
theorem sortBits_bit (up : Bool) (x : Nat → Word) (n : Nat) {i : Nat} (hi : i < n) :
    bitL (sortBits up x n) i = if up then decide (n - Fold.bit_sum x n ≤ i) else decide (i < Fold.bit_sum x n) := by
  have hv : ∀ (u : Bool) (j : Nat), j < 64 → (if u then 0#64 else ~~~0#64 : Word).getLsbD j = !u := by
    intro u j hj
    cases u
    · rw [if_neg (by simp), BitVec.getLsbD_not]; simp [hj]
    · simp
  have key : ∀ n0 : Nat, n0 ≤ n → bitL (List.replicate (n0/64) (if up then 0#64 else ~~~0#64 : Word) ++
      (if n0/64 < (n+63)/64 then ((if up then 0#64 else ~~~0#64 : Word) ^^^ (~~~0#64 <<< (n0 % 64))) :: List.replicate ((n+63)/64 - n0/64 - 1) (~~~(if up then 0#64 else ~~~0#64 : Word)) else [])) i
      = xor (!up) (decide (n0 ≤ i)) := by
    intro n0 hn0
    unfold bitL
    have hm : i % 64 < 64 := Nat.mod_lt _ (by omega)
    rcases Nat.lt_trichotomy (i/64) (n0/64) with h | h | h
    · rw [List.getD_eq_getElem?_getD, List.getElem?_append_left (by simpa using h), List.getElem?_replicate, if_pos h]
      simp only [Option.getD_some]
      rw [hv _ _ hm, decide_eq_false (by omega)]; simp
    · rw [List.getD_eq_getElem?_getD, List.getElem?_append_right (by simp; omega), if_pos (by omega), ← List.getD_eq_getElem?_getD]
      simp only [List.length_replicate, h, Nat.sub_self, List.getD_cons_zero]
      rw [BitVec.getLsbD_xor, hv _ _ hm, BitVec.getLsbD_shiftLeft, BitVec.getLsbD_not]
      have : decide (n0 ≤ i) = !decide (i % 64 < n0 % 64) := by
        rw [Bool.eq_iff_iff]; simp; omega
      rw [this]
      simp [hm, show i % 64 - n0 % 64 < 64 by omega]
    · rw [List.getD_eq_getElem?_getD, List.getElem?_append_right (by simp; omega), if_pos (by omega), ← List.getD_eq_getElem?_getD]
      simp only [List.length_replicate]
      obtain ⟨d, hd⟩ : ∃ d, i/64 - n0/64 = d + 1 := ⟨i/64 - n0/64 - 1, by omega⟩
      rw [hd, List.getD_cons_succ, List.getD_eq_getElem?_getD, List.getElem?_replicate, if_pos (by omega)]
      simp only [Option.getD_some]
      rw [BitVec.getLsbD_not, hv _ _ hm, decide_eq_true (show n0 ≤ i by omega), decide_eq_true hm]
      cases up <;> rfl
  have hs : Fold.bit_sum x n ≤ n := by rw [Fold.bit_sum_eq]; exact cnt_le_self _ _
  unfold sortBits
  cases up
  · have := key (Fold.bit_sum x n) hs
    simp only [Bool.false_eq_true, if_false, Bool.not_false, Bool.true_xor] at this ⊢
    rw [this]
    rw [Bool.eq_iff_iff]; simp
  · have := key (n - Fold.bit_sum x n) (by omega)
    simp only [if_true, Bool.not_true, Bool.false_xor] at this ⊢
    exact this

theorem cnt_le_dec (s : Nat) : ∀ n, Fold.cnt (fun i => decide (i < s)) n = min n s
  | 0 => by simp [Fold.cnt]
  | n+1 => by
    rw [Fold.cnt, cnt_le_dec s n]
    by_cases h : n < s <;> simp [h] <;> omega

theorem cnt_ge_dec (s : Nat) : ∀ n, Fold.cnt (fun i => decide (s ≤ i)) n = n - s
  | 0 => by simp [Fold.cnt]
  | n+1 => by
    rw [Fold.cnt, cnt_ge_dec s n]
    by_cases h : s ≤ n <;> simp [h] <;> omega

theorem bool_perm {r xs : List Bool} (hl : r.length = xs.length) (h : r.count true = xs.count true) : r.Perm xs := by
  have e : ∀ l : List Bool, l.count true + l.count false = l.length := by
    intro l
    induction l with
    | nil => rfl
    | cons b l ih => cases b <;> simp <;> omega
  rw [List.perm_iff_count]
  intro b
  have := e r; have := e xs
  cases b
  · omega
  · exact h

theorem sortBits_spec (up : Bool) (x : Nat → Word) (n : Nat) :
    IsSort (boolOrder up) (listF x n) (listF (fun i => (sortBits up x n).getD i 0#64) n) := by
  have hs : Fold.bit_sum x n ≤ n := by rw [Fold.bit_sum_eq]; exact cnt_le_self _ _
  have hb : listF (fun i => (sortBits up x n).getD i 0#64) n =
      firstN (fun i => if up then decide (n - Fold.bit_sum x n ≤ i) else decide (i < Fold.bit_sum x n)) n :=
    firstN_congr fun i hi => sortBits_bit up x n hi
  rw [hb]
  refine isSort_of_perm (boolOrder_zero up) (bool_perm (by simp) ?_) ?_
  · rw [firstN_count, firstN_count, ← Fold.bit_sum_eq]
    cases up
    · simp only [Bool.false_eq_true, if_false]; rw [cnt_le_dec]; omega
    · simp only [if_true]; rw [cnt_ge_dec]; omega
  · rw [firstN, List.pairwise_map]
    refine List.Pairwise.imp ?_ List.pairwise_lt_range
    intro a b hab
    cases up
    · simp only [Bool.false_eq_true, if_false]
      by_cases h1 : a < Fold.bit_sum x n <;> by_cases h2 : b < Fold.bit_sum x n <;> simp [h1, h2] <;> first | decide | omega
    · simp only [if_true]
      by_cases h1 : n - Fold.bit_sum x n ≤ a <;> by_cases h2 : n - Fold.bit_sum x n ≤ b <;> simp only [h1, h2, decide_true, decide_false] <;> first | decide | omega

end Verif.Sort
