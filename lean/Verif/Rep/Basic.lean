import Verif.Rep.Model
import Verif.Rep.Spec
import Verif.Slash.CompressMain
import Verif.Sum.Props
/-!
# Indices and Replicate: proofs about loops that write elements
-/
namespace Verif.Rep
open Verif.Bits Verif.Fold Verif.Slash

theorem fillRun_spec {β} (v : β) : ∀ (c : Nat) (m : List β) (p : Nat), p + c ≤ m.length →
    ∃ m', fillRun v c m p = some m' ∧ Ext m p (List.replicate c v) m'
  | 0, m, p, h => ⟨m, rfl, Ext.nil (by omega)⟩
  | c + 1, m, p, h => by
    rw [fillRun, wr_some (by omega), Option.bind_some]
    obtain ⟨m', e, hx⟩ := fillRun_spec v c (m.set p v) (p + 1) (by rw [List.length_set]; omega)
    refine ⟨m', e, ?_⟩
    have := Ext.append (wr_ext (m := m) (i := p) (by omega) v) (m2 := m') (vs := List.replicate c v) hx
    exact this

/-- Every value as many times as the number with it. -/
def runs {β} (r : List (Nat × β)) : List β := r.flatMap fun (c, v) => List.replicate c v

theorem runs_length {β} : ∀ (r : List (Nat × β)), (runs r).length = (r.map (·.1)).sum
  | [] => rfl
  | (c, v) :: r => by
    show (List.replicate c v ++ runs r).length = _
    rw [List.length_append, List.length_replicate, runs_length r]
    rfl

theorem repLoop_spec {β} : ∀ (r : List (Nat × β)) (m : List β) (p : Nat), p + (r.map (·.1)).sum ≤ m.length →
    ∃ m', repLoop r m p = some m' ∧ Ext m p (runs r) m'
  | [], m, p, h => ⟨m, rfl, Ext.nil (by simpa using h)⟩
  | (c, v) :: r, m, p, h => by
    rw [List.map_cons, List.sum_cons] at h
    obtain ⟨m1, e1, x1⟩ := fillRun_spec v c m p (by omega)
    obtain ⟨m2, e2, x2⟩ := repLoop_spec r m1 (p + c) (by rw [x1.len]; omega)
    rw [repLoop, e1, Option.bind_some, e2]
    refine ⟨m2, rfl, ?_⟩
    apply Ext.append x1
    rw [List.length_replicate]
    exact x2

theorem repLoop_all {β} (cs : List Nat) (xs : List β) (m : List β) (hl : cs.length ≤ xs.length) (hs : m.length = cs.sum) :
    repLoop (cs.zip xs) m 0 = some (copies cs xs) := by
  have hmap : (cs.zip xs).map (·.1) = cs := by
    rw [List.map_fst_zip hl]
  obtain ⟨m', e, hx⟩ := repLoop_spec (cs.zip xs) m 0 (by rw [hmap]; omega)
  rw [e, hx.all (by rw [runs_length, hmap, hs])]
  rfl

/-! ## Zeros at the end -/

theorem trim_go (xs : List Nat) : ∀ n, trimZeros.go xs n ≤ n ∧ ∀ k, trimZeros.go xs n ≤ k → k < n → xs.getD k 0 = 0
  | 0 => ⟨Nat.le_refl _, fun k h1 h2 => by omega⟩
  | n + 1 => by
    obtain ⟨h1, h2⟩ := trim_go xs n
    rw [trimZeros.go]
    split
    · refine ⟨by omega, fun k hk hk' => ?_⟩
      rcases Nat.lt_or_ge k n with h | h
      · exact h2 k hk h
      · rw [show k = n by omega]
        assumption
    · exact ⟨Nat.le_refl _, fun k h1 h2 => by omega⟩

theorem trimZeros_spec (xs : List Nat) : ∃ z, xs = trimZeros xs ++ List.replicate z 0 := by
  obtain ⟨h1, h2⟩ := trim_go xs xs.length
  refine ⟨xs.length - trimZeros.go xs xs.length, ?_⟩
  unfold trimZeros
  generalize hg : trimZeros.go xs xs.length = g at *
  apply List.ext_getElem?
  intro i
  rcases Nat.lt_or_ge i g with h | h
  · rw [List.getElem?_append_left (by rw [List.length_take]; omega), List.getElem?_take, if_pos h]
  · rw [List.getElem?_append_right (by rw [List.length_take]; omega), List.length_take, List.getElem?_replicate, Nat.min_eq_left h1]
    split
    · rw [List.getElem?_eq_getElem (by omega)]
      have := h2 i h (by omega)
      rw [List.getD_eq_getElem?_getD, List.getElem?_eq_getElem (by omega)] at this
      exact congrArg some this
    · exact List.getElem?_eq_none (by omega)

theorem sum_zeros (z : Nat) : (List.replicate z 0).sum = 0 := by
  induction z with
  | zero => rfl
  | succ z ih => rw [List.replicate_succ, List.sum_cons, ih]

theorem trimZeros_sum (xs : List Nat) : (trimZeros xs).sum = xs.sum := by
  obtain ⟨z, h⟩ := trimZeros_spec xs
  have := congrArg List.sum h
  rw [List.sum_append, sum_zeros] at this
  omega

theorem trimZeros_length (xs : List Nat) : (trimZeros xs).length ≤ xs.length := by
  unfold trimZeros
  rw [List.length_take]
  omega

theorem runs_zeros {β} (z : Nat) (ys : List β) : copies (List.replicate z 0) ys = [] := by
  induction z generalizing ys with
  | zero => simp [copies]
  | succ z ih =>
    cases ys with
    | nil => simp [copies]
    | cons y ys =>
      show List.replicate 0 y ++ copies (List.replicate z 0) ys = []
      rw [ih]
      rfl

theorem copies_append {β} : ∀ (as bs : List Nat) (xs : List β), copies (as ++ bs) xs = copies as xs ++ copies bs (xs.drop as.length)
  | [], bs, xs => by simp [copies]
  | a :: as, bs, [] => by simp [copies]
  | a :: as, bs, x :: xs => by
    show List.replicate a x ++ copies (as ++ bs) xs = (List.replicate a x ++ copies as xs) ++ copies bs (xs.drop as.length)
    rw [copies_append as bs xs, List.append_assoc]

theorem copies_trim {β} (cs : List Nat) (xs : List β) : copies (trimZeros cs) xs = copies cs xs := by
  obtain ⟨z, h⟩ := trimZeros_spec cs
  have : copies cs xs = copies (trimZeros cs ++ List.replicate z 0) xs := by rw [← h]
  rw [this, copies_append, runs_zeros, List.append_nil]

theorem copies_length {β} (cs : List Nat) (xs : List β) (hl : cs.length ≤ xs.length) : (copies cs xs).length = cs.sum := by
  have : copies cs xs = runs (cs.zip xs) := rfl
  rw [this, runs_length, List.map_fst_zip hl]

/-! ## Indices -/

theorem copies_map {β γ} (f : β → γ) : ∀ (cs : List Nat) (xs : List β), copies cs (xs.map f) = (copies cs xs).map f
  | [], xs => by simp [copies]
  | c :: cs, [] => by simp [copies]
  | c :: cs, x :: xs => by
    show List.replicate c (f x) ++ copies cs (xs.map f) = (List.replicate c x ++ copies cs xs).map f
    rw [List.map_append, copies_map f cs xs, List.map_replicate]

theorem indices_eq (cs : List Nat) : indices cs = copies cs (List.range cs.length) := by
  have key : ∀ (cs : List Nat) (g : Nat → Nat), ((List.range cs.length).flatMap fun i => List.replicate (cs.getD i 0) (g i)) = copies cs ((List.range cs.length).map g) := by
    intro cs
    induction cs with
    | nil => intro g; rfl
    | cons c cs ih =>
      intro g
      rw [List.length_cons, List.range_succ_eq_map, List.flatMap_cons, List.map_cons, List.flatMap_map, List.map_map]
      show _ = List.replicate c (g 0) ++ copies cs _
      have := ih fun i => g (i + 1)
      rw [show (List.replicate ((c :: cs).getD 0 0) (g 0)) = List.replicate c (g 0) from rfl]
      congr 1
  have := key cs id
  rw [List.map_id] at this
  exact this

theorem copies_take {β} (cs : List Nat) (xs : List β) : copies cs (xs.take cs.length) = copies cs xs := by
  induction cs generalizing xs with
  | nil => simp [copies]
  | cons c cs ih =>
    cases xs with
    | nil => simp [copies]
    | cons x xs =>
      show List.replicate c x ++ copies cs (xs.take cs.length) = List.replicate c x ++ copies cs xs
      rw [ih]

theorem indices_trim (cs : List Nat) : indices (trimZeros cs) = indices cs := by
  rw [indices_eq, indices_eq, ← copies_trim cs]
  have h := trimZeros_length cs
  have : List.range (trimZeros cs).length = (List.range cs.length).take (trimZeros cs).length := by
    rw [List.take_range, Nat.min_eq_left h]
  rw [this, copies_take]

theorem mem_copies {β} {v : β} {cs : List Nat} {xs : List β} (h : v ∈ copies cs xs) : v ∈ xs := by
  unfold copies at h
  obtain ⟨⟨c, x⟩, h1, h2⟩ := List.mem_flatMap.1 h
  rw [(List.mem_replicate.1 h2).2]
  exact (List.of_mem_zip h1).2

theorem indices_lt {v : Nat} {cs : List Nat} (h : v ∈ indices cs) : v < cs.length := by
  rw [indices_eq] at h
  exact List.mem_range.1 (mem_copies h)

theorem indLoop_spec {β} (f : Nat → β) (cs : List Nat) (s : Nat) (junk : Nat → β) (hs : s = cs.sum) :
    indLoop f cs s junk = some ((indices cs).map f) := by
  unfold indLoop
  rw [repLoop_all _ _ _ (by simp) (by rw [length_fresh, hs]), copies_map, indices_eq]

theorem toInt_map (w : Nat) (vs : List Nat) (h0 : 0 < w) (h : ∀ v ∈ vs, v < 2^(w - 1)) :
    (vs.map (BitVec.ofNat w)).map (·.toInt) = vs.map Int.ofNat := by
  rw [List.map_map]
  apply List.map_congr_left
  intro v hv
  have h1 := h v hv
  have h2 : 2^w = 2 * 2^(w - 1) := by
    obtain ⟨k, rfl⟩ : ∃ k, w = k + 1 := ⟨w - 1, by omega⟩
    rw [Nat.pow_succ, Nat.add_sub_cancel]
    omega
  show (BitVec.ofNat w v).toInt = Int.ofNat v
  rw [BitVec.toInt_eq_toNat_cond, BitVec.toNat_ofNat, Nat.mod_eq_of_lt (by omega), if_pos (by omega)]
  rfl

end Verif.Rep
