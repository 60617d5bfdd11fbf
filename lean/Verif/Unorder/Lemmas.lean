import Verif.Reorder.Props
import Verif.Unorder.Model
/-!
# Lemmas about the inverse of Reorder Axes
-/
namespace Verif.Unorder
open Verif.Rep Verif.Reorder Verif.Rotate

theorem distinct_nodup : ∀ {ws : List Nat}, ws.Nodup → distinct ws = ws
  | [], _ => rfl
  | a :: ws, h => by
    rw [List.nodup_cons] at h
    rw [distinct, if_neg (fun h2 => h.1 (List.contains_iff_mem.1 h2)), distinct_nodup h.2]

/-- The axes of `𝕨` are there, and different. -/
structure Perm (ws : List Nat) (r : Nat) : Prop where
  nodup : ws.Nodup
  len : ws.length ≤ r
  lt : ∀ w ∈ ws, w < r

theorem Perm.rank {ws : List Nat} {r : Nat} (h : Perm ws r) : newRank ws r = r := by
  have := h.len
  rw [newRank, distinct_nodup h.nodup]
  omega

theorem Perm.fits {ws : List Nat} {r : Nat} (h : Perm ws r) : Fits ws r := ⟨h.len, by rw [h.rank]; exact h.lt⟩

theorem Perm.target {ws : List Nat} {r : Nat} (h : Perm ws r) : target ws r = ws ++ free r ws := by
  have := (target_eq h.fits).1
  rwa [h.rank] at this

theorem Perm.free_len {ws : List Nat} {r : Nat} (h : Perm ws r) : (free r ws).length = r - ws.length := by
  have := free_length h.lt
  rw [distinct_nodup h.nodup] at this
  omega

theorem Perm.nodupT {ws : List Nat} {r : Nat} (h : Perm ws r) : (Reorder.target ws r).Nodup := by
  rw [h.target, List.nodup_append]
  exact ⟨h.nodup, nodup_free _ _, fun a ha b hb e => (mem_free.1 hb).2 (e ▸ ha)⟩

theorem Perm.lenT {ws : List Nat} {r : Nat} (h : Perm ws r) : (Reorder.target ws r).length = r := target_length h.fits

theorem Perm.memT {ws : List Nat} {r j : Nat} (h : Perm ws r) : j ∈ Reorder.target ws r ↔ j < r := by
  refine ⟨fun hj => ?_, fun hj => mem_target h.fits (by rw [h.rank]; exact hj)⟩
  have := target_lt h.fits j hj
  rwa [h.rank] at this

/-- Where the axis `i` of the result comes from. -/
def from_ (ws : List Nat) (r i : Nat) : Nat := (target ws r).idxOf i

theorem from_lt {ws : List Nat} {r i : Nat} (h : Perm ws r) (hi : i < r) : from_ ws r i < r := by
  have := List.idxOf_lt_length_of_mem (h.memT.2 hi)
  rwa [h.lenT] at this

theorem from_mem {ws : List Nat} {r i : Nat} (h : Perm ws r) (hi : i ∈ ws) : from_ ws r i = ws.idxOf i := by
  rw [from_, h.target, List.idxOf_append, if_pos hi]

theorem free_split {ws : List Nat} {r i : Nat} (hi : i < r) (hn : i ∉ ws) : ∃ B, free r ws = free i ws ++ i :: B := by
  obtain ⟨m, rfl⟩ : ∃ m, r = i + (m + 1) := ⟨r - i - 1, by omega⟩
  refine ⟨(List.range' (i + 1) m).filter fun j => !ws.contains j, ?_⟩
  rw [free, List.range_eq_range', ← List.range'_append_1, List.filter_append, free, List.range_eq_range', Nat.zero_add, List.range'_succ, List.filter_cons_of_pos]
  simpa using hn

theorem from_free {ws : List Nat} {r i : Nat} (h : Perm ws r) (hi : i < r) (hn : i ∉ ws) : from_ ws r i = ws.length + (free i ws).length := by
  obtain ⟨B, e⟩ := free_split hi hn
  have h1 : i ∉ free i ws := fun h2 => Nat.lt_irrefl _ (mem_free.1 h2).1
  rw [from_, h.target, List.idxOf_append, if_neg hn, e, List.idxOf_append, if_neg h1, List.idxOf_cons_self]
  omega

theorem from_high {ws : List Nat} {r i : Nat} (h : Perm ws r) (hi : i < r) (hh : ∀ w ∈ ws, w < i) : from_ ws r i = i := by
  rw [from_free h hi fun h2 => Nat.lt_irrefl _ (hh i h2)]
  have := free_length hh
  rw [distinct_nodup h.nodup] at this
  omega

theorem from_target {ws : List Nat} {r k : Nat} (h : Perm ws r) (hk : k < r) : from_ ws r ((target ws r)[k]'(by rw [h.lenT]; exact hk)) = k :=
  h.nodupT.idxOf_getElem k _

theorem target_from {ws : List Nat} {r i : Nat} (h : Perm ws r) (hi : i < r) : (target ws r)[from_ ws r i]'(by rw [h.lenT]; exact from_lt h hi) = i :=
  List.getElem_idxOf _

/-- All of the inverse permutation. -/
def backAxes (ws : List Nat) (r : Nat) : List Nat := (List.range r).map (from_ ws r)

theorem back_length (ws : List Nat) (r : Nat) : (backAxes ws r).length = r := by simp [backAxes]

theorem back_nodup {ws : List Nat} {r : Nat} (h : Perm ws r) : (backAxes ws r).Nodup := by
  rw [backAxes, List.Nodup, List.pairwise_map]
  refine (List.nodup_range (n := r)).imp_of_mem fun {a b} ha hb hab e => hab ?_
  have h1 := target_from h (List.mem_range.1 ha)
  have h2 := target_from h (List.mem_range.1 hb)
  rw [← h1, ← h2]
  congr 1

theorem back_lt {ws : List Nat} {r : Nat} (h : Perm ws r) : ∀ a ∈ backAxes ws r, a < r := by
  intro a ha
  obtain ⟨i, hi, rfl⟩ := List.mem_map.1 ha
  exact from_lt h (List.mem_range.1 hi)

theorem back_mem {ws : List Nat} {r a : Nat} (h : Perm ws r) (ha : a < r) : a ∈ backAxes ws r := by
  refine List.mem_map.2 ⟨(target ws r)[a]'(by rw [h.lenT]; exact ha), List.mem_range.2 (h.memT.1 (List.getElem_mem _)), from_target h ha⟩

/-- A start of the inverse after which the rest is in order stands for all of it. -/
theorem start_target {ws : List Nat} {r n : Nat} (h : Perm ws r) (hn : n ≤ r) (hs : ((backAxes ws r).drop n).Pairwise (· < ·)) :
    Perm ((backAxes ws r).take n) r ∧ target ((backAxes ws r).take n) r = backAxes ws r := by
  have hl := back_length ws r
  have hnd := back_nodup h
  have hp : Perm ((backAxes ws r).take n) r := by
    refine ⟨hnd.sublist (List.take_sublist _ _), by rw [List.length_take]; omega, fun w hw => back_lt h w (List.mem_of_mem_take hw)⟩
  refine ⟨hp, ?_⟩
  rw [hp.target]
  have hsplit := List.take_append_drop n (backAxes ws r)
  have e : free r ((backAxes ws r).take n) = (backAxes ws r).drop n := by
    have h1 : (free r ((backAxes ws r).take n)).Perm ((backAxes ws r).drop n) := by
      refine (List.perm_ext_iff_of_nodup (nodup_free _ _) (hnd.sublist (List.drop_sublist _ _))).2 fun {a} => ?_
      rw [mem_free]
      rw [← hsplit, List.nodup_append] at hnd
      refine ⟨fun ⟨h2, h3⟩ => ?_, fun h2 => ⟨back_lt h a (List.mem_of_mem_drop h2), fun h3 => hnd.2.2 a h3 a h2 rfl⟩⟩
      have := back_mem h h2
      rw [← hsplit, List.mem_append] at this
      exact this.resolve_left h3
    refine h1.eq_of_pairwise (le := (· < ·)) (fun a b _ _ h2 h3 => (Nat.lt_asymm h2 h3).elim) ?_ hs
    exact List.Pairwise.filter _ List.pairwise_lt_range
  rw [e, hsplit]

/-! ## The loops -/

theorem place_spec {xr : Nat} : ∀ (ws done p : List Nat) (max : Nat), p.length = xr → done.length + ws.length ≤ xr → (∀ w ∈ done, w < xr) → done.Nodup →
    (∀ a, a < xr → p[a]? = some (if a ∈ done then done.idxOf a else xr)) → (∀ w ∈ done, w ≤ max) → (done ≠ [] → max ∈ done) → (done = [] → max = 0) →
    match place xr done.length ws p max with
    | none => False
    | some .err => ∃ w ∈ ws, xr ≤ w
    | some .dup => ¬ (done ++ ws).Nodup
    | some (.ok (q, m)) => (done ++ ws).Nodup ∧ (∀ w ∈ done ++ ws, w < xr) ∧ (∀ a, a < xr → q[a]? = some (if a ∈ done ++ ws then (done ++ ws).idxOf a else xr)) ∧
        (∀ w ∈ done ++ ws, w ≤ m) ∧ (done ++ ws ≠ [] → m ∈ done ++ ws)
  | [], done, p, max, _, _, hd, hn, hp, hm, hm2, _ => by
    rw [place, List.append_nil]
    exact ⟨hn, hd, hp, hm, hm2⟩
  | a :: ws, done, p, max, hpl, hle, hd, hn, hp, hm, hm2, hm0 => by
    rw [place]
    by_cases ha : xr ≤ a
    · rw [if_pos ha]
      exact ⟨a, List.mem_cons_self, ha⟩
    rw [if_neg ha, hp a (by omega), Option.bind_some]
    by_cases had : a ∈ done
    · have h1 := List.idxOf_lt_length_of_mem had
      rw [if_pos had, if_pos (by omega)]
      show ¬ (done ++ a :: ws).Nodup
      intro h2
      exact (List.nodup_append.1 h2).2.2 a had a List.mem_cons_self rfl
    rw [if_neg had, if_neg (by simp)]
    have ih := place_spec (xr := xr) ws (done ++ [a]) (p.set a done.length) (if a > max then a else max) (by rw [List.length_set]; exact hpl) (by simp at hle ⊢; omega)
      (by
        intro w hw
        rcases List.mem_append.1 hw with h | h
        · exact hd w h
        · rw [List.mem_singleton.1 h]; omega)
      (by
        rw [List.nodup_append]
        refine ⟨hn, by simp, fun x hx y hy e => ?_⟩
        rw [List.mem_singleton] at hy
        subst hy; subst e
        exact had hx)
      (by
        intro b hb
        by_cases hab : a = b
        · subst hab
          rw [List.getElem?_set_self (by omega), if_pos (by simp), List.idxOf_append, if_neg had, List.idxOf_cons_self]
          simp
        · rw [List.getElem?_set_ne hab, hp b hb]
          by_cases hbd : b ∈ done
          · rw [if_pos hbd, if_pos (List.mem_append.2 (.inl hbd)), List.idxOf_append, if_pos hbd]
          · rw [if_neg hbd, if_neg]
            intro h
            rcases List.mem_append.1 h with h | h
            · exact hbd h
            · exact hab (List.mem_singleton.1 h).symm)
      (by
        intro w hw
        rcases List.mem_append.1 hw with h | h
        · have := hm w h
          split <;> omega
        · rw [List.mem_singleton.1 h]
          split <;> omega)
      (by
        intro _
        by_cases h : a > max
        · rw [if_pos h]; simp
        · rw [if_neg h]
          by_cases hde : done = []
          · have := hm0 hde
            rw [this] at h ⊢
            rw [show a = 0 by omega]
            simp
          · exact List.mem_append.2 (.inl (hm2 hde)))
      (by simp)
    rw [List.length_append, List.length_singleton] at ih
    rw [List.append_assoc, List.singleton_append] at ih
    cases e : place xr (done.length + 1) ws (p.set a done.length) (if a > max then a else max) with
    | none => rw [e] at ih; exact ih
    | some v =>
      rw [e] at ih
      cases v with
      | err =>
        obtain ⟨w, h1, h2⟩ := ih
        exact ⟨w, List.mem_cons_of_mem _ h1, h2⟩
      | dup => exact ih
      | ok q => exact ih

theorem number_spec {xr : Nat} {ws p : List Nat} (h : Perm ws xr) (hp : ∀ a, a < xr → p[a]? = some (if a ∈ ws then ws.idxOf a else xr)) : ∀ (k i j : Nat), i + k ≤ xr → j = ws.length + (free i ws).length →
    number xr p k i j = some ((List.range' i k).map (from_ ws xr))
  | 0, _, _, _, _ => rfl
  | k + 1, i, j, hle, hj => by
    rw [number, hp i (by omega), Option.bind_some, List.range'_succ, List.map_cons]
    by_cases hi : i ∈ ws
    · have h1 := List.idxOf_lt_length_of_mem hi
      have h2 := h.len
      rw [if_pos hi, if_pos (by omega), number_spec h hp k (i + 1) j (by omega), from_mem h hi]
      · rfl
      · rw [hj, free, free, List.range_succ, List.filter_append, List.filter_cons_of_neg (by simpa using hi)]
        simp
    · rw [if_neg hi, if_neg (by omega), number_spec h hp k (i + 1) (j + 1) (by omega), from_free h (by omega) hi, hj]
      · rfl
      · rw [hj, free, free, List.range_succ, List.filter_append, List.filter_cons_of_pos (by simpa using hi)]
        simp
        omega

end Verif.Unorder
