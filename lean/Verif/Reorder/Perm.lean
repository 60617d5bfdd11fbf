import Verif.Reorder.Simplify
/-!
# Reorder Axes: the axes of the result
-/
namespace Verif.Reorder
open Verif.Bits Verif.Slash Verif.Rep Verif.Select Verif.Under Verif.Rotate

/-! ## Different numbers -/

theorem mem_distinct {a : Nat} : ∀ {ws : List Nat}, a ∈ distinct ws ↔ a ∈ ws
  | [] => Iff.rfl
  | b :: ws => by
    rw [distinct]
    by_cases h : ws.contains b = true
    · rw [if_pos h, mem_distinct, List.mem_cons]
      refine ⟨Or.inr, fun h2 => h2.elim (fun e => ?_) id⟩
      rw [e]
      exact List.contains_iff_mem.1 h
    · rw [if_neg h, List.mem_cons, List.mem_cons, mem_distinct]

theorem nodup_distinct : ∀ (ws : List Nat), (distinct ws).Nodup
  | [] => List.nodup_nil
  | b :: ws => by
    rw [distinct]
    by_cases h : ws.contains b = true
    · rw [if_pos h]; exact nodup_distinct ws
    · rw [if_neg h]
      exact List.nodup_cons.2 ⟨fun h2 => h (List.contains_iff_mem.2 (mem_distinct.1 h2)), nodup_distinct ws⟩

theorem nodup_length_eq {A B : List Nat} (hA : A.Nodup) (hB : B.Nodup) (h : ∀ a, a ∈ A ↔ a ∈ B) : A.length = B.length :=
  ((List.perm_ext_iff_of_nodup hA hB).2 fun {a} => h a).length_eq

theorem distinct_congr {A B : List Nat} (h : ∀ a, a ∈ A ↔ a ∈ B) : (distinct A).length = (distinct B).length :=
  nodup_length_eq (nodup_distinct A) (nodup_distinct B) fun a => by rw [mem_distinct, mem_distinct]; exact h a

theorem distinct_snoc (A : List Nat) (a : Nat) : (distinct (A ++ [a])).length = (distinct A).length + if a ∈ A then 0 else 1 := by
  by_cases h : a ∈ A
  · rw [if_pos h]
    exact distinct_congr fun b => by
      rw [List.mem_append, List.mem_singleton]
      exact ⟨fun h2 => h2.elim id fun e => e ▸ h, Or.inl⟩
  · rw [if_neg h, distinct_congr (B := a :: A) fun b => by rw [List.mem_append, List.mem_singleton, List.mem_cons, Or.comm], distinct,
      if_neg (fun h2 => h (List.contains_iff_mem.1 h2)), List.length_cons]

/-- The numbers below `n` that aren't in `ws`. -/
def free (n : Nat) (ws : List Nat) : List Nat := (List.range n).filter fun j => !ws.contains j

theorem mem_free {n j : Nat} {ws : List Nat} : j ∈ free n ws ↔ j < n ∧ j ∉ ws := by
  rw [free, List.mem_filter, List.mem_range]
  simp

theorem nodup_free (n : Nat) (ws : List Nat) : (free n ws).Nodup := List.Pairwise.filter _ List.nodup_range

theorem free_length {n : Nat} {ws : List Nat} (h : ∀ w ∈ ws, w < n) : (free n ws).length + (distinct ws).length = n := by
  have h1 : (free n ws ++ distinct ws).Nodup := by
    rw [List.nodup_append]
    refine ⟨nodup_free n ws, nodup_distinct ws, fun a ha b hb e => ?_⟩
    subst e
    exact (mem_free.1 ha).2 (mem_distinct.1 hb)
  have h2 := nodup_length_eq h1 (List.nodup_range (n := n)) fun a => by
    rw [List.mem_append, mem_free, mem_distinct, List.mem_range]
    refine ⟨fun h2 => h2.elim (fun h3 => h3.1) (h a), fun h2 => ?_⟩
    by_cases ha : a ∈ ws
    · exact Or.inr ha
    · exact Or.inl ⟨h2, ha⟩
  rw [List.length_append, List.length_range] at h2
  exact h2

theorem free_add {n : Nat} {ws : List Nat} (h : ∀ w ∈ ws, w < n) (k : Nat) : free (n + k) ws = free n ws ++ List.range' n k := by
  rw [free, List.range_add, List.filter_append, free]
  congr 1
  rw [List.range'_eq_map_range]
  apply List.filter_eq_self.2
  intro a ha
  obtain ⟨b, _, e⟩ := List.mem_map.1 ha
  rw [Bool.not_eq_true', ← Bool.not_eq_true]
  intro h2
  have := h a (List.contains_iff_mem.1 h2)
  omega

theorem distinct_le (ws : List Nat) : (distinct ws).length ≤ ws.length := by
  induction ws with
  | nil => exact Nat.le_refl _
  | cons a ws ih =>
    rw [distinct]
    split
    · rw [List.length_cons]; omega
    · rw [List.length_cons, List.length_cons]; omega

/-! ## Lengths -/

theorem axisLen_spec (j : Nat) : ∀ (A : List (Nat × Nat)),
    (∀ l, axisLen j A = some l → (j, l) ∈ A ∧ ∀ l', (j, l') ∈ A → l ≤ l') ∧ (axisLen j A = none → ∀ l, (j, l) ∉ A)
  | [] => ⟨fun l h => (by cases h), fun _ l h => (by cases h)⟩
  | (t, s) :: A => by
    obtain ⟨h1, h2⟩ := axisLen_spec j A
    rw [axisLen]
    by_cases ht : t = j
    · rw [if_pos ht]
      subst ht
      refine ⟨fun l h => ?_, fun h => by cases h⟩
      cases ha : axisLen t A with
      | none =>
        rw [ha] at h
        cases h
        refine ⟨List.mem_cons_self, fun l' hl => ?_⟩
        rcases List.mem_cons.1 hl with hl | hl
        · cases hl; exact Nat.le_refl _
        · exact (h2 ha l' hl).elim
      | some l0 =>
        rw [ha] at h
        cases h
        obtain ⟨h3, h4⟩ := h1 l0 ha
        show (t, min s l0) ∈ (t, s) :: A ∧ ∀ l', (t, l') ∈ (t, s) :: A → min s l0 ≤ l'
        refine ⟨?_, fun l' hl => ?_⟩
        · rcases Nat.le_total s l0 with hle | hle
          · rw [Nat.min_eq_left hle]; exact List.mem_cons_self
          · rw [Nat.min_eq_right hle]; exact List.mem_cons_of_mem _ h3
        · rcases List.mem_cons.1 hl with hl | hl
          · cases hl; exact Nat.min_le_left _ _
          · exact Nat.le_trans (Nat.min_le_right _ _) (h4 l' hl)
    · rw [if_neg ht]
      refine ⟨fun l h => ?_, fun h l hl => ?_⟩
      · obtain ⟨h3, h4⟩ := h1 l h
        refine ⟨List.mem_cons_of_mem _ h3, fun l' hl => ?_⟩
        rcases List.mem_cons.1 hl with hl | hl
        · cases hl; exact (ht rfl).elim
        · exact h4 l' hl
      · rcases List.mem_cons.1 hl with hl | hl
        · cases hl; exact ht rfl
        · exact h2 h l hl

theorem axisLen_eq {j l : Nat} {A : List (Nat × Nat)} (h : (j, l) ∈ A) (hm : ∀ l', (j, l') ∈ A → l ≤ l') : axisLen j A = some l := by
  cases e : axisLen j A with
  | none => exact ((axisLen_spec j A).2 e l h).elim
  | some l0 =>
    obtain ⟨h1, h2⟩ := (axisLen_spec j A).1 l0 e
    exact congrArg some (Nat.le_antisymm (h2 l h) (hm l0 h1))

theorem axisLen_none {j : Nat} {A : List (Nat × Nat)} (h : ∀ l, (j, l) ∉ A) : axisLen j A = none := by
  cases e : axisLen j A with
  | none => rfl
  | some l0 => exact (h l0 ((axisLen_spec j A).1 l0 e).1).elim

theorem axisLen_append_left {j : Nat} {A B : List (Nat × Nat)} (h : ∀ l, (j, l) ∉ B) : axisLen j (A ++ B) = axisLen j A := by
  cases e : axisLen j A with
  | none => exact axisLen_none fun l hl => (List.mem_append.1 hl).elim ((axisLen_spec j A).2 e l) (h l)
  | some l0 =>
    obtain ⟨h1, h2⟩ := (axisLen_spec j A).1 l0 e
    exact axisLen_eq (List.mem_append_left _ h1) fun l' hl => h2 l' ((List.mem_append.1 hl).resolve_right (h l'))

theorem axisLen_append_right {j : Nat} {A B : List (Nat × Nat)} (h : ∀ l, (j, l) ∉ A) : axisLen j (A ++ B) = axisLen j B := by
  cases e : axisLen j B with
  | none => exact axisLen_none fun l hl => (List.mem_append.1 hl).elim (h l) ((axisLen_spec j B).2 e l)
  | some l0 =>
    obtain ⟨h1, h2⟩ := (axisLen_spec j B).1 l0 e
    exact axisLen_eq (List.mem_append_right _ h1) fun l' hl => h2 l' ((List.mem_append.1 hl).resolve_left (h l'))

theorem axisLen_snoc_same (j l : Nat) (A : List (Nat × Nat)) : axisLen j (A ++ [(j, l)]) = some (match axisLen j A with | some l0 => min l0 l | none => l) := by
  cases e : axisLen j A with
  | none =>
    rw [axisLen_append_right ((axisLen_spec j A).2 e), axisLen, if_pos rfl]
    rfl
  | some l0 =>
    obtain ⟨h1, h2⟩ := (axisLen_spec j A).1 l0 e
    show _ = some (min l0 l)
    refine axisLen_eq ?_ fun l' hl => ?_
    · rcases Nat.le_total l0 l with hle | hle
      · rw [Nat.min_eq_left hle]; exact List.mem_append_left _ h1
      · rw [Nat.min_eq_right hle]; exact List.mem_append_right _ (List.mem_singleton.2 rfl)
    · rcases List.mem_append.1 hl with hl | hl
      · exact Nat.le_trans (Nat.min_le_left _ _) (h2 l' hl)
      · cases List.mem_singleton.1 hl
        exact Nat.min_le_right _ _

theorem mem_fst {j : Nat} {A : List (Nat × Nat)} : j ∈ A.map Prod.fst ↔ ∃ l, (j, l) ∈ A := by
  rw [List.mem_map]
  exact ⟨fun ⟨a, ha, e⟩ => ⟨a.2, by rw [← e]; exact ha⟩, fun ⟨l, hl⟩ => ⟨(j, l), hl, rfl⟩⟩

/-! ## The first loop -/

structure ScanInv (xr : Nat) (pre : List (Nat × Nat)) (s : Perm) : Prop where
  len : s.rsh.length = xr
  rsh : ∀ j, j < xr → s.rsh[j]? = some ((axisLen j pre).getD noSh)
  dup : s.dup + (distinct (pre.map Prod.fst)).length = pre.length
  max : ∀ j ∈ pre.map Prod.fst, j ≤ s.max
  maxIn : s.max = 0 ∨ s.max ∈ pre.map Prod.fst
  idLe : s.id ≤ pre.length
  id : s.id = pre.length ↔ pre.map Prod.fst = List.range pre.length

theorem scan_spec {xr : Nat} : ∀ (ws xsh : List Nat) (pre : List (Nat × Nat)) (s : Perm), ws.length ≤ xsh.length → (∀ w ∈ ws, w < xr) → (∀ l ∈ xsh, l < noSh) →
    (∀ a ∈ pre, a.2 < noSh) → ScanInv xr pre s → ∃ s', scan pre.length ws xsh s = some s' ∧ ScanInv xr (pre ++ ws.zip xsh) s'
  | [], xsh, pre, s, _, _, _, _, h => ⟨s, by rw [scan], by rw [List.zip_nil_left, List.append_nil]; exact h⟩
  | w :: ws, [], pre, s, hl, _, _, _, h => by simp at hl
  | w :: ws, l :: xsh, pre, s, hl, hw, hn, hpn, h => by
    have hwx := hw w List.mem_cons_self
    have hln := hn l List.mem_cons_self
    rw [scan, h.rsh w hwx, Option.bind_some]
    have hold : (axisLen w pre).getD noSh ≠ noSh ↔ w ∈ pre.map Prod.fst := by
      cases e : axisLen w pre with
      | none =>
        rw [mem_fst]
        exact ⟨fun h2 => (h2 rfl).elim, fun ⟨l, hl⟩ => ((axisLen_spec w pre).2 e l hl).elim⟩
      | some l0 =>
        have h1 := ((axisLen_spec w pre).1 l0 e).1
        have h2 : l0 < noSh := hpn _ h1
        exact ⟨fun _ => mem_fst.2 ⟨l0, h1⟩, fun _ => show l0 ≠ noSh by omega⟩
    have hnew : ScanInv xr (pre ++ [(w, l)])
        { rsh := if l < (axisLen w pre).getD noSh then s.rsh.set w l else s.rsh
          dup := s.dup + if (axisLen w pre).getD noSh ≠ noSh then 1 else 0
          max := if w > s.max then w else s.max
          id := s.id + if pre.length = w then 1 else 0 } := by
      refine ⟨?_, fun j hj => ?_, ?_, fun j hj => ?_, ?_, ?_, ?_⟩
      · dsimp only
        split
        · rw [List.length_set]; exact h.len
        · exact h.len
      · dsimp only
        by_cases hjw : j = w
        · subst hjw
          rw [axisLen_snoc_same, Option.getD_some]
          cases e : axisLen j pre with
          | none =>
            rw [Option.getD_none, if_pos hln, List.getElem?_set_self (by rw [h.len]; exact hj)]
          | some l0 =>
            rw [Option.getD_some]
            dsimp only
            by_cases hlt : l < l0
            · rw [if_pos hlt, List.getElem?_set_self (by rw [h.len]; exact hj), Nat.min_eq_right (by omega)]
            · rw [if_neg hlt, h.rsh j hj, e, Option.getD_some, Nat.min_eq_left (by omega)]
        · rw [axisLen_append_left (fun l' hl' => hjw (by cases List.mem_singleton.1 hl'; rfl)), ← h.rsh j hj]
          split
          · rw [List.getElem?_set_ne (fun e => hjw e.symm)]
          · rfl
      · rw [List.map_append, List.map_cons, List.map_nil, distinct_snoc, List.length_append, List.length_singleton]
        have := h.dup
        dsimp only
        by_cases hm : w ∈ pre.map Prod.fst
        · rw [if_pos hm, if_pos (hold.2 hm)]; omega
        · rw [if_neg hm, if_neg (fun h2 => hm (hold.1 h2))]; omega
      · rw [List.map_append, List.mem_append] at hj
        dsimp only
        have hj' : j ≤ s.max ∨ j = w := hj.imp (h.max j) (fun h2 => List.mem_singleton.1 h2)
        split <;> omega
      · rw [List.map_append, List.mem_append]
        dsimp only
        by_cases hgt : w > s.max
        · rw [if_pos hgt]
          exact Or.inr (Or.inr (List.mem_singleton.2 rfl))
        · rw [if_neg hgt]
          exact h.maxIn.imp id Or.inl
      · rw [List.length_append, List.length_singleton]
        have := h.idLe
        dsimp only
        split <;> omega
      · rw [List.length_append, List.length_singleton, List.map_append, List.range_succ]
        have h1 := h.idLe
        have h2 := h.id
        dsimp only
        constructor
        · intro h3
          have hw2 : pre.length = w := by
            by_cases hw2 : pre.length = w
            · exact hw2
            · rw [if_neg hw2] at h3; omega
          rw [if_pos hw2] at h3
          rw [h2.1 (by omega), ← hw2]
          rfl
        · intro h3
          have h4 := List.append_inj h3 (by simp)
          have h5 : w = pre.length := by
            have := h4.2
            simpa using this
          rw [if_pos h5.symm, h2.2 h4.1]
    obtain ⟨s', e, h'⟩ := scan_spec ws xsh (pre ++ [(w, l)]) _ (by simpa using hl) (fun a ha => hw a (List.mem_cons_of_mem _ ha)) (fun a ha => hn a (List.mem_cons_of_mem _ ha))
      (fun a ha => by
        rcases List.mem_append.1 ha with ha | ha
        · exact hpn a ha
        · rw [List.mem_singleton.1 ha]; exact hln) hnew
    refine ⟨s', ?_, by rw [List.zip_cons_cons, List.append_cons]; exact h'⟩
    rw [← e, List.length_append, List.length_singleton]

/-! ## The other axes -/

theorem fillIn_spec (ws : List Nat) {xr : Nat} : ∀ (k j : Nat) (xsh rsh : List Nat), rsh.length = xr → j + k ≤ xr →
    (∀ i, j ≤ i → i < j + k → ∃ l, rsh[i]? = some l ∧ (l = noSh ↔ i ∉ ws)) → ((List.range' j k).filter fun i => !ws.contains i).length ≤ xsh.length →
    ∃ rsh', fillIn j k xsh rsh = some (rsh', (List.range' j k).filter fun i => !ws.contains i) ∧ rsh'.length = xr ∧
      ∀ i, i < xr → rsh'[i]? = some ((axisLen i (((List.range' j k).filter fun i => !ws.contains i).zip xsh)).getD (rsh.getD i 0))
  | 0, j, xsh, rsh, hl, _, _, _ => ⟨rsh, by rw [fillIn]; rfl, hl, fun i hi => by
      show rsh[i]? = some (rsh.getD i 0)
      rw [List.getD_eq_getElem?_getD, List.getElem?_eq_getElem (by omega), Option.getD_some]⟩
  | k + 1, j, xsh, rsh, hl, hjk, h, hx => by
    obtain ⟨l, el, hns⟩ := h j (Nat.le_refl _) (by omega)
    rw [List.range'_succ] at hx ⊢
    rw [fillIn.eq_def]
    dsimp only
    rw [el, Option.bind_some]
    by_cases hw : j ∈ ws
    · have hf : (!ws.contains j) = false := by rw [List.contains_iff_mem.2 hw]; rfl
      rw [List.filter_cons_of_neg (by rw [hf]; simp)] at hx ⊢
      rw [if_neg (fun h2 => hns.1 h2 hw)]
      exact fillIn_spec ws k (j + 1) xsh rsh hl (by omega) (fun i h1 h2 => h i (by omega) (by omega)) hx
    · have hf : (!ws.contains j) = true := by
        rw [Bool.not_eq_true', ← Bool.not_eq_true]
        exact fun h2 => hw (List.contains_iff_mem.1 h2)
      rw [List.filter_cons_of_pos (p := fun i => !ws.contains i) hf] at hx ⊢
      rw [if_pos (hns.2 hw)]
      cases xsh with
      | nil => simp at hx
      | cons xl xsh =>
        dsimp only
        obtain ⟨rsh', e, hl', hr⟩ := fillIn_spec ws (xr := xr) k (j + 1) xsh (rsh.set j xl) (by rw [List.length_set]; exact hl) (by omega) (fun i h1 h2 => by
          rw [List.getElem?_set_ne (by omega)]
          exact h i (by omega) (by omega)) (by simpa using hx)
        refine ⟨rsh', by rw [e]; rfl, hl', fun i hi => ?_⟩
        rw [hr i hi, List.zip_cons_cons, axisLen]
        have hnot : ∀ l, (j, l) ∉ ((List.range' (j + 1) k).filter fun i => !ws.contains i).zip xsh := fun l hm => by
          have h1 := (List.of_mem_zip hm).1
          have h2 := List.mem_range'_1.1 (List.mem_filter.1 h1).1
          omega
        by_cases hij : j = i
        · subst hij
          rw [if_pos rfl, axisLen_none hnot, Option.getD_none, Option.getD_some, List.getD_eq_getElem?_getD, List.getElem?_set_self (by omega), Option.getD_some]
        · rw [if_neg hij, List.getD_eq_getElem?_getD, List.getElem?_set_ne hij, ← List.getD_eq_getElem?_getD]

/-! ## All of the axes -/

theorem target_eq {ws : List Nat} {xr : Nat} (h : Fits ws xr) : target ws xr = ws ++ free (newRank ws xr) ws ∧ (free (newRank ws xr) ws).length = xr - ws.length ∧ newRank ws xr ≤ xr := by
  obtain ⟨hl, hw⟩ := h
  have h1 := free_length hw
  have hle : newRank ws xr ≤ xr := by
    have := distinct_le ws
    unfold newRank
    omega
  have h2 : (free (newRank ws xr) ws).length = xr - ws.length := by
    unfold newRank at h1 ⊢
    omega
  refine ⟨?_, h2, hle⟩
  rw [target]
  congr 1
  have h3 : ((List.range xr).filter fun j => !ws.contains j) = free (newRank ws xr) ws ++ List.range' (newRank ws xr) (xr - newRank ws xr) := by
    rw [← free_add hw, show newRank ws xr + (xr - newRank ws xr) = xr by omega]
    rfl
  rw [h3, List.take_append_of_le_length (by omega), List.take_of_length_le (by omega)]

theorem target_length {ws : List Nat} {xr : Nat} (h : Fits ws xr) : (target ws xr).length = xr := by
  obtain ⟨e, h2, _⟩ := target_eq h
  have := h.1
  rw [e, List.length_append, h2]
  omega

theorem target_lt {ws : List Nat} {xr : Nat} (h : Fits ws xr) : ∀ j ∈ target ws xr, j < newRank ws xr := by
  obtain ⟨e, _, _⟩ := target_eq h
  intro j hj
  rw [e] at hj
  exact (List.mem_append.1 hj).elim (h.2 j) fun h2 => (mem_free.1 h2).1

theorem mem_target {ws : List Nat} {xr : Nat} (h : Fits ws xr) {j : Nat} (hj : j < newRank ws xr) : j ∈ target ws xr := by
  obtain ⟨e, _, _⟩ := target_eq h
  rw [e, List.mem_append]
  by_cases hw : j ∈ ws
  · exact Or.inl hw
  · exact Or.inr (mem_free.2 ⟨hj, hw⟩)

theorem zip_mem_fst {j : Nat} {T xsh : List Nat} (hl : T.length = xsh.length) (h : j ∈ T) : ∃ l, (j, l) ∈ T.zip xsh := by
  obtain ⟨k, hk, e⟩ := List.mem_iff_getElem.1 h
  refine ⟨xsh[k], List.mem_iff_getElem.2 ⟨k, by simp; omega, ?_⟩⟩
  rw [List.getElem_zip, e]

theorem axisLen_target {ws xsh : List Nat} (h : Fits ws xsh.length) {j : Nat} (hj : j < newRank ws xsh.length) :
    ∃ l, axisLen j ((target ws xsh.length).zip xsh) = some l ∧ (j, l) ∈ (target ws xsh.length).zip xsh := by
  cases e : axisLen j ((target ws xsh.length).zip xsh) with
  | none =>
    obtain ⟨l, hl⟩ := zip_mem_fst (target_length h) (mem_target h hj)
    exact ((axisLen_spec _ _).2 e l hl).elim
  | some l => exact ⟨l, rfl, ((axisLen_spec _ _).1 l e).1⟩

theorem zip_take : ∀ (A B : List Nat), A.zip (B.take A.length) = A.zip B
  | [], B => by rw [List.zip_nil_left, List.zip_nil_left]
  | _ :: _, [] => rfl
  | a :: A, b :: B => by
    rw [List.length_cons, List.take_succ_cons, List.zip_cons_cons, List.zip_cons_cons, zip_take A B]

/-- What `scan` and `fillIn` make. -/
theorem shape_spec {ws xsh : List Nat} {s : Perm} (h : Fits ws xsh.length) (hn : ∀ l ∈ xsh, l < noSh) (hs : ScanInv xsh.length (ws.zip xsh) s) :
    xsh.length - s.dup = newRank ws xsh.length ∧ ∃ rsh, (if ws.length < xsh.length then fillIn 0 (xsh.length - s.dup) (xsh.drop ws.length) s.rsh else some (s.rsh, [])) =
      some (rsh, free (newRank ws xsh.length) ws) ∧ rsh.take (newRank ws xsh.length) = newShape ws xsh := by
  obtain ⟨et, hfl, hle⟩ := target_eq h
  have hlen := h.1
  have hfst : (ws.zip xsh).map Prod.fst = ws := List.map_fst_zip hlen
  have hzl : (ws.zip xsh).length = ws.length := by rw [List.length_zip]; omega
  have hdup := hs.dup
  rw [hfst, hzl] at hdup
  have hrr : xsh.length - s.dup = newRank ws xsh.length := by
    unfold newRank
    omega
  have hzip : (target ws xsh.length).zip xsh = ws.zip xsh ++ (free (newRank ws xsh.length) ws).zip (xsh.drop ws.length) := by
    rw [et]
    conv => lhs; rw [← List.take_append_drop ws.length xsh]
    rw [List.zip_append (by rw [List.length_take]; omega)]
    congr 1
    · exact zip_take ws xsh
    · rw [List.take_append_drop]
  have hlast : ∀ rsh : List Nat, rsh.length = xsh.length → (∀ j, j < newRank ws xsh.length → rsh[j]? = some ((axisLen j ((free (newRank ws xsh.length) ws).zip (xsh.drop ws.length))).getD
      ((axisLen j (ws.zip xsh)).getD noSh))) → rsh.take (newRank ws xsh.length) = newShape ws xsh := by
    intro rsh hl hr
    apply List.ext_getElem?
    intro j
    rcases Nat.lt_or_ge j (newRank ws xsh.length) with hj | hj
    · rw [List.getElem?_take, if_pos hj, hr j hj, newShape, List.getElem?_map, List.getElem?_range hj, Option.map_some, hzip]
      by_cases hw : j ∈ ws
      · have hnf : ∀ l, (j, l) ∉ (free (newRank ws xsh.length) ws).zip (xsh.drop ws.length) := fun l hm => (mem_free.1 (List.of_mem_zip hm).1).2 hw
        rw [axisLen_append_left hnf, axisLen_none hnf, Option.getD_none]
        cases e : axisLen j (ws.zip xsh) with
        | some l => rfl
        | none =>
          have : j ∈ (ws.zip xsh).map Prod.fst := by rw [hfst]; exact hw
          obtain ⟨l, hl⟩ := mem_fst.1 this
          exact ((axisLen_spec _ _).2 e l hl).elim
      · have hnw : ∀ l, (j, l) ∉ ws.zip xsh := fun l hm => hw (List.of_mem_zip hm).1
        rw [axisLen_append_right hnw]
        obtain ⟨l, hl⟩ := zip_mem_fst (xsh := xsh.drop ws.length) (by rw [hfl, List.length_drop]) (mem_free.2 ⟨hj, hw⟩)
        cases e : axisLen j ((free (newRank ws xsh.length) ws).zip (xsh.drop ws.length)) with
        | some l => rfl
        | none => exact ((axisLen_spec _ _).2 e l hl).elim
    · rw [List.getElem?_eq_none (by rw [List.length_take]; omega), List.getElem?_eq_none (by rw [newShape]; simp; omega)]
  refine ⟨hrr, ?_⟩
  rw [hrr]
  by_cases hwx : ws.length < xsh.length
  · rw [if_pos hwx]
    have hfr : ((List.range' 0 (newRank ws xsh.length)).filter fun i => !ws.contains i) = free (newRank ws xsh.length) ws := by
      rw [← List.range_eq_range']; rfl
    obtain ⟨rsh, e, hl, hr⟩ := fillIn_spec ws (newRank ws xsh.length) 0 (xsh.drop ws.length) s.rsh hs.len (by omega) (fun i _ hi => by
      refine ⟨_, hs.rsh i (by omega), ?_⟩
      cases e : axisLen i (ws.zip xsh) with
      | none => exact ⟨fun _ hw => by
          have : i ∈ (ws.zip xsh).map Prod.fst := by rw [hfst]; exact hw
          obtain ⟨l, hl⟩ := mem_fst.1 this
          exact (axisLen_spec _ _).2 e l hl, fun _ => rfl⟩
      | some l =>
        have hm := ((axisLen_spec _ _).1 l e).1
        have h1 := hn l (List.of_mem_zip hm).2
        exact ⟨fun h2 => by have h2 : l = noSh := h2; omega, fun h2 => (h2 (List.of_mem_zip hm).1).elim⟩) (by rw [hfr, hfl, List.length_drop]; exact Nat.le_refl _)
    rw [hfr] at e hr
    refine ⟨rsh, e, hlast rsh hl fun j hj => ?_⟩
    rw [hr j (by omega), List.getD_eq_getElem?_getD, hs.rsh j (by omega), Option.getD_some]
  · rw [if_neg hwx]
    have hnil : free (newRank ws xsh.length) ws = [] := List.eq_nil_of_length_eq_zero (by omega)
    refine ⟨s.rsh, by rw [hnil], hlast s.rsh hs.len fun j hj => ?_⟩
    rw [hs.rsh j (by omega), hnil]
    rfl

/-! ## Strides -/

theorem strides_spec : ∀ (ps : List (Nat × Nat)) (c : Nat) (st : List Nat), (∀ a ∈ ps, a.1 < st.length) →
    ∃ st', strides ps c st = some st' ∧ st'.length = st.length ∧ ∀ j, j < st.length → st'[j]? = some (st.getD j 0 + strideOf ps c j)
  | [], c, st, _ => ⟨st, rfl, rfl, fun j hj => by
      rw [List.getD_eq_getElem?_getD, List.getElem?_eq_getElem hj, Option.getD_some]; rfl⟩
  | (j0, l) :: ps, c, st, h => by
    have hj0 : j0 < st.length := h (j0, l) List.mem_cons_self
    rw [strides, List.getElem?_eq_getElem hj0, Option.bind_some]
    obtain ⟨st', e, hl, hr⟩ := strides_spec ps (c * l) (st.set j0 (st[j0] + c)) (fun a ha => by rw [List.length_set]; exact h a (List.mem_cons_of_mem _ ha))
    rw [List.length_set] at hl hr
    refine ⟨st', e, hl, fun j hj => ?_⟩
    rw [hr j hj, strideOf]
    by_cases hjj : j0 = j
    · subst hjj
      rw [if_pos rfl, List.getD_eq_getElem?_getD, List.getElem?_set_self hj, List.getD_eq_getElem?_getD, List.getElem?_eq_getElem hj, Option.getD_some, Option.getD_some, Nat.add_assoc]
    · rw [if_neg hjj, List.getD_eq_getElem?_getD, List.getElem?_set_ne hjj, ← List.getD_eq_getElem?_getD, Nat.zero_add]

theorem axesOf_eq (ps : List (Nat × Nat)) (c : Nat) (r : Nat → Nat) : ∀ (n : Nat), axesOf ps c r n = (((List.range n).map r).zip ((List.range n).map (strideOf ps c))).reverse
  | 0 => rfl
  | n + 1 => by
    rw [axesOf, axesOf_eq ps c r n, List.range_succ, List.map_append, List.map_append, List.zip_append (by simp), List.reverse_append]
    rfl

theorem lens_axesOf (ps : List (Nat × Nat)) (c : Nat) (r : Nat → Nat) (n : Nat) : lens (axesOf ps c r n) = prod ((List.range n).map r) := by
  rw [axesOf_eq, lens, List.map_reverse, prod_reverse, List.map_fst_zip (by simp)]

/-! ## Offsets -/

def sumTo : Nat → (Nat → Nat) → Nat
  | 0, _ => 0
  | n + 1, f => f n + sumTo n f

theorem sumTo_congr {f g : Nat → Nat} : ∀ {n : Nat}, (∀ j, j < n → f j = g j) → sumTo n f = sumTo n g
  | 0, _ => rfl
  | n + 1, h => by rw [sumTo, sumTo, h n (by omega), sumTo_congr fun j hj => h j (by omega)]

theorem sumTo_add (f g : Nat → Nat) : ∀ (n : Nat), sumTo n (fun j => f j + g j) = sumTo n f + sumTo n g
  | 0 => rfl
  | n + 1 => by rw [sumTo, sumTo, sumTo, sumTo_add f g n]; omega

theorem sumTo_zero : ∀ (n : Nat), sumTo n (fun _ => 0) = 0
  | 0 => rfl
  | n + 1 => by rw [sumTo, sumTo_zero n]

theorem sumTo_one (v k : Nat) : ∀ (n : Nat), k < n → sumTo n (fun j => if k = j then v else 0) = v
  | 0, h => by omega
  | n + 1, h => by
    rw [sumTo]
    by_cases hk : k = n
    · rw [if_pos hk, sumTo_congr (g := fun _ => 0) fun j hj => if_neg (by omega), sumTo_zero, Nat.add_zero]
    · rw [if_neg hk, sumTo_one v k n (by omega), Nat.zero_add]

theorem sum_strides (g : Nat → Nat) (n : Nat) : ∀ (ps : List (Nat × Nat)) (c : Nat), (∀ a ∈ ps, a.1 < n) →
    sumTo n (fun j => g j * strideOf ps c j) = c * rav (ps.map Prod.snd) (ps.map fun a => g a.1)
  | [], c, _ => by
    show sumTo n (fun j => g j * 0) = c * 0
    rw [sumTo_congr (g := fun _ => 0) fun j _ => Nat.mul_zero _, sumTo_zero, Nat.mul_zero]
  | (j0, l) :: ps, c, h => by
    have h0 : j0 < n := h (j0, l) List.mem_cons_self
    show _ = c * (g j0 + l * rav (ps.map Prod.snd) (ps.map fun a => g a.1))
    rw [sumTo_congr (g := fun j => (if j0 = j then g j0 * c else 0) + g j * strideOf ps (c * l) j) fun j _ => by
        rw [strideOf, Nat.mul_add]
        by_cases hj : j0 = j
        · rw [if_pos hj, if_pos hj, hj]
        · rw [if_neg hj, if_neg hj, Nat.mul_zero],
      sumTo_add, sumTo_one _ _ _ h0, sum_strides g n ps (c * l) fun a ha => h a (List.mem_cons_of_mem _ ha), Nat.mul_add, Nat.mul_comm c (g j0), Nat.mul_assoc]

theorem offR_axesOf (ps : List (Nat × Nat)) (c : Nat) (r : Nat → Nat) : ∀ (n : Nat) (is : List Nat), InShape ((List.range n).map r) is →
    offR (axesOf ps c r n) (ravel ((List.range n).map r) is) = sumTo n fun j => is.getD j 0 * strideOf ps c j
  | 0, _, _ => rfl
  | n + 1, is, h => by
    rw [List.range_succ, List.map_append] at h ⊢
    obtain ⟨i1, i2, e, h1, h2⟩ := InShape.split h
    cases h2 with
    | @cons _ i _ _ hi h3 =>
      cases h3
      subst e
      have hl : i1.length = n := by have := h1.length; simpa using this
      have e1 : ravel ((List.range n).map r ++ [r n]) (i1 ++ [i]) = i + r n * ravel ((List.range n).map r) i1 := by
        rw [ravel_append h1]
        show _ * (r n * 1) + (i * 1 + 0) = _
        rw [Nat.mul_one, Nat.mul_one, Nat.mul_comm]
        omega
      show offR (axesOf ps c r (n + 1)) (ravel ((List.range n).map r ++ [r n]) (i1 ++ [i])) = _
      rw [e1, axesOf, offR, Nat.add_mul_mod_self_left, Nat.mod_eq_of_lt hi, Nat.add_mul_div_left _ _ (by omega), Nat.div_eq_of_lt hi, Nat.zero_add, offR_axesOf ps c r n i1 h1, sumTo]
      congr 1
      · rw [List.getD_eq_getElem?_getD, List.getElem?_append_right (by omega), hl, Nat.sub_self]; rfl
      · apply sumTo_congr
        intro j hj
        rw [List.getD_eq_getElem?_getD, List.getD_eq_getElem?_getD, List.getElem?_append_left (by omega)]

theorem inShape_of_zip (g : Nat → Nat) : ∀ (T xsh : List Nat), T.length = xsh.length → (∀ a ∈ T.zip xsh, g a.1 < a.2) → InShape xsh (T.map g)
  | [], [], _, _ => .nil
  | [], _ :: _, h, _ => by simp at h
  | _ :: _, [], h, _ => by simp at h
  | t :: T, l :: xsh, h, ha => .cons (ha (t, l) List.mem_cons_self) (inShape_of_zip g T xsh (by simpa using h) fun a h2 => ha a (List.mem_cons_of_mem _ h2))

theorem inShape_getD {sh is : List Nat} (h : InShape sh is) : ∀ j, j < sh.length → is.getD j 0 < sh.getD j 0 := by
  induction h with
  | nil => intro j hj; simp at hj
  | cons hi _ ih =>
    intro j hj
    cases j with
    | zero => exact hi
    | succ j => exact ih j (by simpa using hj)

theorem newShape_getD {ws xsh : List Nat} {j : Nat} (hj : j < newRank ws xsh.length) : (newShape ws xsh).getD j 0 = (axisLen j ((target ws xsh.length).zip xsh)).getD 0 := by
  rw [newShape, List.getD_eq_getElem?_getD, List.getElem?_map, List.getElem?_range hj]
  rfl

/-- The source of an index of the result is an index of `𝕩`. -/
theorem source_inShape {ws xsh is : List Nat} (h : Fits ws xsh.length) (hi : InShape (newShape ws xsh) is) : InShape xsh (sourceIdx ws xsh.length is) := by
  refine inShape_of_zip _ _ _ (target_length h) fun a ha => ?_
  obtain ⟨j, l⟩ := a
  have hj := target_lt h j (List.of_mem_zip ha).1
  have h1 := inShape_getD hi j (by rw [newShape]; simpa using hj)
  rw [newShape_getD hj] at h1
  obtain ⟨l0, e, _⟩ := axisLen_target h hj
  have h2 := ((axisLen_spec _ _).1 l0 e).2 l ha
  rw [e, Option.getD_some] at h1
  show is.getD j 0 < l
  omega

end Verif.Reorder
