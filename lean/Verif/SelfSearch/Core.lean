import Verif.SelfSearch.Paths
/-! # Lemmas: the choice of a method -/
namespace Verif.SelfSearch
open Verif HTab

/-- An argument as the program can have it: cells of up to 32 bits fit in their width, cells without elements are all the
same, and the flags tell the truth about some order of the cells. -/
structure WF (x : Cells) : Prop where
  width : x.lw ≤ 5 → ∀ v ∈ x.xs, v < 2^(2^x.lw)
  empty : x.empty = true → ∀ a ∈ x.xs, ∀ b ∈ x.xs, a = b
  order : ∃ key : Nat → Int, (∀ a ∈ x.xs, ∀ b ∈ x.xs, key a = key b → a = b) ∧
    (x.asc = true → x.xs.Pairwise fun a b => key a ≤ key b) ∧ (x.dsc = true → x.xs.Pairwise fun a b => key a ≥ key b)

theorem same_of_allSame {x : Cells} (h : WF x) (hs : allSame x = true) : ∀ a ∈ x.xs, ∀ b ∈ x.xs, a = b := by
  obtain ⟨key, hk, ha, hd⟩ := h.order
  rw [allSame, Bool.and_eq_true] at hs
  have ha := ha hs.1
  have hd := hd hs.2
  intro a hA b hB
  apply hk a hA b hB
  obtain ⟨i, hi, rfl⟩ := List.mem_iff_getElem.1 hA
  obtain ⟨j, hj, rfl⟩ := List.mem_iff_getElem.1 hB
  rcases Nat.lt_trichotomy i j with c | c | c
  · have := List.pairwise_iff_getElem.1 ha i j hi hj c
    have := List.pairwise_iff_getElem.1 hd i j hi hj c
    omega
  · subst c; rfl
  · have := List.pairwise_iff_getElem.1 ha j i hj hi c
    have := List.pairwise_iff_getElem.1 hd j i hj hi c
    omega

theorem contig_of_useSorted {x : Cells} (h : WF x) (hs : useSorted x = true) : Contig x.xs := by
  obtain ⟨key, hk, ha, hd⟩ := h.order
  apply contig_of_sorted hk
  unfold useSorted at hs
  split at hs
  · cases hs
  · rename_i c
    cases h1 : x.asc with
    | true => exact .inl (ha h1)
    | false =>
      cases h2 : x.dsc with
      | true => exact .inr (hd h2)
      | false => rw [h1, h2] at c; exact absurd rfl c

theorem markG_succ (t : Nat) : markG (t+1) = (fun _ => 0) (markG t) := by unfold markG; rw [if_neg (by omega)]
theorem modG_succ (t : Nat) : (fun t => t % M32) (t+1) = (fun r => (r+1) % M32) ((fun t => t % M32) t) := by
  show (t+1) % M32 = (t % M32 + 1) % M32
  rw [Nat.mod_add_mod]

theorem marks_small {xs : List Nat} (h : xs.length ≤ 1) : List.replicate xs.length true = marks xs := by
  match xs, h with
  | [], _ => rfl
  | [a], _ => rfl

theorem up4_le (a : Nat) : a ≤ up4 a ∧ up4 a ≤ a + 3 := by unfold up4; omega

theorem markFits_ok {n : Nat} (h : n ≤ 715827882) : markFits n = true := by
  have h1 := up4_le (2052 + n)
  unfold markFits markR1 markK1 markV2 markSize M32
  rw [Nat.mod_eq_of_lt (by omega), Nat.mod_eq_of_lt (by omega)]
  simp only [Bool.and_eq_true, decide_eq_true_eq]
  split <;> refine ⟨⟨?_, ?_⟩, ?_⟩ <;> omega

theorem countFits_ok {n : Nat} (h : n ≤ 715827882) : countFits n = true := by
  have h1 := up4_le (2052 + n + n)
  unfold countFits countV1 countV2 countK1 countSize M32
  have : 4*(if 65536 > n then 65536 else n) < 4294967296 := by split <;> omega
  rw [Nat.mod_eq_of_lt (by omega), Nat.mod_eq_of_lt this]
  simp only [Bool.and_eq_true, decide_eq_true_eq]
  split <;> refine ⟨?_, ?_⟩ <;> omega

theorem memberOf_core (hash : Nat → Nat) (hh : ∀ k, hash k ≠ 0) (junk : Junk) (x : Cells) (hx : WF x)
    (hl : x.lw = 5 → x.xs.length ≤ 715827882) : memberOf_c1 hash junk x = some (marks x.xs) := by
  unfold memberOf_c1
  simp only []
  split
  · rename_i h; rw [marks_small h]
  rename_i hn
  have hne : x.xs ≠ [] := by intro e; rw [e] at hn; simp at hn
  split
  · rename_i h
    cases he : x.empty with
    | true =>
      rw [if_pos rfl, List.set_eq_of_length_le (by simp), marks_same (hx.empty he)]
    | false =>
      rw [if_neg (by simp)]
      have h0 : x.lw = 0 := by rcases h with h | h; exact h; rw [he] at h; cases h
      rw [marks_bits (fun a ha => by have := hx.width (by omega) a ha; rw [h0] at this; exact this) hne]
  split
  · rename_i h
    rw [marks_same (same_of_allSame hx h)]
  split
  · rename_i h
    rw [shiftNe_marks _ (contig_of_useSorted hx h)]
  have hlook : ∀ T d, (∀ v ∈ x.xs, v < 2^T) →
      Option.map (List.map fun r : Nat => decide (r ≠ 0)) (lookup junk.tab T d 1 (fun _ => 0) x.xs) = some (marks x.xs) := by
    intro T d hT
    rw [lookup_spec junk.tab T d 1 (fun _ => 0) markG rfl markG_succ x.xs hT, Option.map_some, ans_marks]
  split
  · rename_i h3
    split
    · rw [bruteMark_eq]
    · exact hlook 8 64 (fun v hv => by have := hx.width (by omega) v hv; rw [h3] at this; exact this)
  split
  · rename_i h3
    split
    · rw [bruteMark_eq]
    · exact hlook 16 64 (fun v hv => by have := hx.width (by omega) v hv; rw [h3] at this; exact this)
  split
  · rename_i h3
    have hl := hl h3
    split
    · rw [bruteMark_eq]
    · rw [if_pos (markFits_ok hl), radixLookup_spec junk 1 (fun _ => 0) markG rfl markG_succ 1 x.xs hne (by unfold M32; omega)
        (fun v hv => by have := hx.width (by omega) v hv; rw [h3] at this; exact this), Option.map_some, ans_marks]
  split
  · rw [bruteMark_eq]
  · exact markFirsts_hash_eq hash hh _ _

theorem occs_same {xs : List Nat} (h : ∀ a ∈ xs, ∀ b ∈ xs, a = b) : (List.range xs.length) = occs xs := by
  apply List.ext_getElem?
  intro i
  unfold occs
  rw [List.getElem?_mapIdx]
  cases hv : xs[i]? with
  | none =>
    have := List.getElem?_eq_none_iff.1 hv
    rw [List.getElem?_eq_none_iff.2 (by simpa using this)]; rfl
  | some v =>
    have hi := (List.getElem?_eq_some_iff.1 hv).1
    rw [List.getElem?_range hi, Option.map_some]
    congr 1
    have : (xs.take i).count v = (xs.take i).length :=
      List.count_eq_length.2 fun b hb => h v (List.mem_of_getElem? hv) b (List.mem_of_mem_take hb)
    rw [this, List.length_take]; omega

theorem count_core (hash : Nat → Nat) (hh : ∀ k, hash k ≠ 0) (junk : Junk) (x : Cells) (hx : WF x)
    (hl : x.xs.length ≤ 2147483648) (hl5 : x.lw = 5 → x.xs.length ≤ 715827882) :
    count_c1 hash junk x = some (some ((occs x.xs).map fun n : Nat => (n : Int))) := by
  unfold count_c1
  simp only []
  split
  · rename_i h
    match hq : x.xs, h with
    | [], _ => rfl
    | [a], _ => rfl
  rename_i hn
  have hne : x.xs ≠ [] := by intro e; rw [e] at hn; simp at hn
  rw [if_neg (by omega)]
  split
  · rename_i he
    rw [occs_same (hx.empty he)]
  have hocc : ∀ w, w ≠ 0 → x.lw = 0 → (x.xs.length : Int) ≤ 2^(w-1) → countBool w 0 0 x.xs = (occs x.xs).map fun n : Nat => (n : Int) := by
    intro w hw h0 hlw
    rw [along_occs]
    exact countBool_eq w hw x.xs [] (fun a ha => by
      have := hx.width (by omega) a (by simpa using ha); rw [h0] at this; exact this) hlw
  split
  · rename_i h0
    split
    · rw [hocc 8 (by decide) h0 (by simp only [Nat.add_one_sub_one, Int.reducePow]; omega)]; rfl
    · split
      · rw [hocc 16 (by decide) h0 (by simp only [Nat.add_one_sub_one, Int.reducePow]; omega)]; rfl
      · rw [hocc 32 (by decide) h0 (by simp only [Nat.add_one_sub_one, Int.reducePow]; omega)]; rfl
  split
  · rename_i h
    have hc := contig_of_useSorted hx h.1
    rw [shiftNe_marks _ hc, sortedCount_eq hc]; rfl
  have hlook : ∀ T d, (∀ v ∈ x.xs, v < 2^T) →
      Option.map (List.map fun r : Nat => (r : Int).bmod (2^32)) (lookup junk.tab T d 0 (fun r => (r + 1) % M32) x.xs) =
        some ((occs x.xs).map fun n : Nat => (n : Int)) := by
    intro T d hT
    rw [lookup_spec junk.tab T d 0 (fun r => (r + 1) % M32) (fun t => t % M32) rfl modG_succ x.xs hT, Option.map_some, ans_occs _ hl]
  split
  · rename_i h3
    split
    · rw [bruteCount_eq _ (by omega)]; rfl
    · rw [hlook 8 16 (fun v hv => by have := hx.width (by omega) v hv; rw [h3] at this; exact this)]; rfl
  split
  · rename_i h3
    split
    · rw [bruteCount_eq _ (by omega)]; rfl
    · rw [hlook 16 16 (fun v hv => by have := hx.width (by omega) v hv; rw [h3] at this; exact this)]; rfl
  split
  · rename_i h3
    have hl5 := hl5 h3
    split
    · rw [bruteCount_eq _ (by omega)]; rfl
    · rw [if_pos (countFits_ok hl5), radixLookup_spec junk 0 (fun r => (r + 1) % M32) (fun t => t % M32) rfl modG_succ 4 x.xs hne
        (by unfold M32; omega) (fun v hv => by have := hx.width (by omega) v hv; rw [h3] at this; exact this), Option.map_some, ans_occs _ hl]
      rfl
  split
  · rw [bruteCount_eq _ (by omega)]; rfl
  · rw [occurrence_hash_eq hash hh, Option.map_some]
    have : (occs x.xs).map (fun r : Nat => (r : Int).bmod (2^32)) = (occs x.xs).map fun n : Nat => (n : Int) := by
      apply List.map_congr_left
      intro r hr
      have hr' : r ≤ 2147483647 := by
        unfold occs at hr
        obtain ⟨i, hi⟩ := List.getElem?_of_mem hr
        rw [List.getElem?_mapIdx] at hi
        cases hv : x.xs[i]? with
        | none => rw [hv] at hi; cases hi
        | some v =>
          rw [hv, Option.map_some] at hi
          have := (List.getElem?_eq_some_iff.1 hv).1
          have h2 := List.count_le_length (a := v) (l := x.xs.take i)
          rw [List.length_take] at h2
          have := Option.some.inj hi
          omega
      exact bmod32 (by omega) (by omega)
    rw [this]; rfl

theorem classes_same {xs : List Nat} (h : ∀ a ∈ xs, ∀ b ∈ xs, a = b) : classes xs = List.replicate xs.length 0 := by
  unfold classes
  rw [List.eq_replicate_iff]
  refine ⟨by simp, ?_⟩
  intro b hb
  obtain ⟨v, hv, rfl⟩ := List.mem_map.1 hb
  cases xs with
  | nil => cases hv
  | cons a xs =>
    rw [h v hv a List.mem_cons_self, firsts]
    exact List.idxOf_cons_self

theorem two_classes {a : Nat} {xs : List Nat} (h : ∀ b ∈ a :: xs, b < 2) : ∀ b ∈ a :: xs, (firsts (a :: xs)).idxOf b = if b = a then 0 else 1 := by
  intro b hb
  rw [firsts, List.idxOf_cons]
  by_cases c : b = a
  · subst c; simp
  · rw [if_neg c]
    have d : (a == b) = false := beq_eq_false_iff_ne.2 fun h => c h.symm
    rw [d]
    have hm : b ∈ (firsts xs).filter (· ≠ a) := by
      rw [List.mem_filter]
      refine ⟨(mem_firsts _ _).2 ?_, by simpa using c⟩
      rcases List.mem_cons.1 hb with e | e
      · exact absurd e c
      · exact e
    have hall : ∀ k ∈ (firsts xs).filter (· ≠ a), k = b := by
      intro k hk
      rw [List.mem_filter] at hk
      have h1 := h k (List.mem_cons_of_mem _ ((mem_firsts _ _).1 hk.1))
      have h2 := h b hb
      have h3 := h a List.mem_cons_self
      have h4 : k ≠ a := by simpa using hk.2
      omega
    cases hq : (firsts xs).filter (· ≠ a) with
    | nil => rw [hq] at hm; cases hm
    | cons k l =>
      rw [hq] at hall
      rw [hall k List.mem_cons_self, List.idxOf_cons_self]; rfl

theorem indexOf_core (hash : Nat → Nat) (hh : ∀ k, hash k ≠ 0) (junk : Junk) (x : Cells) (hx : WF x) (hl : x.xs.length < 2147483648) :
    indexOf_c1 hash junk x = some (some ((classes x.xs).map fun n : Nat => (n : Int))) := by
  unfold indexOf_c1
  simp only []
  split
  · rename_i h
    match hq : x.xs, h with
    | [], _ => rfl
    | [a], _ => simp [classes, firsts]
  rename_i hn
  rw [if_neg (by omega)]
  split
  · rename_i he
    rw [classes_same (hx.empty he), List.map_replicate]; rfl
  split
  · rename_i h0
    have hb : ∀ a ∈ x.xs, a < 2 := fun a ha => by have := hx.width (by omega) a ha; rw [h0] at this; exact this
    cases hq : x.xs with
    | nil => rw [hq] at hn; simp at hn
    | cons a xs =>
      rw [hq] at hb
      have h2 := two_classes hb
      have ha := hb a List.mem_cons_self
      unfold classes
      rw [List.map_map, Option.map_some]
      congr 2
      have e : (a :: xs).headD 0 = a := rfl
      rw [e]
      split
      · apply List.map_congr_left
        intro b hb'
        have := hb b hb'
        rw [Function.comp_apply, h2 b hb']
        split <;> omega
      · apply List.map_congr_left
        intro b hb'
        have := hb b hb'
        rw [Function.comp_apply, h2 b hb']
        split <;> omega
  split
  · rename_i h
    rw [sortedClass_eq _ (contig_of_useSorted hx h.1)]; rfl
  have hbr : x.xs.length ≤ 128 → bruteClass [] x.xs = (classes x.xs).map fun n : Nat => (n : Int) := by
    intro h
    have := bruteClass_eq x.xs [] h
    rw [show firsts ([] : List Nat) = [] from rfl] at this
    rw [this]
    unfold classes
    rw [List.map_map]; rfl
  split
  · rename_i h3
    split
    · rw [hbr (by omega)]; rfl
    · rw [lookupClass_eq _ 8 _ (fun v hv => by have := hx.width (by omega) v hv; rw [h3] at this; exact this) hl]; rfl
  split
  · rename_i h3
    split
    · rw [hbr (by omega)]; rfl
    · rw [lookupClass_eq _ 16 _ (fun v hv => by have := hx.width (by omega) v hv; rw [h3] at this; exact this) hl]; rfl
  split
  · rename_i h3
    split
    · rw [hbr (by omega)]; rfl
    · split
      · rename_i r hr
        rw [rangeClass_eq x.xs (fun v hv => by have := hx.width (by omega) v hv; rw [h3] at this; exact this) hl r hr]; rfl
      · rw [hashClass_eq hash hh _ _ (by omega)]; rfl
  split
  · rw [hbr (by omega)]; rfl
  · rw [hashClass_eq hash hh _ _ (by omega)]; rfl

theorem firsts_same {xs : List Nat} (h : ∀ a ∈ xs, ∀ b ∈ xs, a = b) : xs.take 1 = firsts xs := by
  cases xs with
  | nil => rfl
  | cons a xs =>
    rw [firsts]
    have : (firsts xs).filter (· ≠ a) = [] := by
      rw [List.filter_eq_nil_iff]
      intro b hb
      have := h b (List.mem_cons_of_mem _ ((mem_firsts _ _).1 hb)) a List.mem_cons_self
      simp [this]
    rw [this]; simp

theorem find_core (hash : Nat → Nat) (hh : ∀ k, hash k ≠ 0) (junk : Junk) (x : Cells) (hx : WF x)
    (hl : x.lw = 5 → x.xs.length ≤ 715827882) : find_c1 hash junk x = some (firsts x.xs) := by
  unfold find_c1
  simp only []
  split
  · rename_i h
    match hq : x.xs, h with
    | [], _ => rfl
    | [a], _ => simp [firsts]
  rename_i hn
  split
  · rename_i h
    rw [firsts_same]
    rcases h with h | h
    · exact hx.empty h
    · exact same_of_allSame hx h
  split
  · rename_i h
    have hb : ∀ a ∈ x.xs, a < 2 := fun a ha => by have := hx.width (by omega) a ha; rw [h.1] at this; exact this
    cases hq : x.xs with
    | nil => rw [hq] at hn; simp at hn
    | cons a xs =>
      rw [hq] at hb
      have ha := hb a List.mem_cons_self
      have e : (a :: xs).headD 0 = a := rfl
      rw [e]
      have hall : ∀ k ∈ firsts (a :: xs), k = a ∨ k = 1 - a := by
        intro k hk
        have := hb k ((mem_firsts _ _).1 hk)
        omega
      have hnd := firsts_nodup (a :: xs)
      by_cases c : (1 - a) ∈ a :: xs
      · rw [if_pos (List.idxOf_lt_length_iff.2 c)]
        have hm := (mem_firsts _ _).2 c
        rw [firsts] at hall hnd hm ⊢
        cases hq : (firsts xs).filter (· ≠ a) with
        | nil =>
          rw [hq] at hm
          have : 1 - a = a := by simpa using hm
          omega
        | cons k l =>
          rw [hq] at hall hnd
          have hk := hall k (by simp)
          rw [List.nodup_cons, List.nodup_cons] at hnd
          have hka : k ≠ a := by rintro rfl; exact hnd.1 List.mem_cons_self
          have hk1 : k = 1 - a := by omega
          cases l with
          | nil => rw [hk1]; rfl
          | cons m l =>
            have hm := hall m (by simp)
            have h1 : m ≠ a := by rintro rfl; exact hnd.1 (by simp)
            have h2 : m ≠ k := by rintro rfl; exact hnd.2.1 (by simp)
            omega
      · rw [if_neg (fun h => c (List.idxOf_lt_length_iff.1 h))]
        have : ∀ b ∈ a :: xs, b = a := by
          intro b hb'
          have := hb b hb'
          have h3 : b ≠ 1 - a := by rintro rfl; exact c hb'
          omega
        rw [← firsts_same (fun u hu v hv => by rw [this u hu, this v hv])]
        rfl
  · rw [memberOf_core hash hh junk x hx hl, Option.map_some, along_marks, marks_firsts]
    congr 1
    rw [List.filter_eq_self]
    intro a _
    simp

theorem dotab_never (n : Nat) (low : Nat → Int) (tab : Int → Option Int) (t : Int) (ht : t ≠ n) (u : Int) : ∀ xs : List Nat,
    (∀ v ∈ xs, tab (low v) = some t) → dotab n low tab u xs = some (List.replicate xs.length t, u)
  | [], _ => rfl
  | v :: xs, h => by
    rw [dotab, h v List.mem_cons_self, Option.bind_some, if_neg ht,
      dotab_never n low tab t ht u xs fun w hw => h w (List.mem_cons_of_mem _ hw)]
    rfl

end Verif.SelfSearch
