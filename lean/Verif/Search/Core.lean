import Verif.Search.Count
/-! # Lemmas -/
namespace Verif.Search
open Verif HTab
attribute [local irreducible] st

theorem map_st {r : List Nat} (h : ∀ v ∈ r, v < 2147483648) :
    (r.map fun v : Nat => st 32 (v : Int)) = r.map fun v : Nat => (v : Int) :=
  List.map_congr_left fun v hv => by
    have := h v hv
    exact st32 (by omega) (by omega)

theorem hashIndex_eq {hash : El → Nat} (hh : ∀ k, hash k ≠ 0) (junk : El × Nat) (w x : Arr) (hl : w.els.length < 2147483648) :
    hashIndex hash junk w x = some (x.els.map fun e => ((w.els.idxOf e : Nat) : Int)) := by
  unfold hashIndex
  rw [indexOf_hash_eq hash hh, Option.map_some, map_st, reduce_id, List.map_map]
  · rfl
  · intro v hv
    obtain ⟨n, hn, rfl⟩ := List.mem_map.1 hv
    obtain ⟨e, _, rfl⟩ := List.mem_map.1 hn
    have := List.idxOf_le_length (l := w.els) (a := e)
    omega
  · intro v hv
    obtain ⟨e, _, rfl⟩ := List.mem_map.1 hv
    have := List.idxOf_le_length (l := w.els) (a := e)
    omega

theorem sv_st {w : List El} {n : Nat} (hn : n = 8 ∧ w.length ≤ 127 ∨ n = 16 ∧ w.length ≤ 32767 ∨ n = 32 ∧ w.length < 2147483648) (e : El) :
    (if e ∈ w then st n ((w.idxOf e : Nat) : Int) else st n (w.length : Int)) = ((w.idxOf e : Nat) : Int) := by
  have hle := List.idxOf_le_length (l := w) (a := e)
  have key : ∀ v : Nat, v ≤ w.length → st n (v : Int) = v := by
    intro v hv
    rcases hn with ⟨h, h'⟩ | ⟨h, h'⟩ | ⟨h, h'⟩ <;> subst h
    · exact st8 (by omega) (by omega)
    · exact st16 (by omega) (by omega)
    · exact st32 (by omega) (by omega)
  split
  · exact key _ hle
  · rename_i c
    rw [key _ (Nat.le_refl _), List.idxOf_eq_length c]

theorem table_index {junk : Int → Option Int} {we xe : Nat} {w x : Arr} {same : Bool} (ok : BlockOK we xe w x) (h0 : we ≠ 0)
    (h1 : we ≤ 2) (h2 : xe ≤ 2) (hs : same = true → w.els = x.els ∧ we = xe) {n : Nat}
    (hn : n = 8 ∧ w.els.length ≤ 127 ∨ n = 16 ∧ w.els.length ≤ 32767 ∨ n = 32 ∧ w.els.length < 2147483648) :
    TABLE junk we xe same n w.els.length (fun i => i) w.els x.els = some (x.els.map fun e => ((w.els.idxOf e : Nat) : Int)) := by
  rw [TABLE_eq junk we xe same n _ _ _ _ ⟨by omega, h1⟩ h2 hs (ok.rngw h1) (ok.rngx h2)
    (fun h => ⟨ok.bitx h, ok.intw h h1⟩) (ok.mtch h1 h2)]
  congr 1
  exact List.map_congr_left fun e _ => sv_st hn e

theorem indexOf_c2_core {hash : El → Nat} (hh : ∀ k, hash k ≠ 0) (junk : Junk) (same : Bool) (w x : Arr) (hw : WF w) (hx : WF x)
    (hs : same = true → w = x) (hl : w.els.length < 2147483648) :
    indexOf_c2 hash junk same w x = some (x.els.map fun e => ((w.els.idxOf e : Nat) : Int)) := by
  unfold indexOf_c2
  simp only
  by_cases h0 : w.els.length = 0 ∨ x.els.length = 0
  · rw [if_pos h0]
    rcases h0 with h0 | h0
    · have : w.els = [] := List.eq_nil_of_length_eq_zero h0
      rw [this]; rfl
    · have : x.els = [] := List.eq_nil_of_length_eq_zero h0
      rw [this]; rfl
  rw [if_neg h0]
  rcases checkChrs_spec hw hx with ⟨hc, hnone⟩ | hc | ⟨we, xe, w', x', hc, ew, ex, ok, het⟩
  · rw [hc]
    simp only
    congr 1
    refine List.map_congr_left fun e he => ?_
    rw [List.idxOf_eq_length fun h => hnone e h he]
  · rw [hc]
    exact hashIndex_eq hh _ w x hl
  · rw [hc]
    simp only
    rw [← ew] at hl ⊢
    rw [← ex]
    rw [← ew, ← ex] at h0
    have hle : ∀ e : El, w'.els.idxOf e ≤ w'.els.length := fun e => List.idxOf_le_length
    by_cases c1 : w'.els.length > 32 ∧ x'.els.length ≤ (if we ≤ 1 then 1 else 3)
    · rw [if_pos c1]
      have hv : ∀ e, st 32 ((indexOfOne w' e : Nat) : Int) = ((w'.els.idxOf e : Nat) : Int) := by
        intro e
        rw [indexOfOne_eq ok.wfw]
        have := hle e
        exact st32 (by omega) (by omega)
      rw [reduce_id]
      · congr 1
        exact List.map_congr_left fun e _ => hv e
      · intro v hv'
        obtain ⟨e, _, rfl⟩ := List.mem_map.1 hv'
        have := hle e
        rw [hv]; omega
    rw [if_neg c1]
    by_cases c2 : we = 0
    · rw [if_pos c2]
      congr 1
      refine List.map_congr_left fun e _ => ?_
      have ht := two_valued (p := .int 0) (q := .int 1) (l := w'.els) (fun h => h0 (Or.inl (by rw [h]; rfl))) (by decide) (ok.bitw c2) (.int 0) e
      simp only at ht
      generalize hw0 : w'.els.headD (.int 0) = w0 at ht ⊢
      generalize hw1 : (if w0 = El.int 0 then El.int 1 else El.int 0) = w1 at ht ⊢
      have hne : w1 ≠ w0 := by
        rw [← hw1]
        split
        · rename_i h; rw [h]; decide
        · rename_i h; exact fun e => h e.symm
      have hle1 := hle w1
      rw [st32 (by omega) (by omega), st32 (by omega) (by omega), ht]
      have a1 : ne w0 e = if e = w0 then 0 else 1 := by unfold ne; simp only [eq_comm]
      have a2 : eq w1 e = if e = w1 then 1 else 0 := by unfold eq; simp only [eq_comm]
      rw [a1, a2]
      by_cases e0 : e = w0
      · have e1 : ¬ e = w1 := fun h => hne (h.symm.trans e0)
        simp only [if_pos e0, if_neg e1]
        split <;> omega
      · by_cases e1 : e = w1
        · simp only [if_neg e0, if_pos e1]
          split <;> omega
        · simp only [if_neg e0, if_neg e1]
          split <;> omega
    rw [if_neg c2]
    by_cases c3 : w'.els.length ≤ 4 ∧ x'.els.length > 16
    · rw [if_pos c3]
      congr 1
      refine List.map_congr_left fun e _ => shortIndex_eq e _ fun h => h0 (Or.inl (by rw [h]; rfl))
    rw [if_neg c3]
    have hs' : same = true → w'.els = x'.els ∧ we = xe := by
      intro h
      have := hs h
      exact ⟨by rw [ew, ex, this], het (by rw [this])⟩
    by_cases c4 : (x'.els.length + w'.els.length) % 2^32 > 20 ∧ we ≤ 2 ∧ xe ≤ 2
    · rw [if_pos c4]
      by_cases d1 : w'.els.length ≤ 127
      · rw [if_pos d1]
        exact table_index ok c2 c4.2.1 c4.2.2 hs' (Or.inl ⟨rfl, d1⟩)
      · rw [if_neg d1]
        by_cases d2 : w'.els.length ≤ 32767
        · rw [if_pos d2]
          exact table_index ok c2 c4.2.1 c4.2.2 hs' (Or.inr (Or.inl ⟨rfl, d2⟩))
        · rw [if_neg d2]
          exact table_index ok c2 c4.2.1 c4.2.2 hs' (Or.inr (Or.inr ⟨rfl, hl⟩))
    · rw [if_neg c4]
      exact hashIndex_eq hh _ w' x' hl

theorem hashMember_eq {hash : El → Nat} (hh : ∀ k, hash k ≠ 0) (junk : El × Unit) (w x : Arr) :
    hashMember hash junk w x = some (w.els.map fun e => if e ∈ x.els then 1 else 0) := by
  unfold hashMember
  rw [memberOf_hash_eq hash hh, Option.map_some, List.map_map]
  congr 1
  refine List.map_congr_left fun e _ => ?_
  by_cases c : e ∈ x.els <;> simp [c]

theorem memberOf_c2_core {hash : El → Nat} (hh : ∀ k, hash k ≠ 0) (junk : Junk) (same : Bool) (w x : Arr) (hw : WF w) (hx : WF x)
    (hs : same = true → w = x) :
    memberOf_c2 hash junk same w x = some (w.els.map fun e => if e ∈ x.els then 1 else 0) := by
  unfold memberOf_c2
  simp only
  by_cases h0 : w.els.length = 0 ∨ x.els.length = 0
  · rw [if_pos h0]
    rcases h0 with h0 | h0
    · have : w.els = [] := List.eq_nil_of_length_eq_zero h0
      rw [this]; rfl
    · have : x.els = [] := List.eq_nil_of_length_eq_zero h0
      rw [this]; simp
  rw [if_neg h0]
  rcases checkChrs_spec hw hx with ⟨hc, hnone⟩ | hc | ⟨we, xe, w', x', hc, ew, ex, ok, het⟩
  · rw [hc]
    simp only
    congr 1
    refine List.map_congr_left fun e he => ?_
    rw [if_neg fun h => hnone e he h]
  · rw [hc]
    exact hashMember_eq hh _ w x
  · rw [hc]
    simp only
    rw [← ew, ← ex]
    rw [← ew, ← ex] at h0
    by_cases c1 : x'.els.length > 32 ∧ w'.els.length ≤ (if xe ≤ 1 then 1 else if xe = 3 then 4 else 6)
    · rw [if_pos c1]
      congr 1
      refine List.map_congr_left fun e _ => ?_
      rw [indexOfOne_eq ok.wfx]
      by_cases c : e ∈ x'.els
      · rw [if_pos c, if_pos (List.idxOf_lt_length_iff.2 c)]
      · rw [if_neg c, if_neg (by rw [List.idxOf_eq_length c]; omega)]
    rw [if_neg c1]
    by_cases c2 : xe = 0
    · rw [if_pos c2]
      congr 1
      refine List.map_congr_left fun e _ => ?_
      have hb := ok.bitx c2
      have hx0 : x'.els.headD (.int 0) ∈ x'.els := by
        cases hxl : x'.els with
        | nil => rw [hxl] at h0; simp at h0
        | cons a l => simp
      generalize x'.els.headD (.int 0) = a at hx0 ⊢
      generalize hx1 : (if a = El.int 0 then El.int 1 else El.int 0) = x1
      have hne : x1 ≠ a := by
        rw [← hx1]
        split
        · rename_i h; rw [h]; decide
        · rename_i h; exact fun e => h e.symm
      have hmem : ∀ v ∈ x'.els, v = a ∨ v = x1 := by
        intro v hv
        rw [← hx1]
        rcases hb v hv with h | h <;> rcases hb a hx0 with h' | h' <;> subst h <;> subst h' <;> decide
      unfold or eq
      by_cases e0 : e = a
      · have e1 : ¬ e = x1 := fun h => hne (h.symm.trans e0)
        have hm : e ∈ x'.els := e0 ▸ hx0
        simp only [if_pos e0, if_neg e1, if_pos hm]
        split <;> rfl
      · by_cases e1 : e = x1
        · by_cases hm : e ∈ x'.els
          · simp only [if_neg e0, if_pos e1, if_pos hm, ← e1]; rfl
          · simp only [if_neg e0, if_pos e1, if_neg hm, ← e1]
        · have hm : e ∉ x'.els := fun h => by
            rcases hmem e h with h | h
            · exact e0 h
            · exact e1 h
          simp only [if_neg e0, if_neg e1, if_neg hm]
          split <;> rfl
    rw [if_neg c2]
    by_cases c3 : x'.els.length ≤ (if we = 1 then 1 else if we = 2 then 4 else 8) ∧ w'.els.length > 16
    · rw [if_pos c3]
      congr 1
      exact List.map_congr_left fun e _ => shortMember_eq e _
    rw [if_neg c3]
    by_cases c4 : (x'.els.length + w'.els.length) % 2^32 > 20 ∧ we ≤ 2 ∧ xe ≤ 2
    · rw [if_pos c4]
      rw [TABLE_eq junk.tab xe we same 8 0 (fun _ => 1) x'.els w'.els ⟨by omega, c4.2.2⟩ c4.2.1
        (fun h => by have := hs h; exact ⟨by rw [ew, ex, this], (het (by rw [this])).symm⟩)
        (ok.rngx c4.2.2) (ok.rngw c4.2.1) (fun h => ⟨ok.bitw h, ok.intx h c4.2.2⟩)
        (fun a ha b hb => by
          have := ok.mtch c4.2.1 c4.2.2 b hb a ha
          exact ⟨fun h => (this.1 h.symm).symm, fun h => (this.2 h.symm).symm⟩),
        st8 (by omega) (by omega), st8 (by omega) (by omega)]
    · rw [if_neg c4]
      exact hashMember_eq hh _ w' x'

theorem hashCount_eq {hash : El → Nat} (hh : ∀ k, hash k ≠ 0) (junk : El × Nat) (w x : Arr) (hl : w.els.length < 2147483648) :
    hashCount hash junk w x = some ((progressive w.els x.els).map fun n : Nat => (n : Int)) := by
  unfold hashCount
  rw [progIndexOf_hash_eq hash hh, Option.map_some]
  congr 1
  refine List.map_congr_left fun v hv => ?_
  have hv : v ≤ w.els.length := prog_le w.els x.els v hv
  exact st32 (by omega) (by omega)

theorem count_c2_core {hash : El → Nat} (hh : ∀ k, hash k ≠ 0) (junk : Junk) (same : Bool) (w x : Arr) (hw : WF w) (hx : WF x)
    (hs : same = true → w = x) (hl : w.els.length < 2147483648) :
    count_c2 hash junk same w x = some ((progressive w.els x.els).map fun n : Nat => (n : Int)) := by
  unfold count_c2
  by_cases h0 : x.els.length ≤ 1 ∨ w.els.length = 0
  · rw [if_pos h0, indexOf_c2_core hh junk same w x hw hx hs hl]
    congr 1
    unfold progressive
    rcases h0 with h0 | h0
    · match hxe : x.els, h0 with
      | [], _ => rfl
      | [a], _ => simp [nthIdx_zero]
    · have : w.els = [] := List.eq_nil_of_length_eq_zero h0
      rw [this]
      have := prog_none [] x.els (fun b _ => by simp)
      unfold progressive at this
      rw [this, List.map_map]
      rfl
  rw [if_neg h0]
  have hred : reduceI32Width ((progressive w.els x.els).map fun n : Nat => (n : Int)) w.els.length =
      (progressive w.els x.els).map fun n : Nat => (n : Int) := by
    refine reduce_id fun v hv => ?_
    obtain ⟨n, hn, rfl⟩ := List.mem_map.1 hv
    have := prog_le w.els x.els n hn
    omega
  rcases checkChrs_spec hw hx with ⟨hc, hnone⟩ | hc | ⟨we, xe, w', x', hc, ew, ex, ok, het⟩
  · rw [hc]
    simp only
    congr 1
    rw [prog_none _ _ (fun b hb hm => hnone b hm hb), List.map_map]
    rfl
  · rw [hc]
    simp only
    rw [hashCount_eq hh _ w x hl, Option.map_some, hred]
  · rw [hc]
    simp only
    rw [← ew, ← ex] at hred ⊢
    rw [← ew] at hl
    by_cases c : we ≤ 2 ∧ xe ≤ 2
    · rw [if_pos c, countTab_eq junk.tab ok c.1 c.2 hl, Option.map_some, hred]
    · rw [if_neg c, hashCount_eq hh _ w' x' hl, Option.map_some, hred]

end Verif.Search
