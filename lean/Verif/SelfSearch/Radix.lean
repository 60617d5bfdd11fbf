import Verif.SelfSearch.Lemmas
/-! # Lemmas: the radix-assisted lookup as a whole -/
namespace Verif.SelfSearch
open Verif HTab
attribute [local irreducible] Radix.sums

theorem offsets_counts (junk : Nat → Nat) (v0 : List Nat) :
    let c : Nat → Nat := fun j => if 1 ≤ j ∧ j < 514 then 0 else junk j
    let c2 := Radix.countUp M32 257 byte3 (Radix.countUp M32 1 byte2 c v0) v0
    c2 1 = 0 ∧ (∀ k, k < 256 → c2 (1 + 1 + k) = Radix.cnt byte2 v0 k % M32) ∧
      (∀ k, k < 256 → c2 (257 + 1 + k) = Radix.cnt byte3 v0 k % M32) := by
  intro c c2
  have hc0 : ∀ j, 1 ≤ j → j < 514 → c j = 0 := fun j h1 h2 => if_pos ⟨h1, h2⟩
  refine ⟨?_, ?_, ?_⟩
  · show Radix.countUp M32 257 byte3 (Radix.countUp M32 1 byte2 c v0) v0 1 = 0
    rw [Radix.countUp_out _ _ _ _ _ (fun x _ => by omega), Radix.countUp_out _ _ _ _ _ (fun x _ => by omega)]
    exact hc0 1 (by omega) (by omega)
  · intro k hk
    show Radix.countUp M32 257 byte3 (Radix.countUp M32 1 byte2 c v0) v0 (1+1+k) = _
    rw [Radix.countUp_out _ _ _ _ _ (fun x _ => by omega), Radix.countUp_at M32 1 (by decide) byte2 v0 c k (by
      rw [hc0 _ (by omega) (by omega)]; decide), hc0 _ (by omega) (by omega), Nat.zero_add]
  · intro k hk
    have h1 : Radix.countUp M32 1 byte2 c v0 (257+1+k) = 0 := by
      rw [Radix.countUp_out _ _ _ _ _ (fun x _ => by have := byte2_lt x; omega)]
      exact hc0 _ (by omega) (by omega)
    show Radix.countUp M32 257 byte3 (Radix.countUp M32 1 byte2 c v0) v0 (257+1+k) = _
    rw [Radix.countUp_at M32 257 (by decide) byte3 v0 _ k (by rw [h1]; decide), h1, Nat.zero_add]

theorem all_key {key : Nat → Nat} {v0 : List Nat} {k : Nat} (h : ¬ Radix.cnt key v0 k < v0.length) : ∀ v ∈ v0, key v = k := by
  have h1 : Radix.cnt key v0 k = v0.length := by
    have := Radix.cnt_le key v0 k; omega
  unfold Radix.cnt at h1
  rw [List.countP_eq_length] at h1
  intro v hv
  simpa using h1 v hv

theorem offsets_spec (junk : Nat → Nat) (v0 : List Nat) (hl : v0.length < M32) (hv : ∀ v ∈ v0, v < M32) :
    ((offsets junk v0).1 = 0 ∧ ∀ v ∈ v0, ∀ w ∈ v0, low16 v = low16 w → v = w) ∨
    ((offsets junk v0).1 = 1 ∧ (∀ v ∈ v0, ∀ w ∈ v0, byte2 v = byte2 w → low16 v = low16 w → v = w) ∧
      ∀ k, k < 256 → (offsets junk v0).2 (1 + k) = Radix.below byte2 v0 k) ∨
    ((offsets junk v0).1 = 2 ∧ (∀ k, k < 256 → (offsets junk v0).2 (1 + k) = Radix.below byte2 v0 k) ∧
      ∀ k, k < 256 → (offsets junk v0).2 (257 + k) = Radix.below byte3 v0 k) := by
  obtain ⟨h1, h2, h3⟩ := offsets_counts junk v0
  unfold offsets
  simp only [] at h1 h2 h3 ⊢
  generalize hC : Radix.countUp M32 257 byte3 (Radix.countUp M32 1 byte2 (fun j => if 1 ≤ j ∧ j < 514 then 0 else junk j) v0) v0 = C at *
  have m3 : ∀ k, Radix.cnt byte3 v0 k % M32 = Radix.cnt byte3 v0 k := fun k =>
    Nat.mod_eq_of_lt (Nat.lt_of_le_of_lt (Radix.cnt_le _ _ _) hl)
  have m2 : ∀ k, Radix.cnt byte2 v0 k % M32 = Radix.cnt byte2 v0 k := fun k =>
    Nat.mod_eq_of_lt (Nat.lt_of_le_of_lt (Radix.cnt_le _ _ _) hl)
  by_cases a : C (257 + 1 + byte3 (v0.headD 0)) < v0.length
  · right; right
    rw [if_pos a]
    refine ⟨rfl, ?_, ?_⟩
    · intro k hk
      show Radix.sums M32 256 257 0 _ (1 + k) = _
      rw [Radix.sums_out _ _ _ _ _ _ (by omega)]
      refine Radix.sums_up M32 1 byte2 v0 _ ?_ ?_ hl hk
      · rw [Radix.upd_other _ _ (by omega)]; exact h1
      · intro i hi
        rw [Radix.upd_other _ _ (by omega)]; exact h2 i (by omega)
    · intro k hk
      refine Radix.sums_up M32 257 byte3 v0 _ ?_ ?_ hl hk
      · rw [Radix.sums_out _ _ _ _ _ _ (by omega), Radix.upd_same]
      · intro i hi
        rw [Radix.sums_out _ _ _ _ _ _ (by omega), Radix.upd_other _ _ (by omega)]; exact h3 i (by omega)
  · rw [if_neg a]
    rw [h3 _ (byte3_lt _), m3] at a
    have e3 := all_key a
    by_cases b : C (1 + 1 + byte2 (v0.headD 0)) < v0.length
    · right; left
      rw [if_pos b]
      refine ⟨rfl, ?_, ?_⟩
      · intro v hv' w hw e2 e1
        have h1 := e3 v hv'
        have h2 := e3 w hw
        have b1 := hv v hv'
        have b2 := hv w hw
        rw [← h2] at h1
        unfold byte3 at h1
        unfold byte2 at e2
        unfold low16 at e1
        unfold M32 at b1 b2
        omega
      · intro k hk
        exact Radix.sums_up M32 1 byte2 v0 _ h1 (fun i hi => h2 i (by omega)) hl hk
    · left
      rw [if_neg b]
      rw [h2 _ (byte2_lt _), m2] at b
      have e2 := all_key b
      refine ⟨rfl, ?_⟩
      intro v hv' w hw e1
      have h1 := e3 v hv'
      have h2 := e3 w hw
      have h3 := e2 v hv'
      have h4 := e2 w hw
      have b1 := hv v hv'
      have b2 := hv w hw
      rw [← h2] at h1
      rw [← h4] at h3
      unfold byte3 at h1
      unfold byte2 at h3
      unfold low16 at e1
      unfold M32 at b1 b2
      omega

theorem below_perm (key : Nat → Nat) {l m : List Nat} (h : l.Perm m) (k : Nat) : Radix.below key l k = Radix.below key m k := by
  unfold Radix.below
  exact h.countP_eq _

theorem radixLookup_spec (junk : Junk) (init : Nat) (set g : Nat → Nat) (h0 : g 0 = init) (hg : ∀ t, g (t+1) = set (g t)) (w : Nat)
    (v0 : List Nat) (hne : v0 ≠ []) (hl : v0.length < M32) (hv : ∀ v ∈ v0, v < M32) :
    radixLookup junk init set w v0 = some (along (ans g) [] v0) := by
  unfold radixLookup
  simp only []
  rcases offsets_spec junk.cnt v0 hl hv with ⟨ho, hinj⟩ | ⟨ho, hinj, hc⟩ | ⟨ho, hc2, hc3⟩
  · rw [if_pos ho]
    obtain ⟨t, ht⟩ := tabRun_spec low16 set g hg v0 [] (tabInit (decide (v0.length < 65536 / (64 / w))) 65536 init low16 junk.tab v0) hinj
      (fun v hv => by rw [tabInit_spec _ _ _ _ _ _ (fun v _ => low16_lt v) v hv]; simp [ans, h0])
    rw [ht]; rfl
  · rw [if_neg (by omega)]
    obtain ⟨c', o', p1, p2, p3, p4, _⟩ := Radix.pass_bsort M32 v0.length (1 + byte2 ·) byte2 (fun x y => by omega) byte2_lt id v0 rfl hl
      (offsets junk.cnt v0).2 (fun x _ => hc _ (byte2_lt x)) (fun _ => none)
    have hlen := Radix.bsort_length_all byte2 (fun x (_ : x ∈ v0) => byte2_lt x)
    rw [List.map_id] at p4
    have hperm := Radix.bsort_perm byte2 (fun x (_ : x ∈ v0) => byte2_lt x)
    have hend := after_move hc p2 p3
    rw [p1, Option.bind_some, Radix.read_pass hlen p4, Option.bind_some, if_pos ho]
    generalize hL : Radix.bsort byte2 256 v0 = L at *
    have hs : L.Pairwise fun a b => byte2 a ≤ byte2 b := by
      have := Radix.bsort_pairwise byte2 256 (xs := v0) (R := fun _ _ => True) (List.pairwise_of_forall (fun _ _ => trivial))
      rw [hL] at this
      exact this.imp fun h => by omega
    rw [buckets_spec init set g h0 hg _ c' L hs ?_ ?_ v0.length junk.tab 0 (by omega) (by simp), Option.bind_some]
    · simp only [List.take_zero, List.drop_zero]
      rw [← hL]
      apply unmove_along M32 0 byte2 byte2_lt g v0 hl
      intro x hx
      rw [Nat.zero_add]
      have := byte2_lt x
      cases hk : byte2 x with
      | zero => rw [Radix.upd_same, Radix.below_zero]
      | succ k =>
        rw [Radix.upd_other _ _ (by omega), show k + 1 = 1 + k by omega]
        show c' (1 + k) = _
        rw [hend k (by omega), Nat.add_comm]
    · intro v _
      rw [hend _ (byte2_lt v), below_perm byte2 hperm]
    · intro a ha b hb
      exact hinj a (hperm.mem_iff.1 ha) b (hperm.mem_iff.1 hb)
  · rw [if_neg (by omega)]
    obtain ⟨c1, o1, p1, p2, p3, p4, _⟩ := Radix.pass_bsort M32 v0.length (1 + byte2 ·) byte2 (fun x y => by omega) byte2_lt id v0 rfl hl
      (offsets junk.cnt v0).2 (fun x _ => hc2 _ (byte2_lt x)) (fun _ => none)
    have hlen := Radix.bsort_length_all byte2 (fun x (_ : x ∈ v0) => byte2_lt x)
    rw [List.map_id] at p4
    have hperm := Radix.bsort_perm byte2 (fun x (_ : x ∈ v0) => byte2_lt x)
    have hend := after_move hc2 p2 p3
    rw [p1, Option.bind_some, Radix.read_pass hlen p4, Option.bind_some, if_neg (by omega)]
    have hpw : (Radix.bsort byte2 256 v0).Pairwise fun a b => byte2 a ≤ byte2 b := by
      have := Radix.bsort_pairwise byte2 256 (xs := v0) (R := fun _ _ => True) (List.pairwise_of_forall (fun _ _ => trivial))
      exact this.imp fun h => by omega
    generalize hL : Radix.bsort byte2 256 v0 = L at *
    have hc3' : ∀ k, k < 256 → c1 (257 + k) = Radix.below byte3 L k := by
      intro k hk
      rw [p3 _ (fun x _ => by have := byte2_lt x; omega), hc3 k hk, below_perm byte3 hperm]
    obtain ⟨c2, o2, q1, q2, q3, q4, _⟩ := Radix.pass_bsort M32 v0.length (257 + byte3 ·) byte3 (fun x y => by omega) byte3_lt id L hlen hl
      c1 (fun x _ => hc3' _ (byte3_lt x)) (fun _ => none)
    have hlen2 : (Radix.bsort byte3 256 L).length = v0.length := by
      rw [Radix.bsort_length_all byte3 (fun x (_ : x ∈ L) => byte3_lt x), hlen]
    rw [List.map_id] at q4
    have hperm2 := Radix.bsort_perm byte3 (fun x (_ : x ∈ L) => byte3_lt x)
    have hend2 := after_move hc3' q2 q3
    rw [q1, Option.bind_some, Radix.read_pass hlen2 q4, Option.bind_some]
    have hpw2 : (Radix.bsort byte3 256 L).Pairwise fun a b => top a ≤ top b := by
      have := Radix.bsort_pairwise byte3 256 hpw
      refine List.Pairwise.imp_of_mem ?_ this
      intro a b ha hb h
      have b1 := hv a (hperm.mem_iff.1 (hperm2.mem_iff.1 ha))
      have b2 := hv b (hperm.mem_iff.1 (hperm2.mem_iff.1 hb))
      unfold byte3 byte2 at h
      unfold M32 at b1 b2
      unfold top
      omega
    have hmem2 : ∀ v ∈ Radix.bsort byte3 256 L, v < M32 := fun v h => hv v (hperm.mem_iff.1 (hperm2.mem_iff.1 h))
    generalize hL2 : Radix.bsort byte3 256 L = L2 at *
    have hne2 : L2 ≠ [] := by
      intro h
      rw [h] at hlen2
      exact hne (List.length_eq_zero_iff.1 hlen2.symm)
    rw [List.getLast?_eq_some_getLast hne2, Option.bind_some]
    rw [groups_spec init set g h0 hg (M32 - 1 - L2.getLast hne2) (v0.length+1) L2 [] junk.tab _ (by omega) hpw2 (by simp) ?_ ?_,
      Option.bind_some]
    · rw [← hL2, unmove_along M32 256 byte3 byte3_lt g L (by omega), Option.bind_some, ← hL]
      · apply unmove_along M32 0 byte2 byte2_lt g v0 hl
        intro x hx
        rw [Nat.zero_add]
        have := byte2_lt x
        cases hk : byte2 x with
        | zero => rw [Radix.upd_same, Radix.below_zero]
        | succ k =>
          rw [Radix.upd_other _ _ (by omega), Radix.upd_other _ _ (by omega)]
          show c2 (k + 1) = _
          rw [q3 _ (fun y _ => by omega), show k + 1 = 1 + k by omega, hend k (by omega), Nat.add_comm]
      · intro x hx
        have := byte3_lt x
        cases hk : byte3 x with
        | zero => rw [Nat.add_zero, Radix.upd_same, Radix.below_zero]
        | succ k =>
          rw [Radix.upd_other _ _ (by omega), show 256 + (k+1) = 257 + k by omega]
          exact hend2 k (by omega)
    · intro v hv
      cases L2 with
      | nil => simp at hv
      | cons a L2 =>
        have : a = v := by simpa using hv
        rw [this]; rfl
    · intro v hv
      rw [List.getLast?_eq_some_getLast hne2] at hv
      have hv : L2.getLast hne2 = v := by simpa using hv
      rw [hv]
      have := hmem2 v (by rw [← hv]; exact List.getLast_mem hne2)
      unfold top
      unfold M32 at *
      omega

end Verif.SelfSearch
