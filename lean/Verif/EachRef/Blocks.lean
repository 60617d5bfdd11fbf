import Verif.EachRef.Lemmas
namespace Verif.EachRef

theorem inc_hand (s : S) (v : V) (k j : Nat) : (s.inc v k).hand j = s.hand j + k * one v j := rfl

/-- The calls of the nested loops. -/
def pairOf (left : Bool) (c v : V) : Option V × V := if left then (some c, v) else (some v, c)

theorem block_ok {res : Nat → V} {left : Bool} {a : V} {bels : List V} {ext : Nat} {bf : Nat → V} {b : Hand} {c : V}
    (ha : 1 ≤ b a) (i : Nat) (s : S) (h : ∀ j, s.hand j = b j + ext * one c j)
    (hb : ∀ k, i ≤ k → k < i + ext → bels[k]? = some (bf k)) (hs : ∀ k, i ≤ k → k < i + ext → s.slots[k]? = some none) :
    ∃ s', (if left then loop res (.copy c) (.get a bels) ext i s else loop res (.get a bels) (.copy c) ext i s) = some s' ∧
      (∀ j, s'.hand j = b j) ∧ s'.slots.length = s.slots.length ∧
      (∀ k, s'.slots[k]? = if i ≤ k ∧ k < i + ext then some (some (res (s.calls.length + (k - i)))) else s.slots[k]?) ∧
      s'.calls = s.calls ++ (List.range' i ext).map fun k => pairOf left c (bf k) := by
  cases left with
  | true =>
    have := loop_ok (res := res) (ws := .copy c) (xs := .get a bels) (wf := fun _ => some c) (xf := bf) (b := b)
      (.inl rfl) trivial ha ext i s (fun j => by rw [h j]; simp [Src.cost]) (fun k h1 h2 =>
        ⟨rfl, by simp only [Src.item, hb k h1 h2]; rfl, by simp only [Before, Src.isMove]; exact hs k h1 h2⟩)
    simpa [pairOf] using this
  | false =>
    have := loop_ok (res := res) (ws := .get a bels) (xs := .copy c) (wf := fun k => some (bf k)) (xf := fun _ => c) (b := b)
      (.inl rfl) ha trivial ext i s (fun j => by rw [h j]; simp [Src.cost]) (fun k h1 h2 =>
        ⟨by simp only [Src.item, hb k h1 h2]; rfl, rfl, by simp only [Before, Src.isMove]; exact hs k h1 h2⟩)
    simpa [pairOf] using this

theorem blocks_ok {res : Nat → V} {left : Bool} {small a : V} {bels : List V} {ext : Nat} {bf : Nat → V} {b : Hand}
    (he : 0 < ext) (hsm : 1 ≤ b small) (ha : 1 ≤ b a) (cs : List V) : ∀ (i : Nat) (s : S), (∀ j, s.hand j = b j) →
    (∀ k, i ≤ k → k < i + ext * cs.length → bels[k]? = some (bf k)) →
    (∀ k, i ≤ k → k < i + ext * cs.length → s.slots[k]? = some none) →
    ∃ s', blocks res left small (.get a bels) ext cs i s = some s' ∧ (∀ j, s'.hand j = b j) ∧
      s'.slots.length = s.slots.length ∧
      (∀ k, s'.slots[k]? =
        if i ≤ k ∧ k < i + ext * cs.length then some (some (res (s.calls.length + (k - i)))) else s.slots[k]?) ∧
      s'.calls = s.calls ++ (List.range' i (ext * cs.length)).map fun k =>
        pairOf left (cs.getD ((k - i) / ext) 0) (bf k) := by
  induction cs with
  | nil =>
    intro i s h _ _
    refine ⟨s, rfl, h, rfl, ?_, by simp⟩
    intro k
    rw [if_neg (by simp only [List.length_nil]; omega)]
  | cons c cs ih =>
    intro i s h hb hs
    have hl : ext * (c :: cs).length = ext + ext * cs.length := by
      rw [List.length_cons, Nat.mul_succ]; omega
    rw [hl] at hb hs
    obtain ⟨s1, a1, a2, a3, a4, a5⟩ := block_ok (res := res) (left := left) (a := a) (bels := bels) (ext := ext) (bf := bf)
      (b := b) (c := c) ha i ((s.inc c 1).inc c (ext - 1))
      (fun j => by
        rw [inc_hand, inc_hand, h j, Nat.one_mul, Nat.add_assoc]
        congr 1
        obtain ⟨e, rfl⟩ : ∃ e, ext = e + 1 := ⟨ext - 1, by omega⟩
        rw [Nat.succ_mul, Nat.add_sub_cancel]
        omega)
      (fun k h1 h2 => hb k h1 (by omega)) (fun k h1 h2 => hs k h1 (by omega))
    have hc : ((s.inc c 1).inc c (ext - 1)).calls = s.calls := rfl
    have hsl : ((s.inc c 1).inc c (ext - 1)).slots = s.slots := rfl
    rw [hc] at a4 a5
    rw [hsl] at a3 a4
    obtain ⟨s2, b1, b2, b3, b4, b5⟩ := ih (i + ext) s1 a2 (fun k h1 h2 => hb k (by omega) (by omega))
      (fun k h1 h2 => by rw [a4 k, if_neg (by omega)]; exact hs k (by omega) (by omega))
    refine ⟨s2, ?_, b2, by rw [b3, a3], ?_, ?_⟩
    · simp only [blocks]
      rw [if_neg (by rw [h small]; omega), a1]
      exact b1
    · intro k
      rw [hl, b4 k, a5, List.length_append, List.length_map, List.length_range']
      by_cases h1 : i + ext ≤ k ∧ k < i + ext + ext * cs.length
      · rw [if_pos h1, if_pos (by omega)]
        have : s.calls.length + ext + (k - (i + ext)) = s.calls.length + (k - i) := by omega
        rw [this]
      · rw [if_neg h1, a4 k]
        by_cases h2 : i ≤ k ∧ k < i + ext
        · rw [if_pos h2, if_pos (by omega)]
        · rw [if_neg h2, if_neg (by omega)]
    · have hr : List.range' i (ext + ext * cs.length) = List.range' i ext ++ List.range' (i + ext) (ext * cs.length) := by
        rw [List.range'_append_1]
      rw [b5, a5, hl, hr, List.map_append, List.append_assoc]
      congr 1
      congr 1
      · apply List.map_congr_left
        intro k hk
        rw [List.mem_range'_1] at hk
        rw [Nat.div_eq_of_lt (by omega)]
        rfl
      · apply List.map_congr_left
        intro k hk
        rw [List.mem_range'_1] at hk
        have : (k - i) / ext = (k - (i + ext)) / ext + 1 := by
          have : k - i = (k - (i + ext)) + ext := by omega
          rw [this, Nat.add_div_right _ he]
        rw [this, List.getD_cons_succ]

end Verif.EachRef
