import Verif.EachRef.Blocks
namespace Verif.EachRef

/-- What is left when all is done. -/
def Good (res : Nat → V) (n : Nat) (w x : Nat → Option V) (s : S) : Prop :=
  s.slots = (List.range n).map (fun i => some (res i)) ∧
    s.calls.map (fun c => (c.1, some c.2)) = (List.range n).map fun i => (w i, x i)

theorem give1 {s : S} {a : V} (h : ∀ j, s.hand j = one a j) :
    ∃ s', s.give a = some s' ∧ (∀ j, s'.hand j = 0) ∧ s'.slots = s.slots ∧ s'.calls = s.calls :=
  give_ok (b := fun _ => 0) (fun j => by rw [h j]; omega)

theorem give2 {s : S} {a b : V} (h : ∀ j, s.hand j = one a j + one b j) :
    ∃ s', ((s.give a).bind fun s => s.give b) = some s' ∧ (∀ j, s'.hand j = 0) ∧ s'.slots = s.slots ∧ s'.calls = s.calls := by
  obtain ⟨s1, a1, a2, a3, a4⟩ := give_ok (s := s) (v := a) (b := one b) (fun j => by rw [h j]; omega)
  obtain ⟨s2, b1, b2, b3, b4⟩ := give1 a2
  exact ⟨s2, by rw [a1]; exact b1, b2, by rw [b3, a3], by rw [b4, a4]⟩

theorem give3 {s : S} {a b c : V} (h : ∀ j, s.hand j = one a j + one b j + one c j) :
    ∃ s', ((s.give a).bind fun s => (s.give b).bind fun s => s.give c) = some s' ∧ (∀ j, s'.hand j = 0) ∧
      s'.slots = s.slots ∧ s'.calls = s.calls := by
  obtain ⟨s1, a1, a2, a3, a4⟩ := give_ok (s := s) (v := a) (b := fun j => one b j + one c j)
    (fun j => by rw [h j]; omega)
  obtain ⟨s2, b1, b2, b3, b4⟩ := give2 a2
  exact ⟨s2, by rw [a1]; exact b1, b2, by rw [b3, a3], by rw [b4, a4]⟩

theorem good_of {res : Nat → V} {n : Nat} {wo xo : Nat → Option V} {wf : Nat → Option V} {xf : Nat → V} {s s' : S}
    (hc : s.calls = []) (hl : s.slots.length = n) (h3 : s'.slots.length = s.slots.length)
    (h4 : ∀ k, s'.slots[k]? =
      if 0 ≤ k ∧ k < 0 + n then some (some (res (s.calls.length + (k - 0)))) else s.slots[k]?)
    (h5 : s'.calls = s.calls ++ (List.range' 0 n).map fun k => (wf k, xf k))
    (ha : ∀ k, k < n → wo k = wf k ∧ xo k = some (xf k)) : Good res n wo xo s' := by
  constructor
  · apply List.ext_getElem?
    intro k
    rw [h4 k, hc, List.getElem?_map]
    by_cases hk : k < n
    · rw [if_pos (by omega), List.getElem?_range hk]
      simp
    · rw [if_neg (by omega), List.getElem?_eq_none (by omega), List.getElem?_eq_none (by rw [List.length_range]; omega)]
      rfl
  · rw [h5, hc, List.nil_append, List.map_map, ← List.range_eq_range']
    apply List.map_congr_left
    intro k hk
    obtain ⟨e1, e2⟩ := ha k (List.mem_range.mp hk)
    rw [e1, e2]
    rfl

theorem good_congr {res : Nat → V} {n : Nat} {w x : Nat → Option V} {s s' : S} (h : Good res n w x s)
    (h1 : s'.slots = s.slots) (h2 : s'.calls = s.calls) : Good res n w x s' := by
  unfold Good at *
  rw [h1, h2]
  exact h

theorem disclose_ok {a : Arg} {s : S} {b : Hand} (ok : a.Ok) (h : ∀ j, s.hand j = b j + one a.v j) :
    ∃ v s', s.disclose a = some (v, s') ∧ (∀ j, s'.hand j = b j + one v j) ∧ s'.slots = s.slots ∧ s'.calls = s.calls ∧
      (a.rank = 0 → a.items = [v]) ∧ (0 < a.rank → a.items = a.els) := by
  unfold S.disclose
  by_cases hc : a.isArr = true ∧ a.rank = 0
  · rw [if_pos hc, if_neg (by rw [h a.v, one_self]; omega)]
    have hl := ok.2 hc.1 hc.2
    match he : a.els, hl with
    | [e], _ =>
      obtain ⟨s1, a1, a2, a3, a4⟩ := give_ok (s := s.inc e 1) (v := a.v) (b := fun j => b j + one e j)
        (fun j => by rw [inc_hand, h j]; omega)
      refine ⟨e, s1, ?_, a2, a3, a4, ?_, ?_⟩
      · simp [a1]
      · intro _
        unfold Arg.items
        rw [if_pos hc.1, he]
      · intro h0
        omega
  · rw [if_neg hc]
    refine ⟨a.v, s, rfl, h, rfl, rfl, ?_, ?_⟩
    · intro h0
      unfold Arg.items
      rw [if_neg]
      intro h1
      exact hc ⟨h1, h0⟩
    · intro h0
      unfold Arg.items
      rw [if_pos]
      cases h1 : a.isArr with
      | true => rfl
      | false => have := (ok.1 h1).1; omega

theorem at_same {a : Arg} {n i : Nat} (h : a.items.length = n) (hi : i < n) : a.at n i = some (a.items.getD i 0) := by
  unfold Arg.at
  rw [h, Nat.div_self (by omega), Nat.div_one, List.getD_eq_getElem?_getD, List.getElem?_eq_getElem (by omega)]
  rfl

theorem at_one {a : Arg} {n i : Nat} {v : V} (h : a.items = [v]) (hi : i < n) : a.at n i = some v := by
  unfold Arg.at
  rw [h]
  simp only [List.length_cons, List.length_nil, Nat.zero_add, Nat.div_one]
  rw [Nat.div_eq_of_lt hi]
  rfl

theorem at_block {a : Arg} {ext i : Nat} (h : i < ext * a.items.length) (he : 0 < ext) :
    a.at (ext * a.items.length) i = some (a.items.getD (i / ext) 0) := by
  unfold Arg.at
  have h0 : 0 < a.items.length := by
    rcases Nat.eq_zero_or_pos a.items.length with h0 | h0
    · rw [h0] at h; omega
    · exact h0
  rw [Nat.mul_div_cancel _ h0, List.getD_eq_getElem?_getD, List.getElem?_eq_getElem (by
    rw [Nat.div_lt_iff_lt_mul he, Nat.mul_comm]; exact h)]
  rfl

theorem getq {l : List V} {k : Nat} (h : k < l.length) : l[k]? = some (l.getD k 0) := by
  rw [List.getD_eq_getElem?_getD, List.getElem?_eq_getElem h]
  rfl

theorem slot_move {l : List V} {k : Nat} (h : k < l.length) :
    Src.item (l.map some) k .move = some (some (l.getD k 0)) ∧ ∃ v, (l.map some)[k]? = some (some v) := by
  have : (l.map some)[k]? = some (some (l.getD k 0)) := by rw [List.getElem?_map, getq h]; rfl
  exact ⟨by simp only [Src.item, this], _, this⟩

theorem get_item {l : List V} {a : V} {k : Nat} {slots : List (Option V)} (h : k < l.length) :
    Src.item slots k (.get a l) = some (some (l.getD k 0)) := by
  simp only [Src.item, getq h]
  rfl

theorem mul_pred (n : Nat) (h : 0 < n) (c : Nat) : (n - 1) * c + c = n * c := by
  obtain ⟨m, rfl⟩ : ∃ m, n = m + 1 := ⟨n - 1, by omega⟩
  rw [Nat.add_sub_cancel, Nat.succ_mul]

/-- Overwriting `𝕨` or `𝕩` of the same shape, or extending an atom. -/
theorem reuse_ok {res : Nat → V} {ws xs : Src} {els : List V} {wf : Nat → Option V} {xf : Nat → V} {wo xo : Nat → Option V}
    {b : Hand} {s : S} (hm : ws.isMove = false ∧ xs.isMove = true ∨ ws.isMove = true ∧ xs.isMove = false)
    (hw : ws.Reads b) (hx : xs.Reads b)
    (h : ∀ j, s.hand j = b j + els.length * ws.cost j + els.length * xs.cost j) (hc : s.calls = [])
    (hs : s.slots = els.map some)
    (hi : ∀ k, k < els.length → ws.item (els.map some) k = some (wf k) ∧ xs.item (els.map some) k = some (some (xf k)))
    (ha : ∀ k, k < els.length → wo k = wf k ∧ xo k = some (xf k)) :
    ∃ s', loop res ws xs els.length 0 s = some s' ∧ (∀ j, s'.hand j = b j) ∧ Good res els.length wo xo s' := by
  obtain ⟨s1, a1, a2, a3, a4, a5⟩ := loop_ok (res := res) (ws := ws) (xs := xs) (wf := wf) (xf := xf) (b := b)
    (hm.elim (fun h => .inl h.1) (fun h => .inr h.2)) hw hx els.length 0 s h (by
      intro k _ h2
      obtain ⟨i1, i2⟩ := hi k (by omega)
      rw [hs]
      refine ⟨i1, i2, ?_⟩
      unfold Before
      rw [if_pos (by rcases hm with h | h <;> simp [h.1, h.2])]
      exact (slot_move (by omega)).2)
  exact ⟨s1, a1, a2, good_of hc (by rw [hs, List.length_map]) a3 a4 a5 ha⟩

/-- Making a new array. -/
theorem fresh_ok {res : Nat → V} {ws xs : Src} {n : Nat} {wf : Nat → Option V} {xf : Nat → V} {wo xo : Nat → Option V}
    {b : Hand} {s : S} (hm : ws.isMove = false ∧ xs.isMove = false) (hw : ws.Reads b) (hx : xs.Reads b)
    (h : ∀ j, s.hand j = b j + n * ws.cost j + n * xs.cost j) (hc : s.calls = []) (hs : s.slots = List.replicate n none)
    (hi : ∀ k, k < n → ws.item (List.replicate n none) k = some (wf k) ∧
      xs.item (List.replicate n none) k = some (some (xf k)))
    (ha : ∀ k, k < n → wo k = wf k ∧ xo k = some (xf k)) :
    ∃ s', loop res ws xs n 0 s = some s' ∧ (∀ j, s'.hand j = b j) ∧ Good res n wo xo s' := by
  obtain ⟨s1, a1, a2, a3, a4, a5⟩ := loop_ok (res := res) (ws := ws) (xs := xs) (wf := wf) (xf := xf) (b := b)
    (.inl hm.1) hw hx n 0 s h (by
      intro k _ h2
      obtain ⟨i1, i2⟩ := hi k (by omega)
      rw [hs]
      refine ⟨i1, i2, ?_⟩
      unfold Before
      rw [if_neg (by simp [hm.1, hm.2]), List.getElem?_replicate, if_pos (by omega)])
  exact ⟨s1, a1, a2, good_of hc (by rw [hs, List.length_replicate]) a3 a4 a5 ha⟩

/-- Extending along trailing axes. -/
theorem fresh_blocks {res : Nat → V} {left : Bool} {small a : V} {bels cs : List V} {ext : Nat} {b : Hand} {s : S}
    {wo xo : Nat → Option V} (he : 0 < ext) (hsm : 1 ≤ b small) (hba : 1 ≤ b a) (hl : bels.length = ext * cs.length)
    (h : ∀ j, s.hand j = b j) (hc : s.calls = []) (hs : s.slots = List.replicate bels.length none)
    (ha : ∀ k, k < bels.length →
      (wo k, xo k) = (fun p : Option V × V => (p.1, some p.2)) (pairOf left (cs.getD (k / ext) 0) (bels.getD k 0))) :
    ∃ s', blocks res left small (.get a bels) ext cs 0 s = some s' ∧ (∀ j, s'.hand j = b j) ∧
      Good res bels.length wo xo s' := by
  obtain ⟨s1, a1, a2, a3, a4, a5⟩ := blocks_ok (res := res) (left := left) (small := small) (a := a) (bels := bels)
    (ext := ext) (bf := fun k => bels.getD k 0) (b := b) he hsm hba cs 0 s h
    (fun k _ h2 => getq (by omega))
    (fun k _ h2 => by rw [hs, List.getElem?_replicate, if_pos (by omega)])
  rw [← hl] at a4 a5
  refine ⟨s1, a1, a2, good_of hc (by rw [hs, List.length_replicate]) a3 a4
    (wf := fun k => (pairOf left (cs.getD (k / ext) 0) (bels.getD k 0)).1)
    (xf := fun k => (pairOf left (cs.getD (k / ext) 0) (bels.getD k 0)).2) (by simpa using a5) ?_⟩
  intro k hk
  have := ha k hk
  simp only [Prod.mk.injEq] at this
  exact this

end Verif.EachRef
