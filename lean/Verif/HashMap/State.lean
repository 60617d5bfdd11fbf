import Verif.HashMap.Find
/-! # Lemmas: the lists of keys and values -/
namespace Verif.HashMap
variable {K V : Type}

/-- The element at an index, if there is one and it is not deleted. -/
def live {α : Type} (l : List (Option α)) (i : Nat) : Option α := (l[i]?).join

/-- The contents given by the lists. -/
def pairs : List (Option K) → List (Option V) → List (K × V)
  | some k :: ks, some v :: vs => (k, v) :: pairs ks vs
  | _ :: ks, _ :: vs => pairs ks vs
  | _, _ => []

@[simp] theorem live_nil {α : Type} (i : Nat) : live ([] : List (Option α)) i = none := by simp [live]
@[simp] theorem live_zero {α : Type} (a : Option α) (l : List (Option α)) : live (a :: l) 0 = a := by simp [live]
@[simp] theorem live_succ {α : Type} (a : Option α) (l : List (Option α)) (i : Nat) : live (a :: l) (i+1) = live l i := by simp [live]

theorem live_get {α : Type} {l : List (Option α)} {i : Nat} {k : α} : live l i = some k ↔ l[i]? = some (some k) := by
  unfold live
  cases h : l[i]? with
  | none => simp
  | some o => simp

theorem live_lt {α : Type} {l : List (Option α)} {i : Nat} {k : α} (h : live l i = some k) : i < l.length := by
  rw [live_get] at h
  exact (List.getElem?_eq_some_iff.1 h).1

theorem mem_pairs {k : K} {v : V} : ∀ {ks : List (Option K)} {vs : List (Option V)},
    (k, v) ∈ pairs ks vs ↔ ∃ i, live ks i = some k ∧ live vs i = some v
  | [], _ => by simp [pairs]
  | _ :: _, [] => by simp [pairs]
  | some k' :: ks, some v' :: vs => by
    rw [pairs, List.mem_cons, mem_pairs]
    constructor
    · rintro (h | ⟨i, h⟩)
      · cases h; exact ⟨0, by simp⟩
      · exact ⟨i+1, by simpa using h⟩
    · rintro ⟨i, h⟩
      cases i with
      | zero => left; simp at h; rw [h.1, h.2]
      | succ i => right; exact ⟨i, by simpa using h⟩
  | none :: ks, v' :: vs => by
    rw [pairs, mem_pairs]
    · constructor
      · rintro ⟨i, h⟩; exact ⟨i+1, by simpa using h⟩
      · rintro ⟨i, h⟩
        cases i with
        | zero => simp at h
        | succ i => exact ⟨i, by simpa using h⟩
    · intro _ _ h; cases h
  | some k' :: ks, none :: vs => by
    rw [pairs, mem_pairs]
    · constructor
      · rintro ⟨i, h⟩; exact ⟨i+1, by simpa using h⟩
      · rintro ⟨i, h⟩
        cases i with
        | zero => simp at h
        | succ i => exact ⟨i, by simpa using h⟩
    · intro _ _ _ h; cases h

/-- Deleted keys are those with deleted values. -/
def Sync (ks : List (Option K)) (vs : List (Option V)) : Prop :=
  vs.length = ks.length ∧ ∀ i, (live ks i).isSome = (live vs i).isSome

theorem sync_tail {k : Option K} {ks : List (Option K)} {v : Option V} {vs : List (Option V)} (h : Sync (k :: ks) (v :: vs)) :
    k.isSome = v.isSome ∧ Sync ks vs :=
  ⟨by simpa using h.2 0, by simpa using h.1, fun i => by simpa using h.2 (i+1)⟩

theorem pairs_length : ∀ {ks : List (Option K)} {vs : List (Option V)}, Sync ks vs → (pairs ks vs).length = (ks.filter (·.isSome)).length
  | [], _, _ => by simp [pairs]
  | k :: ks, [], h => by have := h.1; simp at this
  | k :: ks, v :: vs, h => by
    obtain ⟨h1, h2⟩ := sync_tail h
    cases k <;> cases v <;> simp_all [pairs, pairs_length h2]

theorem pairs_keys : ∀ {ks : List (Option K)} {vs : List (Option V)}, Sync ks vs →
    (pairs ks vs).map (fun e => some e.1) = ks.filter (·.isSome)
  | [], _, _ => by simp [pairs]
  | k :: ks, [], h => by have := h.1; simp at this
  | k :: ks, v :: vs, h => by
    obtain ⟨h1, h2⟩ := sync_tail h
    cases k <;> cases v <;> simp_all [pairs, pairs_keys h2]

theorem pairs_vals : ∀ {ks : List (Option K)} {vs : List (Option V)}, Sync ks vs →
    (pairs ks vs).map (fun e => some e.2) = vs.filter (·.isSome)
  | [], [], _ => by simp [pairs]
  | [], v :: vs, h => by have := h.1; simp at this
  | k :: ks, [], h => by have := h.1; simp at this
  | k :: ks, v :: vs, h => by
    obtain ⟨h1, h2⟩ := sync_tail h
    cases k <;> cases v <;> simp_all [pairs, pairs_vals h2]

theorem pairs_filter : ∀ {ks : List (Option K)} {vs : List (Option V)}, Sync ks vs →
    pairs (ks.filter (·.isSome)) (vs.filter (·.isSome)) = pairs ks vs
  | [], [], _ => by simp [pairs]
  | [], v :: vs, h => by have := h.1; simp at this
  | k :: ks, [], h => by have := h.1; simp at this
  | k :: ks, v :: vs, h => by
    obtain ⟨h1, h2⟩ := sync_tail h
    cases k <;> cases v <;> simp_all [pairs, pairs_filter h2]

theorem pairs_append (w : K) (x : V) : ∀ {ks : List (Option K)} {vs : List (Option V)}, Sync ks vs →
    pairs (ks ++ [some w]) (vs ++ [some x]) = pairs ks vs ++ [(w, x)]
  | [], [], _ => by simp [pairs]
  | [], v :: vs, h => by have := h.1; simp at this
  | k :: ks, [], h => by have := h.1; simp at this
  | k :: ks, v :: vs, h => by
    obtain ⟨h1, h2⟩ := sync_tail h
    cases k <;> cases v <;> simp_all [pairs, pairs_append w x h2]

theorem live_append {α : Type} (l : List (Option α)) (w : α) (q : Nat) : live (l ++ [some w]) q = if q = l.length then some w else live l q := by
  unfold live
  by_cases c : q < l.length
  · rw [List.getElem?_append_left c, if_neg (by omega)]
  · rw [List.getElem?_append_right (by omega)]
    by_cases d : q = l.length
    · rw [if_pos d, d]; simp
    · rw [if_neg d, List.getElem?_eq_none (by simp; omega), List.getElem?_eq_none (by omega)]

theorem live_set {α : Type} (l : List (Option α)) (i : Nat) (o : Option α) (hi : i < l.length) (q : Nat) :
    live (l.set i o) q = if q = i then o else live l q := by
  unfold live
  by_cases c : q = i
  · rw [if_pos c, c, List.getElem?_set_self hi]; rfl
  · rw [if_neg c, List.getElem?_set_ne (by omega)]

theorem sync_append {ks : List (Option K)} {vs : List (Option V)} (h : Sync ks vs) (w : K) (x : V) :
    Sync (ks ++ [some w]) (vs ++ [some x]) :=
  ⟨by simp [h.1], fun i => by rw [live_append, live_append, h.1]; split <;> simp [h.2 i]⟩

theorem sync_set {ks : List (Option K)} {vs : List (Option V)} (h : Sync ks vs) {i : Nat} {k : K} (hi : live ks i = some k) (x : V) :
    Sync ks (vs.set i (some x)) := by
  refine ⟨by simp [h.1], fun q => ?_⟩
  rw [live_set _ _ _ (by rw [h.1]; exact live_lt hi)]
  by_cases c : q = i
  · rw [if_pos c, c, hi]; rfl
  · rw [if_neg c]; exact h.2 q

theorem sync_del {ks : List (Option K)} {vs : List (Option V)} (h : Sync ks vs) {i : Nat} (hi : i < ks.length) :
    Sync (ks.set i none) (vs.set i none) := by
  refine ⟨by simp [h.1], fun q => ?_⟩
  rw [live_set _ _ _ hi, live_set _ _ _ (by rw [h.1]; exact hi)]
  split
  · rfl
  · exact h.2 q

/-- No key is twice in the list. -/
def Dist (ks : List (Option K)) : Prop := ∀ i j k, live ks i = some k → live ks j = some k → i = j

theorem dist_tail {k : Option K} {ks : List (Option K)} (h : Dist (k :: ks)) : Dist ks := fun i j q h1 h2 => by
  have := h (i+1) (j+1) q (by simpa using h1) (by simpa using h2)
  omega

section
variable [DecidableEq K]

theorem pairs_set (w : K) (x : V) : ∀ {ks : List (Option K)} {vs : List (Option V)} {i : Nat}, Sync ks vs → Dist ks → live ks i = some w →
    pairs ks (vs.set i (some x)) = (pairs ks vs).map fun e => if e.1 = w then (w, x) else e
  | [], _, i, _, _, h => by simp at h
  | k :: ks, [], _, h, _, _ => by have := h.1; simp at this
  | k :: ks, v :: vs, i, h, hd, hi => by
    obtain ⟨h1, h2⟩ := sync_tail h
    cases i with
    | zero =>
      simp at hi
      subst hi
      cases v with
      | none => simp at h1
      | some v =>
        rw [List.set_cons_zero, pairs, pairs, List.map_cons, if_pos rfl]
        congr 1
        rw [List.map_congr_left (g := id)]
        · simp
        · intro e he
          obtain ⟨q, h3, _⟩ := mem_pairs.1 (show (e.1, e.2) ∈ _ from he)
          rw [if_neg]
          · rfl
          · intro h4
            have := hd 0 (q+1) w (by simp) (by rw [live_succ, h3, h4])
            omega
    | succ i =>
      have ih := pairs_set w x (i := i) h2 (dist_tail hd) (by simpa using hi)
      rw [List.set_cons_succ]
      cases k with
      | none => cases v <;> simp_all [pairs]
      | some k =>
        cases v with
        | none => simp at h1
        | some v =>
          have : k ≠ w := by
            rintro rfl
            have := hd 0 (i+1) k (by simp) hi
            omega
          rw [pairs, pairs, List.map_cons, if_neg this, ih]

theorem pairs_del (w : K) : ∀ {ks : List (Option K)} {vs : List (Option V)} {i : Nat}, Sync ks vs → Dist ks → live ks i = some w →
    pairs (ks.set i none) (vs.set i none) = (pairs ks vs).filter fun e => decide (e.1 ≠ w)
  | [], _, i, _, _, h => by simp at h
  | k :: ks, [], _, h, _, _ => by have := h.1; simp at this
  | k :: ks, v :: vs, i, h, hd, hi => by
    obtain ⟨h1, h2⟩ := sync_tail h
    cases i with
    | zero =>
      simp at hi
      subst hi
      cases v with
      | none => simp at h1
      | some v =>
        rw [List.set_cons_zero, List.set_cons_zero, pairs, pairs, List.filter_cons]
        · simp only [ne_eq, not_true_eq_false, decide_false, Bool.false_eq_true, if_false]
          symm
          rw [List.filter_eq_self]
          intro e he
          obtain ⟨q, h3, _⟩ := mem_pairs.1 (show (e.1, e.2) ∈ _ from he)
          have : e.1 ≠ w := by
            intro h4
            have := hd 0 (q+1) w (by simp) (by rw [live_succ, h3, h4])
            omega
          simpa using this
        · intro _ _ h; cases h
    | succ i =>
      have ih := pairs_del w (i := i) h2 (dist_tail hd) (by simpa using hi)
      rw [List.set_cons_succ, List.set_cons_succ]
      cases k with
      | none => cases v <;> simp_all [pairs]
      | some k =>
        cases v with
        | none => simp at h1
        | some v =>
          have : k ≠ w := by
            rintro rfl
            have := hd 0 (i+1) k (by simp) hi
            omega
          rw [pairs, pairs, List.filter_cons, ih, if_pos (by simpa using this)]

theorem valueOf_none {ks : List (Option K)} {vs : List (Option V)} {x : K} (h : ∀ i, live ks i ≠ some x) : valueOf (pairs ks vs) x = none := by
  unfold valueOf
  rw [Option.map_eq_none_iff, List.find?_eq_none]
  intro e he
  obtain ⟨q, h3, _⟩ := mem_pairs.1 (show (e.1, e.2) ∈ _ from he)
  have : e.1 ≠ x := by intro h4; exact h q (by rw [h3, h4])
  simpa using this

theorem valueOf_some {ks : List (Option K)} {vs : List (Option V)} {x : K} {i : Nat} {v : V} (hd : Dist ks) (h1 : live ks i = some x)
    (h2 : live vs i = some v) : valueOf (pairs ks vs) x = some v := by
  unfold valueOf
  cases h : List.find? (fun e => decide (e.1 = x)) (pairs ks vs) with
  | none =>
    rw [List.find?_eq_none] at h
    have := h (x, v) (mem_pairs.2 ⟨i, h1, h2⟩)
    simp at this
  | some e =>
    have he := List.mem_of_find?_eq_some h
    have hx := List.find?_some h
    simp at hx
    obtain ⟨q, h3, h4⟩ := mem_pairs.1 (show (e.1, e.2) ∈ _ from he)
    rw [hx] at h3
    rw [hd q i x h3 h1, h2] at h4
    rw [Option.map_some, h4]
end

/-! ## positions among the elements that are not deleted -/

def rank {α : Type} (l : List (Option α)) (i : Nat) : Nat := ((l.take i).filter (·.isSome)).length

theorem rank_le {α : Type} (l : List (Option α)) (i : Nat) : rank l i ≤ i := by
  unfold rank
  exact Nat.le_trans (List.length_filter_le _ _) (by rw [List.length_take]; omega)

theorem live_filter {α : Type} {k : α} : ∀ {l : List (Option α)} {i : Nat}, live l i = some k → live (l.filter (·.isSome)) (rank l i) = some k
  | [], _, h => by simp at h
  | a :: l, 0, h => by
    simp at h; subst h
    simp [rank]
  | a :: l, i+1, h => by
    have ih := live_filter (l := l) (i := i) (by simpa using h)
    unfold rank at *
    cases a <;> simpa using ih

theorem live_filter_inv {α : Type} {k : α} : ∀ {l : List (Option α)} {j : Nat}, live (l.filter (·.isSome)) j = some k →
    ∃ i, live l i = some k ∧ rank l i = j
  | [], _, h => by simp at h
  | none :: l, j, h => by
    obtain ⟨i, h1, h2⟩ := live_filter_inv (l := l) (j := j) (by simpa using h)
    exact ⟨i+1, by simpa using h1, by unfold rank at *; simpa using h2⟩
  | some a :: l, 0, h => ⟨0, by simpa using h, by simp [rank]⟩
  | some a :: l, j+1, h => by
    obtain ⟨i, h1, h2⟩ := live_filter_inv (l := l) (j := j) (by simpa using h)
    exact ⟨i+1, by simpa using h1, by unfold rank at *; simpa using h2⟩

theorem trim_spec [DecidableEq K] (ks : List (Option K)) : ∀ (n : Nat), trim ks n ≤ n ∧ ∀ r, trim ks n ≤ r → r < n → live ks r = none
  | 0 => ⟨Nat.le_refl _, fun r _ h => by omega⟩
  | n+1 => by
    rw [trim]
    by_cases c : (ks[n]?).join.isNone
    · rw [if_pos c]
      obtain ⟨h1, h2⟩ := trim_spec ks n
      refine ⟨by omega, fun r h3 h4 => ?_⟩
      by_cases d : r = n
      · rw [d]; exact Option.isNone_iff_eq_none.1 c
      · exact h2 r h3 (by omega)
    · rw [if_neg c]; exact ⟨Nat.le_refl _, fun r _ _ => by omega⟩

theorem filter_take_all {α : Type} : ∀ (l : List (Option α)) (n : Nat), (∀ r, n ≤ r → live l r = none) →
    (l.take n).filter (·.isSome) = l.filter (·.isSome)
  | [], n, _ => by simp
  | a :: l, 0, h => by
    have h0 := h 0 (Nat.le_refl _)
    simp at h0
    have ih := filter_take_all l 0 (fun r _ => by have := h (r+1) (by omega); simpa using this)
    subst h0
    simpa using ih
  | a :: l, n+1, h => by
    have ih := filter_take_all l n (fun r hr => by have := h (r+1) (by omega); simpa using this)
    rw [List.take_succ_cons, List.filter_cons, List.filter_cons, ih]

theorem take_set_succ {α : Type} (l : List α) (j : Nat) (a : α) (h : j < l.length) : (l.set j a).take (j+1) = l.take j ++ [a] := by
  rw [List.take_succ, List.getElem?_set_self h, List.take_set_of_le (by omega)]
  rfl

theorem filter_take_succ {α : Type} (l : List (Option α)) (i : Nat) (a : Option α) (h : l[i]? = some a) :
    (l.take (i+1)).filter (·.isSome) = (l.take i).filter (·.isSome) ++ (if a.isSome then [a] else []) := by
  rw [List.take_succ, h, List.filter_append]
  cases a <;> simp

theorem compactLoop_spec (K0 : List (Option K)) (V0 : List (Option V)) (hs : Sync K0 V0) (ind0 : Nat → Option Nat) :
    ∀ (fuel i j : Nat) (ks : List (Option K)) (vs : List (Option V)) (ind : Nat → Option Nat),
    i + fuel ≤ K0.length → ks.length = K0.length → vs.length = V0.length → (∀ r, i ≤ r → ks[r]? = K0[r]?) → (∀ r, i ≤ r → vs[r]? = V0[r]?) →
    j = rank K0 i → ks.take j = (K0.take i).filter (·.isSome) → vs.take j = (V0.take i).filter (·.isSome) →
    (∀ q, ind q = if 0 < q ∧ q ≤ i then some (rank K0 (q-1)) else ind0 q) →
    ∃ ks' vs' ind' j', compactLoop fuel i j ks vs ind = some (ks', vs', ind', j') ∧ j' = rank K0 (i+fuel) ∧
      ks'.take j' = (K0.take (i+fuel)).filter (·.isSome) ∧ vs'.take j' = (V0.take (i+fuel)).filter (·.isSome) ∧
      (∀ q, ind' q = if 0 < q ∧ q ≤ i + fuel then some (rank K0 (q-1)) else ind0 q)
  | 0, i, j, ks, vs, ind, _, _, _, _, _, h5, h6, h7, h8 => ⟨ks, vs, ind, j, rfl, h5, h6, h7, h8⟩
  | fuel+1, i, j, ks, vs, ind, h1, h2, h3, h4, h4', h5, h6, h7, h8 => by
    have hj : j ≤ i := by rw [h5]; exact rank_le K0 i
    have hi : i < K0.length := by omega
    have hi' : i < V0.length := by rw [hs.1]; exact hi
    have ek : K0[i]? = some K0[i] := List.getElem?_eq_getElem hi
    have ev : V0[i]? = some V0[i] := List.getElem?_eq_getElem hi'
    have hsy := hs.2 i
    unfold live at hsy
    rw [ek, ev] at hsy
    rw [compactLoop, h4 i (Nat.le_refl _), ek, Option.bind_some, h4' i (Nat.le_refl _), ev, Option.bind_some]
    generalize K0[i] = ki at *
    generalize V0[i] = vi at *
    have hrs : rank K0 (i+1) = if ki.isSome then j+1 else j := by
      unfold rank at *
      rw [filter_take_succ _ _ _ ek, List.length_append, ← h5]
      cases ki <;> simp
    have ih := compactLoop_spec K0 V0 hs ind0 fuel (i+1) (if ki.isSome then j+1 else j) (ks.set j ki) (vs.set j vi)
      (fun q => if q = i+1 then some j else ind q) (by omega) (by simp [h2]) (by simp [h3])
      (fun r hr => by rw [List.getElem?_set_ne (by omega)]; exact h4 r (by omega))
      (fun r hr => by rw [List.getElem?_set_ne (by omega)]; exact h4' r (by omega))
      hrs.symm
      (by
        rw [filter_take_succ _ _ _ ek, ← h6]
        cases ki with
        | none => simp [List.take_set_of_le]
        | some k => exact take_set_succ ks j (some k) (by omega))
      (by
        rw [filter_take_succ _ _ _ ev, ← h7]
        cases ki with
        | none => cases vi <;> simp_all [List.take_set_of_le]
        | some k =>
          cases vi with
          | none => simp at hsy
          | some v => exact take_set_succ vs j (some v) (by rw [h3, hs.1]; omega))
      (by
        intro q
        show (if q = i+1 then some j else ind q) = _
        by_cases c : q = i+1
        · rw [if_pos c, if_pos (by omega), c, Nat.add_sub_cancel, h5]
        · rw [if_neg c, h8 q]
          by_cases d : 0 < q ∧ q ≤ i
          · rw [if_pos d, if_pos (by omega)]
          · rw [if_neg d, if_neg (by omega)])
    obtain ⟨ks', vs', ind', j', e1, e2, e3, e4, e5⟩ := ih
    rw [show i + 1 + fuel = i + (fuel + 1) by omega] at e2 e3 e4 e5
    exact ⟨ks', vs', ind', j', e1, e2, e3, e4, e5⟩

end Verif.HashMap
