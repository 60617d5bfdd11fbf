import Verif.CombRef.Ledger
namespace Verif.CombRef
open Verif.EachRef (V Hand one)

def ones : List V → Hand
  | [] => fun _ => 0
  | v :: l => fun j => one v j + ones l j

theorem one_self (v : V) : one v v = 1 := if_pos rfl

theorem ones_append (a b : List V) (j : V) : ones (a ++ b) j = ones a j + ones b j := by
  induction a with
  | nil => simp [ones]
  | cons v a ih => simp only [List.cons_append, ones, ih]; omega

theorem ones_reverse (a : List V) (j : V) : ones a.reverse j = ones a j := by
  induction a with
  | nil => rfl
  | cons v a ih => simp only [List.reverse_cons, ones_append, ih, ones]; omega

theorem ones_pos (l : List V) (v : V) (h : v ∈ l) : 1 ≤ ones l v := by
  induction l with
  | nil => exact nomatch h
  | cons u l ih =>
    simp only [ones]
    rcases List.mem_cons.mp h with h | h
    · subst h; rw [one_self]; omega
    · have := ih h; omega

theorem inc_hand (s : T) (v j : V) : (s.inc v).hand j = s.hand j + one v j := rfl
theorem inc_calls (s : T) (v : V) : (s.inc v).calls = s.calls := rfl

theorem incO_hand (s : T) (w : Option V) (j : V) : (s.incO w).hand j = s.hand j + oneO w j := by
  cases w <;> rfl

theorem incO_calls (s : T) (w : Option V) : (s.incO w).calls = s.calls := by
  cases w <;> rfl

theorem give_ok {s : T} {v : V} (b : Hand) (h : ∀ j, s.hand j = b j + one v j) :
    ∃ s', s.give v = some s' ∧ (∀ j, s'.hand j = b j) ∧ s'.calls = s.calls := by
  refine ⟨{ s with hand := fun i => s.hand i - one v i }, ?_, ?_, rfl⟩
  · unfold T.give
    rw [if_neg]
    rw [h v, one_self]
    omega
  · intro j
    dsimp only
    rw [h j]
    omega

theorem giveO_ok {s : T} {w : Option V} (b : Hand) (h : ∀ j, s.hand j = b j + oneO w j) :
    ∃ s', s.giveO w = some s' ∧ (∀ j, s'.hand j = b j) ∧ s'.calls = s.calls := by
  cases w with
  | none => exact ⟨s, rfl, h, rfl⟩
  | some w => exact give_ok b h

theorem giveAll_ok (l : List V) : ∀ {s : T} (b : Hand), (∀ j, s.hand j = b j + ones l j) →
    ∃ s', s.giveAll l = some s' ∧ (∀ j, s'.hand j = b j) ∧ s'.calls = s.calls := by
  induction l with
  | nil => intro s b h; exact ⟨s, rfl, h, rfl⟩
  | cons v l ih =>
    intro s b h
    obtain ⟨s1, a1, a2, a3⟩ := give_ok (s := s) (v := v) (fun j => b j + ones l j)
      (fun j => by rw [h j]; simp only [ones]; omega)
    obtain ⟨s2, b1, b2, b3⟩ := ih b a2
    exact ⟨s2, by simp only [T.giveAll, a1]; exact b1, b2, by rw [b3, a3]⟩

theorem build_ok {s : T} {l : List V} {new : V} (b : Hand) (h : ∀ j, s.hand j = b j + ones l j) :
    ∃ s', s.build l new = some s' ∧ (∀ j, s'.hand j = b j + one new j) ∧ s'.calls = s.calls := by
  obtain ⟨s1, a1, a2, a3⟩ := giveAll_ok l b h
  exact ⟨s1.inc new, by simp only [T.build, a1]; rfl, fun j => by rw [inc_hand, a2 j], a3⟩

theorem app_ok {res : Nat → V} {fn : V → Bool} {holder f : V} {w : Option V} {x : V} {s : T} (b : Hand)
    (h : ∀ j, s.hand j = b j + oneO w j + one x j) (hh : 1 ≤ b holder) :
    ∃ r s', s.app res fn holder f w x = some (r, s') ∧ (∀ j, s'.hand j = b j + one r j) ∧
      (r, s'.calls) = apply res fn f w x s.calls := by
  obtain ⟨s1, a1, a2, a3⟩ := giveO_ok (s := s) (w := w) (fun j => b j + one x j) (fun j => by rw [h j]; omega)
  obtain ⟨s2, b1, b2, b3⟩ := give_ok b a2
  have hc : s2.calls = s.calls := by rw [b3, a3]
  by_cases hf : fn f = true
  · refine ⟨res s.calls.length, { s2.inc (res s.calls.length) with calls := s.calls ++ [(f, w, x)] }, ?_, ?_, ?_⟩
    · unfold T.app
      have : ¬ s2.hand holder = 0 := by rw [b2 holder]; omega
      simp [a1, b1, this, hf, hc, Option.bind_eq_bind]
    · intro j
      show s2.hand j + _ = _
      rw [b2 j]
    · simp only [apply, if_pos hf]
  · refine ⟨f, s2.inc f, ?_, ?_, ?_⟩
    · unfold T.app
      have : ¬ s2.hand holder = 0 := by rw [b2 holder]; omega
      simp [a1, b1, this, hf, Option.bind_eq_bind]
    · intro j
      rw [inc_hand, b2 j]
    · simp only [apply, if_neg hf, inc_calls, hc]

theorem app_ok' {res : Nat → V} {fn : V → Bool} {holder f : V} {w : Option V} {x : V} {s : T} (b : Hand)
    (h : ∀ j, s.hand j = b j + oneO w j + one x j) (hh : 1 ≤ b holder) :
    ∃ s', s.app res fn holder f w x = some ((apply res fn f w x s.calls).1, s') ∧
      (∀ j, s'.hand j = b j + one (apply res fn f w x s.calls).1 j) ∧
      s'.calls = (apply res fn f w x s.calls).2 := by
  obtain ⟨r, s', a1, a2, a3⟩ := app_ok (res := res) (fn := fn) (holder := holder) (f := f) b h hh
  rw [← a3]
  exact ⟨s', a1, a2, rfl⟩

theorem appKeep_ok {res : Nat → V} {fn : V → Bool} {f : V} {w : Option V} {x : V} {s : T} (hh : 1 ≤ s.hand f) :
    ∃ r s', s.appKeep res fn f w x = some (r, s') ∧ (∀ j, s'.hand j = s.hand j + one r j) ∧
      (r, s'.calls) = apply res fn f w x s.calls := by
  unfold T.appKeep
  by_cases hf : fn f = true
  · rw [if_pos hf]
    have := app_ok (res := res) (fn := fn) (holder := f) (f := f) (w := w) (x := x) (s := (s.incO w).inc x) s.hand
      (fun j => by rw [inc_hand, incO_hand]) hh
    rw [inc_calls, incO_calls] at this
    exact this
  · rw [if_neg hf, if_neg (by omega)]
    exact ⟨f, s.inc f, rfl, fun j => rfl, by simp only [apply, if_neg hf, inc_calls]⟩

theorem plainLoop_ok {res : Nat → V} {fn : V → Bool} {f : V} {w : Option V} (b : Hand) (hf : 1 ≤ b f) (n : Nat) :
    ∀ (x : V) (s : T), (∀ j, s.hand j = b j + one x j) →
    ∃ r s', plainLoop res fn f w n x s = some (r, s') ∧ (∀ j, s'.hand j = b j + one r j) ∧
      r = ((times res fn f w n x s.calls).1.getLast?.getD x) ∧ s'.calls = (times res fn f w n x s.calls).2 := by
  induction n with
  | zero => intro x s h; exact ⟨x, s, rfl, h, rfl, rfl⟩
  | succ n ih =>
    intro x s h
    obtain ⟨r, s1, a1, a2, a3⟩ := app_ok (res := res) (fn := fn) (holder := f) (f := f) (w := w) (x := x) (s := s.incO w) b
      (fun j => by rw [incO_hand, h j]; omega) hf
    obtain ⟨r2, s2, b1, b2, b3, b4⟩ := ih r s1 a2
    rw [incO_calls] at a3
    have e1 : (apply res fn f w x s.calls).1 = r := by rw [← a3]
    have e2 : (apply res fn f w x s.calls).2 = s1.calls := by rw [← a3]
    refine ⟨r2, s2, ?_, b2, ?_, ?_⟩
    · simp only [plainLoop, a1, Option.bind_eq_bind, Option.bind_some]
      exact b1
    · simp only [times, e1, e2]
      rw [b3]
      cases (times res fn f w n r s1.calls).1 with
      | nil => rfl
      | cons a l => simp [List.getLast?_cons]
    · simp only [times, e1, e2]
      exact b4

theorem keepLoop_ok {res : Nat → V} {fn : V → Bool} {f : V} {w : Option V} (n : Nat) :
    ∀ (b : Hand) (_ : 1 ≤ b f) (x : V) (s : T), (∀ j, s.hand j = b j + one x j) →
    ∃ y s', keepLoop res fn f w n x s = some ((times res fn f w n x s.calls).1, y, s') ∧
      (∀ j, s'.hand j = b j + ones (times res fn f w n x s.calls).1 j + one y j) ∧
      s'.calls = (times res fn f w n x s.calls).2 := by
  induction n with
  | zero => intro b hf x s h; exact ⟨x, s, rfl, fun j => by rw [h j]; simp [times, ones], rfl⟩
  | succ n ih =>
    intro b hf x s h
    obtain ⟨r, s1, a1, a2, a3⟩ := app_ok (res := res) (fn := fn) (holder := f) (f := f) (w := w) (x := x) (s := s.incO w) b
      (fun j => by rw [incO_hand, h j]; omega) hf
    obtain ⟨y, s2, b1, b2, b3⟩ := ih (fun j => b j + one r j) (by omega) r (s1.inc r)
      (fun j => by rw [inc_hand, a2 j])
    rw [incO_calls] at a3
    rw [inc_calls] at b1 b2 b3
    have e1 : (apply res fn f w x s.calls).1 = r := by rw [← a3]
    have e2 : (apply res fn f w x s.calls).2 = s1.calls := by rw [← a3]
    refine ⟨y, s2, ?_, ?_, ?_⟩
    · simp only [keepLoop, a1, Option.bind_eq_bind, Option.bind_some, times, e1, e2, b1]
    · intro j
      simp only [times, e1, e2, ones]
      rw [b2 j]
      omega
    · simp only [times, e1, e2]
      exact b3

theorem times_length (res : Nat → V) (fn : V → Bool) (f : V) (w : Option V) (n : Nat) : ∀ (x : V) (cs : List Call),
    (times res fn f w n x cs).1.length = n := by
  induction n with
  | zero => intro x cs; rfl
  | succ n ih => intro x cs; simp only [times, List.length_cons, ih]

theorem picks_ok (all : List V) (min : Nat) (l : List Int) : ∀ (s : T),
    (∀ i, i ∈ l → ((min : Int) + i).toNat < all.length) → (∀ v, v ∈ all → 1 ≤ s.hand v) →
    ∃ s', picks all min l s = some (l.map (fun i => all.getD ((min : Int) + i).toNat 0), s') ∧
      (∀ j, s'.hand j = s.hand j + ones (l.map (fun i => all.getD ((min : Int) + i).toNat 0)) j) ∧
      s'.calls = s.calls := by
  induction l with
  | nil => intro s _ _; exact ⟨s, rfl, fun _ => rfl, rfl⟩
  | cons i l ih =>
    intro s hi ha
    have hlt := hi i List.mem_cons_self
    obtain ⟨k, hk⟩ : ∃ k, ((min : Int) + i).toNat = k := ⟨_, rfl⟩
    rw [hk] at hlt
    have hg : all[k]? = some (all.getD k 0) := by
      rw [List.getD_eq_getElem?_getD, List.getElem?_eq_getElem hlt]; rfl
    have hm : all.getD k 0 ∈ all := List.mem_of_getElem? hg
    obtain ⟨s', a1, a2, a3⟩ := ih (s.inc (all.getD k 0)) (fun i h => hi i (List.mem_cons_of_mem _ h))
      (fun v hv => by rw [inc_hand]; have := ha v hv; omega)
    refine ⟨s', ?_, ?_, a3⟩
    · have : ¬ s.hand (all.getD k 0) = 0 := by have := ha _ hm; omega
      simp only [picks, hk, hg, if_neg this, a1, List.map_cons]
      rfl
    · intro j
      rw [a2 j, inc_hand]
      simp only [List.map_cons, hk, ones]
      omega

theorem le_top (l : List Int) (i : Int) (h : i ∈ l) : i.toNat ≤ top l := by
  induction l with
  | nil => exact nomatch h
  | cons a l ih =>
    have : top (a :: l) = max a.toNat (top l) := rfl
    rw [this]
    rcases List.mem_cons.mp h with h | h
    · subst h; omega
    · have := ih h; omega

end Verif.CombRef
