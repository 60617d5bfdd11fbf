import Verif.Train.Calls
/-!
# Trains and combinators: properties

`hp` in each: what `⊑` picks from a value is a part of it, so has no fork with a modifier on the left if the value has none.
-/
namespace Verif.Train
variable {σ : Type} {P : Prims σ}

/-- A call that returns gives the result and the state that calls from right to left, each made once, give. It uses up the references to its arguments, and returns one reference to its result; all others are as before. -/
theorem call_gives (hp : ∀ v g e, Clean g → P.pick v g = some e → Clean e) {n : Nat} {f : V} {w : Option V} {x : V} {s : σ} {H H' : Nat → Nat} {r : V} {s' : σ}
    (hc : Clean f) (hf : f.isFun = true) (hH : ∀ i, argRefs i w x ≤ H i) (h : call P n f w x H s = .ok r H' s') :
    Runs P f w x s r s' ∧ ∀ i, H' i + argRefs i w x = H i + r.refs i := by
  have h1 := sound hp n f w x s hc hf H hH
  rw [h] at h1
  obtain ⟨_, ⟨h1, rfl⟩, h2⟩ := h1
  exact ⟨h1, h2⟩

/-- No value is used or freed that isn't held. -/
theorem call_held (hp : ∀ v g e, Clean g → P.pick v g = some e → Clean e) {n : Nat} {f : V} {w : Option V} {x : V} {s : σ} {H : Nat → Nat}
    (hc : Clean f) (hf : f.isFun = true) (hH : ∀ i, argRefs i w x ≤ H i) : call P n f w x H s ≠ .ub := by
  intro h
  have h1 := sound hp n f w x s hc hf H hH
  rw [h] at h1
  exact h1

/-- What the calls from right to left give is what the call returns, given enough nested calls. -/
theorem call_returns (hp : ∀ v g e, Clean g → P.pick v g = some e → Clean e) {f : V} {w : Option V} {x : V} {s : σ} {r : V} {s' : σ}
    (hc : Clean f) (hf : f.isFun = true) (h : Runs P f w x s r s') :
    ∃ n, ∀ m, n ≤ m → ∀ H : Nat → Nat, (∀ i, argRefs i w x ≤ H i) → ∃ H', call P m f w x H s = .ok r H' s' := by
  obtain ⟨n, h⟩ := complete hp h hc
  refine ⟨n, fun m hm H hH => ?_⟩
  have h := h m H hH
  rw [cN_fun hf] at h
  revert h
  cases call P m f w x H s with
  | ok r H s => rintro ⟨_, ⟨⟨rfl, rfl⟩, _⟩, _⟩; exact ⟨_, rfl⟩
  | err => intro h; cases h
  | ub => exact False.elim
  | out => intro h; have := of_decide_eq_true h; omega

/-- A call that fails is one for which the calls from right to left give no result. -/
theorem call_fails (hp : ∀ v g e, Clean g → P.pick v g = some e → Clean e) {n : Nat} {f : V} {w : Option V} {x : V} {s : σ} {H : Nat → Nat}
    (hc : Clean f) (hf : f.isFun = true) (hH : ∀ i, argRefs i w x ≤ H i) (h : call P n f w x H s = .err) (r : V) (s' : σ) : ¬ Runs P f w x s r s' := by
  intro hr
  obtain ⟨m, hm⟩ := complete hp hr hc
  have hm := hm n H hH
  rw [cN_fun hf, h] at hm
  cases hm

/-- There is at most one result. -/
theorem runs_unique (hp : ∀ v g e, Clean g → P.pick v g = some e → Clean e) {f : V} {w : Option V} {x : V} {s : σ} {r r' : V} {s1 s2 : σ}
    (hc : Clean f) (hf : f.isFun = true) (h1 : Runs P f w x s r s1) (h2 : Runs P f w x s r' s2) : r = r' ∧ s1 = s2 := by
  obtain ⟨n, h1⟩ := call_returns hp hc hf h1
  obtain ⟨m, h2⟩ := call_returns hp hc hf h2
  obtain ⟨H1, h1⟩ := h1 (max n m) (Nat.le_max_left ..) (fun i => argRefs i w x) fun _ => Nat.le_refl _
  obtain ⟨H2, h2⟩ := h2 (max n m) (Nat.le_max_right ..) (fun i => argRefs i w x) fun _ => Nat.le_refl _
  rw [h1] at h2
  cases h2
  exact ⟨rfl, rfl⟩

/-- Functions that note their number, and return the new array `100 + number`; there is nothing to pick. -/
def noting : Prims (List Nat) where
  fn i w x s := match i with
    | 9 => none
    | i => some (.arr (100 + i) true [], s ++ [i])
  pick _ _ := none

theorem noting_clean : ∀ v g e, Clean g → noting.pick v g = some e → Clean e := nofun

/-- The functions that a call ran, in order, its result and the references to the objects 1, 50 and 101. -/
def ran (f : V) (w : Option V) (x : V) : Option (List Nat × Option Nat × List Nat) :=
  match call noting 9 f w x (fun i => argRefs i w x) [] with
  | .ok r H s => some (s, r.id?, [H 1, H 50, H 101])
  | _ => none

-- `(F G H)` calls `H`, `F`, `G`; `G` is the function 1, and the arguments are freed
example : ran (.fork 0 (.fn 2) (.fn 1) (.fn 3)) (some (.ns 50)) (.ns 50) = some ([3, 2, 1], some 101, [0, 0, 1]) := by decide +kernel
-- with a constant on the left, and with one on the right
example : ran (.fork 0 (.ns 50) (.fn 1) (.fn 3)) none (.ns 50) = some ([3, 1], some 101, [0, 0, 1]) := by decide +kernel
example : ran (.fork 0 (.fn 2) (.fn 1) (.num none)) none (.ns 50) = some ([2, 1], some 101, [0, 0, 1]) := by decide +kernel
-- `F⊸G`, `F⟜G`, `F○G`
example : ran (.md2 0 .before (.fn 2) (.fn 1)) none (.ns 50) = some ([2, 1], some 101, [0, 0, 1]) := by decide +kernel
example : ran (.md2 0 .after (.fn 1) (.fn 2)) (some (.ns 1)) (.ns 50) = some ([2, 1], some 101, [0, 0, 1]) := by decide +kernel
example : ran (.md2 0 .over (.fn 1) (.fn 2)) (some (.ns 1)) (.ns 50) = some ([2, 2, 1], some 101, [0, 0, 1]) := by decide +kernel
-- `F◶⟨2,3,1⟩` with `F` giving ¯1
example : ran (.md2 0 .cond (.num (some (-1))) (.arr 60 true [.fn 2, .fn 3, .fn 1])) none (.ns 50) = some ([1], some 101, [0, 0, 1]) := by decide +kernel
example : ran (.md2 0 .cond (.num (some 3)) (.arr 60 true [.fn 2, .fn 3, .fn 1])) none (.ns 50) = none := by decide +kernel

-- the hypotheses of the theorems above are met by nested ones
example : Clean (.fork 0 (.md1 4 .swap (.fn 2)) (.fn 1) (.md2 5 .cond (.num (some 0)) (.arr 60 true [.fn 3]))) :=
  .fork rfl (.md1 .fn) .fn (.md2 .num (.arr fun e he => by simp at he; subst he; exact .fn))
example : Runs noting (.fork 0 (.md1 4 .swap (.fn 2)) (.fn 1) (.md2 5 .cond (.num (some 0)) (.arr 60 true [.fn 3]))) none (.ns 50) [] (.arr 101 true []) [3, 2, 1] :=
  .fork (.cond (.value rfl rfl) (.number (k := 0) rfl (.inl rfl) rfl) (.prim rfl)) (.swap (.prim rfl)) (.prim rfl)
example : call noting 5 (.atop 0 (.fn 1) (.fn 9)) none (.ns 50) (fun i => argRefs i none (.ns 50)) [] = .err := rfl

/-- A modifier on the left of a fork is called, which is an error, if one of the other parts isn't a function, but it is its own result if both are. -/
theorem fork_modifier_differs :
    (∀ x : V, ¬ ∃ r s', Runs noting (.fork 0 (.md 7) (.fn 1) (.fn 2)) none x [] r s')
    ∧ ran (.fork 0 (.md 7) (.fn 1) (.fn 2)) none (.ns 50) = some ([2, 1], some 101, [0, 0, 1])
    ∧ ran (.fork 0 (.md 7) (.fn 1) (.num none)) none (.ns 50) = none := by
  refine ⟨?_, by decide +kernel, by decide +kernel⟩
  rintro x ⟨r, s', h⟩
  cases h with
  | value h => cases h
  | fork _ h _ => cases h with
    | value _ h => cases h

end Verif.Train
