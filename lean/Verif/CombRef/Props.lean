import Verif.CombRef.Repeat
/-
C87: combinators make the calls they stand for, in order, and use every reference once.

`held` is what others hold during the call: at least the operands.  To it come a reference to `𝕩`, and to `𝕨` if there
is one, at the start, and one to the result, and nothing else, at the end.
-/
namespace Verif.CombRef
open Verif.EachRef (V Hand one)

variable (res : Nat → V) (fn : V → Bool) (held : Hand) (f g : V) (w : Option V) (x : V) (cs : List Call)

theorem before_calls (hf : 1 ≤ held f) (hg : 1 ≤ held g) :
    Ends held (before res fn f g w x (start held w x cs)) (beforeSpec res fn f g w x cs) := by
  unfold before beforeSpec
  cases w with
  | none =>
    dsimp only [Option.getD_none]
    by_cases h : fn f = true
    · rw [if_pos h]
      obtain ⟨s1, a1, a2, a3⟩ := app_ok' (res := res) (fn := fn) (holder := f) (f := f) (w := none) (x := x)
        (s := (start held none x cs).inc x) (fun j => held j + one x j)
        (fun j => by rw [inc_hand]; simp only [start, oneO]; omega) (by omega)
      obtain ⟨s2, b1, b2, b3⟩ := app_ok' (res := res) (fn := fn) (holder := g) (f := g) (x := x)
        (w := some (apply res fn f none x cs).1) (s := s1) held (fun j => by rw [a2 j]; simp only [oneO]; simp only [inc_calls, start]; omega) hg
      rw [a3] at b1 b2 b3
      exact ⟨s2, by rw [a1]; exact b1, b2, b3⟩
    · rw [if_neg h, if_neg (by simp only [start]; omega)]
      obtain ⟨s2, b1, b2, b3⟩ := app_ok' (res := res) (fn := fn) (holder := g) (f := g) (x := x)
        (w := some f) (s := (start held none x cs).inc f) held
        (fun j => by rw [inc_hand]; simp only [start, oneO]; omega) hg
      have e : apply res fn f none x cs = (f, cs) := by simp only [apply, if_neg h]
      rw [e]
      exact ⟨s2, b1, b2, b3⟩
  | some w =>
    dsimp only [Option.getD_some]
    obtain ⟨s1, a1, a2, a3⟩ := app_ok' (res := res) (fn := fn) (holder := f) (f := f) (w := none) (x := w)
      (s := start held (some w) x cs) (fun j => held j + one x j)
      (fun j => by simp only [start, oneO]; omega) (by omega)
    obtain ⟨s2, b1, b2, b3⟩ := app_ok' (res := res) (fn := fn) (holder := g) (f := g) (x := x)
      (w := some (apply res fn f none w cs).1) (s := s1) held (fun j => by rw [a2 j]; simp only [oneO, start]; omega) hg
    rw [a3] at b1 b2 b3
    exact ⟨s2, by rw [a1]; exact b1, b2, b3⟩

/-- Values 1 and 2 are functions, 3 is not; arguments 5 and 6. -/
def isFn : V → Bool := fun v => v == 1 || v == 2

def heldEx : Hand := fun j => one 1 j + one 2 j + one 3 j

example : beforeSpec (fun n => 10 + n) isFn 1 2 (some 5) 6 [] = (11, [(1, none, 5), (2, some 10, 6)]) := by decide
example : beforeSpec (fun n => 10 + n) isFn 3 2 none 6 [] = (10, [(2, some 3, 6)]) := by decide
example : 1 ≤ heldEx 1 ∧ 1 ≤ heldEx 2 ∧ 1 ≤ heldEx 3 := by decide
example : (before (fun n => 10 + n) isFn 1 2 none 6 (start heldEx none 6 [])).map (fun p => (p.1, p.2.calls, p.2.hand 6)) =
    some (11, [(1, none, 6), (2, some 10, 6)], 0) := by decide

theorem after_calls (hf : 1 ≤ held f) (hg : 1 ≤ held g) :
    Ends held (after res fn f g w x (start held w x cs)) (afterSpec res fn f g w x cs) := by
  unfold after afterSpec
  cases w with
  | none =>
    dsimp only [Option.getD_none]
    by_cases h : fn g = true
    · rw [if_pos h]
      obtain ⟨s1, a1, a2, a3⟩ := app_ok' (res := res) (fn := fn) (holder := g) (f := g) (w := none) (x := x)
        (s := (start held none x cs).inc x) (fun j => held j + one x j)
        (fun j => by rw [inc_hand]; simp only [start, oneO]; omega) (by omega)
      obtain ⟨s2, b1, b2, b3⟩ := app_ok' (res := res) (fn := fn) (holder := f) (f := f) (x := (apply res fn g none x cs).1)
        (w := some x) (s := s1) held (fun j => by rw [a2 j]; simp only [oneO]; simp only [inc_calls, start]) hf
      rw [a3] at b1 b2 b3
      exact ⟨s2, by rw [a1]; exact b1, b2, b3⟩
    · rw [if_neg h, if_neg (by simp only [start]; omega)]
      obtain ⟨s2, b1, b2, b3⟩ := app_ok' (res := res) (fn := fn) (holder := f) (f := f) (x := g)
        (w := some x) (s := (start held none x cs).inc g) held
        (fun j => by rw [inc_hand]; simp only [start, oneO]; omega) hf
      have e : apply res fn g none x cs = (g, cs) := by simp only [apply, if_neg h]
      rw [e]
      exact ⟨s2, b1, b2, b3⟩
  | some w =>
    dsimp only [Option.getD_some]
    obtain ⟨s1, a1, a2, a3⟩ := app_ok' (res := res) (fn := fn) (holder := g) (f := g) (w := none) (x := x)
      (s := start held (some w) x cs) (fun j => held j + one w j)
      (fun j => by simp only [start, oneO]; omega) (by omega)
    obtain ⟨s2, b1, b2, b3⟩ := app_ok' (res := res) (fn := fn) (holder := f) (f := f) (x := (apply res fn g none x cs).1)
      (w := some w) (s := s1) held (fun j => by rw [a2 j]; simp only [oneO, start]) hf
    rw [a3] at b1 b2 b3
    exact ⟨s2, by rw [a1]; exact b1, b2, b3⟩

example : afterSpec (fun n => 10 + n) isFn 1 2 none 6 [] = (11, [(2, none, 6), (1, some 6, 10)]) := by decide

theorem atop_calls (hf : 1 ≤ held f) (hg : 1 ≤ held g) :
    Ends held (atop res fn f g w x (start held w x cs)) (atopSpec res fn f g w x cs) := by
  unfold atop atopSpec
  obtain ⟨s1, a1, a2, a3⟩ := app_ok' (res := res) (fn := fn) (holder := g) (f := g) (w := w) (x := x)
    (s := start held w x cs) held (fun j => rfl) hg
  obtain ⟨s2, b1, b2, b3⟩ := app_ok' (res := res) (fn := fn) (holder := f) (f := f) (x := (apply res fn g w x cs).1)
    (w := none) (s := s1) held (fun j => by rw [a2 j]; simp only [oneO, start]; omega) hf
  rw [a3] at b1 b2 b3
  exact ⟨s2, by rw [a1]; exact b1, b2, b3⟩

example : atopSpec (fun n => 10 + n) isFn 1 2 (some 5) 6 [] = (11, [(2, some 5, 6), (1, none, 10)]) := by decide

theorem over_calls (w : V) (hf : 1 ≤ held f) (hg : 1 ≤ held g) :
    Ends held (over res fn f g w x (start held (some w) x cs)) (overSpec res fn f g w x cs) := by
  unfold over overSpec
  obtain ⟨s1, a1, a2, a3⟩ := app_ok' (res := res) (fn := fn) (holder := g) (f := g) (w := none) (x := x)
    (s := start held (some w) x cs) (fun j => held j + one w j) (fun j => by simp only [start, oneO]; omega) (by omega)
  obtain ⟨s2, b1, b2, b3⟩ := app_ok' (res := res) (fn := fn) (holder := g) (f := g) (x := w)
    (w := none) (s := s1) (fun j => held j + one (apply res fn g none x cs).1 j)
    (fun j => by rw [a2 j]; simp only [oneO, start]; omega) (by omega)
  rw [a3] at b1 b2 b3
  obtain ⟨s3, c1, c2, c3⟩ := app_ok' (res := res) (fn := fn) (holder := f) (f := f) (x := (apply res fn g none x cs).1)
    (w := some (apply res fn g none w (apply res fn g none x cs).2).1) (s := s2) held
    (fun j => by rw [b2 j]; simp only [oneO, start]; omega) hf
  rw [b3] at c1 c2 c3
  refine ⟨s3, ?_, c2, c3⟩
  simp only [a1, Option.bind_eq_bind, Option.bind_some]
  show (s1.app res fn g g none w).bind _ = _
  rw [b1]
  exact c1

example : overSpec (fun n => 10 + n) isFn 1 2 5 6 [] = (12, [(2, none, 6), (2, none, 5), (1, some 11, 10)]) := by decide

theorem cond_calls (num : V → Bool) (sel : V → V) (hf : 1 ≤ held f) (hg : 1 ≤ held g) :
    Ends held (cond res fn num sel f g w x (start held w x cs)) (condSpec res fn sel f w x cs) := by
  unfold cond condSpec
  obtain ⟨r, s1, a1, a2, a3⟩ := appKeep_ok (res := res) (fn := fn) (f := f) (w := w) (x := x)
    (s := start held w x cs) (by simp only [start]; omega)
  have e : apply res fn f w x cs = (r, s1.calls) := a3.symm
  rw [e]
  simp only [a1, Option.bind_eq_bind, Option.bind_some]
  by_cases h : num r = true
  · rw [if_pos h]
    obtain ⟨s2, b1, b2, b3⟩ := give_ok (s := s1) (v := r) (start held w x cs).hand a2
    obtain ⟨s3, c1, c2, c3⟩ := app_ok' (res := res) (fn := fn) (holder := g) (f := sel r) (w := w) (x := x) (s := s2) held
      (fun j => by rw [b2 j]; rfl) hg
    rw [b3] at c1 c2 c3
    exact ⟨s3, by rw [b1]; exact c1, c2, c3⟩
  · rw [if_neg h, if_neg (by rw [a2 g]; simp only [start]; omega)]
    obtain ⟨s2, b1, b2, b3⟩ := give_ok (s := s1.inc g) (v := r) (fun j => (start held w x cs).hand j + one g j)
      (fun j => by rw [inc_hand, a2 j]; omega)
    obtain ⟨s3, c1, c2, c3⟩ := give_ok (s := s2) (v := g) (start held w x cs).hand b2
    obtain ⟨s4, d1, d2, d3⟩ := app_ok' (res := res) (fn := fn) (holder := sel r) (f := sel r) (w := w) (x := x)
      (s := s3.inc (sel r)) (fun j => held j + one (sel r) j) (fun j => by rw [inc_hand, c2 j]; simp only [start]; omega)
      (by rw [one_self]; omega)
    have hc : (s3.inc (sel r)).calls = s1.calls := by rw [inc_calls, c3, b3, inc_calls]
    rw [hc] at d1 d2 d3
    obtain ⟨s5, e1, e2, e3⟩ := give_ok (s := s4) (v := sel r) (fun j => held j + one (apply res fn (sel r) w x s1.calls).1 j)
      (fun j => by rw [d2 j]; omega)
    refine ⟨s5, ?_, e2, by rw [e3, d3]⟩
    simp only [b1, c1, d1, e1, Option.bind_some]

example : condSpec (fun n => 10 + n) isFn (fun v => v - 8) 1 none 6 [] = (11, [(1, none, 6), (2, none, 6)]) := by decide

/-- `•_while_`: after any number of turns the run has either ended as it should or goes on. -/
theorem while_calls (tr : V → Bool) (hf : 1 ≤ held f) (hg : 1 ≤ held g) (n : Nat) : ∀ (x : V) (cs : List Call),
    match whileSpec res fn tr f g w n x cs with
    | none => whileC res fn tr f g w n x (start held w x cs) = .running
    | some r => ∃ s, whileC res fn tr f g w n x (start held w x cs) = .done r.1 s ∧
        (∀ j, s.hand j = held j + one r.1 j) ∧ s.calls = r.2 := by
  induction n with
  | zero => intro x cs; rfl
  | succ n ih =>
    intro x cs
    simp only [whileSpec]
    obtain ⟨s1, a1, a2, a3⟩ := app_ok' (res := res) (fn := fn) (holder := g) (f := g) (w := w) (x := x)
      (s := ((start held w x cs).incO w).inc x) (start held w x cs).hand (fun j => by rw [inc_hand, incO_hand])
      (by simp only [start]; omega)
    have hc : (((start held w x cs).incO w).inc x).calls = cs := by rw [inc_calls, incO_calls]; rfl
    rw [hc] at a1 a2 a3
    obtain ⟨s2, b1, b2, b3⟩ := give_ok (s := s1) _ a2
    rw [a3] at b3
    simp only [whileC, a1, b1]
    obtain ⟨c, hcc⟩ : ∃ c, apply res fn g w x cs = c := ⟨_, rfl⟩
    rw [hcc] at b3 ⊢
    by_cases ht : tr c.1 = true
    · rw [if_pos ht, if_pos ht]
      obtain ⟨s3, d1, d2, d3⟩ := app_ok' (res := res) (fn := fn) (holder := f) (f := f) (w := w) (x := x)
        (s := s2.incO w) (fun j => held j + oneO w j) (fun j => by rw [incO_hand, b2 j]; simp only [start]; omega) (by omega)
      rw [incO_calls, b3] at d1 d2 d3
      simp only [d1]
      have hs : s3 = start held w (apply res fn f w x c.2).1 (apply res fn f w x c.2).2 := by
        cases s3
        simp only at d2 d3
        simp only [start, T.mk.injEq]
        exact ⟨funext d2, d3⟩
      rw [hs]
      exact ih _ _
    · rw [if_neg ht, if_neg ht]
      obtain ⟨s3, d1, d2, d3⟩ := giveO_ok (s := s2) (w := w) (fun j => held j + one x j)
        (fun j => by rw [b2 j]; simp only [start]; omega)
      simp only [d1]
      exact ⟨s3, rfl, d2, by rw [d3, b3]⟩

/-- Results 10, 11, … : the condition holds until 14. -/
example : whileSpec (fun n => 10 + n) isFn (fun v => decide (v < 14)) 1 2 none 5 6 [] =
    some (13, [(2, none, 6), (1, none, 6), (2, none, 11), (1, none, 11), (2, none, 13)]) := by decide

/-- `⍟`: also the inverse that is made, and all results that are kept until the wanted ones are picked, are released. -/
theorem repeat_calls (cnt : V → Counts) (undo fi : V) (new : List V → V) (hf : 1 ≤ held f) (hg : 1 ≤ held g) :
    Ends held (repeatC res fn cnt undo fi new f g w x (start held w x cs)) (repeatSpec res fn cnt fi new f g w x cs) :=
  repeat_ok res fn held f g w x cs cnt undo fi new hf hg

/-- Here `𝔾` gives -1, 2 and 0; 4 is the inverse of 1. -/
example : repeatSpec (fun n => 10 + n) (fun v => decide (v < 5)) (fun _ => .arr [-1, 2, 0]) 4 (fun l => 30 + l.sum) 1 2 none 6 [] =
    (30 + (11 + 13 + 6), [(2, none, 6), (4, none, 6), (1, none, 6), (1, none, 12)]) := by decide

example : (repeatC (fun n => 10 + n) (fun v => decide (v < 5)) (fun _ => .arr [-1, 2, 0]) 7 4 (fun _ => 30) 1 2 none 6
    (start heldEx none 6 [])).map (fun p => (p.1, [1, 2, 4, 6, 7, 10, 11, 12, 13, 30].map p.2.hand)) =
    some (30, [1, 1, 0, 0, 0, 0, 0, 0, 0, 1]) := by decide

/-- `𝕨𝔽⌾𝔾𝕩`: `𝔾` is applied to `𝕨`, then the structural part `ug` gets `f2`, made of that result and `𝔽`, and `𝕩`. -/
theorem under_calls (bef f2 ug w : V) (hg : 1 ≤ held g) :
    Ends held (underC res fn bef f2 ug f g w x (start held (some w) x cs))
      (let a := apply res fn g none w cs
       (res a.2.length, a.2 ++ [(ug, some f2, x)])) := by
  unfold underC
  obtain ⟨s1, a1, a2, a3⟩ := app_ok' (res := res) (fn := fn) (holder := g) (f := g) (w := none) (x := w)
    (s := start held (some w) x cs) (fun j => held j + one x j) (fun j => by simp only [start, oneO]; omega) (by omega)
  have hc : (start held (some w) x cs).calls = cs := rfl
  rw [hc] at a1 a2 a3
  obtain ⟨a, ha⟩ : ∃ a, apply res fn g none w cs = a := ⟨_, rfl⟩
  rw [ha] at a1 a2 a3 ⊢
  obtain ⟨s2, b1, b2, b3⟩ := build_ok (s := (s1.inc bef).inc f) (l := [bef, a.1, f]) (new := f2)
    (fun j => held j + one x j) (fun j => by rw [inc_hand, inc_hand, a2 j]; simp only [ones]; omega)
  obtain ⟨s3, c1, c2, c3⟩ := give_ok (s := s2) (v := x) (fun j => held j + one f2 j) (fun j => by rw [b2 j]; omega)
  have hcl : s3.calls = a.2 := by rw [c3, b3, inc_calls, inc_calls, a3]
  obtain ⟨s4, d1, d2, d3⟩ := give_ok (s := { s3.inc (res a.2.length) with calls := a.2 ++ [(ug, some f2, x)] }) (v := f2)
    (fun j => held j + one (res a.2.length) j)
    (fun j => by show s3.hand j + one (res a.2.length) j = _; rw [c2 j]; omega)
  refine ⟨s4, ?_, d2, d3⟩
  have h0 : ¬ s3.hand f2 = 0 := by rw [c2 f2, one_self]; omega
  simp only [a1, b1, c1, Option.bind_eq_bind, Option.bind_some, if_neg h0, hcl, d1]

example : (underC (fun n => 10 + n) isFn 7 8 9 1 2 5 6 (start heldEx (some 5) 6 [])).map (fun p => (p.1, p.2.calls, p.2.hand 5)) =
    some (11, [(2, none, 5), (9, some 8, 6)], 0) := by decide

end Verif.CombRef
