import Verif.Repeat.Main
/-!
# Repeat replaces each number by the result of that many calls

`m` is any monad with the usual laws.
-/
namespace Verif.Repeat
variable {X : Type} {m : Type → Type}

/-- What `𝔽⍟𝔾 𝕩` does, with all its effects: `𝔾` is called, then the inverse and the function as often as needed, and each number is replaced by the result for it. Memory that isn't set is never used. -/
theorem repeat_calls [Monad m] [LawfulMonad m] (fail undef : ∀ α, m α) (g : X → m { v : G // Words v }) (f undo : X → m X) (x : X) :
    repeatC fail undef (fun x => Subtype.val <$> g x) f undo x = repeatSpec fail (fun x => Subtype.val <$> g x) f undo x := by
  rw [repeatC, repeatSpec, map_eq_pure_bind, bind_assoc, bind_assoc]
  congr 1; funext v
  rw [pure_bind, pure_bind]
  exact given_eq fail undef f undo x v.1 v.2

/-- A function that appends a letter and counts, its inverse takes one away and counts by hundreds: the inverse is called once, the function three times. -/
example : (repeatC (m := StateT Nat Option) (fun _ _ => none) (fun _ _ => none) (fun _ => pure (.boxed [3] [.num (some 3), .nums [2] [some (-1), some 1], .bits [1] [false]]))
    (fun (l : List Nat) n => some (l ++ [7], n + 1)) (fun l n => some (l.dropLast, n + 100)) [1, 2]).run 0
    = some (.arr [3] [.val [1, 2, 7, 7, 7], .arr [2] [.val [1], .val [1, 2, 7]], .arr [1] [.val [1, 2]]], 103) := rfl

/-- `n` times. -/
def iter (h : X → X) : Nat → X → X
  | 0, x => x
  | n+1, x => iter h n (h x)

theorem chain_pure [Monad m] [LawfulMonad m] (h : X → X) : ∀ (n : Nat) (x : X), chain (m := m) (fun x => pure (h x)) n x = pure ((List.range n).map fun k => iter h (k+1) x)
  | 0, x => rfl
  | n+1, x => by
    rw [chain, pure_bind, chain_pure h n, pure_bind, List.range_succ_eq_map, List.map_cons, List.map_map]
    rfl

/-- For functions without effects: each number is replaced by the result of calling the function that many times, or for negative numbers its inverse. -/
theorem repeat_values [Monad m] [LawfulMonad m] (fail undef : ∀ α, m α) (g : G) (hg : Words g) (l : List Int) (hl : g.ints = some l) (ha : allowed g l = true) (h u : X → X) (x : X) :
    repeatC fail undef (fun _ => pure g) (fun x => pure (h x)) (fun x => pure (u x)) x = pure (g.replace fun i => if i < 0 then iter u (-i).toNat x else iter h i.toNat x) := by
  rw [repeatC, pure_bind, given_eq fail undef _ _ x g hg, hl]
  dsimp only
  rw [if_pos ha, chain_pure, pure_bind, chain_pure, pure_bind]
  congr 1
  refine replace_congr _ _ g l hl fun i hi => ?_
  have hlo := (most_le (l.map fun i => (-i).toNat) _).mp (Nat.le_refl _) _ (List.mem_map.mpr ⟨i, hi, rfl⟩)
  have hhi := (most_le (l.map Int.toNat) _).mp (Nat.le_refl _) _ (List.mem_map.mpr ⟨i, hi, rfl⟩)
  rw [result]
  by_cases h0 : i < 0
  · rw [if_pos h0, if_pos h0, List.getD_eq_getElem?_getD, List.getElem?_map, List.getElem?_range (by omega)]
    show iter u ((-i).toNat - 1 + 1) x = _
    rw [show (-i).toNat - 1 + 1 = (-i).toNat by omega]
  · rw [if_neg h0, if_neg h0]
    cases hn : i.toNat with
    | zero => rfl
    | succ k =>
      rw [List.getD_cons_succ, List.getD_eq_getElem?_getD, List.getElem?_map, List.getElem?_range (by omega)]
      rfl

example : allowed (.nums [2] [some (-1), some 4]) [-1, 4] = true ∧ (G.nums [2] [some (-1), some 4]).ints = some [-1, 4] := ⟨by decide, rfl⟩

/-- What isn't an integer, or too large, is an error before any call of the function or its inverse. -/
theorem repeat_refuses [Monad m] [LawfulMonad m] (fail undef : ∀ α, m α) (g : G) (hg : Words g) (f undo : X → m X) (x : X) (hl : ∀ l, g.ints = some l → allowed g l = false) :
    repeatC fail undef (fun _ => pure g) f undo x = fail _ := by
  rw [repeatC, pure_bind, given_eq fail undef _ _ x g hg]
  cases h : g.ints with
  | none => rfl
  | some l => dsimp only; rw [hl l h]; rfl

example : allowed (.nums [1] [some (2^48)]) [2^48] = false ∧ (G.boxed [1] [.other]).ints = none := ⟨by decide, rfl⟩

/-- `𝔽•_while_𝔾 𝕩`: when the condition holds for `𝕩` and the results of up to `n-1` calls, and not for that of `n` calls, that's the result. -/
theorem while_stops [Monad m] [LawfulMonad m] (fail : ∀ α, m α) (c : X → Option Bool) (h : X → X) : ∀ (n fuel : Nat) (x : X), n < fuel → (∀ k, k < n → c (iter h k x) = some true) → c (iter h n x) = some false →
    whileC fail (fun x => pure (c x)) (fun x => pure (h x)) fuel x = pure (some (iter h n x))
  | 0, fuel+1, x, _, _, hn => by
    rw [whileC, pure_bind]
    rw [show c x = some false from hn]
    rfl
  | n+1, fuel+1, x, hf, hk, hn => by
    rw [whileC, pure_bind]
    rw [show c x = some true from hk 0 (by omega)]
    dsimp only
    rw [pure_bind, while_stops fail c h n fuel (h x) (by omega) (fun k hk' => hk (k+1) (by omega)) hn]
    rfl

example : whileC (m := Option) (fun _ => none) (fun x => pure (some (x < 10 : Bool))) (fun x => pure (x + 3)) 9 (1 : Nat) = some (some 10) := rfl

/-- As long as the condition holds it doesn't end. -/
theorem while_goes_on [Monad m] [LawfulMonad m] (fail : ∀ α, m α) (c : X → Option Bool) (h : X → X) : ∀ (fuel : Nat) (x : X), (∀ k, k < fuel → c (iter h k x) = some true) →
    whileC fail (fun x => pure (c x)) (fun x => pure (h x)) fuel x = pure none
  | 0, x, _ => rfl
  | fuel+1, x, hk => by
    rw [whileC, pure_bind]
    rw [show c x = some true from hk 0 (by omega)]
    dsimp only
    rw [pure_bind]
    exact while_goes_on fail c h fuel (h x) fun k hk' => hk (k+1) (by omega)

example : whileC (m := Option) (fun _ => none) (fun _ => pure (some true)) (fun x => pure (x + 1)) 9 (1 : Nat) = some none := rfl

/-- A condition that's neither 0 nor 1, for `𝕩` or the result of some calls, is an error. -/
theorem while_refuses [Monad m] [LawfulMonad m] (fail : ∀ α, m α) (c : X → Option Bool) (h : X → X) : ∀ (n fuel : Nat) (x : X), n < fuel → (∀ k, k < n → c (iter h k x) = some true) → c (iter h n x) = none →
    whileC fail (fun x => pure (c x)) (fun x => pure (h x)) fuel x = fail _
  | 0, fuel+1, x, _, _, hn => by
    rw [whileC, pure_bind]
    rw [show c x = none from hn]
  | n+1, fuel+1, x, hf, hk, hn => by
    rw [whileC, pure_bind]
    have h0 : c x = some true := hk 0 (by omega)
    rw [h0]
    dsimp only
    rw [pure_bind, while_refuses fail c h n fuel (h x) (by omega) (fun k hk' => hk (k+1) (by omega)) hn]

/-- The condition is 1 for 1, 4, 7 and 10 and then 2. -/
example : whileC (m := Except Nat) (fun _ => .error 5) (fun x => pure (if x < 11 then some true else none)) (fun x => pure (x + 3)) 9 (1 : Nat) = .error 5 := rfl

end Verif.Repeat
