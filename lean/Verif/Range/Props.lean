import Verif.Range.Main
/-!
# Range: properties
-/
namespace Verif.Range
open Verif.Rotate Verif.BitCopy Verif.Bits

theorem folded (s : Nat) (rest : List Nat) (hs : s < 2^32) :
    let b := rest.foldl Acc.step ⟨s, false, s, s⟩
    b.ria = prod (s :: rest) % 2^32 ∧ (b.bad = true → 2^32 ≤ prod (s :: rest) ∨ 0 ∈ s :: rest) ∧ (2^32 ≤ prod (s :: rest) → b.bad = true) ∧
      (∀ x ∈ s :: rest, b.min ≤ x ∧ x ≤ b.max) ∧ b.min ∈ s :: rest ∧ b.max ∈ s :: rest := by
  have hp : prod [s] = s := Nat.mul_one s
  exact fold_acc rest [s] ⟨s, false, s, s⟩ (by rw [hp, Nat.mod_eq_of_lt hs]) nofun (fun h => by rw [hp] at h; omega) (by simp) (by simp) (by simp)

/-- **C65**: `↕𝕩` of a list is the array with that shape where each element is its index. -/
theorem range_list {load : List Nat → Word} (hl : Load load) {sh : List Nat} (hr : sh.length ≤ 255) (hs : ∀ s ∈ sh, s ≤ 2^31) (hp : prod sh < 2^32) :
    ∃ rsh els, listRange load 1 (sh.map Int.ofNat) = some (rsh, els) ∧ IsRange sh rsh els := by
  unfold listRange
  rw [if_neg (by decide), List.length_map, if_neg (by omega), mapM_o2s (fun s h => by have := hs s h; omega)]
  match sh with
  | [] => exact ⟨[], [[]], rfl, rfl, rfl, fun is h => by cases h; rfl⟩
  | s :: rest =>
    obtain ⟨h1, h2, h3, h4, h5, h6⟩ := folded s rest (by have := hs s (by simp); omega)
    dsimp only
    generalize hsh : s :: rest = sh at *
    generalize rest.foldl Acc.step ⟨s, false, s, s⟩ = a at *
    have hmax : a.max ≤ 2^31 := hs _ h6
    have c1 : ¬((a.bad && a.min != 0) || decide (a.max > 2^31)) = true := by
      rw [decide_eq_false (by omega), Bool.or_false, Bool.and_eq_true]
      rintro ⟨hb, hm⟩
      cases h2 hb with
      | inl h => omega
      | inr h =>
        have := (h4 0 h).1
        have : a.min = 0 := by omega
        rw [this] at hm
        cases hm
    rw [if_neg c1]
    rw [Nat.mod_eq_of_lt hp] at h1
    have hne : sh ≠ [] := by rw [← hsh]; nofun
    by_cases h0 : a.ria = 0
    · rw [if_pos h0]
      refine ⟨_, _, rfl, rfl, by rw [← h1, h0]; rfl, fun is h => ?_⟩
      have := ravel_lt h
      omega
    · rw [if_neg h0]
      by_cases c2 : a.max = 2 ∧ sh.length ≤ 64
      · rw [if_pos c2, h1]
        refine ⟨_, _, rfl, bit_path hl c2.2 fun x hx => ?_⟩
        have := (h4 x hx).2
        have : x ≠ 0 := fun e => h0 (by rw [h1]; exact prod_zero (e ▸ hx))
        omega
      · rw [if_neg c2]
        by_cases c3 : a.max ≤ 128
        · rw [if_pos c3]
          refine ⟨_, _, rfl, rfl, udRec_length _ _ _ hne, fun is h => udRec_get sh [] is hne h (fun x hx i hi => ?_)⟩
          have := (h4 x hx).2
          exact wrap8 (by omega)
        · rw [if_neg c3]
          by_cases c4 : a.max ≤ 32768
          · rw [if_pos c4]
            refine ⟨_, _, rfl, rfl, udRec_length _ _ _ hne, fun is h => udRec_get sh [] is hne h (fun x hx i hi => ?_)⟩
            have := (h4 x hx).2
            exact wrap16 (by omega)
          · rw [if_neg c4]
            refine ⟨_, _, rfl, rfl, udRec_length _ _ _ hne, fun is h => udRec_get sh [] is hne h (fun x hx i hi => ?_)⟩
            have := (h4 x hx).2
            exact wrap32 (by omega)

/-- Bits after the list may be anything. -/
def someLoad (sh : List Nat) : Word := match sh with
  | [1, 2, 2] => 0xff0000000000f6#64
  | _ => 0#64
example : (listRange someLoad 1 [1, 2, 2]) = some ([1, 2, 2], [[0, 0, 0], [0, 0, 1], [0, 1, 0], [0, 1, 1]]) := by decide +kernel
example : listRange someLoad 1 [2, 3] = some ([2, 3], [[0, 0], [0, 1], [0, 2], [1, 0], [1, 1], [1, 2]]) := by decide +kernel
example : prod [1, 2, 2] < 2^32 := by decide

/-- Other arguments are refused: arrays of other ranks, more than 255 axes, lengths that aren't natural or above `2⋆31`, and results with too many elements. -/
theorem range_list_refuses (load : List Nat → Word) {rank : Nat} {x : List Int}
    (h : rank ≠ 1 ∨ 255 < x.length ∨ (∃ v ∈ x, v < 0 ∨ 2^31 < v) ∨ ∃ sh : List Nat, x = sh.map Int.ofNat ∧ 2^32 ≤ prod sh) :
    listRange load rank x = none := by
  unfold listRange
  by_cases c1 : rank ≠ 1
  · rw [if_pos c1]
  rw [if_neg c1]
  by_cases c2 : x.length > 255
  · rw [if_pos c2]
  rw [if_neg c2]
  cases hx : x.mapM o2s with
  | none => rfl
  | some sh =>
    have bnd : ∀ (x : List Int) (sh : List Nat), x.mapM o2s = some sh → x = sh.map Int.ofNat ∧ ∀ s ∈ sh, s < 2^32 := by
      intro x
      induction x with
      | nil => intro sh h; cases h; exact ⟨rfl, nofun⟩
      | cons v x ih =>
        intro sh h
        rw [List.mapM_cons] at h
        cases hv : o2s v with
        | none => rw [hv] at h; cases h
        | some n =>
          cases hx : x.mapM o2s with
          | none => rw [hv, hx] at h; cases h
          | some l =>
            rw [hv, hx] at h
            cases h
            obtain ⟨e1, e2⟩ := ih l hx
            obtain ⟨f1, f2⟩ := o2s_ok.1 hv
            refine ⟨by rw [e1, f1]; rfl, fun s hs => ?_⟩
            cases hs with
            | head => exact f2
            | tail _ hs => exact e2 s hs
    obtain ⟨e, hb⟩ := bnd x sh hx
    match sh with
    | [] =>
      exfalso
      rcases h with h | h | ⟨v, hv, _⟩ | ⟨sh', e', h⟩
      · exact c1 h
      · exact c2 h
      · rw [e] at hv; cases hv
      · rw [e] at e'
        have : sh' = [] := by cases sh' with | nil => rfl | cons => cases e'
        rw [this] at h
        revert h
        decide
    | s :: rest =>
      obtain ⟨h1, h2, h3, h4, h5, h6⟩ := folded s rest (hb s (by simp))
      dsimp only
      rw [if_pos]
      rw [Bool.or_eq_true]
      rcases h with h | h | ⟨v, hv, h⟩ | ⟨sh', e', h⟩
      · exact absurd h c1
      · exact absurd h c2
      · rw [e] at hv
        obtain ⟨n, hn, rfl⟩ := List.mem_map.1 hv
        have h := h.resolve_left (by simp)
        have := (h4 n hn).2
        exact .inr (decide_eq_true (by have : (2:Int)^31 < n := h; omega))
      · rw [e] at e'
        have inj : s :: rest = sh' := List.map_inj_right (fun a b h => Int.ofNat.inj h) |>.1 e'
        rw [← inj] at h
        refine .inl ?_
        rw [h3 h, Bool.true_and]
        have : (rest.foldl Acc.step ⟨s, false, s, s⟩).min ≠ 0 := fun e0 => by
          rw [e0] at h5
          rw [prod_zero h5] at h
          revert h
          decide
        exact bne_iff_ne.2 this

example : listRange someLoad 1 [65536, 65536] = none := range_list_refuses _ (.inr (.inr (.inr ⟨[65536, 65536], rfl, by decide⟩)))
example : listRange someLoad 1 [3, -1] = none := range_list_refuses _ (.inr (.inr (.inl ⟨-1, by simp, by decide⟩)))

/-- **C65**: `↕𝕩` of a number is the list of the natural numbers below it. -/
theorem range_number {n : Nat} (h : n < 2^32) : range n = some ((List.range n).map Int.ofNat) := by
  unfold range
  rw [o2s_ok.2 ⟨rfl, h⟩, Option.map_some]
  congr 1
  by_cases c1 : n ≤ 128
  · rw [if_pos c1]
    exact List.map_congr_left fun i hi => wrap8 (by have := List.mem_range.1 hi; omega)
  rw [if_neg c1]
  by_cases c2 : n - 1 ≤ 2^15 - 1
  · rw [if_pos c2]
    refine List.map_congr_left fun i hi => ?_
    have := List.mem_range.1 hi
    have e : wrap 16 ((0 : Nat) : Int) = 0 := by decide
    rw [e, wrap16 (show i < 2^15 by omega), Int.zero_add, wrap16 (show i < 2^15 by omega)]
    rfl
  rw [if_neg c2]
  by_cases c3 : n - 1 ≤ 2^31 - 1
  · rw [if_pos c3]
    refine List.map_congr_left fun i hi => ?_
    have := List.mem_range.1 hi
    have e : wrap 32 ((0 : Nat) : Int) = 0 := by decide
    rw [e, wrap32 (show i < 2^31 by omega), Int.zero_add, wrap32 (show i < 2^31 by omega)]
    rfl
  rw [if_neg c3]
  exact intRangeF64_eq n

example : range 5 = some [0, 1, 2, 3, 4] := range_number (n := 5) (by decide)

theorem range_number_refuses {v : Int} (h : v < 0 ∨ 2^32 ≤ v) : range v = none := by
  unfold range
  have : o2s v = none := if_neg (by omega)
  rw [this]
  rfl

example : range (-1) = none := range_number_refuses (.inl (by decide))

end Verif.Range
