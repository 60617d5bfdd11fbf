import Verif.Affixes.Model
import Verif.Rotate.Basic
/-!
# Prefixes and suffixes: properties
-/
namespace Verif.Affixes
open Verif.Rotate

theorem foldl_mul (sh : List Nat) (r : Nat) : sh.foldl (fun r l => r * l % 2^32) r % 2^32 = r * prod sh % 2^32 := by
  induction sh generalizing r with
  | nil => show _ = r * 1 % _; rw [Nat.mul_one]; rfl
  | cons l sh ih =>
    rw [List.foldl_cons, ih, prod, Nat.mod_mul_mod, Nat.mul_assoc]

/-- Offsets and lengths within the array don't wrap. -/
theorem mul_cellSize {csh : List Nat} {k : Nat} (h : k * prod csh < 2^32) (hc : csh ≠ []) : k * cellSize csh % 2^32 = k * prod csh := by
  unfold cellSize
  rw [if_neg hc, ← Nat.mul_mod_mod, foldl_mul, Nat.one_mul, Nat.mul_mod_mod, Nat.mod_eq_of_lt h]

theorem part_eq {α} {post : Bool} {cam : Nat} {csh : List Nat} {x : List α} {i : Nat} (hx : x.length = cam * prod csh) (h32 : x.length < 2^32) (hi : i ≤ cam) :
    (if csh = [] then slice x (if post then i else 0) (if post then cam - i else i)
      else slice x (if post then i * cellSize csh % 2^32 else 0) ((if post then cam - i else i) * cellSize csh % 2^32))
    = some ((x.drop ((if post then i else 0) * prod csh)).take ((if post then cam - i else i) * prod csh)) := by
  have a : i * prod csh ≤ cam * prod csh := Nat.mul_le_mul_right _ hi
  have b : (cam - i) * prod csh ≤ cam * prod csh := Nat.mul_le_mul_right _ (Nat.sub_le ..)
  have c : i * prod csh + (cam - i) * prod csh = cam * prod csh := by rw [← Nat.add_mul]; congr 1; omega
  by_cases hc : csh = []
  · rw [if_pos hc]
    subst hc
    unfold slice
    simp only [prod, Nat.mul_one] at *
    cases post <;> simp only [Bool.false_eq_true, if_false, if_true] <;> rw [if_pos (by omega)]
  · rw [if_neg hc]
    unfold slice
    cases post
    · simp only [Bool.false_eq_true, if_false]
      rw [mul_cellSize (by omega) hc, if_pos (by omega), Nat.zero_mul]
    · simp only [if_true]
      rw [mul_cellSize (by omega) hc, mul_cellSize (by omega) hc, if_pos (by omega)]

theorem loop_ok {α} {post : Bool} {cam : Nat} {csh : List Nat} {x : List α} {cap : Nat} (hx : x.length = cam * prod csh) (h32 : x.length < 2^32) (hcap : cap = cam + 1) (n i : Nat) (h : i + n = cam + 1) :
    loop post cam csh x cap n i = .ok ((List.range n).map fun k => ((if post then cam - (i + k) else i + k) :: csh,
      (x.drop ((if post then i + k else 0) * prod csh)).take ((if post then cam - (i + k) else i + k) * prod csh))) := by
  induction n generalizing i with
  | zero => rfl
  | succ n ih =>
    rw [loop]
    rw [part_eq hx h32 (by omega)]
    dsimp only
    rw [if_pos (by omega), ih (i + 1) (by omega)]
    dsimp only
    rw [List.range_succ_eq_map, List.map_cons, List.map_map]
    refine congrArg Res.ok (congr (congrArg List.cons rfl) (List.map_congr_left fun k _ => ?_))
    show _ = ((if post then cam - (i + (k + 1)) else i + (k + 1)) :: csh, _)
    rw [show i + 1 + k = i + (k + 1) by omega]

/-- `↑𝕩` gives each prefix from the empty one on, `↓𝕩` each suffix up to the empty one; the empty one is also the fill. -/
theorem affixes_gives {α} (post : Bool) {cam : Nat} {csh : List Nat} {x : List α} (hx : x.length = prod (cam :: csh)) (h32 : x.length < 2^32) (hl : cam < 268434456) :
    ∃ r f, affixes post (cam :: csh) x = .ok (r, f) ∧ r.length = cam + 1 ∧ f = (0 :: csh, [])
      ∧ ∀ i, i ≤ cam → ∃ p, r[i]? = some p ∧ IsPart cam csh x (if post then i else 0) (if post then cam - i else i) p := by
  have hx' : x.length = cam * prod csh := hx
  unfold affixes
  dsimp only
  rw [Nat.mod_eq_of_lt (show cam + 1 < 2^32 by omega), if_neg (by omega), loop_ok hx' h32 rfl (cam + 1) 0 (by omega)]
  dsimp only
  have get : ∀ i, i ≤ cam → ((List.range (cam + 1)).map fun k => ((if post then cam - (0 + k) else 0 + k) :: csh,
      (x.drop ((if post then 0 + k else 0) * prod csh)).take ((if post then cam - (0 + k) else 0 + k) * prod csh)))[i]?
      = some ((if post then cam - i else i) :: csh, (x.drop ((if post then i else 0) * prod csh)).take ((if post then cam - i else i) * prod csh)) := by
    intro i hi
    rw [List.getElem?_map, List.getElem?_range (by omega), Option.map_some, Nat.zero_add]
  rw [get (if post then cam else 0) (by cases post <;> simp)]
  refine ⟨_, _, rfl, by rw [List.length_map, List.length_range], ?_, fun i hi => ⟨_, get i hi, ?_⟩⟩
  · cases post
    · simp
    · simp
  · have c : i * prod csh + (cam - i) * prod csh = cam * prod csh := by rw [← Nat.add_mul]; congr 1; omega
    refine ⟨rfl, ?_, ?_⟩
    · dsimp only [prod]
      rw [List.length_take, List.length_drop, hx']
      cases post
      · simp only [Bool.false_eq_true, if_false]
        omega
      · simp only [if_true]
        omega
    · intro j cc h
      dsimp only
      have hlt := ravel_lt h
      rw [show prod ((if post then cam - i else i) :: csh) = (if post then cam - i else i) * prod csh from rfl] at hlt
      rw [List.getElem?_take_of_lt hlt, List.getElem?_drop]
      congr 1
      show _ + (j * prod csh + ravel csh cc) = (_ + j) * prod csh + ravel csh cc
      rw [Nat.add_mul]
      omega

example : affixes false [2, 2] [1, 2, 3, 4] = .ok ([([0, 2], []), ([1, 2], [1, 2]), ([2, 2], [1, 2, 3, 4])], ([0, 2], [])) := by decide +kernel
example : affixes true [2] [1, 2] = .ok ([([2], [1, 2]), ([1], [2]), ([0], [])], ([0], [])) := by decide +kernel
example : affixes true [0, 2] ([] : List Nat) = .ok ([([0, 2], [])], ([0, 2], [])) := by decide +kernel

/-- An atom or an array of rank 0 is refused, and so is one with too many cells. -/
theorem affixes_refuses {α} (post : Bool) {sh : List Nat} {x : List α} (h : sh = [] ∨ ∃ cam csh, sh = cam :: csh ∧ 268434456 ≤ cam ∧ cam + 1 < 2^32) : affixes post sh x = .err := by
  rcases h with rfl | ⟨cam, csh, rfl, h1, h2⟩
  · rfl
  · unfold affixes
    dsimp only
    rw [Nat.mod_eq_of_lt h2, if_pos (by omega)]

example : affixes false [268434456] (List.replicate 268434456 0) = .err := affixes_refuses _ (.inr ⟨_, _, rfl, by decide, by decide⟩)

/-- With `2⋆32-1` cells the length of the result wraps to 0, and the first prefix is written where there is no room. -/
theorem affixes_wraps {α} (x : List α) : affixes false [2^32 - 1] x = .ub := by
  unfold affixes
  dsimp only
  rw [show (2^32 - 1 + 1) % 2^32 = 0 by decide, if_neg (by decide), show (2^32 - 1 + 1 : Nat) = (2^32 - 1) + 1 from rfl, loop]
  rw [if_pos rfl]
  unfold slice
  simp

end Verif.Affixes
