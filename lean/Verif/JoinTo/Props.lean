import Verif.JoinTo.Model
import Verif.Rotate.Basic
/-!
# Join To: properties
-/
namespace Verif.JoinTo
open Verif.Rotate
variable {α : Type}

theorem joinEls_ok {used : Bool} {w x : List α} (h : w.length + x.length < 2^32) : joinEls used w x = some (w ++ x) := by
  unfold joinEls
  dsimp only
  rw [Nat.mod_eq_of_lt h]
  cases used
  · simp
  · simp only [if_true]
    rw [List.take_of_length_le (by rw [List.length_append]; exact Nat.le_refl _)]

theorem shOf_valid {sh : List Nat} {l : List α} (h : l.length = prod sh) (h1 : sh ≠ []) : shOf sh l.length = sh := by
  unfold shOf
  split
  · match sh with
    | [n] => rw [h]; show [n * 1] = _; rw [Nat.mul_one]
    | [] => exact absurd rfl h1
    | a :: b :: c => simp at *
  · rfl

/-- The shape of `𝕨` that the lengths are compared with is the one it had. -/
theorem oldShape {sh : List Nat} {l : List α} (n : Nat) (h : l.length = prod sh) (h1 : sh ≠ []) :
    (if sh.length ≤ 1 then [l.length] else shOf sh n) = sh := by
  by_cases c : sh.length ≤ 1
  · have := shOf_valid h h1
    unfold shOf at this
    rw [if_pos c] at this
    rw [if_pos c, this]
  · rw [if_neg c]
    unfold shOf
    rw [if_neg c]

/-- The loop compares the rest of both shapes, which are equally long. -/
theorem lengths_eq (wsh xsh : List Nat) (n o p : Nat) (h1 : (wsh.drop o).length = n) (h2 : (xsh.drop p).length = n) :
    lengths wsh xsh n o p = if wsh.drop o = xsh.drop p then .ok [] (xsh.drop p) else .err := by
  induction n generalizing o p with
  | zero =>
    rw [List.length_eq_zero_iff] at h1 h2
    rw [h1, h2, if_pos rfl]
    rfl
  | succ n ih =>
    have l1 : o < wsh.length := by rw [List.length_drop] at h1; omega
    have l2 : p < xsh.length := by rw [List.length_drop] at h2; omega
    have e1 := List.drop_eq_getElem_cons l1
    have e2 := List.drop_eq_getElem_cons l2
    rw [e1, List.length_cons] at h1
    rw [e2, List.length_cons] at h2
    rw [lengths, List.getElem?_eq_getElem l1, List.getElem?_eq_getElem l2, e1, e2, ih (o + 1) (p + 1) (by omega) (by omega)]
    dsimp only
    by_cases c : wsh[o] = xsh[p]
    · rw [if_neg (by simp [c]), c]
      by_cases d : wsh.drop (o + 1) = xsh.drop (p + 1)
      · rw [if_pos d, if_pos (by rw [d])]
      · rw [if_neg d, if_neg (fun h => d (List.cons.inj h).2)]
    · rw [if_pos c, if_neg (fun h => c (List.cons.inj h).1)]

/-- What the code does once the ranks are checked, for at least one axis. -/
theorem joinTo_eq {used : Bool} {wsh xsh : List Nat} {w x : List α} (hw : w.length = prod wsh) (hx : x.length = prod xsh) (h32 : w.length + x.length < 2^32)
    (h1 : max wsh.length xsh.length ≤ wsh.length + 1) (h2 : max wsh.length xsh.length ≤ xsh.length + 1) (h0 : 1 < max wsh.length xsh.length) :
    joinTo used wsh w xsh x =
      if wsh.drop (1 + wsh.length - max wsh.length xsh.length) = xsh.drop (1 + xsh.length - max wsh.length xsh.length)
      then .ok (((if wsh.length = max wsh.length xsh.length then wsh.getD 0 0 else 1) + (if xsh.length = max wsh.length xsh.length then xsh.getD 0 0 else 1)) % 2^32 :: xsh.drop (1 + xsh.length - max wsh.length xsh.length)) (w ++ x)
      else .err := by
  have nw : wsh ≠ [] := by rintro rfl; simp only [List.length_nil] at *; omega
  have nx : xsh ≠ [] := by rintro rfl; simp only [List.length_nil] at *; omega
  unfold joinTo
  dsimp only
  rw [if_neg (by omega), if_neg (by omega), joinEls_ok h32]
  dsimp only
  rw [if_neg (by omega), oldShape _ hw nw, shOf_valid hx nx, lengths_eq _ _ _ _ _ (by rw [List.length_drop]; omega) (by rw [List.length_drop]; omega)]
  by_cases h : wsh.drop (1 + wsh.length - max wsh.length xsh.length) = xsh.drop (1 + xsh.length - max wsh.length xsh.length)
  · rw [if_pos h, if_pos h]
  · rw [if_neg h, if_neg h]

theorem isJoin {a b : Nat} {csh : List Nat} {w x : List α} (hw : w.length = a * prod csh) (hx : x.length = b * prod csh) : IsJoin a b csh w x ((a + b) :: csh) (w ++ x) := by
  refine ⟨rfl, ?_, ?_, ?_⟩
  · rw [List.length_append, hw, hx, prod, Nat.add_mul]
  · intro i c h
    have := ravel_lt h
    rw [show prod (a :: csh) = a * prod csh from rfl] at this
    rw [show ravel ((a + b) :: csh) (i :: c) = ravel (a :: csh) (i :: c) from rfl, List.getElem?_append_left (by omega)]
  · intro i c h
    rw [show ravel ((a + b) :: csh) ((a + i) :: c) = (a + i) * prod csh + ravel csh c from rfl, Nat.add_mul, List.getElem?_append_right (by omega)]
    congr 1
    show _ = i * prod csh + ravel csh c
    omega

/-- `𝕨∾𝕩` has the cells of `𝕨` and then those of `𝕩`, whether or not the storage of `𝕨` is used. -/
theorem join_gives (used : Bool) {wsh xsh : List Nat} {w x : List α} {a b : Nat} {csh : List Nat} (hc : Cells wsh xsh a b csh)
    (hw : w.length = prod wsh) (hx : x.length = prod xsh) (h32 : w.length + x.length < 2^32) (hs : a + b < 2^32) :
    ∃ rsh r, joinTo used wsh w xsh x = .ok rsh r ∧ IsJoin a b csh w x rsh r := by
  have m1 (n : Nat) : max n (n + 1) = n + 1 := by omega
  have m2 (n : Nat) : max (n + 1) n = n + 1 := by omega
  cases hc with
  | both =>
    match csh with
    | [] =>
      refine ⟨[a + b], _, ?_, isJoin (a := a) (b := b) hw hx⟩
      unfold joinTo
      dsimp only [List.length_cons, List.length_nil]
      rw [if_neg (by decide), if_neg (by decide), joinEls_ok h32]
      dsimp only
      rw [if_pos (by decide), List.length_append, hw, hx]
      show Res.ok [a * 1 + b * 1] _ = _
      rw [Nat.mul_one, Nat.mul_one]
    | s :: sh =>
      refine ⟨_, _, ?_, isJoin (a := a) (b := b) hw hx⟩
      rw [joinTo_eq hw hx h32 (by simp only [List.length_cons]; omega) (by simp only [List.length_cons]; omega) (by simp only [List.length_cons]; omega)]
      simp only [List.length_cons, Nat.max_self]
      rw [show 1 + (sh.length + 1 + 1) - (sh.length + 1 + 1) = 1 by omega]
      simp only [List.drop_succ_cons, List.drop_zero, if_true, List.getD_cons_zero]
      rw [Nat.mod_eq_of_lt hs]
  | left =>
    match wsh with
    | [] =>
      refine ⟨[1 + b], _, ?_, isJoin (a := 1) (b := b) hw hx⟩
      unfold joinTo
      dsimp only [List.length_cons, List.length_nil]
      rw [if_neg (by decide), if_neg (by decide), joinEls_ok h32]
      dsimp only
      rw [if_pos (by decide), List.length_append, hw, hx]
      show Res.ok [1 + b * 1] _ = _
      rw [Nat.mul_one]
    | s :: sh =>
      refine ⟨_, _, ?_, isJoin (a := 1) (b := b) (by rw [hw, Nat.one_mul]) hx⟩
      rw [joinTo_eq hw hx h32 (by simp only [List.length_cons]; omega) (by simp only [List.length_cons]; omega) (by simp only [List.length_cons]; omega)]
      simp only [List.length_cons, m1]
      rw [show 1 + (sh.length + 1 + 1) - (sh.length + 1 + 1) = 1 by omega, show 1 + (sh.length + 1) - (sh.length + 1 + 1) = 0 by omega, if_neg (show ¬ sh.length + 1 = sh.length + 1 + 1 by omega)]
      simp only [List.drop_succ_cons, List.drop_zero, if_true, List.getD_cons_zero]
      rw [Nat.mod_eq_of_lt hs]
  | right =>
    match xsh with
    | [] =>
      refine ⟨[a + 1], _, ?_, isJoin (a := a) (b := 1) hw hx⟩
      unfold joinTo
      dsimp only [List.length_cons, List.length_nil]
      rw [if_neg (by decide), if_neg (by decide), joinEls_ok h32]
      dsimp only
      rw [if_pos (by decide), List.length_append, hw, hx]
      show Res.ok [a * 1 + 1] _ = _
      rw [Nat.mul_one]
    | s :: sh =>
      refine ⟨_, _, ?_, isJoin (a := a) (b := 1) hw (by rw [hx, Nat.one_mul])⟩
      rw [joinTo_eq hw hx h32 (by simp only [List.length_cons]; omega) (by simp only [List.length_cons]; omega) (by simp only [List.length_cons]; omega)]
      simp only [List.length_cons, m2]
      rw [show 1 + (sh.length + 1 + 1) - (sh.length + 1 + 1) = 1 by omega, show 1 + (sh.length + 1) - (sh.length + 1 + 1) = 0 by omega, if_neg (show ¬ sh.length + 1 = sh.length + 1 + 1 by omega)]
      simp only [List.drop_succ_cons, List.drop_zero, if_true, List.getD_cons_zero]
      rw [Nat.mod_eq_of_lt hs]
  | units =>
    match w, x, hw, hx with
    | [p], [q], hw, hx => exact ⟨[2], _, rfl, isJoin (a := 1) (b := 1) (csh := []) hw hx⟩

example : joinTo true [2, 2] [1, 2, 3, 4] [2] [5, 6] = .ok [3, 2] [1, 2, 3, 4, 5, 6] := by decide +kernel
example : joinTo true [2] [1, 2] [1, 2] [5, 6] = .ok [2, 2] [1, 2, 5, 6] := by decide +kernel
example : joinTo false [] [1] [2] [5, 6] = .ok [3] [1, 5, 6] := by decide +kernel
example : Cells [2, 2] [2] 2 1 [2] := .right
example : Cells [] [2] 1 2 [] := .left

/-- Every other pair of shapes is an error. -/
theorem join_refuses (used : Bool) {wsh xsh : List Nat} {w x : List α} (hc : ∀ a b csh, ¬ Cells wsh xsh a b csh)
    (hw : w.length = prod wsh) (hx : x.length = prod xsh) (h32 : w.length + x.length < 2^32) : joinTo used wsh w xsh x = .err := by
  by_cases h0 : max wsh.length xsh.length = 0
  · have e1 : wsh = [] := List.length_eq_zero_iff.1 (by omega)
    have e2 : xsh = [] := List.length_eq_zero_iff.1 (by omega)
    subst e1
    subst e2
    exact absurd .units (hc 1 1 [])
  · by_cases hr : max wsh.length xsh.length - wsh.length > 1 ∨ max wsh.length xsh.length - xsh.length > 1
    · unfold joinTo
      dsimp only
      rw [if_neg h0, if_pos hr]
    · by_cases h1 : max wsh.length xsh.length = 1
      · match wsh, xsh with
        | [], [] => exact absurd .units (hc 1 1 [])
        | [], [b] => exact absurd .left (hc 1 b [])
        | [a], [] => exact absurd .right (hc a 1 [])
        | [a], [b] => exact absurd .both (hc a b [])
        | _ :: _ :: _, _ => simp only [List.length_cons] at h1; omega
        | _, _ :: _ :: _ => simp only [List.length_cons] at h1; omega
      · rw [joinTo_eq hw hx h32 (by omega) (by omega) (by omega), if_neg]
        intro e
        rcases Nat.lt_trichotomy wsh.length xsh.length with hl | hl | hl
        · have hl' : xsh.length = wsh.length + 1 := by omega
          rw [show max wsh.length xsh.length = wsh.length + 1 by omega, hl', show 1 + wsh.length - (wsh.length + 1) = 0 by omega, show 1 + (wsh.length + 1) - (wsh.length + 1) = 1 by omega, List.drop_zero] at e
          match xsh with
          | [] => cases hl
          | b :: xsh =>
            rw [List.drop_succ_cons, List.drop_zero] at e
            subst e
            exact hc _ _ _ .left
        · rw [← hl, Nat.max_self, show 1 + wsh.length - wsh.length = 1 by omega] at e
          match wsh, xsh with
          | [], _ => simp only [List.length_nil] at *; omega
          | a :: wsh, [] => simp at hl
          | a :: wsh, b :: xsh =>
            rw [List.drop_succ_cons, List.drop_succ_cons, List.drop_zero, List.drop_zero] at e
            subst e
            exact hc _ _ _ .both
        · have hl' : wsh.length = xsh.length + 1 := by omega
          rw [show max wsh.length xsh.length = xsh.length + 1 by omega, hl', show 1 + xsh.length - (xsh.length + 1) = 0 by omega, show 1 + (xsh.length + 1) - (xsh.length + 1) = 1 by omega, List.drop_zero] at e
          match wsh with
          | [] => cases hl
          | a :: wsh =>
            rw [List.drop_succ_cons, List.drop_zero] at e
            subst e
            exact hc _ _ _ .right

example : joinTo true [2, 2] [1, 2, 3, 4] [3] [5, 6, 7] = .err := by decide +kernel
example : ∀ a b csh, ¬ Cells [2, 2] [3] a b csh := by
  intro a b csh h
  cases h

/-- The first length of a result without elements is kept in 32 bits. -/
theorem join_length_wraps : joinTo false [2^32 - 1, 0] ([] : List Nat) [2, 0] [] = .ok [1, 0] [] := by decide +kernel

end Verif.JoinTo
