import Verif.Unorder.Main
import Verif.Transpose.Props
/-!
# C76: the inverse of Reorder Axes

`elems log notB d` are arrays of elements of any type and width; `tr` is `⍉` for them (C28). Axes have fewer than `2⋆32-1` elements, as in C48.
-/
namespace Verif.Unorder
open Verif.Bits Verif.Rep Verif.Reorder Verif.Rotate
open Verif.Group (elems)

/-- `𝕨⍉⁼𝕨⍉𝕩` is `𝕩`, when the numbers in `𝕨` are different axes of `𝕩`. -/
theorem unorder_reorder {α} (log : Nat) (notB : Bool) (d : Nat → α) (tr : List α → List Nat → Option (List α × List Nat)) (ht : IsTranspose tr) (w : Axes) (x : List α) (xsh : List Nat)
    (hx : x.length = prod xsh) (hd : ∀ l ∈ xsh, l < 2^32 - 1) (h : Invertible w xsh.length) :
    ∃ y ysh, reorderW (elems log notB d) tr w x xsh = some (.ok (y, ysh)) ∧ unorder (elems log notB d) w y ysh = some (.ok (x, xsh)) := by
  obtain ⟨y, e, hm⟩ := moved_reorderW log notB d ht hx hd h
  obtain ⟨wi, ei, hp, et⟩ := invertW_ok h
  have hl := newShape_length h.perm
  have hp' : Perm wi (newShape w.nums xsh).length := by rw [hl]; exact hp
  obtain ⟨z, e2, hm2⟩ := moved_reorder log notB d hm.len (fun l hl => hd l (newShape_mem h.perm l hl)) hp'
  obtain ⟨rfl, e3⟩ := moved_back hx h.perm hp (back_undoes h.perm et) hm hm2
  refine ⟨y, _, e, ?_⟩
  rw [unorder, hl, ei, Option.bind_some]
  show reorder _ wi y _ = _
  rw [e2, e3]

/-- `𝕨⍉𝕨⍉⁼𝕩` is `𝕩`, when the numbers in `𝕨` are different axes of `𝕩`. -/
theorem reorder_unorder {α} (log : Nat) (notB : Bool) (d : Nat → α) (tr : List α → List Nat → Option (List α × List Nat)) (ht : IsTranspose tr) (w : Axes) (y : List α) (ysh : List Nat)
    (hy : y.length = prod ysh) (hd : ∀ l ∈ ysh, l < 2^32 - 1) (h : Invertible w ysh.length) :
    ∃ x xsh, unorder (elems log notB d) w y ysh = some (.ok (x, xsh)) ∧ xsh.length = ysh.length ∧ reorderW (elems log notB d) tr w x xsh = some (.ok (y, ysh)) := by
  obtain ⟨wi, ei, hp, et⟩ := invertW_ok h
  obtain ⟨x, e, hm⟩ := moved_reorder log notB d hy hd hp
  have hl := newShape_length hp
  have h' : Invertible w (newShape wi ysh).length := by rw [hl]; exact h
  obtain ⟨z, e2, hm2⟩ := moved_reorderW log notB d ht hm.len (fun l hl => hd l (newShape_mem hp l hl)) h'
  obtain ⟨rfl, e3⟩ := moved_back hy hp h.perm (undoes_symm h.perm hp (back_undoes h.perm et)) hm hm2
  refine ⟨x, _, ?_, hl, by rw [e2, e3]⟩
  rw [unorder, ei, Option.bind_some]
  exact e

/-- With axes that aren't there or are given twice, `𝕨⍉⁼𝕩` is an error, for every kind of array. -/
theorem unorder_refused {M α} (K : Group.GKind M α) (w : Axes) (x : M) (xsh : List Nat) (h : ¬ Invertible w xsh.length) : unorder K w x xsh = some .err := by
  rw [unorder]
  rcases invertW_not h with e | ⟨e, _⟩ <;> rw [e] <;> rfl

/-- `𝔽⌾(𝕨⊸⍉)𝕩`: `𝔽` gets `𝕨⍉𝕩`, and from what it gives, the result is the array that `𝕨⍉` makes it of. `𝔽` may change the shape and even the number of axes, as long as `𝕨` is still good for it. -/
theorem under_reorder {α} (log : Nat) (notB : Bool) (d : Nat → α) (tr : List α → List Nat → Option (List α × List Nat)) (ht : IsTranspose tr) (o : List α → List Nat → Option (Out (List α × List Nat)))
    (other : Option (Out (List α × List Nat))) (w : Axes) (x : List α) (xsh : List Nat) (hx : x.length = prod xsh) (hd : ∀ l ∈ xsh, l < 2^32 - 1) (h : Invertible w xsh.length)
    (y : List α) (ysh : List Nat) (hy : y.length = prod ysh) (hdy : ∀ l ∈ ysh, l < 2^32 - 1) (hiy : Invertible w ysh.length)
    (ho : ∀ a ash, reorderW (elems log notB d) tr w x xsh = some (.ok (a, ash)) → o a ash = some (.ok (y, ysh))) :
    ∃ r rsh, underReorder (elems log notB d) tr o other w x xsh = some (.ok (r, rsh)) ∧ reorderW (elems log notB d) tr w r rsh = some (.ok (y, ysh)) := by
  obtain ⟨a, e, _⟩ := moved_reorderW log notB d ht hx hd h
  obtain ⟨wi, ei, hp, et⟩ := invertW_ok h
  obtain ⟨r, rsh, e2, _, e3⟩ := reorder_unorder log notB d tr ht w y ysh hy hdy hiy
  obtain ⟨wj, ej, _, _⟩ := invertW_ok hiy
  have hsame : wj = wi := invertW_same h hiy ei ej
  refine ⟨r, rsh, ?_, e3⟩
  rw [unorder, ej, Option.bind_some, hsame] at e2
  rw [underReorder, ei, Option.bind_some]
  show (reorderW (elems log notB d) tr w x xsh).bind _ = _
  rw [e, Option.bind_some]
  show (o a _).bind _ = _
  rw [ho a _ e, Option.bind_some]
  exact e2

/-- If `𝕨` isn't good for what `𝔽` gives, Under is an error; the number 0 is left out, see `under_zero_unit`. -/
theorem under_misfit {α} (log : Nat) (notB : Bool) (d : Nat → α) (tr : List α → List Nat → Option (List α × List Nat)) (ht : IsTranspose tr) (o : List α → List Nat → Option (Out (List α × List Nat)))
    (other : Option (Out (List α × List Nat))) (w : Axes) (x : List α) (xsh : List Nat) (hx : x.length = prod xsh) (hd : ∀ l ∈ xsh, l < 2^32 - 1) (h : Invertible w xsh.length)
    (y : List α) (ysh : List Nat) (hdy : ∀ l ∈ ysh, l < 2^32 - 1) (hiy : ¬ Invertible w ysh.length) (h0 : w ≠ .atom 0)
    (ho : ∀ a ash, reorderW (elems log notB d) tr w x xsh = some (.ok (a, ash)) → o a ash = some (.ok (y, ysh))) :
    underReorder (elems log notB d) tr o other w x xsh = some .err := by
  obtain ⟨a, e, _⟩ := moved_reorderW log notB d ht hx hd h
  obtain ⟨wi, ei, hp, et⟩ := invertW_ok h
  rw [underReorder, ei, Option.bind_some]
  show (reorderW (elems log notB d) tr w x xsh).bind _ = _
  rw [e, Option.bind_some]
  show (o a _).bind _ = _
  rw [ho a _ e, Option.bind_some]
  exact reorder_refused _ _ _ _ hdy (invertW_misfit h hiy h0 ei)

/-- If `𝔽` keeps everything as it is, `𝕩` is the result. -/
theorem under_nothing {α} (log : Nat) (notB : Bool) (d : Nat → α) (tr : List α → List Nat → Option (List α × List Nat)) (ht : IsTranspose tr) (other : Option (Out (List α × List Nat)))
    (w : Axes) (x : List α) (xsh : List Nat) (hx : x.length = prod xsh) (hd : ∀ l ∈ xsh, l < 2^32 - 1) (h : Invertible w xsh.length) :
    underReorder (elems log notB d) tr (fun a ash => some (.ok (a, ash))) other w x xsh = some (.ok (x, xsh)) := by
  obtain ⟨y, ysh, e, e2⟩ := unorder_reorder log notB d tr ht w x xsh hx hd h
  obtain ⟨y', e', hm⟩ := moved_reorderW log notB d ht hx hd h
  rw [e] at e'
  cases e'
  obtain ⟨wi, ei, _, _⟩ := invertW_ok h
  rw [unorder, newShape_length h.perm, ei, Option.bind_some] at e2
  rw [underReorder, ei, Option.bind_some]
  show (reorderW (elems log notB d) tr w x xsh).bind _ = _
  rw [e, Option.bind_some]
  exact e2

/-- With axes that aren't there, Under is an error; with an axis given twice it may also be left to the general case. -/
theorem under_refused {M α} (K : Group.GKind M α) (tr : M → List Nat → Option (M × List Nat)) (o : M → List Nat → Option (Out (M × List Nat))) (other : Option (Out (M × List Nat))) (w : Axes) (x : M)
    (xsh : List Nat) (h : ¬ Invertible w xsh.length) : underReorder K tr o other w x xsh = some .err ∨ (¬ w.nums.Nodup ∧ underReorder K tr o other w x xsh = other) := by
  rw [underReorder]
  rcases invertW_not h with e | ⟨e, hn⟩ <;> rw [e]
  · exact .inl rfl
  · exact .inr ⟨hn, rfl⟩

/-- `⍉` as it is modelled for C28, on lists of elements. -/
def trElems {α} (junk : Nat → Word) (jb : Nat → Bool) (d : Nat → α) (x : List α) (sh : List Nat) : Option (List α × List Nat) :=
  (Transpose.transpC1 (.elems x) sh junk jb d).bind fun
  | (.elems r, sh) => some (r, sh)
  | (.bits _, _) => none

/-- It is what the theorems want `tr` to be. -/
theorem trElems_transpose {α} (junk : Nat → Word) (jb : Nat → Bool) (d : Nat → α) : IsTranspose (trElems junk jb d) := by
  refine ⟨fun x sh h => ?_, fun x h sh hsh hx => ?_⟩
  · rw [trElems, Transpose.transpose_list _ _ h]
    rfl
  · obtain ⟨r, e, h1, h2⟩ := Transpose.transpose_index (.elems x) h sh hsh hx junk jb d
    obtain ⟨r', rsh, e', e2⟩ := Transpose.transpose_round_trip_elems x (h :: sh) hx junk jb d
    rw [e] at e'
    cases e'
    cases r with
    | elems r =>
      refine ⟨r, by rw [trElems, e]; rfl, h1, fun i is hi his => ?_⟩
      have := h2 i is hi his
      exact Option.map_injective (fun _ _ h => Sum.inl.inj h) this
    | bits r =>
      obtain ⟨s1, rest, rfl⟩ : ∃ s1 rest, sh = s1 :: rest := by
        cases sh with
        | nil => exact (hsh rfl).elim
        | cons a b => exact ⟨a, b, rfl⟩
      rw [Transpose.transpC1] at e
      by_cases hc : prod (h :: s1 :: rest) = 0 ∨ h = 1 ∨ h = prod (h :: s1 :: rest)
      · rw [if_pos hc] at e; cases e
      · rw [if_neg hc, Transpose.transposeNoshape] at e
        obtain ⟨v, e5, e6⟩ := Option.map_eq_some_iff.1 e
        obtain ⟨_, _, e7⟩ := Option.map_eq_some_iff.1 e5
        subst e7
        cases e6

/-- With the number 0 the inverse is known to be nothing, so `𝔽` may give an array without axes, although `0⍉` isn't defined for it: `{3}⌾(0⊸⍉)𝕩` is `<3`. -/
theorem under_zero_unit : underReorder (elems 6 true fun _ => 0) (trElems (fun _ => 0#64) (fun _ => true) fun _ => 0) (fun _ _ => some (.ok ([3], []))) none (.atom 0) [1, 2] [2] = some (.ok ([3], [])) ∧
    ¬ Invertible (.atom 0) 0 := ⟨rfl, by decide⟩

example : Invertible (.list [2, 0]) [2, 3, 4, 1].length ∧ Invertible (.atom 2) [2, 3, 4].length ∧ ¬ Invertible (.list [1, 1]) 3 ∧ ¬ Invertible (.atom 3) 3 ∧ ¬ Invertible (.list [0, 1]) 1 := by decide
example : invertW (.list [2, 0]) 4 = some (.ok [1, 2, 0]) ∧ invertW (.atom 2) 4 = some (.ok [1, 2]) ∧ invertW (.list [1, 1]) 3 = some .dup ∧ invertW (.list [1, 3]) 3 = some .err ∧
    invertW (.list [3]) 5 = some (.ok [1, 2, 3, 0]) := by decide
example : reorderW (elems 6 true fun _ => 0) (trElems (fun _ => 0#64) (fun _ => true) fun _ => 0) (.list [2, 0]) (List.range 12) [2, 3, 2] = some (.ok ([0, 6, 1, 7, 2, 8, 3, 9, 4, 10, 5, 11], [3, 2, 2])) := by rfl
example : unorder (elems 6 true fun _ => 0) (.list [2, 0]) [0, 6, 1, 7, 2, 8, 3, 9, 4, 10, 5, 11] [3, 2, 2] = some (.ok (List.range 12, [2, 3, 2])) := by rfl
example : unorder (elems 6 true fun _ => 0) (.atom 1) [1, 4, 2, 5, 3, 6] [3, 2] = some (.ok ([1, 2, 3, 4, 5, 6], [2, 3])) := by rfl
/-- Each row of the transposed matrix reversed. -/
example : underReorder (elems 6 true fun _ => 0) (trElems (fun _ => 0#64) (fun _ => true) fun _ => 0) (fun _ sh => some (.ok ([4, 1, 5, 2, 6, 3], sh))) none (.list [1, 0]) [1, 2, 3, 4, 5, 6] [2, 3] =
    some (.ok ([4, 5, 6, 1, 2, 3], [2, 3])) := by rfl

end Verif.Unorder
