import Verif.Insert.Scans
/-!
# C55: Fold, Insert and Scan

For every operand, with any effects, the model of `𝔽´`, `𝔽˝` and `` 𝔽` `` makes the calls of the specification, in its order, and gives what it gives.
-/
namespace Verif.Insert
open Verif.Cells (Arr Val Full cellAt)
open Verif.Rotate (prod)
variable {E : Type} {m : Type → Type}

/-! ## Fold -/

theorem fold_calls [Monad m] [LawfulMonad m] (op : Op m E) (x : Val E) : cFold1 op x = fold1 op x := cFold1_eq op x

theorem fold_init_calls [Monad m] [LawfulMonad m] (op : Op m E) (w : E) (x : Val E) : cFold2 op w x = fold2 op w x := cFold2_eq op w x

/-- Without effects, the folds of the specification are those of lists. -/
theorem fold_value (f : E → E → E) : ∀ (xs : List E) (w : E), foldR (m := Id) (sure fun a b => pure (f a b)) xs w = some (xs.foldr f w)
  | [], _ => rfl
  | x :: xs, w => by rw [foldR, fold_value f xs w]; rfl

/-- An operand that writes down its arguments. -/
def noted (a b : Nat) : StateM (List (Nat × Nat)) Nat := fun s => (10 * a + b, s ++ [(a, b)])

example : (cFold1 (.fn noted none) (.arr ⟨[4], [1, 2, 3, 4]⟩)).run [] = (.ok (10 + 20 + 30 + 4), [(3, 4), (2, 34), (1, 54)]) := by rfl
example : (cFold2 (.fn noted none) 5 (.arr ⟨[2], [1, 2]⟩)).run [] = (.ok 35, [(2, 5), (1, 25)]) := by rfl
example : (cFold1 (m := Id) (.perv (fun a b => a - b) (some (0 : Int))) (.arr ⟨[4], [1, 2, 3, 4]⟩)) = .ok (-2) := by rfl
example : (cFold1 (m := Id) (.perv (fun a b => a - b) (some (0 : Int))) (.arr ⟨[0], []⟩)) = .ok 0 := by rfl

/-! ## Insert -/

/-- The size limits in `Fits` concern only empty arrays; the calls are not right without them, as shown below. -/
theorem insert_calls_partial [Monad m] [LawfulMonad m] (op : COp m E) (x : Val E) (hx : ∀ a, x = .arr a → Fits a) : cInsert1 op x = insert1 op x := cInsert1_eq op x hx

theorem insert_init_calls [Monad m] [LawfulMonad m] (op : COp m E) (w x : Val E) (hw : FullV w) (hx : ∀ a, x = .arr a → Fits a) : cInsert2 op w x = insert2 op w x := cInsert2_eq op w x hw hx

/-- Arrays with elements fit when they have as many as their shape says, less than 2⋆32, and at most 255 axes. -/
theorem fits_nonempty (a : Arr E) (h : Full a) (h0 : a.els ≠ []) (hl : a.els.length < 2^32) (hr : a.sh.length ≤ 255) : Fits a := by
  have hpos : 0 < a.els.length := List.length_pos_iff.2 h0
  have bound : ∀ k, prod (a.sh.drop k) < 2^32 ∧ prod (a.sh.take k) < 2^32 := by
    intro k
    have e := Verif.Cells.prod_take_drop a.sh k
    rw [← h] at e
    have h1 : prod (a.sh.take k) ≠ 0 := by intro z; rw [z, Nat.zero_mul] at e; omega
    have h2 : prod (a.sh.drop k) ≠ 0 := by intro z; rw [z, Nat.mul_zero] at e; omega
    have b1 := Nat.mul_le_mul_right (prod (a.sh.drop k)) (show 1 ≤ prod (a.sh.take k) by omega)
    have b2 := Nat.mul_le_mul_left (prod (a.sh.take k)) (show 1 ≤ prod (a.sh.drop k) by omega)
    omega
  exact ⟨h, hl, (bound 1).1, (bound 2).2, hr⟩

def table : Arr Nat := ⟨[4, 3], [1, 2, 3, 4, 5, 6, 7, 8, 9, 10, 11, 12]⟩

theorem table_fits : Fits table := fits_nonempty table rfl (by decide) (by decide) (by decide)

/-- What an array with numbers is, to compare. -/
def shown : Res (Val Nat) → Option (List Nat × List Nat)
  | .ok v => some (v.sh, v.els)
  | _ => none

example : (fun r => (shown r.1, r.2.take 4)) ((cInsert1 (.perv noted none) (.arr table)).run []) = (some ([3], [10+40+70+10, 20+50+80+11, 30+60+90+12]), [(7, 10), (8, 11), (9, 12), (4, 80)]) := by rfl
example : shown (cInsert1 (m := Id) .join (.arr table)) = some ([12], table.els) := by rfl
example : shown (cInsert1 (m := Id) (.perv (fun a b => a + b) (some 0)) (.arr ⟨[0, 2, 2], []⟩)) = some ([2, 2], [0, 0, 0, 0]) := by rfl
example : shown (cInsert1 (m := Id) (.fn (fun a _ => a) none) (.arr table)) = some ([3], [1, 2, 3]) := by rfl
example : shown (cInsert2 (m := Id) (.perv (fun a b => a + b) none) (.arr ⟨[3], [1, 1, 1]⟩) (.arr table)) = some ([3], [23, 27, 31]) := by rfl
example : FullV (.arr ⟨[3], [1, 1, 1]⟩ : Val Nat) := rfl

/-! ## Scan -/

theorem scan_calls [Monad m] [LawfulMonad m] (op : Op m E) (x : Val E) (hx : ∀ a, x = .arr a → Fits a) : cScan1 op x = scan1 op x := cScan1_eq op x hx

theorem scan_init_calls [Monad m] [LawfulMonad m] (op : Op m E) (w x : Val E) (hw : FullV w) (hx : ∀ a, x = .arr a → Fits a) : cScan2 op w x = scan2 op w x := cScan2_eq op w x hw hx

/-- A scan without effects. -/
def scanned (f : E → E → E) (w xs : List E) : List E := scanFrom (m := Id) (fun a b => pure (f a b)) w xs

/-- Without effects: each element is the result of `f` on the one a cell before it and the one of the argument; at the beginning `w` is what comes before. -/
theorem scan_value (f : E → E → E) : ∀ (xs w : List E), w ≠ [] →
    (scanned f w xs).length = xs.length ∧ ∀ (i : Nat) (x p : E), xs[i]? = some x → (w ++ scanned f w xs)[i]? = some p → (scanned f w xs)[i]? = some (f p x)
  | [], w, _ => by
    refine ⟨by cases w <;> rfl, ?_⟩
    intro i x p h
    cases h
  | x :: xs, [], h => absurd rfl h
  | x :: xs, p :: w, _ => by
    obtain ⟨hl, hi⟩ := scan_value f xs (w ++ [f p x]) (by simp)
    have e : scanned f (p :: w) (x :: xs) = f p x :: scanned f (w ++ [f p x]) xs := rfl
    rw [e]
    refine ⟨by rw [List.length_cons, hl, List.length_cons], ?_⟩
    intro i y q hy hq
    cases i with
    | zero =>
      cases hy
      cases hq
      rfl
    | succ i =>
      rw [List.getElem?_cons_succ] at hy ⊢
      apply hi i y q hy
      rw [List.cons_append, List.getElem?_cons_succ] at hq
      rw [List.append_assoc]
      exact hq

def shownA : Res (Arr Nat) → Option (List Nat × List Nat)
  | .ok v => some (v.sh, v.els)
  | _ => none

example : (fun r => (shownA r.1, r.2.take 4)) ((cScan1 (.fn noted none) (.arr table)).run []) =
    (some ([4, 3], [1, 2, 3, 14, 25, 36, 147, 258, 369, 1480, 2591, 3702]), [(1, 4), (2, 5), (3, 6), (14, 7)]) := by rfl
example : shownA (cScan2 (m := Id) (.perv (fun a b => a + b) none) (.arr ⟨[3], [100, 200, 300]⟩) (.arr table)) = some ([4, 3], [101, 202, 303, 105, 207, 309, 112, 215, 318, 122, 226, 330]) := by rfl
example : shownA (cScan1 (m := Id) .ltack (.arr table)) = some ([4, 3], [1, 2, 3, 1, 2, 3, 1, 2, 3, 1, 2, 3]) := by rfl

/-! ## Empty arrays with large cells -/

/-- `+˝ 0‿65536‿65536⥊0`: the size of a cell wraps to 0, and the result has the shape 65536‿65536 and no elements. -/
theorem identity_without_elements : ∃ r, cInsert1 (m := Id) (.perv (fun a b => a + b) (some (0 : Int))) (.arr ⟨[0, 65536, 65536], []⟩) = .ok (.arr r) ∧ Full (⟨[0, 65536, 65536], []⟩ : Arr Int) ∧ ¬ Full r :=
  ⟨⟨[65536, 65536], []⟩, by rfl, by rfl, by unfold Full; decide⟩

/-- `+˝ 0‿641‿6700417⥊0`: the result has the shape 641‿6700417 and one element. -/
theorem identity_of_one_element : ∃ r, cInsert1 (m := Id) (.perv (fun a b => a + b) (some (0 : Int))) (.arr ⟨[0, 641, 6700417], []⟩) = .ok (.arr r) ∧ Full (⟨[0, 641, 6700417], []⟩ : Arr Int) ∧
    r.sh = [641, 6700417] ∧ r.els = [0] :=
  ⟨⟨[641, 6700417], [0]⟩, by rfl, by rfl, rfl, rfl⟩

/-- `∾˝ 65536‿65536‿0⥊0` gives the shape 0‿0: the length of the result would be 2⋆32. -/
theorem join_wraps : ∃ r r', cInsert1 (m := Id) .join (.arr (⟨[65536, 65536, 0], []⟩ : Arr Int)) = .ok (.arr r) ∧ insert1 (m := Id) .join (.arr (⟨[65536, 65536, 0], []⟩ : Arr Int)) = .ok (.arr r') ∧
    r.sh = [0, 0] ∧ r'.sh = [2^32, 0] := by
  refine ⟨⟨[0, 0], []⟩, ⟨[2^32, 0], []⟩, by rfl, ?_, rfl, rfl⟩
  have all : ∀ (a : Arr Int) (n g : Nat) (u : List Nat), a.sh = (n+2) :: g :: u → a.els = [] → insert1 (m := Id) .join (.arr a) = .ok (.arr ⟨((n+1) * g + g) :: u, []⟩) := by
    intro a n g u hs he
    have j := join_fold (m := Id) hs (Or.inr rfl) (n + 1) g (by omega)
    have back : (Val.arr (cellAt a 1 n) :: (cells a n).reverse).reverse = cells a (n + 1) := by rw [cells_succ]; simp
    unfold insert1
    dsimp only
    rw [if_neg (by rw [hs]; simp), majors_rev2 hs]
    dsimp only [COp.isMd]
    rw [back, show cellAt a 1 (n + 1) = ⟨g :: u, []⟩ by rw [cellAt_eq hs, he]; simp]
    rw [he] at j
    simp only [List.drop_nil] at j
    rw [show COp.run .join = fun (p q : Val Int) => (pure (joinV p q) : Id (Option (Val Int))) from rfl, j]
    rfl
  exact all ⟨[65536, 65536, 0], []⟩ 65534 65536 [0] rfl rfl

end Verif.Insert
