import Verif.Known.Folds
import Verif.Known.Pairs
/-!
# Functions that Cells and Rank recognise: C56

`˘` and `⎉` have code of their own for many operands. It gives what calls of the operand on each cell give, `Verif.Cells.onCells` and `Verif.Cells.onPairs`, with the exceptions that are listed here.
-/
namespace Verif.Known
open Verif.Cells (Arr Val Operand Out onCells onPairs Full Sized tooLarge)
open Verif.Insert (Op COp)
open Verif.Rotate (prod)
variable {E : Type}

/-- What is asked of a function, the array and the leading axes: nothing for the ones that aren't named. -/
def Ok1 (fill : Arr E → E) (io : Info E) (x : Arr E) (k : Nat) : Known1 E → Prop
  | .select => io.Good
  | .pick val => io.Good ∧ (io.flat = true → ∀ e ∈ x.els, val e = .atom e)
  | .shape => k < 255
  | .shift _ => io.boxed = true → x.els.length + (x.sh[k]?.getD 0) ≤ 2^32
  | .const v => v.els.length = prod v.sh
  | .insert _ op => io.Good ∧ InsertOk x k op
  | .fold val op => io.Good ∧ (io.boxed = false → (∀ e ∈ x.els, val e = .atom e) ∧ val (fill x) = .atom (fill x)) ∧ FoldOk x k val op
  | .scan op => x.sh.drop k ≠ [] → ScanOk fill x k op
  | _ => True

/-- C56: `F˘𝕩` and `F⎉k 𝕩` for the functions that have code of their own. -/
theorem known_one_partial (fill : Arr E → E) (io : Info E) (d : E) (p : Known1 E) {x : Arr E} {k : Nat} (h : Arg x k) (ok : Ok1 fill io x k p) :
    knownCells1 fill io d p x k = onCells fill (Known1.op io (fill x) p) (.arr x) k := by
  match p, ok with
  | .tack, _ => exact tack_eq h
  | .lt box, _ => exact lt_eq box h
  | .select, ok => exact select_eq ok h
  | .pick val, ok => exact pick_eq ok.1 val ok.2 h
  | .couple, _ => exact couple_eq h
  | .shape, ok => exact shape_eq h ok
  | .shift _, ok => exact shift_eq h ok
  | .reverse, _ => exact reverse_eq h
  | .sortLike o, _ => exact sortLike_eq o h
  | .gradeLike e o, _ => exact gradeLike_eq e o h
  | .undoCouple o, _ => exact undoCouple_eq o h
  | .const v, ok => exact const_eq ok h
  | .insert box op, ok => exact insert_known ok.1 box op h ok.2
  | .fold val op, ok => exact fold_known ok.1 val ok.2.1 op h ok.2.2
  | .scan op, ok => exact scan_known op h ok

/-- C56: `𝕨 F⎉k‿∞ 𝕩`, all of `𝕩` with each cell of `𝕨`. -/
theorem known_left_partial [DecidableEq E] (fill : Arr E → E) (p : Known2 E) {w : Arr E} {x : Val E} {k : Nat} (hx : Sized x) (h : Arg2 w k) (hv : ∀ v, p = .const v → v.els.length = prod v.sh)
    (hs : p = .couple → w.els.length + w.els.length < 2^32) :
    knownAS fill p w k x = onPairs fill p.op (.arr w) x k 0 := as_eq p hx h hv hs

/-- C56: `𝕨 F⎉∞‿k 𝕩`, all of `𝕨` with each cell of `𝕩`. -/
theorem known_right_partial [DecidableEq E] (fill : Arr E → E) (io : Info E) (rboxed rbit : Bool) (d : E) (p : Known2 E) {w : Val E} {x : Arr E} {k : Nat} (hw : Sized w) (h : Arg2 x k) (ok : Ok2 io rboxed x k p) :
    knownSA fill io rboxed rbit d p w x k = onPairs fill p.op w (.arr x) 0 k := sa_eq p hw h ok

/-- C56: `𝕨 F˘ 𝕩` and `𝕨 F⎉j‿k 𝕩`, cells with cells. -/
theorem known_both_partial [DecidableEq E] (fill : Arr E → E) (typed : Bool) (p : Known2 E) {w x : Arr E} {wk xk : Nat} (hw : Arg2 w wk) (hx : Arg2 x xk) (hv : ∀ v, p = .const v → v.els.length = prod v.sh)
    (hs : p = .couple → w.els.length + x.els.length < 2^32 ∧ x.sh.length < 255) :
    knownAA fill typed p w wk x xk = onPairs fill p.op (.arr w) (.arr x) wk xk := aa_eq p hw hx hv hs

/-! ## Cases that meet the hypotheses -/

/-- `2‿3⥊1‿2‿3‿4‿5‿6`. -/
def t23 : Arr Nat := ⟨[2, 3], [1, 2, 3, 4, 5, 6]⟩
/-- Bytes. -/
def bytes : Info Nat := ⟨some 0, true, false, false, 3, 3⟩

theorem sized_of {sh : List Nat} {els : List Nat} (h1 : els.length = prod sh) (h2 : els.length < 2^32) (h3 : ∀ k, k ≤ sh.length → prod (sh.take k) < 2^32) : Sized (.arr (⟨sh, els⟩ : Arr Nat)) := by
  refine ⟨h1, h2, fun k => ?_⟩
  by_cases hk : k ≤ sh.length
  · exact h3 k hk
  · show prod (sh.take k) < 2^32
    rw [List.take_of_length_le (by omega)]
    have := h3 sh.length (Nat.le_refl _)
    rwa [List.take_length] at this

theorem sized23 : Sized (.arr t23) := sized_of rfl (by decide) (by decide)
theorem arg23 : Arg t23 1 := ⟨sized23, by decide, by decide, by decide, by decide⟩
theorem arg223 : Arg2 t23 1 := ⟨sized23, by decide, by decide, by decide⟩
theorem good_bytes : bytes.Good := ⟨by decide, by decide⟩

/-- `-` on numbers, `∾`, and a block with two arguments that has no identity. -/
def minus : Op Option Nat := .perv (fun a b => some (a - b)) (some 0)
def minusC : COp Option Nat := .perv (fun a b => some (a - b)) (some 0)

theorem insert23 : InsertOk t23 1 minusC where
  join_one h := by cases h
  join_two h := by cases h
  missing t h := by cases h
  ident t h := by cases h
  total t h := by cases h

theorem fold23 : FoldOk t23 1 Val.atom minus where
  missing h := by cases h
  ident h := by cases h

example : knownCells1 (fun _ => 0) bytes 9 .select t23 1 = some (.ok ⟨[2], [1, 4]⟩) ∧ Ok1 (fun _ => 0) bytes t23 1 .select := ⟨by rfl, good_bytes⟩
example : knownCells1 (fun _ => 0) bytes 9 (.pick .atom) t23 1 = some (.ok ⟨[2], [1, 4]⟩) ∧ Ok1 (fun _ => 0) bytes t23 1 (.pick .atom) := ⟨by rfl, good_bytes, fun _ _ _ => rfl⟩
example : knownCells1 (fun _ => 0) bytes 9 .couple t23 1 = some (.ok ⟨[2, 1, 3], [1, 2, 3, 4, 5, 6]⟩) := by rfl
example : knownCells1 (fun _ => 0) bytes 9 .shape t23 1 = some (.ok t23) ∧ Ok1 (fun _ => 0) bytes t23 1 .shape := ⟨by rfl, show 1 < 255 by decide⟩
example : knownCells1 (fun _ => 0) bytes 9 (.shift true) t23 1 = some (.ok ⟨[2, 3], [2, 3, 0, 5, 6, 0]⟩) ∧ Ok1 (fun _ => 0) bytes t23 1 (.shift true) := ⟨by rfl, fun h => by cases h⟩
example : knownCells1 (fun _ => 0) bytes 9 .reverse t23 1 = some (.ok ⟨[2, 3], [3, 2, 1, 6, 5, 4]⟩) := by rfl
example : knownCells1 (fun _ => 0) bytes 9 (.lt fun a => a.els.length) t23 1 = some (.ok ⟨[2], [3, 3]⟩) := by rfl
example : knownCells1 (fun _ => 0) bytes 9 (.const (.arr ⟨[2], [7, 8]⟩)) t23 1 = some (.ok ⟨[2, 2], [7, 8, 7, 8]⟩) ∧ Ok1 (fun _ => 0) bytes t23 1 (.const (.arr ⟨[2], [7, 8]⟩)) := ⟨by rfl, rfl⟩
example : knownCells1 (fun _ => 0) bytes 9 (.insert (fun _ => 0) .rtack) t23 1 = some (.ok ⟨[2], [3, 6]⟩) := by rfl
example : Ok1 (fun _ => 0) bytes t23 1 (.insert (fun _ => 0) minusC) := ⟨good_bytes, insert23⟩
example : Ok1 (fun _ => 0) bytes t23 1 (.fold .atom minus) := ⟨good_bytes, fun _ => ⟨fun _ _ => rfl, rfl⟩, fold23⟩
example : knownCells1 (fun _ => 0) bytes 9 (.scan minus) ⟨[2, 3], [9, 2, 3, 8, 1, 1]⟩ 1 = some (.ok ⟨[2, 3], [9, 7, 4, 8, 7, 6]⟩) := by rfl
example : Ok1 (fun _ => 0) bytes t23 1 (.scan minus) := fun _ h => by cases h
/-- With no cells the result has the shape that a result for a cell of fills has. -/
example : knownCells1 (fun _ => 0) bytes 9 (.insert (fun _ => 0) minusC) ⟨[0, 0, 3], []⟩ 1 = some (.ok ⟨[0, 3], []⟩) := by rfl

/-- A number as an index. -/
def ints : Nat → Option (Option Int) := fun n => if n < 2^53 then some (some n) else some none
theorem ok_select : Ok2 bytes false t23 1 (.select ints fun _ => none) where
  good := good_bytes
  const _ h := by cases h
  couple h := by cases h
  select _ _ h e i he := by
    injection h with h1 h2
    subst h1
    unfold ints at he
    by_cases hb : e < 2^53
    · rw [if_pos hb] at he; cases he; omega
    · rw [if_neg hb] at he; cases he
  pick _ _ _ h := by cases h
  shift _ _ h := by cases h
example : knownSA (fun _ => 0) bytes false false 9 (.select ints fun _ => none) (.atom 2) t23 1 = some (.ok ⟨[2], [3, 6]⟩) := by rfl
example : knownSA (fun _ => 0) bytes false false 9 (.shift false fun _ => none) (.atom 7) t23 1 = some (.ok ⟨[2, 3], [7, 1, 2, 7, 4, 5]⟩) := by rfl
example : knownSA (fun _ => 0) bytes false false 9 .couple (.atom 7) ⟨[3], [1, 2, 3]⟩ 1 = some (.ok ⟨[3, 2], [7, 1, 7, 2, 7, 3]⟩) := by rfl
example : knownAS (fun _ => 0) .couple ⟨[3], [1, 2, 3]⟩ 1 (.atom 7) = some (.ok ⟨[3, 2], [1, 7, 2, 7, 3, 7]⟩) := by rfl
example : knownAS (fun _ => 0) .rtack t23 1 (.arr ⟨[2], [7, 8]⟩) = some (.ok ⟨[2, 2], [7, 8, 7, 8]⟩) := by rfl
example : knownAA (fun _ => 0) true .couple t23 1 ⟨[2, 3], [7, 8, 9, 10, 11, 12]⟩ 1 = some (.ok ⟨[2, 2, 3], [1, 2, 3, 7, 8, 9, 4, 5, 6, 10, 11, 12]⟩) := by rfl
example : knownAA (fun _ => 0) true (.match_ (fun b => if b then 1 else 0) false) t23 1 ⟨[2, 3], [1, 2, 3, 4, 5, 7]⟩ 1 = some (.ok ⟨[2], [1, 0]⟩) := by rfl

/-! ## Exceptions -/

set_option maxRecDepth 4000 in
/-- C56 is violated: `⥊⎉0` on an array of rank 255 writes 256 lengths where there is room for none, where it should be an error. -/
theorem shape_rank : knownCells1 (fun _ => 0) bytes 9 .shape ⟨List.replicate 255 1, [5]⟩ 255 = some .undef ∧
    onCells (fun _ => 0) (Known1.op bytes 0 .shape) (.arr ⟨List.replicate 255 1, [5]⟩) 255 = some .rank := ⟨by rfl, by rfl⟩

/-- `∾˝˘` on rows of one element keeps the axis, so `∾˝˘ 3‿1⥊↕3` isn't a list. -/
theorem join_keeps_axis : knownCells1 (fun _ => 0) bytes 9 (.insert (fun _ => 0) .join) ⟨[3, 1], [0, 1, 2]⟩ 1 = some (.ok ⟨[3, 1], [0, 1, 2]⟩) ∧
    onCells (fun _ => 0) (Known1.op bytes 0 (.insert (fun _ => 0) .join)) (.arr ⟨[3, 1], [0, 1, 2]⟩) 1 = some (.ok ⟨[3], [0, 1, 2]⟩) := ⟨by rfl, by rfl⟩

/-- An identity that is an array becomes an element. -/
theorem identity_boxed (f : Val Nat → Val Nat → Option (Val Nat)) (box : Arr Nat → Nat) :
    knownCells1 (fun _ => 0) bytes 9 (.insert box (.fn f (some (.arr ⟨[2], [7, 8]⟩)))) ⟨[3, 0], []⟩ 1 = some (.ok ⟨[3], List.replicate 3 (box ⟨[2], [7, 8]⟩)⟩) ∧
    onCells (fun _ => 0) (Known1.op bytes 0 (.insert box (.fn f (some (.arr ⟨[2], [7, 8]⟩))))) (.arr ⟨[3, 0], []⟩) 1 = some (.ok ⟨[3, 2], [7, 8, 7, 8, 7, 8]⟩) := ⟨by rfl, by rfl⟩

/-- A function without identity is an error although there are no cells to call it on. -/
theorem identity_missing (f : Val Nat → Val Nat → Option (Val Nat)) (box : Arr Nat → Nat) :
    knownCells1 (fun _ => 0) bytes 9 (.insert box (.fn f none)) ⟨[0, 0], []⟩ 1 = none ∧
    onCells (fun _ => 0) (Known1.op bytes 0 (.insert box (.fn f none))) (.arr ⟨[0, 0], []⟩) 1 = some (.ok ⟨[0], []⟩) := ⟨by rfl, by rfl⟩

/-- `+˝˘ 65536‿0‿65536⥊0` should be an error, having 2⋆32 elements. It's an array of that shape without elements. -/
theorem identity_wraps (f : Nat → Nat → Option Nat) (box : Arr Nat → Nat) :
    knownCells1 (fun _ => 0) bytes 9 (.insert box (.perv f (some 0))) ⟨[65536, 0, 65536], []⟩ 1 = some (.ok ⟨[65536, 65536], []⟩) ∧ ¬ Full (⟨[65536, 65536], []⟩ : Arr Nat) := ⟨by rfl, by unfold Full; decide⟩

/-- `⥊˘ 0‿65536‿65536⥊0`: a list that long is an error, and the result has lists of length 0 instead. -/
theorem shape_wraps : knownCells1 (fun _ => 0) bytes 9 .shape ⟨[0, 65536, 65536], []⟩ 1 = some (.ok ⟨[0, 0], []⟩) ∧
    onCells (fun _ => 0) (Known1.op bytes 0 .shape) (.arr ⟨[0, 65536, 65536], []⟩) 1 = some .large := ⟨by rfl, by rfl⟩

/-- `a≍˘a` for a list of 2⋆31 booleans has no elements in memory where its shape is `(2⋆31)‿2`. -/
theorem couple_wraps [DecidableEq E] (fill : Arr E → E) (typed : Bool) (e : E) {n : Nat} (hn : n = 2^31) :
    knownAA fill typed .couple ⟨[n], List.replicate n e⟩ 1 ⟨[n], List.replicate n e⟩ 1 = some (.ok ⟨[n, 2], []⟩) ∧ ¬ Full (⟨[n, 2], []⟩ : Arr E) := by
  constructor
  · unfold knownAA interleaveCells joinCells
    simp only [List.length_replicate]
    rw [show (n + n) % 2^32 = 0 by omega]
    have : Verif.Cells.shProd [n] = n := by rw [Verif.Cells.shProd_small] <;> simp [prod]; omega
    simp [this, Verif.Cells.shProd, arrOf]
    omega
  · show ¬ 0 = prod [n, 2]
    simp [prod]
    omega

set_option maxRecDepth 4000 in
/-- `≍˘` of arrays of rank 255 has rank 256 with no error. -/
theorem couple_rank : knownAA (fun _ => 0) true .couple ⟨List.replicate 255 1, [5]⟩ 1 ⟨List.replicate 255 1, [6]⟩ 1 = some .undef ∧
    onPairs (fun _ => 0) (Known2.op .couple) (.arr ⟨List.replicate 255 1, [5]⟩) (.arr ⟨List.replicate 255 1, [6]⟩) 1 1 = some .rank := ⟨by rfl, by rfl⟩

theorem setLoop_again (f : E) (r : List E) (fuel : Nat) {n : Nat} (hn : n = 2^31) : setLoop f (n + 1) (n + 1) (fuel + 3) n r = some ((r.set n f).set 1 f) := by
  unfold setLoop
  rw [if_pos (by omega), show (n + (n + 1)) % 2^32 = 1 by omega]
  unfold setLoop
  rw [if_pos (by omega), show (1 + (n + 1)) % 2^32 = n + 2 by omega]
  unfold setLoop
  rw [if_neg (by omega)]

/-- `«⎉1` on one nested row of 2⋆31+1 elements: the loop goes on from the beginning and puts the fill at index 1 as well. -/
theorem shift_again (fill : Arr E → E) (d f e : E) {n : Nat} (hn : n = 2^31) :
    ∃ els, knownCells1 fill ⟨some f, false, true, false, 6, 6⟩ d (.shift true) ⟨[1, n + 1], List.replicate (n + 1) e⟩ 1 = some (.ok ⟨[1, n + 1], els⟩) ∧ els[1]? = some f ∧
    ∃ cls, onCells fill (Known1.op ⟨some f, false, true, false, 6, 6⟩ (fill ⟨[1, n + 1], List.replicate (n + 1) e⟩) (.shift true)) (.arr ⟨[1, n + 1], List.replicate (n + 1) e⟩) 1 =
      some (.ok ⟨[1, n + 1], cls⟩) ∧ cls[1]? = some e := by
  refine ⟨((List.replicate n e ++ [d]).set n f).set 1 f, ?_, ?_, List.replicate n e ++ [f], ?_, ?_⟩
  · unfold knownCells1 shiftCells
    simp only [List.length_replicate, List.drop_replicate]
    rw [if_neg (by omega), if_neg (by simp)]
    rw [if_neg (by simp; omega)]
    simp only [if_true]
    show some (arrOf _ (setLoop f (n + 1) (n + 1) (4294967293 + 3) n _)) = _
    rw [setLoop_again f _ _ hn]
    rfl
  · rw [List.getElem?_set, if_pos rfl, if_pos]
    simp
    omega
  · rw [Verif.Known.regular fill _ (by decide) (by simp) (by unfold tooLarge; simp [prod, List.range_succ]; omega) [n + 1] (fun _ => .arr ⟨[n + 1], List.replicate n e ++ [f]⟩) (fun _ _ => rfl)]
    · rw [if_neg (by simp)]
      simp [prod, Val.els]
    · intro i hi
      have hi : i = 0 := by simp [prod] at hi; exact hi
      subst hi
      show nudge true (some f) (.arr (Verif.Cells.cellAt ⟨[1, n + 1], List.replicate (n + 1) e⟩ 1 0)) = _
      have : Verif.Cells.cellAt (⟨[1, n + 1], List.replicate (n + 1) e⟩ : Arr E) 1 0 = ⟨[n + 1], List.replicate (n + 1) e⟩ := by
        unfold Verif.Cells.cellAt
        simp [prod]
      rw [this]
      unfold nudge
      rw [show (Val.arr (⟨[n + 1], List.replicate (n + 1) e⟩ : Arr E)).sh = [n + 1] from rfl, show (Val.arr (⟨[n + 1], List.replicate (n + 1) e⟩ : Arr E)).els = List.replicate (n + 1) e from rfl]
      dsimp only
      rw [if_neg (by simp)]
      simp [prod]
    · intro h
      simp [prod] at h
  · rw [List.getElem?_append_left (by simp; omega), List.getElem?_replicate, if_pos (by omega)]

end Verif.Known
