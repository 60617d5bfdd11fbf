import Verif.Cells.Main
/-!
# C54: the cells that Cells and Rank go through

`𝔽˘` and `𝔽⎉𝕘` call the operand once for each cell, or pair of cells, in the order of their indices, with the cell that `𝕘` asks for, and merge the results, whatever the operand does. When there are no cells the
operand is only called if it has no effects.
-/
namespace Verif.Cells
open Verif.Rotate (prod prod_append InShape ravel ravel_lt ravel_append)
variable {E : Type} {m : Type → Type}

theorem cellRank_axes (n : Num) (v : Val E) : axes n v = frameOf n v := by unfold axes frameOf; rw [cellRankC_eq]

theorem frameOf_le (n : Num) (v : Val E) : frameOf n v ≤ v.sh.length := by unfold frameOf; omega

theorem call_eq [Monad m] {A : Type} (g : GArg m A) (a : A) : g.call a = given g a := by cases g <;> rfl

/-- C54: `𝔽⎉𝕘 𝕩`. -/
theorem rank_monadic_partial [Monad m] [LawfulMonad m] (fill : Arr E → E) (f : Operand m (Val E) E) (g : GArg m (Val E)) {x : Val E} (hx : Sized x) :
    rank1 fill f g x = (do
      match asked .only (← given g x) with
      | none => pure .badRank
      | some n => onCells fill f x (frameOf n x)) := by
  unfold rank1
  rw [call_eq]
  congr 1
  funext gv
  rw [pick_eq]
  cases asked .only gv with
  | none => rfl
  | some n =>
    dsimp only
    cases x with
    | atom e =>
      have : frameOf n (Val.atom e) = 0 := Nat.zero_sub _
      rw [this]
      exact (onCells_zero fill f hx).symm
    | arr a =>
      dsimp only
      have hr := cellRank_le a.sh.length n
      rw [cellRankC_eq]
      by_cases h : cellRank a.sh.length n = a.sh.length
      · rw [if_pos h, ← onCells_zero fill f hx]
        unfold frameOf
        rw [show (Val.arr a).sh = a.sh from rfl, h, Nat.sub_self]
      · rw [if_neg h, forCells1_eq fill f hx (by omega)]
        rfl

/-- C54: `𝕨 𝔽⎉𝕘 𝕩`. -/
theorem rank_dyadic_partial [Monad m] [LawfulMonad m] (fill : Arr E → E) (f : Operand m (Val E × Val E) E) (g : GArg m (Val E × Val E)) {w x : Val E} (hw : Sized w) (hx : Sized x) :
    rank2 fill f g w x = (do
      let gv ← given g (w, x)
      match asked .left gv, asked .right gv with
      | some nw, some nx => onPairs fill f w x (frameOf nw w) (frameOf nx x)
      | _, _ => pure .badRank) := by
  unfold rank2
  rw [call_eq]
  congr 1
  funext gv
  rw [pick_eq, pick_eq]
  cases asked .left gv with
  | none => rfl
  | some nw =>
    cases asked .right gv with
    | none => rfl
    | some nx =>
      dsimp only
      rw [cellRank_axes, cellRank_axes, dispatch_eq fill f hw hx (frameOf_le _ _) (frameOf_le _ _)]

/-- C54: `𝔽˘ 𝕩` goes through the major cells. -/
theorem cells_monadic_partial [Monad m] [LawfulMonad m] (fill : Arr E → E) (f : Operand m (Val E) E) {x : Val E} (hx : Sized x) :
    cell1 fill f x = onCells fill f x (min 1 x.sh.length) := by
  unfold cell1
  cases x with
  | atom e => exact (onCells_zero fill f hx).symm
  | arr a =>
    dsimp only
    rw [show (Val.arr a).sh = a.sh from rfl]
    by_cases h : a.sh.length = 0
    · rw [if_pos h, h, ← onCells_zero fill f hx]; rfl
    · rw [if_neg h, forCells1_eq fill f hx (by omega), Nat.min_eq_left (by omega)]

/-- C54: `𝕨 𝔽˘ 𝕩`. -/
theorem cells_dyadic_partial [Monad m] [LawfulMonad m] (fill : Arr E → E) (f : Operand m (Val E × Val E) E) {w x : Val E} (hw : Sized w) (hx : Sized x) :
    cell2 fill f w x = onPairs fill f w x (min 1 w.sh.length) (min 1 x.sh.length) :=
  dispatch_eq fill f hw hx (Nat.min_le_right _ _) (Nat.min_le_right _ _)

/-! ## What the specification says about indices -/

/-- Cell number `i` is the one at index `i`. -/
theorem cell_index {x : Arr E} (hf : Full x) {k : Nat} {fi : List Nat} (hi : InShape (x.sh.take k) fi) :
    IsCell x fi (cellAt x k (ravel (x.sh.take k) fi)) := by
  have hl := ravel_lt hi
  have hfl : fi.length = (x.sh.take k).length := hi.length
  have hd : x.sh.drop k = x.sh.drop fi.length := by
    rw [hfl, List.length_take]
    by_cases h : k ≤ x.sh.length
    · rw [Nat.min_eq_left h]
    · rw [Nat.min_eq_right (by omega), List.drop_eq_nil_of_le (by omega), List.drop_length]
  have hb := Nat.mul_le_mul_right (prod (x.sh.drop k)) hl
  rw [Nat.succ_mul, prod_take_drop] at hb
  refine ⟨hd, ?_, ?_⟩
  · show ((x.els.drop _).take _).length = prod (x.sh.drop k)
    rw [List.length_take, List.length_drop, hf]
    omega
  · intro ci hci
    have hci : InShape (x.sh.drop k) ci := hci
    have hc := ravel_lt hci
    show ((x.els.drop _).take _)[ravel (x.sh.drop k) ci]? = _
    rw [List.getElem?_take_of_lt hc, List.getElem?_drop]
    have := ravel_append hi (x.sh.drop k) ci
    rw [List.take_append_drop] at this
    rw [this]

/-- The result at index `fi ++ gi` needs the cell at index `fi`. -/
theorem pair_index {x : Arr E} {z u fi gi : List Nat} {k : Nat} (hz : z = x.sh.take k ++ u) (hk : k ≤ x.sh.length) (hi : InShape (x.sh.take k) fi) (hg : InShape u gi) :
    argCell (.arr x) k z (ravel z (fi ++ gi)) = .arr (cellAt x k (ravel (x.sh.take k) fi)) := by
  unfold argCell
  dsimp only
  rw [hz, ravel_append hi, List.drop_left' (by rw [List.length_take]; omega)]
  have l := ravel_lt hg
  rw [Nat.mul_comm, Nat.mul_add_div (by omega), Nat.div_eq_of_lt l, Nat.add_zero]

theorem flatMap_get {n : Nat} : ∀ (rs : List (Val E)) (_ : ∀ v ∈ rs, v.els.length = n) (i j : Nat) (v : Val E), rs[i]? = some v → j < n → (rs.flatMap Val.els)[i * n + j]? = v.els[j]?
  | [], _, i, j, v, h, _ => by cases h
  | r :: rs, hl, 0, j, v, h, hj => by
    have : r = v := Option.some.inj h
    subst this
    rw [List.flatMap_cons, Nat.zero_mul, Nat.zero_add, List.getElem?_append_left (by rw [hl r (List.mem_cons_self ..)]; exact hj)]
  | r :: rs, hl, i+1, j, v, h, hj => by
    have e : r.els.length = n := hl r (List.mem_cons_self ..)
    rw [List.flatMap_cons, List.getElem?_append_right (by rw [e, Nat.succ_mul]; omega), e, Nat.succ_mul,
      show i * n + n + j - n = i * n + j by omega]
    exact flatMap_get rs (fun v hv => hl v (List.mem_cons_of_mem _ hv)) i j v h hj

/-- In what is merged the elements of the result number `i` are those whose index begins with the index `i`. -/
theorem merge_index {z : List Nat} {rs : List (Val E)} {r : Arr E} (h : merge z rs = .ok r) (hf : ∀ v ∈ rs, v.els.length = prod v.sh)
    {fi : List Nat} (hi : InShape z fi) {v : Val E} (hv : rs[ravel z fi]? = some v) :
    r.sh = z ++ v.sh ∧ ∀ ci, InShape v.sh ci → r.els[ravel r.sh (fi ++ ci)]? = v.els[ravel v.sh ci]? := by
  cases rs with
  | nil => cases hv
  | cons r0 rs =>
    unfold merge at h
    dsimp only at h
    by_cases h1 : z.length > 0 ∧ z.length + r0.sh.length > 255
    · rw [if_pos h1] at h; cases h
    · rw [if_neg h1] at h
      by_cases h2 : rs.all (fun v => v.sh == r0.sh) = true
      · rw [if_pos h2] at h
        obtain rfl := Out.ok.inj h
        have hs : ∀ v ∈ r0 :: rs, v.sh = r0.sh := by
          intro v hv
          rcases List.mem_cons.1 hv with rfl | hv
          · rfl
          · exact eq_of_beq (List.all_eq_true.1 h2 v hv)
        have vs := hs v (List.mem_of_getElem? hv)
        refine ⟨by rw [vs], fun ci hci => ?_⟩
        dsimp only
        rw [← vs, ravel_append hi]
        exact flatMap_get (n := prod v.sh) _ (fun u hu => by rw [hf u hu, hs u hu, vs]) _ _ v hv (ravel_lt hci)
      · rw [if_neg h2] at h; cases h

/-! ## Examples -/

def t23 : Val Nat := .arr ⟨[2, 3], [1, 2, 3, 4, 5, 6]⟩
def t2 : Val Nat := .arr ⟨[2], [7, 8]⟩

/-- An operand that keeps a log of what it is called on and joins the elements. -/
def logged : Operand (StateM (List (List Nat))) (Val Nat × Val Nat) Nat :=
  ⟨fun p s => (.arr ⟨[p.1.els.length + p.2.els.length], p.1.els ++ p.2.els⟩, s ++ [p.1.els ++ p.2.els]), none⟩

def logged1 : Operand (StateM (List (List Nat))) (Val Nat) Nat := ⟨fun p s => (p, s ++ [p.els]), none⟩

theorem sized_t23 : Sized t23 := by
  refine ⟨by decide, by decide, fun k => ?_⟩
  rcases k with _ | _ | _ | k
  · decide
  · decide
  · decide
  · show 6 < 2^32; decide

theorem sized_t2 : Sized t2 := by
  refine ⟨by decide, by decide, fun k => ?_⟩
  rcases k with _ | _ | k
  · decide
  · decide
  · show 2 < 2^32; decide

def okOf : Out E → Option (List Nat × List E)
  | .ok a => some (a.sh, a.els)
  | _ => none

example : (fun p => (okOf p.1, p.2)) (rank1 (fun _ => 0) logged1 (.val (.num (.int 1))) t23 []) = (some ([2, 3], [1, 2, 3, 4, 5, 6]), [[1, 2, 3], [4, 5, 6]]) := by decide +kernel
example : (fun p => (okOf p.1, p.2)) (cell1 (fun _ => 0) logged1 t23 []) = (some ([2, 3], [1, 2, 3, 4, 5, 6]), [[1, 2, 3], [4, 5, 6]]) := by decide +kernel
example : (fun p => (okOf p.1, p.2)) (rank2 (fun _ => 0) logged (.val (.num (.int 0))) t23 t2 []) =
    (some ([2, 3, 2], [1, 7, 2, 7, 3, 7, 4, 8, 5, 8, 6, 8]), [[1, 7], [2, 7], [3, 7], [4, 8], [5, 8], [6, 8]]) := by decide +kernel
example : (fun p => (okOf p.1, p.2)) (cell2 (fun _ => 0) logged t23 t2 []) = (some ([2, 4], [1, 2, 3, 7, 4, 5, 6, 8]), [[1, 2, 3, 7], [4, 5, 6, 8]]) := by decide +kernel
example : (fun p => (okOf p.1, p.2)) (rank2 (fun _ => 0) logged (.val (.list [some (.inf true), some (.int (-1))])) t23 t2 []) =
    (some ([2, 7], [1, 2, 3, 4, 5, 6, 7, 1, 2, 3, 4, 5, 6, 8]), [[1, 2, 3, 4, 5, 6, 7], [1, 2, 3, 4, 5, 6, 8]]) := by decide +kernel
example : InShape ([2, 3].take 1) [1] ∧ cellAt ⟨[2, 3], [1, 2, 3, 4, 5, 6]⟩ 1 (ravel [2] [1]) = (⟨[3], [4, 5, 6]⟩ : Arr Nat) := ⟨.cons (by decide) .nil, rfl⟩

/-! ## Empty arrays with 2⋆32 cells or more -/

/-- The array of this shape, one axis of which has length 0. -/
def emptyArr (sh : List Nat) : Val E := .arr ⟨sh, []⟩

/-- An operand with effects that gives 5 every time. -/
def five : Operand (StateM Nat) (Val Nat) Nat := ⟨fun _ s => (.atom 5, s + 1), none⟩

/-- C54 is violated: `𝔽⎉1` on an array with 2⋆32 empty lists doesn't call `𝔽`, since the number of cells wraps to 0, and gives an array with 2⋆32 elements by its shape and none in memory. -/
theorem wrapped_to_none :
    rank1 (fun _ => 0) five (.val (.num (.int 1))) (emptyArr [65536, 65536, 0]) 0 = (.ok ⟨[65536, 65536], []⟩, 0) ∧
    ¬ Full (⟨[65536, 65536], []⟩ : Arr Nat) := ⟨by rfl, by unfold Full; decide⟩

/-- With 4294967298 empty lists, 2 results are stored where the shape says 4294967298. -/
theorem wrapped_to_two :
    rank1 (fun _ => 0) five (.val (.num (.int 1))) (emptyArr [6, 715827883, 0]) 0 = (.undef, 2) := by rfl

end Verif.Cells
