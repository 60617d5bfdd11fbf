import Verif.Cells.Basic
/-!
# Cells and Rank: the loops
-/
namespace Verif.Cells
open Verif.Rotate (prod prod_append)
open Verif.Pervade (mapM_congr)
variable {E : Type} {m : Type → Type}

theorem empty_eq {A : Type} (z : List Nat) (safe : Option (A → Option (Val E))) (arg : Option A) :
    (match safe with
      | none => (emptyFrame z : Out E)
      | some p =>
        match arg with
        | none => .large
        | some a =>
          match p a with
          | none => emptyFrame z
          | some rc => mergeFill rc z) = emptyResult z safe arg := by
  cases safe with
  | none => rfl
  | some p =>
    cases arg with
    | none => rfl
    | some a =>
      unfold emptyResult
      dsimp only
      cases p a <;> rfl

theorem empty1_eq [Monad m] (fill : Arr E → E) (f : Operand m (Val E) E) (x : Arr E) {k : Nat} (hk : k ≠ 0) :
    empty1 fill f x k = pure (emptyResult (x.sh.take k) f.safe (fillCell fill (.arr x) k)) := by
  rw [← toFillCell_eq fill x hk, ← empty_eq]
  unfold empty1
  cases f.safe with
  | none => rfl
  | some p =>
    cases toFillCell fill x k with
    | none => rfl
    | some c =>
      dsimp only [Option.map_some]
      cases p (.arr c) <;> rfl

theorem empty2_eq [Monad m] (fill : Arr E → E) (f : Operand m (Val E × Val E) E) (w x : Val E) (wk xk : Nat) :
    empty2 fill f w wk x xk =
      pure (emptyResult (if wk > xk then w.sh.take wk else x.sh.take xk) f.safe ((fillCell fill w wk).bind fun a => (fillCell fill x xk).map fun b => (a, b))) := by
  rw [← empty_eq]
  unfold empty2
  dsimp only
  rw [fillArg_eq, fillArg_eq]
  cases f.safe with
  | none => rfl
  | some p =>
    cases fillCell fill w wk with
    | none => rfl
    | some a =>
      cases fillCell fill x xk with
      | none => rfl
      | some b =>
        dsimp only [Option.map_some, Option.bind_some]
        cases p (a, b) <;> rfl

theorem get_some {fr : List Nat} {rs : List (Val E)} : get fr (prod fr) (some rs) = merge fr rs := by
  unfold get
  dsimp only
  rw [if_pos rfl]

theorem argCell_own (x : Arr E) (k i : Nat) : argCell (.arr x) k (x.sh.take k) i = .arr (cellAt x k i) := by
  unfold argCell
  dsimp only
  rw [List.drop_take, Nat.sub_self, List.take_zero, prod, Nat.div_one]

theorem argCell_whole {x : Arr E} (hf : Full x) {z : List Nat} {i : Nat} (hi : i < prod z) : argCell (.arr x) 0 z i = .arr x := by
  unfold argCell
  dsimp only
  rw [List.drop_zero, Nat.div_eq_of_lt hi, cellAt_zero hf]

theorem full_of {x : Arr E} (h : Sized (.arr x)) : Full x := h.1

theorem forCells1_eq [Monad m] [LawfulMonad m] (fill : Arr E → E) (f : Operand m (Val E) E) {x : Arr E} (hx : Sized (.arr x)) {k : Nat} (hk : k ≠ 0) :
    forCells1 fill f x k = onCells fill f (.arr x) k := by
  have hf := full_of hx
  have hl : x.els.length < 2^32 := hx.2.1
  have hs : prod (x.sh.take k) < 2^32 := hx.2.2 k
  unfold forCells1 onCells
  dsimp only
  rw [shProd_small hs]
  by_cases h0 : prod (x.sh.take k) = 0
  · rw [if_pos h0, empty1_eq fill f x hk]
    exact (if_pos h0).symm
  · rw [if_neg h0, csz_eq hf hl h0]
    refine Eq.trans ?_ (if_neg h0).symm
    have := loop_range (fun xp => (slice x k (prod (x.sh.drop k)) xp).map fun c => (Val.arr c, (xp + prod (x.sh.drop k)) % 2^32)) f.run (fun i => i * prod (x.sh.drop k))
      (fun i => .arr (cellAt x k i)) (prod (x.sh.take k)) (by
        intro i hi
        rw [slice_cell hf hi, Option.map_some, start_lt hf hl hi])
    rw [Nat.zero_mul] at this
    rw [this, bind_assoc]
    simp only [pure_bind, get_some]
    show _ = (do
        let rs ← (List.range (prod (x.sh.take k))).mapM fun i => f.run (argCell (.arr x) k (x.sh.take k) i)
        pure (merge (x.sh.take k) rs))
    simp only [argCell_own]

theorem longer_nil_left (s : List Nat) : longer [] s = s := by
  unfold longer
  rw [if_neg (by simp)]

theorem longer_nil_right (s : List Nat) : longer s [] = s := by
  unfold longer
  cases s with
  | nil => rfl
  | cons a s => rw [if_pos (by simp)]

theorem agree_nil_left (s : List Nat) : Agree [] s := by unfold Agree; simp
theorem agree_nil_right (s : List Nat) : Agree s [] := by unfold Agree; simp

theorem wrap_eq (r : Val E) : wrap r = merge [] [r] := by
  cases r with
  | atom e => rfl
  | arr a =>
    unfold wrap merge
    dsimp only
    rw [if_neg (by simp), if_pos (by simp)]
    simp [Val.els, Val.sh]

/-- Whatever is passed as it is. -/
theorem argCell_id {v : Val E} (hv : Sized v) {z : List Nat} {i : Nat} (hi : i < prod z) : argCell v 0 z i = v := by
  cases v with
  | atom e => rfl
  | arr a => exact argCell_whole (full_of hv) hi

theorem forCellsAS_eq [Monad m] [LawfulMonad m] (fill : Arr E → E) (f : Operand m (Val E × Val E) E) {w : Arr E} {x : Val E} (hw : Sized (.arr w)) (hx : Sized x) {k : Nat} (hk : k ≠ 0) :
    forCellsAS fill f w k x = onPairs fill f (.arr w) x k 0 := by
  have hf := full_of hw
  have hl : w.els.length < 2^32 := hw.2.1
  have hs : prod (w.sh.take k) < 2^32 := hw.2.2 k
  unfold forCellsAS onPairs
  dsimp only
  rw [List.take_zero, longer_nil_right, if_neg (not_not_intro (agree_nil_right _)), shProd_small hs]
  by_cases h0 : prod (w.sh.take k) = 0
  · rw [if_pos h0, empty2_eq, if_pos (show k > 0 by omega)]
    exact (if_pos h0).symm
  · rw [if_neg h0, csz_eq hf hl h0]
    refine Eq.trans ?_ (if_neg h0).symm
    have := loop_range (fun wp => (slice w k (prod (w.sh.drop k)) wp).map fun c => ((Val.arr c, x), (wp + prod (w.sh.drop k)) % 2^32)) f.run (fun i => i * prod (w.sh.drop k))
      (fun i => (.arr (cellAt w k i), x)) (prod (w.sh.take k)) (by
        intro i hi
        rw [slice_cell hf hi, Option.map_some, start_lt hf hl hi])
    rw [Nat.zero_mul] at this
    rw [this, bind_assoc]
    simp only [pure_bind, get_some]
    rw [mapM_congr (g := fun i => f.run (argCell (.arr w) k (w.sh.take k) i, argCell x 0 (w.sh.take k) i)) fun i hi => by
      rw [argCell_own, argCell_id hx (List.mem_range.1 hi)]]
    rfl

theorem forCellsSA_eq [Monad m] [LawfulMonad m] (fill : Arr E → E) (f : Operand m (Val E × Val E) E) {w : Val E} {x : Arr E} (hw : Sized w) (hx : Sized (.arr x)) {k : Nat} (hk : k ≠ 0) :
    forCellsSA fill f w x k = onPairs fill f w (.arr x) 0 k := by
  have hf := full_of hx
  have hl : x.els.length < 2^32 := hx.2.1
  have hs : prod (x.sh.take k) < 2^32 := hx.2.2 k
  unfold forCellsSA onPairs
  dsimp only
  rw [List.take_zero, longer_nil_left, if_neg (not_not_intro (agree_nil_left _)), shProd_small hs]
  by_cases h0 : prod (x.sh.take k) = 0
  · rw [if_pos h0, empty2_eq, if_neg (show ¬ 0 > k by omega)]
    exact (if_pos h0).symm
  · rw [if_neg h0, csz_eq hf hl h0]
    refine Eq.trans ?_ (if_neg h0).symm
    have := loop_range (fun xp => (slice x k (prod (x.sh.drop k)) xp).map fun c => ((w, Val.arr c), (xp + prod (x.sh.drop k)) % 2^32)) f.run (fun i => i * prod (x.sh.drop k))
      (fun i => (w, .arr (cellAt x k i))) (prod (x.sh.take k)) (by
        intro i hi
        rw [slice_cell hf hi, Option.map_some, start_lt hf hl hi])
    rw [Nat.zero_mul] at this
    rw [this, bind_assoc]
    simp only [pure_bind, get_some]
    rw [mapM_congr (g := fun i => f.run (argCell w 0 (x.sh.take k) i, argCell (.arr x) k (x.sh.take k) i)) fun i hi => by
      rw [argCell_own, argCell_id hw (List.mem_range.1 hi)]]
    rfl


/-- The state before cell `i` of the loops that use a cell `ext` times; `b` is the size of the cells that are used again and `c` that of the others. -/
def before (again : Nat → Arr E) (ext : Nat) (i : Nat) : Option (Arr E) := if i = 0 then none else some (again ((i - 1) / ext))

theorem ceil_mul {ext i : Nat} (he : 0 < ext) (h : i % ext = 0) : (i + ext - 1) / ext = i / ext ∧ i / ext * ext = i := by
  have e1 : i / ext * ext = i := by have := Nat.div_add_mod i ext; rw [h, Nat.add_zero, Nat.mul_comm] at this; exact this
  refine ⟨?_, e1⟩
  have : i + ext - 1 = (ext - 1) + (i / ext) * ext := by omega
  rw [this, Nat.add_mul_div_right _ _ he, Nat.div_eq_of_lt (by omega), Nat.zero_add]

theorem ceil_not {ext i : Nat} (he : 0 < ext) (h : i % ext ≠ 0) : (i + ext - 1) / ext = i / ext + 1 ∧ i < (i / ext + 1) * ext ∧ (i - 1) / ext = i / ext := by
  have e1 := Nat.div_add_mod i ext
  have e2 : i % ext < ext := Nat.mod_lt _ he
  rw [Nat.mul_comm] at e1
  have e3 : (i / ext + 1) * ext = i / ext * ext + ext := Nat.succ_mul (i / ext) ext
  refine ⟨?_, by omega, ?_⟩
  · have : i + ext - 1 = (i % ext - 1) + (i / ext + 1) * ext := by omega
    rw [this, Nat.add_mul_div_right _ _ he, Nat.div_eq_of_lt (by omega), Nat.zero_add]
  · have : i - 1 = (i % ext - 1) + (i / ext) * ext := by omega
    rw [this, Nat.add_mul_div_right _ _ he, Nat.div_eq_of_lt (by omega), Nat.zero_add]

theorem ceil_next (ext i : Nat) (he : 0 < ext) : (i + 1 + ext - 1) / ext = i / ext + 1 := by
  rw [show i + 1 + ext - 1 = i + ext by omega, Nat.add_div_right _ he]

theorem nextX_step {w x : Arr E} (hw : Sized (.arr w)) (hx : Sized (.arr x)) {wk xk ext : Nat} (he : 0 < ext)
    (hc : prod (x.sh.take xk) = prod (w.sh.take wk) * ext) {i : Nat} (hi : i < prod (x.sh.take xk)) :
    nextX w x wk xk ext ⟨i, (i + ext - 1) / ext * ext, (i + ext - 1) / ext * prod (w.sh.drop wk), i * prod (x.sh.drop xk), before (cellAt w wk) ext i⟩ =
      some ((.arr (cellAt w wk (i / ext)), .arr (cellAt x xk i)),
        ⟨i+1, (i + 1 + ext - 1) / ext * ext, (i + 1 + ext - 1) / ext * prod (w.sh.drop wk), (i+1) * prod (x.sh.drop xk), before (cellAt w wk) ext (i+1)⟩) := by
  have hx2 : prod (x.sh.take xk) < 2^32 := hx.2.2 xk
  have x0 : prod (x.sh.take xk) ≠ 0 := by omega
  have w0 : prod (w.sh.take wk) ≠ 0 := by intro h; rw [h, Nat.zero_mul] at hc; exact x0 hc
  have hq : i / ext < prod (w.sh.take wk) := by rw [Nat.div_lt_iff_lt_mul he]; omega
  have hq2 : (i / ext + 1) * ext ≤ prod (x.sh.take xk) := by rw [hc]; exact Nat.mul_le_mul_right _ hq
  have bn : before (cellAt w wk) ext (i+1) = some (cellAt w wk (i / ext)) := by
    unfold before; rw [if_neg (by omega), Nat.add_sub_cancel]
  rw [ceil_next ext i he, bn]
  unfold nextX
  dsimp only
  rw [csz_eq (full_of hw) hw.2.1 w0, csz_eq (full_of hx) hx.2.1 x0]
  by_cases h : i % ext = 0
  · obtain ⟨e1, e2⟩ := ceil_mul he h
    rw [e1, e2, if_neg (Nat.lt_irrefl _), slice_cell (full_of hw) hq]
    dsimp only [Option.map_some, Option.bind_some]
    rw [slice_cell (full_of hx) hi]
    dsimp only [Option.map_some]
    rw [start_lt (full_of hw) hw.2.1 hq, start_lt (full_of hx) hx.2.1 hi]
    have e3 : (i + ext) % 2^32 = (i / ext + 1) * ext := by
      rw [Nat.succ_mul, e2] at hq2 ⊢
      exact Nat.mod_eq_of_lt (by omega)
    rw [e3]
  · obtain ⟨e1, e2, e3⟩ := ceil_not he h
    rw [e1, if_pos e2]
    have bi : before (cellAt w wk) ext i = some (cellAt w wk (i / ext)) := by
      unfold before
      rw [if_neg (by intro h0; apply h; rw [h0, Nat.zero_mod]), e3]
    rw [bi]
    dsimp only [Option.bind_some]
    rw [slice_cell (full_of hx) hi]
    dsimp only [Option.map_some]
    rw [start_lt (full_of hx) hx.2.1 hi]

theorem nextW_step {w x : Arr E} (hw : Sized (.arr w)) (hx : Sized (.arr x)) {wk xk ext : Nat} (he : 0 < ext)
    (hc : prod (w.sh.take wk) = prod (x.sh.take xk) * ext) {i : Nat} (hi : i < prod (w.sh.take wk)) :
    nextW w x wk xk ext ⟨i, (i + ext - 1) / ext * ext, i * prod (w.sh.drop wk), (i + ext - 1) / ext * prod (x.sh.drop xk), before (cellAt x xk) ext i⟩ =
      some ((.arr (cellAt w wk i), .arr (cellAt x xk (i / ext))),
        ⟨i+1, (i + 1 + ext - 1) / ext * ext, (i+1) * prod (w.sh.drop wk), (i + 1 + ext - 1) / ext * prod (x.sh.drop xk), before (cellAt x xk) ext (i+1)⟩) := by
  have hw2 : prod (w.sh.take wk) < 2^32 := hw.2.2 wk
  have w0 : prod (w.sh.take wk) ≠ 0 := by omega
  have x0 : prod (x.sh.take xk) ≠ 0 := by intro h; rw [h, Nat.zero_mul] at hc; exact w0 hc
  have hq : i / ext < prod (x.sh.take xk) := by rw [Nat.div_lt_iff_lt_mul he]; omega
  have hq2 : (i / ext + 1) * ext ≤ prod (w.sh.take wk) := by rw [hc]; exact Nat.mul_le_mul_right _ hq
  have bn : before (cellAt x xk) ext (i+1) = some (cellAt x xk (i / ext)) := by
    unfold before; rw [if_neg (by omega), Nat.add_sub_cancel]
  rw [ceil_next ext i he, bn]
  unfold nextW
  dsimp only
  rw [csz_eq (full_of hw) hw.2.1 w0, csz_eq (full_of hx) hx.2.1 x0]
  by_cases h : i % ext = 0
  · obtain ⟨e1, e2⟩ := ceil_mul he h
    rw [e1, e2, if_neg (Nat.lt_irrefl _), slice_cell (full_of hx) hq]
    dsimp only [Option.map_some, Option.bind_some]
    rw [slice_cell (full_of hw) hi]
    dsimp only [Option.map_some]
    rw [start_lt (full_of hx) hx.2.1 hq, start_lt (full_of hw) hw.2.1 hi]
    have e3 : (i + ext) % 2^32 = (i / ext + 1) * ext := by
      rw [Nat.succ_mul, e2] at hq2 ⊢
      exact Nat.mod_eq_of_lt (by omega)
    rw [e3]
  · obtain ⟨e1, e2, e3⟩ := ceil_not he h
    rw [e1, if_pos e2]
    have bi : before (cellAt x xk) ext i = some (cellAt x xk (i / ext)) := by
      unfold before
      rw [if_neg (by intro h0; apply h; rw [h0, Nat.zero_mod]), e3]
    rw [bi]
    dsimp only [Option.bind_some]
    rw [slice_cell (full_of hw) hi]
    dsimp only [Option.map_some]
    rw [start_lt (full_of hw) hw.2.1 hi]

theorem nextBoth_step {w x : Arr E} (hw : Sized (.arr w)) (hx : Sized (.arr x)) {wk xk : Nat}
    (hc : prod (x.sh.take xk) = prod (w.sh.take wk)) {i : Nat} (hi : i < prod (x.sh.take xk)) :
    nextBoth w x wk xk (i * prod (w.sh.drop wk), i * prod (x.sh.drop xk)) =
      some ((.arr (cellAt w wk i), .arr (cellAt x xk i)), ((i+1) * prod (w.sh.drop wk), (i+1) * prod (x.sh.drop xk))) := by
  have x0 : prod (x.sh.take xk) ≠ 0 := by omega
  have w0 : prod (w.sh.take wk) ≠ 0 := by omega
  have hi2 : i < prod (w.sh.take wk) := by omega
  unfold nextBoth
  dsimp only
  rw [csz_eq (full_of hw) hw.2.1 w0, csz_eq (full_of hx) hx.2.1 x0, slice_cell (full_of hw) hi2]
  dsimp only [Option.bind_some]
  rw [slice_cell (full_of hx) hi]
  dsimp only [Option.map_some]
  rw [start_lt (full_of hw) hw.2.1 hi2, start_lt (full_of hx) hx.2.1 hi]

/-- The loops when the leading axes of `𝕨` are the first ones of `𝕩`. -/
theorem loopX_eq [Monad m] [LawfulMonad m] (f : Val E × Val E → m (Val E)) {w x : Arr E} (hw : Sized (.arr w)) (hx : Sized (.arr x)) {wk xk ext : Nat} (he : 0 < ext) (h1 : ext ≠ 1)
    (hc : prod (x.sh.take xk) = prod (w.sh.take wk) * ext) :
    loop (nextX w x wk xk ext) f (prod (x.sh.take xk)) ⟨0, 0, 0, 0, none⟩ =
      (do let rs ← (List.range (prod (x.sh.take xk))).mapM fun i => f (.arr (cellAt w wk (i / ext)), .arr (cellAt x xk i)); pure (some rs)) := by
  have := loop_range (nextX w x wk xk ext) f
    (fun i => ⟨i, (i + ext - 1) / ext * ext, (i + ext - 1) / ext * prod (w.sh.drop wk), i * prod (x.sh.drop xk), before (cellAt w wk) ext i⟩)
    (fun i => (.arr (cellAt w wk (i / ext)), .arr (cellAt x xk i))) _ (fun i hi => nextX_step hw hx he hc hi)
  rw [← this]
  rw [show (0 + ext - 1) / ext = 0 from Nat.div_eq_of_lt (by omega), Nat.zero_mul, Nat.zero_mul, Nat.zero_mul]
  rfl

theorem loopW_eq [Monad m] [LawfulMonad m] (f : Val E × Val E → m (Val E)) {w x : Arr E} (hw : Sized (.arr w)) (hx : Sized (.arr x)) {wk xk ext : Nat} (he : 0 < ext)
    (hc : prod (w.sh.take wk) = prod (x.sh.take xk) * ext) :
    loop (nextW w x wk xk ext) f (prod (w.sh.take wk)) ⟨0, 0, 0, 0, none⟩ =
      (do let rs ← (List.range (prod (w.sh.take wk))).mapM fun i => f (.arr (cellAt w wk i), .arr (cellAt x xk (i / ext))); pure (some rs)) := by
  have := loop_range (nextW w x wk xk ext) f
    (fun i => ⟨i, (i + ext - 1) / ext * ext, i * prod (w.sh.drop wk), (i + ext - 1) / ext * prod (x.sh.drop xk), before (cellAt x xk) ext i⟩)
    (fun i => (.arr (cellAt w wk i), .arr (cellAt x xk (i / ext)))) _ (fun i hi => nextW_step hw hx he hc hi)
  rw [← this]
  rw [show (0 + ext - 1) / ext = 0 from Nat.div_eq_of_lt (by omega), Nat.zero_mul, Nat.zero_mul, Nat.zero_mul]
  rfl

theorem loopBoth_eq [Monad m] [LawfulMonad m] (f : Val E × Val E → m (Val E)) {w x : Arr E} (hw : Sized (.arr w)) (hx : Sized (.arr x)) {wk xk : Nat}
    (hc : prod (x.sh.take xk) = prod (w.sh.take wk)) :
    loop (nextBoth w x wk xk) f (prod (x.sh.take xk)) (0, 0) =
      (do let rs ← (List.range (prod (x.sh.take xk))).mapM fun i => f (.arr (cellAt w wk i), .arr (cellAt x xk i)); pure (some rs)) := by
  have := loop_range (nextBoth w x wk xk) f (fun i => (i * prod (w.sh.drop wk), i * prod (x.sh.drop xk)))
    (fun i => (.arr (cellAt w wk i), .arr (cellAt x xk i))) _ (fun i hi => nextBoth_step hw hx hc hi)
  rw [← this]
  rw [Nat.zero_mul, Nat.zero_mul]

theorem ext_eq {a : List Nat} {k : Nat} (h0 : prod a ≠ 0) (hl : prod a < 2^32) : shProd (a.drop k) = prod (a.drop k) ∧ 0 < prod (a.drop k) := by
  have e := prod_take_drop a k
  have h1 : prod (a.take k) ≠ 0 := by intro h; rw [h, Nat.zero_mul] at e; exact h0 e.symm
  have h2 : prod (a.drop k) ≠ 0 := by intro h; rw [h, Nat.mul_zero] at e; exact h0 e.symm
  have := Nat.mul_le_mul_right (prod (a.drop k)) (show 1 ≤ prod (a.take k) by omega)
  exact ⟨shProd_small (by omega), by omega⟩

theorem cam_eq {a : List Nat} {k : Nat} (hl : prod a < 2^32) : shProd (a.take k) * shProd (a.drop k) % 2^32 = prod a := by
  rw [shProd_eq, shProd_eq, ← Nat.mul_mod, prod_take_drop, Nat.mod_eq_of_lt hl]

theorem forCellsAA_eq [Monad m] [LawfulMonad m] (fill : Arr E → E) (f : Operand m (Val E × Val E) E) {w x : Arr E} (hw : Sized (.arr w)) (hx : Sized (.arr x))
    {wk xk : Nat} (hwk : wk ≤ w.sh.length) (hxk : xk ≤ x.sh.length) :
    forCellsAA fill f w wk x xk = onPairs fill f (.arr w) (.arr x) wk xk := by
  have hws : prod (w.sh.take wk) < 2^32 := hw.2.2 wk
  have hxs : prod (x.sh.take xk) < 2^32 := hx.2.2 xk
  have lw : (w.sh.take wk).length = wk := by rw [List.length_take]; omega
  have lx : (x.sh.take xk).length = xk := by rw [List.length_take]; omega
  unfold forCellsAA onPairs
  dsimp only
  rw [show (Val.arr w).sh = w.sh from rfl, show (Val.arr x).sh = x.sh from rfl]
  by_cases hM : xk > wk
  · have ag : Agree (w.sh.take wk) (x.sh.take xk) ↔ w.sh.take wk = x.sh.take wk := by
      unfold Agree
      rw [lw, lx, Nat.min_eq_left (by omega), List.take_take, List.take_take, Nat.min_self, Nat.min_eq_left (by omega)]
    have lg : longer (w.sh.take wk) (x.sh.take xk) = x.sh.take xk := by unfold longer; rw [lw, lx, if_neg (by omega)]
    simp only [hM, decide_true, if_true]
    rw [lg]
    by_cases hA : w.sh.take wk = x.sh.take wk
    · rw [if_neg (not_not_intro hA), if_neg (not_not_intro (ag.2 hA))]
      have tk : (x.sh.take xk).take wk = w.sh.take wk := by rw [List.take_take, Nat.min_eq_left (by omega), hA]
      rw [← tk, cam_eq hxs]
      by_cases h0 : prod (x.sh.take xk) = 0
      · rw [if_pos h0, if_pos h0, empty2_eq, if_neg (by omega)]; rfl
      · rw [if_neg h0, if_neg h0]
        obtain ⟨e1, e2⟩ := ext_eq (k := wk) h0 hxs
        have hc : prod (x.sh.take xk) = prod (w.sh.take wk) * prod ((x.sh.take xk).drop wk) := by rw [← tk, prod_take_drop]
        rw [e1]
        by_cases h1 : prod ((x.sh.take xk).drop wk) = 1
        · rw [if_pos h1, loopBoth_eq f.run hw hx (by rw [hc, h1, Nat.mul_one]), bind_assoc]
          simp only [pure_bind, get_some, argCell_own]
          unfold argCell
          dsimp only
          rw [h1]
          simp only [Nat.div_one]
        · rw [if_neg h1, loopX_eq f.run hw hx e2 h1 hc, bind_assoc]
          simp only [pure_bind, get_some, argCell_own]
          rfl
    · rw [if_pos hA, if_pos (fun h => hA (ag.1 h))]
  · have ag : Agree (w.sh.take wk) (x.sh.take xk) ↔ w.sh.take xk = x.sh.take xk := by
      unfold Agree
      rw [lw, lx, Nat.min_eq_right (by omega), List.take_take, List.take_take, Nat.min_self, Nat.min_eq_left (by omega)]
    have tk' : w.sh.take xk = x.sh.take xk → (w.sh.take wk).take xk = x.sh.take xk := by intro hA; rw [List.take_take, Nat.min_eq_left (by omega), hA]
    simp only [hM, decide_false, Bool.false_eq_true, if_false]
    by_cases hA : w.sh.take xk = x.sh.take xk
    · have tk := tk' hA
      have lg : longer (w.sh.take wk) (x.sh.take xk) = w.sh.take wk := by
        unfold longer; rw [lw, lx]
        by_cases h : wk > xk
        · rw [if_pos h]
        · rw [if_neg h, show wk = xk by omega, hA]
      rw [lg, if_neg (not_not_intro hA), if_neg (not_not_intro (ag.2 hA))]
      have e0 : shProd (w.sh.take xk) = shProd ((w.sh.take wk).take xk) := by rw [tk, hA]
      rw [e0, cam_eq hws]
      by_cases h0 : prod (w.sh.take wk) = 0
      · rw [if_pos h0, if_pos h0, empty2_eq]
        have : (if wk > xk then (Val.arr w).sh.take wk else (Val.arr x).sh.take xk) = w.sh.take wk := by
          by_cases h : wk > xk
          · rw [if_pos h]; rfl
          · rw [if_neg h, show wk = xk by omega]; exact hA.symm
        rw [this]
      · rw [if_neg h0, if_neg h0]
        obtain ⟨e1, e2⟩ := ext_eq (k := xk) h0 hws
        have hc : prod (w.sh.take wk) = prod (x.sh.take xk) * prod ((w.sh.take wk).drop xk) := by
          have := prod_take_drop (w.sh.take wk) xk
          rw [tk] at this; exact this.symm
        rw [e1]
        by_cases h1 : prod ((w.sh.take wk).drop xk) = 1
        · have e3 : prod (w.sh.take wk) = prod (x.sh.take xk) := by rw [hc, h1, Nat.mul_one]
          have := loopBoth_eq f.run hw hx e3.symm
          rw [← e3] at this
          rw [if_pos h1, this, bind_assoc]
          simp only [pure_bind, get_some, argCell_own]
          unfold argCell
          dsimp only
          rw [h1]
          simp only [Nat.div_one]
        · rw [if_neg h1, loopW_eq f.run hw hx e2 hc, bind_assoc]
          simp only [pure_bind, get_some, argCell_own]
          rfl
    · rw [if_pos hA, if_pos (fun h => hA (ag.1 h))]

/-- Nothing to go through: the operand is called once. -/
theorem onCells_zero [Monad m] [LawfulMonad m] (fill : Arr E → E) (f : Operand m (Val E) E) {x : Val E} (hx : Sized x) :
    onCells fill f x 0 = (do pure (wrap (← f.run x))) := by
  unfold onCells
  dsimp only
  rw [List.take_zero, prod, if_neg (by decide), List.range_one, List.mapM_cons, List.mapM_nil]
  rw [argCell_id hx (show 0 < prod [] by decide)]
  simp only [pure_bind, bind_assoc, wrap_eq]

theorem onPairs_zero [Monad m] [LawfulMonad m] (fill : Arr E → E) (f : Operand m (Val E × Val E) E) {w x : Val E} (hw : Sized w) (hx : Sized x) :
    onPairs fill f w x 0 0 = (do pure (wrap (← f.run (w, x)))) := by
  unfold onPairs
  dsimp only
  rw [List.take_zero, List.take_zero, longer_nil_left, if_neg (not_not_intro (agree_nil_left _)), prod, if_neg (by decide), List.range_one, List.mapM_cons, List.mapM_nil]
  rw [argCell_id hx (show 0 < prod [] by decide), argCell_id hw (show 0 < prod [] by decide)]
  simp only [pure_bind, bind_assoc, wrap_eq]

theorem dispatch_eq [Monad m] [LawfulMonad m] (fill : Arr E → E) (f : Operand m (Val E × Val E) E) {w x : Val E} (hw : Sized w) (hx : Sized x)
    {wk xk : Nat} (hwk : wk ≤ w.sh.length) (hxk : xk ≤ x.sh.length) : dispatch fill f w x wk xk = onPairs fill f w x wk xk := by
  cases w with
  | atom e =>
    obtain rfl : wk = 0 := Nat.le_zero.1 hwk
    cases x with
    | atom e' =>
      obtain rfl : xk = 0 := Nat.le_zero.1 hxk
      exact (onPairs_zero fill f hw hx).symm
    | arr b =>
      unfold dispatch
      dsimp only
      by_cases h : xk = 0
      · subst h; rw [if_pos rfl, onPairs_zero fill f hw hx]
      · rw [if_neg h, forCellsSA_eq fill f hw hx h]
  | arr a =>
    cases x with
    | atom e' =>
      obtain rfl : xk = 0 := Nat.le_zero.1 hxk
      unfold dispatch
      dsimp only
      by_cases h : wk = 0
      · subst h; rw [if_pos rfl, onPairs_zero fill f hw hx]
      · rw [if_neg h, forCellsAS_eq fill f hw hx h]
    | arr b =>
      unfold dispatch
      dsimp only
      by_cases h : wk = 0
      · subst h
        rw [if_pos rfl]
        by_cases h' : xk = 0
        · subst h'; rw [if_pos rfl, onPairs_zero fill f hw hx]
        · rw [if_neg h', forCellsSA_eq fill f hw hx h']
      · rw [if_neg h]
        by_cases h' : xk = 0
        · subst h'; rw [if_pos rfl, forCellsAS_eq fill f hw hx h]
        · rw [if_neg h', forCellsAA_eq fill f hw hx hwk hxk]

end Verif.Cells
