import Verif.Insert.Main
/-!
# Insert
-/
namespace Verif.Insert
open Verif.Cells (Arr Val Full cellAt Agree longer slice shProd shProd_small slice_cell merge prod_take_drop)
open Verif.Rotate (prod prod_append)
open Verif.Pervade (mapM_congr)
variable {E A B : Type} {m : Type → Type} {a : Arr E} {n : Nat} {t : List Nat}

theorem ones_of_prod : ∀ {t : List Nat}, prod t = 1 → t = List.replicate t.length 1
  | [], _ => rfl
  | x :: t, h => by
    rw [prod] at h
    have hx : x = 1 := Nat.eq_one_of_mul_eq_one_right h
    subst hx
    rw [Nat.one_mul] at h
    rw [List.length_cons, List.replicate_succ, ← ones_of_prod h]

/-! ## Rows of elements -/

theorem zip_cons [Monad m] [LawfulMonad m] (f : E → E → m E) (p q : E) (ps qs : List E) : zipM f (p :: ps) (q :: qs) = (do let r ← f p q; let rs ← zipM f ps qs; pure (r :: rs)) := by
  unfold zipM
  rw [List.zip_cons_cons, List.mapM_cons]

theorem scalRow_eq [Monad m] [LawfulMonad m] (f : E → E → m E) (x : List E) (xi : Nat) :
    ∀ (k i : Nat) (r : List E), r.length = i + k → xi + i + k ≤ x.length →
      scalRow f x xi k i r = (do let es ← zipM f ((x.drop (xi + i)).take k) (r.drop i); pure (some (r.take i ++ es))) := by
  intro k
  induction k with
  | zero =>
    intro i r hr hx
    rw [scalRow, List.drop_of_length_le (show r.length ≤ i by omega), List.take_of_length_le (show r.length ≤ i by omega)]
    simp [zipM]
  | succ k ih =>
    intro i r hr hx
    have hd : r.drop i = r[i] :: r.drop (i+1) := List.drop_eq_getElem_cons (by omega)
    have hd' : (x.drop (xi + i)).take (k+1) = x[xi+i] :: (x.drop (xi + (i + 1))).take k := by
      rw [List.drop_eq_getElem_cons (show xi + i < x.length by omega), List.take_succ_cons]; rfl
    rw [scalRow, List.getElem?_eq_getElem (by omega), List.getElem?_eq_getElem (by omega), hd, hd', zip_cons]
    simp only [bind_assoc, pure_bind]
    congr 1
    funext v
    rw [ih (i+1) _ (by rw [List.length_set]; omega) (by omega)]
    have e1 : (r.set i v).drop (i+1) = r.drop (i+1) := by rw [List.drop_set_of_lt (by omega)]
    have e2 : (r.set i v).take (i+1) = r.take i ++ [v] := by
      rw [List.take_succ_eq_append_getElem (by rw [List.length_set]; omega), List.take_set_of_le (Nat.le_refl _), List.getElem_set_self]
    rw [e1, e2]
    simp

theorem empty_rows [Monad m] [LawfulMonad m] (f : E → E → m E) (h : Fits a) (hs : a.sh = n :: t) (h0 : prod t = 0) :
    ∀ i, i ≤ n → foldR (pairUp f) (cells a i) (.arr ⟨t, []⟩) = pure (some (.arr ⟨t, []⟩)) := by
  intro i
  induction i with
  | zero => intro _; rw [cells_zero]; rfl
  | succ i ih =>
    intro hi
    rw [cells_succ, foldR_last, cellAt_eq hs, pairUp_same f t _ _ (cell_len h hs (by omega)) (by rw [h0]; rfl), h0]
    simp only [List.take_zero]
    rw [show zipM f [] [] = pure [] from by simp [zipM]]
    simp only [pure_bind]
    exact ih (by omega)

def rowsOut (t : List Nat) : Option (List E) → Res (Val E)
  | none => .undef
  | some r => .ok (.arr ⟨t, r⟩)

theorem scalRows_eq [Monad m] [LawfulMonad m] (f : E → E → m E) (h : Fits a) (hs : a.sh = n :: t) :
    ∀ (k j : Nat) (r : List E), k ≤ j → k ≤ n → r.length = prod t →
      (rowsOut t <$> scalRows f a.els (prod t) j (k * prod t) r) = toRes <$> foldR (pairUp f) (cells a k) (.arr ⟨t, r⟩) := by
  intro k
  induction k with
  | zero =>
    intro j r _ _ _
    rw [Nat.zero_mul]
    cases j <;> simp [scalRows, rowsOut, foldR, cells_zero, toRes]
  | succ k ih =>
    intro j r hj hk hr
    cases j with
    | zero => omega
    | succ j =>
      rw [scalRows]
      have e : (k+1) * prod t = k * prod t + prod t := Nat.succ_mul ..
      by_cases h0 : (k+1) * prod t = 0
      · have hp : prod t = 0 := by omega
        have : r = [] := List.eq_nil_of_length_eq_zero (by omega)
        subst this
        rw [if_pos h0, empty_rows f h hs hp (k+1) hk]
        simp [rowsOut, toRes]
      · rw [if_neg h0]
        have hb := Nat.mul_le_mul_right (prod t) hk
        rw [← h.count hs] at hb
        rw [show (k+1) * prod t - prod t = k * prod t by omega, scalRow_eq f a.els (k * prod t) (prod t) 0 r (by omega) (by omega), cells_succ, foldR_last, cellAt_eq hs,
          pairUp_same f t _ _ (cell_len h hs (by omega)) hr]
        simp only [Nat.add_zero, List.drop_zero, List.take_zero, List.nil_append, bind_assoc, pure_bind, map_bind]
        apply mapM_bind_congr
        intro es hes
        apply ih j es (by omega) (by omega)
        rw [hes, List.length_zip, cell_len h hs (by omega), hr, Nat.min_self]

theorem scal_shape (h : Fits a) (hs : a.sh = n :: t) (ht : t ≠ []) : (if a.sh.length - 1 > 1 then a.sh.drop 1 else if a.sh.length - 1 = 1 then [shProd (a.sh.drop 1)] else []) = t := by
  rw [h.csz hs, hs]
  match t, ht with
  | [q], _ => simp [prod]
  | q :: q' :: u, _ => simp

theorem insertScal_eq [Monad m] [LawfulMonad m] (f : E → E → m E) (h : Fits a) (hs : a.sh = (n+1) :: t) (ht : t ≠ []) (w : Option (Val E))
    (hw : ∀ v, w = some v → v.els.length = prod t) :
    insertScal f a w (a.sh.length - 1) = toRes <$> foldR (pairUp f) (cells a n) (.arr ⟨t, match w with | some v => v.els | none => (a.els.drop (n * prod t)).take (prod t)⟩) := by
  have hc := h.count hs
  have e : (n+1) * prod t = n * prod t + prod t := Nat.succ_mul ..
  have hx : a.els.length - prod t = n * prod t := by omega
  have hz : (if a.sh.length ≤ 1 then 1 else shProd (a.sh.drop 1)) = prod t := by
    rw [if_neg, h.csz hs]
    rw [hs]
    cases t with
    | nil => exact absurd rfl ht
    | cons q u => simp
  unfold insertScal
  dsimp only
  rw [hz, hx, show a.sh.head! = n+1 by rw [hs]; rfl]
  have fin : ∀ r : List E, r.length = prod t →
      (do match ← scalRows f a.els (prod t) (n+1) (n * prod t) r with
          | none => pure .undef
          | some r => pure (Res.ok (Val.arr ⟨if a.sh.length - 1 > 1 then a.sh.drop 1 else if a.sh.length - 1 = 1 then [prod t] else [], r⟩)) : m (Res (Val E))) =
      toRes <$> foldR (pairUp f) (cells a n) (.arr ⟨t, r⟩) := by
    intro r hr
    have hsh := scal_shape h hs ht
    rw [h.csz hs] at hsh
    rw [hsh, ← scalRows_eq f h hs n (n+1) r (by omega) (by omega) hr, map_eq_pure_bind]
    congr 1
    funext o
    cases o <;> rfl
  cases w with
  | none =>
    dsimp only
    rw [if_pos (by omega)]
    dsimp only
    exact fin _ (cell_len h hs (by omega))
  | some v =>
    dsimp only
    have hv := hw v rfl
    rw [if_pos (by omega)]
    dsimp only
    rw [← hv, List.take_length, hv]
    exact fin _ hv

/-! ## Single elements -/

def oneOut (R : Nat) : Option E → Option (Val E) := Option.map fun e => .arr ⟨List.replicate R 1, [e]⟩

theorem ones_out (R : Nat) (o : Option E) : ones R (toRes o) = toRes (oneOut R o) := by
  cases o <;> rfl

theorem single_cell (h : Fits a) (hs : a.sh = n :: t) (h1 : prod t = 1) {i : Nat} (hi : i < n) (hi' : i < a.els.length) : cellAt a 1 i = ⟨List.replicate t.length 1, [a.els[i]]⟩ := by
  rw [cellAt_eq hs, h1, Nat.mul_one, ← ones_of_prod h1, List.drop_eq_getElem_cons hi', List.take_succ_cons, List.take_zero]

theorem fold_ones [Monad m] [LawfulMonad m] (f : E → E → m E) (h : Fits a) (hs : a.sh = n :: t) (h1 : prod t = 1) {R : Nat} (hR : t.length ≤ R) :
    ∀ (i : Nat) (e : E), i ≤ n → foldR (pairUp f) (cells a i) (.arr ⟨List.replicate R 1, [e]⟩) = oneOut R <$> foldR (sure f) (a.els.take i) e := by
  have hc := h.count hs
  rw [h1, Nat.mul_one] at hc
  intro i
  induction i with
  | zero => intro e _; simp [cells_zero, foldR, oneOut]
  | succ i ih =>
    intro e hi
    rw [cells_succ, foldR_last, single_cell h hs h1 (by omega) (by omega), pairUp_single f t.length _ _ R e rfl rfl, List.take_succ_eq_append_getElem (by omega), foldR_last]
    have hm : (if R > t.length then R else t.length) = R := by
      by_cases hh : R > t.length
      · rw [if_pos hh]
      · rw [if_neg hh]; omega
    rw [hm]
    unfold sure
    simp only [bind_assoc, pure_bind, map_bind]
    congr 1
    funext v
    exact ih v (by omega)

theorem fold_ones' [Monad m] [LawfulMonad m] (f : E → E → m E) (h : Fits a) (hs : a.sh = (n+1) :: t) (h1 : prod t = 1) (w : Val E) (R : Nat) (e : E) (hw : w.sh = List.replicate R 1) (hwe : w.els = [e]) :
    foldR (pairUp f) (cells a (n+1)) w = oneOut (if R > t.length then R else t.length) <$> foldR (sure f) a.els e := by
  have hc := h.count hs
  rw [h1, Nat.mul_one] at hc
  have hl : t.length ≤ (if R > t.length then R else t.length) := by
    by_cases hh : R > t.length
    · rw [if_pos hh]; omega
    · rw [if_neg hh]; exact Nat.le_refl _
  rw [cells_succ, foldR_last, single_cell h hs h1 (by omega) (by omega), pairUp_single f t.length _ w R e hw hwe]
  conv => rhs; rw [← List.take_length (l := a.els), hc, List.take_succ_eq_append_getElem (by omega), foldR_last]
  unfold sure
  simp only [bind_assoc, pure_bind, map_bind]
  congr 1
  funext v
  exact fold_ones f h hs h1 hl n v (by omega)

/-! ## Insert -/

theorem majors_rev (hs : a.sh = (n+1) :: t) : (majors a).reverse = .arr (cellAt a 1 n) :: (cells a n).reverse := by
  rw [show majors a = cells a (n+1) by unfold majors cells; rw [hs]; rfl, cells_succ]
  simp

theorem majors_rev2 (hs : a.sh = (n+2) :: t) : (majors a).reverse = .arr (cellAt a 1 (n+1)) :: .arr (cellAt a 1 n) :: (cells a n).reverse := by
  rw [majors_rev hs, cells_succ]
  simp

/-- The arguments have as many elements as their shapes say. -/
def FullV (w : Val E) : Prop := w.els.length = prod w.sh

theorem fold_perv [Monad m] [LawfulMonad m] (el : E → E → m E) (i : Option E) (sh : List Nat) (hsh : sh.length = 1) (els : List E) (hl : els.length = n + 2) :
    cFold1 (.perv el i) (.arr ⟨sh, els⟩) = toRes <$> foldR (sure el) (els.take (n+1)) els[n+1] := by
  have e : els = els.take n ++ [els[n]] ++ [els[n+1]] := by
    rw [← List.take_succ_eq_append_getElem (l := els) (i := n) (by omega), ← List.take_succ_eq_append_getElem (l := els) (i := n+1) (by omega), show n + 1 + 1 = els.length by omega, List.take_length]
  have er : els.reverse = els[n+1] :: els[n] :: (els.take n).reverse := by
    conv => lhs; rw [e]
    simp
  have back : (els[n] :: (els.take n).reverse).reverse = els.take n ++ [els[n]] := by simp
  rw [cFold1_eq]
  unfold fold1
  rw [show (Val.arr ⟨sh, els⟩).sh = sh from rfl, show (Val.arr ⟨sh, els⟩).els = els from rfl, if_neg (by omega), er]
  dsimp only [Op.isMd, Op.run]
  simp only [Bool.false_eq_true, if_false]
  rw [List.take_succ_eq_append_getElem (l := els) (i := n) (by omega), back]
  rfl

theorem one_cell (h1 : (n+2) * prod t = n+2) : prod t = 1 := by
  have e : (n+2) * 1 = n + 2 := Nat.mul_one _
  exact Nat.eq_of_mul_eq_mul_left (show 0 < n + 2 by omega) (h1.trans e.symm)

theorem insert_perv1 [Monad m] [LawfulMonad m] (el : E → E → m E) (i : Option E) (h : Fits a) (hs : a.sh = (n+2) :: t) :
    cInsert1 (.perv el i) (.arr a) = toRes <$> foldR (pairUp el) (cells a (n+1)) (.arr (cellAt a 1 (n+1))) := by
  have hc := h.count hs
  have hd : a.sh.head! = n + 2 := by rw [hs]; rfl
  have single : ∀ sh : List Nat, sh.length = 1 → prod t = 1 →
      ones t.length <$> cFold1 (.perv el i) (.arr ⟨sh, a.els⟩) = toRes <$> foldR (pairUp el) (cells a (n+1)) (.arr (cellAt a 1 (n+1))) := by
    intro sh hsh h1
    rw [h1, Nat.mul_one] at hc
    rw [fold_perv el i sh hsh a.els hc, single_cell h hs h1 (by omega) (by omega), fold_ones el h hs h1 (Nat.le_refl _) (n+1) _ (by omega)]
    simp only [Functor.map_map, ones_out]
  unfold cInsert1
  dsimp only
  rw [hd, if_neg (by rw [hs]; simp), if_neg (by omega), if_neg (by omega)]
  by_cases hr : a.sh.length = 1
  · rw [if_pos hr]
    have ht : t = [] := by
      rw [hs] at hr
      exact List.eq_nil_of_length_eq_zero (by simpa using hr)
    subst ht
    rw [← single a.sh hr rfl]
    congr 1
    funext r
    cases r <;> rfl
  · have ht : t ≠ [] := by
      intro h0
      rw [hs, h0] at hr
      exact hr rfl
    rw [if_neg hr]
    by_cases h1 : a.els.length ≠ 0 ∧ n + 2 = a.els.length
    · rw [if_pos h1, show a.sh.length - 1 = t.length by rw [hs]; rfl]
      exact single [a.els.length] rfl (one_cell (by rw [← hc]; exact h1.2.symm))
    · rw [if_neg h1]
      by_cases h2 : n + 2 > 2 ∧ a.els.length < 6 * (n + 2)
      · rw [if_pos h2, insertScal_eq el h hs ht none (by intro v hv; cases hv), cellAt_eq hs]
      · rw [if_neg h2, insertBase_none _ h hs]

theorem cInsert1_eq [Monad m] [LawfulMonad m] (op : COp m E) (x : Val E) (hx : ∀ a, x = .arr a → Fits a) : cInsert1 op x = insert1 op x := by
  cases x with
  | atom e => rfl
  | arr a =>
    have h := hx a rfl
    unfold insert1
    dsimp only
    match hs : a.sh with
    | [] =>
      rw [if_pos rfl]
      unfold cInsert1
      dsimp only
      rw [if_pos (by rw [hs]; rfl)]
    | 0 :: t =>
      have hm : majors a = [] := by unfold majors; rw [hs]; rfl
      have hemp : a.els = [] := List.eq_nil_of_length_eq_zero (by rw [h.count hs, Nat.zero_mul])
      have hro : ∀ e : E, reshapeOne a e = .arr (constant t e) := by
        intro e
        unfold reshapeOne constant
        rw [h.csz hs, hs]
        rfl
      rw [if_neg (by simp), hm]
      unfold cInsert1
      dsimp only
      rw [if_neg (by rw [hs]; simp), if_pos (by rw [hs]; rfl)]
      cases op with
      | const v => rfl
      | md => rfl
      | ltack => rfl
      | rtack => rfl
      | join =>
        cases t with
        | nil => rw [hs]; rfl
        | cons q u =>
          rw [if_neg (by rw [hs]; simp)]
          unfold joinAll
          rw [hs, hemp]
          dsimp only
          cases u with
          | nil => rfl
          | cons v u => simp [COp.noCells]
      | perv el i =>
        cases i with
        | none => rfl
        | some e => dsimp only; rw [hro]; rfl
      | fn f i =>
        match i with
        | none => rfl
        | some (.atom e) => dsimp only; rw [hro]; rfl
        | some (.arr b) => rfl
    | 1 :: t =>
      rw [if_neg (by simp), majors_rev hs]
      unfold cInsert1
      dsimp only
      rw [if_neg (show ¬ a.sh.length = 0 by rw [hs]; simp), if_neg (show ¬ a.sh.head! = 0 by rw [hs]; exact Nat.one_ne_zero), if_pos (show a.sh.head! = 1 by rw [hs]; rfl), cellNo_eq h hs (by omega)]
      rfl
    | (n+2) :: t =>
      rw [if_neg (by simp), majors_rev2 hs]
      dsimp only
      have back : (Val.arr (cellAt a 1 n) :: (cells a n).reverse).reverse = cells a (n+1) := by rw [cells_succ]; simp
      rw [back]
      have hd : a.sh.head! = n + 2 := by rw [hs]; rfl
      have h0 : ¬ a.sh.length = 0 := by rw [hs]; simp
      have ne : cells a (n+1) ≠ [] := by rw [cells_succ]; simp
      cases op with
      | perv el i => rw [insert_perv1 el i h hs]; rfl
      | const v =>
        unfold cInsert1
        dsimp only [COp.isMd]
        rw [hd, if_neg h0, if_neg (by omega), if_neg (by omega)]
        rw [show COp.run (.const v) = fun (_ _ : Val E) => (pure (some v) : m (Option (Val E))) from rfl, foldR_const v _ _ ne]
        simp [toRes]
      | md =>
        unfold cInsert1
        dsimp only [COp.isMd]
        rw [hd, if_neg h0, if_neg (by omega), if_neg (by omega)]
        rfl
      | ltack =>
        unfold cInsert1
        dsimp only [COp.isMd]
        rw [hd, if_neg h0, if_neg (by omega), if_neg (by omega), cellNo_eq h hs (by omega)]
        rw [show COp.run .ltack = fun (p _ : Val E) => (pure (some p) : m (Option (Val E))) from rfl, foldR_left]
        rw [show cells a (n+1) = .arr (cellAt a 1 0) :: ((List.range n).map Nat.succ).map (fun i => .arr (cellAt a 1 i)) by
          unfold cells; rw [List.range_succ_eq_map, List.map_cons]]
        simp [toRes]
      | rtack =>
        unfold cInsert1
        dsimp only [COp.isMd]
        rw [hd, if_neg h0, if_neg (by omega), if_neg (by omega), cellNo_eq h hs (by omega)]
        rw [show COp.run .rtack = fun (_ p : Val E) => (pure (some p) : m (Option (Val E))) from rfl, foldR_right]
        simp [toRes]
      | join =>
        unfold cInsert1
        dsimp only [COp.isMd]
        rw [hd, if_neg h0, if_neg (by omega), if_neg (by omega)]
        rw [show COp.run .join = fun (p q : Val E) => (pure (joinV p q) : m (Option (Val E))) from rfl, joinAll_eq h hs]
        simp [toRes]
      | fn f i =>
        unfold cInsert1
        dsimp only [COp.isMd]
        rw [hd, if_neg h0, if_neg (by omega), if_neg (by omega), insertBase_none _ h hs]
        rfl

theorem insert_perv2 [Monad m] [LawfulMonad m] (el : E → E → m E) (i : Option E) (w : Val E) (hw : FullV w) (h : Fits a) (hs : a.sh = (n+1) :: t) :
    cInsert2 (.perv el i) w (.arr a) = toRes <$> foldR (pairUp el) (majors a) w := by
  have hc := h.count hs
  have hd : a.sh.head! = n + 1 := by rw [hs]; rfl
  have hr : a.sh.length - 1 = t.length := by rw [hs]; rfl
  have hM : majors a = cells a (n+1) := by unfold majors cells; rw [hs]; rfl
  have single : ∀ (R : Nat) (e : E), n + 1 = a.els.length → w.sh = List.replicate R 1 → w.els = [e] →
      ones (if R > t.length then R else t.length) <$> cFold2 (.perv el i) e (.arr ⟨[a.els.length], a.els⟩) = toRes <$> foldR (pairUp el) (majors a) w := by
    intro R e hl hwR hwe
    have h1 : prod t = 1 := Nat.eq_of_mul_eq_mul_left (show 0 < n + 1 by omega) (by rw [← hc, Nat.mul_one]; exact hl.symm)
    have hf : fold2 (.perv el i) e (.arr ⟨[a.els.length], a.els⟩) = toRes <$> foldR (sure el) a.els e := by
      unfold fold2
      rw [if_neg (show ¬ (Val.arr ⟨[a.els.length], a.els⟩ : Val E).sh.length ≠ 1 by simp [Val.sh])]
      rw [if_neg (show ¬ (Val.arr ⟨[a.els.length], a.els⟩ : Val E).els = [] by intro h0; rw [show (Val.arr ⟨[a.els.length], a.els⟩).els = a.els from rfl] at h0; rw [h0] at hl; cases hl)]
      rfl
    rw [hM, fold_ones' el h hs h1 w R e hwR hwe, cFold2_eq, hf]
    simp only [Functor.map_map, ones_out]
  unfold cInsert2
  dsimp only
  rw [hd, if_neg (by rw [hs]; simp), if_neg (by omega), hr]
  by_cases h1 : n + 1 = a.els.length
  · rw [if_pos h1]
    cases w with
    | atom e => exact single 0 e h1 rfl rfl
    | arr b =>
      dsimp only
      by_cases h2 : b.els.length ≠ 1
      · rw [if_pos h2, insertBase_some _ h hs]
      · rw [if_neg h2]
        match hb : b.els with
        | [] => rw [hb] at h2; simp at h2
        | e :: e' :: l => rw [hb] at h2; simp at h2
        | [e] =>
          have hp : prod b.sh = 1 := by rw [← show b.els.length = prod b.sh from hw, hb]; rfl
          exact single b.sh.length e h1 (ones_of_prod hp) hb
  · rw [if_neg h1]
    by_cases h2 : n + 1 > 2 ∧ a.els.length < 6 * (n + 1) ∧ ¬ w.sh.length > t.length
    · rw [if_pos h2, show n + 1 - 1 = n from rfl, cellNo_eq h hs (by omega), hM, cells_succ, foldR_last]
      dsimp only
      rw [map_bind]
      have ht : t ≠ [] := by
        intro h0
        subst h0
        rw [show prod [] = 1 from rfl, Nat.mul_one] at hc
        exact h1 hc.symm
      have hca : (cellAt a 1 n).sh = t := by rw [cellAt_eq hs]
      apply pairUp_bind_congr
      · rw [hca]; omega
      · simp [toRes]
      · intro es hes
        dsimp only
        rw [hca] at hes ⊢
        rw [← hr, insertScal_eq el h hs ht _ (by intro v hv; cases hv; exact hes)]
        rfl
    · rw [if_neg h2, insertBase_some _ h hs]

theorem cInsert2_eq [Monad m] [LawfulMonad m] (op : COp m E) (w x : Val E) (hw : FullV w) (hx : ∀ a, x = .arr a → Fits a) : cInsert2 op w x = insert2 op w x := by
  cases x with
  | atom e => rfl
  | arr a =>
    have h := hx a rfl
    unfold insert2
    dsimp only
    match hs : a.sh with
    | [] =>
      rw [if_pos rfl]
      unfold cInsert2
      dsimp only
      rw [if_pos (by rw [hs]; rfl)]
    | 0 :: t =>
      rw [if_neg (by simp), if_pos (show (0 :: t).head! = 0 from rfl)]
      unfold cInsert2
      dsimp only
      rw [if_neg (by rw [hs]; simp), if_pos (by rw [hs]; rfl)]
    | (n+1) :: t =>
      rw [if_neg (by simp), if_neg (show ¬ ((n+1) :: t).head! = 0 from Nat.succ_ne_zero n)]
      have hd : a.sh.head! = n + 1 := by rw [hs]; rfl
      have h0 : ¬ a.sh.length = 0 := by rw [hs]; simp
      have hM : majors a = cells a (n+1) := by unfold majors cells; rw [hs]; rfl
      have ne : cells a (n+1) ≠ [] := by rw [cells_succ]; simp
      cases op with
      | perv el i => rw [insert_perv2 el i w hw h hs]; rfl
      | const v =>
        unfold cInsert2
        dsimp only [COp.isMd]
        rw [hd, if_neg h0, if_neg (by omega), hM]
        rw [show COp.run (.const v) = fun (_ _ : Val E) => (pure (some v) : m (Option (Val E))) from rfl, foldR_const v _ _ ne]
        simp [toRes]
      | md =>
        unfold cInsert2
        dsimp only [COp.isMd]
        rw [hd, if_neg h0, if_neg (by omega)]
        rfl
      | ltack =>
        unfold cInsert2
        dsimp only [COp.isMd]
        rw [hd, if_neg h0, if_neg (by omega), cellNo_eq h hs (by omega), hM]
        rw [show COp.run .ltack = fun (p _ : Val E) => (pure (some p) : m (Option (Val E))) from rfl, foldR_left]
        rw [show cells a (n+1) = .arr (cellAt a 1 0) :: ((List.range n).map Nat.succ).map (fun i => .arr (cellAt a 1 i)) by
          unfold cells; rw [List.range_succ_eq_map, List.map_cons]]
        simp [toRes]
      | rtack =>
        unfold cInsert2
        dsimp only [COp.isMd]
        rw [hd, if_neg h0, if_neg (by omega)]
        rw [show COp.run .rtack = fun (_ p : Val E) => (pure (some p) : m (Option (Val E))) from rfl, foldR_right]
        simp [toRes]
      | join =>
        unfold cInsert2
        dsimp only [COp.isMd]
        rw [hd, if_neg h0, if_neg (by omega), insertBase_some _ h hs]
        rfl
      | fn f i =>
        unfold cInsert2
        dsimp only [COp.isMd]
        rw [hd, if_neg h0, if_neg (by omega), insertBase_some _ h hs]
        rfl

end Verif.Insert
