import Verif.Insert.Basic
/-!
# Fold and Insert: the loops
-/
namespace Verif.Insert
open Verif.Cells (Arr Val Full cellAt Agree longer slice shProd shProd_small slice_cell merge prod_take_drop)
open Verif.Rotate (prod prod_append)
open Verif.Pervade (mapM_congr)
variable {E A B : Type} {m : Type → Type}

/-! ## Folds -/

theorem foldPerv [Monad m] [LawfulMonad m] (op : Op m E) (f : E → E → m E) (hr : op.run = f) (hm : op.isMd = false) (n : Nat) (els : List E) (h : els.length = n + 2) :
    (match els[n+1]? with | some c => foldLoop f els (n+1) c | none => pure .undef) =
    (match els.reverse with
    | [] => pure (match op.ident with | some i => .ok i | none => .noIdentity)
    | [a] => pure (.ok a)
    | z :: ys => if op.isMd then pure .modifier else toRes <$> foldR (sure op.run) ys.reverse z) := by
  have e : els = els.take (n+1) ++ [els[n+1]] := by
    have := List.take_succ_eq_append_getElem (l := els) (i := n+1) (by omega)
    rw [← this, show n + 1 + 1 = els.length by omega, List.take_length]
  have er : els.reverse = els[n+1] :: (els.take (n+1)).reverse := by
    conv => lhs; rw [e]
    simp
  rw [er, List.getElem?_eq_getElem (by omega)]
  have e2 : (els.take (n+1)).reverse = els[n] :: (els.take n).reverse := by
    rw [List.take_succ_eq_append_getElem (by omega)]; simp
  rw [e2]
  dsimp only
  rw [hm, hr, ← e2, List.reverse_reverse]
  simp only [Bool.false_eq_true, if_false]
  exact foldLoop_eq f els (n+1) _ (by omega)

theorem cFold1_eq [Monad m] [LawfulMonad m] (op : Op m E) (x : Val E) : cFold1 op x = fold1 op x := by
  cases x with
  | atom e => rfl
  | arr a =>
    unfold cFold1 fold1
    rw [show (Val.arr a).sh = a.sh from rfl, show (Val.arr a).els = a.els from rfl]
    dsimp only
    by_cases h1 : a.sh.length ≠ 1
    · rw [if_pos h1, if_pos h1]
    · rw [if_neg h1, if_neg h1]
      match h : a.els with
      | [] => cases op <;> try rfl
              all_goals (rename_i i; cases i <;> rfl)
      | [e] => rfl
      | [e, e'] =>
        cases op <;> simp [call, toRes, foldR, sure, Op.run, Op.isMd]
      | e :: e' :: e'' :: l =>
        have hl : (e :: e' :: e'' :: l).length = (l.length + 1) + 2 := by simp
        rw [if_neg (by rw [hl]; omega)]
        rw [show (e :: e' :: e'' :: l).length - 1 = (l.length + 1) + 1 by rw [hl]; omega]
        generalize hL : (e :: e' :: e'' :: l) = L at *
        cases op with
        | fn f i => exact foldPerv (.fn f i) f rfl rfl (l.length+1) L hl
        | perv f i => exact foldPerv (.perv f i) f rfl rfl (l.length+1) L hl
        | md =>
          have : L.reverse = L.reverse := rfl
          match hr : L.reverse with
          | [] => rw [← L.length_reverse, hr] at hl; simp at hl
          | [a] => rw [← L.length_reverse, hr] at hl; simp at hl
          | z :: y :: ys => rfl
        | const v =>
          match hr : L.reverse with
          | [] => rw [← L.length_reverse, hr] at hl; simp at hl
          | [a] => rw [← L.length_reverse, hr] at hl; simp at hl
          | z :: y :: ys =>
            have : sure (Op.run (.const v)) = fun (_ _ : E) => (pure (some v) : m (Option E)) := by
              funext a b; unfold sure Op.run; rw [pure_bind]
            dsimp only [Op.isMd]
            rw [this, foldR_const v _ _ (by simp)]
            simp [toRes]
        | ltack =>
          match hr : L.reverse with
          | [] => rw [← L.length_reverse, hr] at hl; simp at hl
          | [a] => rw [← L.length_reverse, hr] at hl; simp at hl
          | z :: y :: ys =>
            have : sure (Op.run (.ltack)) = fun (a _ : E) => (pure (some a) : m (Option E)) := by
              funext a b; unfold sure Op.run; rw [pure_bind]
            dsimp only [Op.isMd]
            rw [this, foldR_left]
            have hL2 : L = (y :: ys).reverse ++ [z] := by rw [← L.reverse_reverse, hr]; simp
            have hh : get L 0 = .ok ((y :: ys).reverse.headD z) := by
              rw [← hL] at hL2
              cases hq : (y :: ys).reverse with
              | nil => simp at hq
              | cons p ps =>
                rw [hq] at hL2
                rw [← hL, hL2]
                rfl
            rw [hh]
            simp [toRes]
        | rtack =>
          match hr : L.reverse with
          | [] => rw [← L.length_reverse, hr] at hl; simp at hl
          | [a] => rw [← L.length_reverse, hr] at hl; simp at hl
          | z :: y :: ys =>
            have : sure (Op.run (.rtack)) = fun (_ b : E) => (pure (some b) : m (Option E)) := by
              funext a b; unfold sure Op.run; rw [pure_bind]
            dsimp only [Op.isMd]
            rw [this, foldR_right]
            have hL2 : L = (y :: ys).reverse ++ [z] := by rw [← L.reverse_reverse, hr]; simp
            have hh : get L (l.length + 1 + 1) = .ok z := by
              unfold get
              rw [show l.length + 1 + 1 = (y :: ys).reverse.length by rw [hL2, List.length_append] at hl; simp only [List.length_singleton] at hl; omega, hL2]
              simp
            rw [hh]
            simp [toRes]

theorem cFold2_eq [Monad m] [LawfulMonad m] (op : Op m E) (w : E) (x : Val E) : cFold2 op w x = fold2 op w x := by
  cases x with
  | atom e => rfl
  | arr a =>
    unfold cFold2 fold2
    rw [show (Val.arr a).sh = a.sh from rfl, show (Val.arr a).els = a.els from rfl]
    dsimp only
    by_cases h1 : a.sh.length ≠ 1
    · rw [if_pos h1, if_pos h1]
    · rw [if_neg h1, if_neg h1]
      by_cases h0 : a.els = []
      · rw [if_pos (by rw [h0]; rfl), if_pos h0]
      · rw [if_neg (by simpa using h0), if_neg h0]
        cases op with
        | const v =>
          have : sure (Op.run (.const v)) = fun (_ _ : E) => (pure (some v) : m (Option E)) := by
            funext a b; unfold sure Op.run; rw [pure_bind]
          dsimp only [Op.isMd]
          rw [this, foldR_const v _ _ h0]
          simp [toRes]
        | md => rfl
        | ltack =>
          have : sure (Op.run (.ltack)) = fun (a _ : E) => (pure (some a) : m (Option E)) := by
            funext a b; unfold sure Op.run; rw [pure_bind]
          dsimp only [Op.isMd]
          rw [this, foldR_left]
          cases h : a.els with
          | nil => exact absurd h h0
          | cons e l => simp [toRes, get]
        | rtack =>
          have : sure (Op.run (.rtack)) = fun (_ b : E) => (pure (some b) : m (Option E)) := by
            funext a b; unfold sure Op.run; rw [pure_bind]
          dsimp only [Op.isMd]
          rw [this, foldR_right]
          simp [toRes]
        | fn f i =>
          dsimp only [Op.isMd]
          rw [foldLoop_eq f a.els _ w (Nat.le_refl _), List.take_length]
          rfl
        | perv f i =>
          dsimp only [Op.isMd]
          rw [foldLoop_eq f a.els _ w (Nat.le_refl _), List.take_length]
          rfl

/-! ## Cells -/

/-- What arrays have: as many elements as the shape says, at most 255 axes, and less than 2⋆32 elements. Empty arrays could have cells that are larger. -/
structure Fits (a : Arr E) : Prop where
  full : Full a
  len : a.els.length < 2^32
  cell : prod (a.sh.drop 1) < 2^32
  two : prod (a.sh.take 2) < 2^32
  rank : a.sh.length ≤ 255

variable {a : Arr E} {n : Nat} {t : List Nat}

def cells (a : Arr E) (k : Nat) : List (Val E) := (List.range k).map fun i => .arr (cellAt a 1 i)

theorem cells_zero (a : Arr E) : cells a 0 = [] := rfl

theorem cells_succ (a : Arr E) (k : Nat) : cells a (k+1) = cells a k ++ [.arr (cellAt a 1 k)] := by
  unfold cells
  rw [List.range_succ, List.map_append]
  rfl

theorem Fits.count (h : Fits a) (hs : a.sh = n :: t) : a.els.length = n * prod t := by
  rw [h.full, hs, prod]

theorem Fits.csz (h : Fits a) (hs : a.sh = n :: t) : shProd (a.sh.drop 1) = prod t := by
  rw [shProd_small h.cell, hs]; rfl

theorem cellFrom_eq (h : Fits a) (hs : a.sh = n :: t) {i : Nat} (hi : i < n) : cellFrom a (prod t) (i * prod t) = some (.arr (cellAt a 1 i)) := by
  have e : prod (a.sh.drop 1) = prod t := by rw [hs]; rfl
  have := slice_cell h.full (k := 1) (i := i) (by rw [hs]; simpa [prod] using hi)
  rw [e] at this
  unfold cellFrom
  rw [this]
  rfl

theorem cellAt_eq (hs : a.sh = n :: t) (i : Nat) : cellAt a 1 i = ⟨t, (a.els.drop (i * prod t)).take (prod t)⟩ := by
  unfold cellAt
  rw [hs]
  rfl

theorem cell_len (h : Fits a) (hs : a.sh = n :: t) {i : Nat} (hi : i < n) : ((a.els.drop (i * prod t)).take (prod t)).length = prod t := by
  rw [List.length_take, List.length_drop, h.count hs]
  have e : (i+1) * prod t = i * prod t + prod t := Nat.succ_mul ..
  have := Nat.mul_le_mul_right (prod t) (show i + 1 ≤ n by omega)
  omega

theorem insertLoop_eq [Monad m] [LawfulMonad m] (f : Val E → Val E → m (Option (Val E))) (h : Fits a) (hs : a.sh = n :: t) :
    ∀ (i : Nat) (r : Val E), i ≤ n → insertLoop f a (prod t) i (i * prod t % 2^32) r = toRes <$> foldR f (cells a i) r := by
  intro i
  induction i with
  | zero => intro r _; rw [insertLoop, cells_zero]; simp [foldR, toRes]
  | succ i ih =>
    intro r hi
    have e : (i+1) * prod t = i * prod t + prod t := Nat.succ_mul ..
    have := Nat.mul_le_mul_right (prod t) hi
    have hl := h.len
    rw [h.count hs] at hl
    have hp : ((i+1) * prod t % 2^32 + (2^32 - prod t)) % 2^32 = i * prod t := by omega
    rw [insertLoop, hp, cellFrom_eq h hs (by omega), cells_succ, foldR_last, map_bind]
    dsimp only
    congr 1
    funext o
    cases o with
    | none => simp [toRes]
    | some r' =>
      dsimp only
      rw [← ih r' (by omega), Nat.mod_eq_of_lt (show i * prod t < 2^32 by omega)]

theorem insertBase_some [Monad m] [LawfulMonad m] (f : Val E → Val E → m (Option (Val E))) (h : Fits a) (hs : a.sh = n :: t) (w : Val E) :
    insertBase f a (some w) = toRes <$> foldR f (majors a) w := by
  unfold insertBase
  dsimp only
  rw [h.csz hs]
  rw [show majors a = cells a n by unfold majors cells; rw [hs]; rfl, show a.sh.head! = n by rw [hs]; rfl]
  exact insertLoop_eq f h hs n w (Nat.le_refl _)

theorem insertBase_none [Monad m] [LawfulMonad m] (f : Val E → Val E → m (Option (Val E))) (h : Fits a) (hs : a.sh = (n+1) :: t) :
    insertBase f a none = toRes <$> foldR f (cells a n) (.arr (cellAt a 1 n)) := by
  have e : (n+1) * prod t = n * prod t + prod t := Nat.succ_mul ..
  have hl := h.len
  rw [h.count hs] at hl
  have hp : ((n+1) * prod t % 2^32 + (2^32 - prod t)) % 2^32 = n * prod t := by omega
  unfold insertBase
  dsimp only
  rw [h.csz hs, show a.sh.head! = n+1 by rw [hs]; rfl, hp, cellFrom_eq h hs (by omega)]
  dsimp only
  rw [← insertLoop_eq f h hs n _ (by omega), Nat.mod_eq_of_lt (show n * prod t < 2^32 by omega)]
  rfl

theorem cellNo_eq (h : Fits a) (hs : a.sh = n :: t) {i : Nat} (hi : i < n) : cellNo a i = .ok (.arr (cellAt a 1 i)) := by
  unfold cellNo
  rw [h.csz hs, cellFrom_eq h hs hi]

/-! ## Joining -/

theorem join_step (hs : a.sh = n :: t) {g : Nat} {u : List Nat} (ht : (t = [] ∧ u = [] ∧ g = 1) ∨ t = g :: u) {i : Nat} (hi : i < n) (s : Nat) :
    joinV (.arr (cellAt a 1 i)) (.arr ⟨s :: u, a.els.drop ((i+1) * prod t)⟩) = some (.arr ⟨(g + s) :: u, a.els.drop (i * prod t)⟩) := by
  have hd : (a.els.drop (i * prod t)).take (prod t) ++ a.els.drop ((i+1) * prod t) = a.els.drop (i * prod t) := by
    rw [Nat.succ_mul, ← List.drop_drop, List.take_append_drop]
  rw [cellAt_eq hs]
  rcases ht with ⟨rfl, rfl, rfl⟩ | rfl
  · unfold joinV
    dsimp only [Val.sh, Val.els]
    rw [hd, Nat.add_comm]
  · have j : ∀ A B : List E, joinV (.arr ⟨g :: u, A⟩) (.arr ⟨s :: u, B⟩) = some (.arr ⟨(g + s) :: u, A ++ B⟩) := by
      intro A B
      unfold joinV
      cases u <;> simp [Val.sh, Val.els]
    rw [j, hd]

theorem join_fold [Monad m] [LawfulMonad m] (hs : a.sh = n :: t) {g : Nat} {u : List Nat} (ht : (t = [] ∧ u = [] ∧ g = 1) ∨ t = g :: u) :
    ∀ (i s : Nat), i ≤ n → foldR (fun p q => (pure (joinV p q) : m (Option (Val E)))) (cells a i) (.arr ⟨s :: u, a.els.drop (i * prod t)⟩) = pure (some (.arr ⟨(i * g + s) :: u, a.els⟩)) := by
  intro i
  induction i with
  | zero => intro s _; simp [foldR, cells_zero]
  | succ i ih =>
    intro s hi
    rw [cells_succ, foldR_last, join_step hs ht (by omega), pure_bind]
    dsimp only
    rw [ih (g + s) (by omega), show (i+1) * g = i * g + g from Nat.succ_mul .., Nat.add_assoc]

theorem last_cell (h : Fits a) (hs : a.sh = (n+1) :: t) : (a.els.drop (n * prod t)).take (prod t) = a.els.drop (n * prod t) := by
  apply List.take_of_length_le
  rw [List.length_drop, h.count hs, Nat.succ_mul]
  omega

theorem joinAll_eq [Monad m] [LawfulMonad m] (h : Fits a) (hs : a.sh = (n+2) :: t) :
    foldR (fun p q => (pure (joinV p q) : m (Option (Val E)))) (cells a (n+1)) (.arr (cellAt a 1 (n+1))) = pure (some (joinAll a)) := by
  have hc := h.count hs
  cases t with
  | nil =>
    have hl := last_cell h hs
    have e1 : joinV (.arr (cellAt a 1 n)) (.arr (cellAt a 1 (n+1))) = some (.arr ⟨[2], a.els.drop (n * prod [])⟩) := by
      rw [cellAt_eq hs, cellAt_eq hs, hl]
      unfold joinV
      dsimp only [Val.sh, Val.els]
      rw [show (n+1) * prod [] = n * prod [] + prod [] from Nat.succ_mul .., ← List.drop_drop, List.take_append_drop]
    rw [cells_succ, foldR_last, e1, pure_bind]
    dsimp only
    rw [join_fold hs (Or.inl ⟨rfl, rfl, rfl⟩) n 2 (by omega)]
    unfold joinAll
    rw [hs]
    dsimp only
    rw [if_pos (show [n + 2].length = 1 from rfl)]
    obtain ⟨sh, els⟩ := a
    cases hs
    rw [Nat.mul_one]
  | cons g u =>
    rw [cellAt_eq hs, last_cell h hs, join_fold hs (Or.inr rfl) (n+1) g (by omega)]
    unfold joinAll
    rw [hs]
    have e : (n+1) * g + g = (n+2) * g := (Nat.succ_mul (n+1) g).symm
    have h2 := h.two
    rw [hs] at h2
    simp only [List.take_succ_cons, List.take_zero, prod, Nat.mul_one] at h2
    dsimp only
    rw [if_neg (by simp)]
    cases u with
    | nil =>
      rw [if_neg (by simp), hc, e]
      simp [prod]
    | cons v u =>
      rw [if_pos (by simp), e]
      simp [Nat.mod_eq_of_lt h2]

end Verif.Insert
