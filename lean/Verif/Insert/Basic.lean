import Verif.Insert.Model
import Verif.Cells.Main
/-!
# Fold, Insert and Scan: lemmas
-/
namespace Verif.Insert
open Verif.Cells (Arr Val Full cellAt Agree longer slice shProd shProd_small slice_cell merge prod_take_drop)
open Verif.Rotate (prod prod_append)
open Verif.Pervade (mapM_congr)
variable {E A B : Type} {m : Type → Type}

theorem foldR_append [Monad m] [LawfulMonad m] (f : A → A → m (Option A)) (xs ys : List A) (w : A) :
    foldR f (xs ++ ys) w = (do match ← foldR f ys w with | none => pure none | some r => foldR f xs r) := by
  induction xs with
  | nil =>
    rw [List.nil_append]
    conv => lhs; rw [← bind_pure (foldR f ys w)]
    congr 1
    funext o
    cases o <;> rfl
  | cons x xs ih =>
    rw [List.cons_append, foldR, ih, bind_assoc]
    congr 1
    funext o
    cases o with
    | none => simp only [pure_bind]
    | some r => rfl

theorem foldR_last [Monad m] [LawfulMonad m] (f : A → A → m (Option A)) (xs : List A) (y w : A) :
    foldR f (xs ++ [y]) w = (do match ← f y w with | none => pure none | some r => foldR f xs r) := by
  rw [foldR_append]
  congr 1
  simp [foldR]

/-- What comes after a list of results may use its length. -/
theorem mapM_bind_congr [Monad m] [LawfulMonad m] {C : Type} (g : A → m B) : ∀ (l : List A) (k k' : List B → m C), (∀ rs, rs.length = l.length → k rs = k' rs) → (l.mapM g >>= k) = (l.mapM g >>= k')
  | [], k, k', h => by rw [List.mapM_nil, pure_bind, pure_bind]; exact h [] rfl
  | a :: l, k, k', h => by
    rw [List.mapM_cons, bind_assoc, bind_assoc]
    congr 1
    funext b
    rw [bind_assoc, bind_assoc]
    exact mapM_bind_congr g l _ _ fun rs hr => by rw [pure_bind, pure_bind]; exact h _ (by simp [hr])

theorem mapM_id_map (es : List A) : (es.map some).mapM id = some es := by
  induction es with
  | nil => rfl
  | cons e es ih => rw [List.map_cons, List.mapM_cons, ih]; rfl

theorem mapM_id_length : ∀ (rs : List (Option A)) (es : List A), rs.mapM id = some es → es.length = rs.length
  | [], es, h => by rw [List.mapM_nil] at h; cases h; rfl
  | r :: rs, es, h => by
    rw [List.mapM_cons] at h
    cases r with
    | none => cases h
    | some a =>
      cases h2 : rs.mapM id with
      | none => rw [h2] at h; cases h
      | some es' =>
        rw [h2] at h
        cases h
        simp [mapM_id_length rs es' h2]

theorem mapM_some [Monad m] [LawfulMonad m] (g : A → m B) : ∀ l : List A, (l.mapM fun a => do pure (some (← g a))) = (do let es ← l.mapM g; pure (es.map some))
  | [] => by simp
  | a :: l => by
    rw [List.mapM_cons, List.mapM_cons, mapM_some g l]
    simp

/-- Elements side by side. -/
def zipM [Monad m] (el : E → E → m E) (as bs : List E) : m (List E) := (as.zip bs).mapM fun p => el p.1 p.2

theorem zip_range (as bs : List E) (n : Nat) (ha : as.length = n) (hb : bs.length = n) [Monad m] [LawfulMonad m] (el : E → E → m E) :
    ((List.range n).mapM fun i => both el as[i]? bs[i]?) = (do let es ← zipM el as bs; pure (es.map some)) := by
  induction as generalizing bs n with
  | nil =>
    cases ha
    cases bs with
    | nil => simp [zipM]
    | cons b bs => cases hb
  | cons a as ih =>
    cases bs with
    | nil => rw [← ha] at hb; cases hb
    | cons b bs =>
      cases n with
      | zero => cases ha
      | succ n =>
        rw [List.range_succ_eq_map, List.mapM_cons, List.mapM_map]
        have := ih bs n (by simpa using ha) (by simpa using hb)
        rw [show ((fun i => both el (a :: as)[i]? (b :: bs)[i]?) ∘ Nat.succ) = (fun i => both el as[i]? bs[i]?) from by funext i; simp]
        rw [this]
        unfold zipM
        rw [List.zip_cons_cons, List.mapM_cons]
        simp [both]

/-- Arithmetic on arrays of the same shape. -/
theorem pairUp_same [Monad m] [LawfulMonad m] (el : E → E → m E) (sh : List Nat) (as bs : List E) (ha : as.length = prod sh) (hb : bs.length = prod sh) :
    pairUp el (.arr ⟨sh, as⟩) (.arr ⟨sh, bs⟩) = (do let es ← zipM el as bs; pure (some (.arr ⟨sh, es⟩))) := by
  have hl : longer sh sh = sh := by unfold longer; split <;> rfl
  have hA : Agree sh sh := rfl
  unfold pairUp
  dsimp only
  rw [show (Val.arr ⟨sh, as⟩ : Val E).sh = sh from rfl, show (Val.arr ⟨sh, bs⟩ : Val E).sh = sh from rfl, hl, if_pos hA, List.drop_length]
  rw [show (Val.arr ⟨sh, as⟩ : Val E).els = as from rfl, show (Val.arr ⟨sh, bs⟩ : Val E).els = bs from rfl]
  simp only [prod, Nat.div_one]
  rw [zip_range as bs (prod sh) ha hb el, bind_assoc]
  simp only [pure_bind, mapM_id_map, Option.map_some]

/-- What comes after arithmetic may use the shape of the result. -/
theorem pairUp_bind_congr [Monad m] [LawfulMonad m] {C : Type} (el : E → E → m E) (a : Arr E) (w : Val E) (hw : w.sh.length ≤ a.sh.length) (k k' : Option (Val E) → m C)
    (h0 : k none = k' none) (h : ∀ es, es.length = prod a.sh → k (some (.arr ⟨a.sh, es⟩)) = k' (some (.arr ⟨a.sh, es⟩))) :
    (pairUp el (.arr a) w >>= k) = (pairUp el (.arr a) w >>= k') := by
  have main : ∀ z, (Agree a.sh w.sh → z = a.sh) → ∀ g : Nat → m (Option E),
      ((if Agree a.sh w.sh then (do let rs ← (List.range (prod z)).mapM g; pure ((rs.mapM id).map fun es => Val.arr ⟨z, es⟩)) else pure none) >>= k) =
      ((if Agree a.sh w.sh then (do let rs ← (List.range (prod z)).mapM g; pure ((rs.mapM id).map fun es => Val.arr ⟨z, es⟩)) else pure none) >>= k') := by
    intro z hz g
    by_cases hA : Agree a.sh w.sh
    · obtain rfl := hz hA
      rw [if_pos hA, bind_assoc, bind_assoc]
      apply mapM_bind_congr
      intro rs hr
      rw [pure_bind, pure_bind]
      cases he : rs.mapM id with
      | none => exact h0
      | some es => exact h es (by rw [mapM_id_length rs es he, hr, List.length_range])
    · rw [if_neg hA, pure_bind, pure_bind, h0]
  have lz : Agree a.sh w.sh → longer a.sh w.sh = a.sh := by
    intro hA
    unfold longer
    by_cases h : a.sh.length > w.sh.length
    · rw [if_pos h]
    · rw [if_neg h]
      unfold Agree at hA
      rw [show min a.sh.length w.sh.length = a.sh.length by omega, List.take_length, show a.sh.length = w.sh.length by omega, List.take_length] at hA
      exact hA.symm
  cases w with
  | atom e => exact main _ lz _
  | arr b => exact main _ lz _

/-- A single element with any number of axes. -/
theorem pairUp_single [Monad m] [LawfulMonad m] (el : E → E → m E) (ra : Nat) (p : E) (b : Val E) (rb : Nat) (q : E) (hb : b.sh = List.replicate rb 1) (hq : b.els = [q]) :
    pairUp el (.arr ⟨List.replicate ra 1, [p]⟩) b = (do pure (some (.arr ⟨List.replicate (if rb > ra then rb else ra) 1, [← el p q]⟩))) := by
  have hl : longer (List.replicate ra 1) (List.replicate rb 1) = List.replicate (if rb > ra then rb else ra) 1 := by
    unfold longer
    rw [List.length_replicate, List.length_replicate]
    by_cases h : ra > rb
    · rw [if_pos h, if_neg (by omega)]
    · rw [if_neg h]
      by_cases h2 : rb > ra
      · rw [if_pos h2]
      · rw [if_neg h2, show ra = rb by omega]
  have hA : Agree (List.replicate ra 1) (List.replicate rb 1) := by
    unfold Agree
    rw [List.length_replicate, List.length_replicate, List.take_replicate, List.take_replicate]
    congr 1
    omega
  have hp : ∀ n, prod (List.replicate n 1) = 1 := by
    intro n
    induction n with
    | zero => rfl
    | succ n ih => rw [List.replicate_succ, prod, ih]
  have main : ∀ g : Nat → m (Option E), g 0 = (do pure (some (← el p q))) →
      (do let rs ← (List.range (prod (List.replicate (if rb > ra then rb else ra) 1))).mapM g; pure ((rs.mapM id).map fun es => Val.arr ⟨List.replicate (if rb > ra then rb else ra) 1, es⟩)) =
      (do pure (some (.arr ⟨List.replicate (if rb > ra then rb else ra) 1, [← el p q]⟩)) : m (Option (Val E))) := by
    intro g hg
    rw [hp, List.range_one, List.mapM_cons, List.mapM_nil, hg]
    simp
  cases b with
  | atom e =>
    unfold pairUp
    dsimp only
    rw [show (Val.arr ⟨List.replicate ra 1, [p]⟩ : Val E).sh = List.replicate ra 1 from rfl, hb, hl, if_pos hA]
    apply main
    have : e = q := by cases hq; rfl
    subst this
    simp [Val.els, both]
  | arr b =>
    unfold pairUp
    dsimp only
    rw [show (Val.arr ⟨List.replicate ra 1, [p]⟩ : Val E).sh = List.replicate ra 1 from rfl, hb, hl, if_pos hA]
    apply main
    rw [hq]
    simp [Val.els, both]

/-! ## Folds -/

theorem foldLoop_eq [Monad m] [LawfulMonad m] (f : E → E → m E) (x : List E) : ∀ (i : Nat) (c : E), i ≤ x.length → foldLoop f x i c = toRes <$> foldR (sure f) (x.take i) c := by
  intro i
  induction i with
  | zero => intro c _; rw [foldLoop, List.take_zero, foldR, map_pure]; rfl
  | succ i ih =>
    intro c h
    rw [foldLoop, List.getElem?_eq_getElem (by omega), List.take_succ_eq_append_getElem (by omega), foldR_last]
    dsimp only
    unfold sure
    simp only [bind_assoc, pure_bind, map_bind]
    congr 1
    funext r
    rw [ih r (by omega)]
    rfl

theorem foldR_const [Monad m] [LawfulMonad m] (v : A) : ∀ (xs : List A) (w : A), xs ≠ [] → foldR (fun _ _ => (pure (some v) : m (Option A))) xs w = pure (some v)
  | [x], w, _ => by simp [foldR]
  | x :: y :: xs, w, _ => by
    rw [foldR, foldR_const v (y :: xs) w (by simp), pure_bind]

theorem foldR_left [Monad m] [LawfulMonad m] : ∀ (xs : List A) (w : A), foldR (fun a _ => (pure (some a) : m (Option A))) xs w = pure (some (xs.headD w))
  | [], w => rfl
  | x :: xs, w => by
    rw [foldR, foldR_left xs w, pure_bind]; rfl

theorem foldR_right [Monad m] [LawfulMonad m] : ∀ (xs : List A) (w : A), foldR (fun _ b => (pure (some b) : m (Option A))) xs w = pure (some w)
  | [], w => rfl
  | x :: xs, w => by
    rw [foldR, foldR_right xs w, pure_bind]

end Verif.Insert
