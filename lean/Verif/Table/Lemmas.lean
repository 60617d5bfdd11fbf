import Verif.Table.Model
import Verif.Reshape.Props
import Verif.Known.Basic
import Verif.Rotate.Basic
/-!
# Lemmas about Table and Each
-/
namespace Verif.Table
open Verif.Rotate (prod)
open Verif.Reshape (cycleItems)
open Verif.Known (mapM_congr mapM_pure_eq)
variable {A : Type} {m : Type → Type} [Monad m] [LawfulMonad m]

theorem inner_eq (f : T A → T A → m (T A)) (a : T A) : ∀ bs r, inner f a bs r = (bs.mapM (f a)) >>= fun es => pure (r ++ es)
  | [], r => by simp [inner]
  | b :: bs, r => by
    rw [inner, List.mapM_cons, bind_assoc]
    congr 1; funext e
    rw [inner_eq f a bs, bind_assoc]
    congr 1; funext es
    simp

theorem generic_eq (f : T A → T A → m (T A)) (xs : List (T A)) : ∀ as r, generic f xs as r = ((as.flatMap fun a => xs.map fun b => (a, b)).mapM fun q => f q.1 q.2) >>= fun es => pure (r ++ es)
  | [], r => by simp [generic]
  | a :: as, r => by
    rw [generic, List.flatMap_cons, List.mapM_append, inner_eq, List.mapM_map, bind_assoc, bind_assoc]
    congr 1; funext e
    rw [pure_bind, generic_eq f xs as, bind_assoc]
    congr 1; funext es
    simp

theorem fresh_eq (f : T A → m (T A)) : ∀ as r, fresh f as r = (as.mapM f) >>= fun es => pure (r ++ es)
  | [], r => by simp [fresh]
  | a :: as, r => by
    rw [fresh, List.mapM_cons, bind_assoc]
    congr 1; funext e
    rw [fresh_eq f as, bind_assoc]
    congr 1; funext es
    simp

theorem inPlace_eq (zero : T A) (f : T A → m (T A)) : ∀ (done as : List (T A)), inPlace zero f as.length done.length (done ++ as) = (as.mapM f) >>= fun es => pure (done ++ es)
  | done, [] => by simp [inPlace]
  | done, a :: as => by
    rw [List.length_cons, inPlace, List.mapM_cons, bind_assoc]
    have : (done ++ a :: as).getD done.length zero = a := by simp [List.getD]
    rw [this]
    congr 1; funext e
    have h : ((done ++ a :: as).set done.length zero).set done.length e = (done ++ [e]) ++ as := by simp
    rw [h]
    have := inPlace_eq zero f (done ++ [e]) as
    rw [List.length_append, List.length_singleton] at this
    rw [this, bind_assoc]
    congr 1; funext es
    simp

/-- An optional value, or the error. -/
def lift (fail : ∀ α, m α) {B : Type} : Option B → m B
  | some b => pure b
  | none => fail _

theorem lift_mapM (fail : ∀ α, m α) (hf : ∀ (α β : Type) (k : α → m β), (fail α >>= k) = fail β) {B C : Type} (g : B → Option C) : ∀ l : List B, l.mapM (fun b => lift fail (g b)) = lift fail (l.mapM g)
  | [] => by simp [lift]
  | b :: l => by
    rw [List.mapM_cons, List.mapM_cons, lift_mapM fail hf g l]
    cases g b with
    | none => exact hf ..
    | some c =>
      cases l.mapM g with
      | none => show pure c >>= _ = _; rw [pure_bind]; exact hf ..
      | some cs => show pure c >>= _ = _; rw [pure_bind]; show pure cs >>= _ = _; rw [pure_bind]; rfl

theorem mapM_length {B C : Type} (g : B → Option C) : ∀ (l : List B) r, l.mapM g = some r → r.length = l.length
  | [], r, h => by simp at h; subst h; rfl
  | b :: l, r, h => by
    rw [List.mapM_cons] at h
    cases hb : g b with
    | none => rw [hb] at h; cases h
    | some c =>
      cases hl : l.mapM g with
      | none => rw [hb, hl] at h; cases h
      | some cs =>
        rw [hb, hl] at h
        cases h
        simp [mapM_length g l cs hl]

theorem mapM_flat {B C : Type} (g : B → B → Option C) (xs : List B) : ∀ as : List B, (as.flatMap fun a => xs.map fun b => (a, b)).mapM (fun q => g q.1 q.2) = (as.mapM fun a => xs.mapM (g a)).map List.flatten
  | [] => by simp
  | a :: as => by
    rw [List.flatMap_cons, List.mapM_append, List.mapM_cons, List.mapM_map, mapM_flat g xs as]
    have : xs.mapM ((fun q => g q.1 q.2) ∘ fun b => (a, b)) = xs.mapM (g a) := rfl
    rw [this]
    cases xs.mapM (g a) with
    | none => rfl
    | some r => cases as.mapM (fun a => xs.mapM (g a)) <;> rfl

theorem copyItems_eq {B : Type} (x : List B) : ∀ n r, Reshape.copyItems x n r = r ++ (List.replicate n x).flatten
  | 0, r => by simp [Reshape.copyItems]
  | n+1, r => by rw [Reshape.copyItems, copyItems_eq x n, List.replicate_succ, List.flatten_cons, List.append_assoc]

theorem cycle_eq {B : Type} (x : List B) (n : Nat) (h : x ≠ []) : cycleItems (n * x.length) x = (List.replicate n x).flatten := by
  have hl : 0 < x.length := List.length_pos_iff.mpr h
  rw [cycleItems, copyItems_eq, Nat.mul_mod_left, Nat.mul_div_cancel _ hl]
  simp

theorem zip_eq (xs : List (T A)) : ∀ ws : List (T A), (replicateBy xs.length ws).zip (List.replicate ws.length xs).flatten = ws.flatMap fun a => xs.map fun b => (a, b)
  | [] => rfl
  | a :: as => by
    rw [replicateBy, List.flatMap_cons, List.length_cons, List.replicate_succ, List.flatten_cons, List.flatMap_cons, List.zip_append (by simp)]
    have := zip_eq xs as
    rw [replicateBy] at this
    rw [this]
    congr 1
    clear this
    induction xs with
    | nil => rfl
    | cons x xs ih => rw [List.length_cons, List.replicate_succ, List.zip_cons_cons, List.map_cons, ih]

theorem replicateBy_length (n : Nat) (ws : List (T A)) : (replicateBy n ws).length = ws.length * n := by
  rw [replicateBy, List.length_flatMap]
  simp [List.map_const']

theorem pairs_length (w x : T A) : (pairs w x).length = w.els.length * x.els.length := by
  rw [pairs, List.length_flatMap]
  simp [List.map_const']

theorem replicateBy_eq (w x : T A) : replicateBy x.els.length w.els = (pairs w x).map (·.1) := by
  rw [replicateBy, pairs, List.map_flatMap]
  congr 1; funext a
  rw [List.map_map]
  induction x.els with
  | nil => rfl
  | cons x xs ih => rw [List.length_cons, List.replicate_succ, List.map_cons, ih]; rfl

theorem rights_eq (w x : T A) : (List.replicate w.els.length x.els).flatten = (pairs w x).map (·.2) := by
  rw [pairs, List.map_flatMap]
  induction w.els with
  | nil => rfl
  | cons a as ih =>
    rw [List.length_cons, List.replicate_succ, List.flatten_cons, List.flatMap_cons, ih]
    simp [List.map_map, Function.comp_def]

theorem perElement_eq (fail : ∀ α, m α) (hf : ∀ (α β : Type) (k : α → m β), (fail α >>= k) = fail β) (p : T A → T A → Option (T A)) (hp : Pervasive p) (sh : List Nat) (xs : List (T A)) :
    ∀ as r, (∀ a ∈ as, a.isAtom = true) → perElement (callP fail p) (.arr sh xs) as r = (lift fail (as.mapM fun a => xs.mapM (p a))) >>= fun es => pure (r ++ es.flatten)
  | [], r, _ => by simp [perElement, lift]
  | a :: as, r, h => by
    have ih := perElement_eq fail hf p hp sh xs as
    have ha : a.isAtom = true := h a List.mem_cons_self
    cases a with
    | arr => cases ha
    | atom a =>
      rw [perElement, List.mapM_cons, callP, hp.left]
      cases hx : xs.mapM (p (.atom a)) with
      | none =>
        show fail _ >>= _ = fail _ >>= _
        rw [hf, hf]
      | some e =>
        show pure (T.arr sh e) >>= _ = _
        rw [pure_bind, ih _ (fun b hb => h b (List.mem_cons_of_mem _ hb))]
        cases as.mapM (fun a => xs.mapM (p a)) with
        | none => show fail _ >>= _ = fail _ >>= _; rw [hf, hf]
        | some es =>
          show pure es >>= _ = pure (e :: es) >>= _
          rw [pure_bind, pure_bind]
          simp [T.els]

end Verif.Table
