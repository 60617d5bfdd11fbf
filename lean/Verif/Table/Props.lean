import Verif.Table.Main
/-!
# Table and Each call their operand on every pair or element, in order

`m` is any monad with the usual laws and an error `fail` that ends everything.
-/
namespace Verif.Table
open Verif.Rotate (prod InShape ravel)
variable {A : Type} {m : Type → Type}

/-- `𝕨 𝔽⌜ 𝕩` is a call of the operand on every pair of elements, those with the first element of `𝕨` first; the shape of the result is that of `𝕨` and then that of `𝕩`. The ways for known functions give the same. Results that are too large are refused. `wd`, `xd` and `lx` are about how the arguments are stored; if the type of `𝕨` is one for atoms all elements are atoms. -/
theorem table_in_order [Monad m] [LawfulMonad m] (fail : ∀ α, m α) (hf : ∀ (α β : Type) (k : α → m β), (fail α >>= k) = fail β) (op : Op m A) (hop : ∀ p, op = .perv p → Pervasive p)
    (w x : T A) (hw : Full w) (hx : Full x) (hwr : w.sh.length ≤ 255) (hxr : x.sh.length ≤ 255) (wd xd : Bool) (lx : Nat) (hwd : wd = true → ∀ a ∈ w.els, a.isAtom = true) :
    tbl fail op w x wd xd lx = table fail op w x :=
  tbl_eq fail hf op hop w x hw hx hwr hxr wd xd lx hwd

mutual
/-- Addition of integers, elements of arrays, and so on. -/
def addT : T Int → T Int → Option (T Int)
  | .atom a, .atom b => some (.atom (a + b))
  | .atom a, .arr sh xs => (addL (.atom a) xs).map (.arr sh)
  | .arr _ _, .atom _ => none
  | .arr sh ws, .arr t xs => if sh = t then (addZ ws xs).map (.arr sh) else none
termination_by w x => sizeOf w + sizeOf x
def addL : T Int → List (T Int) → Option (List (T Int))
  | _, [] => some []
  | a, b :: bs => (addT a b).bind fun r => (addL a bs).map fun rs => r :: rs
termination_by a bs => sizeOf a + sizeOf bs
def addZ : List (T Int) → List (T Int) → Option (List (T Int))
  | a :: as, b :: bs => (addT a b).bind fun r => (addZ as bs).map fun rs => r :: rs
  | _, _ => some []
termination_by as bs => sizeOf as + sizeOf bs
end

theorem addL_eq (a : T Int) : ∀ bs, addL a bs = bs.mapM (addT a)
  | [] => by rw [addL]; rfl
  | b :: bs => by
    rw [addL, addL_eq a bs, List.mapM_cons]
    cases addT a b with
    | none => rfl
    | some r => cases bs.mapM (addT a) <;> rfl

theorem addZ_eq : ∀ as bs, addZ as bs = (as.zip bs).mapM fun q => addT q.1 q.2
  | [], bs => by rw [addZ]; rfl; simp
  | a :: as, [] => by rw [addZ]; rfl; simp
  | a :: as, b :: bs => by
    rw [addZ, addZ_eq as bs, List.zip_cons_cons, List.mapM_cons]
    cases addT a b with
    | none => rfl
    | some r => cases (as.zip bs).mapM (fun q => addT q.1 q.2) <;> rfl

theorem addT_pervasive : Pervasive addT where
  lists ws xs _ := by rw [addT, if_pos rfl, addZ_eq]
  left a sh xs := by rw [addT, addL_eq]

/-- A table of addition, by the way for elements of `𝕨`. -/
example : tbl (m := StateT Nat Option) (fun _ _ => none) (.perv addT) (.arr [3] [.atom 1, .atom 2, .atom 3]) (.arr [4] [.atom 1, .atom 2, .atom 3, .atom 4]) true false 3
    = table (m := StateT Nat Option) (fun _ _ => none) (.perv addT) (.arr [3] [.atom 1, .atom 2, .atom 3]) (.arr [4] [.atom 1, .atom 2, .atom 3, .atom 4]) :=
  table_in_order _ (fun _ _ _ => rfl) _ (fun p h => by cases h; exact addT_pervasive) _ _ (by rfl) (by rfl) (by decide) (by decide) _ _ _ (fun _ a ha => by simp [T.els] at ha; rcases ha with h | h | h <;> subst h <;> rfl)

/-- A function that counts its calls: the results are the numbers of the calls in order. -/
example : (tbl (m := StateT Nat Option) (fun _ _ => none) (.fn fun _ _ n => some (.atom (n : Int), n + 1)) (.arr [2] [.atom 1, .atom 2]) (.arr [1, 2] [.atom 1, .atom 2]) true true 3).run 10
    = some (.ok (.arr [2, 1, 2] [.atom 10, .atom 11, .atom 12, .atom 13]), 14) := rfl

theorem pairs_get (xs : List (T A)) : ∀ (ws : List (T A)) (i j : Nat) (a b : T A), ws[i]? = some a → xs[j]? = some b → (ws.flatMap fun a => xs.map fun b => (a, b))[i * xs.length + j]? = some (a, b)
  | [], i, j, a, b, h, _ => by cases h
  | w :: ws, 0, j, a, b, h, hb => by
    cases h
    have : j < xs.length := (List.getElem?_eq_some_iff.mp hb).1
    rw [Nat.zero_mul, Nat.zero_add, List.flatMap_cons, List.getElem?_append_left (by rw [List.length_map]; exact this), List.getElem?_map, hb]
    rfl
  | w :: ws, i+1, j, a, b, h, hb => by
    rw [List.flatMap_cons, Nat.succ_mul, List.getElem?_append_right (by rw [List.length_map]; omega), List.length_map, show i * xs.length + xs.length + j - xs.length = i * xs.length + j by omega]
    exact pairs_get xs ws i j a b h hb

/-- Which pair that is: the one at an index of the result has the first part of the index in `𝕨` and the rest in `𝕩`. -/
theorem table_index (w x : T A) (hw : Full w) (hx : Full x) (i j : List Nat) (hi : InShape w.sh i) (hj : InShape x.sh j) :
    InShape (w.sh ++ x.sh) (i ++ j) ∧ ∃ a b, w.els[ravel w.sh i]? = some a ∧ x.els[ravel x.sh j]? = some b ∧ (pairs w x)[ravel (w.sh ++ x.sh) (i ++ j)]? = some (a, b) := by
  have hw' : w.els.length = prod w.sh := hw
  have hx' : x.els.length = prod x.sh := hx
  have ha : ravel w.sh i < w.els.length := by rw [hw']; exact Rotate.ravel_lt hi
  have hb : ravel x.sh j < x.els.length := by rw [hx']; exact Rotate.ravel_lt hj
  obtain ⟨a, ha⟩ : ∃ a, w.els[ravel w.sh i]? = some a := ⟨_, List.getElem?_eq_getElem ha⟩
  obtain ⟨b, hb⟩ : ∃ b, x.els[ravel x.sh j]? = some b := ⟨_, List.getElem?_eq_getElem hb⟩
  refine ⟨hi.append hj, a, b, ha, hb, ?_⟩
  rw [Rotate.ravel_append hi, ← hx', pairs]
  exact pairs_get x.els w.els _ _ _ _ ha hb

example : (pairs (.arr [2] [.atom 1, .atom 2]) (.arr [1, 2] [.atom 3, .atom 4]))[ravel ([2] ++ [1, 2]) ([1] ++ [0, 1])]? = some (T.atom 2, T.atom 4) := rfl

/-- `𝔽¨𝕩` is a call of the operand on every element, in order, no matter whether the results are put in place of the elements. -/
theorem each_one_in_order [Monad m] [LawfulMonad m] (fail : ∀ α, m α) (hf : ∀ (α β : Type) (k : α → m β), (fail α >>= k) = fail β) (zero : T A) (reuse : Bool) (op : Op1 m A) (x : T A) :
    each1 fail zero reuse op x = each fail op x :=
  each1_eq fail hf zero reuse op x

example : (each1 (m := StateT Nat Option) (fun _ _ => none) (.atom 0) true (.fn fun a n => some (.arr [] [a, .atom (n : Int)], n + 1)) (.arr [1, 2] [.atom 5, .atom 6])).run 10
    = some (.arr [1, 2] [.arr [] [.atom 5, .atom 10], .arr [] [.atom 6, .atom 11]], 12) := rfl

/-- Each counts its references to an operand that is an array. Table does not (`table_loses_operand`). -/
theorem each_keeps_operand_partial (n : Nat) (o : Obj) (h : o.Right) : (eachConst n o).Right := by
  simp only [Obj.Right, eachConst, Obj.inc, Obj.reshapeOne] at *
  omega

example : (Obj.mk 1 1).Right ∧ (eachConst 3 ⟨1, 1⟩).count = 4 := ⟨rfl, rfl⟩

/-- Table takes over a reference that belongs to the derived function. Once the result is freed, and nothing else refers to the operand, its count is 0 although the derived function still refers to it. -/
theorem table_loses_operand (n : Nat) : ((tblConst n ⟨1, 1⟩).release n).count = 0 ∧ ((tblConst n ⟨1, 1⟩).release n).held = 1 := by
  simp only [tblConst, Obj.copy, Obj.reshapeOne, Obj.release]
  omega

end Verif.Table
