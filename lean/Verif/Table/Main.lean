import Verif.Table.Lemmas
/-!
# Table is a call for each pair
-/
namespace Verif.Table
open Verif.Rotate (prod)
open Verif.Reshape (cycleItems)
open Verif.Known (mapM_congr mapM_pure_eq)
variable {A : Type} {m : Type → Type} [Monad m] [LawfulMonad m]

theorem unit_els (x : T A) : (unit x).els = x.els := by cases x <;> rfl

theorem unit_sh (x : T A) : (unit x).sh = x.sh := by cases x <;> rfl

theorem unit_arr (x : T A) : unit x = .arr x.sh x.els := by cases x <;> rfl

/-- What the calls give, with the shape. -/
def calls (fail : ∀ α, m α) (op : Op m A) (w x : T A) (sh : List Nat) : m (Res A) := do
  let rs ← (pairs w x).mapM fun q => op.run fail q.1 q.2
  pure (.ok (.arr sh rs))

theorem calls_lift (fail : ∀ α, m α) (hf : ∀ (α β : Type) (k : α → m β), (fail α >>= k) = fail β) (p : T A → T A → Option (T A)) (w x : T A) (sh : List Nat) :
    calls fail (.perv p) w x sh = lift fail ((pairs w x).mapM fun q => p q.1 q.2) >>= fun rs => pure (.ok (.arr sh rs)) := by
  rw [calls, ← lift_mapM fail hf]
  congr 1
  refine mapM_congr fun q _ => ?_
  show (match p q.1 q.2 with | some r => pure r | none => fail _) = _
  cases p q.1 q.2 <;> rfl

theorem shaped_ok (sh : List Nat) (n : Nat) (r : List (T A)) (h : r.length = n) : shaped sh n r = .ok (.arr sh r) := if_pos h

theorem generic_perv (fail : ∀ α, m α) (hf : ∀ (α β : Type) (k : α → m β), (fail α >>= k) = fail β) (p : T A → T A → Option (T A)) (w x : T A) (sh : List Nat) :
    (do let r ← generic (callP fail p) x.els w.els []
        pure (shaped sh (w.els.length * x.els.length) r)) = calls fail (.perv p) w x sh := by
  rw [calls_lift fail hf, generic_eq, bind_assoc]
  have : ((w.els.flatMap fun a => x.els.map fun b => (a, b)).mapM fun q => callP fail p q.1 q.2) = lift fail ((pairs w x).mapM fun q => p q.1 q.2) := by
    rw [← lift_mapM fail hf]
    refine mapM_congr fun q _ => ?_
    rw [callP]
    cases p q.1 q.2 <;> rfl
  rw [this]
  cases h : (pairs w x).mapM fun q => p q.1 q.2 with
  | none => show fail _ >>= _ = fail _ >>= _; rw [hf, hf]
  | some r =>
    show pure r >>= _ = pure r >>= _
    rw [pure_bind, pure_bind, pure_bind]
    rw [List.nil_append, shaped_ok _ _ _ (by rw [mapM_length _ _ _ h, pairs_length])]

theorem lists_perv (fail : ∀ α, m α) (hf : ∀ (α β : Type) (k : α → m β), (fail α >>= k) = fail β) (p : T A → T A → Option (T A)) (hp : Pervasive p) (w x : T A) (sh : List Nat) (n : Nat)
    (ws xs : List (T A)) (hz : ws.zip xs = pairs w x) (hw : ws.length = n) (hx : xs.length = n) (hn : n = w.els.length * x.els.length) :
    (do let r ← callP fail p (.arr [n] ws) (.arr [n] xs)
        pure (shaped sh n r.els)) = calls fail (.perv p) w x sh := by
  rw [calls_lift fail hf, callP, ← hx, hp.lists _ _ (by rw [hw, hx]), hz]
  cases h : (pairs w x).mapM fun q => p q.1 q.2 with
  | none => show fail _ >>= _ = fail _ >>= _; rw [hf, hf]
  | some r =>
    show pure (T.arr [xs.length] r) >>= _ = pure r >>= _
    rw [pure_bind, pure_bind]
    rw [show (T.arr [xs.length] r).els = r from rfl, shaped_ok _ _ _ (by rw [mapM_length _ _ _ h, pairs_length, hx, hn])]

theorem elements_perv (fail : ∀ α, m α) (hf : ∀ (α β : Type) (k : α → m β), (fail α >>= k) = fail β) (p : T A → T A → Option (T A)) (hp : Pervasive p) (w x : T A) (xsh sh : List Nat)
    (hw : ∀ a ∈ w.els, a.isAtom = true) :
    (do let r ← perElement (callP fail p) (.arr xsh x.els) w.els []
        pure (shaped sh (w.els.length * x.els.length) r)) = calls fail (.perv p) w x sh := by
  rw [calls_lift fail hf, perElement_eq fail hf p hp _ _ _ _ hw, bind_assoc, pairs, mapM_flat p]
  cases h : w.els.mapM fun a => x.els.mapM (p a) with
  | none => show fail _ >>= _ = fail _ >>= _; rw [hf, hf]
  | some r =>
    show pure r >>= _ = pure r.flatten >>= _
    rw [pure_bind, pure_bind, pure_bind, List.nil_append]
    have h' := mapM_flat p x.els w.els
    rw [h] at h'
    rw [shaped_ok _ _ _ (by rw [mapM_length _ _ _ h']; exact pairs_length w x)]

theorem pervasive_eq (fail : ∀ α, m α) (hf : ∀ (α β : Type) (k : α → m β), (fail α >>= k) = fail β) (p : T A → T A → Option (T A)) (hp : Pervasive p) (w x : T A) (sh : List Nat) (wd xd : Bool) (lx : Nat)
    (hw : wd = true → ∀ a ∈ w.els, a.isAtom = true) (xsh : List Nat) (hx : x = .arr xsh x.els) :
    pervasive fail p w x sh (w.els.length * x.els.length) wd xd lx = calls fail (.perv p) w x sh := by
  rw [pervasive]
  by_cases h0 : w.els.length * x.els.length = 0
  · rw [if_pos h0]
    have hpn : pairs w x = [] := List.length_eq_zero_iff.mp (by rw [pairs_length, h0])
    rw [h0]
    exact lists_perv fail hf p hp w x sh 0 [] [] (by rw [hpn]; rfl) rfl rfl h0.symm
  rw [if_neg h0]
  by_cases h1 : wd = true
  case neg =>
    have : wd = false := by simpa using h1
    subst this
    rw [if_pos (show (!false) = true from rfl)]
    exact generic_perv fail hf p w x sh
  subst h1
  rw [if_neg (show ¬ (!true) = true by decide)]
  have hxn : x.els ≠ [] := by intro h; rw [h] at h0; simp at h0
  by_cases h2 : xd ∧ w.els.length ≥ 3 ∧ x.els.length < 2560 >>> lx
  · rw [if_pos h2, cycle_eq _ _ hxn]
    exact lists_perv fail hf p hp w x sh _ _ _ (zip_eq x.els w.els) (replicateBy_length ..) (by simp) rfl
  rw [if_neg h2]
  by_cases h3 : x.els.length > 3
  · rw [if_pos h3]
    have := elements_perv fail hf p hp w x xsh sh (hw rfl)
    rw [← hx] at this
    exact this
  rw [if_neg h3]
  exact generic_perv fail hf p w x sh

theorem pure_perv (fail : ∀ α, m α) (op : Op m A) (w x : T A) (sh : List Nat) (n : Nat) (hn : n = w.els.length * x.els.length) (g : T A × T A → T A) (hop : ∀ a b, op.run fail a b = pure (g (a, b)))
    (r : List (T A)) (hr : r = (pairs w x).map g) : pure (shaped sh n r) = calls fail op w x sh := by
  rw [calls, mapM_pure_eq _ g _ (fun q _ => hop q.1 q.2), pure_bind, ← hr, shaped_ok]
  rw [hr, List.length_map, pairs_length, hn]

theorem mapM_bind {B C D : Type} (f : B → m C) : ∀ (l : List B) (k k' : List C → m D), (∀ r, r.length = l.length → k r = k' r) → l.mapM f >>= k = l.mapM f >>= k'
  | [], k, k', h => by rw [List.mapM_nil, pure_bind, pure_bind, h [] rfl]
  | b :: l, k, k', h => by
    rw [List.mapM_cons, bind_assoc, bind_assoc]
    congr 1; funext c
    rw [bind_assoc, bind_assoc]
    refine mapM_bind f l _ _ fun r hr => ?_
    rw [pure_bind, pure_bind]
    exact h _ (by rw [List.length_cons, List.length_cons, hr])

theorem tbl_eq (fail : ∀ α, m α) (hf : ∀ (α β : Type) (k : α → m β), (fail α >>= k) = fail β) (op : Op m A) (hop : ∀ p, op = .perv p → Pervasive p) (w x : T A) (hw : Full w) (hx : Full x)
    (hwr : w.sh.length ≤ 255) (hxr : x.sh.length ≤ 255) (wd xd : Bool) (lx : Nat) (hwd : wd = true → ∀ a ∈ w.els, a.isAtom = true) :
    tbl fail op w x wd xd lx = table fail op w x := by
  rw [tbl, table]
  dsimp only
  rw [unit_sh, unit_sh, unit_els, unit_els, hw, hx]
  by_cases h1 : prod w.sh * prod x.sh ≥ 2^32
  · rw [if_pos h1, if_pos h1]
  rw [if_neg h1, if_neg h1, Nat.mod_eq_of_lt (a := w.sh.length) (by omega), Nat.mod_eq_of_lt (a := x.sh.length) (by omega)]
  by_cases h2 : w.sh.length + x.sh.length > 255
  · rw [if_pos h2, if_pos (by omega)]
  rw [if_neg h2, if_neg (by omega), List.take_length, List.take_length]
  have hl : prod w.sh * prod x.sh = w.els.length * x.els.length := by rw [hw, hx]
  have hpl := pairs_length w x
  show _ = calls fail op w x _
  rw [hl]
  cases op with
  | md =>
    dsimp only
    by_cases h : w.els.length * x.els.length > 0
    · rw [if_pos h, calls]
      cases hp : pairs w x with
      | nil => rw [hp] at hpl; simp only [List.length_nil] at hpl; omega
      | cons q qs =>
        rw [List.mapM_cons]
        show _ = ((fail _ >>= _) >>= _)
        rw [hf, hf]
    · rw [if_neg h, calls]
      have : pairs w x = [] := List.length_eq_zero_iff.mp (by omega)
      rw [this, List.mapM_nil, pure_bind, shaped_ok _ _ _ (by simp only [List.length_nil]; omega)]
  | const v => exact pure_perv fail _ w x _ _ rfl (fun _ => v) (fun _ _ => rfl) _ (by rw [← hpl, List.map_const'])
  | ltack =>
    dsimp only
    rw [← hx]
    exact pure_perv fail _ w x _ _ rfl (·.1) (fun _ _ => rfl) _ (replicateBy_eq w x)
  | rtack =>
    dsimp only
    rw [← hx]
    refine pure_perv fail _ w x _ _ rfl (·.2) (fun _ _ => rfl) _ ?_
    rw [← rights_eq]
    by_cases h : w.els.length * x.els.length ≤ x.els.length
    · rw [if_pos h]
      by_cases hw0 : w.els.length = 0
      · rw [hw0, Nat.zero_mul]; rfl
      · by_cases hx0 : x.els.length = 0
        · have : x.els = [] := List.length_eq_zero_iff.mp hx0
          rw [this]; simp
        · have : w.els.length = 1 := by
            have h3 : w.els.length ≤ 1 := Nat.le_of_mul_le_mul_right (by omega : w.els.length * x.els.length ≤ 1 * x.els.length) (by omega)
            omega
          rw [this, Nat.one_mul, List.take_length]; simp
    · rw [if_neg h]
      have hxn : x.els ≠ [] := by intro h'; rw [h'] at h; simp at h
      rw [cycle_eq _ _ hxn]
  | perv p =>
    have := pervasive_eq fail hf p (hop p rfl) (unit w) (unit x) (w.sh ++ x.sh) wd xd lx (by rw [unit_els]; exact hwd) x.sh (by rw [unit_els, unit_arr])
    rw [unit_els, unit_els] at this
    dsimp only
    rw [this, calls, calls, pairs, pairs, unit_els, unit_els]
  | fn f =>
    dsimp only
    rw [generic_eq, bind_assoc, calls]
    refine mapM_bind _ _ _ _ fun es he => ?_
    rw [pure_bind, List.nil_append, shaped_ok _ _ _ (he.trans hpl)]

theorem each1_eq (fail : ∀ α, m α) (hf : ∀ (α β : Type) (k : α → m β), (fail α >>= k) = fail β) (zero : T A) (reuse : Bool) (op : Op1 m A) (x : T A) : each1 fail zero reuse op x = each fail op x := by
  cases x with
  | atom a => rw [each1, each]; simp [T.els, T.sh]
  | arr sh xs =>
    rw [each]
    show _ = xs.mapM (op.run fail) >>= fun rs => pure (T.arr sh rs)
    cases op with
    | same => rw [mapM_pure_eq (Op1.run fail Op1.same) id xs (fun _ _ => rfl), pure_bind, List.map_id]; rfl
    | const v => rw [mapM_pure_eq (Op1.run fail (Op1.const v)) (fun _ => v) xs (fun _ _ => rfl), pure_bind, List.map_const']; rfl
    | md =>
      cases xs with
      | nil => rw [List.mapM_nil, pure_bind]; rfl
      | cons b xs => rw [List.mapM_cons]; show fail _ = (fail _ >>= _) >>= _; rw [hf, hf]
    | fn f =>
      show eachm zero reuse f sh xs = xs.mapM f >>= _
      rw [eachm]
      by_cases h : xs.length = 0
      · rw [if_pos h, List.length_eq_zero_iff.mp h, List.mapM_nil, pure_bind]
      · rw [if_neg h]
        cases reuse with
        | false => rw [if_neg (by decide), fresh_eq, bind_assoc]; simp
        | true =>
          have := inPlace_eq zero f [] xs
          rw [if_pos rfl]
          rw [show inPlace zero f xs.length 0 xs = inPlace zero f xs.length ([] : List (T A)).length ([] ++ xs) from rfl, this, bind_assoc]
          simp

end Verif.Table
