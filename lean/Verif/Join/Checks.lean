import Verif.Join.Model
import Verif.Rotate.Basic
/-!
# Join: what the checks accept
-/
namespace Verif.Join
open Verif.Cells (Arr Val Full)
open Verif.Rotate
variable {E : Type}

/-! ## Shapes of elements -/

theorem elementShape_lead : ∀ (ls : List Lens) (is t : List Nat), elementShape ls is t = elementShape ls is [] ++ t
  | [], _, t => rfl
  | _ :: _, [], t => rfl
  | l :: ls, i :: is, t => by
    unfold elementShape
    rcases h : l[i]? with _ | _ | n
    · exact elementShape_lead ls is t
    · exact elementShape_lead ls is t
    · show n :: _ = n :: _ ++ _
      rw [elementShape_lead ls is t]; rfl

theorem elementShape_append : ∀ (ls ls' : List Lens) (is is' t : List Nat), is.length = ls.length → elementShape (ls ++ ls') (is ++ is') t = elementShape ls is (elementShape ls' is' t)
  | [], _, is, is', t, h => by
    rw [List.length_eq_zero_iff.1 h]; rfl
  | _ :: _, _, [], _, _, h => by cases h
  | l :: ls, ls', i :: is, is', t, h => by
    have ih := elementShape_append ls ls' is is' t (Nat.succ.inj h)
    show (match l[i]? with | some (some n) => n :: elementShape (ls ++ ls') (is ++ is') t | _ => elementShape (ls ++ ls') (is ++ is') t) = match l[i]? with | some (some n) => _ | _ => _
    rw [ih]

theorem lead_le : ∀ (ls : List Lens) (is : List Nat), (elementShape ls is []).length ≤ ls.length
  | [], _ => Nat.le_refl _
  | _ :: _, [] => Nat.zero_le _
  | l :: ls, i :: is => by
    unfold elementShape
    have := lead_le ls is
    rcases l[i]? with _ | _ | n
    · exact Nat.le_succ_of_le this
    · exact Nat.le_succ_of_le this
    · exact Nat.succ_le_succ this

/-- With one more axis. -/
theorem elementShape_snoc (ls : List Lens) (l : Lens) (is : List Nat) (i : Nat) (t : List Nat) (h : is.length = ls.length) :
    elementShape (ls ++ [l]) (is ++ [i]) t = elementShape ls is [] ++ ((l[i]?.getD none).toList ++ t) := by
  rw [elementShape_append _ _ _ _ _ h, elementShape_lead]
  congr 1
  unfold elementShape
  rcases l[i]? with _ | _ | n <;> rfl

/-! ## Buffers -/

theorem shcpy_length (d s n : Nat) (b : List Nat) : (shcpy d s n b).length = b.length := by
  unfold shcpy
  induction n with
  | zero => rfl
  | succ n ih => rw [List.range_succ, List.foldl_append]; show (List.set _ _ _).length = _; rw [List.length_set, ih]

theorem shcpy_succ (d s n : Nat) (b : List Nat) : shcpy d s (n+1) b = (shcpy d s n b).set (d + n) ((shcpy d s n b)[s + n]?.getD 0) := by
  unfold shcpy
  rw [List.range_succ, List.foldl_append]; rfl

/-- A copy to the next position copies the first number everywhere. -/
theorem shcpy_up (s n : Nat) (b : List Nat) (hs : s + n < b.length) (j : Nat) :
    (shcpy (s + 1) s n b)[j]? = if s + 1 ≤ j ∧ j < s + 1 + n then b[s]? else b[j]? := by
  induction n generalizing j with
  | zero => rw [if_neg (by omega)]; rfl
  | succ n ih =>
    rw [shcpy_succ, List.getElem?_set, shcpy_length]
    by_cases h : s + 1 + n = j
    · rw [if_pos h, if_pos (by omega), if_pos (by omega), ih (by omega)]
      by_cases h0 : n = 0
      · subst h0
        rw [if_neg (by omega), Nat.add_zero, List.getElem?_eq_getElem (by omega)]; rfl
      · rw [if_pos (by omega), List.getElem?_eq_getElem (by omega)]; rfl
    · rw [if_neg h, ih (by omega)]
      by_cases h1 : s + 1 ≤ j ∧ j < s + 1 + n
      · rw [if_pos h1, if_pos (by omega)]
      · rw [if_neg h1, if_neg (by omega)]

/-- A copy from the next position. -/
theorem shcpy_down (s n : Nat) (b : List Nat) (hs : s + n < b.length) (j : Nat) :
    (shcpy s (s + 1) n b)[j]? = if s ≤ j ∧ j < s + n then b[j + 1]? else b[j]? := by
  induction n generalizing j with
  | zero => rw [if_neg (by omega)]; rfl
  | succ n ih =>
    rw [shcpy_succ, List.getElem?_set, shcpy_length]
    by_cases h : s + n = j
    · subst h
      rw [if_pos rfl, if_pos (by omega), if_pos (by omega), ih (by omega), if_neg (by omega), show s + 1 + n = s + n + 1 by omega, List.getElem?_eq_getElem (by omega)]; rfl
    · rw [if_neg h, ih (by omega)]
      by_cases h1 : s ≤ j ∧ j < s + n
      · rw [if_pos h1, if_pos (by omega)]
      · rw [if_neg h1, if_neg (by omega)]

/-- `b` begins with `p`. -/
def Begins (b p : List Nat) : Prop := ∀ j, j < p.length → b[j]? = p[j]?

theorem Begins.le {b p : List Nat} (h : Begins b p) : p.length ≤ b.length := by
  apply Nat.le_of_not_lt
  intro hlt
  have := h b.length hlt
  rw [List.getElem?_eq_none (Nat.le_refl _), List.getElem?_eq_getElem hlt] at this
  cases this

theorem Begins.take {b p : List Nat} (h : Begins b p) : b.take p.length = p := by
  apply List.ext_getElem?
  intro j
  rw [List.getElem?_take]
  by_cases hj : j < p.length
  · rw [if_pos hj, h j hj]
  · rw [if_neg hj, List.getElem?_eq_none (by omega)]

/-- What is compared when the first shape isn't shorter. -/
theorem eqPart_begins {b p c : List Nat} (h : Begins b p) (hl : c.length = p.length) :
    (c = p → eqPart b c c.length = .ok ()) ∧ (c ≠ p → eqPart b c c.length = .err) := by
  have hle := h.le
  have ht : b.take c.length = p := by rw [hl]; exact h.take
  unfold eqPart
  rw [if_neg (by omega), ht, List.take_length]
  exact ⟨fun e => if_pos e.symm, fun e => if_neg (fun he => e he.symm)⟩

/-! ## A line -/

theorem checkLine_spec (tsh tsh0 q t : List Nat) (r1 : Nat) (h1 : ∀ n, Begins (tsh.set q.length n) (q ++ n :: t)) (h0 : Begins tsh0 (q ++ t)) (hr : r1 = q.length + 1 + t.length) :
    ∀ rest : List (Option Nat × Val E),
    ((∀ p ∈ rest, p.2.sh = q ++ (p.1.toList ++ t)) → checkLine tsh tsh0 q.length r1 rest = .ok ()) ∧
    ((¬ ∀ p ∈ rest, p.2.sh = q ++ (p.1.toList ++ t)) → checkLine tsh tsh0 q.length r1 rest = .err)
  | [] => ⟨fun _ => rfl, fun h => absurd (fun _ hp => by cases hp) h⟩
  | (l, c) :: rest => by
    obtain ⟨ih1, ih2⟩ := checkLine_spec tsh tsh0 q t r1 h1 h0 hr rest
    have key : ∃ b : List Nat, Begins b (q ++ (l.toList ++ t)) ∧ checkLine tsh tsh0 q.length r1 ((l, c) :: rest) =
        if rank c ≠ (q ++ (l.toList ++ t)).length then .err else (eqPart b c.sh (rank c)).bind fun _ => checkLine tsh tsh0 q.length r1 rest := by
      cases l with
      | none =>
        refine ⟨tsh0, h0, ?_⟩
        show (if rank c + 1 ≠ r1 then _ else (eqPart tsh0 c.sh (rank c)).bind _) = _
        have hl : (q ++ ((none : Option Nat).toList ++ t)).length = q.length + t.length := by
          rw [List.length_append]; rfl
        rw [hl]
        by_cases h : rank c + 1 ≠ r1
        · rw [if_pos h, if_pos (by omega)]
        · rw [if_neg h, if_neg (by omega)]
      | some n =>
        refine ⟨tsh.set q.length n, h1 n, ?_⟩
        show (if rank c + 0 ≠ r1 then _ else (eqPart (tsh.set q.length n) c.sh (rank c)).bind _) = _
        have hl : (q ++ ((some n : Option Nat).toList ++ t)).length = q.length + (t.length + 1) := by
          rw [List.length_append]; rfl
        rw [hl]
        by_cases h : rank c + 0 ≠ r1
        · rw [if_pos h, if_pos (by omega)]
        · rw [if_neg h, if_neg (by omega)]
    obtain ⟨b, hb, e⟩ := key
    rw [e]
    by_cases hl : rank c = (q ++ (l.toList ++ t)).length
    · obtain ⟨e1, e2⟩ := eqPart_begins hb hl
      rw [if_neg (by omega)]
      by_cases hs : c.sh = q ++ (l.toList ++ t)
      · rw [show eqPart b c.sh (rank c) = _ from e1 hs]
        refine ⟨fun h => ih1 fun p hp => h p (List.mem_cons_of_mem _ hp), fun h => ih2 fun hall => h fun p hp => ?_⟩
        rcases List.mem_cons.1 hp with rfl | hp
        · exact hs
        · exact hall p hp
      · rw [show eqPart b c.sh (rank c) = _ from e2 hs]
        exact ⟨fun h => absurd (h _ (List.mem_cons_self ..)) hs, fun _ => rfl⟩
    · rw [if_pos hl]
      refine ⟨fun h => absurd (congrArg List.length (h _ (List.mem_cons_self ..))) hl, fun _ => rfl⟩

/-- What's left of the root's axes. -/
def left (a0 : Bool) (t : List Nat) : List Nat := if a0 then t.tail else t

theorem checkBase_spec (junk q t : List Nat) (a0 : Bool) (base : Val E) (rest : List (Option Nat × Val E)) (hb : base.sh = q ++ t) (hr : q.length + t.length < 255)
    (ht : a0 = true → t ≠ []) (hall : a0 = false → ∀ a ∈ t, ∀ b ∈ t, a = b) (hj : q.length + t.length + (if a0 then 0 else 1) ≤ junk.length) (hj0 : 0 < junk.length) :
    ((∀ p ∈ rest, p.2.sh = q ++ (p.1.toList ++ left a0 t)) → checkBase junk t.length a0 base rest = .ok ()) ∧
    ((¬ ∀ p ∈ rest, p.2.sh = q ++ (p.1.toList ++ left a0 t)) → checkBase junk t.length a0 base rest = .err) := by
  have hrk : rank base = q.length + t.length := by rw [rank, hb, List.length_append]
  unfold checkBase
  dsimp only
  rw [hrk, if_neg (by omega)]
  have hlr : (if q.length + t.length ≠ 0 then (q.length + t.length + 2^8 - t.length) % 2^8 else 0) = q.length := by
    by_cases h : q.length + t.length ≠ 0
    · rw [if_pos h]; omega
    · rw [if_neg h]; omega
  rw [hlr]
  have hput : (shput base.sh junk).length = junk.length := by
    unfold shput
    rw [List.length_append, List.length_drop, hb, List.length_append]; omega
  have hget : ∀ j, j < q.length + t.length → (shput base.sh junk)[j]? = (q ++ t)[j]? := by
    intro j hjj
    unfold shput
    rw [hb, List.getElem?_append_left (by rw [List.length_append]; exact hjj)]
  have hleft : (left a0 t).length = t.length - (if a0 then 1 else 0) := by
    unfold left
    cases a0
    · rfl
    · exact List.length_tail
  refine checkLine_spec _ _ q (left a0 t) _ ?_ ?_ ?_ rest
  · intro n j hjl
    rw [List.length_append, List.length_cons, hleft] at hjl
    cases a0 with
    | true =>
      have ht := ht rfl
      obtain ⟨u, t', rfl⟩ : ∃ u t', t = u :: t' := by
        cases t with
        | nil => exact absurd rfl ht
        | cons u t' => exact ⟨u, t', rfl⟩
      rw [if_neg (by simp)]
      simp only [if_true, List.length_cons] at hjl hj
      rw [List.getElem?_set, hput]
      show _ = (q ++ n :: t')[j]?
      by_cases h : q.length = j
      · subst h
        rw [if_pos rfl, if_pos (by omega), List.getElem?_append_right (Nat.le_refl _), Nat.sub_self]; rfl
      · rw [if_neg h, hget j (by rw [List.length_cons]; omega)]
        rcases Nat.lt_or_gt_of_ne h with h | h
        · rw [List.getElem?_append_right (by omega), List.getElem?_append_right (by omega)]
          obtain ⟨k, hk⟩ : ∃ k, j - q.length = k + 1 := ⟨j - q.length - 1, by omega⟩
          rw [hk]; rfl
        · rw [List.getElem?_append_left h, List.getElem?_append_left h]
    | false =>
      have hall := hall rfl
      simp only [Bool.false_eq_true, if_false] at hjl hj
      show (List.set (if q.length + t.length ≠ 0 ∧ true = true then _ else _) _ _)[j]? = (q ++ n :: t)[j]?
      by_cases h0 : q.length + t.length ≠ 0
      · rw [if_pos ⟨h0, rfl⟩, List.getElem?_set, shcpy_length, hput]
        by_cases h : q.length = j
        · subst h
          rw [if_pos rfl, if_pos (by omega), List.getElem?_append_right (Nat.le_refl _), Nat.sub_self]; rfl
        · rw [if_neg h, shcpy_up _ _ _ (by omega)]
          rcases Nat.lt_or_gt_of_ne h with h | h
          · rw [if_pos (by omega), hget _ (by omega), List.getElem?_append_right (Nat.le_refl _), List.getElem?_append_right (by omega), Nat.sub_self]
            obtain ⟨k, hk⟩ : ∃ k, j - q.length = k + 1 := ⟨j - q.length - 1, by omega⟩
            rw [hk, List.getElem?_cons_succ, List.getElem?_eq_getElem (by omega), List.getElem?_eq_getElem (by omega)]
            exact congrArg some (hall _ (List.getElem_mem _) _ (List.getElem_mem _))
          · rw [if_neg (by omega), hget _ (by omega), List.getElem?_append_left h, List.getElem?_append_left h]
      · rw [if_neg (fun h => h0 h.1), List.getElem?_set, hput, if_pos (by omega), if_pos (by omega)]
        have hq : q = [] := List.length_eq_zero_iff.1 (by omega)
        have ht' : j = 0 := by omega
        subst ht' hq; rfl
  · intro j hjl
    rw [List.length_append, hleft] at hjl
    cases a0 with
    | true =>
      have ht := ht rfl
      obtain ⟨u, t', rfl⟩ : ∃ u t', t = u :: t' := by
        cases t with
        | nil => exact absurd rfl ht
        | cons u t' => exact ⟨u, t', rfl⟩
      simp only [if_true, List.length_cons] at hjl hj
      rw [if_pos ⟨by rw [List.length_cons]; omega, rfl⟩, shcpy_down _ _ _ (by rw [hput, List.length_cons]; omega)]
      show _ = (q ++ t')[j]?
      by_cases h : q.length ≤ j
      · rw [if_pos ⟨h, by rw [List.length_cons]; omega⟩, hget _ (by rw [List.length_cons]; omega), List.getElem?_append_right (by omega), List.getElem?_append_right h]
        rw [show j + 1 - q.length = (j - q.length) + 1 by omega]; rfl
      · rw [if_neg (by omega), hget _ (by rw [List.length_cons]; omega), List.getElem?_append_left (by omega), List.getElem?_append_left (by omega)]
    | false =>
      simp only [Bool.false_eq_true, if_false] at hjl
      rw [if_neg (by simp), hget _ (by omega)]; rfl
  · rw [hleft]
    cases a0 with
    | true =>
      have := List.length_pos_iff.2 (ht rfl)
      simp only [if_true]; omega
    | false => simp only [Bool.false_eq_true, if_false]; omega

end Verif.Join
