import Verif.Pervade.Model
import Verif.Rotate.Basic
/-!
# Each: lemmas
-/
namespace Verif.Pervade
open Verif.Rotate (prod prod_append)

/-! ## Loops -/

theorem fill_mapM {m : Type → Type} [Monad m] [LawfulMonad m] {α : Type} (f : Nat → m α) : ∀ n i, fill f n i = (List.range' i n).mapM f
  | 0, i => by rw [fill, List.range'_zero, List.mapM_nil]
  | n+1, i => by
    rw [fill, List.range'_succ, List.mapM_cons, fill_mapM f n (i+1)]

theorem fill_range {m : Type → Type} [Monad m] [LawfulMonad m] {α : Type} (f : Nat → m α) (n : Nat) : fill f n 0 = (List.range n).mapM f := by
  rw [fill_mapM, List.range_eq_range']

theorem mapM_congr {m : Type → Type} [Monad m] [LawfulMonad m] {α β : Type} {f g : α → m β} : ∀ {l : List α}, (∀ a ∈ l, f a = g a) → l.mapM f = l.mapM g
  | [], _ => rfl
  | a :: l, h => by
    rw [List.mapM_cons, List.mapM_cons, h a List.mem_cons_self, mapM_congr fun b hb => h b (List.mem_cons_of_mem _ hb)]

/-- A loop within a loop. -/
theorem nested {m : Type → Type} [Monad m] [LawfulMonad m] {α : Type} (g : Nat → m α) (ext : Nat) : ∀ k,
    (do let r ← (List.range k).mapM (fun i => (List.range ext).mapM fun j => g (i*ext+j)); pure r.flatten) = (List.range (k*ext)).mapM g
  | 0 => by simp
  | k+1 => by
    have e : List.range ((k+1)*ext) = List.range (k*ext) ++ (List.range ext).map (k*ext + ·) := by
      rw [Nat.succ_mul, List.range_add]
    rw [e, List.mapM_append, ← nested g ext k, List.range_succ, List.mapM_append, List.mapM_cons, List.mapM_nil, List.mapM_map]
    simp [Function.comp_def]

/-! ## Which elements -/

theorem sh_atom {v : V} (h : v.isArr = false) : v.sh = [] := by
  cases v <;> first | rfl | cases h

theorem Agree.of_prefix (s t : List Nat) : Agree s (s ++ t) := by
  unfold Agree
  rw [Nat.min_eq_left (by rw [List.length_append]; omega), List.take_left', List.take_length]
  rfl

theorem Agree.symm {s t : List Nat} (h : Agree s t) : Agree t s := by
  unfold Agree at *
  rw [Nat.min_comm]
  exact h.symm

/-- Shapes that agree. -/
theorem Agree.cases {s t : List Nat} (h : Agree s t) : (∃ u, t = s ++ u ∧ big s t = t) ∨ (∃ u, s = t ++ u ∧ u ≠ [] ∧ big s t = s) := by
  unfold Agree at h
  unfold big
  by_cases l : s.length > t.length
  · right
    rw [Nat.min_eq_right (by omega), List.take_length] at h
    refine ⟨s.drop t.length, ?_, ?_, if_pos l⟩
    · conv => lhs; rw [← List.take_append_drop t.length s, h]
    · intro e
      have := congrArg List.length e
      rw [List.length_drop] at this
      simp at this
      omega
  · left
    rw [Nat.min_eq_left (by omega), List.take_length] at h
    refine ⟨t.drop s.length, ?_, if_neg l⟩
    conv => lhs; rw [← List.take_append_drop s.length t, ← h]

theorem big_self (s : List Nat) : big s s = s := by unfold big; rw [if_neg (by omega)]

theorem cell_same {v : V} (h : v.isArr = true) (i : Nat) : cell v v.sh i = v.get i := by
  unfold cell
  rw [if_pos h, List.drop_length, prod, Nat.div_one]

theorem cell_atom {v : V} (h : v.isArr = false) (sh : List Nat) (i : Nat) : cell v sh i = v := by
  unfold cell
  rw [h]; rfl

/-- An array of rank 0 is used as its element. -/
theorem cell_unit {v : V} (h : v.isArr = true) (h0 : v.sh.length = 0) {sh : List Nat} {i : Nat} (hi : i < prod sh) : cell v sh i = v.get 0 := by
  unfold cell
  rw [if_pos h, h0, List.drop_zero, Nat.div_eq_of_lt hi]

/-- Each calls its operand on the elements that belong together, in the order of the indices of the result. -/
theorem eachd_eq {m : Type → Type} [Monad m] [LawfulMonad m] (f : V → V → m V) {w x : V} (hw : Full w) (hx : Full x) :
    eachd f w x =
      if Agree w.sh x.sh then
        some (do
          let r ← (List.range (prod (big w.sh x.sh))).mapM fun i => f (cell w (big w.sh x.sh) i) (cell x (big w.sh x.sh) i)
          pure (.boxed (big w.sh x.sh) r))
      else none := by
  have rk : ∀ v : V, (if v.isArr then v.sh.length else 0) = v.sh.length := by
    intro v
    cases h : v.isArr
    · rw [sh_atom h]; rfl
    · rfl
  have un : ∀ v : V, v.sh.length ≠ 0 → (if (v.isArr && v.sh.length == 0) = true then v.get 0 else v) = v := by
    intro v h
    rw [if_neg]
    rw [Bool.and_eq_true, beq_iff_eq]
    exact fun e => h e.2
  have un0 : ∀ v : V, v.sh.length = 0 → ∀ {sh : List Nat} {i : Nat}, i < prod sh →
      (if (v.isArr && v.sh.length == 0) = true then v.get 0 else v) = cell v sh i := by
    intro v h sh i hi
    cases ha : v.isArr
    · rw [cell_atom ha]; rfl
    · rw [cell_unit ha h hi, h]; rfl
  have arr : ∀ v : V, v.sh.length ≠ 0 → v.isArr = true := by
    intro v h
    cases ha : v.isArr
    · rw [sh_atom ha] at h; exact absurd rfl h
    · rfl
  unfold eachd
  simp only [rk]
  have w0 : w.sh.length = 0 → ∀ {sh : List Nat} {i : Nat}, i < prod sh → (if (w.isArr && w.sh.length == 0) = true then w.get 0 else w) = cell w sh i := fun h => un0 w h
  have x0 : x.sh.length = 0 → ∀ {sh : List Nat} {i : Nat}, i < prod sh → (if (x.isArr && x.sh.length == 0) = true then x.get 0 else x) = cell x sh i := fun h => un0 x h
  have w1 := un w
  have x1 := un x
  generalize (if (w.isArr && w.sh.length == 0) = true then w.get 0 else w) = w' at *
  generalize (if (x.isArr && x.sh.length == 0) = true then x.get 0 else x) = x' at *
  have empty : ∀ v : V, Full v → v.sh.length ≠ 0 → v.els.length = 0 → (if v.sh.length = 1 then [0] else v.sh) = v.sh := by
    intro v hv hl he
    by_cases h : v.sh.length = 1
    · rw [if_pos h]
      have p := hv (arr v hl)
      rw [he] at p
      cases e : v.sh with
      | nil => rw [e] at h; cases h
      | cons a l =>
        rw [e] at h p
        have : l = [] := List.length_eq_zero_iff.1 (Nat.succ.inj h)
        subst this
        have : prod [a] = a := by rw [prod, prod, Nat.mul_one]
        rw [← this, ← p]
    · rw [if_neg h]
  by_cases c : w.sh.length > x.sh.length
  · simp only [decide_eq_true c, if_true]
    have bg : big w.sh x.sh = w.sh := if_pos c
    have wn : w.sh.length ≠ 0 := by omega
    have wa := arr w wn
    rw [if_neg wn, bg]
    have mn : min w.sh.length x.sh.length = x.sh.length := Nat.min_eq_right (by omega)
    have ag : (x.sh.length ≠ 0 ∧ w'.sh.take x.sh.length ≠ x'.sh.take x.sh.length) ↔ ¬ Agree w.sh x.sh := by
      unfold Agree
      rw [mn, w1 wn]
      by_cases xz : x.sh.length = 0
      · rw [xz]
        simp
      · rw [x1 xz]
        exact ⟨fun h => h.2, fun h => ⟨xz, h⟩⟩
    by_cases A : Agree w.sh x.sh
    · rw [if_neg (fun h => ag.1 h A), if_pos A, w1 wn]
      have lw := hw wa
      by_cases z : w.els.length = 0
      · rw [if_pos z, empty w hw wn z, ← lw, z, List.range_zero, List.mapM_nil]
        simp
      · rw [if_neg z, if_neg (by omega), if_neg wn, lw]
        by_cases xz : x.sh.length = 0
        · rw [if_pos xz, fill_range]
          congr 2
          apply mapM_congr
          intro i hi
          rw [cell_same wa, x0 xz (List.mem_range.1 hi)]
        · rw [if_neg xz, x1 xz]
          have xa := arr x xz
          obtain ⟨u, e, _⟩ | ⟨u, e, hu, _⟩ := A.cases
          · rw [e, List.length_append] at c; omega
          · have lx := hx xa
            have pw : prod w.sh = prod x.sh * prod u := by rw [e, prod_append]
            have xp : 0 < prod x.sh := by
              apply Nat.pos_of_ne_zero
              intro h; rw [h, Nat.zero_mul] at pw; omega
            have du : w.sh.drop x.sh.length = u := by rw [e, List.drop_left']; rfl
            have q : prod w.sh / x.els.length = prod u := by rw [lx, pw, Nat.mul_div_cancel_left _ xp]
            rw [q, lx]
            rw [pw, ← nested]
            simp only [fill_range, bind_assoc, pure_bind]
            congr 2
            apply mapM_congr
            intro i _
            apply mapM_congr
            intro j hj
            have hj := List.mem_range.1 hj
            rw [cell_same wa]
            unfold cell
            rw [if_pos xa, du]
            congr 2
            rw [Nat.mul_comm i, Nat.mul_add_div (by omega), Nat.div_eq_of_lt hj, Nat.add_zero]
    · rw [if_pos (ag.2 A), if_neg A]
  · simp only [decide_eq_false c, Bool.false_eq_true, if_false]
    have bg : big w.sh x.sh = x.sh := if_neg c
    have mn : min w.sh.length x.sh.length = w.sh.length := Nat.min_eq_left (by omega)
    rw [bg]
    by_cases xz : x.sh.length = 0
    · have wz : w.sh.length = 0 := by omega
      have A : Agree w.sh x.sh := by rw [List.length_eq_zero_iff.1 wz, List.length_eq_zero_iff.1 xz]; rfl
      rw [if_pos xz, if_pos A, List.length_eq_zero_iff.1 xz]
      have p1 : prod [] = 1 := rfl
      rw [p1, List.range_one, List.mapM_cons, List.mapM_nil, w0 wz (sh := []) (i := 0) (by decide), x0 xz (sh := []) (i := 0) (by decide)]
      simp
    · have xa := arr x xz
      have lx := hx xa
      rw [if_neg xz, x1 xz]
      have ag : (w.sh.length ≠ 0 ∧ w'.sh.take w.sh.length ≠ x.sh.take w.sh.length) ↔ ¬ Agree w.sh x.sh := by
        unfold Agree
        rw [mn]
        by_cases wz : w.sh.length = 0
        · rw [wz]
          simp
        · rw [w1 wz]
          exact ⟨fun h => h.2, fun h => ⟨wz, h⟩⟩
      by_cases A : Agree w.sh x.sh
      · rw [if_neg (fun h => ag.1 h A), if_pos A]
        by_cases z : x.els.length = 0
        · rw [if_pos z, empty x hx xz z, ← lx, z, List.range_zero, List.mapM_nil]
          simp
        · rw [if_neg z, lx]
          obtain ⟨u, e, _⟩ | ⟨u, e, hu, _⟩ := A.cases
          · by_cases eq : w.sh.length = x.sh.length
            · have wz : w.sh.length ≠ 0 := by omega
              have wa := arr w wz
              have es : w.sh = x.sh := by
                rw [e, List.length_append] at eq
                have : u = [] := List.length_eq_zero_iff.1 (by omega)
                rw [e, this, List.append_nil]
              rw [if_pos eq, fill_range, w1 wz]
              congr 2
              apply mapM_congr
              intro i hi
              rw [cell_same xa, ← es, cell_same wa]
            · rw [if_neg eq]
              by_cases wz : w.sh.length = 0
              · rw [if_pos wz, fill_range]
                congr 2
                apply mapM_congr
                intro i hi
                rw [cell_same xa, w0 wz (List.mem_range.1 hi)]
              · rw [if_neg wz, w1 wz]
                have wa := arr w wz
                have lw := hw wa
                have px : prod x.sh = prod w.sh * prod u := by rw [e, prod_append]
                have wp : 0 < prod w.sh := by
                  apply Nat.pos_of_ne_zero
                  intro h; rw [h, Nat.zero_mul] at px; omega
                have du : x.sh.drop w.sh.length = u := by rw [e, List.drop_left']; rfl
                have q : prod x.sh / w.els.length = prod u := by rw [lw, px, Nat.mul_div_cancel_left _ wp]
                rw [if_neg xz, q, lw]
                rw [px, ← nested]
                simp only [fill_range, bind_assoc, pure_bind]
                congr 2
                apply mapM_congr
                intro i _
                apply mapM_congr
                intro j hj
                have hj := List.mem_range.1 hj
                rw [cell_same xa]
                unfold cell
                rw [if_pos wa, du]
                congr 2
                rw [Nat.mul_comm i, Nat.mul_add_div (by omega), Nat.div_eq_of_lt hj, Nat.add_zero]
          · rw [e, List.length_append] at c
            have : 0 < u.length := List.length_pos_iff.2 hu
            omega
      · rw [if_pos (ag.2 A), if_neg A]

end Verif.Pervade
