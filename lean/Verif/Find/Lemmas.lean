import Verif.Find.Model
import Verif.Windows.Main
/-!
# Find: the loop over `𝕨`
-/
namespace Verif.Find
open Verif.Rotate Verif.Windows

variable {α : Type} (eq : α → α → Bool)

/-- The first `n` elements of `w` are at `j` in `x`. -/
def Upto (w x : List α) (n j : Nat) : Prop := ∀ k < n, ∃ u v, w[k]? = some u ∧ x[j + k]? = some v ∧ eq v u = true

/-- What is in the result after `n` elements. -/
def Inv (w x : List α) (rl n : Nat) (r : List Bool) : Prop := r.length = rl ∧ ∀ j < rl, ∃ b, r[j]? = some b ∧ (b = true ↔ Upto eq w x n j)

theorem all_zip : ∀ {a ws : List α}, a.length = ws.length →
    ((List.zipWith eq a ws).all id = true ↔ ∀ (k : Nat) u, ws[k]? = some u → ∃ v, a[k]? = some v ∧ eq v u = true)
  | [], [], _ => ⟨fun _ k u h => (by cases h), fun _ => rfl⟩
  | a :: as, w :: ws, h => by
    rw [List.zipWith_cons_cons, List.all_cons, Bool.and_eq_true, all_zip (Nat.succ.inj h)]
    constructor
    · rintro ⟨h1, h2⟩ k u hk
      cases k with
      | zero => cases hk; exact ⟨a, rfl, h1⟩
      | succ k => exact h2 k u hk
    · intro h
      refine ⟨?_, fun k u hk => h (k + 1) u hk⟩
      obtain ⟨v, e, hv⟩ := h 0 w rfl
      cases e
      exact hv

theorem matchAt_spec {ws x : List α} {p : Nat} (h : p + ws.length ≤ x.length) :
    ∃ b, matchAt eq ws x p = some b ∧ (b = true ↔ ∀ (k : Nat) u, ws[k]? = some u → ∃ v, x[p + k]? = some v ∧ eq v u = true) := by
  refine ⟨_, if_pos h, ?_⟩
  rw [all_zip eq (by rw [List.length_take, List.length_drop]; omega)]
  refine forall_congr' fun k => forall_congr' fun u => ⟨fun f hk => ?_, fun f hk => ?_⟩
  all_goals
    obtain ⟨hlt, -⟩ := List.getElem?_eq_some_iff.1 hk
    have := f hk
    rw [List.getElem?_take_of_lt hlt, List.getElem?_drop] at *
    exact this

theorem verify_spec {ws x : List α} {i : Nat} : ∀ (js : List Nat) (r : List Bool), (∀ j ∈ js, i + j + ws.length ≤ x.length) →
    ∃ r', verify eq ws x i js r = some r' ∧ r'.length = r.length ∧ ∀ (j : Nat) b, r[j]? = some b → ∃ b', r'[j]? = some b' ∧
      (b' = true ↔ b = true ∧ (j ∈ js → ∀ (k : Nat) u, ws[k]? = some u → ∃ v, x[i + j + k]? = some v ∧ eq v u = true))
  | [], r, _ => ⟨r, rfl, rfl, fun j b h => ⟨b, h, by simp⟩⟩
  | j0 :: js, r, h => by
    obtain ⟨b0, h0, hb0⟩ := matchAt_spec eq (h j0 (by simp))
    obtain ⟨r', g1, g2, g3⟩ := verify_spec js (if b0 then r else r.set j0 false) fun j hj => h j (by simp [hj])
    rw [verify, h0]
    refine ⟨r', g1, by rw [g2]; split <;> simp, fun j b hb => ?_⟩
    have hset : (if b0 then r else r.set j0 false)[j]? = some (if b0 = true ∨ j ≠ j0 then b else false) := by
      cases b0 with
      | true => simpa using hb
      | false =>
        obtain ⟨hlt, -⟩ := List.getElem?_eq_some_iff.1 hb
        show (r.set j0 false)[j]? = _
        by_cases c : j = j0
        · subst c
          rw [List.getElem?_set_self hlt]
          simp
        · rw [List.getElem?_set_ne (fun e => c e.symm), hb]
          simp [c]
    obtain ⟨b', e, hb'⟩ := g3 j _ hset
    refine ⟨b', e, hb'.trans ?_⟩
    by_cases c : j = j0
    · subst c
      rw [← hb0]
      cases b0 <;> simp
    · rw [if_pos (.inr c)]
      simp [c]

theorem bitSum_zero {r : List Bool} (h : bitSum r = 0) : ∀ (j : Nat) b, r[j]? = some b → b = false := by
  intro j b hb
  have : r.filter id = [] := List.length_eq_zero_iff.1 h
  rw [List.filter_eq_nil_iff] at this
  have := this b (List.mem_of_getElem? hb)
  simpa using this

theorem mem_indices {r : List Bool} {j : Nat} : j ∈ indices r ↔ r[j]? = some true := by
  unfold indices
  rw [List.mem_filter, List.mem_range, List.getD_eq_getElem?_getD]
  constructor
  · rintro ⟨h1, h2⟩
    rw [List.getElem?_eq_getElem h1] at h2 ⊢
    exact congrArg some h2
  · intro h
    obtain ⟨h1, -⟩ := List.getElem?_eq_some_iff.1 h
    exact ⟨h1, by rw [h]; rfl⟩

theorem cmpAS_spec {x : List α} {i rl : Nat} {v : α} (h : i + rl ≤ x.length) :
    ∃ e, cmpAS eq x i rl v = some e ∧ e.length = rl ∧ ∀ j < rl, ∃ y, x[j + i]? = some y ∧ e[j]? = some (eq y v) := by
  refine ⟨_, if_pos h, by simp; omega, fun j hj => ?_⟩
  refine ⟨x[j + i], List.getElem?_eq_getElem (by omega), ?_⟩
  rw [List.getElem?_map, List.getElem?_take_of_lt hj, List.getElem?_drop, Nat.add_comm i j, List.getElem?_eq_getElem (by omega)]
  rfl

theorem upto_succ {w x : List α} {n j : Nat} {u : α} (hu : w[n]? = some u) :
    Upto eq w x (n + 1) j ↔ Upto eq w x n j ∧ ∃ v, x[j + n]? = some v ∧ eq v u = true := by
  constructor
  · intro h
    refine ⟨fun k hk => h k (by omega), ?_⟩
    obtain ⟨u', v, h1, h2, h3⟩ := h n (by omega)
    rw [hu] at h1
    cases h1
    exact ⟨v, h2, h3⟩
  · rintro ⟨h1, v, h2, h3⟩ k hk
    by_cases c : k = n
    · subst c
      exact ⟨u, v, hu, h2, h3⟩
    · exact h1 k (by omega)

theorem loop_spec (bitW : Bool) {w x : List α} {rl : Nat} (hrl : rl + w.length = x.length + 1) : ∀ (rest : List α) (i : Nat) (r : List Bool),
    rest = w.drop i → i ≤ w.length → Inv eq w x rl i r → ∃ r', loop eq bitW x rl i rest r = some r' ∧ Inv eq w x rl w.length r'
  | [], i, r, hd, hi, hr => by
    have : i = w.length := by
      have := congrArg List.length hd
      rw [List.length_drop, List.length_nil] at this
      omega
    subst this
    exact ⟨r, rfl, hr⟩
  | v :: rest, i, r, hd, hi, hr => by
    have hilt : i < w.length := by
      have := congrArg List.length hd
      rw [List.length_drop, List.length_cons] at this
      omega
    have hwi : w[i]? = some v := by
      have : (w.drop i)[0]? = some v := by rw [← hd]; rfl
      rwa [List.getElem?_drop] at this
    obtain ⟨e, h1, h2, h3⟩ := cmpAS_spec eq (x := x) (i := i) (rl := rl) (v := v) (by omega)
    rw [loop, h1]
    dsimp only
    have hinv : Inv eq w x rl (i + 1) (List.zipWith and r e) := by
      refine ⟨by rw [List.length_zipWith, hr.1, h2, Nat.min_self], fun j hj => ?_⟩
      obtain ⟨b, g1, g2⟩ := hr.2 j hj
      obtain ⟨y, g3, g4⟩ := h3 j hj
      refine ⟨b && eq y v, by rw [List.getElem?_zipWith, g1, g4], ?_⟩
      rw [Bool.and_eq_true, upto_succ eq hwi, g2]
      refine and_congr Iff.rfl ⟨fun h => ⟨y, g3, h⟩, ?_⟩
      rintro ⟨y', e, h⟩
      rw [g3] at e
      cases e
      exact h
    generalize List.zipWith and r e = r2 at hinv
    by_cases c1 : bitSum r2 = 0
    · rw [if_pos c1]
      refine ⟨r2, rfl, hinv.1, fun j hj => ?_⟩
      obtain ⟨b, g1, g2⟩ := hinv.2 j hj
      refine ⟨b, g1, ?_⟩
      have hb := bitSum_zero c1 j b g1
      subst hb
      refine ⟨(by intro h; cases h), fun h => g2.2 fun k hk => h k (by omega)⟩
    · rw [if_neg c1]
      split
      · obtain ⟨r', f1, f2, f3⟩ := verify_spec eq (ws := v :: rest) (x := x) (i := i) (indices r2) r2 fun j hj => by
          obtain ⟨hlt, -⟩ := List.getElem?_eq_some_iff.1 (mem_indices.1 hj)
          rw [hinv.1] at hlt
          rw [hd, List.length_drop]
          omega
        refine ⟨r', f1, f2.trans hinv.1, fun j hj => ?_⟩
        obtain ⟨b, g1, g2⟩ := hinv.2 j hj
        obtain ⟨b', g3, g4⟩ := f3 j b g1
        refine ⟨b', g3, g4.trans ?_⟩
        constructor
        · rintro ⟨hb, hm⟩ k hk
          have hm := hm (mem_indices.2 (by rw [g1, hb]))
          by_cases c : k < i
          · exact g2.1 hb k (by omega)
          · have hwk : (v :: rest)[k - i]? = some w[k] := by
              rw [hd, List.getElem?_drop, Nat.add_sub_cancel' (by omega), List.getElem?_eq_getElem hk]
            obtain ⟨y, q1, q2⟩ := hm (k - i) _ hwk
            rw [show i + j + (k - i) = j + k by omega] at q1
            exact ⟨_, y, List.getElem?_eq_getElem hk, q1, q2⟩
        · intro h
          refine ⟨g2.2 fun k hk => h k (by omega), fun _ k u hu => ?_⟩
          rw [hd, List.getElem?_drop] at hu
          obtain ⟨hlt, -⟩ := List.getElem?_eq_some_iff.1 hu
          obtain ⟨u', y, q1, q2, q3⟩ := h (i + k) hlt
          rw [hu] at q1
          cases q1
          exact ⟨y, by rw [show i + j + k = j + (i + k) by omega]; exact q2, q3⟩
      · refine loop_spec bitW hrl rest (i + 1) r2 ?_ hilt hinv
        rw [← List.drop_drop, ← hd]
        rfl

/-- The list path: the result is at each place whether all of `w` is there. -/
theorem findList_spec (bitW : Bool) {w x : List α} (hx : x.length < 2^32 - 1) :
    ∃ r, findList eq bitW w x = .ok [x.length + 1 - w.length] r ∧ Inv eq w x (x.length + 1 - w.length) w.length r := by
  unfold findList
  by_cases c1 : w.length > x.length
  · rw [if_pos c1, show x.length + 1 - w.length = 0 by omega]
    exact ⟨[], rfl, rfl, fun j hj => by omega⟩
  rw [if_neg c1]
  match w with
  | [] =>
    dsimp only
    rw [Nat.mod_eq_of_lt (by omega)]
    refine ⟨_, rfl, by simp, fun j hj => ⟨true, ?_, by simp [Upto]⟩⟩
    have hj : j < x.length + 1 := hj
    rw [List.getElem?_replicate, if_pos hj]
  | v :: ws =>
    have c1 : ¬ ws.length + 1 > x.length := c1
    dsimp only
    rw [show x.length - (ws.length + 1) + 1 = x.length + 1 - (v :: ws).length by rw [List.length_cons]; omega]
    obtain ⟨e, h1, h2, h3⟩ := cmpAS_spec eq (x := x) (i := 0) (rl := x.length + 1 - (v :: ws).length) (v := v) (by rw [List.length_cons]; omega)
    rw [h1]
    have hinv : Inv eq (v :: ws) x (x.length + 1 - (v :: ws).length) 1 e := by
      refine ⟨h2, fun j hj => ?_⟩
      obtain ⟨y, g3, g4⟩ := h3 j hj
      refine ⟨_, g4, ?_⟩
      rw [upto_succ eq (u := v) (n := 0) rfl]
      refine ⟨fun h => ⟨fun k hk => by omega, y, g3, h⟩, ?_⟩
      rintro ⟨-, y', e, h⟩
      rw [g3] at e
      cases e
      exact h
    obtain ⟨r, f1, f2⟩ := loop_spec eq bitW (w := v :: ws) (x := x) (rl := x.length + 1 - (v :: ws).length) (by rw [List.length_cons]; omega) ws 1 e rfl
      (by rw [List.length_cons]; omega) hinv
    dsimp only
    rw [f1]
    exact ⟨r, rfl, f2⟩

end Verif.Find
