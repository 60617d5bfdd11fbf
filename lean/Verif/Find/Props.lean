import Verif.Find.Lemmas
/-!
# Find: properties
-/
namespace Verif.Find
open Verif.Rotate Verif.Windows

variable {α : Type} {eq : α → α → Bool}

theorem isFind_list {w x : List α} {r : List Bool} (h : Inv eq w x (x.length + 1 - w.length) w.length r) :
    IsFind eq [w.length] w [] [x.length] x [x.length + 1 - w.length] r := by
  refine ⟨rfl, by rw [h.1]; exact (Nat.mul_one _).symm, fun l p hl hp => ?_⟩
  match l, p, hl, hp with
  | [], [j], .nil, .cons hj .nil =>
    obtain ⟨b, h1, h2⟩ := h.2 j hj
    refine ⟨b, ?_, h2.trans ⟨fun hu q hq => ?_, fun hu k hk => ?_⟩⟩
    · show r[j * 1 + 0]? = _
      rw [Nat.mul_one, Nat.add_zero]
      exact h1
    · match q, hq with
      | [k], .cons hk .nil =>
        obtain ⟨u, v, g1, g2, g3⟩ := hu k hk
        refine ⟨u, v, ?_, ?_, g3⟩
        · show w[k * 1 + 0]? = _
          rw [Nat.mul_one, Nat.add_zero]
          exact g1
        · show x[(j + k) * 1 + 0]? = _
          rw [Nat.mul_one, Nat.add_zero]
          exact g2
    · obtain ⟨u, v, g1, g2, g3⟩ := hu [k] (.cons hk .nil)
      have g1 : w[k * 1 + 0]? = some u := g1
      have g2 : x[(j + k) * 1 + 0]? = some v := g2
      rw [Nat.mul_one, Nat.add_zero] at g1 g2
      exact ⟨u, v, g1, g2, g3⟩

/-- **C67**, lists: `𝕨⍷𝕩` is 1 at each place where all of `𝕨` is. -/
theorem find_list (bitW : Bool) {w x : List α} (hx : x.length < 2^32 - 1) :
    ∃ rsh r, find eq true true bitW [w.length] w [x.length] x = .ok rsh r ∧ IsFind eq [w.length] w [] [x.length] x rsh r := by
  obtain ⟨r, h1, h2⟩ := findList_spec eq bitW (w := w) hx
  refine ⟨_, r, ?_, isFind_list h2⟩
  unfold find
  rw [if_neg (by simp), if_pos ⟨rfl, rfl, rfl⟩, if_neg (by simp), h1]

example : find (· == ·) true true false [2] "ab".toList [6] "abcaba".toList = .ok [5] [true, false, false, true, false] := by decide +kernel
-- After one element there's only one place left, and it's verified by itself.
example : find (· == ·) true true false [3] [1, 2, 3] [40] (List.range 40) = .ok [38] ((List.range 38).map (· == 1)) := by decide +kernel

/-- **C67**, one element: an atom or an array of rank 0 is compared with each element. -/
theorem find_unit (typedW typedX bitW : Bool) {v : α} {x : List α} {xsh : List Nat} (hx : x.length = prod xsh) :
    ∃ rsh r, find eq typedW typedX bitW [] [v] xsh x = .ok rsh r ∧ IsFind eq [] [v] xsh [] x rsh r := by
  refine ⟨xsh, x.map fun e => eq e v, ?_, (List.append_nil _).symm, by rw [List.length_map, hx], fun l p hl hp => ?_⟩
  · unfold find
    rw [if_neg (by simp)]
    split
    · rfl
    · rfl
  · match p, hp with
    | [], .nil =>
      have hlt := ravel_lt hl
      refine ⟨eq (x[ravel xsh l]'(by omega)) v, ?_, fun h q hq => ?_, fun h => ?_⟩
      · rw [List.append_nil, List.getElem?_map, List.getElem?_eq_getElem (by omega)]
        rfl
      · cases hq
        refine ⟨v, _, rfl, ?_, h⟩
        show x[ravel (xsh ++ []) (l ++ [])]? = _
        rw [List.append_nil, List.append_nil, List.getElem?_eq_getElem (by omega)]
      · obtain ⟨u, y, g1, g2, g3⟩ := h [] .nil
        cases g1
        have g2 : x[ravel (xsh ++ []) (l ++ [])]? = some y := g2
        rw [List.append_nil, List.append_nil, List.getElem?_eq_getElem (by omega)] at g2
        cases g2
        exact g3

example : find (· == ·) true false false [] [2] [2, 2] [1, 2, 2, 3] = .ok [2, 2] [false, true, true, false] := by decide +kernel

theorem rows_spec {f : List α → Res} {m L : Nat} {P : List α → List Bool → Prop} (hP : ∀ y p, P y p → p.length = L) :
    ∀ (n : Nat) (x : List α) (c : Nat) (r : List Bool), x.length = n * m → (n = 0 → c = L) → (∀ y : List α, y.length = m → ∃ p, f y = .ok [L] p ∧ P y p) →
    ∃ r', rows f m x n c r = .ok [L] (r ++ r') ∧ r'.length = n * L ∧ ∀ i < n, ∃ p, P ((x.drop (i * m)).take m) p ∧ ∀ j < L, r'[i * L + j]? = p[j]?
  | 0, x, c, r, _, hc, _ => by
    refine ⟨[], ?_, by simp, fun i hi => by omega⟩
    rw [hc rfl, List.append_nil]
    rfl
  | n + 1, x, c, r, hx, _, hf => by
    rw [Nat.add_mul, Nat.one_mul] at hx
    obtain ⟨p, h1, h2⟩ := hf (x.take m) (by rw [List.length_take]; omega)
    obtain ⟨r', g1, g2, g3⟩ := rows_spec hP n (x.drop m) L (r ++ p) (by rw [List.length_drop]; omega) (fun _ => rfl) hf
    rw [rows, h1]
    dsimp only
    rw [g1]
    have hl := hP _ _ h2
    refine ⟨p ++ r', by rw [List.append_assoc], by rw [List.length_append, hl, g2, Nat.add_mul, Nat.one_mul, Nat.add_comm], fun i hi => ?_⟩
    cases i with
    | zero =>
      rw [Nat.zero_mul, Nat.zero_mul, List.drop_zero]
      refine ⟨p, h2, fun j hj => ?_⟩
      rw [Nat.zero_add, List.getElem?_append_left (by omega)]
    | succ i =>
      obtain ⟨p', q1, q2⟩ := g3 i (by omega)
      rw [List.drop_drop] at q1
      refine ⟨p', ?_, fun j hj => ?_⟩
      · rw [Nat.add_mul, Nat.one_mul, Nat.add_comm]
        exact q1
      · rw [Nat.add_mul, Nat.one_mul, List.getElem?_append_right (by omega), hl, ← q2 j hj]
        congr 1
        omega

theorem leads_ok : ∀ {sh : List Nat} {ia : Nat}, (∀ k, ia * prod (sh.take k) < 2^32) → leads sh ia = some (ia * prod sh)
  | [], ia, _ => by rw [leads, prod, Nat.mul_one]
  | c :: sh, ia, h => by
    have h1 := h 1
    have h1 : ia * (c * 1) < 2^32 := h1
    rw [Nat.mul_one] at h1
    rw [leads, if_neg (by omega), leads_ok, prod, Nat.mul_assoc]
    intro k
    have := h (k + 1)
    rwa [List.take_succ_cons, prod, ← Nat.mul_assoc] at this

theorem trails_ok : ∀ {wsh tail : List Nat} {ia : Nat}, wsh.length = tail.length → (∀ m ∈ wsh, m < 2^32) → (∀ m ∈ places wsh tail, m < 2^32) →
    (∀ k, ia * prod ((places wsh tail).take k) < 2^32) → trails wsh tail ia = some (places wsh tail, ia * prod (places wsh tail))
  | [], [], ia, _, _, _, _ => by
    show some ([], ia) = some ([], ia * 1)
    rw [Nat.mul_one]
  | m :: wsh, l :: tail, ia, hlen, hw, hp, h => by
    have e : places (m :: wsh) (l :: tail) = (l + 1 - m) :: places wsh tail := rfl
    rw [e] at hp h ⊢
    have hm := hw m (by simp)
    have hl := hp (l + 1 - m) (by simp)
    have hlen := Nat.succ.inj hlen
    have h1 : ia * ((l + 1 - m) * 1) < 2^32 := h 1
    rw [Nat.mul_one] at h1
    have step : ∀ k, ia * (l + 1 - m) * prod ((places wsh tail).take k) < 2^32 := fun k => by
      have := h (k + 1)
      rwa [List.take_succ_cons, prod, ← Nat.mul_assoc] at this
    have ih := trails_ok (ia := ia * (l + 1 - m)) hlen (fun m hm => hw m (by simp [hm])) (fun m hm => hp m (by simp [hm])) step
    rw [trails]
    by_cases c : m > l
    · rw [if_pos c]
      rw [show l + 1 - m = 0 by omega, Nat.mul_zero] at ih
      rw [ih]
      dsimp only
      rw [show l + 1 - m = 0 by omega, prod]
      simp
    · rw [if_neg c]
      have ec : (l + 1 + (2^32 - m)) % 2^32 = l + 1 - m := by omega
      dsimp only
      rw [ec, if_neg (by omega), ih]
      dsimp only
      rw [prod, Nat.mul_assoc]

theorem emptyRes_ok {w x : List α} {wsh lead tail : List Nat} (hlen : wsh.length = tail.length) (hw : w.length = prod wsh) (hws : ∀ m ∈ wsh, m < 2^32)
    (hne : wsh ≠ []) (hs : ∀ s ∈ places wsh tail, s < 2^32) (hp : ∀ k, prod ((lead ++ places wsh tail).take k) < 2^32)
    (hz : prod (lead ++ tail) = 0 ∨ prod (places wsh tail) = 0) :
    ∃ rsh r, emptyRes w.length wsh (lead ++ tail) = .ok rsh r ∧ IsFind eq wsh w lead tail x rsh r := by
  have lp : (places wsh tail).length = wsh.length := by rw [places, List.length_zipWith, ← hlen, Nat.min_self]
  -- if there's a place and 𝕩 is empty, so is 𝕨
  have key : ∀ {wsh tail p : List Nat}, wsh.length = tail.length → prod tail = 0 → InShape (places wsh tail) p → prod wsh = 0 := by
    intro wsh
    induction wsh with
    | nil =>
      intro tail p h1 h2 h3
      cases tail with
      | nil => cases h2
      | cons => cases h1
    | cons m wsh ih =>
      intro tail p h1 h2 h3
      match tail, p, h1, h2, h3 with
      | l :: tail, i :: p, h1, h2, .cons hi h3 =>
        have hi : i < l + 1 - m := hi
        have h2 : l * prod tail = 0 := h2
        rw [prod]
        rcases Nat.mul_eq_zero.1 h2 with h | h
        · rw [show m = 0 by omega, Nat.zero_mul]
        · rw [ih (Nat.succ.inj h1) h h3, Nat.mul_zero]
  have each : ∀ l p, InShape lead l → InShape (places wsh tail) p → ∀ q, ¬ InShape wsh q := by
    intro l p hl hp' q hq
    have h1 := ravel_lt hq
    have h2 := ravel_lt hl
    have h3 := ravel_lt hp'
    rcases hz with h | h
    · rw [prod_append] at h
      rcases Nat.mul_eq_zero.1 h with h | h
      · omega
      · have := key hlen h hp'
        omega
    · omega
  have ones : ∀ n, n = prod (lead ++ places wsh tail) → IsFind eq wsh w lead tail x (lead ++ places wsh tail) (List.replicate n true) := by
    rintro n rfl
    refine ⟨rfl, by simp, fun l p hl hp' => ⟨true, ?_, ?_⟩⟩
    · rw [List.getElem?_replicate, if_pos (ravel_lt (hl.append hp'))]
    · exact ⟨fun _ q hq => absurd hq (each l p hl hp' q), fun _ => rfl⟩
  unfold emptyRes
  by_cases c : (lead ++ tail).length > 1
  · have e : (lead ++ tail).length - wsh.length = lead.length := by rw [List.length_append]; omega
    rw [if_pos c, e, List.take_left, List.drop_left, leads_ok]
    · dsimp only
      rw [Nat.one_mul, trails_ok hlen hws hs]
      · refine ⟨_, _, rfl, ones _ ?_⟩
        rw [prod_append]
      · intro k
        have := hp (lead.length + k)
        rwa [List.take_append, List.take_of_length_le (by omega), Nat.add_sub_cancel_left, prod_append] at this
    · intro k
      rw [Nat.one_mul]
      by_cases c2 : k ≤ lead.length
      · have := hp k
        rwa [List.take_append_of_le_length c2] at this
      · have := hp lead.length
        rw [List.take_left] at this
        rwa [List.take_of_length_le (by omega)]
  · rw [if_neg c]
    match wsh, tail, hlen, hne with
    | [m], [l], _, _ =>
      have : lead = [] := by
        cases lead with
        | nil => rfl
        | cons => simp at c
      subst this
      have hw : w.length = m := by rw [hw]; exact Nat.mul_one m
      have e1 : places [m] [l] = [l + 1 - m] := rfl
      have hz : l = 0 ∨ l + 1 - m = 0 := by
        rcases hz with h | h
        · exact .inl (by have h : l * 1 = 0 := h; omega)
        · exact .inr (by have h : (l + 1 - m) * 1 = 0 := h; omega)
      rw [hw]
      have hval : (if m = 0 then 1 else 0) = l + 1 - m := by
        by_cases c0 : m = 0
        · rw [if_pos c0]; omega
        · rw [if_neg c0]; omega
      dsimp only
      rw [hval]
      exact ⟨_, _, rfl, ones (l + 1 - m) (Nat.mul_one _).symm⟩
    | _ :: _ :: _, _ :: _ :: _, _, _ => simp at c; omega

/-- **C67**, when `𝕩` is empty: all shapes, as long as the lengths of the result, multiplied from the first on, stay below `2⋆32`. -/
theorem find_empty (typedW typedX bitW : Bool) {w : List α} {wsh lead tail : List Nat} (hlen : wsh.length = tail.length) (hw : w.length = prod wsh) (hws : ∀ m ∈ wsh, m < 2^32)
    (hne : wsh ≠ []) (hx : prod (lead ++ tail) = 0) (hs : ∀ s ∈ places wsh tail, s < 2^32) (hp : ∀ k, prod ((lead ++ places wsh tail).take k) < 2^32) :
    ∃ rsh r, find eq typedW typedX bitW wsh w (lead ++ tail) [] = .ok rsh r ∧ IsFind eq wsh w lead tail [] rsh r := by
  have hwl : wsh.length ≠ 0 := fun h => hne (List.length_eq_zero_iff.1 h)
  by_cases c : (lead ++ tail).length = 1 ∧ typedX = true ∧ typedW = true
  · obtain ⟨c1, rfl, rfl⟩ := c
    match wsh, tail, hlen with
    | [], _, _ => exact absurd rfl hne
    | [m], [l], _ =>
      have : lead = [] := by
        cases lead with
        | nil => rfl
        | cons => simp at c1
      subst this
      have hm : w.length = m := by rw [hw]; exact Nat.mul_one m
      have hl : l = 0 := by have h : l * 1 = 0 := hx; omega
      subst hm hl
      exact find_list bitW (x := []) (show 0 < 2^32 - 1 by decide)
    | _ :: _ :: _, _ :: _ :: _, _ => simp at c1; omega
  · unfold find
    rw [if_neg (by rw [List.length_append]; omega), if_neg c, if_neg hwl, if_pos List.length_nil]
    exact emptyRes_ok hlen hw hws hne hs hp (.inl hx)

example : find (α := Nat) (· == ·) false true false [0, 2] [] [2, 0, 3] [] = .ok [2, 1, 2] [true, true, true, true] := by decide +kernel
example : find (α := Nat) (· == ·) true true false [1] [5] [2, 0] [] = .ok [2, 0] [] := by decide +kernel

/-- **C67**, a list in each row of a table. -/
theorem find_table (bitW : Bool) {w x : List α} {n m : Nat} (hx : x.length = n * m) (hx32 : x.length < 2^32) (hw32 : w.length < 2^32) (hn : n < 2^32) (hm : m < 2^32 - 1)
    (hp : n * (m + 1 - w.length) < 2^32) :
    ∃ rsh r, find eq true true bitW [w.length] w [n, m] x = .ok rsh r ∧ IsFind eq [w.length] w [n] [m] x rsh r := by
  have hpl : ∀ k, prod (([n] ++ places [w.length] [m]).take k) < 2^32 := by
    intro k
    match k with
    | 0 => exact (by decide : 1 < 2^32)
    | 1 => show n * 1 < _; omega
    | k + 2 => show n * ((m + 1 - w.length) * prod (([] : List Nat).take k)) < 2^32; rw [List.take_nil]; show n * ((m + 1 - w.length) * 1) < _; rwa [Nat.mul_one]
  have hs : ∀ s ∈ places [w.length] [m], s < 2^32 := fun s hs => by
    have : s = m + 1 - w.length := by simpa [places] using hs
    omega
  by_cases c0 : x.length = 0
  · have := List.length_eq_zero_iff.1 c0
    subst this
    exact find_empty true true bitW (w := w) (wsh := [w.length]) (lead := [n]) (tail := [m]) rfl (Nat.mul_one _).symm (by simpa using hw32) nofun
      (by show n * (m * 1) = 0; rw [Nat.mul_one]; exact hx.symm) hs hpl
  unfold find
  rw [if_neg (by simp), if_neg (by simp), if_neg (by simp), if_neg c0, if_pos ⟨rfl, rfl⟩]
  rw [show ([n, m] : List Nat).getD 1 0 = m from rfl, show ([n, m] : List Nat).getD 0 0 = n from rfl]
  by_cases c1 : w.length > m
  · rw [if_pos c1]
    exact emptyRes_ok (w := w) (x := x) (wsh := [w.length]) (lead := [n]) (tail := [m]) rfl (Nat.mul_one _).symm (by simpa using hw32) nofun hs hpl
      (.inr (by show (m + 1 - w.length) * 1 = 0; omega))
  rw [if_neg c1, if_pos ⟨rfl, rfl⟩]
  have hn0 : n ≠ 0 := fun h => c0 (by rw [hx, h, Nat.zero_mul])
  obtain ⟨r, h1, h2, h3⟩ := rows_spec (f := findList eq bitW w) (m := m) (L := m + 1 - w.length) (P := fun y p => Inv eq w y (m + 1 - w.length) w.length p)
    (fun y p h => h.1) n x 0 [] hx (fun h => absurd h hn0) (fun y hy => by
      have := findList_spec eq bitW (w := w) (x := y) (by omega)
      rwa [hy] at this)
  rw [h1]
  refine ⟨_, _, rfl, rfl, ?_, fun l p hl hp => ?_⟩
  · rw [List.nil_append, h2]
    show _ = n * ((m + 1 - w.length) * 1)
    rw [Nat.mul_one]
  · match l, p, hl, hp with
    | [i], [j], .cons hi .nil, .cons hj .nil =>
      have hj : j < m + 1 - w.length := hj
      obtain ⟨y, g1, g2⟩ := h3 i hi
      obtain ⟨b, g3, g4⟩ := g1.2 j hj
      have im : i * m + m ≤ n * m := by
        have := Nat.mul_le_mul_right m (show i + 1 ≤ n from hi)
        rwa [Nat.add_mul, Nat.one_mul] at this
      have row : ∀ k < w.length, ((x.drop (i * m)).take m)[j + k]? = x[i * m + (j + k)]? := fun k hk => by
        rw [List.getElem?_take_of_lt (by omega), List.getElem?_drop]
      refine ⟨b, ?_, g4.trans ⟨fun hu q hq => ?_, fun hu k hk => ?_⟩⟩
      · show ([] ++ r)[i * ((m + 1 - w.length) * 1) + (j * 1 + 0)]? = _
        rw [Nat.mul_one, Nat.mul_one, List.nil_append]
        exact (g2 j hj).trans g3
      · match q, hq with
        | [k], .cons hk .nil =>
          obtain ⟨u, v, q1, q2, q3⟩ := hu k hk
          rw [row k hk] at q2
          refine ⟨u, v, ?_, ?_, q3⟩
          · show w[k * 1 + 0]? = _
            rw [Nat.mul_one, Nat.add_zero]
            exact q1
          · show x[i * (m * 1) + ((j + k) * 1 + 0)]? = _
            rw [Nat.mul_one, Nat.mul_one]
            exact q2
      · obtain ⟨u, v, q1, q2, q3⟩ := hu [k] (.cons hk .nil)
        have q1 : w[k * 1 + 0]? = some u := q1
        have q2 : x[i * (m * 1) + ((j + k) * 1 + 0)]? = some v := q2
        rw [Nat.mul_one, Nat.add_zero] at q1
        rw [Nat.mul_one, Nat.mul_one] at q2
        have q2 : x[i * m + (j + k)]? = some v := q2
        rw [← row k hk] at q2
        exact ⟨u, v, q1, q2, q3⟩

example : find (· == ·) true true false [2] [1, 2] [2, 3] [1, 2, 1, 3, 1, 2] = .ok [2, 2] [true, false, false, true] := by decide +kernel

/-- `𝕨` with more axes than `𝕩` is an error. -/
theorem find_refuses (typedW typedX bitW : Bool) {w x : List α} {wsh xsh : List Nat} (h : xsh.length < wsh.length) : find eq typedW typedX bitW wsh w xsh x = .err := if_pos h

example : find (· == ·) true true false [1, 1] [1] [3] [1, 2, 3] = .err := find_refuses _ _ _ (by decide)

/-! ## Where the code fails -/

/-- `⟨1⟩⍷65536‿65536‿0⥊0`: the result is empty, of the shape `65536‿65536‿0`, but it's an error, since the product of the first two is too large. -/
theorem find_frame_refused : find (α := Nat) (· == ·) true true false [1] [1] ([65536, 65536] ++ [0]) [] = .err ∧ places [1] [0] = [0] := by decide +kernel

/-- `⟨⟩⍷𝕩` for a list of `2⋆32-1` elements: no error, and no place at all. -/
theorem find_wraps {x : List α} (h : x.length = 2^32 - 1) : find eq true true false [0] [] [2^32 - 1] x = .ok [0] [] := by
  unfold find
  rw [if_neg (by simp), if_pos ⟨rfl, rfl, rfl⟩, if_neg (by simp)]
  unfold findList
  rw [if_neg (by simp)]
  dsimp only
  rw [h]
  rfl

end Verif.Find
