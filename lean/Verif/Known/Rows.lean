import Verif.Known.Main
/-!
# Shifts and reversals of cells
-/
namespace Verif.Known
open Verif.Cells
open Verif.Rotate (prod prod_append)
variable {E : Type}
variable {fill : Arr E → E} {io : Info E} {d : E} {x : Arr E} {k n : Nat} {t : List Nat}

theorem sets_get (f : E) (p s : Nat) (r : List E) (q : Nat) : ∀ n, ((List.range n).foldl (fun r i => r.set (p + i * s) f) r)[q]? = if (∃ i, i < n ∧ q = p + i * s) ∧ q < r.length then some f else r[q]?
  | 0 => by rw [if_neg (by rintro ⟨⟨i, hi, _⟩, _⟩; omega)]; rfl
  | n+1 => by
    have hlen : ∀ m, ((List.range m).foldl (fun r i => r.set (p + i * s) f) r).length = r.length := by
      intro m
      induction m with
      | zero => rfl
      | succ m ih => rw [List.range_succ, List.foldl_append, List.foldl_cons, List.foldl_nil, List.length_set, ih]
    rw [List.range_succ, List.foldl_append, List.foldl_cons, List.foldl_nil, List.getElem?_set, hlen, sets_get f p s r q n]
    by_cases h1 : p + n * s = q
    · rw [if_pos h1]
      by_cases h2 : p + n * s < r.length
      · rw [if_pos h2, if_pos ⟨⟨n, by omega, h1.symm⟩, by omega⟩]
      · rw [if_neg h2, if_neg (by omega), List.getElem?_eq_none (by omega)]
    · rw [if_neg h1]
      by_cases h2 : (∃ i, i < n ∧ q = p + i * s) ∧ q < r.length
      · obtain ⟨⟨i, hi, e⟩, h3⟩ := h2
        rw [if_pos ⟨⟨i, hi, e⟩, h3⟩, if_pos ⟨⟨i, by omega, e⟩, h3⟩]
      · rw [if_neg h2, if_neg]
        rintro ⟨⟨i, hi, e⟩, h3⟩
        by_cases h4 : i = n
        · subst h4; exact h1 e.symm
        · exact h2 ⟨⟨i, by omega, e⟩, h3⟩

/-- One position of each row is set. -/
theorem setColumn_get (bit : Bool) (f : E) {p s n : Nat} {r : List E} (hp : p < s) (hl : r.length = n * s) {i j : Nat} (hi : i < n) (hj : j < s) :
    (setColumn bit f p s n r)[i * s + j]? = if j = p then some f else r[i * s + j]? := by
  have hb := Nat.mul_le_mul_right s hi
  rw [Nat.succ_mul] at hb
  have hm : (i * s + j) % s = j := by rw [Nat.add_comm, Nat.add_mul_mod_self_right, Nat.mod_eq_of_lt hj]
  unfold setColumn
  by_cases h1 : bit = true ∧ s < 64 ∧ n > 64
  · rw [if_pos h1, List.getElem?_mapIdx, hm, List.getElem?_eq_getElem (by omega), Option.map_some]
    by_cases h2 : j = p
    · rw [if_pos h2, if_pos h2]
    · rw [if_neg h2, if_neg h2]
  · rw [if_neg h1, sets_get]
    by_cases h2 : j = p
    · rw [if_pos h2, if_pos ⟨⟨i, hi, by omega⟩, by omega⟩]
    · rw [if_neg h2, if_neg]
      rintro ⟨⟨i', _, e⟩, _⟩
      have := congrArg (· % s) e
      simp only [Nat.add_mul_mod_self_right] at this
      rw [hm, Nat.mod_eq_of_lt hp] at this
      exact h2 this

theorem setLoop_eq (f : E) {p s n : Nat} {r : List E} (hp : p < s) (h32 : n * s + s ≤ 2^32) :
    ∀ (m fuel : Nat), m ≤ n → fuel > n - m → setLoop f (n * s) s fuel (p + m * s) ((List.range m).foldl (fun r i => r.set (p + i * s) f) r) = some ((List.range n).foldl (fun r i => r.set (p + i * s) f) r) := by
  intro m fuel
  induction fuel generalizing m with
  | zero => intro _ h; omega
  | succ fuel ih =>
    intro hm hf
    unfold setLoop
    by_cases h1 : m = n
    · subst h1
      rw [if_neg (by omega)]
    · have hb := Nat.mul_le_mul_right s (show m + 1 ≤ n by omega)
      rw [Nat.succ_mul] at hb
      rw [if_pos (by omega), Nat.mod_eq_of_lt (by omega), show p + m * s + s = p + (m+1) * s by rw [Nat.succ_mul]; omega]
      have := ih (m+1) (by omega) (by omega)
      rw [List.range_succ, List.foldl_append, List.foldl_cons, List.foldl_nil] at this
      exact this

/-- What `shift_cells` does with rows of more than one element. -/
theorem shiftRows_eq {boxed bit : Bool} (f : E) {c s : Nat} {after : Bool} (hs : 1 < s) (hl : x.els.length = c * s) (h32 : x.els.length < 2^32) (hb : boxed = true → x.els.length + s ≤ 2^32) (hc : c ≠ 0) :
    shiftCells boxed bit d f x c s after = .ok ⟨x.sh, (List.range c).flatMap fun i =>
      if after then ((x.els.drop (i * s)).take s).drop 1 ++ [f] else f :: ((x.els.drop (i * s)).take s).take (s - 1)⟩ := by
  have hcs : s ≤ c * s := Nat.le_mul_of_pos_left _ (by omega)
  obtain ⟨p, r, hp, hr, e⟩ : ∃ p r, p < s ∧ r.length = c * s ∧ (p = if after then s - 1 else 0) ∧ r = (if after then x.els.drop 1 ++ [d] else d :: x.els.take (x.els.length - 1)) := by
    refine ⟨_, _, ?_, ?_, rfl, rfl⟩
    · cases after <;> simp <;> omega
    · cases after <;> simp [hl] <;> omega
  unfold shiftCells
  dsimp only
  rw [if_neg (by omega), ← e.1, ← e.2]
  have key : ∃ L, (if boxed = true then setLoop f x.els.length s (2^32) p r else some (setColumn bit f p s c r)) = some L ∧ L.length = c * s ∧
      ∀ i, i < c → ∀ j, j < s → L[i * s + j]? = if j = p then some f else r[i * s + j]? := by
    cases hbx : boxed with
    | false =>
      refine ⟨_, rfl, ?_, fun i hi j hj => setColumn_get bit f hp hr hi hj⟩
      have hlen : ∀ m, ((List.range m).foldl (fun r i => r.set (p + i * s) f) r).length = r.length := by
        intro m
        induction m with
        | zero => rfl
        | succ m ih => rw [List.range_succ, List.foldl_append, List.foldl_cons, List.foldl_nil, List.length_set, ih]
      unfold setColumn
      by_cases h1 : bit = true ∧ s < 64 ∧ c > 64
      · rw [if_pos h1, List.length_mapIdx, hr]
      · rw [if_neg h1, hlen, hr]
    | true =>
      have h2 := hb hbx
      have h3 : c < 2^32 := by
        have := Nat.le_mul_of_pos_right c (show 0 < s by omega)
        omega
      have := setLoop_eq (r := r) f hp (by omega : c * s + s ≤ 2^32) 0 (2^32) (by omega) (by omega)
      rw [Nat.zero_mul, Nat.add_zero, List.range_zero, List.foldl_nil] at this
      rw [if_pos rfl, hl, this]
      have hsc := fun i (hi : i < c) j (hj : j < s) => setColumn_get false f hp hr hi hj
      unfold setColumn at hsc
      simp only [Bool.false_eq_true, false_and, if_false] at hsc
      refine ⟨_, rfl, ?_, hsc⟩
      have hlen : ∀ m, ((List.range m).foldl (fun r i => r.set (p + i * s) f) r).length = r.length := by
        intro m
        induction m with
        | zero => rfl
        | succ m ih => rw [List.range_succ, List.foldl_append, List.foldl_cons, List.foldl_nil, List.length_set, ih]
      rw [hlen, hr]
  obtain ⟨L, e1, e2, e3⟩ := key
  rw [e1]
  unfold arrOf
  dsimp only
  congr 2
  have hrow : ∀ i, i < c → ((x.els.drop (i * s)).take s).length = s := by
    intro i hi
    have hb := Nat.mul_le_mul_right s hi
    rw [Nat.succ_mul] at hb
    rw [List.length_take, List.length_drop]
    omega
  apply eq_rows (c := s) c L e2
  · intro i hi
    have h1 := hrow i hi
    cases after
    · simp only [Bool.false_eq_true, if_false, List.length_cons]
      rw [List.length_take, h1]
      omega
    · simp only [if_true, List.length_append, List.length_cons, List.length_nil]
      rw [List.length_drop, h1]
      omega
  · intro i hi j hj
    have hb := Nat.mul_le_mul_right s hi
    rw [Nat.succ_mul] at hb
    have h1 := hrow i hi
    rw [e3 i hi j hj]
    obtain ⟨ep, er⟩ := e
    cases after with
    | false =>
      simp only [Bool.false_eq_true, if_false] at ep er ⊢
      subst ep er
      cases j with
      | zero => rfl
      | succ j =>
        rw [if_neg (by omega), List.getElem?_cons_succ, ← Nat.add_assoc, List.getElem?_cons_succ, List.getElem?_take_of_lt (by omega), List.getElem?_take_of_lt (by omega), List.getElem?_take_of_lt (by omega), List.getElem?_drop]
    | true =>
      simp only [if_true] at ep er ⊢
      subst ep er
      by_cases h2 : j = s - 1
      · rw [if_pos h2, List.getElem?_append_right (by rw [List.length_drop, h1]; omega), List.length_drop, h1, h2, Nat.sub_self]
        rfl
      · rw [if_neg h2, List.getElem?_append_left (by rw [List.length_drop]; omega), List.getElem?_append_left (by rw [List.length_drop, h1]; omega), List.getElem?_drop, List.getElem?_drop,
          List.getElem?_take_of_lt (by omega), List.getElem?_drop]
        congr 1
        omega

theorem nudge_cell {f : E} {after : Bool} (hd : x.sh.drop k = n :: t) {els : List E} (h0 : els ≠ []) :
    nudge after (some f) (.arr ⟨x.sh.drop k, els⟩) = some (.arr ⟨x.sh.drop k, if after then els.drop (prod t) ++ List.replicate (prod t) f else List.replicate (prod t) f ++ els.take (els.length - prod t)⟩) := by
  unfold nudge
  rw [show (Val.arr (⟨x.sh.drop k, els⟩ : Arr E)).sh = n :: t from hd, show (Val.arr (⟨x.sh.drop k, els⟩ : Arr E)).els = els from rfl]
  dsimp only
  rw [if_neg h0, hd]
  rfl

theorem shift_units {after : Bool} (h : Arg x k) (hd : x.sh.drop k = []) : knownCells1 fill io d (.shift after) x k = onCells fill (Known1.op io (fill x) (.shift after)) (.arr x) k := by
  unfold knownCells1
  dsimp only
  rw [h.generic]
  have ht := h.total
  rw [hd] at ht
  simp only [prod, Nat.mul_one] at ht
  by_cases h0 : x.els.length = 0
  · rw [if_pos h0]
    unfold onCells
    dsimp only
    rw [show (Val.arr x).sh = x.sh from rfl, if_pos (by omega)]
    unfold fillCell
    dsimp only
    rw [if_neg h.pos, h.cell]
    simp only [Bool.false_eq_true, if_false]
    unfold emptyResult Known1.op
    dsimp only
    rw [hd]
    have : x.sh.take k = x.sh := by
      have := List.take_append_drop k x.sh
      rw [hd, List.append_nil] at this
      exact this
    rw [this]
    show some (Out.ok x) = some (Out.ok ⟨x.sh, []⟩)
    obtain ⟨sh, els⟩ := x
    have : els = [] := List.length_eq_zero_iff.1 h0
    rw [this]
  · rw [if_neg h0, if_pos]
    rw [h.cr_zero.2 hd]
    exact ⟨by omega, Or.inl rfl⟩

theorem shift_eq {after : Bool} (h : Arg x k) (hb : io.boxed = true → x.els.length + (x.sh[k]?.getD 0) ≤ 2^32) :
    knownCells1 fill io d (.shift after) x k = onCells fill (Known1.op io (fill x) (.shift after)) (.arr x) k := by
  by_cases hne : x.sh.drop k = []
  · exact shift_units h hne
  obtain ⟨n, t, hd⟩ : ∃ n t, x.sh.drop k = n :: t := by
    cases hd : x.sh.drop k with
    | nil => exact absurd hd hne
    | cons n t => exact ⟨n, t, rfl⟩
  unfold knownCells1
  dsimp only
  rw [h.cam, h.generic]
  have ht := h.total
  by_cases h0 : x.els.length = 0
  · rw [if_pos h0]
    have he : ∀ els : List E, els = [] → ∀ fl, nudge after fl (.arr ⟨x.sh.drop k, els⟩) = some (.arr ⟨x.sh.drop k, els⟩) := by
      intro els h1 fl
      unfold nudge
      rw [show (Val.arr (⟨x.sh.drop k, els⟩ : Arr E)).sh = n :: t from hd, show (Val.arr (⟨x.sh.drop k, els⟩ : Arr E)).els = els from rfl]
      dsimp only
      rw [if_pos h1]
    rw [keeps h]
    · intro i hi
      refine he _ ?_ _
      have : x.els = [] := List.length_eq_zero_iff.1 h0
      rw [this]
      simp
    · intro hz
      refine ⟨nudge after (some (fill x)), ?_⟩
      by_cases h1 : prod (x.sh.drop k) = 0
      · rw [h1]; exact ⟨_, rfl, he _ rfl _, rfl⟩
      · refine ⟨_, rfl, nudge_cell hd ?_, rfl⟩
        intro e
        have := congrArg List.length e
        rw [List.length_replicate] at this
        exact h1 this
  · rw [if_neg h0]
    have hn0 : prod (x.sh.drop k) ≠ 0 := by intro e; rw [e, Nat.mul_zero] at ht; exact h0 ht
    have hc : prod (x.sh.take k) ≠ 0 := by intro e; rw [e, Nat.zero_mul] at ht; exact h0 ht
    have hn : n ≠ 0 := by rintro rfl; rw [hd, prod, Nat.zero_mul] at hn0; exact hn0 rfl
    rw [(drop_cons hd).1, Option.getD_some, h.rest hd hn, (drop_cons hd).2.2]
    by_cases h1 : t.length + 1 ≠ 1 ∧ (t.length + 1 = 0 ∨ ¬ (n = 1 ∨ prod t = 1))
    · rw [if_pos h1]
    · rw [if_neg h1]
      cases hf : io.fill with
      | none => rfl
      | some f =>
        dsimp only
        have hcell : ∀ i, i < prod (x.sh.take k) → (cellAt x k i).els ≠ [] := by
          intro i hi e
          have h3 := cell_full h.full hi
          rw [e] at h3
          exact hn0 h3.symm
        rw [regular fill _ h.pos h.le h.cell (x.sh.drop k) (fun i => .arr ⟨x.sh.drop k, if after then (cellAt x k i).els.drop (prod t) ++ List.replicate (prod t) f else List.replicate (prod t) f ++ (cellAt x k i).els.take ((cellAt x k i).els.length - prod t)⟩)
          (fun _ _ => rfl) (fun i hi => by
            show nudge after io.fill _ = _
            rw [hf]
            exact nudge_cell hd (hcell i hi)) (fun e => absurd e hc)]
        rw [h.split, if_neg (by have := h.rank; omega), List.take_append_drop]
        show some _ = some _
        congr 1
        simp only [Val.els]
        by_cases hn1 : n = 1
        · subst hn1
          unfold shiftCells
          dsimp only
          rw [if_pos rfl]
          congr 2
          rw [hd, prod, Nat.one_mul] at ht
          rw [ht, ← replicate_flat]
          rw [List.flatMap_def, List.flatMap_def]
          congr 1
          apply List.map_congr_left
          intro i hi
          have hl := cell_full h.full (List.mem_range.1 hi)
          rw [hd, prod, Nat.one_mul] at hl
          cases after
          · simp [hl]
          · simp [hl]
        · have hp1 : prod t = 1 := by
            by_cases h5 : t.length + 1 ≠ 1
            · have h6 : ¬ (t.length + 1 = 0 ∨ ¬ (n = 1 ∨ prod t = 1)) := fun h7 => h1 ⟨h5, h7⟩
              by_cases h8 : prod t = 1
              · exact h8
              · exact absurd (Or.inr (fun h9 => h9.elim hn1 h8)) h6
            · have : t = [] := List.length_eq_zero_iff.1 (by omega)
              subst this; rfl
          have hdp : prod (x.sh.drop k) = n := by rw [hd, prod, hp1, Nat.mul_one]
          rw [hdp] at ht
          rw [shiftRows_eq f (by omega) ht h.len (fun e => by have := hb e; rw [(drop_cons hd).1] at this; exact this) hc]
          congr 2
          rw [List.flatMap_def, List.flatMap_def]
          congr 1
          apply List.map_congr_left
          intro i hi
          have hl := cell_full h.full (List.mem_range.1 hi)
          rw [hp1, hl, hdp]
          unfold cellAt
          dsimp only
          rw [hdp]
          rfl

theorem inds_eq : ∀ c, c < 65 → (reverseInds.drop (64 - c)).take c = (List.range c).map (c - 1 - ·) := by decide +kernel

theorem reverse_cell (hd : x.sh.drop k = n :: t) (els : List E) :
    reverseCells (.arr ⟨x.sh.drop k, els⟩) = some (.arr ⟨x.sh.drop k, (List.range n).flatMap fun i => (els.drop ((n - 1 - i) * prod t)).take (prod t)⟩) := by
  unfold reverseCells
  rw [show (Val.arr (⟨x.sh.drop k, els⟩ : Arr E)).sh = n :: t from hd, hd]
  rfl

theorem reverse_eq (h : Arg x k) : knownCells1 fill io d .reverse x k = onCells fill (Known1.op io (fill x) .reverse) (.arr x) k := by
  unfold knownCells1
  dsimp only
  rw [h.cam, h.generic]
  have ht := h.total
  cases hd : x.sh.drop k with
  | nil => rw [if_pos (h.cr_zero.2 hd)]
  | cons n t =>
    rw [if_neg (by rw [(drop_cons hd).2.2]; omega), (drop_cons hd).1, Option.getD_some, (drop_cons hd).2.2]
    by_cases h1 : n ≤ 1 ∨ x.els.length = 0
    · rw [if_pos h1, keeps h]
      · intro i hi
        show reverseCells (.arr ⟨x.sh.drop k, (cellAt x k i).els⟩) = _
        rw [reverse_cell hd]
        have hl := cell_full h.full hi
        rw [hd, prod] at hl
        have : ((List.range n).flatMap fun j => ((cellAt x k i).els.drop ((n - 1 - j) * prod t)).take (prod t)) = (cellAt x k i).els := by
          by_cases h2 : (cellAt x k i).els = []
          · rw [h2]; simp
          · rcases h1 with h1 | h1
            · match n, h1 with
              | 0, _ => rw [Nat.zero_mul] at hl; exact absurd (List.length_eq_zero_iff.1 hl) h2
              | 1, _ =>
                rw [Nat.one_mul] at hl
                simp only [List.range_one, List.flatMap_cons, List.flatMap_nil, List.append_nil]
                rw [show (1 - 1 - 0) * prod t = 0 by simp, List.drop_zero, ← hl, List.take_length]
            · exfalso
              apply h2
              have : x.els = [] := List.length_eq_zero_iff.1 h1
              show (x.els.drop _).take _ = _
              rw [this]
              simp
        rw [this]
        rfl
      · intro _
        exact ⟨reverseCells, _, rfl, reverse_cell hd _, rfl⟩
    · rw [if_neg h1]
      by_cases h2 : t.length + 1 = 1 ∧ n ≤ 64 ∧ !io.bit ∧ n ≤ (128 * 8) >>> io.wl
      · rw [if_pos h2]
        obtain rfl : t = [] := List.length_eq_zero_iff.1 (by omega)
        have hdp : prod (x.sh.drop k) = n := by rw [hd]; simp [prod]
        rw [hdp] at ht
        have hc : prod (x.sh.take k) ≠ 0 := by intro e; rw [e, Nat.zero_mul] at ht; omega
        rw [regular fill _ h.pos h.le h.cell (x.sh.drop k) (fun i => .arr ⟨x.sh.drop k, (List.range n).flatMap fun j => ((cellAt x k i).els.drop ((n - 1 - j) * prod [])).take (prod [])⟩)
          (fun _ _ => rfl) (fun i _ => reverse_cell hd _) (fun e => absurd e hc), h.split, if_neg (by have := h.rank; omega), List.take_append_drop]
        show some _ = some _
        congr 1
        unfold selectRows
        rw [inds_eq n (by omega)]
        rw [mapM_some_eq _ (fun i => (List.range n).flatMap fun j => ((cellAt x k i).els.drop ((n - 1 - j) * prod [])).take (prod []))]
        · rw [Option.map_some, ← List.flatMap_def]
          rfl
        · intro i hi
          have hi := List.mem_range.1 hi
          have hb := Nat.mul_le_mul_right n hi
          rw [Nat.succ_mul] at hb
          have g := gather_single (cellAt x k i).els (n - 1 - ·) (n - 1 - ·) n (fun j hj => by rw [cell_full h.full hi, hdp]; omega) (fun _ _ => rfl)
          unfold gather at g
          simp only [prod, Nat.mul_one]
          rw [← g]
          rw [List.mapM_map, List.mapM_map]
          apply mapM_congr
          intro j hj
          have hj := List.mem_range.1 hj
          show (if n - 1 - j < n then x.els[i * n + (n - 1 - j)]? else none) = (cellAt x k i).els[n - 1 - j]?
          rw [if_pos (by omega)]
          unfold cellAt
          dsimp only
          rw [hdp, List.getElem?_take_of_lt (by omega), List.getElem?_drop]
      · rw [if_neg h2]

end Verif.Known
