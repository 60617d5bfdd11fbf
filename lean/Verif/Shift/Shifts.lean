import Verif.Shift.Model
import Verif.Take.One
/-!
# Shifts
-/
namespace Verif.Shift
open Verif.Bits Verif.Slash Verif.Rep Verif.Select Verif.Under Verif.Rotate
open Verif.Take (Kind Res cellSize elemKind Lawful cellSize_cons)

/-- The check accepts exactly a `𝕨` of cells of `𝕩`. -/
theorem shiftCheck_iff (wsh cell : List Nat) (n : Nat) : shiftCheck wsh (n :: cell) = (cells wsh cell).isSome := by
  unfold shiftCheck cells
  simp only [List.length_cons, Nat.add_sub_cancel]
  have tail (k : Nat) (c : List Nat) (hc : c.length = cell.length) (hk : ∀ i, 1 ≤ i → wsh[i + wsh.length - (cell.length + 1)]? = c[i - 1]?) :
      ((List.range' 1 cell.length).all fun i => wsh[i + wsh.length - (cell.length + 1)]? == (n :: cell)[i]?) = decide (c = cell) := by
    rw [Bool.eq_iff_iff, List.all_eq_true, decide_eq_true_iff]
    constructor
    · intro h
      refine List.ext_getElem? fun i => ?_
      by_cases hi : i < cell.length
      · have := h (i + 1) (List.mem_range'_1.2 ⟨by omega, by omega⟩)
        rw [hk _ (by omega), List.getElem?_cons_succ] at this
        exact eq_of_beq this
      · rw [List.getElem?_eq_none (by omega), List.getElem?_eq_none (by omega)]
    · intro h i hi
      have := List.mem_range'_1.1 hi
      rw [hk _ this.1, h]
      obtain ⟨j, rfl⟩ : ∃ j, i = j + 1 := ⟨i - 1, by omega⟩
      rw [List.getElem?_cons_succ, Nat.add_sub_cancel]
      exact beq_self_eq_true _
  by_cases h1 : wsh.length = cell.length
  · rw [if_neg (by omega), tail 0 wsh h1 (fun i hi => by rw [show i + wsh.length - (cell.length + 1) = i - 1 by omega])]
    by_cases h : wsh = cell
    · rw [if_pos h, decide_eq_true h]; rfl
    · rw [if_neg h, decide_eq_false h]
      cases wsh with
      | nil => rfl
      | cons m c =>
        dsimp only
        rw [if_neg (fun e => by rw [e] at h1; simp at h1)]
        rfl
  · by_cases h2 : wsh.length = cell.length + 1
    · cases wsh with
      | nil => simp at h2
      | cons m c =>
        have hc : c.length = cell.length := by simpa using h2
        rw [if_neg (by omega), tail 0 c hc (fun i hi => by
          rw [h2, show i + (cell.length + 1) - (cell.length + 1) = (i - 1) + 1 by omega, List.getElem?_cons_succ])]
        rw [if_neg (fun e => h1 (by rw [e]))]
        dsimp only
        by_cases h : c = cell
        · rw [if_pos h, decide_eq_true h]; rfl
        · rw [if_neg h, decide_eq_false h]; rfl
    · rw [if_pos ⟨by omega, by omega⟩, if_neg (fun e => h1 (by rw [e]))]
      cases wsh with
      | nil => rfl
      | cons m c =>
        dsimp only
        rw [if_neg (fun e => h2 (by rw [← e]; rfl))]
        rfl

/-- The number of elements of `𝕨`. -/
theorem cells_prod {wsh cell : List Nat} {m : Nat} (h : cells wsh cell = some m) : prod wsh = m * prod cell := by
  unfold cells at h
  by_cases e : wsh = cell
  · rw [if_pos e] at h
    cases h
    rw [e, Nat.one_mul]
  · rw [if_neg e] at h
    cases wsh with
    | nil => simp at h
    | cons a c =>
      dsimp only at h
      by_cases e2 : c = cell
      · rw [if_pos e2] at h
        cases h
        rw [prod, e2]
      · rw [if_neg e2] at h; simp at h

theorem source_before (m n i : Nat) : source false m n i = if i < m then .w i else .x (i - m) := rfl
theorem source_after (m n i : Nat) : source true m n i = if i + m < n then .x (i + m) else .w (i + m - n) := rfl

/-- An element of a major cell: of `𝕨` through `gw`, of `𝕩` through `K`. -/
def pick {M X α} (K : Kind M X α) (x : X) (gw : Nat → Option α) (c p : Nat) : Src → Option α
  | .w j => gw (j * c + p)
  | .x j => K.getX x (j * c + p)

theorem pos_lt {i n c p : Nat} (hi : i < n) (hp : p < c) : i * c + p < n * c := by
  calc i * c + p < i * c + c := by omega
    _ = (i + 1) * c := by rw [Nat.succ_mul]
    _ ≤ n * c := Nat.mul_le_mul_right c hi

theorem pos_ge {i m c p : Nat} (h : m ≤ i) : m * c ≤ i * c + p := Nat.le_trans (Nat.mul_le_mul_right c h) (Nat.le_add_right _ _)

theorem sub_pos {i m c p : Nat} (h : m ≤ i) : i * c + p - m * c = (i - m) * c + p := by
  rw [Nat.sub_mul]
  have := Nat.mul_le_mul_right c h
  omega

theorem shiftb1_spec {M X α} {K : Kind M X α} {okr okx} (L : Lawful K okr okx) (f : α) (x : X) (n : Nat) (cell : List Nat) (hx : okx (prod (n :: cell)) x) :
    ∃ res, shiftb1 K f x (n :: cell) = some (.ok res) ∧ res.shape = n :: cell ∧ (∀ m s, res = .made m s → okr (prod (n :: cell)) m) ∧
      ∀ i p, i < n → p < prod cell → res.get K (i * prod cell + p) = pick K x (fun _ => some f) (prod cell) p (source false 1 n i) := by
  unfold shiftb1
  rw [if_neg (by simp), cellSize_cons]
  dsimp only
  have e0 : prod (n :: cell) = n * prod cell := rfl
  by_cases h0 : prod (n :: cell) = 0
  · rw [if_pos h0]
    refine ⟨_, rfl, rfl, by intro m s h; simp at h, fun i p hi hp => ?_⟩
    have := pos_lt hi hp
    omega
  rw [if_neg h0]
  rw [e0] at h0 hx ⊢
  have hn : 0 < n := Nat.pos_of_ne_zero fun h => h0 (by rw [h, Nat.zero_mul])
  have hle : prod cell ≤ n * prod cell := Nat.le_mul_of_pos_left _ hn
  by_cases h1 : n * prod cell = prod cell
  · rw [if_pos h1]
    obtain ⟨r, e, ok, g⟩ := L.fill (n * prod cell) (K.new (n * prod cell)) 0 f (n * prod cell) (L.new _) (by omega)
    refine ⟨.made r (n :: cell), by rw [ones, e]; rfl, rfl, by intro m s h; cases h; exact ok, fun i p hi hp => ?_⟩
    have hlt := pos_lt hi hp
    have hi0 : i = 0 := by
      cases i with
      | zero => rfl
      | succ i => rw [h1, Nat.succ_mul] at hlt; omega
    show K.get r _ = _
    rw [g _ hlt, if_pos (by omega), hi0]
    rfl
  rw [if_neg h1]
  obtain ⟨r1, e1, ok1, g1⟩ := L.copy (n * prod cell) (n * prod cell) (K.new (n * prod cell)) x (prod cell) 0 (n * prod cell - prod cell) (L.new _) hx (by omega) (by omega)
  obtain ⟨r2, e2, ok2, g2⟩ := L.fill (n * prod cell) r1 0 f (prod cell) ok1 (by omega)
  refine ⟨.made r2 (n :: cell), by rw [e1, Option.bind_some, e2]; rfl, rfl, by intro m s h; cases h; exact ok2, fun i p hi hp => ?_⟩
  have hlt := pos_lt hi hp
  show K.get r2 _ = _
  rw [g2 _ hlt, g1 _ hlt]
  rw [source_before]
  by_cases hi0 : i < 1
  · rw [if_pos hi0, if_pos]
    · rfl
    · rw [show i = 0 by omega]; omega
  · have := pos_ge (c := prod cell) (p := p) (show 1 ≤ i by omega)
    rw [Nat.one_mul] at this
    rw [if_neg hi0, if_neg (by omega), if_pos (by omega)]
    show _ = K.getX x _
    rw [← sub_pos (by omega), Nat.one_mul, Nat.zero_add]

theorem shifta1_spec {M X α} {K : Kind M X α} {okr okx} (L : Lawful K okr okx) (f : α) (x : X) (n : Nat) (cell : List Nat) (hx : okx (prod (n :: cell)) x) :
    ∃ res, shifta1 K f x (n :: cell) = some (.ok res) ∧ res.shape = n :: cell ∧ (∀ m s, res = .made m s → okr (prod (n :: cell)) m) ∧
      ∀ i p, i < n → p < prod cell → res.get K (i * prod cell + p) = pick K x (fun _ => some f) (prod cell) p (source true 1 n i) := by
  unfold shifta1
  rw [if_neg (by simp), cellSize_cons]
  dsimp only
  have e0 : prod (n :: cell) = n * prod cell := rfl
  by_cases h0 : prod (n :: cell) = 0
  · rw [if_pos h0]
    refine ⟨_, rfl, rfl, by intro m s h; simp at h, fun i p hi hp => ?_⟩
    have := pos_lt hi hp
    omega
  rw [if_neg h0]
  rw [e0] at h0 hx ⊢
  have hn : 0 < n := Nat.pos_of_ne_zero fun h => h0 (by rw [h, Nat.zero_mul])
  have hle : prod cell ≤ n * prod cell := Nat.le_mul_of_pos_left _ hn
  by_cases h1 : n * prod cell = prod cell
  · rw [if_pos h1]
    obtain ⟨r, e, ok, g⟩ := L.fill (n * prod cell) (K.new (n * prod cell)) 0 f (n * prod cell) (L.new _) (by omega)
    refine ⟨.made r (n :: cell), by rw [ones, e]; rfl, rfl, by intro m s h; cases h; exact ok, fun i p hi hp => ?_⟩
    have hlt := pos_lt hi hp
    have hn1 : n = 1 := by
      have : n * prod cell = 1 * prod cell := by rw [h1, Nat.one_mul]
      exact Nat.eq_of_mul_eq_mul_right (by omega) this
    show K.get r _ = _
    rw [g _ hlt, if_pos (by omega)]
    rw [source_after, if_neg (by omega)]
    rfl
  rw [if_neg h1]
  obtain ⟨r1, e1, ok1, g1⟩ := L.copy (n * prod cell) (n * prod cell) (K.new (n * prod cell)) x 0 (prod cell) (n * prod cell - prod cell) (L.new _) hx (by omega) (by omega)
  obtain ⟨r2, e2, ok2, g2⟩ := L.fill (n * prod cell) r1 (n * prod cell - prod cell) f (prod cell) ok1 (by omega)
  refine ⟨.made r2 (n :: cell), by rw [e1, Option.bind_some, e2]; rfl, rfl, by intro m s h; cases h; exact ok2, fun i p hi hp => ?_⟩
  have hlt := pos_lt hi hp
  have hlast : (n - 1) * prod cell = n * prod cell - prod cell := by rw [Nat.sub_mul, Nat.one_mul]
  show K.get r2 _ = _
  rw [g2 _ hlt, g1 _ hlt]
  rw [source_after]
  by_cases hi1 : i + 1 < n
  · have := pos_lt (show i < n - 1 by omega) hp
    rw [hlast] at this
    rw [if_pos hi1, if_neg (by omega), if_pos (by omega)]
    show _ = K.getX x _
    rw [Nat.succ_mul]
    congr 1
    omega
  · have := pos_ge (c := prod cell) (p := p) (show n - 1 ≤ i by omega)
    rw [hlast] at this
    rw [if_neg hi1, if_pos (by omega)]
    rfl

theorem shiftb2_spec {M X α} {K : Kind M X α} {okr okx} (L : Lawful K okr okx) (w : X) (wsh : List Nat) (x : X) (n : Nat) (cell : List Nat) (hw : okx (prod wsh) w) (hx : okx (prod (n :: cell)) x)
    {m : Nat} (hm : cells wsh cell = some m) :
    ∃ r, shiftb2 K w wsh x (n :: cell) = some (.ok (.made r (n :: cell))) ∧ okr (prod (n :: cell)) r ∧
      ∀ i p, i < n → p < prod cell → K.get r (i * prod cell + p) = pick K x (K.getX w) (prod cell) p (source false m n i) := by
  unfold shiftb2
  rw [if_neg (by simp), shiftCheck_iff, hm]
  dsimp only
  rw [if_neg (by simp)]
  rw [cells_prod hm] at hw ⊢
  have e0 : prod (n :: cell) = n * prod cell := rfl
  rw [e0] at hx ⊢
  have hmid : (if m * prod cell < n * prod cell then m * prod cell else n * prod cell) = min m n * prod cell := by
    by_cases h : m * prod cell < n * prod cell
    · rw [if_pos h, Nat.min_eq_left]
      exact Nat.le_of_lt (Nat.lt_of_mul_lt_mul_right h)
    · rw [if_neg h]
      by_cases h2 : m < n
      · rw [Nat.min_eq_left (Nat.le_of_lt h2)]
        have := Nat.mul_le_mul_right (prod cell) (Nat.le_of_lt h2)
        omega
      · rw [Nat.min_eq_right (by omega)]
  rw [hmid]
  have b1 := Nat.mul_le_mul_right (prod cell) (Nat.min_le_left m n)
  have b2 := Nat.mul_le_mul_right (prod cell) (Nat.min_le_right m n)
  obtain ⟨r1, e1, ok1, g1⟩ := L.copy (n * prod cell) _ (K.new (n * prod cell)) w 0 0 (min m n * prod cell) (L.new _) hw (by omega) (by omega)
  obtain ⟨r2, e2, ok2, g2⟩ := L.copy (n * prod cell) _ r1 x (min m n * prod cell) 0 (n * prod cell - min m n * prod cell) ok1 hx (by omega) (by omega)
  refine ⟨r2, by rw [e1, Option.bind_some, e2]; rfl, ok2, fun i p hi hp => ?_⟩
  have hlt := pos_lt hi hp
  rw [g2 _ hlt, g1 _ hlt]
  rw [source_before]
  by_cases him : i < m
  · have := pos_lt (show i < min m n by omega) hp
    rw [if_pos him, if_neg (by omega), if_pos (by omega)]
    show _ = K.getX w _
    rw [Nat.sub_zero, Nat.zero_add]
  · have := pos_ge (c := prod cell) (p := p) (show min m n ≤ i by omega)
    rw [if_neg him, if_pos (by omega), sub_pos (by omega), Nat.min_eq_left (by omega), Nat.zero_add]
    rfl

theorem shifta2_spec {M X α} {K : Kind M X α} {okr okx} (L : Lawful K okr okx) (w : X) (wsh : List Nat) (x : X) (n : Nat) (cell : List Nat) (hw : okx (prod wsh) w) (hx : okx (prod (n :: cell)) x)
    {m : Nat} (hm : cells wsh cell = some m) :
    ∃ r, shifta2 K w wsh x (n :: cell) = some (.ok (.made r (n :: cell))) ∧ okr (prod (n :: cell)) r ∧
      ∀ i p, i < n → p < prod cell → K.get r (i * prod cell + p) = pick K x (K.getX w) (prod cell) p (source true m n i) := by
  unfold shifta2
  rw [if_neg (by simp), shiftCheck_iff, hm]
  dsimp only
  rw [if_neg (by simp)]
  rw [cells_prod hm] at hw ⊢
  have e0 : prod (n :: cell) = n * prod cell := rfl
  rw [e0] at hx ⊢
  by_cases h : m * prod cell < n * prod cell
  · have hmn : m < n := Nat.lt_of_mul_lt_mul_right h
    rw [if_pos h]
    have hsub : n * prod cell - m * prod cell = (n - m) * prod cell := (Nat.sub_mul _ _ _).symm
    obtain ⟨r1, e1, ok1, g1⟩ := L.copy (n * prod cell) _ (K.new (n * prod cell)) x 0 (m * prod cell) (n * prod cell - m * prod cell) (L.new _) hx (by omega) (by omega)
    obtain ⟨r2, e2, ok2, g2⟩ := L.copy (n * prod cell) _ r1 w (n * prod cell - m * prod cell) 0 (m * prod cell) ok1 hw (by omega) (by omega)
    refine ⟨r2, by rw [e1, Option.bind_some, e2]; rfl, ok2, fun i p hi hp => ?_⟩
    have hlt := pos_lt hi hp
    rw [g2 _ hlt, g1 _ hlt]
    rw [source_after]
    by_cases him : i + m < n
    · have := pos_lt (show i < n - m by omega) hp
      rw [if_pos him, if_neg (by omega), if_pos (by omega)]
      show _ = K.getX x _
      rw [Nat.sub_zero, Nat.add_mul]
      congr 1
      omega
    · have := pos_ge (c := prod cell) (p := p) (show n - m ≤ i by omega)
      rw [if_neg him, if_pos (by omega), hsub, sub_pos (by omega), Nat.zero_add, show i - (n - m) = i + m - n by omega]
      rfl
  · rw [if_neg h]
    obtain ⟨r1, e1, ok1, g1⟩ := L.copy (n * prod cell) _ (K.new (n * prod cell)) w 0 (m * prod cell - n * prod cell) (n * prod cell) (L.new _) hw (by omega) (by omega)
    refine ⟨r1, by rw [e1]; rfl, ok1, fun i p hi hp => ?_⟩
    have hlt := pos_lt hi hp
    have hnm : n ≤ m := by
      refine Nat.le_of_not_lt fun hc => h ?_
      exact Nat.mul_lt_mul_of_pos_right hc (by omega)
    rw [g1 _ hlt, if_pos (by omega)]
    rw [source_after, if_neg (by omega)]
    show _ = K.getX w _
    rw [Nat.sub_zero, show i + m - n = i + (m - n) by omega, Nat.add_mul, Nat.sub_mul]
    congr 1
    omega

end Verif.Shift
