import Verif.Take.Basic
/-!
# Take and Drop along the first axis
-/
namespace Verif.Take
open Verif.Bits Verif.Slash Verif.Rep Verif.Select Verif.Under Verif.Rotate

theorem cellSize_cons (s : Nat) (cell : List Nat) : cellSize (s :: cell) = prod cell := by cases cell <;> rfl
theorem resShape_cons (n s : Nat) (cell : List Nat) : resShape n (s :: cell) = n :: cell := by cases cell <;> rfl

theorem takeOne_unit {M X α} (K : Kind M X α) (w : Int) (f : α) (x : X) : takeOne K w f x [] = takeOne K w f x [1] := rfl
theorem dropOne_unit {M X α} (K : Kind M X α) (w : Int) (x : X) : dropOne K w x [] = dropOne K w x [1] := rfl

theorem slice_get {M X α} {K : Kind M X α} {okr okx} (L : Lawful K okr okx) {x : X} {nx : Nat} (hx : okx nx x) (s l : Nat) (sh : List Nat) (h : s + l ≤ nx) :
    ∃ m, slice K x s l sh = some (.made m sh) ∧ okr l m ∧ ∀ k, k < l → K.get m k = K.getX x (s + k) := by
  obtain ⟨m, e, hm, hg⟩ := L.copy l nx (K.new l) x 0 s l (L.new l) hx (by omega) h
  refine ⟨m, by rw [slice, e]; rfl, hm, fun k hk => ?_⟩
  rw [hg k hk, if_pos (by omega), Nat.sub_zero]

/-- The element of the result for an amount of the first axis. -/
def want {M X α} (K : Kind M X α) (x : X) (f : α) (sh : List Nat) : Option (List Nat) → Option α
  | some js => K.getX x (ravel sh js)
  | none => some f

theorem want_one {M X α} (K : Kind M X α) (x : X) (f : α) (take : Bool) (w : Int) (s i : Nat) (cell is : List Nat) :
    want K x f (s :: cell) ((source take w s i).map (· :: is)) = match source take w s i with | some j => K.getX x (j * prod cell + ravel cell is) | none => some f := by
  cases source take w s i <;> rfl

theorem sub_mul_add {a b c : Nat} (h : b ≤ a) : (a - b) * c + b * c = a * c := by rw [← Nat.add_mul, Nat.sub_add_cancel h]

theorem takeOne_cons {M X α} {K : Kind M X α} {okr okx} (L : Lawful K okr okx) (w : Int) (f : α) (x : X) (s : Nat) (cell : List Nat) (hx : okx (prod (s :: cell)) x) :
    ∃ m, takeOne K w f x (s :: cell) = some (.made m (w.natAbs :: cell)) ∧ okr (prod (w.natAbs :: cell)) m ∧
      ∀ i is, i < w.natAbs → InShape cell is → K.get m (ravel (w.natAbs :: cell) (i :: is)) = want K x f (s :: cell) ((source true w s i).map (· :: is)) := by
  unfold takeOne
  rw [cellSize_cons, resShape_cons]
  simp only
  have hsh : prod (s :: cell) = s * prod cell := rfl
  have hrs : prod (w.natAbs :: cell) = w.natAbs * prod cell := rfl
  rw [hsh] at hx ⊢
  rw [hrs]
  have hk : ∀ i is, i < w.natAbs → InShape cell is → ravel cell is < prod cell := fun i is _ h => ravel_lt h
  by_cases hn : 0 ≤ w * prod cell
  · rw [if_pos hn]
    have hto : (w * prod cell).toNat = w.natAbs * prod cell := by
      have : ((w * prod cell).natAbs) = w.natAbs * prod cell := by rw [Int.natAbs_mul, Int.natAbs_natCast]
      omega
    rw [hto]
    have hw : 0 < prod cell → ¬ w < 0 := by
      intro hc hw
      have := Int.mul_neg_of_neg_of_pos hw (show (0 : Int) < prod cell by omega)
      omega
    have hsrc : ∀ i, 0 < prod cell → source true w s i = if i < s then some i else none := by
      intro i hc
      unfold source
      simp [hw hc]
    generalize hW : w.natAbs = W at *
    by_cases hlt : s * prod cell < W * prod cell
    · rw [if_pos hlt]
      obtain ⟨r, e, hr, hg⟩ := L.copy (W * prod cell) (s * prod cell) (K.new (W * prod cell)) x 0 0 (s * prod cell) (L.new _) hx (by omega) (by omega)
      rw [e, Option.bind_some]
      obtain ⟨r2, e2, hr2, hg2⟩ := L.fill (W * prod cell) r (s * prod cell) f (W * prod cell - s * prod cell) hr (by omega)
      refine ⟨r2, by rw [e2]; rfl, hr2, fun i is hi his => ?_⟩
      have hu := ravel_lt his
      rw [want_one, hsrc i (by omega)]
      show K.get r2 (i * prod cell + ravel cell is) = _
      have h1 : (i + 1) * prod cell ≤ W * prod cell := Nat.mul_le_mul_right _ hi
      rw [Nat.succ_mul] at h1
      rw [hg2 _ (by omega)]
      by_cases his2 : i < s
      · have h2 : (i + 1) * prod cell ≤ s * prod cell := Nat.mul_le_mul_right _ his2
        rw [Nat.succ_mul] at h2
        rw [if_neg (by omega), hg _ (by omega), if_pos (by omega), if_pos his2, Nat.zero_add, Nat.sub_zero]
      · have h2 : s * prod cell ≤ i * prod cell := Nat.mul_le_mul_right _ (by omega)
        rw [if_pos (by omega), if_neg his2]
    · rw [if_neg hlt]
      obtain ⟨m, e, hm, hg⟩ := slice_get L hx 0 (W * prod cell) (W :: cell) (by omega)
      refine ⟨m, e, hm, fun i is hi his => ?_⟩
      have hu := ravel_lt his
      rw [want_one, hsrc i (by omega)]
      show K.get m (i * prod cell + ravel cell is) = _
      have h1 : (i + 1) * prod cell ≤ W * prod cell := Nat.mul_le_mul_right _ hi
      rw [Nat.succ_mul] at h1
      have his2 : i < s := by
        rcases Nat.lt_or_ge i s with h | h
        · exact h
        · have := Nat.mul_le_mul_right (prod cell) h; omega
      rw [hg _ (by omega), if_pos his2, Nat.zero_add]
  · rw [if_neg hn]
    have hto : (w * prod cell).natAbs = w.natAbs * prod cell := by rw [Int.natAbs_mul, Int.natAbs_natCast]
    rw [hto]
    have hw : w < 0 := by
      rcases Int.lt_or_le w 0 with h | h
      · exact h
      · exact absurd (Int.mul_nonneg h (Int.natCast_nonneg _)) hn
    have hsrc : ∀ i, source true w s i = if w.natAbs ≤ i + s then some (i + s - w.natAbs) else none := by
      intro i
      unfold source
      simp [hw]
    generalize hW : w.natAbs = W at *
    by_cases hlt : s * prod cell < W * prod cell
    · rw [if_pos hlt]
      obtain ⟨r, e, hr, hg⟩ := L.fill (W * prod cell) (K.new (W * prod cell)) 0 f (W * prod cell - s * prod cell) (L.new _) (by omega)
      rw [e, Option.bind_some]
      obtain ⟨r2, e2, hr2, hg2⟩ := L.copy (W * prod cell) (s * prod cell) r x (W * prod cell - s * prod cell) 0 (s * prod cell) hr hx (by omega) (by omega)
      refine ⟨r2, by rw [e2]; rfl, hr2, fun i is hi his => ?_⟩
      have hu := ravel_lt his
      rw [want_one, hsrc i]
      show K.get r2 (i * prod cell + ravel cell is) = _
      have h1 : (i + 1) * prod cell ≤ W * prod cell := Nat.mul_le_mul_right _ hi
      rw [Nat.succ_mul] at h1
      rw [hg2 _ (by omega)]
      by_cases hc : W ≤ i + s
      · have h2 := sub_mul_add (c := prod cell) hc
        rw [Nat.add_mul] at h2
        rw [if_pos (by omega), if_pos hc]
        congr 1
        omega
      · have h2 : (i + s + 1) * prod cell ≤ W * prod cell := Nat.mul_le_mul_right _ (by omega)
        rw [Nat.succ_mul, Nat.add_mul] at h2
        rw [if_neg (by omega), if_neg hc, hg _ (by omega), if_pos (by omega)]
    · rw [if_neg hlt]
      obtain ⟨m, e, hm, hg⟩ := slice_get L hx (s * prod cell - W * prod cell) (W * prod cell) (W :: cell) (by omega)
      refine ⟨m, e, hm, fun i is hi his => ?_⟩
      have hu := ravel_lt his
      rw [want_one, hsrc i]
      show K.get m (i * prod cell + ravel cell is) = _
      have h1 : (i + 1) * prod cell ≤ W * prod cell := Nat.mul_le_mul_right _ hi
      rw [Nat.succ_mul] at h1
      have hc : W ≤ s := by
        rcases Nat.lt_or_ge s W with h | h
        · have := Nat.mul_lt_mul_of_pos_right h (show 0 < prod cell by omega); omega
        · exact h
      have h2 := sub_mul_add (c := prod cell) (show W ≤ i + s by omega)
      rw [Nat.add_mul] at h2
      rw [hg _ (by omega), if_pos (by omega)]
      simp only
      congr 1
      omega

theorem dropOne_cons {M X α} {K : Kind M X α} {okr okx} (L : Lawful K okr okx) (w : Int) (f : α) (x : X) (s : Nat) (cell : List Nat) (hx : okx (prod (s :: cell)) x) :
    ∃ m, dropOne K w x (s :: cell) = some (.made m ((s - w.natAbs) :: cell)) ∧ okr (prod ((s - w.natAbs) :: cell)) m ∧
      ∀ i is, i < s - w.natAbs → InShape cell is → K.get m (ravel ((s - w.natAbs) :: cell) (i :: is)) = want K x f (s :: cell) ((source false w s i).map (· :: is)) := by
  unfold dropOne
  rw [cellSize_cons, resShape_cons]
  simp only
  have hsh : prod (s :: cell) = s * prod cell := rfl
  have hrs : prod ((s - w.natAbs) :: cell) = (s - w.natAbs) * prod cell := rfl
  rw [hsh] at hx ⊢
  rw [hrs]
  have habs : (w * prod cell).natAbs = w.natAbs * prod cell := by rw [Int.natAbs_mul, Int.natAbs_natCast]
  have hempty : s * prod cell ≤ w.natAbs * prod cell → (s - w.natAbs) * prod cell = 0 := by
    intro h
    rcases Nat.eq_zero_or_pos (prod cell) with hc | hc
    · rw [hc]; rfl
    · rw [Nat.sub_eq_zero_of_le (Nat.le_of_mul_le_mul_right h hc), Nat.zero_mul]
  have hfull : ¬ s * prod cell ≤ w.natAbs * prod cell → (s - w.natAbs) * prod cell + w.natAbs * prod cell = s * prod cell := by
    intro h
    refine sub_mul_add ?_
    rcases Nat.lt_or_ge s w.natAbs with h2 | h2
    · exact absurd (Nat.mul_le_mul_right (prod cell) (Nat.le_of_lt h2)) h
    · exact h2
  have noElem : ∀ (m : M), okr 0 m → s * prod cell ≤ w.natAbs * prod cell → okr ((s - w.natAbs) * prod cell) m ∧
      ∀ i is, i < s - w.natAbs → InShape cell is → K.get m (ravel ((s - w.natAbs) :: cell) (i :: is)) = want K x f (s :: cell) ((source false w s i).map (· :: is)) := by
    intro m hm h
    refine ⟨by rw [hempty h]; exact hm, fun i is hi his => ?_⟩
    have h1 := ravel_lt (sh := (s - w.natAbs) :: cell) (.cons hi his)
    rw [hrs, hempty h] at h1
    omega
  by_cases hn : w * prod cell < 0
  · rw [if_pos hn]
    have hw : w < 0 := by
      rcases Int.lt_or_le w 0 with h | h
      · exact h
      · have := Int.mul_nonneg h (Int.natCast_nonneg (prod cell)); omega
    by_cases hle : ((s * prod cell : Nat) : Int) ≤ -(w * prod cell)
    · rw [if_pos hle]
      exact ⟨_, rfl, noElem _ (L.new 0) (by omega)⟩
    · rw [if_neg hle]
      have hf := hfull (by omega)
      have hto : (((s * prod cell : Nat) : Int) + w * prod cell).toNat = (s - w.natAbs) * prod cell := by omega
      rw [hto]
      obtain ⟨m, e, hm, hg⟩ := slice_get L hx 0 ((s - w.natAbs) * prod cell) ((s - w.natAbs) :: cell) (by omega)
      refine ⟨m, e, hm, fun i is hi his => ?_⟩
      have h1 := ravel_lt (sh := (s - w.natAbs) :: cell) (.cons hi his)
      rw [hg _ h1, want_one]
      unfold source
      simp [hw, ravel]
  · rw [if_neg hn]
    by_cases hle : ((s * prod cell : Nat) : Int) ≤ w * prod cell
    · rw [if_pos hle]
      exact ⟨_, rfl, noElem _ (L.new 0) (by omega)⟩
    · rw [if_neg hle]
      have hf := hfull (by omega)
      have hc : 0 < prod cell := by
        rcases Nat.eq_zero_or_pos (prod cell) with hc | hc
        · rw [hc] at hle; simp at hle
        · exact hc
      have hw : ¬ w < 0 := by
        intro hw
        have := Int.mul_neg_of_neg_of_pos hw (show (0 : Int) < prod cell by omega)
        omega
      have hto : (w * prod cell).toNat = w.natAbs * prod cell := by omega
      have hto2 : s * prod cell - (w * prod cell).toNat = (s - w.natAbs) * prod cell := by omega
      rw [hto2, hto]
      obtain ⟨m, e, hm, hg⟩ := slice_get L hx (w.natAbs * prod cell) ((s - w.natAbs) * prod cell) ((s - w.natAbs) :: cell) (by omega)
      refine ⟨m, e, hm, fun i is hi his => ?_⟩
      have h1 := ravel_lt (sh := (s - w.natAbs) :: cell) (.cons hi his)
      rw [hg _ h1, want_one]
      unfold source
      simp only [hw, decide_false]
      congr 1
      rw [ravel, Nat.add_mul]
      omega

end Verif.Take
