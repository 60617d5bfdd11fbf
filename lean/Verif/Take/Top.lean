import Verif.Take.Generic
/-!
# Take and Drop: all cases
-/
namespace Verif.Take
open Verif.Bits Verif.Slash Verif.Rep Verif.Select Verif.Under Verif.Rotate

theorem padShape_length (n : Nat) (sh : List Nat) : (padShape n sh).length = max n sh.length := by
  unfold padShape
  rw [List.length_append, List.length_replicate]
  omega

theorem prod_ones (n : Nat) : prod (List.replicate n 1) = 1 := by
  induction n with
  | zero => rfl
  | succ n ih => rw [List.replicate_succ, prod, ih]

theorem prod_padShape (n : Nat) (sh : List Nat) : prod (padShape n sh) = prod sh := by
  unfold padShape
  rw [prod_append, prod_ones, Nat.one_mul]

theorem padAmounts_length (take : Bool) (ws : List Int) (sh : List Nat) (h : ws.length ≤ sh.length) : (padAmounts take ws sh).length = sh.length := by
  unfold padAmounts
  rw [List.length_append, List.length_map, List.length_drop]
  omega

/-- What a result is to be. -/
def Good {M X α} (K : Kind M X α) (okr : Nat → M → Prop) (take : Bool) (ws : List Int) (f : α) (x : X) (sh : List Nat) (res : Res M X) : Prop :=
  res.shape = newShape take ws sh ∧ (∀ m s, res = .made m s → okr (prod s) m) ∧ ∀ is, InShape (newShape take ws sh) is → res.get K (ravel (newShape take ws sh) is) = want K x f sh (sources take ws sh is)

theorem keep_all (take : Bool) : ∀ sh : List Nat, newShape take (sh.map fun (s : Nat) => if take then (s : Int) else 0) sh = sh ∧
    ∀ is, InShape sh is → sources take (sh.map fun (s : Nat) => if take then (s : Int) else 0) sh is = some is
  | [] => ⟨rfl, fun is h => by cases h; rfl⟩
  | s :: sh => by
    obtain ⟨h1, h2⟩ := keep_all take sh
    refine ⟨?_, fun is h => ?_⟩
    · rw [List.map_cons, newShape, h1]
      congr 1
      cases take
      · rfl
      · exact Int.natAbs_natCast s
    · cases h with
      | @cons _ i _ is hi h =>
        rw [List.map_cons, sources, h2 _ h]
        have : source take (if take = true then (s : Int) else 0) s i = some i := by
          unfold source
          cases take
          · rfl
          · rw [if_pos rfl, show decide ((s : Int) < 0) = false from decide_eq_false (by omega)]
            exact if_pos hi
        rw [this]
        rfl

/-- An amount for the first axis only. -/
theorem first_only (take : Bool) (w : Int) (s : Nat) (ws : List Int) (cell : List Nat) (h : newShape take ws cell = cell) (hs : ∀ is, InShape cell is → sources take ws cell is = some is) :
    newShape take (w :: ws) (s :: cell) = newLen take w s :: cell ∧
    ∀ i is, InShape cell is → sources take (w :: ws) (s :: cell) (i :: is) = (source take w s i).map (· :: is) := by
  refine ⟨by rw [newShape, h], fun i is his => ?_⟩
  rw [sources, hs is his]
  cases source take w s i <;> rfl

theorem one_good {M X α} {K : Kind M X α} {okr okx} (Lw : Lawful K okr okx) (take : Bool) (w : Int) (f : α) (x : X) (s : Nat) (ws : List Int) (cell : List Nat) (hx : okx (prod (s :: cell)) x)
    (h : newShape take ws cell = cell) (hs : ∀ is, InShape cell is → sources take ws cell is = some is) :
    ∃ res, (if take = true then takeOne K w f x (s :: cell) else dropOne K w x (s :: cell)) = some res ∧ Good K okr take (w :: ws) f x (s :: cell) res := by
  obtain ⟨f1, f2⟩ := first_only take w s ws cell h hs
  cases take
  · obtain ⟨m, e, ok, g⟩ := dropOne_cons Lw w f x s cell hx
    refine ⟨_, (if_neg Bool.false_ne_true).trans e, f1.symm, fun m' s' he => by cases he; exact ok, fun is his => ?_⟩
    rw [f1] at his ⊢
    cases his with
    | cons hi his =>
      rw [f2 _ _ his]
      exact g _ _ hi his
  · obtain ⟨m, e, ok, g⟩ := takeOne_cons Lw w f x s cell hx
    refine ⟨_, (if_pos rfl).trans e, f1.symm, fun m' s' he => by cases he; exact ok, fun is his => ?_⟩
    rw [f1] at his ⊢
    cases his with
    | cons hi his =>
      rw [f2 _ _ his]
      exact g _ _ hi his

theorem takedrop_spec {M X α} {K : Kind M X α} {okr okx} (Lw : Lawful K okr okx) (take : Bool) (ws : List Int) (f : α) (x : X) (sh : List Nat) (hx : okx (prod sh) x) :
    ∃ res, takedrop K take ws f x sh = some res ∧ Good K okr take (padAmounts take ws (padShape ws.length sh)) f x (padShape ws.length sh) res := by
  rcases ws with _ | ⟨w, _ | ⟨w2, ws⟩⟩
  · have e : padShape ([] : List Int).length sh = sh := by unfold padShape; simp
    rw [e]
    obtain ⟨h1, h2⟩ := keep_all take sh
    refine ⟨_, rfl, h1.symm, fun m s he => (by cases he), fun is his => ?_⟩
    unfold padAmounts at his ⊢
    rw [List.nil_append, List.length_nil, List.drop_zero] at his ⊢
    rw [h1] at his ⊢
    rw [h2 _ his]
    rfl
  · rw [takedrop]
    cases sh with
    | nil => exact one_good Lw take w f x 1 [] [] hx rfl (fun is h => by cases h; rfl)
    | cons s cell =>
      have e : padShape [w].length (s :: cell) = s :: cell := by unfold padShape; simp
      rw [e]
      unfold padAmounts
      rw [List.length_singleton, List.drop_succ_cons, List.drop_zero]
      obtain ⟨h1, h2⟩ := keep_all take cell
      exact one_good Lw take w f x s _ cell hx h1 h2
  · rw [takedrop]
    · simp only
      have hxp : okx (prod (padShape (w :: w2 :: ws).length sh)) x := by rw [prod_padShape]; exact hx
      have hlen : (w :: w2 :: ws).length ≤ (padShape (w :: w2 :: ws).length sh).length := by rw [padShape_length]; omega
      generalize padShape (w :: w2 :: ws).length sh = xp at hxp hlen ⊢
      have hal := padAmounts_length take (w :: w2 :: ws) xp hlen
      have hxs := axes_xs take _ xp hal
      have hrs := axes_newShape take _ xp hal
      have hsrc := fun is => sources_win take _ xp is hal
      rw [hrs] at hsrc
      have hwa : ∃ ws', padAmounts take (w :: w2 :: ws) xp = w :: ws' := ⟨_, rfl⟩
      generalize padAmounts take (w :: w2 :: ws) xp = wa at hal hxs hrs hsrc hwa ⊢
      cases hcs : cellStart (axes take wa xp) with
      | none =>
        have hsame := cellStart_none hcs
        have hsh : newShape take wa xp = xp := by rw [← hrs, same_shape hsame, hxs]
        refine ⟨_, rfl, hsh.symm, fun m s he => (by cases he), fun is his => ?_⟩
        rw [hsrc _ his, winIdx_same take _ hsame is (by rw [hrs]; exact his), hsh]
        rfl
      | some n =>
        cases n with
        | zero =>
          simp only
          obtain ⟨o, c, i, h1, h2, h3⟩ := cellStart_some hcs
          obtain rfl : o = [] := List.length_eq_zero_iff.1 h2
          rw [List.nil_append] at h1
          obtain ⟨ws', rfl⟩ := hwa
          cases xp with
          | nil => cases hal
          | cons s cell =>
            have hal' : ws'.length = cell.length := by simpa using hal
            rw [axes_cons] at h1
            injection h1 with h1 h4
            have k1 : newShape take ws' cell = cell := by rw [← axes_newShape take ws' cell hal', h4, same_shape h3, ← h4, axes_xs take ws' cell hal']
            exact one_good Lw take w f x s ws' cell hxp k1 (fun is his => by
              have : InShape ((axes take ws' cell).map Ax.rs) is := by rw [axes_newShape take ws' cell hal', k1]; exact his
              rw [sources_win take ws' cell is hal' this, winIdx_same take _ (by rw [h4]; exact h3) is this])
        | succ n =>
          simp only
          rw [hrs]
          by_cases hz : prod (newShape take wa xp) = 0
          · rw [if_pos hz]
            refine ⟨_, rfl, rfl, fun m s he => by cases he; rw [hz]; exact Lw.new 0, fun is his => ?_⟩
            have := ravel_lt his
            omega
          · rw [if_neg hz]
            obtain ⟨o, c, i, h1, h2, h3⟩ := cellStart_some hcs
            rw [h1] at hxs hrs hsrc ⊢
            rw [← hxs] at hxp
            obtain ⟨m, e, ok, g⟩ := generic_spec Lw take f o c i (by rintro rfl; cases h2) h3 hxp (by rw [hrs]; exact hz)
            rw [h2] at e
            rw [e]
            refine ⟨_, rfl, rfl, fun m' s he => by cases he; rw [← hrs]; exact ok, fun is his => ?_⟩
            rw [hsrc _ his]
            rw [hrs] at g
            have := g is his
            rw [hxs] at this
            exact this
    · intro h; cases h

end Verif.Take
