import Verif.Take.Odo
/-!
# Take and Drop: the generic case
-/
namespace Verif.Take
open Verif.Bits Verif.Slash Verif.Rep Verif.Select Verif.Under Verif.Rotate

/-! ## Which elements have a source -/

/-- The index in the argument for an index in the result. -/
def winIdx (take : Bool) : List Ax → List Nat → Option (List Nat)
  | a :: as, i :: is => (if a.ro take ≤ i ∧ i < a.ro take + a.l then some (i - a.ro take + a.xo take) else none).bind fun j => (winIdx take as is).map (j :: ·)
  | _, _ => some []

theorem source_win (take : Bool) (w : Int) (s i : Nat) (hi : i < newLen take w s) :
    source take w s i = if (Ax.mk s (newLen take w s) (decide (w < 0))).ro take ≤ i ∧ i < (Ax.mk s (newLen take w s) (decide (w < 0))).ro take + (Ax.mk s (newLen take w s) (decide (w < 0))).l then
      some (i - (Ax.mk s (newLen take w s) (decide (w < 0))).ro take + (Ax.mk s (newLen take w s) (decide (w < 0))).xo take) else none := by
  unfold source Ax.ro Ax.xo Ax.l
  unfold newLen at *
  cases take <;> cases hw : decide (w < 0) <;> simp at hi ⊢
  · omega
  · omega
  · by_cases h : i < s
    · rw [if_pos h, if_pos (by omega)]
    · rw [if_neg h, if_neg (by omega)]
  · by_cases h : w.natAbs ≤ i + s
    · rw [if_pos h, if_pos (by omega)]; congr 1; omega
    · rw [if_neg h, if_neg (by omega)]

theorem axes_rs (take : Bool) (w : Int) (s : Nat) : (if take then w.natAbs else if s ≤ w.natAbs then 0 else s - w.natAbs) = newLen take w s := by
  unfold newLen
  cases take
  · simp only [Bool.false_eq_true, if_false]; split <;> omega
  · rfl

theorem axes_cons (take : Bool) (w : Int) (ws : List Int) (s : Nat) (sh : List Nat) : axes take (w :: ws) (s :: sh) = ⟨s, newLen take w s, w < 0⟩ :: axes take ws sh := by
  rw [axes]
  simp only [axes_rs]

theorem sources_win (take : Bool) : ∀ (ws : List Int) (sh is : List Nat), ws.length = sh.length → InShape ((axes take ws sh).map Ax.rs) is → sources take ws sh is = winIdx take (axes take ws sh) is
  | [], [], _, _, h => by cases h; rfl
  | [], _ :: _, _, h, _ => by cases h
  | _ :: _, [], _, h, _ => by cases h
  | w :: ws, s :: sh, is, hl, h => by
    rw [axes_cons] at h ⊢
    cases h with
    | cons hi h =>
      rw [sources, winIdx, source_win take w s _ hi, sources_win take ws sh _ (by simpa using hl) h]

theorem axes_xs (take : Bool) : ∀ (ws : List Int) (sh : List Nat), ws.length = sh.length → (axes take ws sh).map Ax.xs = sh
  | [], [], _ => rfl
  | [], _ :: _, h => by cases h
  | _ :: _, [], h => by cases h
  | w :: ws, s :: sh, h => by rw [axes_cons, List.map_cons, axes_xs take ws sh (by simpa using h)]

theorem axes_newShape (take : Bool) : ∀ (ws : List Int) (sh : List Nat), ws.length = sh.length → (axes take ws sh).map Ax.rs = newShape take ws sh
  | [], [], _ => rfl
  | [], _ :: _, h => by cases h
  | _ :: _, [], h => by cases h
  | w :: ws, s :: sh, h => by rw [axes_cons, List.map_cons, newShape, axes_newShape take ws sh (by simpa using h)]

theorem winIdx_append (take : Bool) : ∀ (a : List Ax) (i1 : List Nat), i1.length = a.length → ∀ (b : List Ax) (i2 : List Nat),
    winIdx take (a ++ b) (i1 ++ i2) = (winIdx take a i1).bind fun j1 => (winIdx take b i2).map (j1 ++ ·)
  | [], [], _, b, i2 => by
    show winIdx take b i2 = _
    simp [winIdx]
  | [], _ :: _, h, _, _ => by cases h
  | _ :: _, [], h, _, _ => by cases h
  | a :: as, i :: is, h, b, i2 => by
    rw [List.cons_append, List.cons_append, winIdx, winIdx, winIdx_append take as is (by simpa using h)]
    cases (if a.ro take ≤ i ∧ i < a.ro take + a.l then some (i - a.ro take + a.xo take) else none) with
    | none => rfl
    | some j =>
      rw [Option.bind_some, Option.bind_some]
      cases winIdx take as is with
      | none => rfl
      | some j1 =>
        rw [Option.bind_some, Option.map_some, Option.bind_some]
        cases winIdx take b i2 <;> rfl

theorem winIdx_same (take : Bool) : ∀ (L : List Ax), (∀ a ∈ L, a.rs = a.xs) → ∀ is, InShape (L.map Ax.rs) is → winIdx take L is = some is
  | [], _, _, h => by cases h; rfl
  | a :: L, hL, _, h => by
    cases h with
    | cons hi h =>
      have ha := hL a List.mem_cons_self
      have hl : a.l = a.rs := by unfold Ax.l; omega
      have hr : a.ro take = 0 := by unfold Ax.ro; split <;> omega
      have hx : a.xo take = 0 := by unfold Ax.xo; split <;> omega
      rw [winIdx, hl, hr, hx, if_pos (by omega), Option.bind_some, winIdx_same take L (fun b hb => hL b (List.mem_cons_of_mem _ hb)) _ h]
      rfl

/-- The elements with a source are those at distances from where the copied part begins. -/
theorem winIdx_some (take : Bool) : ∀ (L : List Ax) (is js : List Nat), is.length = L.length → winIdx take L is = some js →
    ∃ ds, InShape (L.map Ax.l) ds ∧ is = plus ds (L.map (Ax.ro take)) ∧ js = plus ds (L.map (Ax.xo take))
  | [], [], js, _, h => by
    rw [winIdx] at h
    · cases h; exact ⟨[], .nil, rfl, rfl⟩
    · intros; contradiction
  | [], _ :: _, _, h, _ => by cases h
  | _ :: _, [], _, h, _ => by cases h
  | a :: L, i :: is, js, hl, h => by
    rw [winIdx] at h
    obtain ⟨j, h1, h2⟩ := Option.bind_eq_some_iff.1 h
    obtain ⟨js', h3, h4⟩ := Option.map_eq_some_iff.1 h2
    by_cases hc : a.ro take ≤ i ∧ i < a.ro take + a.l
    · rw [if_pos hc] at h1
      cases h1
      obtain ⟨ds, d1, d2, d3⟩ := winIdx_some take L is js' (by simpa using hl) h3
      refine ⟨(i - a.ro take) :: ds, .cons (by omega) d1, ?_, ?_⟩
      · show i :: is = (i - a.ro take + a.ro take) :: plus ds (L.map (Ax.ro take))
        rw [← d2, Nat.sub_add_cancel hc.1]
      · subst h4
        show _ :: js' = (i - a.ro take + a.xo take) :: plus ds (L.map (Ax.xo take))
        rw [← d3]
    · rw [if_neg hc] at h1; cases h1

theorem winIdx_of (take : Bool) : ∀ (L : List Ax) (ds : List Nat), InShape (L.map Ax.l) ds → winIdx take L (plus ds (L.map (Ax.ro take))) = some (plus ds (L.map (Ax.xo take)))
  | [], _, h => by cases h; rfl
  | a :: L, _, h => by
    cases h with
    | @cons _ d _ ds hd h =>
      show winIdx take (a :: L) ((d + a.ro take) :: plus ds (L.map (Ax.ro take))) = some ((d + a.xo take) :: plus ds (L.map (Ax.xo take)))
      rw [winIdx, if_pos (by omega), Option.bind_some, winIdx_of take L ds h, Option.map_some, Nat.add_sub_cancel]

theorem winIdx_total (take : Bool) : ∀ (L : List Ax), (∀ a ∈ L, a.rs ≤ a.xs) → ∀ is, InShape (L.map Ax.rs) is → ∃ js, winIdx take L is = some js
  | [], _, _, h => by cases h; exact ⟨[], rfl⟩
  | a :: L, hL, _, h => by
    cases h with
    | cons hi h =>
      have ha := hL a List.mem_cons_self
      have hl : a.l = a.rs := by unfold Ax.l; omega
      have hr : a.ro take = 0 := by unfold Ax.ro; split <;> omega
      obtain ⟨js, e⟩ := winIdx_total take L (fun b hb => hL b (List.mem_cons_of_mem _ hb)) _ h
      rw [winIdx, hl, hr, if_pos (by omega), Option.bind_some, e]
      exact ⟨_, rfl⟩

theorem plus_ro_in (take : Bool) (L : List Ax) {ds : List Nat} (h : InShape (L.map Ax.l) ds) : InShape (L.map Ax.rs) (plus ds (L.map (Ax.ro take))) := by
  induction L generalizing ds with
  | nil => cases h; exact .nil
  | cons a L ih =>
    cases h with
    | cons hd h => exact .cons (by have := a.ro_le take; show _ + _ < _; omega) (ih h)

theorem plus_xo_in (take : Bool) (L : List Ax) {ds : List Nat} (h : InShape (L.map Ax.l) ds) : InShape (L.map Ax.xs) (plus ds (L.map (Ax.xo take))) := by
  induction L generalizing ds with
  | nil => cases h; exact .nil
  | cons a L ih =>
    cases h with
    | cons hd h => exact .cons (by have := a.xo_le take; show _ + _ < _; omega) (ih h)

theorem plus_reverse {a b : List Nat} (h : a.length = b.length) : (plus a b).reverse = plus a.reverse b.reverse := List.reverse_zipWith h

/-! ## The loop -/

theorem copyLoop_spec {M X α} {K : Kind M X α} {okr okx} (Lw : Lawful K okr okx) {x : X} {nx n : Nat} (hx : okx nx x) (anyFill : Bool) (f : α) (L : List Ax) (hne : L ≠ []) (hL : ∀ a ∈ L, 0 < a.l)
    (R Xs cw ri0 xi0 : Nat) (hcw : cw ≤ R) (hr : ∀ t, t < total L → ri0 + rpos L R t + cw ≤ n) (hxx : ∀ t, t < total L → xi0 + xpos L Xs t + cw ≤ nx) :
    ∀ fuel t, t < total L → total L - t ≤ fuel → ∀ pri r, okr n r →
      (∀ t', t' < t → ri0 + rpos L R t' + cw ≤ ri0 + rpos L R t) →
      (∀ t', t' < t → ∀ k, ri0 + rpos L R t' ≤ k → k < ri0 + rpos L R t' + cw → K.get r k = K.getX x (xi0 + xpos L Xs t' + (k - (ri0 + rpos L R t')))) →
      (anyFill = true → pri ≤ ri0 + rpos L R t ∧ (∀ t', t' < t → ri0 + rpos L R t' + cw ≤ pri) ∧
        ∀ k, k < pri → (∀ t', t' < total L → ¬ (ri0 + rpos L R t' ≤ k ∧ k < ri0 + rpos L R t' + cw)) → K.get r k = some f) →
      ∃ r' pri', copyLoop K x anyFill f R Xs cw fuel (mk L R Xs R Xs t) (ri0 + rpos L R t) (xi0 + xpos L Xs t) pri r = some (r', pri') ∧ okr n r' ∧
        (∀ t', t' < total L → ∀ k, ri0 + rpos L R t' ≤ k → k < ri0 + rpos L R t' + cw → K.get r' k = K.getX x (xi0 + xpos L Xs t' + (k - (ri0 + rpos L R t')))) ∧
        (anyFill = true → pri' ≤ n ∧ (∀ t', t' < total L → ri0 + rpos L R t' + cw ≤ pri') ∧
          ∀ k, k < pri' → (∀ t', t' < total L → ¬ (ri0 + rpos L R t' ≤ k ∧ k < ri0 + rpos L R t' + cw)) → K.get r' k = some f) := by
  intro fuel
  induction fuel with
  | zero => intro t ht hf; omega
  | succ fuel ih =>
    intro t ht hfu pri r hok hmono h1 h2
    have hrt := hr t ht
    have hxt := hxx t ht
    rw [copyLoop]
    -- the fill
    have hfill : ∃ r1 pri1, (if anyFill = true then (if ri0 + rpos L R t ≠ pri then K.fill r pri f (ri0 + rpos L R t - pri) else some r).map fun r => (r, ri0 + rpos L R t + cw) else some (r, pri)) = some (r1, pri1) ∧
        okr n r1 ∧ (∀ t', t' < t → ∀ k, ri0 + rpos L R t' ≤ k → k < ri0 + rpos L R t' + cw → K.get r1 k = K.getX x (xi0 + xpos L Xs t' + (k - (ri0 + rpos L R t')))) ∧
        (anyFill = true → pri1 = ri0 + rpos L R t + cw ∧ 
          ∀ k, k < ri0 + rpos L R t → (∀ t', t' < total L → ¬ (ri0 + rpos L R t' ≤ k ∧ k < ri0 + rpos L R t' + cw)) → K.get r1 k = some f) := by
      by_cases ha : anyFill = true
      · rw [if_pos ha]
        obtain ⟨p1, p2, p3⟩ := h2 ha
        by_cases hne2 : ri0 + rpos L R t ≠ pri
        · rw [if_pos hne2]
          obtain ⟨r1, e1, o1, g1⟩ := Lw.fill n r pri f (ri0 + rpos L R t - pri) hok (by omega)
          refine ⟨r1, ri0 + rpos L R t + cw, by rw [e1]; rfl, o1, fun t' ht' k hk1 hk2 => ?_, fun _ => ⟨rfl, fun k hk hcov => ?_⟩⟩
          · have := p2 t' ht'
            rw [g1 k (by omega), if_neg (by omega)]
            exact h1 t' ht' k hk1 hk2
          · rw [g1 k (by omega)]
            by_cases hc : pri ≤ k ∧ k < pri + (ri0 + rpos L R t - pri)
            · rw [if_pos hc]
            · rw [if_neg hc]; exact p3 k (by omega) hcov
        · rw [if_neg hne2]
          exact ⟨r, _, rfl, hok, h1, fun _ => ⟨rfl, fun k hk hcov => p3 k (by omega) hcov⟩⟩
      · rw [if_neg ha]
        exact ⟨r, pri, rfl, hok, h1, fun h => absurd h ha⟩
    obtain ⟨r1, pri1, e1, o1, q1, q2⟩ := hfill
    rw [e1, Option.bind_some]
    simp only
    obtain ⟨r2, e2, o2, g2⟩ := Lw.copy n nx r1 x (ri0 + rpos L R t) (xi0 + xpos L Xs t) cw o1 hx hrt hxt
    rw [e2, Option.bind_some]
    have q1' : ∀ t', t' < t + 1 → ∀ k, ri0 + rpos L R t' ≤ k → k < ri0 + rpos L R t' + cw → K.get r2 k = K.getX x (xi0 + xpos L Xs t' + (k - (ri0 + rpos L R t'))) := by
      intro t' ht' k hk1 hk2
      by_cases he : t' = t
      · subst he
        rw [g2 k (by omega), if_pos ⟨hk1, hk2⟩]
      · have := hmono t' (by omega)
        rw [g2 k (by omega), if_neg (by omega)]
        exact q1 t' (by omega) k hk1 hk2
    have q2' : anyFill = true → pri1 = ri0 + rpos L R t + cw ∧ ∀ k, k < pri1 → (∀ t', t' < total L → ¬ (ri0 + rpos L R t' ≤ k ∧ k < ri0 + rpos L R t' + cw)) → K.get r2 k = some f := by
      intro ha
      obtain ⟨p1, p2⟩ := q2 ha
      refine ⟨p1, fun k hk hcov => ?_⟩
      have := hcov t ht
      rw [g2 k (by omega), if_neg this]
      exact p2 k (by omega) hcov
    have hadv := advance_spec L hne hL R Xs t ht
    by_cases hlast : t + 1 < total L
    · rw [if_pos hlast] at hadv
      obtain ⟨dr, dx, a1, a2, a3, a4⟩ := hadv
      rw [a1]
      simp only
      have := ih (t + 1) hlast (by omega) pri1 r2 o2 (fun t' ht' => by
          by_cases he : t' = t
          · subst he; omega
          · have := hmono t' (by omega); omega) q1' (fun ha => by
          obtain ⟨p1, p2⟩ := q2' ha
          refine ⟨by omega, fun t' ht' => ?_, p2⟩
          by_cases he : t' = t
          · subst he; omega
          · have := hmono t' (by omega); omega)
      rw [a2, a3, ← Nat.add_assoc, ← Nat.add_assoc] at this
      exact this
    · rw [if_neg hlast] at hadv
      rw [hadv]
      have hT : total L = t + 1 := by omega
      refine ⟨r2, pri1, rfl, o2, fun t' ht' => q1' t' (by omega), fun ha => ?_⟩
      obtain ⟨p1, p2⟩ := q2' ha
      refine ⟨by omega, fun t' ht' => ?_, p2⟩
      by_cases he : t' = t
      · subst he; omega
      · have := hmono t' (by omega); omega

end Verif.Take
