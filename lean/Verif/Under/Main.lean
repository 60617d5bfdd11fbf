import Verif.Under.Paths
/-!
# Under Select from the indices to the result
-/
namespace Verif.Under
open Verif.Bits Verif.Fold Verif.Slash Verif.Rep Verif.Select

theorem replaced_nil {α} (compat : α → α → Bool) (csz : Nat) (rep x : Nat → α) (n : Nat) : Replaced compat csz [] rep x n x :=
  ⟨fun _ _ _ => rfl, fun i p h => by cases h⟩

theorem consistent_nil {α} (compat : α → α → Bool) (csz : Nat) (rep : Nat → α) : Consistent compat csz [] rep := fun i k p h => by cases h

/-- A loop from the start. -/
theorem loop_start {M α} {compat : α → α → Bool} (hc : Equiv compat) {cam csz wia : Nat} {rep : Nat → α} {Good : M → Prop} {view : M → Nat → α}
    {eq : M → Nat → Nat → Option Bool} {put : M → Nat → Nat → Option M} (hA : Acts compat cam csz wia rep Good view eq put) (m0 : M) (hg : Good m0) (ws : List Int) (hw : ws.length = wia)
    (hr : InRange cam ws) (set : List Bool) (hs : set.length = cam) (hset : ∀ p ∈ poss cam ws, set[p]? = some false) :
    (∃ r, replLoop cam eq put ws 0 set m0 = some (.ok r) ∧ Good r ∧ Consistent compat csz (poss cam ws) rep ∧ Replaced compat csz (poss cam ws) rep (view m0) (cam * csz) (view r)) ∨
      (replLoop cam eq put ws 0 set m0 = some .err ∧ ¬ Consistent compat csz (poss cam ws) rep) :=
  replLoop_spec hc hA m0 ws [] set m0 hr (fun v h => by simp at h) (by simpa using hw) hg hs
    (fun p hp => by rw [hset p hp, decide_eq_false (by simp [poss])]) (consistent_nil _ _ _) (replaced_nil _ _ _ _ _)

/-- `select_ucw` around a loop. -/
theorem ucw_spec {M α β} {compat : α → α → Bool} {compatB : β → β → Bool} (hc : Equiv compatB) (const fIdx : Bool) (ws : List (Option Int)) (xn csz : Nat) (hn : xn < 2^32) (h0 : 0 < csz)
    (sel : Option (Out (Res α))) (hsel : sel ≠ none) (hsel2 : sel = some .err ↔ positions xn ws = none) (t : Tgt α) (junk : Nat → Bool)
    {rep : Nat → β} {Good : M → Prop} {view : M → Nat → β} {eq : M → Nat → Nat → Option Bool} {put : M → Nat → Nat → Option M}
    (hA : Acts compatB xn csz ws.length rep Good view eq put) (m0 : M) (hg : Good m0) (wrap : M → Res α)
    (ht : ∀ ws : List Int, selectReplace compat fIdx ws xn t junk = (initSet xn ws junk).bind fun set => (replLoop xn eq put ws 0 set m0).map (Out.map wrap)) :
    Expected compatB csz (positions xn ws) rep (view m0) (xn * csz) view wrap Good (ucw compat const fIdx ws xn csz sel t junk) := by
  have hgood : ∀ ps, positions xn ws = some ps → (¬ Consistent compatB csz ps rep → replaceOr compat fIdx ws xn csz t junk = some .err) ∧
      (Consistent compatB csz ps rep → ∃ r, replaceOr compat fIdx ws xn csz t junk = some (.ok (wrap r)) ∧ Good r ∧ Replaced compatB csz ps rep (view m0) (xn * csz) (view r)) := by
    intro ps hps
    obtain ⟨h1, h2⟩ := positions_poss hps
    have hlen : (ws.filterMap id).length = ws.length := by
      have a : (poss xn (ws.filterMap id)).length = (ws.filterMap id).length := List.length_map _
      rw [h1, positions_length hps] at a
      exact a.symm
    obtain ⟨set, e, hs1, hs2⟩ := initSet_spec (ws.filterMap id) junk h2
    unfold replaceOr
    rw [if_neg (by omega), ht, e, Option.bind_some]
    have := loop_start hc hA m0 hg (ws.filterMap id) hlen h2 set hs1 hs2
    rw [h1] at this
    rcases this with ⟨r, e2, g, c, rp⟩ | ⟨e2, c⟩
    · rw [e2]
      exact ⟨fun h => absurd c h, fun _ => ⟨r, rfl, g, rp⟩⟩
    · rw [e2]
      exact ⟨fun _ => rfl, fun h => absurd h c⟩
  rcases hps : positions xn ws with _ | ps
  · have hse := hsel2.2 hps
    unfold ucw
    rw [hse, (rangeBad_spec hn ws).2 hps]
    show (if const = true then _ else _) = some Out.err
    cases const <;> rfl
  · have hrb : rangeBad xn ws = false := by
      rw [Bool.eq_false_iff]
      intro h
      rw [(rangeBad_spec hn ws).1 h] at hps
      cases hps
    have hne : sel ≠ some .err := fun h => by
      rw [hsel2.1 h] at hps
      cases hps
    have hu : ucw compat const fIdx ws xn csz sel t junk = replaceOr compat fIdx ws xn csz t junk := by
      unfold ucw
      rw [hrb]
      rcases sel with _ | _ | _
      · exact absurd rfl hsel
      · cases const <;> rfl
      · exact absurd rfl hne
    rw [hu]
    exact hgood ps hps

end Verif.Under
