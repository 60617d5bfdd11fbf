import Verif.Under.Model
import Verif.Under.Spec
import Verif.Select.Top
/-!
# Lemmas about Under Select
-/
namespace Verif.Under
open Verif.Bits Verif.Fold Verif.Slash Verif.Rep Verif.Select

/-- Matching is an equivalence. -/
structure Equiv {α} (compat : α → α → Bool) : Prop where
  refl : ∀ a, compat a a = true
  symm : ∀ a b, compat a b = true → compat b a = true
  trans : ∀ a b c, compat a b = true → compat b c = true → compat a c = true

/-- The positions of indices that are in range. -/
def poss (cam : Nat) (ws : List Int) : List Nat := ws.map fun v => (readW v cam).toNat

def InRange (cam : Nat) (ws : List Int) : Prop := ∀ v ∈ ws, -cam ≤ v ∧ v < cam

theorem readW_range {cam : Nat} {v : Int} (h : -cam ≤ v ∧ v < cam) : 0 ≤ readW v cam ∧ (readW v cam).toNat < cam := by
  unfold readW
  by_cases hv : v < 0
  · rw [if_pos hv]; omega
  · rw [if_neg hv]; omega

theorem poss_lt {cam : Nat} {ws : List Int} (h : InRange cam ws) : ∀ p ∈ poss cam ws, p < cam := by
  intro p hp
  obtain ⟨v, hv, rfl⟩ := List.mem_map.1 hp
  exact (readW_range (h v hv)).2

theorem sparseInit_spec {cam : Nat} : ∀ (ws : List Int) (set : List Bool), InRange cam ws → set.length = cam →
    ∃ s, sparseInit cam ws set = some s ∧ s.length = cam ∧ (∀ p ∈ poss cam ws, s[p]? = some false) ∧ ∀ p : Nat, set[p]? = some false → s[p]? = some false
  | [], set, _, hl => ⟨set, rfl, hl, fun p h => by simp [poss] at h, fun p h => h⟩
  | v :: vs, set, hr, hl => by
    have hv := readW_range (hr v List.mem_cons_self)
    rw [sparseInit, if_neg (by omega), wr_some (by omega), Option.bind_some]
    obtain ⟨s, e, h1, h2, h3⟩ := sparseInit_spec vs (set.set (readW v cam).toNat false) (fun u hu => hr u (List.mem_cons_of_mem _ hu)) (by rw [List.length_set]; exact hl)
    have hset : ∀ p : Nat, (p = (readW v cam).toNat ∨ set[p]? = some false) → (set.set (readW v cam).toNat false)[p]? = some false := by
      intro p h
      by_cases hp : p = (readW v cam).toNat
      · rw [hp, List.getElem?_set_self (by omega)]
      · rw [List.getElem?_set_ne (Ne.symm hp)]
        exact h.resolve_left hp
    refine ⟨s, e, h1, ?_, fun p h => h3 p (hset p (Or.inr h))⟩
    intro p hp
    rcases List.mem_cons.1 (show p ∈ (readW v cam).toNat :: poss cam vs from hp) with h | h
    · exact h3 p (hset p (Or.inl h))
    · exact h2 p h

theorem initSet_spec {cam : Nat} (ws : List Int) (junk : Nat → Bool) (h : InRange cam ws) :
    ∃ s, initSet cam ws junk = some s ∧ s.length = cam ∧ ∀ p ∈ poss cam ws, s[p]? = some false := by
  unfold initSet
  by_cases hs : ws.length < cam / 64
  · rw [if_pos hs]
    obtain ⟨s, e, h1, h2, _⟩ := sparseInit_spec ws (fresh junk cam) h (length_fresh _ _)
    exact ⟨s, e, h1, h2⟩
  · rw [if_neg hs]
    exact ⟨_, rfl, List.length_replicate, fun p hp => by rw [List.getElem?_replicate, if_pos (poss_lt h p hp)]⟩

/-- What the two functions of the loop do, for memory that `view` shows as elements. -/
structure Acts {M α} (compat : α → α → Bool) (cam csz wia : Nat) (rep : Nat → α) (Good : M → Prop) (view : M → Nat → α) (eq : M → Nat → Nat → Option Bool)
    (put : M → Nat → Nat → Option M) : Prop where
  eq : ∀ m c i, Good m → c < cam → i < wia → ∃ b, eq m c i = some b ∧ (b = true ↔ ∀ j, j < csz → compat (view m (c * csz + j)) (rep (i * csz + j)) = true)
  put : ∀ m c i, Good m → c < cam → i < wia → ∃ m', put m c i = some m' ∧ Good m' ∧
    (∀ k, k < cam * csz → k / csz ≠ c → view m' k = view m k) ∧ ∀ j, j < csz → view m' (c * csz + j) = rep (i * csz + j)

theorem div_cell {csz p j : Nat} (hj : j < csz) : (p * csz + j) / csz = p := by
  have : 0 < csz := by omega
  rw [Nat.mul_comm, Nat.mul_add_div this, Nat.div_eq_of_lt hj, Nat.add_zero]

theorem cell_lt {csz p j cam : Nat} (hj : j < csz) (hp : p < cam) : p * csz + j < cam * csz := by
  have := cell_end (width := csz) hp
  omega

theorem replLoop_spec {M α} {compat : α → α → Bool} (hc : Equiv compat) {cam csz wia : Nat} {rep : Nat → α} {Good : M → Prop} {view : M → Nat → α}
    {eq : M → Nat → Nat → Option Bool} {put : M → Nat → Nat → Option M} (hA : Acts compat cam csz wia rep Good view eq put) (m0 : M) :
    ∀ (vs us : List Int) (set : List Bool) (m : M), InRange cam vs → InRange cam us → us.length + vs.length = wia → Good m → set.length = cam →
      (∀ p ∈ poss cam (us ++ vs), set[p]? = some (decide (p ∈ poss cam us))) → Consistent compat csz (poss cam us) rep →
      Replaced compat csz (poss cam us) rep (view m0) (cam * csz) (view m) →
      (∃ r, replLoop cam eq put vs us.length set m = some (.ok r) ∧ Good r ∧ Consistent compat csz (poss cam (us ++ vs)) rep ∧
        Replaced compat csz (poss cam (us ++ vs)) rep (view m0) (cam * csz) (view r)) ∨
      (replLoop cam eq put vs us.length set m = some .err ∧ ¬ Consistent compat csz (poss cam (us ++ vs)) rep)
  | [], us, set, m, _, _, _, hg, _, _, hcon, hrep => Or.inl ⟨m, rfl, hg, by rw [List.append_nil]; exact hcon, by rw [List.append_nil]; exact hrep⟩
  | v :: vs, us, set, m, hr, hru, hw, hg, hl, hset, hcon, hrep => by
    have hv := readW_range (hr v List.mem_cons_self)
    rw [List.length_cons] at hw
    have hassoc : us ++ v :: vs = (us ++ [v]) ++ vs := by rw [List.append_assoc]; rfl
    have hposs : poss cam (us ++ [v]) = poss cam us ++ [(readW v cam).toNat] := by
      unfold poss
      rw [List.map_append]
      rfl
    have hplen : (poss cam us).length = us.length := List.length_map _
    have hmem : (readW v cam).toNat ∈ poss cam (us ++ v :: vs) := List.mem_map.2 ⟨v, by simp, rfl⟩
    have hlast : (poss cam (us ++ v :: vs))[us.length]? = some (readW v cam).toNat := by
      unfold poss
      rw [List.getElem?_map, List.getElem?_append_right (Nat.le_refl _), Nat.sub_self]
      rfl
    rw [replLoop, if_neg (by omega)]
    generalize (readW v cam).toNat = c at *
    dsimp only
    rw [hset c hmem, Option.bind_some]
    -- the test
    obtain ⟨b, eb, hb⟩ := hA.eq m c us.length hg hv.2 (by omega)
    have htest : ∃ ok, (if decide (c ∈ poss cam us) = true then eq m c us.length else some true) = some ok ∧
        (ok = true ↔ Consistent compat csz (poss cam (us ++ [v])) rep) := by
      by_cases hin : c ∈ poss cam us
      · rw [decide_eq_true hin, if_pos rfl, eb]
        refine ⟨b, rfl, hb.trans ⟨fun h => ?_, fun h j hj => ?_⟩⟩
        · -- the new cell matches the one in memory
          have hnew : ∀ (k : Nat), (poss cam us)[k]? = some c → ∀ j, j < csz → compat (rep (k * csz + j)) (rep (us.length * csz + j)) = true := fun k hk j hj =>
            hc.trans _ _ _ (hc.symm _ _ (hrep.2 k c hk j hj)) (h j hj)
          intro i k p hi hk j hj
          rw [hposs] at hi hk
          rcases Nat.lt_or_ge i us.length with hi1 | hi1
          · rw [List.getElem?_append_left (by omega)] at hi
            rcases Nat.lt_or_ge k us.length with hk1 | hk1
            · rw [List.getElem?_append_left (by omega)] at hk
              exact hcon i k p hi hk j hj
            · rw [List.getElem?_append_right (by omega), hplen] at hk
              have hk2 : k = us.length := by
                have := (List.getElem?_eq_some_iff.1 hk).1
                simp at this
                omega
              subst hk2
              rw [Nat.sub_self] at hk
              injection hk with hk
              subst hk
              exact hnew i hi j hj
          · rw [List.getElem?_append_right (by omega), hplen] at hi
            have hi2 : i = us.length := by
              have := (List.getElem?_eq_some_iff.1 hi).1
              simp at this
              omega
            subst hi2
            rw [Nat.sub_self] at hi
            injection hi with hi
            subst hi
            rcases Nat.lt_or_ge k us.length with hk1 | hk1
            · rw [List.getElem?_append_left (by omega)] at hk
              exact hc.symm _ _ (hnew k hk j hj)
            · rw [List.getElem?_append_right (by omega), hplen] at hk
              have hk2 : k = us.length := by
                have := (List.getElem?_eq_some_iff.1 hk).1
                simp at this
                omega
              subst hk2
              exact hc.refl _
        · obtain ⟨k, hk⟩ := List.getElem?_of_mem hin
          have hkl := (List.getElem?_eq_some_iff.1 hk).1
          refine hc.trans _ _ _ (hrep.2 k c hk j hj) (h k us.length c ?_ ?_ j hj)
          · rw [hposs, List.getElem?_append_left hkl]
            exact hk
          · rw [hposs, List.getElem?_append_right (by omega), hplen, Nat.sub_self]
            rfl
      · rw [decide_eq_false hin, if_neg (by simp)]
        refine ⟨true, rfl, fun _ => ?_, fun _ => rfl⟩
        intro i k p hi hk j hj
        rw [hposs] at hi hk
        have hnot : ∀ (n : Nat), (poss cam us)[n]? ≠ some c := fun n hn => hin (List.mem_of_getElem? hn)
        have hcase : ∀ (n : Nat), (poss cam us ++ [c])[n]? = some p → (n < us.length ∧ (poss cam us)[n]? = some p) ∨ (n = us.length ∧ p = c) := by
          intro n hn
          rcases Nat.lt_or_ge n us.length with h1 | h1
          · rw [List.getElem?_append_left (by omega)] at hn
            exact Or.inl ⟨h1, hn⟩
          · rw [List.getElem?_append_right (by omega), hplen] at hn
            have h2 : n = us.length := by
              have := (List.getElem?_eq_some_iff.1 hn).1
              simp at this
              omega
            subst h2
            rw [Nat.sub_self] at hn
            injection hn with hn
            exact Or.inr ⟨rfl, hn.symm⟩
        rcases hcase i hi with ⟨_, hi2⟩ | ⟨hi2, hpc⟩ <;> rcases hcase k hk with ⟨_, hk2⟩ | ⟨hk2, hpc2⟩
        · exact hcon i k p hi2 hk2 j hj
        · subst hpc2
          exact absurd hi2 (hnot i)
        · subst hpc
          exact absurd hk2 (hnot k)
        · rw [hi2, hk2]
          exact hc.refl _
    obtain ⟨ok, eok, hok⟩ := htest
    rw [eok, Option.bind_some]
    cases ok with
    | false =>
      refine Or.inr ⟨rfl, fun h => ?_⟩
      have : Consistent compat csz (poss cam (us ++ [v])) rep := by
        intro i k p hi hk j hj
        refine h i k p ?_ ?_ j hj
        all_goals
          rw [hassoc]
          unfold poss at *
          rw [List.map_append]
        · rw [List.getElem?_append_left (List.getElem?_eq_some_iff.1 hi).1]; exact hi
        · rw [List.getElem?_append_left (List.getElem?_eq_some_iff.1 hk).1]; exact hk
      exact Bool.noConfusion (hok.2 this)
    | true =>
      rw [if_neg (by simp), wr_some (by omega), Option.bind_some]
      obtain ⟨m', e, hg', hkeep, hnew⟩ := hA.put m c us.length hg hv.2 (by omega)
      rw [e, Option.bind_some]
      have ih := replLoop_spec hc hA m0 vs (us ++ [v]) (set.set c true) m' (fun u hu => hr u (List.mem_cons_of_mem _ hu))
        (fun u hu => by
          rcases List.mem_append.1 hu with h | h
          · exact hru u h
          · rw [List.mem_singleton.1 h]; exact hr v List.mem_cons_self)
        (by rw [List.length_append, List.length_singleton]; omega) hg' (by rw [List.length_set]; exact hl)
        (fun p hp => by
          rw [← hassoc] at hp
          rw [hposs]
          by_cases hpc : p = c
          · rw [hpc, List.getElem?_set_self (by omega), decide_eq_true (by simp)]
          · rw [List.getElem?_set_ne (Ne.symm hpc), hset p hp]
            congr 1
            rw [decide_eq_decide, List.mem_append, List.mem_singleton]
            exact ⟨Or.inl, fun h => h.resolve_right hpc⟩)
        (hok.1 rfl)
        ⟨fun k hk hnp => by
          rw [hposs, List.mem_append, List.mem_singleton, not_or] at hnp
          rw [hkeep k hk hnp.2]
          exact hrep.1 k hk hnp.1,
        fun i p hi j hj => by
          by_cases hpc : p = c
          · subst hpc
            rw [hnew j hj]
            exact hok.1 rfl us.length i p (by rw [hposs, List.getElem?_append_right (by omega), hplen, Nat.sub_self]; rfl) hi j hj
          · rw [hposs] at hi
            have hi1 : i < us.length := Classical.byContradiction fun h => by
              rw [List.getElem?_append_right (by omega), hplen] at hi
              have h2 : i = us.length := by
                have := (List.getElem?_eq_some_iff.1 hi).1
                simp at this
                omega
              subst h2
              rw [Nat.sub_self] at hi
              injection hi with hi
              exact hpc hi.symm
            rw [List.getElem?_append_left (by omega)] at hi
            have hpl : p < cam := poss_lt hru p (List.mem_of_getElem? hi)
            rw [hkeep _ (cell_lt hj hpl) (by rw [div_cell hj]; exact hpc)]
            exact hrep.2 i p hi j hj⟩
      rw [List.length_append, List.length_singleton, ← hassoc] at ih
      exact ih

end Verif.Under
