import Verif.EachRef.Main
namespace Verif.EachRef

theorem good_nil {res : Nat → V} {n : Nat} {w x : Nat → Option V} {s : S} (hn : n = 0) (hs : s.slots.length = 0)
    (hc : s.calls = []) : Good res n w x s := by
  subst hn
  exact ⟨List.length_eq_zero_iff.mp hs, by rw [hc]; rfl⟩

theorem eachd_ok (res : Nat → V) (new : V) (const : Option V) (w x : Arg) (s : S) (hw : w.Ok) (hx : x.Ok)
    (ha : Agree w x) (hk : ∀ fo, const = some fo → ∀ i, res i = fo)
    (hs : ∀ j, s.hand j = one w.v j + one x.v j) (hc : s.calls = []) :
    ∃ s', eachd res new const w x s = some s' ∧ (∀ j, s'.hand j = 0) ∧
      s'.slots = (List.range (count w x)).map (fun i => some (res i)) ∧
      (const = none → Good res (count w x) (w.at (count w x)) (x.at (count w x)) s') := by
  obtain ⟨wv, s1, d1, d2, _, d4, d5, d6⟩ := disclose_ok (b := one x.v) hw (fun j => by rw [hs j]; omega)
  obtain ⟨xv, s2, e1, e2, _, e4, e5, e6⟩ := disclose_ok (b := one wv) hx (fun j => by rw [d2 j]; omega)
  have hc2 : s2.calls = [] := by rw [e4, d4, hc]
  have hn := @Nat.lt_or_ge x.rank w.rank
  simp only [eachd, d1, e1, Option.bind_eq_bind, Option.bind_some]
  -- from a good state without references
  have done : ∀ s', (∀ j, s'.hand j = 0) → Good res (count w x) (w.at (count w x)) (x.at (count w x)) s' →
      (∀ j, s'.hand j = 0) ∧ s'.slots = (List.range (count w x)).map (fun i => some (res i)) ∧
      (const = none → Good res (count w x) (w.at (count w x)) (x.at (count w x)) s') :=
    fun s' h1 h2 => ⟨h1, h2.1, fun _ => h2⟩
  by_cases h0 : (if decide (x.rank < w.rank) = true then w.rank else x.rank) = 0
  · rw [if_pos h0]
    have hr : w.rank = 0 ∧ x.rank = 0 := by
      split at h0 <;> rename_i hh <;> simp only [decide_eq_true_eq] at hh <;> omega
    have iw := d5 hr.1
    have ix := e5 hr.2
    have cn : count w x = 1 := by unfold count; rw [if_neg (by omega), ix]; rfl
    obtain ⟨s3, f1, f2, f3, f4⟩ := turn_ok (res := res) (ws := .copy wv) (xs := .copy xv) (i := 0)
      (s := { s2.inc new 1 with slots := [none] }) (b := one new)
      (fun j => by show s2.hand j + 1 * one new j = _; rw [e2 j]; simp only [Src.cost]; omega) trivial trivial
      (w := some wv) (x := xv) rfl rfl (.inl rfl) (by simp [Before, Src.isMove])
    obtain ⟨s4, g1, g2, g3, g4⟩ := give1 f2
    refine ⟨s4, by rw [f1]; exact g1, done s4 g2 (good_congr (s := s3) ?_ g3 g4)⟩
    rw [cn]
    have hcl : ({ s2.inc new 1 with slots := [none] } : S).calls = [] := hc2
    constructor
    · rw [f3, hcl]
      rfl
    · rw [f4, hcl]
      have : List.range 1 = [0] := rfl
      rw [this]
      simp [at_one iw (show 0 < 1 by omega), at_one ix (show 0 < 1 by omega)]
  rw [if_neg h0]
  by_cases hre : (((decide ((if decide (x.rank < w.rank) = true then w.rank else x.rank) = w.rank) && w.reuse) ||
      (decide ((if decide (x.rank < w.rank) = true then w.rank else x.rank) = x.rank) && x.reuse)) &&
      (decide (w.rank = x.rank) || decide ((if decide (x.rank < w.rank) = true then x.rank else w.rank) = 0))) = true
  · rw [if_pos hre]
    by_cases hwx : w.rank = x.rank
    · have q : decide (x.rank < w.rank) = false := decide_eq_false (by omega)
      rw [q] at h0 hre
      simp only [Bool.false_eq_true, if_false] at h0 hre
      have iw := d6 (by omega)
      have ix := e6 (by omega)
      have hlen := ha.1 hwx
      have cn : count w x = x.els.length := by unfold count; rw [if_neg (by omega), ix]
      rw [cn] at done ⊢
      have hwl : w.els.length = x.els.length := by rw [← iw, ← ix]; exact hlen
      have q2 : decide (x.rank = w.rank) = true := decide_eq_true hwx.symm
      simp only [q, Bool.false_eq_true, if_false, q2, Bool.true_and]
      cases hru : w.reuse with
      | true =>
        simp only [if_true]
        rw [if_pos hru]
        rw [if_neg (show ¬ w.rank = 0 by omega), if_neg (show ¬ x.rank = 0 by omega)]
        rw [← hwl] at done ⊢
        by_cases hp : 0 < w.els.length
        · rw [if_pos hp]
          obtain ⟨s3, f1, f2, f3⟩ := reuse_ok (res := res) (ws := .move) (xs := .get xv x.els) (els := w.els)
            (wf := fun k => some (w.els.getD k 0)) (xf := fun k => x.els.getD k 0)
            (wo := w.at w.els.length) (xo := x.at w.els.length) (b := fun j => one xv j + one wv j)
            (s := { hand := s2.hand, slots := List.map some w.els, calls := s2.calls })
            (.inr ⟨rfl, rfl⟩) trivial (by show 1 ≤ one xv xv + _; rw [one_self]; omega)
            (fun j => by show s2.hand j = _; rw [e2 j]; simp only [Src.cost]; omega) hc2 rfl
            (fun k hk => ⟨(slot_move hk).1, get_item (by omega)⟩)
            (fun k hk => ⟨by rw [at_same (by rw [iw]) hk, iw], by rw [at_same (by rw [ix, hwl]) hk, ix]⟩)
          obtain ⟨s4, g1, g2, g3, g4⟩ := give2 f2
          exact ⟨s4, by rw [f1]; exact g1, done s4 g2 (good_congr f3 g3 g4)⟩
        · rw [if_neg hp]
          obtain ⟨s4, g1, g2, g3, g4⟩ := give2 (s := { hand := s2.hand, slots := List.map some w.els, calls := s2.calls })
            (a := xv) (b := wv) (fun j => by show s2.hand j = _; rw [e2 j]; omega)
          exact ⟨s4, g1, done s4 g2 (good_nil (by omega) (by rw [g3, List.length_map]; omega) (by rw [g4]; exact hc2))⟩
      | false =>
        have hrx : x.reuse = true := by simpa [hru, hwx] using hre
        simp only [Bool.false_eq_true, if_false]
        rw [if_pos hrx]
        rw [if_neg (show ¬ w.rank = 0 by omega), if_neg (show ¬ x.rank = 0 by omega)]
        by_cases hp : 0 < x.els.length
        · rw [if_pos hp]
          obtain ⟨s3, f1, f2, f3⟩ := reuse_ok (res := res) (ws := .get wv w.els) (xs := .move) (els := x.els)
            (wf := fun k => some (w.els.getD k 0)) (xf := fun k => x.els.getD k 0)
            (wo := w.at x.els.length) (xo := x.at x.els.length) (b := fun j => one wv j + one xv j)
            (s := { hand := s2.hand, slots := List.map some x.els, calls := s2.calls })
            (.inl ⟨rfl, rfl⟩) (by show 1 ≤ one wv wv + _; rw [one_self]; omega) trivial
            (fun j => by show s2.hand j = _; rw [e2 j]; simp only [Src.cost]; omega) hc2 rfl
            (fun k hk => ⟨get_item (by omega), (slot_move hk).1⟩)
            (fun k hk => ⟨by rw [at_same (by rw [iw, hwl]) hk, iw], by rw [at_same (by rw [ix]) hk, ix]⟩)
          obtain ⟨s4, g1, g2, g3, g4⟩ := give2 f2
          exact ⟨s4, by rw [f1]; exact g1, done s4 g2 (good_congr f3 g3 g4)⟩
        · rw [if_neg hp]
          obtain ⟨s4, g1, g2, g3, g4⟩ := give2 (s := { hand := s2.hand, slots := List.map some x.els, calls := s2.calls })
            (a := wv) (b := xv) (fun j => by show s2.hand j = _; rw [e2 j])
          exact ⟨s4, g1, done s4 g2 (good_nil (by omega) (by rw [g3, List.length_map]; omega) (by rw [g4]; exact hc2))⟩
    · by_cases hw0 : w.rank = 0
      · have q : decide (x.rank < w.rank) = false := decide_eq_false (by omega)
        have q2 : decide (x.rank = w.rank) = false := decide_eq_false (by omega)
        have ix := e6 (by omega)
        have iw := d5 hw0
        have cn : count w x = x.els.length := by unfold count; rw [if_neg (by omega), ix]
        rw [cn] at done ⊢
        have hrx : x.reuse = true := by
          rw [q] at hre
          simp only [Bool.false_eq_true, if_false, q2, Bool.false_and, Bool.false_or, Bool.and_eq_true] at hre
          exact hre.1.2
        simp only [q, q2, Bool.false_eq_true, if_false, Bool.false_and, if_pos hw0]
        rw [if_pos hrx]
        by_cases hp : 0 < x.els.length
        · rw [if_pos hp]
          obtain ⟨s3, f1, f2, f3⟩ := reuse_ok (res := res) (ws := .copy wv) (xs := .move) (els := x.els)
            (wf := fun _ => some wv) (xf := fun k => x.els.getD k 0)
            (wo := w.at x.els.length) (xo := x.at x.els.length) (b := one xv)
            (s := ({ hand := s2.hand, slots := List.map some x.els, calls := s2.calls } : S).inc wv (x.els.length - 1))
            (.inl ⟨rfl, rfl⟩) trivial trivial
            (fun j => by
              show s2.hand j + _ = _
              rw [e2 j]
              simp only [Src.cost]
              rw [← mul_pred _ hp (one wv j)]
              omega) hc2 rfl
            (fun k hk => ⟨rfl, (slot_move hk).1⟩)
            (fun k hk => ⟨at_one iw hk, by rw [at_same (by rw [ix]) hk, ix]⟩)
          obtain ⟨s4, g1, g2, g3, g4⟩ := give1 f2
          exact ⟨s4, by rw [f1]; exact g1, done s4 g2 (good_congr f3 g3 g4)⟩
        · rw [if_neg hp]
          obtain ⟨s4, g1, g2, g3, g4⟩ := give2 (s := { hand := s2.hand, slots := List.map some x.els, calls := s2.calls })
            (a := wv) (b := xv) (fun j => by show s2.hand j = _; rw [e2 j])
          exact ⟨s4, g1, done s4 g2 (good_nil (by omega) (by rw [g3, List.length_map]; omega) (by rw [g4]; exact hc2))⟩
      · have hx0 : x.rank = 0 := by
          simp only [Bool.and_eq_true, Bool.or_eq_true, decide_eq_true_eq, hwx, false_or] at hre
          have := hre.2
          split at this <;> omega
        have q : decide (x.rank < w.rank) = true := decide_eq_true (by omega)
        have iw := d6 (by omega)
        have ix := e5 hx0
        have cn : count w x = w.els.length := by unfold count; rw [if_pos (by omega), iw]
        rw [cn] at done ⊢
        rw [q] at hre
        simp only [if_true, decide_true, Bool.true_and] at hre
        have q3 : decide (w.rank = x.rank) = false := decide_eq_false hwx
        have hru : w.reuse = true := by
          simp only [q3, Bool.false_and, Bool.or_false, Bool.and_eq_true] at hre
          exact hre.1
        simp only [q, if_true, decide_true, Bool.true_and, hru, if_neg hw0, if_pos hx0]
        by_cases hp : 0 < w.els.length
        · rw [if_pos hp]
          obtain ⟨s3, f1, f2, f3⟩ := reuse_ok (res := res) (ws := .move) (xs := .copy xv) (els := w.els)
            (wf := fun k => some (w.els.getD k 0)) (xf := fun _ => xv)
            (wo := w.at w.els.length) (xo := x.at w.els.length) (b := one wv)
            (s := ({ hand := s2.hand, slots := List.map some w.els, calls := s2.calls } : S).inc xv (w.els.length - 1))
            (.inr ⟨rfl, rfl⟩) trivial trivial
            (fun j => by
              show s2.hand j + _ = _
              rw [e2 j]
              simp only [Src.cost]
              rw [← mul_pred _ hp (one xv j)]
              omega) hc2 rfl
            (fun k hk => ⟨(slot_move hk).1, rfl⟩)
            (fun k hk => ⟨by rw [at_same (by rw [iw]) hk, iw], at_one ix hk⟩)
          obtain ⟨s4, g1, g2, g3, g4⟩ := give1 f2
          exact ⟨s4, by rw [f1]; exact g1, done s4 g2 (good_congr f3 g3 g4)⟩
        · rw [if_neg hp]
          obtain ⟨s4, g1, g2, g3, g4⟩ := give2 (s := { hand := s2.hand, slots := List.map some w.els, calls := s2.calls })
            (a := xv) (b := wv) (fun j => by show s2.hand j = _; rw [e2 j]; omega)
          exact ⟨s4, g1, done s4 g2 (good_nil (by omega) (by rw [g3, List.length_map]; omega) (by rw [g4]; exact hc2))⟩
  · rw [if_neg hre]
    have fin : ∀ n s3, (∀ j, s3.hand j = one wv j + one xv j + one new j) → ∀ _ : count w x = n,
        s3.slots = (List.range n).map (fun i => some (res i)) →
        (const = none → Good res n (w.at n) (x.at n) s3) →
        ∃ s', ((s3.give wv).bind fun s => (s.give xv).bind fun s => s.give new) = some s' ∧ (∀ j, s'.hand j = 0) ∧
          s'.slots = (List.range (count w x)).map (fun i => some (res i)) ∧
          (const = none → Good res (count w x) (w.at (count w x)) (x.at (count w x)) s') := by
      intro n s3 h1 hn h2 h3
      obtain ⟨s4, g1, g2, g3, g4⟩ := give3 h1
      rw [hn]
      exact ⟨s4, g1, g2, by rw [g3, h2], fun hcn => good_congr (h3 hcn) g3 g4⟩
    have cn : count w x = if decide (x.rank < w.rank) = true then w.els.length else x.els.length := by
      unfold count
      by_cases hlt : x.rank < w.rank
      · rw [if_pos hlt, if_pos (decide_eq_true hlt), d6 (by omega)]
      · rw [if_neg hlt, if_neg (by simpa using hlt)]
        rw [e6]
        rw [if_neg (by simpa using hlt)] at h0
        omega
    rw [← cn]
    obtain ⟨n, hn⟩ : ∃ n, count w x = n := ⟨_, rfl⟩
    rw [hn] at fin ⊢
    have hh : ∀ j, (s2.inc new 1).hand j = one wv j + one xv j + one new j := fun j => by
      rw [inc_hand, e2 j]; omega
    have r1 : 1 ≤ one wv wv + one xv wv + one new wv := by rw [one_self]; omega
    have r2 : 1 ≤ one wv xv + one xv xv + one new xv := by rw [one_self xv]; omega
    by_cases hn0 : n = 0
    · rw [if_pos hn0]
      subst hn0
      refine fin 0 _ hh rfl rfl (fun _ => good_nil rfl rfl hc2)
    rw [if_neg hn0]
    cases hcon : const with
    | some fo =>
      rw [hcon] at fin hk
      refine fin n _ hh rfl ?_ nofun
      show List.replicate n (some fo) = _
      apply List.ext_getElem?
      intro k
      rw [List.getElem?_replicate, List.getElem?_map]
      by_cases hkn : k < n
      · rw [if_pos hkn, List.getElem?_range hkn, Option.map_some, hk fo rfl]
      · rw [if_neg hkn, List.getElem?_eq_none (by rw [List.length_range]; omega)]
        rfl
    | none =>
      rw [hcon] at fin
      -- what a loop does here
      have lp : ∀ (ws xs : Src) (s3 : S) (wf : Nat → Option V) (xf : Nat → V), ws.isMove = false ∧ xs.isMove = false →
          ws.Reads (fun j => one wv j + one xv j + one new j) → xs.Reads (fun j => one wv j + one xv j + one new j) →
          (∀ j, s3.hand j = one wv j + one xv j + one new j + n * ws.cost j + n * xs.cost j) → s3.calls = [] →
          s3.slots = List.replicate n none →
          (∀ k, k < n → ws.item (List.replicate n none) k = some (wf k) ∧
            xs.item (List.replicate n none) k = some (some (xf k))) →
          (∀ k, k < n → w.at n k = wf k ∧ x.at n k = some (xf k)) →
          ∃ s', ((loop res ws xs n 0 s3).bind fun s => (s.give wv).bind fun s => (s.give xv).bind fun s => s.give new) =
            some s' ∧ (∀ j, s'.hand j = 0) ∧ s'.slots = (List.range n).map (fun i => some (res i)) ∧
            ((none : Option V) = none → Good res n (w.at n) (x.at n) s') := by
        intro ws xs s3 wf xf m1 m2 m3 m4 m5 m6 m7 m8
        obtain ⟨s4, f1, f2, f3⟩ := fresh_ok (res := res) m1 m2 m3 m4 m5 m6 m7 m8
        rw [f1]
        exact fin n s4 f2 rfl f3.1 (fun _ => f3)
      by_cases hwx : w.rank = x.rank
      · rw [if_pos hwx]
        have q : ¬ decide (x.rank < w.rank) = true := by simp; omega
        rw [if_neg q] at h0 cn
        have iw := d6 (by omega)
        have ix := e6 (by omega)
        have hlen := ha.1 hwx
        rw [iw, ix] at hlen
        exact lp _ _ _ (fun k => some (w.els.getD k 0)) (fun k => x.els.getD k 0) ⟨rfl, rfl⟩ r1 r2
          (fun j => by rw [← hh j]; rfl) hc2 rfl (fun k hk => ⟨get_item (by omega), get_item (by omega)⟩)
          (fun k hk => ⟨by rw [at_same (by rw [iw]; omega) hk, iw], by rw [at_same (by rw [ix]; omega) hk, ix]⟩)
      rw [if_neg hwx]
      by_cases hw0 : w.rank = 0
      · rw [if_pos hw0]
        have q : ¬ decide (x.rank < w.rank) = true := by simp; omega
        rw [if_neg q] at h0 cn
        have iw := d5 hw0
        have ix := e6 (by omega)
        exact lp _ _ _ (fun _ => some wv) (fun k => x.els.getD k 0) ⟨rfl, rfl⟩ trivial r2
          (fun j => by rw [← hh j]; rfl) hc2 rfl (fun k hk => ⟨rfl, get_item (by omega)⟩)
          (fun k hk => ⟨at_one iw hk, by rw [at_same (by rw [ix]; omega) hk, ix]⟩)
      rw [if_neg hw0]
      by_cases hx0 : x.rank = 0
      · rw [if_pos hx0]
        have q : decide (x.rank < w.rank) = true := by simp; omega
        rw [if_pos q] at h0 cn
        have iw := d6 (by omega)
        have ix := e5 hx0
        exact lp _ _ _ (fun k => some (w.els.getD k 0)) (fun _ => xv) ⟨rfl, rfl⟩ r1 trivial
          (fun j => by rw [← hh j]; rfl) hc2 rfl (fun k hk => ⟨get_item (by omega), rfl⟩)
          (fun k hk => ⟨by rw [at_same (by rw [iw]; omega) hk, iw], at_one ix hk⟩)
      rw [if_neg hx0]
      have iw := d6 (by omega)
      have ix := e6 (by omega)
      by_cases hlt : x.rank < w.rank
      · have q := decide_eq_true hlt
        rw [if_pos q] at cn ⊢
        obtain ⟨m, hm⟩ := ha.2.2 (by omega)
        have hl : n = m * x.els.length := by rw [← hn, cn, ← iw, hm, ix, Nat.mul_comm]
        have hx1 : 0 < x.els.length := by
          rcases Nat.eq_zero_or_pos x.els.length with h | h
          · rw [h] at hl; omega
          · exact h
        have hm0 : 0 < m := by
          rcases Nat.eq_zero_or_pos m with h | h
          · rw [h] at hl; omega
          · exact h
        have hwl : w.els.length = n := by omega
        rw [hl, Nat.mul_div_cancel _ hx1, ← hl]
        obtain ⟨s4, f1, f2, f3⟩ := fresh_blocks (res := res) (left := false) (small := xv) (a := wv) (bels := w.els)
          (cs := x.els) (ext := m) (b := fun j => one wv j + one xv j + one new j)
          (s := { hand := (s2.inc new 1).hand, slots := List.replicate n none, calls := (s2.inc new 1).calls })
          (wo := w.at n) (xo := x.at n) hm0 r2 r1 (by omega) hh hc2 (by rw [hwl]) (by
            intro k hk
            have e1 : w.at n k = some (w.els.getD k 0) := by rw [at_same (by rw [iw]; omega) (by omega), iw]
            have e2 : x.at n k = some (x.els.getD (k / m) 0) := by
              have := at_block (a := x) (ext := m) (i := k) (by rw [ix]; omega) hm0
              rw [ix, ← hl] at this
              exact this
            rw [e1, e2]
            rfl)
        rw [hwl] at f3
        rw [f1]
        exact fin n s4 f2 rfl f3.1 (fun _ => f3)
      · have q : ¬ decide (x.rank < w.rank) = true := by simpa using hlt
        rw [if_neg q] at cn ⊢
        obtain ⟨m, hm⟩ := ha.2.1 (by omega)
        have hl : n = m * w.els.length := by rw [← hn, cn, ← ix, hm, iw, Nat.mul_comm]
        have hx1 : 0 < w.els.length := by
          rcases Nat.eq_zero_or_pos w.els.length with h | h
          · rw [h] at hl; omega
          · exact h
        have hm0 : 0 < m := by
          rcases Nat.eq_zero_or_pos m with h | h
          · rw [h] at hl; omega
          · exact h
        have hwl : x.els.length = n := by omega
        rw [hl, Nat.mul_div_cancel _ hx1, ← hl]
        obtain ⟨s4, f1, f2, f3⟩ := fresh_blocks (res := res) (left := true) (small := wv) (a := xv) (bels := x.els)
          (cs := w.els) (ext := m) (b := fun j => one wv j + one xv j + one new j)
          (s := { hand := (s2.inc new 1).hand, slots := List.replicate n none, calls := (s2.inc new 1).calls })
          (wo := w.at n) (xo := x.at n) hm0 r1 r2 (by omega) hh hc2 (by rw [hwl]) (by
            intro k hk
            have e1 : x.at n k = some (x.els.getD k 0) := by rw [at_same (by rw [ix]; omega) (by omega), ix]
            have e2 : w.at n k = some (w.els.getD (k / m) 0) := by
              have := at_block (a := w) (ext := m) (i := k) (by rw [iw]; omega) hm0
              rw [iw, ← hl] at this
              exact this
            rw [e1, e2]
            rfl)
        rw [hwl] at f3
        rw [f1]
        exact fin n s4 f2 rfl f3.1 (fun _ => f3)

end Verif.EachRef
