import Verif.Take.Main
/-!
# Take and Drop: the generic case, put together
-/
namespace Verif.Take
open Verif.Bits Verif.Slash Verif.Rep Verif.Select Verif.Under Verif.Rotate

theorem rpos_zero : ∀ (L : List Ax) (R : Nat), rpos L R 0 = 0
  | [], _ => rfl
  | a :: L, R => by rw [rpos, Nat.zero_mod, Nat.zero_div, Nat.zero_mul, rpos_zero L]
theorem xpos_zero : ∀ (L : List Ax) (R : Nat), xpos L R 0 = 0
  | [], _ => rfl
  | a :: L, R => by rw [xpos, Nat.zero_mod, Nat.zero_div, Nat.zero_mul, xpos_zero L]

theorem cellStart_none : ∀ {as : List Ax}, cellStart as = none → ∀ a ∈ as, a.rs = a.xs
  | [], _, _, h => by cases h
  | a :: as, h, b, hb => by
    rw [cellStart] at h
    cases hc : cellStart as with
    | some i => rw [hc] at h; cases h
    | none =>
      rw [hc] at h
      simp only at h
      by_cases he : a.rs ≠ a.xs
      · rw [if_pos he] at h; cases h
      · cases hb with
        | head => exact Classical.not_not.1 he
        | tail _ hb => exact cellStart_none hc b hb

theorem cellStart_some : ∀ {as : List Ax} {n : Nat}, cellStart as = some n → ∃ o c i, as = o ++ c :: i ∧ o.length = n ∧ ∀ a ∈ i, a.rs = a.xs
  | [], _, h => by cases h
  | a :: as, n, h => by
    rw [cellStart] at h
    cases hc : cellStart as with
    | some i =>
      rw [hc] at h
      cases h
      obtain ⟨o, c, inn, h1, h2, h3⟩ := cellStart_some hc
      exact ⟨a :: o, c, inn, by rw [h1]; rfl, by rw [List.length_cons, h2], h3⟩
    | none =>
      rw [hc] at h
      simp only at h
      by_cases he : a.rs ≠ a.xs
      · rw [if_pos he] at h
        cases h
        exact ⟨[], a, as, rfl, rfl, cellStart_none hc⟩
      · rw [if_neg he] at h; cases h

theorem prod_pos {l : List Nat} (h : ∀ a ∈ l, 0 < a) : 0 < prod l := by
  induction l with
  | nil => exact Nat.one_pos
  | cons a l ih =>
    rw [prod]
    exact Nat.mul_pos (h a List.mem_cons_self) (ih fun b hb => h b (List.mem_cons_of_mem _ hb))

theorem pos_of_prod {l : List Nat} (h : prod l ≠ 0) : ∀ a ∈ l, 0 < a := by
  induction l with
  | nil => intro a ha; cases ha
  | cons a l ih =>
    rw [prod] at h
    intro b hb
    cases hb with
    | head => exact Nat.pos_of_ne_zero fun e => h (by rw [e, Nat.zero_mul])
    | tail _ hb => exact ih (fun e => h (by rw [e, Nat.mul_zero])) b hb

theorem prod_le {L : List Ax} : prod (L.map Ax.l) ≤ prod (L.map Ax.rs) := by
  induction L with
  | nil => exact Nat.le_refl _
  | cons a L ih => exact Nat.mul_le_mul (by unfold Ax.l; omega) ih

theorem same_shape {L : List Ax} (h : ∀ a ∈ L, a.rs = a.xs) : L.map Ax.rs = L.map Ax.xs := List.map_congr_left h

theorem winIdx_in (take : Bool) {L : List Ax} {is js : List Nat} (hl : is.length = L.length) (h : winIdx take L is = some js) : InShape (L.map Ax.xs) js := by
  obtain ⟨ds, d1, _, rfl⟩ := winIdx_some take L is js hl h
  exact plus_xo_in take L d1

theorem generic_spec {M X α} {K : Kind M X α} {okr okx} (Lw : Lawful K okr okx) (take : Bool) (f : α) {x : X} (outer : List Ax) (c : Ax) (inner : List Ax) (hne : outer ≠ []) (hin : ∀ a ∈ inner, a.rs = a.xs)
    (hx : okx (prod ((outer ++ c :: inner).map Ax.xs)) x) (hr : prod ((outer ++ c :: inner).map Ax.rs) ≠ 0) :
    ∃ m, generic K take (outer ++ c :: inner) outer.length f x = some m ∧ okr (prod ((outer ++ c :: inner).map Ax.rs)) m ∧
      ∀ is, InShape ((outer ++ c :: inner).map Ax.rs) is → K.get m (ravel ((outer ++ c :: inner).map Ax.rs) is) = want K x f ((outer ++ c :: inner).map Ax.xs) (winIdx take (outer ++ c :: inner) is) := by
  unfold generic
  simp only
  have hnew := Lw.new (prod ((outer ++ c :: inner).map Ax.rs))
  by_cases hx0 : prod ((outer ++ c :: inner).map Ax.xs) = 0
  · rw [if_pos hx0]
    obtain ⟨m, e, ok, g⟩ := Lw.fill _ _ 0 f (prod ((outer ++ c :: inner).map Ax.rs)) hnew (by omega)
    refine ⟨m, e, ok, fun is his => ?_⟩
    rw [g _ (ravel_lt his), if_pos ⟨Nat.zero_le _, by have := ravel_lt his; omega⟩]
    cases hw : winIdx take (outer ++ c :: inner) is with
    | none => rfl
    | some js =>
      have := ravel_lt (winIdx_in take (by rw [his.length, List.length_map]) hw)
      omega
  · rw [if_neg hx0]
    have hrs := pos_of_prod hr
    have hxs := pos_of_prod hx0
    have hpos : ∀ a ∈ outer ++ c :: inner, 0 < a.l := fun a ha => by
      have := hrs a.rs (List.mem_map_of_mem ha)
      have := hxs a.xs (List.mem_map_of_mem ha)
      unfold Ax.l; omega
    -- the preparation
    have hrev : (outer ++ c :: inner).reverse = inner.reverse ++ (c :: outer.reverse) := by simp
    obtain ⟨cl, hcl, hs⟩ := setup_inner take (c :: outer.reverse) (by simp) inner.reverse (fun a ha => hin a (List.mem_reverse.1 ha)) ⟨1, 1, 0, 0, 0, 0, 0, 0, 0, []⟩ rfl
    have hlen : (c :: outer.reverse).length - 1 = outer.length := by simp
    rw [hlen] at hs
    have hP : prod (inner.reverse.map Ax.rs) = prod (inner.map Ax.rs) := by rw [List.map_reverse, prod_reverse]
    rw [hP] at hs
    simp only [Nat.one_mul, List.nil_append] at hs
    rw [setup, List.length_reverse, setupAxis_eq _ _ rfl rfl rfl] at hs
    simp only [Nat.zero_add] at hs
    obtain ⟨o1, o2, o3, o4, o5, o6⟩ := setup_outer take outer.length outer.reverse (by simp)
      ⟨prod (inner.map Ax.rs) * c.xs, prod (inner.map Ax.rs) * c.rs, prod (inner.map Ax.rs) * c.xs, prod (inner.map Ax.rs) * c.rs, prod (inner.map Ax.rs) * c.xo take, prod (inner.map Ax.rs) * c.ro take,
        prod (inner.map Ax.rs) * c.xs, prod (inner.map Ax.rs) * c.rs, prod (inner.map Ax.rs) * c.l, cl ++ [⟨c.l, c.l, 0, 0⟩]⟩
    rw [← hs, ← hrev] at o1 o2 o3 o4 o5 o6
    simp only at o1 o2 o3 o4 o5 o6
    rw [o1, o2, o3, o4, o5, o6]
    have hdrop : (cl ++ [(⟨c.l, c.l, 0, 0⟩ : Ctr)] ++ mk outer.reverse (prod (inner.map Ax.rs) * c.rs) (prod (inner.map Ax.rs) * c.xs) (prod (inner.map Ax.rs) * c.rs) (prod (inner.map Ax.rs) * c.xs) 0).drop
        ((outer ++ c :: inner).length - outer.length) = mk outer.reverse (prod (inner.map Ax.rs) * c.rs) (prod (inner.map Ax.rs) * c.xs) (prod (inner.map Ax.rs) * c.rs) (prod (inner.map Ax.rs) * c.xs) 0 := by
      apply List.drop_left'
      rw [List.length_append, List.length_append, hcl, List.length_reverse, List.length_cons, List.length_cons, List.length_nil]
      omega
    rw [hdrop]
    generalize hLo : outer.reverse = Lo
    have hLor : outer = Lo.reverse := by rw [← hLo, List.reverse_reverse]
    have hLone : Lo ≠ [] := by rw [← hLo]; simpa using hne
    have hLop : ∀ a ∈ Lo, 0 < a.l := fun a ha => hpos a (List.mem_append_left _ (by rw [hLor]; exact List.mem_reverse.2 ha))
    generalize hPe : prod (inner.map Ax.rs) = P
    have hprs : prod ((outer ++ c :: inner).map Ax.rs) = P * c.rs * prod (Lo.map Ax.rs) := by
      rw [List.map_append, prod_append, List.map_cons, prod, hPe, hLor, List.map_reverse, prod_reverse, Nat.mul_comm, Nat.mul_comm c.rs]
    have hpxs : prod ((outer ++ c :: inner).map Ax.xs) = P * c.xs * prod (Lo.map Ax.xs) := by
      rw [List.map_append, prod_append, List.map_cons, prod, ← same_shape hin, hPe, hLor, List.map_reverse, prod_reverse, Nat.mul_comm, Nat.mul_comm c.xs]
    have hcr : P * c.ro take + P * c.l ≤ P * c.rs := by rw [← Nat.mul_add]; exact Nat.mul_le_mul_left _ (c.ro_le take)
    have hcx : P * c.xo take + P * c.l ≤ P * c.xs := by rw [← Nat.mul_add]; exact Nat.mul_le_mul_left _ (c.xo_le take)
    have hrp : ∀ t, P * c.ro take + P * c.rs * rav (Lo.map Ax.rs) (Lo.map (Ax.ro take)) + rpos Lo (P * c.rs) t = P * c.ro take + P * c.rs * rav (Lo.map Ax.rs) (plus (digits Lo t) (Lo.map (Ax.ro take))) := by
      intro t
      rw [rpos_digits, rav_plus _ _ _ (by rw [(digits_in Lo hLop t).length, List.length_map, List.length_map]) (by simp), Nat.mul_add]
      omega
    have hxp : ∀ t, P * c.xo take + P * c.xs * rav (Lo.map Ax.xs) (Lo.map (Ax.xo take)) + xpos Lo (P * c.xs) t = P * c.xo take + P * c.xs * rav (Lo.map Ax.xs) (plus (digits Lo t) (Lo.map (Ax.xo take))) := by
      intro t
      rw [xpos_digits, rav_plus _ _ _ (by rw [(digits_in Lo hLop t).length, List.length_map, List.length_map]) (by simp), Nat.mul_add]
      omega
    have hrin : ∀ t, InShape (Lo.map Ax.rs) (plus (digits Lo t) (Lo.map (Ax.ro take))) := fun t => plus_ro_in take Lo (digits_in Lo hLop t)
    have hrb : ∀ t, P * c.ro take + P * c.rs * rav (Lo.map Ax.rs) (plus (digits Lo t) (Lo.map (Ax.ro take))) + P * c.l ≤ prod ((outer ++ c :: inner).map Ax.rs) := by
      intro t
      rw [hprs]
      have := Nat.mul_le_mul_left (P * c.rs) (rav_lt (hrin t))
      rw [Nat.mul_succ] at this
      omega
    have hxb : ∀ t, P * c.xo take + P * c.xs * rav (Lo.map Ax.xs) (plus (digits Lo t) (Lo.map (Ax.xo take))) + P * c.l ≤ prod ((outer ++ c :: inner).map Ax.xs) := by
      intro t
      rw [hpxs]
      have := Nat.mul_le_mul_left (P * c.xs) (rav_lt (plus_xo_in take Lo (digits_in Lo hLop t)))
      rw [Nat.mul_succ] at this
      omega
    have htot : 0 < total Lo := prod_pos fun a ha => by
      obtain ⟨b, hb, rfl⟩ := List.mem_map.1 ha
      exact hLop b hb
    have hfuel : total Lo ≤ prod ((outer ++ c :: inner).map Ax.rs) := by
      rw [hprs]
      refine Nat.le_trans prod_le ?_
      have : 0 < P * c.rs := Nat.pos_of_ne_zero fun e => hr (by rw [hprs, e, Nat.zero_mul])
      exact Nat.le_mul_of_pos_left _ this
    obtain ⟨r', pri', e, ok, g1, g2⟩ := copyLoop_spec Lw hx ((outer ++ c :: inner).any fun a => a.xs < a.rs) f Lo hLone hLop (P * c.rs) (P * c.xs) (P * c.l)
      (P * c.ro take + P * c.rs * rav (Lo.map Ax.rs) (Lo.map (Ax.ro take))) (P * c.xo take + P * c.xs * rav (Lo.map Ax.xs) (Lo.map (Ax.xo take)))
      (Nat.le_trans (Nat.le_add_left _ _) hcr) (fun t _ => by rw [hrp]; exact hrb t) (fun t _ => by rw [hxp]; exact hxb t) (prod ((outer ++ c :: inner).map Ax.rs)) 0 htot (by omega) 0 _ hnew
      (fun t' h => absurd h (Nat.not_lt_zero _)) (fun t' h => absurd h (Nat.not_lt_zero _)) (fun _ => ⟨Nat.zero_le _, fun t' h => absurd h (Nat.not_lt_zero _), fun k h => absurd h (Nat.not_lt_zero _)⟩)
    rw [rpos_zero, xpos_zero, Nat.add_zero, Nat.add_zero] at e
    rw [e, Option.bind_some]
    simp only
    simp only [hrp, hxp] at g1 g2
    -- the last fill
    have hlast : ∃ m, (if (((outer ++ c :: inner).any fun a => a.xs < a.rs) = true) ∧ pri' ≠ prod ((outer ++ c :: inner).map Ax.rs) then K.fill r' pri' f (prod ((outer ++ c :: inner).map Ax.rs) - pri') else some r') = some m ∧
        okr (prod ((outer ++ c :: inner).map Ax.rs)) m ∧
        (∀ t', t' < total Lo → ∀ k, P * c.ro take + P * c.rs * rav (Lo.map Ax.rs) (plus (digits Lo t') (Lo.map (Ax.ro take))) ≤ k → k < P * c.ro take + P * c.rs * rav (Lo.map Ax.rs) (plus (digits Lo t') (Lo.map (Ax.ro take))) + P * c.l →
          K.get m k = K.getX x (P * c.xo take + P * c.xs * rav (Lo.map Ax.xs) (plus (digits Lo t') (Lo.map (Ax.xo take))) + (k - (P * c.ro take + P * c.rs * rav (Lo.map Ax.rs) (plus (digits Lo t') (Lo.map (Ax.ro take))))))) ∧
        (((outer ++ c :: inner).any fun a => a.xs < a.rs) = true → ∀ k, k < prod ((outer ++ c :: inner).map Ax.rs) →
          (∀ t', t' < total Lo → ¬ (P * c.ro take + P * c.rs * rav (Lo.map Ax.rs) (plus (digits Lo t') (Lo.map (Ax.ro take))) ≤ k ∧ k < P * c.ro take + P * c.rs * rav (Lo.map Ax.rs) (plus (digits Lo t') (Lo.map (Ax.ro take))) + P * c.l)) →
          K.get m k = some f) := by
      by_cases hc : (((outer ++ c :: inner).any fun a => a.xs < a.rs) = true) ∧ pri' ≠ prod ((outer ++ c :: inner).map Ax.rs)
      · rw [if_pos hc]
        obtain ⟨p1, p2, p3⟩ := g2 hc.1
        obtain ⟨m, e, okm, gm⟩ := Lw.fill _ r' pri' f (prod ((outer ++ c :: inner).map Ax.rs) - pri') ok (by omega)
        refine ⟨m, e, okm, fun t' ht' k hk1 hk2 => ?_, fun _ k hk hcov => ?_⟩
        · have := p2 t' ht'
          rw [gm k (by omega), if_neg (by omega)]
          exact g1 t' ht' k hk1 hk2
        · rw [gm k hk]
          by_cases hkp : k < pri'
          · rw [if_neg (by omega)]; exact p3 k hkp hcov
          · rw [if_pos (by omega)]
      · rw [if_neg hc]
        refine ⟨r', rfl, ok, g1, fun ha k hk hcov => ?_⟩
        obtain ⟨p1, p2, p3⟩ := g2 ha
        exact p3 k (by have : pri' = prod ((outer ++ c :: inner).map Ax.rs) := Classical.not_not.1 fun h => hc ⟨ha, h⟩
                       omega) hcov
    obtain ⟨m, em, okm, m1, m2⟩ := hlast
    refine ⟨m, em, okm, fun is his => ?_⟩
    have hk := ravel_lt his
    rw [List.map_append, List.map_cons] at his
    obtain ⟨i1, i2, rfl, hi1, hi2⟩ := his.split
    cases hi2 with
    | @cons _ i _ i2 hi hi2 =>
    have hrav1 : ravel (outer.map Ax.rs) i1 = rav (Lo.map Ax.rs) i1.reverse := by
      rw [← rav_reverse hi1, ← List.map_reverse, hLo]
    have hin1 : InShape (Lo.map Ax.rs) i1.reverse := by
      have := hi1.reverse
      rw [← List.map_reverse, hLo] at this
      exact this
    have hkk : ravel ((outer ++ c :: inner).map Ax.rs) (i1 ++ i :: i2) = P * c.rs * rav (Lo.map Ax.rs) i1.reverse + (P * i + ravel (inner.map Ax.rs) i2) := by
      rw [List.map_append, List.map_cons, ravel_append hi1, prod, ravel, hPe, hrav1, Nat.mul_comm, Nat.mul_comm c.rs, Nat.mul_comm i]
    have hr2 : ravel (inner.map Ax.rs) i2 < P := by rw [← hPe]; exact ravel_lt hi2
    have hiR : P * i + ravel (inner.map Ax.rs) i2 < P * c.rs := by
      have := Nat.mul_le_mul_left P (show i + 1 ≤ c.rs from hi)
      rw [Nat.mul_succ] at this
      omega
    have hl1 : i1.length = outer.length := by rw [hi1.length, List.length_map]
    cases hw : winIdx take (outer ++ c :: inner) (i1 ++ i :: i2) with
    | some js =>
      rw [winIdx_append take outer i1 hl1] at hw
      obtain ⟨j1, w1, w2⟩ := Option.bind_eq_some_iff.1 hw
      obtain ⟨j2, w3, rfl⟩ := Option.map_eq_some_iff.1 w2
      rw [winIdx, winIdx_same take inner hin i2 hi2] at w3
      by_cases hc : c.ro take ≤ i ∧ i < c.ro take + c.l
      · rw [if_pos hc, Option.bind_some, Option.map_some] at w3
        cases w3
        obtain ⟨ds, d1, d2, d3⟩ := winIdx_some take outer i1 j1 hl1 w1
        have d1r : InShape (Lo.map Ax.l) ds.reverse := by
          have := d1.reverse
          rw [← List.map_reverse, hLo] at this
          exact this
        have hdig := digits_rav d1r
        have ht : rav (Lo.map Ax.l) ds.reverse < total Lo := rav_lt d1r
        have hdl : ds.length = outer.length := by rw [d1.length, List.length_map]
        have hp1 : plus (digits Lo (rav (Lo.map Ax.l) ds.reverse)) (Lo.map (Ax.ro take)) = i1.reverse := by
          rw [hdig, d2, plus_reverse (by rw [hdl, List.length_map]), ← List.map_reverse, hLo]
        have hp2 : plus (digits Lo (rav (Lo.map Ax.l) ds.reverse)) (Lo.map (Ax.xo take)) = j1.reverse := by
          rw [hdig, d3, plus_reverse (by rw [hdl, List.length_map]), ← List.map_reverse, hLo]
        have hj1 : InShape (outer.map Ax.xs) j1 := winIdx_in take hl1 w1
        have hravx : ravel (outer.map Ax.xs) j1 = rav (Lo.map Ax.xs) j1.reverse := by
          rw [← rav_reverse hj1, ← List.map_reverse, hLo]
        have a1 : P * i = P * c.ro take + P * (i - c.ro take) := by rw [← Nat.mul_add]; congr 1; omega
        have a2 : P * (i - c.ro take) + P ≤ P * c.l := by
          have := Nat.mul_le_mul_left P (show i - c.ro take + 1 ≤ c.l by omega)
          rw [Nat.mul_succ] at this
          exact this
        have := m1 _ ht (ravel ((outer ++ c :: inner).map Ax.rs) (i1 ++ i :: i2)) (by rw [hkk, hp1]; omega) (by rw [hkk, hp1]; omega)
        rw [this, want, hp1, hp2]
        congr 1
        rw [hkk, List.map_append, List.map_cons, ravel_append hj1, prod, ravel, ← same_shape hin, hPe, hravx, Nat.mul_comm (i - c.ro take + c.xo take), Nat.mul_add, Nat.mul_comm (rav (Lo.map Ax.xs) j1.reverse), Nat.mul_comm c.xs]
        omega
      · rw [if_neg hc] at w3; cases w3
    | none =>
      have hany : ((outer ++ c :: inner).any fun a => a.xs < a.rs) = true := by
        apply Classical.byContradiction
        intro hn
        have : ∀ a ∈ outer ++ c :: inner, a.rs ≤ a.xs := by
          intro a ha
          apply Classical.byContradiction
          intro hna
          exact hn (List.any_eq_true.2 ⟨a, ha, by simpa using hna⟩)
        obtain ⟨js, e⟩ := winIdx_total take _ this (i1 ++ i :: i2) (by rw [List.map_append, List.map_cons]; exact his)
        rw [e] at hw; cases hw
      refine m2 hany _ hk fun t' ht' hcov => ?_
      rw [hkk] at hcov
      obtain ⟨c1, c2⟩ := hcov
      have hq : rav (Lo.map Ax.rs) i1.reverse = rav (Lo.map Ax.rs) (plus (digits Lo t') (Lo.map (Ax.ro take))) := by
        generalize rav (Lo.map Ax.rs) i1.reverse = q at *
        generalize rav (Lo.map Ax.rs) (plus (digits Lo t') (Lo.map (Ax.ro take))) = q' at *
        rcases Nat.lt_trichotomy q q' with h | h | h
        · have := Nat.mul_le_mul_left (P * c.rs) (show q + 1 ≤ q' from h)
          rw [Nat.mul_succ] at this
          omega
        · exact h
        · have := Nat.mul_le_mul_left (P * c.rs) (show q' + 1 ≤ q from h)
          rw [Nat.mul_succ] at this
          omega
      have he := rav_inj hin1 (hrin t') hq
      rw [← hq] at c1 c2
      have hP0 : 0 < P := by omega
      have b1 : c.ro take ≤ i := by
        apply Classical.byContradiction
        intro hn
        have := Nat.mul_le_mul_left P (show i + 1 ≤ c.ro take by omega)
        rw [Nat.mul_succ] at this
        omega
      have b2 : i < c.ro take + c.l := by
        apply Classical.byContradiction
        intro hn
        have := Nat.mul_le_mul_left P (show c.ro take + c.l ≤ i by omega)
        rw [Nat.mul_add] at this
        omega
      have hd := digits_in Lo hLop t'
      have hdr : InShape (outer.map Ax.l) (digits Lo t').reverse := by
        have := hd.reverse
        rw [← List.map_reverse, ← hLor] at this
        exact this
      have hi1e : i1 = plus (digits Lo t').reverse (outer.map (Ax.ro take)) := by
        have := congrArg List.reverse he
        rw [List.reverse_reverse, plus_reverse (by rw [hd.length, List.length_map, List.length_map]), ← List.map_reverse, ← hLor] at this
        exact this
      rw [winIdx_append take outer i1 hl1, hi1e, winIdx_of take outer _ hdr, Option.bind_some, winIdx, if_pos ⟨b1, b2⟩, Option.bind_some, winIdx_same take inner hin i2 hi2] at hw
      cases hw

end Verif.Take
