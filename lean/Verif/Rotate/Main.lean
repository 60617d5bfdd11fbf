import Verif.Rotate.Basic
/-!
# Rotate: the loops
-/
namespace Verif.Rotate
open Verif.Bits Verif.Fold Verif.Slash Verif.Rep Verif.Select Verif.Under

theorem block_unique {t s j t' j' : Nat} (hj : j < s) (hj' : j' < s) (h : t * s + j = t' * s + j') : t = t' ∧ j = j' := by
  have h1 : (t * s + j) / s = t := by rw [Nat.mul_comm, Nat.mul_add_div (by omega), Nat.div_eq_of_lt hj, Nat.add_zero]
  have h2 : (t' * s + j') / s = t' := by rw [Nat.mul_comm, Nat.mul_add_div (by omega), Nat.div_eq_of_lt hj', Nat.add_zero]
  have : t = t' := by rw [← h1, ← h2, h]
  subst this
  exact ⟨rfl, by omega⟩

/-- Two copies make one rotated block. -/
theorem two_copies {M α} {K : Kind M α} {ok : Nat → M → Prop} (hK : Lawful K ok) {n : Nat} {x : M} (hx : ok n x) {r : M} (hr : ok n r) (ri xi n0 n1 : Nat)
    (h1 : ri + (n0 + n1) ≤ n) (h2 : xi + (n0 + n1) ≤ n) :
    ∃ r', ((K.copy r (ri + n1) x xi n0).bind fun r => K.copy r ri x (xi + n0) n1) = some r' ∧ ok n r' ∧
      (∀ j, j < n0 + n1 → K.get r' (ri + j) = K.get x (xi + (j + n0) % (n0 + n1))) ∧ ∀ k, k < n → (k < ri ∨ ri + (n0 + n1) ≤ k) → K.get r' k = K.get r k := by
  obtain ⟨r1, e1, ok1, g1⟩ := hK.copy n r x (ri + n1) xi n0 hr hx (by omega) (by omega)
  obtain ⟨r2, e2, ok2, g2⟩ := hK.copy n r1 x ri (xi + n0) n1 ok1 hx (by omega) (by omega)
  refine ⟨r2, by rw [e1, Option.bind_some, e2], ok2, fun j hj => ?_, fun k hk hko => ?_⟩
  · rw [g2 _ (by omega)]
    by_cases h : j < n1
    · rw [if_pos ⟨by omega, by omega⟩, Nat.mod_eq_of_lt (by omega)]
      congr 1
      omega
    · rw [if_neg (by omega), g1 _ (by omega), if_pos ⟨by omega, by omega⟩]
      congr 1
      rw [show j + n0 = (j - n1) + (n0 + n1) by omega, Nat.add_mod_right, Nat.mod_eq_of_lt (by omega)]
      omega
  · rw [g2 _ hk, if_neg (by omega), g1 _ hk, if_neg (by omega)]

theorem copyLoop_spec {M α} {K : Kind M α} {ok : Nat → M → Prop} (hK : Lawful K ok) {n : Nat} (hn : n < 2^32) {x : M} (hx : ok n x) (n0 n1 : Nat) (hpos : 0 < n0 + n1) (as : List Axis)
    (hg : ∀ a ∈ as, GoodAxis a) (htot : total as * (n0 + n1) ≤ n) (hoff : ∀ t, t < total as → offAt as t + (n0 + n1) ≤ n) :
    ∀ (fuel t : Nat), t < total as → total as ≤ t + fuel → ∀ r, ok n r →
      (∀ u j, u < t → j < n0 + n1 → K.get r (u * (n0 + n1) + j) = K.get x (offAt as u + (j + n0) % (n0 + n1))) →
      ∃ r', copyLoop K x n0 n1 (n0 + n1) fuel (stateAt as t) (offAt as t) (t * (n0 + n1)) r = some r' ∧ ok n r' ∧
        ∀ u j, u < total as → j < n0 + n1 → K.get r' (u * (n0 + n1) + j) = K.get x (offAt as u + (j + n0) % (n0 + n1))
  | 0, t, ht, hf, _, _, _ => by omega
  | fuel + 1, t, ht, hf, r, hr, hdone => by
    have hb : t * (n0 + n1) + (n0 + n1) ≤ n := by
      have := Nat.mul_le_mul_right (n0 + n1) (show t + 1 ≤ total as from ht)
      rw [Nat.succ_mul] at this
      omega
    obtain ⟨r1, e, ok1, gnew, gold⟩ := two_copies hK hx hr (t * (n0 + n1)) (offAt as t) n0 n1 hb (hoff t ht)
    have hdone1 : ∀ u j, u < t + 1 → j < n0 + n1 → K.get r1 (u * (n0 + n1) + j) = K.get x (offAt as u + (j + n0) % (n0 + n1)) := by
      intro u j hu hj
      by_cases h : u = t
      · rw [h]
        exact gnew j hj
      · have hlt : u * (n0 + n1) + (n0 + n1) ≤ t * (n0 + n1) := by
          have := Nat.mul_le_mul_right (n0 + n1) (show u + 1 ≤ t by omega)
          rw [Nat.succ_mul] at this
          omega
        rw [gold _ (by omega) (by omega)]
        exact hdone u j (by omega) hj
    have hadv := advance_spec as hg t 0 (offAt as t) ht (by rw [Nat.zero_add])
    rw [copyLoop]
    obtain ⟨rm, em, e⟩ := Option.bind_eq_some_iff.1 e
    rw [em, Option.bind_some, e, Option.bind_some]
    by_cases hlt : t + 1 < total as
    · rw [if_pos hlt] at hadv
      rw [hadv]
      dsimp only
      rw [Nat.zero_add, Nat.mod_eq_of_lt (by have := hoff (t + 1) hlt; omega), ← Nat.succ_mul]
      exact copyLoop_spec hK hn hx n0 n1 hpos as hg htot hoff fuel (t + 1) hlt (by omega) r1 ok1 hdone1
    · rw [if_neg hlt] at hadv
      rw [hadv]
      exact ⟨r1, rfl, ok1, fun u j hu hj => hdone1 u j (by omega) hj⟩

/-! ## One amount -/

theorem rotateOne_spec {M α} {K : Kind M α} {ok : Nat → M → Prop} (hK : Lawful K ok) (v : Int) (hv : I64 v) (x : M) (cam : Nat) (cell : List Nat) (hn : prod (cam :: cell) < 2^32)
    (hx : ok (prod (cam :: cell)) x) :
    ∃ r, rotateOne K (some v) x (cam :: cell) = some (.ok r) ∧ ok (prod (cam :: cell)) r ∧
      ∀ i j, i < cam → j < prod cell → K.get r (i * prod cell + j) = K.get x (((i + v) % cam).toNat * prod cell + j) := by
  unfold rotateOne
  dsimp only
  rw [o2i64_some hv.1 hv.2]
  dsimp only
  by_cases h0 : prod (cam :: cell) = 0
  · rw [if_pos h0]
    refine ⟨x, rfl, hx, fun i j hi hj => ?_⟩
    exfalso
    rcases Nat.mul_eq_zero.1 (show cam * prod cell = 0 from h0) with h | h <;> omega
  · rw [if_neg h0]
    have hpr : prod (cam :: cell) = cam * prod cell := rfl
    have hcam : 0 < cam := Nat.pos_of_ne_zero fun h => h0 (by rw [hpr, h, Nat.zero_mul])
    have hcell : 0 < prod cell := Nat.pos_of_ne_zero fun h => h0 (by rw [hpr, h, Nat.mul_zero])
    have hcl : cam ≤ prod (cam :: cell) := by rw [hpr]; exact Nat.le_mul_of_pos_right _ hcell
    rw [wrapRot_spec v cam hv.1 hv.2 hcam (by omega), Option.bind_some]
    have ha := Int.emod_nonneg v (show (cam : Int) ≠ 0 by omega)
    have ha2 := Int.emod_lt_of_pos v (show (0 : Int) < cam by omega)
    by_cases ham : v % cam = 0
    · rw [if_pos ham]
      refine ⟨x, rfl, hx, fun i j hi hj => ?_⟩
      rw [mod_zero_self hi ham]
    · rw [if_neg ham]
      obtain ⟨a, hae⟩ : ∃ a : Nat, v % cam = a := ⟨(v % cam).toNat, by omega⟩
      have hsrc : ∀ i : Nat, ((i + v) % cam).toNat = (i + a) % cam := by
        intro i
        rw [Int.add_emod, hae, Int.emod_add_emod, ← Int.natCast_add, ← Int.natCast_emod, Int.toNat_natCast]
      rw [hae, Int.toNat_natCast]
      have halt : a < cam := by omega
      have hle : a * prod cell ≤ cam * prod cell := Nat.mul_le_mul_right _ (by omega)
      obtain ⟨r1, e1, ok1, g1⟩ := hK.copy _ (K.new (prod (cam :: cell))) x 0 (a * prod cell) (prod (cam :: cell) - a * prod cell) (hK.new _) hx (by omega) (by omega)
      obtain ⟨r2, e2, ok2, g2⟩ := hK.copy _ r1 x (prod (cam :: cell) - a * prod cell) 0 (a * prod cell) ok1 hx (by omega) (by omega)
      rw [e1, Option.bind_some, e2]
      refine ⟨r2, rfl, ok2, fun i j hi hj => ?_⟩
      have hk : i * prod cell + j < cam * prod cell := by
        have := Nat.mul_le_mul_right (prod cell) (show i + 1 ≤ cam from hi)
        rw [Nat.succ_mul] at this
        omega
      rw [hsrc, g2 _ hk]
      by_cases h : i + a < cam
      · have hb := Nat.mul_le_mul_right (prod cell) (show i + a + 1 ≤ cam from h)
        rw [Nat.succ_mul, Nat.add_mul] at hb
        rw [if_neg (by omega), g1 _ hk, if_pos ⟨by omega, by omega⟩, Nat.mod_eq_of_lt h, Nat.add_mul]
        congr 1
        omega
      · have hb := Nat.mul_le_mul_right (prod cell) (show cam ≤ i + a by omega)
        rw [Nat.add_mul] at hb
        have hb2 : (i + a - cam) * prod cell = i * prod cell + a * prod cell - cam * prod cell := by rw [Nat.sub_mul, Nat.add_mul]
        rw [if_pos ⟨by omega, by omega⟩, Nat.mod_eq_sub_mod (by omega), Nat.mod_eq_of_lt (by omega), hb2]
        congr 1
        omega

/-! ## Several amounts -/

/-- The amount that is used for an axis. -/
def eff (inv : Bool) (v : Int) : Int := if inv then -v else v

theorem eff_emod (inv : Bool) (v : Int) (s : Nat) (h0 : 0 < s) : (if inv = true ∧ v % s ≠ 0 then (s : Int) - v % s else v % s) = eff inv v % s := by
  have h1 := Int.emod_nonneg v (show (s : Int) ≠ 0 by omega)
  have h2 := Int.emod_lt_of_pos v (show (0 : Int) < s by omega)
  cases inv
  · simp [eff]
  · unfold eff
    rw [if_pos rfl]
    by_cases h : v % s = 0
    · rw [if_neg (fun h3 => h3.2 h), h]
      exact (Int.emod_eq_zero_of_dvd ((Int.dvd_neg).2 (Int.dvd_of_emod_eq_zero h))).symm
    · rw [if_pos ⟨rfl, h⟩]
      have e : -v = (s - v % s) + (s : Int) * (-(v / s) - 1) := by
        have := Int.mul_ediv_add_emod v s
        rw [Int.mul_sub, Int.mul_neg]
        omega
      generalize v % (s : Int) = m at h h1 h2 e ⊢
      rw [e, Int.add_mul_emod_self_left, Int.emod_eq_of_lt (by omega) (by omega)]

theorem setup_spec (inv : Bool) : ∀ (ps : List (Nat × Int)), (∀ p ∈ ps, 0 < p.1 ∧ I64 p.2) → ∀ (ccsz xi : Nat), 0 < ccsz → ccsz * prod (ps.map Prod.fst) < 2^32 →
    ∃ as, setup inv ps ccsz xi = some (as, xi + offAt as 0) ∧ stateAt as 0 = as ∧ (∀ a ∈ as, GoodAxis a) ∧ total as = prod (ps.map Prod.fst) ∧
      ∀ is, InShape (ps.map Prod.fst) is → offAt as (rav (ps.map Prod.fst) is) = ccsz * rav (ps.map Prod.fst) (rotated (ps.map Prod.fst) (ps.map fun p => eff inv p.2) is)
  | [], _, ccsz, xi, _, _ => ⟨[], rfl, rfl, (fun _ h => nomatch h), rfl, fun is h => by cases h; rfl⟩
  | (s, v) :: ps, hp, ccsz, xi, hc0, hc => by
    obtain ⟨hs0, hv⟩ := hp (s, v) List.mem_cons_self
    have hs0 : 0 < s := hs0
    have hprod : 0 < prod (ps.map Prod.fst) := by
      have : ∀ qs : List (Nat × Int), (∀ q ∈ qs, 0 < q.1) → 0 < prod (qs.map Prod.fst) := by
        intro qs
        induction qs with
        | nil => intro _; exact Nat.one_pos
        | cons q qs ih => intro h; exact Nat.mul_pos (h q List.mem_cons_self) (ih fun q hq => h q (List.mem_cons_of_mem _ hq))
      exact this ps fun q hq => (hp q (List.mem_cons_of_mem _ hq)).1
    have hc : ccsz * (s * prod (ps.map Prod.fst)) < 2^32 := hc
    have hcs : ccsz * s * prod (ps.map Prod.fst) < 2^32 := by rw [Nat.mul_assoc]; exact hc
    have hcs2 : ccsz * s ≤ ccsz * s * prod (ps.map Prod.fst) := Nat.le_mul_of_pos_right _ hprod
    have hsl : s ≤ ccsz * s := Nat.le_mul_of_pos_left _ hc0
    obtain ⟨as, e, hst, hg, ht, hoff⟩ := setup_spec inv ps (fun p h => hp p (List.mem_cons_of_mem _ h)) (ccsz * s) (xi + (eff inv v % s).toNat * ccsz) (Nat.mul_pos hc0 hs0) hcs
    have h1 := Int.emod_nonneg (eff inv v) (show (s : Int) ≠ 0 by omega)
    have h2 := Int.emod_lt_of_pos (eff inv v) (show (0 : Int) < s by omega)
    have hrot : (0 % s + (eff inv v % s).toNat) % s = (eff inv v % s).toNat := by
      rw [Nat.zero_mod, Nat.zero_add, Nat.mod_eq_of_lt (by omega)]
    refine ⟨⟨s, (eff inv v % s).toNat, ccsz, (eff inv v % s).toNat⟩ :: as, ?_, ?_, ?_, ?_, ?_⟩
    · rw [setup, wrapRot_spec v s hv.1 hv.2 hs0 (by omega), Option.bind_some]
      dsimp only
      rw [eff_emod inv v s hs0, e, Option.map_some, offAt, Nat.zero_div]
      dsimp only
      rw [hrot, Nat.add_assoc]
    · rw [stateAt, Nat.zero_div, hst]
      dsimp only
      rw [hrot]
    · intro a ha
      rcases List.mem_cons.1 ha with ha | ha
      · subst ha
        exact ⟨hs0, by show (eff inv v % s).toNat < s; omega, by show ccsz * s < 2^32; omega⟩
      · exact hg a ha
    · rw [total, ht]
      rfl
    · intro is his
      cases his with
      | @cons _ i _ is hi his =>
        rw [List.map_cons, offAt]
        dsimp only
        rw [rav, Nat.add_mul_mod_self_left, Nat.mod_eq_of_lt hi, Nat.add_mul_div_left _ _ hs0, Nat.div_eq_of_lt hi, Nat.zero_add, hoff is his, List.map_cons, rotated, rav]
        dsimp only
        have e2 : (((i : Int) + eff inv v) % s).toNat = (i + (eff inv v % s).toNat) % s := by
          rw [Int.add_emod]
          obtain ⟨q, hq⟩ : ∃ q : Nat, eff inv v % s = q := ⟨(eff inv v % s).toNat, by omega⟩
          rw [hq, Int.emod_add_emod, Int.toNat_natCast, ← Int.natCast_add, ← Int.natCast_emod, Int.toNat_natCast]
        rw [e2, Nat.mul_add, Nat.mul_comm _ ccsz, Nat.mul_assoc]

theorem findAxis_spec : ∀ (ps : List (Nat × Int)), (∀ p ∈ ps, 0 < p.1 ∧ p.1 < 2^32 ∧ I64 p.2) → ps ≠ [] → ∀ (csz : Nat),
    ∃ zs, (∀ p ∈ zs, p.2 % (p.1 : Int) = 0) ∧
      ((∃ p, ps = zs ++ [p] ∧ findAxis ps csz = some .first) ∨
        ∃ (s : Nat) (v : Int) (before : List (Nat × Int)), ps = zs ++ (s, v) :: before ∧ v % (s : Int) ≠ 0 ∧ findAxis ps csz = some (.axis s (v % s) (csz * prod (zs.map Prod.fst)) before))
  | [], _, h, _ => absurd rfl h
  | [p], _, _, csz => ⟨[], (fun _ h => nomatch h), .inl ⟨p, rfl, rfl⟩⟩
  | (s, v) :: q :: ps, hp, _, csz => by
    obtain ⟨h0, hl, hv⟩ := hp (s, v) List.mem_cons_self
    have hw := wrapRot_spec v s hv.1 hv.2 h0 hl
    have hf : findAxis ((s, v) :: q :: ps) csz = if v % (s : Int) ≠ 0 then some (.axis s (v % s) csz (q :: ps)) else findAxis (q :: ps) (csz * s) := by
      rw [findAxis]
      · rw [hw, Option.bind_some]
      · simp
    by_cases h : v % (s : Int) = 0
    · rw [if_neg (fun h2 => h2 h)] at hf
      obtain ⟨zs, hz, hcase⟩ := findAxis_spec (q :: ps) (fun p h => hp p (List.mem_cons_of_mem _ h)) (by simp) (csz * s)
      refine ⟨(s, v) :: zs, ?_, ?_⟩
      · intro p hp
        rcases List.mem_cons.1 hp with hp | hp
        · rw [hp]; exact h
        · exact hz p hp
      · rcases hcase with ⟨p, e1, e2⟩ | ⟨s', v', before, e1, e3, e2⟩
        · exact .inl ⟨p, by rw [e1]; rfl, by rw [hf, e2]⟩
        · refine .inr ⟨s', v', before, by rw [e1]; rfl, e3, ?_⟩
          rw [hf, e2, List.map_cons, prod, Nat.mul_assoc]
    · rw [if_pos h] at hf
      exact ⟨[], (fun _ h => nomatch h), .inr ⟨s, v, q :: ps, rfl, h, by rw [hf]; rw [List.map_nil, prod, Nat.mul_one]⟩⟩

end Verif.Rotate
