import Verif.Rotate.Main
/-!
# Rotate along several axes
-/
namespace Verif.Rotate
open Verif.Bits Verif.Fold Verif.Slash Verif.Rep Verif.Select Verif.Under

theorem zip_split : ∀ (sh : List Nat) (vs : List Int), vs.length ≤ sh.length → sh = (List.zip sh vs).map Prod.fst ++ sh.drop vs.length ∧ vs = (List.zip sh vs).map Prod.snd
  | sh, [], _ => by simp
  | [], _ :: _, h => by simp at h
  | s :: sh, v :: vs, h => by
    obtain ⟨h1, h2⟩ := zip_split sh vs (by simpa using h)
    refine ⟨?_, ?_⟩
    · show s :: sh = s :: ((List.zip sh vs).map Prod.fst ++ sh.drop vs.length)
      rw [← h1]
    · show v :: vs = v :: (List.zip sh vs).map Prod.snd
      rw [← h2]

theorem rotated_reverse : ∀ {sh is : List Nat}, InShape sh is → ∀ (ws : List Int), ws.length = sh.length → rotated sh.reverse ws.reverse is.reverse = (rotated sh ws is).reverse
  | _, _, .nil, ws, hw => by
    obtain rfl : ws = [] := List.length_eq_zero_iff.1 hw
    rfl
  | s :: sh, i :: is, .cons hi h, ws, hw => by
    cases ws with
    | nil => cases hw
    | cons w ws =>
      have hw : ws.length = sh.length := by simpa using hw
      rw [List.reverse_cons, List.reverse_cons, List.reverse_cons, rotated_append h.reverse _ (by simp [hw]), rotated_reverse h ws hw]
      show _ = (((i + w) % s).toNat :: rotated sh ws is).reverse
      rw [List.reverse_cons]
      rfl

theorem rot_mod {i r l c u : Nat} (hu : u < c) : (i * c + u + c * r) % (c * l) = (i + r) % l * c + u := by
  have e : i * c + u + c * r = c * (i + r) + u := by
    rw [Nat.mul_add, Nat.mul_comm c i]
    omega
  rw [e, Nat.mod_mul, Nat.mul_add_mod, Nat.mod_eq_of_lt hu, Nat.mul_add_div (by omega), Nat.div_eq_of_lt hu, Nat.add_zero, Nat.mul_comm c]
  omega

theorem amounts_some : ∀ (vs : List Int), (∀ v ∈ vs, I64 v) → amounts (vs.map some) = some vs
  | [], _ => rfl
  | v :: vs, h => by
    obtain ⟨h1, h2⟩ := h v List.mem_cons_self
    rw [List.map_cons, amounts, o2i64_some h1 h2, Option.bind_some, amounts_some vs fun v hv => h v (List.mem_cons_of_mem _ hv), Option.map_some]

theorem prod_pos_mem : ∀ {sh : List Nat}, 0 < prod sh → ∀ s ∈ sh, 0 < s ∧ s ≤ prod sh
  | t :: sh, h, s, hs => by
    have h : 0 < t * prod sh := h
    have ht : 0 < t := Nat.pos_of_ne_zero fun e => by rw [e, Nat.zero_mul] at h; omega
    have hp : 0 < prod sh := Nat.pos_of_ne_zero fun e => by rw [e, Nat.mul_zero] at h; omega
    rcases List.mem_cons.1 hs with e | hm
    · rw [e]
      exact ⟨ht, Nat.le_mul_of_pos_right _ hp⟩
    · obtain ⟨h1, h2⟩ := prod_pos_mem hp s hm
      exact ⟨h1, Nat.le_trans h2 (Nat.le_mul_of_pos_left _ ht)⟩

/-- What `rotateOne` does, with indices. -/
theorem rotateOne_index {M α} {K : Kind M α} {ok : Nat → M → Prop} (hK : Lawful K ok) (v : Int) (hv : I64 v) (x : M) (sh : List Nat) (h0 : sh ≠ []) (hn : prod sh < 2^32)
    (hx : ok (prod sh) x) :
    ∃ r, rotateOne K (some v) x sh = some (.ok r) ∧ ok (prod sh) r ∧ ∀ is, InShape sh is → K.get r (ravel sh is) = K.get x (ravel sh (rotated sh [v] is)) := by
  cases sh with
  | nil => exact absurd rfl h0
  | cons cam cell =>
    obtain ⟨r, e, hr, hg⟩ := rotateOne_spec hK v hv x cam cell hn hx
    refine ⟨r, e, hr, fun is his => ?_⟩
    cases his with
    | cons hi his =>
      rw [ravel, hg _ _ hi (ravel_lt his), rotated, rotated_nil, ravel]

theorem eff_zero (inv : Bool) {v : Int} {s : Nat} (h0 : 0 < s) (h : v % s = 0) : eff inv v % s = 0 := by
  rw [← eff_emod inv v s h0, if_neg (fun h2 => h2.2 h), h]

theorem rotateMany_two {M α} (K : Kind M α) (inv : Bool) (w w2 : Option Int) (ws : List (Option Int)) (x : M) (s0 : Nat) (sh0 : List Nat) :
    rotateMany K inv (w :: w2 :: ws) x (s0 :: sh0) =
      if (w :: w2 :: ws).length > (s0 :: sh0).length then some .err
      else
        match amounts (w :: w2 :: ws) with
        | none => some .err
        | some vs =>
          if prod (s0 :: sh0) = 0 then some (.ok x)
          else
            (findAxis (List.zip (s0 :: sh0) vs).reverse 1).bind fun
              | .first => rotateOne K (w.map fun v => if inv then -v else v) x (s0 :: sh0)
              | .axis l0 wv csz before =>
                let rot0 := (if inv then l0 - wv else wv).toNat
                let csz := csz * prod ((s0 :: sh0).drop (w :: w2 :: ws).length)
                (setup inv before (csz * l0) 0).bind fun (as, xi) =>
                (copyLoop K x (csz * rot0) (csz * (l0 - rot0)) (csz * l0) (prod (s0 :: sh0)) as xi 0 (K.new (prod (s0 :: sh0)))).map .ok := rfl

theorem rotateMany_spec {M α} {K : Kind M α} {ok : Nat → M → Prop} (hK : Lawful K ok) (inv : Bool) (vs : List Int) (hv : ∀ v ∈ vs, I64 v ∧ I64 (eff inv v)) (x : M) (sh : List Nat)
    (h0 : sh ≠ []) (hlen : vs.length ≤ sh.length) (hn : prod sh < 2^32) (hx : ok (prod sh) x) :
    ∃ r, rotateMany K inv (vs.map some) x sh = some (.ok r) ∧ ok (prod sh) r ∧
      ∀ is, InShape sh is → K.get r (ravel sh is) = K.get x (ravel sh (rotated sh (vs.map (eff inv)) is)) := by
  have hone : ∀ v : Int, (some v).map (fun v => if inv = true then -v else v) = some (eff inv v) := fun _ => rfl
  match sh, h0, vs with
  | s0 :: sh0, _, [] => exact ⟨x, rfl, hx, fun is his => by rw [List.map_nil, rotated_nil]⟩
  | s0 :: sh0, h0, [v] =>
    show ∃ r, rotateOne K ((some v).map fun v => if inv = true then -v else v) x (s0 :: sh0) = _ ∧ _
    rw [hone]
    exact rotateOne_index hK (eff inv v) (hv v List.mem_cons_self).2 x (s0 :: sh0) h0 hn hx
  | s0 :: sh0, h0, v :: v2 :: vs =>
    rw [List.map_cons, List.map_cons, rotateMany_two]
    have hlen2 : ¬ (some v :: some v2 :: vs.map some).length > (s0 :: sh0).length := by
      simp only [List.length_cons, List.length_map] at hlen ⊢
      omega
    rw [if_neg hlen2]
    have ham : amounts (some v :: some v2 :: vs.map some) = some (v :: v2 :: vs) := amounts_some (v :: v2 :: vs) fun v h => (hv v h).1
    rw [ham]
    dsimp only
    by_cases hp0 : prod (s0 :: sh0) = 0
    · rw [if_pos hp0]
      exact ⟨x, rfl, hx, fun is his => by have := ravel_lt his; omega⟩
    rw [if_neg hp0]
    have hwl : (some v :: some v2 :: vs.map some).length = (v :: v2 :: vs).length := by simp
    rw [hwl]
    obtain ⟨hsh, hvs⟩ := zip_split (s0 :: sh0) (v :: v2 :: vs) hlen
    have hzne : List.zip (s0 :: sh0) (v :: v2 :: vs) ≠ [] := by simp
    have hfirst : ∃ rest, List.zip (s0 :: sh0) (v :: v2 :: vs) = (s0, v) :: rest := ⟨_, rfl⟩
    generalize hqs : List.zip (s0 :: sh0) (v :: v2 :: vs) = qs at hsh hvs hzne hfirst ⊢
    have hlen3 : (v :: v2 :: vs).length = qs.length := by rw [hvs, List.length_map]
    generalize hsh1 : s0 :: sh0 = sh at *
    generalize hvs1 : v :: v2 :: vs = ws at *
    generalize hD : sh.drop ws.length = D at hsh ⊢
    have hgood : ∀ p ∈ qs, 0 < p.1 ∧ p.1 < 2^32 ∧ I64 p.2 := by
      intro p hp
      have h1 : p.1 ∈ sh := by rw [hsh]; exact List.mem_append_left _ (List.mem_map_of_mem hp)
      have h2 : p.2 ∈ ws := by rw [hvs]; exact List.mem_map_of_mem hp
      obtain ⟨h3, h4⟩ := prod_pos_mem (Nat.pos_of_ne_zero hp0) _ h1
      exact ⟨h3, by omega, (hv _ h2).1⟩
    obtain ⟨zs, hz, hcase⟩ := findAxis_spec qs.reverse (fun p h => hgood p (List.mem_reverse.1 h)) (by simpa using hzne) 1
    have hzero : ∀ p ∈ zs.reverse.map (fun p => ((p.1, eff inv p.2) : Nat × Int)), p.2 % (p.1 : Int) = 0 := by
      intro p hp
      obtain ⟨q, hq, e⟩ := List.mem_map.1 hp
      have hq := List.mem_reverse.1 hq
      subst e
      refine eff_zero inv ?_ (hz q hq)
      refine (hgood q ?_).1
      rw [← List.mem_reverse]
      rcases hcase with ⟨p, e, _⟩ | ⟨_, _, _, e, _, _⟩ <;> rw [e] <;> exact List.mem_append_left _ hq
    have hzfst : (zs.reverse.map (fun p => (p.1, eff inv p.2))).map Prod.fst = (zs.map Prod.fst).reverse := by
      rw [List.map_map, List.map_reverse]
      rfl
    have hzsnd : (zs.reverse.map (fun p => (p.1, eff inv p.2))).map Prod.snd = (zs.reverse.map Prod.snd).map (eff inv) := by
      rw [List.map_map, List.map_map]
      rfl
    rcases hcase with ⟨p, e1, e2⟩ | ⟨s, w, before, e1, hw, e2⟩
    · -- only the first axis
      rw [e2, Option.bind_some]
      dsimp only
      rw [hone]
      have hqs2 : qs = p :: zs.reverse := by
        rw [← List.reverse_reverse qs, e1, List.reverse_append]
        rfl
      obtain ⟨rest, hf⟩ := hfirst
      rw [hf] at hqs2
      obtain ⟨rfl, rfl⟩ := List.cons_eq_cons.1 hqs2
      rw [hf] at hsh hvs
      have hsne : sh ≠ [] := h0
      have hvm : v ∈ ws := by rw [hvs]; exact List.mem_cons_self
      obtain ⟨r, er, okr, hr⟩ := rotateOne_index hK (eff inv v) (hv v hvm).2 x sh hsne hn hx
      refine ⟨r, er, okr, fun is his => ?_⟩
      rw [hr is his]
      congr 2
      rw [hsh] at his ⊢
      cases his with
      | cons hi his =>
        obtain ⟨i1, i2, e, h1, h2⟩ := InShape.split his
        rw [hvs, e, List.map_cons, List.map_cons]
        show rotated (s0 :: (_ ++ D)) [eff inv v] (_ :: (i1 ++ i2)) = rotated (s0 :: (_ ++ D)) (eff inv v :: _) (_ :: (i1 ++ i2))
        rw [rotated, rotated, rotated_nil]
        congr 1
        have := rotated_append h1 ((zs.reverse.map Prod.snd).map (eff inv)) (by simp) D i2 []
        rw [List.append_nil, rotated_nil] at this
        rw [this, ← hzsnd]
        congr 1
        have h1' : InShape ((zs.reverse.map (fun p => (p.1, eff inv p.2))).map Prod.fst) i1 := by rw [hzfst, ← List.map_reverse]; exact h1
        have := rotated_zero h1' hzero
        rw [hzfst, ← List.map_reverse] at this
        exact this.symm
    · -- an axis further down
      have hqs2 : qs = before.reverse ++ (s, w) :: zs.reverse := by
        rw [← List.reverse_reverse qs, e1, List.reverse_append, List.reverse_cons, List.append_assoc]
        rfl
      rw [e2, Option.bind_some]
      dsimp only
      rw [Nat.one_mul]
      obtain ⟨hs0, hs1, hwI⟩ := hgood (s, w) (by rw [hqs2]; simp)
      have hs0 : 0 < s := hs0
      have hrot : (if inv = true then (s : Int) - w % s else w % s) = eff inv w % s := by
        rw [← eff_emod inv w s hs0]
        cases inv <;> simp [hw]
      rw [hrot]
      have hr1 := Int.emod_nonneg (eff inv w) (show (s : Int) ≠ 0 by omega)
      have hr2 := Int.emod_lt_of_pos (eff inv w) (show (0 : Int) < s by omega)
      obtain ⟨rot, hrote⟩ : ∃ q : Nat, eff inv w % s = q := ⟨(eff inv w % s).toNat, by omega⟩
      rw [hrote, Int.toNat_natCast]
      have hB : (before.reverse.map Prod.fst) = (before.map Prod.fst).reverse := List.map_reverse
      have hZ : (zs.reverse.map Prod.fst) = (zs.map Prod.fst).reverse := List.map_reverse
      have hsh2 : sh = (before.map Prod.fst).reverse ++ s :: ((zs.map Prod.fst).reverse ++ D) := by
        rw [hsh, hqs2, List.map_append, List.map_cons, hB, hZ, List.append_assoc]
        rfl
      have hcs : prod ((zs.map Prod.fst).reverse ++ D) = prod (zs.map Prod.fst) * prod D := by rw [prod_append, prod_reverse]
      have hprod : prod sh = prod (before.map Prod.fst) * (s * (prod (zs.map Prod.fst) * prod D)) := by
        rw [hsh2, prod_append, prod_reverse, prod, hcs]
      generalize hc : prod (zs.map Prod.fst) * prod D = csz at hprod hcs ⊢
      have hc0 : 0 < csz := Nat.pos_of_ne_zero fun e => hp0 (by rw [hprod, e, Nat.mul_zero, Nat.mul_zero])
      have hnn : csz * rot + csz * (s - rot) = csz * s := by
        rw [← Nat.mul_add]
        congr 1
        omega
      have hprod2 : prod (before.map Prod.fst) * (csz * s) = prod sh := by rw [hprod, Nat.mul_comm csz]
      obtain ⟨as, es, hst, hg, ht, hoff⟩ := setup_spec inv before
        (fun p h => by obtain ⟨h1, _, h2⟩ := hgood p (by rw [hqs2]; exact List.mem_append_left _ (List.mem_reverse.2 h)); exact ⟨h1, h2⟩) (csz * s) 0 (Nat.mul_pos hc0 hs0)
        (by rw [Nat.mul_comm, hprod2]; exact hn)
      rw [es, Option.bind_some]
      dsimp only
      rw [Nat.zero_add]
      -- positions in x
      have hidx : ∀ t, t < total as → ∃ io, InShape (before.map Prod.fst).reverse io ∧ t = ravel (before.map Prod.fst).reverse io := by
        intro t htt
        obtain ⟨io, h1, h2⟩ := exists_index (before.map Prod.fst).reverse t (by rw [prod_reverse, ← ht]; exact htt)
        exact ⟨io, h1, h2.symm⟩
      have hoffr : ∀ io, InShape (before.map Prod.fst).reverse io →
          offAt as (ravel (before.map Prod.fst).reverse io) = csz * s * ravel (before.map Prod.fst).reverse (rotated (before.map Prod.fst).reverse ((before.reverse.map Prod.snd).map (eff inv)) io) := by
        intro io hio
        have hrev := hio.reverse
        rw [List.reverse_reverse] at hrev
        have e3 : ravel (before.map Prod.fst).reverse io = rav (before.map Prod.fst) io.reverse := by
          rw [← rav_reverse hio, List.reverse_reverse]
        rw [e3, hoff _ hrev]
        congr 1
        have e4 := rav_reverse (hio.rotated ((before.reverse.map Prod.snd).map (eff inv)))
        rw [List.reverse_reverse] at e4
        rw [← e4]
        congr 1
        have e5 := rotated_reverse hio ((before.reverse.map Prod.snd).map (eff inv)) (by simp)
        rw [← e5, List.reverse_reverse]
        congr 1
        rw [← List.map_reverse, ← List.map_reverse, List.reverse_reverse, List.map_map]
        rfl
      have hoffle : ∀ t, t < total as → offAt as t + (csz * rot + csz * (s - rot)) ≤ prod sh := by
        intro t htt
        obtain ⟨io, h1, h2⟩ := hidx t htt
        rw [h2, hoffr io h1, hnn, ← hprod2]
        have := ravel_lt (h1.rotated ((before.reverse.map Prod.snd).map (eff inv)))
        rw [prod_reverse] at this
        have := Nat.mul_le_mul_left (csz * s) this
        rw [Nat.mul_succ, Nat.mul_comm _ (prod _)] at this
        exact this
      have htot0 : 0 < total as := by
        rw [ht]
        exact Nat.pos_of_ne_zero fun e => hp0 (by rw [hprod, e, Nat.zero_mul])
      have htotle : total as ≤ prod sh := by
        rw [ht, ← hprod2]
        exact Nat.le_mul_of_pos_right _ (Nat.mul_pos hc0 hs0)
      obtain ⟨r, er, okr, hr⟩ := copyLoop_spec hK hn hx (csz * rot) (csz * (s - rot)) (by rw [hnn]; exact Nat.mul_pos hc0 hs0) as hg (by rw [hnn, ht, hprod2]; exact Nat.le_refl _) hoffle (prod sh) 0
        htot0 (by omega) (K.new (prod sh)) (hK.new _) (fun u j hu => absurd hu (Nat.not_lt_zero _))
      rw [hst, hnn, Nat.zero_mul] at er
      rw [er]
      refine ⟨r, rfl, okr, fun is his => ?_⟩
      rw [hsh2] at his
      obtain ⟨io, i2, ei, hio, hi2⟩ := InShape.split his
      cases hi2 with
      | @cons _ i _ i2 hi hi2 =>
        have e6 : rotated sh (ws.map (eff inv)) is = rotated (before.map Prod.fst).reverse ((before.reverse.map Prod.snd).map (eff inv)) io ++ (((i : Int) + eff inv w) % s).toNat :: i2 := by
          rw [hsh2, hvs, hqs2, ei, List.map_append, List.map_append, rotated_append hio _ (by simp), List.map_cons, List.map_cons, rotated]
          congr 2
          obtain ⟨i3, i4, e, h3, h4⟩ := InShape.split hi2
          rw [e]
          have := rotated_append h3 ((zs.reverse.map Prod.snd).map (eff inv)) (by simp) D i4 []
          rw [List.append_nil, rotated_nil] at this
          rw [this, ← hzsnd]
          congr 1
          have h3' : InShape ((zs.reverse.map (fun p => (p.1, eff inv p.2))).map Prod.fst) i3 := by rw [hzfst]; exact h3
          have := rotated_zero h3' hzero
          rw [hzfst] at this
          exact this
        rw [e6, hsh2, ei, ravel_append hio, ravel_append (hio.rotated _), ravel, ravel, prod, hcs]
        have hu : ravel ((zs.map Prod.fst).reverse ++ D) i2 < csz := by rw [← hcs]; exact ravel_lt hi2
        generalize ravel ((zs.map Prod.fst).reverse ++ D) i2 = u at hu ⊢
        have hj : i * csz + u < csz * s := by
          have := Nat.mul_le_mul_right csz (show i + 1 ≤ s from hi)
          rw [Nat.succ_mul, Nat.mul_comm s] at this
          omega
        have htio : ravel (before.map Prod.fst).reverse io < total as := by rw [ht, ← prod_reverse]; exact ravel_lt hio
        have := hr (ravel (before.map Prod.fst).reverse io) (i * csz + u) htio (by rw [hnn]; exact hj)
        rw [hnn, hoffr io hio, rot_mod hu] at this
        rw [Nat.mul_comm s csz, this, Nat.mul_comm (csz * s)]
        congr 3
        rw [Int.add_emod, hrote, Int.emod_add_emod, ← Int.natCast_add, ← Int.natCast_emod, Int.toNat_natCast]

end Verif.Rotate
