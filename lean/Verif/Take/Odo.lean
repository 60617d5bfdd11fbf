import Verif.Take.One
/-!
# Take and Drop: the counters of the generic case
-/
namespace Verif.Take
open Verif.Bits Verif.Slash Verif.Rep Verif.Select Verif.Under Verif.Rotate

/-- How much of the axis is copied. -/
def Ax.l (a : Ax) : Nat := min a.xs a.rs
/-- Where this begins in the result. -/
def Ax.ro (take : Bool) (a : Ax) : Nat := if take ^^ a.neg then 0 else a.rs - a.xs
/-- Where this begins in the argument. -/
def Ax.xo (take : Bool) (a : Ax) : Nat := if take ^^ a.neg then 0 else a.xs - a.rs

theorem Ax.ro_le (take : Bool) (a : Ax) : a.ro take + a.l ≤ a.rs := by unfold ro l; split <;> omega
theorem Ax.xo_le (take : Bool) (a : Ax) : a.xo take + a.l ≤ a.xs := by unfold xo l; split <;> omega

/-! ## Preparation -/

/-- The counters of axes (the fastest first). -/
def mk : List Ax → Nat → Nat → Nat → Nat → Nat → List Ctr
  | [], _, _, _, _, _ => []
  | a :: L, rcs, xcs, rs, xs, t => ⟨a.l, a.l - t % a.l, rs, xs⟩ :: mk L (rcs * a.rs) (xcs * a.xs) (rs + rcs * (a.rs - a.l)) (xs + xcs * (a.xs - a.l)) (t / a.l)

theorem setupAxis_ne {take : Bool} {cs i : Nat} (h : i ≠ cs) (a : Ax) (s : St) : setupAxis take cs i a s =
    { xcs := s.xcs * a.xs
      rcs := s.rcs * a.rs
      xs := s.xs + s.xcs * (a.xs - a.l)
      rs := s.rs + s.rcs * (a.rs - a.l)
      xi := s.xi + s.xcs * a.xo take
      ri := s.ri + s.rcs * a.ro take
      xSkip := s.xSkip
      rSkip := s.rSkip
      cellWrite := s.cellWrite
      ctrs := s.ctrs ++ [⟨a.l, a.l, s.rs, s.xs⟩] } := by
  unfold setupAxis Ax.l Ax.xo Ax.ro
  simp only [if_neg h]
  by_cases hp : (a.xs : Int) - a.rs < 0
  · have e1 : min a.xs a.rs = a.xs := by omega
    have e2 : (-((a.xs : Int) - a.rs)).toNat = a.rs - a.xs := by omega
    have e3 : a.xs - a.rs = 0 := by omega
    cases hb : (take ^^ a.neg)
    · simp [hp, e1, e2, e3, Nat.mul_comm]
    · simp [hp, e1, e2]
  · have e1 : min a.xs a.rs = a.rs := by omega
    have e2 : ((a.xs : Int) - a.rs).toNat = a.xs - a.rs := by omega
    have e3 : a.rs - a.xs = 0 := by omega
    cases hb : (take ^^ a.neg)
    · simp [hp, e1, e2, e3, Nat.mul_comm]
      intro h
      rw [Nat.sub_eq_zero_of_le h, Nat.mul_zero]
    · simp [hp, e1, e2]

theorem setupAxis_eq {take : Bool} {cs : Nat} (a : Ax) (s : St) (h1 : s.rcs = s.xcs) (h2 : s.rs = 0) (h3 : s.xs = 0) : setupAxis take cs cs a s =
    { xcs := s.xcs * a.xs
      rcs := s.rcs * a.rs
      xs := s.xcs * a.xs
      rs := s.rcs * a.rs
      xi := s.xi + s.xcs * a.xo take
      ri := s.ri + s.rcs * a.ro take
      xSkip := s.xcs * a.xs
      rSkip := s.rcs * a.rs
      cellWrite := s.rcs * a.l
      ctrs := s.ctrs ++ [⟨a.l, a.l, 0, 0⟩] } := by
  unfold setupAxis Ax.l Ax.xo Ax.ro
  simp only [if_true]
  by_cases hp : (a.xs : Int) - a.rs < 0
  · have e1 : min a.xs a.rs = a.xs := by omega
    have e2 : (-((a.xs : Int) - a.rs)).toNat = a.rs - a.xs := by omega
    have e3 : a.xs - a.rs = 0 := by omega
    have e4 : s.rcs * (a.rs - a.xs) + s.rcs * a.xs = s.rcs * a.rs := by rw [← Nat.mul_add]; congr 1; omega
    cases hb : (take ^^ a.neg)
    · simp [hp, e1, e2, e3, h2, h3, h1, Nat.mul_comm]
      rw [h1] at e4
      rw [Nat.mul_comm a.xs, e4]
    · simp [hp, e1, e2, h2, h3, e4]
      rw [h1]
  · have e1 : min a.xs a.rs = a.rs := by omega
    have e2 : ((a.xs : Int) - a.rs).toNat = a.xs - a.rs := by omega
    have e3 : a.rs - a.xs = 0 := by omega
    have e4 : s.xcs * (a.xs - a.rs) + s.rcs * a.rs = s.xcs * a.xs := by rw [h1, ← Nat.mul_add]; congr 1; omega
    cases hb : (take ^^ a.neg)
    · simp [hp, e1, e2, e3, h2, h3, Nat.mul_comm]
      refine ⟨by rw [Nat.mul_comm a.rs, e4, Nat.mul_comm], fun h => ?_⟩
      rw [Nat.sub_eq_zero_of_le h, Nat.mul_zero]
    · simp [hp, e1, e2, h2, h3, e4]

theorem setup_inner (take : Bool) (T : List Ax) (hT : T ≠ []) : ∀ (L : List Ax), (∀ a ∈ L, a.rs = a.xs) → ∀ s : St, s.rcs = s.xcs →
    ∃ cl : List Ctr, cl.length = L.length ∧ setup take (T.length - 1) (L ++ T) s = setup take (T.length - 1) T
      { s with
        xcs := s.xcs * prod (L.map Ax.rs)
        rcs := s.rcs * prod (L.map Ax.rs)
        ctrs := s.ctrs ++ cl } := by
  intro L
  have hTl : 0 < T.length := List.length_pos_iff.mpr hT
  induction L with
  | nil =>
    intro _ s _
    refine ⟨[], rfl, ?_⟩
    rw [List.nil_append, List.append_nil, List.map_nil, prod, Nat.mul_one, Nat.mul_one]
  | cons a L ih =>
    intro hL s hs
    have ha : a.rs = a.xs := hL a List.mem_cons_self
    have hl : a.l = a.xs := by unfold Ax.l; omega
    have hr : a.ro take = 0 := by unfold Ax.ro; split <;> omega
    have hx : a.xo take = 0 := by unfold Ax.xo; split <;> omega
    rw [List.cons_append, setup, setupAxis_ne (by rw [List.length_append]; omega)]
    obtain ⟨cl, h1, h2⟩ := ih (fun b hb => hL b (List.mem_cons_of_mem _ hb)) ⟨s.xcs * a.xs, s.rcs * a.rs, s.xs + s.xcs * (a.xs - a.l), s.rs + s.rcs * (a.rs - a.l), s.xi + s.xcs * a.xo take,
      s.ri + s.rcs * a.ro take, s.xSkip, s.rSkip, s.cellWrite, s.ctrs ++ [⟨a.l, a.l, s.rs, s.xs⟩]⟩ (show s.rcs * a.rs = s.xcs * a.xs by rw [hs, ha])
    refine ⟨⟨a.l, a.l, s.rs, s.xs⟩ :: cl, by rw [List.length_cons, List.length_cons, h1], ?_⟩
    rw [h2, List.map_cons, prod, hl, hr, hx, ha]
    simp only [Nat.sub_self, Nat.mul_zero, Nat.add_zero, Nat.mul_assoc, List.append_assoc, List.singleton_append]

theorem mk_zero_cons (a : Ax) (L : List Ax) (rcs xcs rs xs : Nat) :
    mk (a :: L) rcs xcs rs xs 0 = ⟨a.l, a.l, rs, xs⟩ :: mk L (rcs * a.rs) (xcs * a.xs) (rs + rcs * (a.rs - a.l)) (xs + xcs * (a.xs - a.l)) 0 := by
  rw [mk, Nat.zero_mod, Nat.sub_zero, Nat.zero_div]

theorem setup_outer (take : Bool) (cs : Nat) : ∀ (L : List Ax), L.length ≤ cs → ∀ s : St,
    (setup take cs L s).ctrs = s.ctrs ++ mk L s.rcs s.xcs s.rs s.xs 0 ∧
    (setup take cs L s).ri = s.ri + s.rcs * rav (L.map Ax.rs) (L.map (Ax.ro take)) ∧
    (setup take cs L s).xi = s.xi + s.xcs * rav (L.map Ax.xs) (L.map (Ax.xo take)) ∧
    (setup take cs L s).rSkip = s.rSkip ∧ (setup take cs L s).xSkip = s.xSkip ∧ (setup take cs L s).cellWrite = s.cellWrite := by
  intro L
  induction L with
  | nil => intro _ s; exact ⟨(List.append_nil _).symm, rfl, rfl, rfl, rfl, rfl⟩
  | cons a L ih =>
    intro h s
    rw [List.length_cons] at h
    rw [setup, setupAxis_ne (by omega)]
    obtain ⟨h1, h2, h3, h4, h5, h6⟩ := ih (by omega) ⟨s.xcs * a.xs, s.rcs * a.rs, s.xs + s.xcs * (a.xs - a.l), s.rs + s.rcs * (a.rs - a.l), s.xi + s.xcs * a.xo take,
      s.ri + s.rcs * a.ro take, s.xSkip, s.rSkip, s.cellWrite, s.ctrs ++ [⟨a.l, a.l, s.rs, s.xs⟩]⟩
    refine ⟨?_, ?_, ?_, h4, h5, h6⟩
    · rw [h1, mk_zero_cons]
      simp only [List.append_assoc, List.singleton_append]
    · rw [h2, List.map_cons, List.map_cons, rav, Nat.mul_add]
      simp only [Nat.mul_assoc, Nat.add_assoc]
    · rw [h3, List.map_cons, List.map_cons, rav, Nat.mul_add]
      simp only [Nat.mul_assoc, Nat.add_assoc]

/-! ## Steps -/

/-- The distance from the first copy in the result after `t` steps. -/
def rpos : List Ax → Nat → Nat → Nat
  | [], _, _ => 0
  | a :: L, rcs, t => (t % a.l) * rcs + rpos L (rcs * a.rs) (t / a.l)

/-- And in the argument. -/
def xpos : List Ax → Nat → Nat → Nat
  | [], _, _ => 0
  | a :: L, xcs, t => (t % a.l) * xcs + xpos L (xcs * a.xs) (t / a.l)

/-- The number of copies. -/
def total (L : List Ax) : Nat := prod (L.map Ax.l)

theorem carry_spec : ∀ (L : List Ax), (∀ a ∈ L, 0 < a.l) → ∀ (rcs xcs rs xs sr sx t : Nat), t < total L → rs + sr = rcs → xs + sx = xcs →
    if t + 1 < total L then ∃ dr dx, carry (mk L rcs xcs rs xs t) = some (mk L rcs xcs rs xs (t + 1), dr, dx) ∧ rpos L rcs (t + 1) = rpos L rcs t + dr + sr ∧
        xpos L xcs (t + 1) = xpos L xcs t + dx + sx ∧ rs ≤ dr
    else carry (mk L rcs xcs rs xs t) = none := by
  intro L
  induction L with
  | nil =>
    intro _ rcs xcs rs xs sr sx t ht _ _
    have : t < 1 := ht
    rw [if_neg (show ¬ t + 1 < total [] from fun h => by have h : t + 1 < 1 := h; omega)]
    rfl
  | cons a L ih =>
    intro hL rcs xcs rs xs sr sx t ht hr hx
    have hl : 0 < a.l := hL a List.mem_cons_self
    have ht : t < a.l * total L := ht
    have htot : total (a :: L) = a.l * total L := rfl
    have htd : a.l * (t / a.l) + t % a.l = t := Nat.div_add_mod _ _
    have hdl := Nat.mod_lt t hl
    have hq : t / a.l < total L := (Nat.div_lt_iff_lt_mul hl).2 (by rw [Nat.mul_comm]; exact ht)
    rw [htot, mk, carry]
    simp only
    by_cases hc : t % a.l + 1 = a.l
    · have e1 : t + 1 = a.l * (t / a.l + 1) := by rw [Nat.mul_succ]; omega
      have e2 : (t + 1) / a.l = t / a.l + 1 := by rw [e1, Nat.mul_div_cancel_left _ hl]
      have e3 : (t + 1) % a.l = 0 := by rw [e1, Nat.mul_mod_right]
      rw [if_pos (show a.l - t % a.l - 1 = 0 by omega)]
      have hlr : a.l ≤ a.rs := by unfold Ax.l; omega
      have hlx : a.l ≤ a.xs := by unfold Ax.l; omega
      have k1 : rcs * (a.rs - a.l) + (a.l - 1) * rcs + rcs = rcs * a.rs := by
        have : rcs * (a.rs - a.l) + rcs * (a.l - 1) + rcs * 1 = rcs * a.rs := by rw [← Nat.mul_add, ← Nat.mul_add]; congr 1; omega
        rw [Nat.mul_comm (a.l - 1)]; omega
      have k2 : xcs * (a.xs - a.l) + (a.l - 1) * xcs + xcs = xcs * a.xs := by
        have : xcs * (a.xs - a.l) + xcs * (a.l - 1) + xcs * 1 = xcs * a.xs := by rw [← Nat.mul_add, ← Nat.mul_add]; congr 1; omega
        rw [Nat.mul_comm (a.l - 1)]; omega
      have := ih (fun b hb => hL b (List.mem_cons_of_mem _ hb)) (rcs * a.rs) (xcs * a.xs) (rs + rcs * (a.rs - a.l)) (xs + xcs * (a.xs - a.l)) (sr + (a.l - 1) * rcs) (sx + (a.l - 1) * xcs)
        (t / a.l) hq (by omega) (by omega)
      by_cases hlt : t / a.l + 1 < total L
      · rw [if_pos hlt] at this
        rw [if_pos (show t + 1 < a.l * total L by rw [e1]; exact (Nat.mul_lt_mul_left hl).2 hlt)]
        obtain ⟨dr, dx, c1, c2, c3, c4⟩ := this
        refine ⟨dr, dx, ?_, ?_, ?_, by omega⟩
        · rw [c1, mk, e2, e3, Nat.sub_zero]; rfl
        · rw [rpos, rpos, e2, e3, c2, Nat.zero_mul, show t % a.l = a.l - 1 by omega]; omega
        · rw [xpos, xpos, e2, e3, c3, Nat.zero_mul, show t % a.l = a.l - 1 by omega]; omega
      · rw [if_neg hlt] at this
        rw [if_neg (show ¬ t + 1 < a.l * total L by rw [e1]; exact fun h => hlt ((Nat.mul_lt_mul_left hl).1 h)), this]
        rfl
    · have e1 : t + 1 = a.l * (t / a.l) + (t % a.l + 1) := by omega
      have hd1 : t % a.l + 1 < a.l := by omega
      have e2 : (t + 1) / a.l = t / a.l := by rw [e1, Nat.mul_add_div hl, Nat.div_eq_of_lt hd1, Nat.add_zero]
      have e3 : (t + 1) % a.l = t % a.l + 1 := by rw [e1, Nat.mul_add_mod, Nat.mod_eq_of_lt hd1]
      have hlt : t + 1 < a.l * total L := by
        have := Nat.mul_le_mul_left a.l (show t / a.l + 1 ≤ total L from hq)
        rw [Nat.mul_succ] at this
        omega
      rw [if_neg (show ¬ a.l - t % a.l - 1 = 0 by omega), if_pos hlt]
      refine ⟨rs, xs, ?_, ?_, ?_, Nat.le_refl _⟩
      · rw [mk, e2, e3]; congr 4
      · rw [rpos, rpos, e2, e3, Nat.succ_mul]; omega
      · rw [xpos, xpos, e2, e3, Nat.succ_mul]; omega

theorem advance_mk (a : Ax) (L : List Ax) (R X t : Nat) : advance R X (mk (a :: L) R X R X t) = carry (mk (a :: L) R X R X t) := rfl

/-- A step of the generic case. -/
theorem advance_spec (L : List Ax) (hne : L ≠ []) (hL : ∀ a ∈ L, 0 < a.l) (R X t : Nat) (ht : t < total L) :
    if t + 1 < total L then ∃ dr dx, advance R X (mk L R X R X t) = some (mk L R X R X (t + 1), dr, dx) ∧ rpos L R (t + 1) = rpos L R t + dr ∧ xpos L X (t + 1) = xpos L X t + dx ∧ R ≤ dr
    else advance R X (mk L R X R X t) = none := by
  cases L with
  | nil => exact absurd rfl hne
  | cons a L =>
    rw [advance_mk]
    exact carry_spec (a :: L) hL R X R X 0 0 t ht rfl rfl

/-! ## Positions and indices -/

theorem rav_lt {sh is : List Nat} (h : InShape sh is) : rav sh is < prod sh := by
  induction h with
  | nil => exact Nat.one_pos
  | @cons s i sh is hi _ ih =>
    rw [rav, prod]
    have := Nat.mul_le_mul_left s ih
    rw [Nat.mul_succ] at this
    omega

theorem rav_inj {sh is js : List Nat} (h : InShape sh is) (h2 : InShape sh js) (e : rav sh is = rav sh js) : is = js := by
  induction h generalizing js with
  | nil => cases h2; rfl
  | @cons s i sh is hi h ih =>
    cases h2 with
    | @cons _ j _ js hj h2 =>
      rw [rav, rav] at e
      have e1 : i = j := by
        have := congrArg (· % s) e
        simp only [Nat.add_mul_mod_self_left, Nat.mod_eq_of_lt hi, Nat.mod_eq_of_lt hj] at this
        exact this
      subst e1
      have e2 : rav sh is = rav sh js := Nat.eq_of_mul_eq_mul_left (show 0 < s by omega) (by omega)
      rw [ih h2 e2]

/-- Sums of indices. -/
def plus : List Nat → List Nat → List Nat := List.zipWith (· + ·)

theorem rav_plus : ∀ (sh is js : List Nat), is.length = sh.length → js.length = sh.length → rav sh (plus is js) = rav sh is + rav sh js
  | [], is, js, _, _ => by simp [rav]
  | s :: sh, [], _, h, _ => by cases h
  | s :: sh, _ :: _, [], _, h => by cases h
  | s :: sh, i :: is, j :: js, h1, h2 => by
    show i + j + s * rav sh (plus is js) = i + s * rav sh is + (j + s * rav sh js)
    rw [rav_plus sh is js (by simpa using h1) (by simpa using h2), Nat.mul_add]
    omega

/-- The counters of step `t`. -/
def digits : List Ax → Nat → List Nat
  | [], _ => []
  | a :: L, t => t % a.l :: digits L (t / a.l)

theorem rpos_digits : ∀ (L : List Ax) (rcs t : Nat), rpos L rcs t = rcs * rav (L.map Ax.rs) (digits L t)
  | [], _, _ => rfl
  | a :: L, rcs, t => by
    rw [rpos, digits, List.map_cons, rav, rpos_digits L, Nat.mul_add, Nat.mul_comm, Nat.mul_assoc]

theorem xpos_digits : ∀ (L : List Ax) (xcs t : Nat), xpos L xcs t = xcs * rav (L.map Ax.xs) (digits L t)
  | [], _, _ => rfl
  | a :: L, xcs, t => by
    rw [xpos, digits, List.map_cons, rav, xpos_digits L, Nat.mul_add, Nat.mul_comm, Nat.mul_assoc]

theorem digits_in : ∀ (L : List Ax), (∀ a ∈ L, 0 < a.l) → ∀ t, InShape (L.map Ax.l) (digits L t)
  | [], _, _ => .nil
  | a :: L, h, t => .cons (Nat.mod_lt _ (h a List.mem_cons_self)) (digits_in L (fun b hb => h b (List.mem_cons_of_mem _ hb)) _)

theorem digits_rav {L : List Ax} {ds : List Nat} (h : InShape (L.map Ax.l) ds) : digits L (rav (L.map Ax.l) ds) = ds := by
  induction L generalizing ds with
  | nil => cases h; rfl
  | cons a L ih =>
    cases h with
    | cons hi h =>
      rw [List.map_cons, rav, digits, Nat.add_mul_mod_self_left, Nat.mod_eq_of_lt hi, Nat.add_mul_div_left _ _ (show 0 < a.l by omega), Nat.div_eq_of_lt hi, Nat.zero_add, ih h]

end Verif.Take
