import Verif.Squeeze.Lemmas
/-!
# Squeezing: copies between element types keep the elements
-/
namespace Verif.Squeeze
open Verif.Bins (ofInt)

theorem nums_spec : ∀ {vs : List Val}, (∀ v ∈ vs, ∃ f, v = .num f) → ∃ fs, nums vs = some fs ∧ vs = fs.map .num
  | [], _ => ⟨[], rfl, rfl⟩
  | v :: vs, h => by
    obtain ⟨f, rfl⟩ := h v List.mem_cons_self
    obtain ⟨fs, e1, e2⟩ := nums_spec fun v hv => h v (List.mem_cons_of_mem _ hv)
    exact ⟨f :: fs, by rw [nums, e1]; rfl, by rw [e2]; rfl⟩

theorem chrs_spec : ∀ {vs : List Val}, (∀ v ∈ vs, ∃ c, v = .chr c) → ∃ cs, chrs vs = some cs ∧ vs = cs.map .chr
  | [], _ => ⟨[], rfl, rfl⟩
  | v :: vs, h => by
    obtain ⟨f, rfl⟩ := h v List.mem_cons_self
    obtain ⟨fs, e1, e2⟩ := chrs_spec fun v hv => h v (List.mem_cons_of_mem _ hv)
    exact ⟨f :: fs, by rw [chrs, e1]; rfl, by rw [e2]; rfl⟩

theorem intIn_num {lo hi : Int} {v : Val} (h : IntIn lo hi v) : ∃ f, v = .num f := by
  obtain ⟨i, _, _, s⟩ := h
  cases v with
  | num f => exact ⟨f, rfl⟩
  | chr => exact s.elim
  | other => exact s.elim

theorem intIn_eqF {lo hi : Int} {f : BitVec 64} (hl : -2147483648 ≤ lo) (hh : hi ≤ 2147483647) (h : IntIn lo hi (.num f)) :
    ∃ i, lo ≤ i ∧ i ≤ hi ∧ EqF f (ofInt i) := by
  obtain ⟨i, a, b, s⟩ := h
  refine ⟨i, a, b, ?_⟩
  rcases s with s | s
  · rw [s]; exact eqF_self (by omega)
  · exact s

/-- Integers that a width of `w` bits holds. -/
def Fits (w : Nat) (v : Val) : Prop := IntIn (-(2^(w-1) : Nat)) ((2^(w-1) : Nat) - 1) v

theorem pow_bounds {w : Nat} (h1 : 2 ≤ w) (h2 : w ≤ 32) : 2 ≤ 2^(w-1) ∧ 2^(w-1) ≤ 2147483648 ∧ 2^w = 2 * 2^(w-1) := by
  refine ⟨?_, ?_, ?_⟩
  · exact Nat.pow_le_pow_right (n := 2) (by decide) (show 1 ≤ w - 1 by omega)
  · exact Nat.pow_le_pow_right (n := 2) (by decide) (show w - 1 ≤ 31 by omega)
  · have : 2^w = 2^(w - 1 + 1) := by congr 1; omega
    rw [this, Nat.pow_succ]; omega

theorem bmod_id {w : Nat} (h1 : 2 ≤ w) (h2 : w ≤ 32) {i : Int} (a : -((2^(w-1) : Nat) : Int) ≤ i) (b : i ≤ (2^(w-1) : Nat) - 1) :
    i.bmod (2^w) = i := by
  obtain ⟨_, _, e⟩ := pow_bounds h1 h2
  rw [e]
  exact Int.bmod_eq_of_le (by omega) (by omega)

theorem fits_int {w : Nat} (h1 : 2 ≤ w) (h2 : w ≤ 32) {i : Int} (hi : i.natAbs < 2^53) (h : Fits w (.num (ofInt i))) :
    i.bmod (2^w) = i := by
  obtain ⟨_, b, _⟩ := pow_bounds h1 h2
  obtain ⟨x, y⟩ := (intIn_ofInt (by omega) (by omega) hi).1 h
  exact bmod_id h1 h2 x y

theorem signExtend_fits {n w : Nat} (h1 : 2 ≤ w) (h2 : w ≤ 32) (hn : n ≤ 32) (x : BitVec n) (h : Fits w (.num (ofInt x.toInt))) :
    (x.signExtend w).toInt = x.toInt := by
  rw [BitVec.toInt_signExtend]
  rcases Nat.le_total w n with hw | hw
  · rw [Nat.min_eq_left hw]
    refine fits_int h1 h2 ?_ h
    have a := @BitVec.le_toInt n x
    have b := @BitVec.toInt_lt n x
    have : (2:Int)^(n-1) ≤ 2^31 := by
      have := Nat.pow_le_pow_right (n := 2) (by decide) (show n - 1 ≤ 31 by omega)
      exact_mod_cast this
    omega
  · rw [Nat.min_eq_right hw, BitVec.toInt_bmod_cancel]

theorem toIw_fits {w : Nat} (h1 : 2 ≤ w) (h2 : w ≤ 32) (bad : BitVec 64 → BitVec 32) {f : BitVec 64} (h : Fits w (.num f)) :
    Same (.num (ofInt (toIw w bad f).toInt)) (.num f) := by
  obtain ⟨_, b, _⟩ := pow_bounds h1 h2
  obtain ⟨i, x, y, e⟩ := intIn_eqF (by omega) (by omega) h
  unfold toIw
  rw [toI32_eqF bad (by omega) (by omega) e, ← BitVec.signExtend_eq_setWidth_of_le _ h2, BitVec.toInt_signExtend,
    Nat.min_eq_left h2, ofInt_toInt32 (by omega) (by omega), bmod_id h1 h2 x y]
  exact .inr e.symm

theorem toInts_spec {w : Nat} (h1 : 2 ≤ w) (h2 : w ≤ 32) (bad : BitVec 64 → BitVec 32) {d : Data} (h : ∀ v ∈ d.elems, Fits w v) :
    ∃ xs, toInts w bad d = some xs ∧ Sames (xs.map fun i => .num (ofInt i.toInt)) d.elems := by
  have gen : ∀ vs : List Val, (∀ v ∈ vs, Fits w v) →
      ∃ xs : List (BitVec w), (nums vs).map (fun fs => fs.map (toIw w bad)) = some xs ∧ Sames (xs.map fun i => .num (ofInt i.toInt)) vs := by
    intro vs h
    obtain ⟨fs, e1, e2⟩ := nums_spec fun v hv => intIn_num (h v hv)
    refine ⟨_, by rw [e1]; rfl, ?_⟩
    rw [e2]
    exact Sames.map fun f hf => toIw_fits h1 h2 bad (h _ (by rw [e2]; exact List.mem_map_of_mem hf))
  have ints : ∀ {n : Nat} (_ : n ≤ 32) (xs : List (BitVec n)), (∀ v ∈ xs.map (fun i => Val.num (ofInt i.toInt)), Fits w v) →
      Sames ((xs.map (·.signExtend w)).map fun i => .num (ofInt i.toInt)) (xs.map fun i => .num (ofInt i.toInt)) := by
    intro n hn xs h
    refine Sames.map fun x hx => ?_
    rw [signExtend_fits h1 h2 hn x (h _ (List.mem_map_of_mem hx))]
    exact Same.refl _
  cases d with
  | bit xs =>
    refine ⟨_, rfl, Sames.map fun b hb => ?_⟩
    have := fits_int h1 h2 (by cases b <;> decide) (h _ (List.mem_map_of_mem hb))
    rw [BitVec.toInt_ofNat', this]
    exact Same.refl _
  | i8 xs => exact ⟨_, rfl, ints (by decide) xs h⟩
  | i16 xs => exact ⟨_, rfl, ints (by decide) xs h⟩
  | i32 xs => exact ⟨_, rfl, ints (by decide) xs h⟩
  | f64 xs => exact ⟨_, rfl, Sames.map fun f hf => toIw_fits h1 h2 bad (h _ (List.mem_map_of_mem hf))⟩
  | c8 xs => exact gen _ h
  | c16 xs => exact gen _ h
  | c32 xs => exact gen _ h
  | B xs => exact gen _ h

theorem toF64s_spec {d : Data} (h : ∀ v ∈ d.elems, ∃ f, v = .num f) :
    ∃ xs, toF64s d = some xs ∧ Sames (xs.map .num) d.elems := by
  have gen : ∀ vs : List Val, (∀ v ∈ vs, ∃ f, v = .num f) → ∃ xs, nums vs = some xs ∧ Sames (xs.map .num) vs := by
    intro vs h
    obtain ⟨fs, e1, e2⟩ := nums_spec h
    exact ⟨fs, e1, by rw [e2]; exact Sames.refl _⟩
  cases d with
  | bit xs => exact ⟨_, rfl, Sames.map fun _ _ => Same.refl _⟩
  | i8 xs => exact ⟨_, rfl, Sames.map fun _ _ => Same.refl _⟩
  | i16 xs => exact ⟨_, rfl, Sames.map fun _ _ => Same.refl _⟩
  | i32 xs => exact ⟨_, rfl, Sames.map fun _ _ => Same.refl _⟩
  | f64 xs => exact ⟨_, rfl, Sames.refl _⟩
  | c8 xs => exact gen _ h
  | c16 xs => exact gen _ h
  | c32 xs => exact gen _ h
  | B xs => exact gen _ h

theorem bit_float {f : BitVec 64} (h : IntIn 0 1 (.num f)) : Same (.num (ofInt (!feq f 0).toNat)) (.num f) := by
  obtain ⟨i, a, b, e⟩ := intIn_eqF (by decide) (by decide) h
  have : i = 0 ∨ i = 1 := by omega
  rcases this with rfl | rfl
  · have : feq f 0 = true := feq_iff.2 e
    rw [this]
    exact .inr e.symm
  · have : feq f 0 = false := by
      cases hf : feq f 0 with
      | false => rfl
      | true =>
        have := (e.symm.trans (feq_iff.1 hf)).2.2
        exact absurd this (by decide)
    rw [this]
    exact .inr e.symm

theorem bit_int {n : Nat} (hn : n ≤ 32) {x : BitVec n} (h : IntIn 0 1 (.num (ofInt x.toInt))) :
    Same (.num (ofInt (x != 0).toNat)) (.num (ofInt x.toInt)) := by
  have a := @BitVec.le_toInt n x
  have b := @BitVec.toInt_lt n x
  have : (2:Int)^(n-1) ≤ 2^31 := by
    have := Nat.pow_le_pow_right (n := 2) (by decide) (show n - 1 ≤ 31 by omega)
    exact_mod_cast this
  obtain ⟨p, q⟩ := (intIn_ofInt (by decide) (by decide) (by omega)).1 h
  have : x.toInt = 0 ∨ x.toInt = 1 := by omega
  rcases this with e | e
  · have : x = 0 := BitVec.eq_of_toInt_eq (by rw [e]; exact BitVec.toInt_zero.symm)
    subst this
    rw [e]
    simp
    exact Same.refl _
  · have : (x != 0) = true := by
      rw [bne_iff_ne]
      rintro rfl
      have : (0#n).toInt = 0 := BitVec.toInt_zero
      rw [show (0 : BitVec n) = 0#n from rfl, this] at e
      exact absurd e (by decide)
    rw [this, e]
    exact Same.refl _

theorem toBits_spec {d : Data} (h : ∀ v ∈ d.elems, IntIn 0 1 v) :
    ∃ xs, toBits d = some xs ∧ Sames (xs.map fun b => .num (ofInt b.toNat)) d.elems := by
  have gen : ∀ vs : List Val, (∀ v ∈ vs, IntIn 0 1 v) →
      ∃ xs : List Bool, (nums vs).map (fun fs => fs.map fun f => !feq f 0) = some xs ∧ Sames (xs.map fun b => .num (ofInt b.toNat)) vs := by
    intro vs h
    obtain ⟨fs, e1, e2⟩ := nums_spec fun v hv => intIn_num (h v hv)
    refine ⟨_, by rw [e1]; rfl, ?_⟩
    rw [e2]
    exact Sames.map fun f hf => bit_float (h _ (by rw [e2]; exact List.mem_map_of_mem hf))
  cases d with
  | bit xs => exact ⟨_, rfl, Sames.refl _⟩
  | i8 xs => exact ⟨_, rfl, Sames.map fun x hx => bit_int (by decide) (h _ (List.mem_map_of_mem hx))⟩
  | i16 xs => exact ⟨_, rfl, Sames.map fun x hx => bit_int (by decide) (h _ (List.mem_map_of_mem hx))⟩
  | i32 xs => exact ⟨_, rfl, Sames.map fun x hx => bit_int (by decide) (h _ (List.mem_map_of_mem hx))⟩
  | f64 xs => exact ⟨_, rfl, Sames.map fun f hf => bit_float (h _ (List.mem_map_of_mem hf))⟩
  | c8 xs => exact gen _ h
  | c16 xs => exact gen _ h
  | c32 xs => exact gen _ h
  | B xs => exact gen _ h

theorem chr_width {w : Nat} (hw : w ≤ 32) {c : BitVec 32} (h : c.toNat < 2^w) : (c.setWidth w).zeroExtend 32 = c := by
  apply BitVec.eq_of_toNat_eq
  rw [show BitVec.zeroExtend 32 (c.setWidth w) = (c.setWidth w).setWidth 32 from rfl, BitVec.toNat_setWidth, BitVec.toNat_setWidth,
    Nat.mod_eq_of_lt h, Nat.mod_eq_of_lt c.isLt]

theorem chr_width' {n w : Nat} (hn : n ≤ 32) (hw : w ≤ 32) {c : BitVec n} (h : (c.zeroExtend 32).toNat < 2^w) :
    (c.setWidth w).zeroExtend 32 = c.zeroExtend 32 := by
  have e : (c.zeroExtend 32).toNat = c.toNat := by
    rw [show c.zeroExtend 32 = c.setWidth 32 from rfl, BitVec.toNat_setWidth]
    exact Nat.mod_eq_of_lt (Nat.lt_of_lt_of_le c.isLt (Nat.pow_le_pow_right (by decide) hn))
  rw [e] at h
  apply BitVec.eq_of_toNat_eq
  rw [e, show BitVec.zeroExtend 32 (c.setWidth w) = (c.setWidth w).setWidth 32 from rfl, BitVec.toNat_setWidth, BitVec.toNat_setWidth,
    Nat.mod_eq_of_lt h]
  exact Nat.mod_eq_of_lt (Nat.lt_of_lt_of_le h (Nat.pow_le_pow_right (by decide) hw))

theorem toChrs_spec {w : Nat} (hw : w ≤ 32) {d : Data} (h : ∀ v ∈ d.elems, ∃ c, v = .chr c ∧ c.toNat < 2^w) :
    ∃ xs : List (BitVec w), toChrs w d = some xs ∧ Sames (xs.map fun c => .chr (c.zeroExtend 32)) d.elems := by
  have gen : ∀ vs : List Val, (∀ v ∈ vs, ∃ c, v = .chr c ∧ c.toNat < 2^w) →
      ∃ xs : List (BitVec w), (chrs vs).map (fun fs => fs.map (·.setWidth w)) = some xs ∧ Sames (xs.map fun c => .chr (c.zeroExtend 32)) vs := by
    intro vs h
    obtain ⟨fs, e1, e2⟩ := chrs_spec fun v hv => (h v hv).imp fun _ => And.left
    refine ⟨_, by rw [e1]; rfl, ?_⟩
    rw [e2]
    refine Sames.map fun c hc => ?_
    obtain ⟨c', e, hlt⟩ := h (.chr c) (by rw [e2]; exact List.mem_map_of_mem hc)
    cases e
    exact chr_width hw hlt
  have wide : ∀ {n : Nat} (_ : n ≤ 32) (xs : List (BitVec n)), (∀ v ∈ xs.map (fun c => Val.chr (c.zeroExtend 32)), ∃ c, v = .chr c ∧ c.toNat < 2^w) →
      Sames ((xs.map (·.setWidth w)).map fun c => .chr (c.zeroExtend 32)) (xs.map fun c => .chr (c.zeroExtend 32)) := by
    intro n hn xs h
    refine Sames.map fun x hx => ?_
    obtain ⟨c', e, hlt⟩ := h _ (List.mem_map_of_mem hx)
    cases e
    exact chr_width' hn hw hlt
  cases d with
  | bit xs => exact gen _ h
  | i8 xs => exact gen _ h
  | i16 xs => exact gen _ h
  | i32 xs => exact gen _ h
  | f64 xs => exact gen _ h
  | c8 xs => exact ⟨_, rfl, wide (by decide) xs h⟩
  | c16 xs => exact ⟨_, rfl, wide (by decide) xs h⟩
  | c32 xs =>
    refine ⟨_, rfl, Sames.map fun x hx => ?_⟩
    obtain ⟨c', e, hlt⟩ := h _ (List.mem_map_of_mem hx)
    cases e
    exact chr_width hw hlt
  | B xs => exact gen _ h

/-- A copy with a type that can hold every element has that type and the same elements. -/
theorem conv_spec (bad : BitVec 64 → BitVec 32) {t : El} {d : Data} (h : ∀ v ∈ d.elems, Holds t v) :
    ∃ d', conv bad t d = some d' ∧ d'.ty = t ∧ Sames d'.elems d.elems := by
  cases t with
  | bit => obtain ⟨xs, e, s⟩ := toBits_spec h; exact ⟨.bit xs, by unfold conv; dsimp only; rw [e]; rfl, rfl, s⟩
  | i8 => obtain ⟨xs, e, s⟩ := toInts_spec (w := 8) (by decide) (by decide) bad h; exact ⟨.i8 xs, by unfold conv; dsimp only; rw [e]; rfl, rfl, s⟩
  | i16 => obtain ⟨xs, e, s⟩ := toInts_spec (w := 16) (by decide) (by decide) bad h; exact ⟨.i16 xs, by unfold conv; dsimp only; rw [e]; rfl, rfl, s⟩
  | i32 => obtain ⟨xs, e, s⟩ := toInts_spec (w := 32) (by decide) (by decide) bad h; exact ⟨.i32 xs, by unfold conv; dsimp only; rw [e]; rfl, rfl, s⟩
  | f64 => obtain ⟨xs, e, s⟩ := toF64s_spec h; exact ⟨.f64 xs, by unfold conv; dsimp only; rw [e]; rfl, rfl, s⟩
  | c8 => obtain ⟨xs, e, s⟩ := toChrs_spec (w := 8) (by decide) h; exact ⟨.c8 xs, by unfold conv; dsimp only; rw [e]; rfl, rfl, s⟩
  | c16 => obtain ⟨xs, e, s⟩ := toChrs_spec (w := 16) (by decide) h; exact ⟨.c16 xs, by unfold conv; dsimp only; rw [e]; rfl, rfl, s⟩
  | c32 =>
    obtain ⟨xs, e, s⟩ := toChrs_spec (w := 32) (by decide) (d := d) fun v hv => (h v hv).imp fun c e => ⟨e, c.isLt⟩
    refine ⟨.c32 xs, by unfold conv; dsimp only; rw [e]; rfl, rfl, ?_⟩
    have : (fun c : BitVec 32 => Val.chr (c.zeroExtend 32)) = .chr := by funext c; simp
    rw [this] at s
    exact s
  | B => exact ⟨_, rfl, rfl, Sames.refl _⟩

/-- Every array's element type can hold its elements. -/
theorem elems_hold (d : Data) : ∀ v ∈ d.elems, Holds d.ty v := by
  intro v hv
  cases d with
  | bit xs =>
    obtain ⟨b, _, rfl⟩ := List.mem_map.1 hv
    exact ⟨_, by cases b <;> decide, by cases b <;> decide, Same.refl _⟩
  | i8 xs => obtain ⟨b, _, rfl⟩ := List.mem_map.1 hv; exact ⟨_, (range8 b).1, (range8 b).2, Same.refl _⟩
  | i16 xs => obtain ⟨b, _, rfl⟩ := List.mem_map.1 hv; exact ⟨_, (range16 b).1, (range16 b).2, Same.refl _⟩
  | i32 xs => obtain ⟨b, _, rfl⟩ := List.mem_map.1 hv; exact ⟨_, (range32 b).1, (range32 b).2, Same.refl _⟩
  | f64 xs => obtain ⟨b, _, rfl⟩ := List.mem_map.1 hv; exact ⟨_, rfl⟩
  | c8 xs =>
    obtain ⟨b, _, rfl⟩ := List.mem_map.1 hv
    exact ⟨_, rfl, by simp; omega⟩
  | c16 xs =>
    obtain ⟨b, _, rfl⟩ := List.mem_map.1 hv
    exact ⟨_, rfl, by simp; omega⟩
  | c32 xs => obtain ⟨b, _, rfl⟩ := List.mem_map.1 hv; exact ⟨_, rfl⟩
  | B xs => exact trivial

end Verif.Squeeze
