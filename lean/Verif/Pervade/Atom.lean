import Verif.Pervade.Typed
/-!
# Comparisons: a typed array with an atom, and two typed arrays of different types
-/
namespace Verif.Pervade
open Verif.Bins (ofInt)
open Verif.Rotate (prod)
open Verif.Bits (Word bitF)
open Verif.Squeeze (Val El Data conv feq toI32 toIw EqF Same Sames feq_iff Holds Fits toIw_fits IntIn)
open Verif.BitFn (Mem memOf rd put wr loop shProd isChr place Wide rd_bit place_bit loop_wr loop_put put_bit)

/-- Different numbers. -/
theorem dbl_differ {f g : BitVec 64} (h : ¬ EqF f g) : Op.dbl .eq f g = false ∧ Op.dbl .ne f g = true := by
  unfold Op.dbl
  unfold EqF at h
  cases hf : Compare.nan f
  · cases hg : Compare.nan g
    · rw [hf, hg] at h
      have : ¬ Compare.key f = Compare.key g := fun e => h ⟨rfl, rfl, e⟩
      simp only [Bool.or_self, Bool.false_eq_true, if_false, Op.int]
      exact ⟨decide_eq_false this, decide_eq_true this⟩
    · exact ⟨rfl, rfl⟩
  · exact ⟨rfl, rfl⟩

theorem feq_fits {w : Nat} (h1 : 2 ≤ w) (h2 : w ≤ 32) (bad : BitVec 64 → BitVec 32) {f : BitVec 64} {i : Int}
    (h : EqF (ofInt i) f) (l : -((2^(w-1) : Nat) : Int) ≤ i) (u : i ≤ (2^(w-1) : Nat) - 1) : feq f (ofInt (toIw w bad f).toInt) = true := by
  have fit : Fits w (.num f) := ⟨i, l, u, .inr h.symm⟩
  rcases toIw_fits h1 h2 bad fit with e | e
  · rw [e]
    exact feq_iff.2 ⟨h.2.1, h.2.1, rfl⟩
  · exact feq_iff.2 e.symm

theorem feq_fits32 (bad : BitVec 64 → BitVec 32) {f : BitVec 64} {i : Int}
    (h : EqF (ofInt i) f) (l : -2147483648 ≤ i) (u : i ≤ 2147483647) : feq f (ofInt (toI32 bad f).toInt) = true := by
  have : Squeeze.qI32 bad f = true := Squeeze.qI32_iff.2 ⟨i, l, u, .inr h.symm⟩
  exact this

/-- A zero has no bits but the sign. -/
theorem zero_bits (f : BitVec 64) : f <<< 1 = 0#64 ↔ Compare.key f = 0 := by
  have e : (f <<< 1).toNat = f.toNat * 2 % 2^64 := by rw [BitVec.toNat_shiftLeft, Nat.shiftLeft_eq]
  have l := f.isLt
  rw [← BitVec.toNat_inj, e]
  show f.toNat * 2 % 2^64 = 0 ↔ _
  unfold Compare.key
  by_cases h : f.toNat < 2^63
  · rw [if_pos h]; omega
  · rw [if_neg h]; omega

theorem bool_bits {f : BitVec 64} (h : (feq f 0 || feq f (ofInt 1)) = true) : EqF f (ofInt (f <<< 1 != 0#64).toNat) := by
  by_cases e : f <<< 1 = 0#64
  · rw [e]
    have k := (zero_bits f).1 e
    rw [Bool.or_eq_true, feq_iff, feq_iff] at h
    rcases h with h | h
    · exact h
    · have : Compare.key (ofInt 1) = 0 := by rw [← h.2.2]; exact k
      exact absurd this (by decide)
  · have k : Compare.key f ≠ 0 := fun k => e ((zero_bits f).2 k)
    have b : (f <<< 1 != 0#64) = true := bne_iff_ne.2 e
    rw [b]
    rw [Bool.or_eq_true, feq_iff, feq_iff] at h
    rcases h with h | h
    · exact absurd h.2.2 k
    · exact h

/-- Comparison of a typed array with an atom. -/
theorem fnAS_spec (same : Nat → Nat → Bool) (bad : BitVec 64 → BitVec 32) (op : Op) {d : Data} (hB : d.ty ≠ .B) (tail : Mem) {x : V}
    (hx : x.isArr = false) (r : Mem) : AtomSpec same op d x (fnAS same bad op d.ty (memOf tail d) x d.elems.length r) := by
  have lt : ∀ {i : Nat} {a : Val}, d.elems[i]? = some a → i < d.elems.length := fun h => (List.getElem?_eq_some_iff.1 h).1
  have slow := toSlow_spec same op hB tail hx r
  have cmp : ∀ {c : Nat → Bool}, (∀ (i : Nat) a, d.elems[i]? = some a → rel same op (tv a) (atomT x) = some (c i)) →
      AtomSpec same op d x (.ok (cmpLoop c d.elems.length r)) := by
    intro c h
    exact .inl ⟨_, rfl, fun i a ha => by rw [cmpLoop_bit _ _ (lt ha)]; exact h i a ha⟩
  cases d with
  | bit xs =>
    have other : (∀ f, x ≠ .num f) → AtomSpec same op (.bit xs) x (toSlow same op .bit (memOf tail (.bit xs)) x (Data.bit xs).elems.length r) := by
      intro hn
      apply slow
      intro a ha
      obtain ⟨b, _, rfl⟩ := List.mem_map.1 ha
      cases x with
      | num f => exact absurd rfl (hn f)
      | chr c => exact ⟨rfl, rfl⟩
      | fn j => exact ⟨rfl, rfl⟩
      | _ => cases hx
    cases x with
    | num f =>
      show AtomSpec same op (.bit xs) (.num f) (if (feq f 0 || feq f (ofInt 1)) = true then _ else _)
      by_cases h : (feq f 0 || feq f (ofInt 1)) = true
      · rw [if_pos h]
        refine .inl ⟨_, rfl, ?_⟩
        intro i a ha
        rw [wordLoop_bit _ _ (lt ha), wordOp_bit _ _ _ (Nat.mod_lt _ (by decide))]
        obtain ⟨u, hu, rfl⟩ := map_some ha
        have e := bool_bits h
        show some (op.dbl (ofInt _) f) = some (op.int (bitF (place _ tail) i).toNat _)
        rw [bit_place xs tail hu, dbl_congr_right op e, dbl_ofInt op (by cases u <;> decide) (by cases (f <<< 1 != 0#64) <;> decide)]
        congr 3
        cases hb : (f <<< 1 != 0#64)
        · rw [if_neg (by decide)]
          show _ = ((0#64).getLsbD _).toNat
          rw [BitVec.getLsbD_zero]
        · rw [if_pos rfl, BitVec.getLsbD_allOnes, decide_eq_true (Nat.mod_lt _ (by decide))]
      · rw [if_neg h]
        apply slow
        intro a ha
        obtain ⟨b, _, rfl⟩ := List.mem_map.1 ha
        have : ¬ EqF (ofInt b.toNat) f := by
          intro e
          apply h
          rw [Bool.or_eq_true, feq_iff, feq_iff]
          cases b
          · exact .inl e.symm
          · exact .inr e.symm
        obtain ⟨p, q⟩ := dbl_differ this
        exact ⟨congrArg some p, congrArg some q⟩
    | chr c => exact other (fun f h => by cases h)
    | fn j => exact other (fun f h => by cases h)
    | _ => cases hx
  | i8 xs =>
    cases x with
    | num f =>
      unfold fnAS scalarFn
      dsimp only [Data.ty]
      by_cases h : feq f (ofInt (toIw 8 bad f).toInt) = true
      · rw [if_pos h]
        apply cmp
        intro i a ha
        obtain ⟨u, hu, rfl⟩ := map_some ha
        simp only [memOf]
        rw [rd_place wide8 xs tail hu, cInt_int]
        show some (op.dbl _ f) = _
        rw [dbl_congr_right op (feq_iff.1 h), dbl_ofInt op (toInt_small (by decide) _) (toInt_small (by decide) _)]
      · rw [if_neg h]
        apply slow
        intro a ha
        obtain ⟨b, _, rfl⟩ := List.mem_map.1 ha
        obtain ⟨l, u⟩ := Squeeze.range8 b
        obtain ⟨p, q⟩ := dbl_differ fun e => h (feq_fits (w := 8) (by decide) (by decide) bad e l u)
        exact ⟨congrArg some p, congrArg some q⟩
    | chr c => exact slow (fun a ha => by obtain ⟨b, _, rfl⟩ := List.mem_map.1 ha; exact ⟨rfl, rfl⟩)
    | fn c => exact slow (fun a ha => by obtain ⟨b, _, rfl⟩ := List.mem_map.1 ha; exact ⟨rfl, rfl⟩)
    | _ => cases hx
  | i16 xs =>
    cases x with
    | num f =>
      unfold fnAS scalarFn
      dsimp only [Data.ty]
      by_cases h : feq f (ofInt (toIw 16 bad f).toInt) = true
      · rw [if_pos h]
        apply cmp
        intro i a ha
        obtain ⟨u, hu, rfl⟩ := map_some ha
        simp only [memOf]
        rw [rd_place (by unfold Wide; omega) xs tail hu, cInt_int]
        show some (op.dbl _ f) = _
        rw [dbl_congr_right op (feq_iff.1 h), dbl_ofInt op (toInt_small (by decide) _) (toInt_small (by decide) _)]
      · rw [if_neg h]
        apply slow
        intro a ha
        obtain ⟨b, _, rfl⟩ := List.mem_map.1 ha
        obtain ⟨l, u⟩ := Squeeze.range16 b
        obtain ⟨p, q⟩ := dbl_differ fun e => h (feq_fits (w := 16) (by decide) (by decide) bad e l u)
        exact ⟨congrArg some p, congrArg some q⟩
    | chr c => exact slow (fun a ha => by obtain ⟨b, _, rfl⟩ := List.mem_map.1 ha; exact ⟨rfl, rfl⟩)
    | fn c => exact slow (fun a ha => by obtain ⟨b, _, rfl⟩ := List.mem_map.1 ha; exact ⟨rfl, rfl⟩)
    | _ => cases hx
  | i32 xs =>
    cases x with
    | num f =>
      unfold fnAS scalarFn
      dsimp only [Data.ty]
      by_cases h : feq f (ofInt (toI32 bad f).toInt) = true
      · rw [if_pos h]
        apply cmp
        intro i a ha
        obtain ⟨u, hu, rfl⟩ := map_some ha
        simp only [memOf]
        rw [rd_place (by unfold Wide; omega) xs tail hu, cInt_int]
        show some (op.dbl _ f) = _
        rw [dbl_congr_right op (feq_iff.1 h), dbl_ofInt op (toInt_small (by decide) _) (toInt_small (by decide) _)]
      · rw [if_neg h]
        apply slow
        intro a ha
        obtain ⟨b, _, rfl⟩ := List.mem_map.1 ha
        obtain ⟨l, u⟩ := Squeeze.range32 b
        obtain ⟨p, q⟩ := dbl_differ fun e => h (feq_fits32 bad e l u)
        exact ⟨congrArg some p, congrArg some q⟩
    | chr c => exact slow (fun a ha => by obtain ⟨b, _, rfl⟩ := List.mem_map.1 ha; exact ⟨rfl, rfl⟩)
    | fn c => exact slow (fun a ha => by obtain ⟨b, _, rfl⟩ := List.mem_map.1 ha; exact ⟨rfl, rfl⟩)
    | _ => cases hx
  | f64 xs =>
    cases x with
    | num f =>
      unfold fnAS scalarFn
      dsimp only [Data.ty]
      apply cmp
      intro i a ha
      obtain ⟨u, hu, rfl⟩ := map_some ha
      simp only [memOf]
      rw [rd_place (by unfold Wide; omega) xs tail hu, cDbl_dbl]
      rfl
    | chr c => exact slow (fun a ha => by obtain ⟨b, _, rfl⟩ := List.mem_map.1 ha; exact ⟨rfl, rfl⟩)
    | fn c => exact slow (fun a ha => by obtain ⟨b, _, rfl⟩ := List.mem_map.1 ha; exact ⟨rfl, rfl⟩)
    | _ => cases hx
  | c8 xs =>
    cases x with
    | chr c =>
      unfold fnAS scalarFn
      dsimp only [Data.ty]
      by_cases h : c.toNat < 256
      · rw [if_pos h]
        apply cmp
        intro i a ha
        obtain ⟨u, hu, rfl⟩ := map_some ha
        simp only [memOf]
        rw [rd_place wide8 xs tail hu, cInt_int]
        show some (op.int (u.setWidth 32).toNat c.toNat) = _
        rw [BitVec.toNat_setWidth, BitVec.toNat_setWidth, Nat.mod_eq_of_lt (by omega), Nat.mod_eq_of_lt h]
      · rw [if_neg h]
        apply slow
        intro a ha
        obtain ⟨b, _, rfl⟩ := List.mem_map.1 ha
        have n : ¬ (((b.setWidth 32).toNat : Int) = (c.toNat : Int)) := by rw [BitVec.toNat_setWidth]; omega
        exact ⟨congrArg some (decide_eq_false n), congrArg some (decide_eq_true n)⟩
    | num c => exact slow (fun a ha => by obtain ⟨b, _, rfl⟩ := List.mem_map.1 ha; exact ⟨rfl, rfl⟩)
    | fn c => exact slow (fun a ha => by obtain ⟨b, _, rfl⟩ := List.mem_map.1 ha; exact ⟨rfl, rfl⟩)
    | _ => cases hx
  | c16 xs =>
    cases x with
    | chr c =>
      unfold fnAS scalarFn
      dsimp only [Data.ty]
      by_cases h : c.toNat < 65536
      · rw [if_pos h]
        apply cmp
        intro i a ha
        obtain ⟨u, hu, rfl⟩ := map_some ha
        simp only [memOf]
        rw [rd_place (by unfold Wide; omega) xs tail hu, cInt_int]
        show some (op.int (u.setWidth 32).toNat c.toNat) = _
        rw [BitVec.toNat_setWidth, BitVec.toNat_setWidth, Nat.mod_eq_of_lt (by omega), Nat.mod_eq_of_lt h]
      · rw [if_neg h]
        apply slow
        intro a ha
        obtain ⟨b, _, rfl⟩ := List.mem_map.1 ha
        have n : ¬ (((b.setWidth 32).toNat : Int) = (c.toNat : Int)) := by rw [BitVec.toNat_setWidth]; omega
        exact ⟨congrArg some (decide_eq_false n), congrArg some (decide_eq_true n)⟩
    | num c => exact slow (fun a ha => by obtain ⟨b, _, rfl⟩ := List.mem_map.1 ha; exact ⟨rfl, rfl⟩)
    | fn c => exact slow (fun a ha => by obtain ⟨b, _, rfl⟩ := List.mem_map.1 ha; exact ⟨rfl, rfl⟩)
    | _ => cases hx
  | c32 xs =>
    cases x with
    | chr c =>
      unfold fnAS scalarFn
      dsimp only [Data.ty]
      apply cmp
      intro i a ha
      obtain ⟨u, hu, rfl⟩ := map_some ha
      simp only [memOf]
      rw [rd_place (by unfold Wide; omega) xs tail hu, cInt_int]
      rfl
    | num c => exact slow (fun a ha => by obtain ⟨b, _, rfl⟩ := List.mem_map.1 ha; exact ⟨rfl, rfl⟩)
    | fn c => exact slow (fun a ha => by obtain ⟨b, _, rfl⟩ := List.mem_map.1 ha; exact ⟨rfl, rfl⟩)
    | _ => cases hx
  | B xs => exact absurd rfl hB

/-! ## Different types -/

theorem ty_rank_inj {t u : El} (h : t.rank = u.rank) : t = u := by
  cases t <;> cases u <;> first | rfl | (exact absurd h (by decide))

/-- A larger type holds what a smaller one does. -/
theorem holds_wider {t u : El} (h : (isNum t && isNum u || isChr t && isChr u) = true) (hr : t.rank ≤ u.rank) {v : Val} (hv : Holds t v) : Holds u v := by
  have chain : ∀ {a b : Int} {c d : Int}, c ≤ a → b ≤ d → IntIn a b v → IntIn c d v := by
    rintro a b c d h1 h2 ⟨i, p, q, s⟩
    exact ⟨i, by omega, by omega, s⟩
  have num : ∀ {a b : Int}, IntIn a b v → ∃ f, v = .num f := fun h => Squeeze.intIn_num h
  cases t <;> cases u <;> first
    | exact hv
    | exact absurd hr (by decide)
    | exact absurd h (by decide)
    | exact chain (by decide) (by decide) hv
    | exact num hv
    | (obtain ⟨c, e, l⟩ := hv; exact ⟨c, e, by omega⟩)
    | (obtain ⟨c, e, l⟩ := hv; exact ⟨c, e⟩)

end Verif.Pervade
