import Verif.Pervade.Model
import Verif.BitFn.Pieces
import Verif.Squeeze.Verdicts
/-!
# Comparisons: lemmas about typed arrays
-/
namespace Verif.Pervade
open Verif.Bins (ofInt)
open Verif.Rotate (prod)
open Verif.Bits (Word bitF)
open Verif.Squeeze (Val El Data conv feq toI32 toIw EqF Same Sames feq_iff Holds)
open Verif.BitFn (Mem memOf rd put wr loop shProd isChr place Wide rd_bit place_bit loop_wr loop_put put_bit)

theorem cInt_int (op : Op) (a b : Int) : cInt op a b = op.int a b := by
  cases op <;> simp [cInt, Op.int]

theorem cDbl_dbl (op : Op) (f g : BitVec 64) : cDbl op f g = op.dbl f g := by
  unfold cDbl Op.dbl
  cases hf : Compare.nan f <;> cases hg : Compare.nan g <;> cases op <;> simp [Op.int, feq, hf, hg]

theorem dbl_ofInt (op : Op) {a b : Int} (ha : a.natAbs < 2^53) (hb : b.natAbs < 2^53) : op.dbl (ofInt a) (ofInt b) = op.int a b := by
  unfold Op.dbl
  rw [Bins.ofInt_nan ha, Bins.ofInt_nan hb]
  simp only [Bool.or_self, Bool.false_eq_true, if_false]
  have m1 := Bins.key_mono ha hb
  have m2 := Bins.key_mono hb ha
  have m3 : Compare.key (ofInt a) = Compare.key (ofInt b) ↔ a = b := by
    constructor
    · exact Squeeze.ofInt_inj ha hb
    · rintro rfl; rfl
  cases op <;> simp only [Op.int, decide_eq_decide] <;> omega

theorem dbl_congr (op : Op) {f f' g g' : BitVec 64} (h : EqF f f') (h' : EqF g g') : op.dbl f g = op.dbl f' g' := by
  unfold Op.dbl
  rw [h.1, h.2.1, h'.1, h'.2.1, h.2.2, h'.2.2]

theorem dbl_congr_left (op : Op) {f f' g : BitVec 64} (h : EqF f f') : op.dbl f g = op.dbl f' g := by
  unfold Op.dbl
  rw [h.1, h.2.1, h.2.2]

theorem dbl_congr_right (op : Op) {f g g' : BitVec 64} (h : EqF g g') : op.dbl f g = op.dbl f g' := by
  unfold Op.dbl
  rw [h.1, h.2.1, h.2.2]

theorem rel_same_left (same : Nat → Nat → Bool) (op : Op) {a a' : Val} (h : Same a a') (x : T) : rel same op (tv a) x = rel same op (tv a') x := by
  cases a with
  | num f =>
    cases a' with
    | num g =>
      rcases h with rfl | h
      · rfl
      · cases x with
        | num k => show some (op.dbl f k) = some (op.dbl g k); rw [dbl_congr_left op h]
        | _ => rfl
    | _ => exact h.elim
  | chr c =>
    cases a' with
    | chr d => cases h; rfl
    | _ => exact h.elim
  | other i =>
    cases a' with
    | other d => cases h; rfl
    | _ => exact h.elim

theorem rel_same_right (same : Nat → Nat → Bool) (op : Op) {a a' : Val} (h : Same a a') (w : T) : rel same op w (tv a) = rel same op w (tv a') := by
  cases a with
  | num f =>
    cases a' with
    | num g =>
      rcases h with rfl | h
      · rfl
      · cases w with
        | num k => show some (op.dbl k f) = some (op.dbl k g); rw [dbl_congr_right op h]
        | _ => rfl
    | _ => exact h.elim
  | chr c =>
    cases a' with
    | chr d => cases h; rfl
    | _ => exact h.elim
  | other i =>
    cases a' with
    | other d => cases h; rfl
    | _ => exact h.elim

/-! ## Bytes and words -/

theorem byte_bits : ∀ a0 a1 a2 a3 a4 a5 a6 a7 : Bool, ∀ k : Fin 8,
    ((((((((0#8 ||| (BitVec.ofBool a0).setWidth 8 <<< 0) ||| (BitVec.ofBool a1).setWidth 8 <<< 1) ||| (BitVec.ofBool a2).setWidth 8 <<< 2) |||
      (BitVec.ofBool a3).setWidth 8 <<< 3) ||| (BitVec.ofBool a4).setWidth 8 <<< 4) ||| (BitVec.ofBool a5).setWidth 8 <<< 5) |||
      (BitVec.ofBool a6).setWidth 8 <<< 6) ||| (BitVec.ofBool a7).setWidth 8 <<< 7).getLsbD k.val = [a0,a1,a2,a3,a4,a5,a6,a7].getD k.val false := by
  decide +kernel

theorem byte_bit (f : Nat → Bool) {k : Nat} (h : k < 8) : (byte f).getLsbD k = f k := by
  have := byte_bits (f 0) (f 1) (f 2) (f 3) (f 4) (f 5) (f 6) (f 7) ⟨k, h⟩
  refine Eq.trans this ?_
  have : k = 0 ∨ k = 1 ∨ k = 2 ∨ k = 3 ∨ k = 4 ∨ k = 5 ∨ k = 6 ∨ k = 7 := by omega
  rcases this with rfl | rfl | rfl | rfl | rfl | rfl | rfl | rfl <;> rfl

theorem wide8 : Wide 8 := .inr (.inl rfl)

theorem cmpLoop_bit (c : Nat → Bool) {l : Nat} (r : Mem) {i : Nat} (h : i < l) : bitF (cmpLoop c l r) i = c i := by
  unfold cmpLoop
  rw [loop_wr wide8 (g := fun j _ => byte fun k => c (j*8+k)) (fun _ _ _ => rfl), if_pos (by omega), byte_bit _ (by omega)]
  congr 1
  omega

theorem wordLoop_bit (g : Nat → Word) {l : Nat} (r : Mem) {i : Nat} (h : i < l) :
    bitF (loop (fun k r => put r k (g k)) ((l+63)/64) r) i = (g (i/64)).getLsbD (i%64) := by
  unfold bitF
  rw [loop_put (g := fun k _ => g k) (fun _ _ _ => rfl), if_pos (by omega)]

theorem fillBits_bit (r : Mem) {l : Nat} (v : Bool) {i : Nat} (h : i < l) : bitF (fillBits r l v) i = v := by
  unfold fillBits
  rw [wordLoop_bit _ _ h]
  cases v
  · simp
  · show (BitVec.allOnes 64).getLsbD (i%64) = true
    rw [BitVec.getLsbD_allOnes]
    exact decide_eq_true (Nat.mod_lt _ (by decide))

theorem wordOp_bit (op : Op) (w x : Word) {k : Nat} (h : k < 64) : (wordOp op w x).getLsbD k = op.int (w.getLsbD k).toNat (x.getLsbD k).toNat := by
  unfold wordOp
  cases op <;> simp only [BitVec.getLsbD_xor, BitVec.getLsbD_and, BitVec.getLsbD_or, BitVec.getLsbD_not, decide_eq_true h, Bool.true_and] <;>
    cases w.getLsbD k <;> cases x.getLsbD k <;> rfl

theorem bitpSet_bit (m : Mem) (n : Nat) (v : Bool) (p : Nat) : bitF (bitpSet m n v) p = if p = n then v else bitF m p := by
  unfold bitpSet
  dsimp only
  rw [BitFn.wr_bit wide8]
  by_cases hp : p/8 = n/8
  · rw [if_pos hp]
    have hk : p%8 < 8 := Nat.mod_lt _ (by decide)
    have hn : n%8 < 8 := Nat.mod_lt _ (by decide)
    have rb : (rd 8 m (n/8)).getLsbD (p%8) = bitF m p := by
      rw [rd_bit wide8 _ _ hk, ← hp, Nat.div_add_mod]
    have ob : (1#8 <<< (n%8)).getLsbD (p%8) = decide (p = n) := by
      rw [BitVec.getLsbD_shiftLeft, decide_eq_true hk, Bool.true_and, BitVec.getLsbD_one]
      by_cases e : p = n
      · subst e; simp
      · rw [decide_eq_false e]
        rcases Nat.lt_or_ge (p%8) (n%8) with g | g
        · simp [g]
        · have : p%8 - n%8 ≠ 0 := by omega
          simp [this]
    cases v
    · rw [if_neg (by simp), BitVec.getLsbD_and, BitVec.getLsbD_not, decide_eq_true hk, ob, rb]
      by_cases e : p = n <;> simp [e]
    · rw [if_pos rfl, BitVec.getLsbD_or, ob, rb]
      by_cases e : p = n <;> simp [e]
  · rw [if_neg hp, if_neg (fun e => hp (by rw [e]))]

/-! ## Elements in memory -/

theorem rd_place {w : Nat} (hw : Wide w) (xs : List (BitVec w)) (tail : Mem) {i : Nat} {v : BitVec w} (h : xs[i]? = some v) :
    rd w (place xs tail) i = v := by
  apply BitVec.eq_of_getLsbD_eq
  intro k hk
  rw [rd_bit hw _ _ hk, place_bit _ _ hk h]

theorem bit_place (xs : List Bool) (tail : Mem) {i : Nat} {v : Bool} (h : xs[i]? = some v) : bitF (place (xs.map BitVec.ofBool) tail) i = v := by
  have := place_bit (w := 1) (xs.map BitVec.ofBool) tail (i := i) (k := 0) (v := BitVec.ofBool v) (by decide) (by rw [List.getElem?_map, h]; rfl)
  rw [Nat.one_mul, Nat.add_zero] at this
  rw [this]
  cases v <;> rfl

theorem map_some {α β : Type} {f : α → β} {xs : List α} {i : Nat} {b : β} (h : (xs.map f)[i]? = some b) : ∃ a, xs[i]? = some a ∧ b = f a := by
  rw [List.getElem?_map] at h
  cases g : xs[i]? with
  | none => rw [g] at h; cases h
  | some a => rw [g] at h; injection h with h; exact ⟨a, rfl, h.symm⟩

theorem elemAt_memOf {d : Data} (hd : d.ty ≠ .B) (tail : Mem) {i : Nat} {a : Val} (h : d.elems[i]? = some a) :
    elemAt d.ty (memOf tail d) i = ofVal a := by
  cases d with
  | bit xs =>
    obtain ⟨v, hv, rfl⟩ := map_some h
    show V.num (ofInt (bitF (place _ _) i).toNat) = _
    rw [bit_place xs tail hv]; rfl
  | i8 xs =>
    obtain ⟨v, hv, rfl⟩ := map_some h
    show V.num (ofInt (rd 8 (place xs tail) i).toInt) = _
    rw [rd_place wide8 xs tail hv]; rfl
  | i16 xs =>
    obtain ⟨v, hv, rfl⟩ := map_some h
    show V.num (ofInt (rd 16 (place xs tail) i).toInt) = _
    rw [rd_place (by unfold Wide; omega) xs tail hv]; rfl
  | i32 xs =>
    obtain ⟨v, hv, rfl⟩ := map_some h
    show V.num (ofInt (rd 32 (place xs tail) i).toInt) = _
    rw [rd_place (by unfold Wide; omega) xs tail hv]; rfl
  | f64 xs =>
    obtain ⟨v, hv, rfl⟩ := map_some h
    show V.num (rd 64 (place xs tail) i) = _
    rw [rd_place (by unfold Wide; omega) xs tail hv]; rfl
  | c8 xs =>
    obtain ⟨v, hv, rfl⟩ := map_some h
    show V.chr ((rd 8 (place xs tail) i).setWidth 32) = _
    rw [rd_place wide8 xs tail hv]; rfl
  | c16 xs =>
    obtain ⟨v, hv, rfl⟩ := map_some h
    show V.chr ((rd 16 (place xs tail) i).setWidth 32) = _
    rw [rd_place (by unfold Wide; omega) xs tail hv]; rfl
  | c32 xs =>
    obtain ⟨v, hv, rfl⟩ := map_some h
    show V.chr (rd 32 (place xs tail) i) = _
    rw [rd_place (by unfold Wide; omega) xs tail hv]; rfl
  | B xs => exact absurd rfl hd


/-! ## The functions of the tables -/

theorem toInt_small {w : Nat} (hw : w ≤ 32) (x : BitVec w) : x.toInt.natAbs < 2^53 := by
  have := BitVec.toInt_lt (x := x)
  have := BitVec.le_toInt x
  have : (2:Int)^(w-1) ≤ 2^31 := by
    have := Nat.pow_le_pow_right (n := 2) (by decide) (show w-1 ≤ 31 by omega)
    exact_mod_cast this
  omega

/-- The codes of characters are below 2⋆31. -/
def CharsOk : Data → Prop
  | .c32 xs => ∀ c ∈ xs, c.toNat < 2^31
  | _ => True

/-- Whether two unsigned numbers are equal does not depend on the sign. -/
theorem toInt_eq {w : Nat} {op : Op} (h : op = .eq ∨ op = .ne) (a b : BitVec w) : cInt op a.toInt b.toInt = cInt op a.toNat b.toNat := by
  have e : a.toInt = b.toInt ↔ (a.toNat : Int) = (b.toNat : Int) := by
    rw [BitVec.toInt_inj, Int.ofNat_inj, BitVec.toNat_inj]
  rcases h with rfl | rfl <;> simp only [cInt, e]

theorem toInt_nonneg {a : BitVec 32} (h : a.toNat < 2^31) : a.toInt = a.toNat := by
  rw [BitVec.toInt_eq_toNat_cond]
  rw [if_pos (by omega)]

/-- Two typed arrays of one type. -/
theorem fnAA_spec (same : Nat → Nat → Bool) {op : Op} (h1 : op ≠ .le) (h2 : op ≠ .lt) {w x : Data} (ht : x.ty = w.ty) (hB : w.ty ≠ .B)
    (hw : CharsOk w) (hx : CharsOk x) (tw tx junk : Mem) {l : Nat} (lw : w.elems.length = l) :
    ∃ r, fnAA op w.ty (memOf tw w) (memOf tx x) l junk = some r ∧
      ∀ (i : Nat) a b, w.elems[i]? = some a → x.elems[i]? = some b → rel same op (tv a) (tv b) = some (bitF r i) := by
  have lt : ∀ {i : Nat} {a : Val}, w.elems[i]? = some a → i < l := by
    intro i a h
    rw [← lw]
    exact (List.getElem?_eq_some_iff.1 h).1
  have cond : ¬ (op = .le ∨ op = .lt) := by rintro (h | h); exact h1 h; exact h2 h
  unfold fnAA
  rw [if_neg cond]
  cases w with
  | bit ws =>
    cases x with
    | bit xs =>
      refine ⟨_, rfl, ?_⟩
      intro i a b ha hb
      rw [wordLoop_bit _ _ (lt ha), wordOp_bit _ _ _ (Nat.mod_lt _ (by decide))]
      obtain ⟨u, hu, rfl⟩ := map_some ha
      obtain ⟨v, hv, rfl⟩ := map_some hb
      show _ = some (op.int (bitF (place _ tw) i).toNat (bitF (place _ tx) i).toNat)
      rw [bit_place ws tw hu, bit_place xs tx hv]
      show some (op.dbl _ _) = _
      rw [dbl_ofInt op (by cases u <;> decide) (by cases v <;> decide)]
    | _ => cases ht
  | i8 ws =>
    cases x with
    | i8 xs =>
      refine ⟨_, rfl, ?_⟩
      intro i a b ha hb
      rw [cmpLoop_bit _ _ (lt ha), cInt_int]
      obtain ⟨u, hu, rfl⟩ := map_some ha
      obtain ⟨v, hv, rfl⟩ := map_some hb
      simp only [memOf]
      rw [rd_place wide8 ws tw hu, rd_place wide8 xs tx hv]
      show some (op.dbl _ _) = _
      rw [dbl_ofInt op (toInt_small (by decide) _) (toInt_small (by decide) _)]
    | _ => cases ht
  | i16 ws =>
    cases x with
    | i16 xs =>
      refine ⟨_, rfl, ?_⟩
      intro i a b ha hb
      rw [cmpLoop_bit _ _ (lt ha), cInt_int]
      obtain ⟨u, hu, rfl⟩ := map_some ha
      obtain ⟨v, hv, rfl⟩ := map_some hb
      simp only [memOf]
      rw [rd_place (by unfold Wide; omega) ws tw hu, rd_place (by unfold Wide; omega) xs tx hv]
      show some (op.dbl _ _) = _
      rw [dbl_ofInt op (toInt_small (by decide) _) (toInt_small (by decide) _)]
    | _ => cases ht
  | i32 ws =>
    cases x with
    | i32 xs =>
      refine ⟨_, rfl, ?_⟩
      intro i a b ha hb
      rw [cmpLoop_bit _ _ (lt ha), cInt_int]
      obtain ⟨u, hu, rfl⟩ := map_some ha
      obtain ⟨v, hv, rfl⟩ := map_some hb
      simp only [memOf]
      rw [rd_place (by unfold Wide; omega) ws tw hu, rd_place (by unfold Wide; omega) xs tx hv]
      show some (op.dbl _ _) = _
      rw [dbl_ofInt op (toInt_small (by decide) _) (toInt_small (by decide) _)]
    | _ => cases ht
  | f64 ws =>
    cases x with
    | f64 xs =>
      refine ⟨_, rfl, ?_⟩
      intro i a b ha hb
      rw [cmpLoop_bit _ _ (lt ha), cDbl_dbl]
      obtain ⟨u, hu, rfl⟩ := map_some ha
      obtain ⟨v, hv, rfl⟩ := map_some hb
      simp only [memOf]
      rw [rd_place (by unfold Wide; omega) ws tw hu, rd_place (by unfold Wide; omega) xs tx hv]
      rfl
    | _ => cases ht
  | c8 ws =>
    cases x with
    | c8 xs =>
      have key : ∀ (i : Nat) a b, (Data.c8 ws).elems[i]? = some a → (Data.c8 xs).elems[i]? = some b →
          rel same op (tv a) (tv b) = some (cInt op (rd 8 (memOf tw (.c8 ws)) i).toNat (rd 8 (memOf tx (.c8 xs)) i).toNat) := by
        intro i a b ha hb
        obtain ⟨u, hu, rfl⟩ := map_some ha
        obtain ⟨v, hv, rfl⟩ := map_some hb
        simp only [memOf]
        rw [rd_place wide8 ws tw hu, rd_place wide8 xs tx hv, cInt_int]
        show some (op.int (u.setWidth 32).toNat (v.setWidth 32).toNat) = _
        rw [BitVec.toNat_setWidth, BitVec.toNat_setWidth, Nat.mod_eq_of_lt (by omega), Nat.mod_eq_of_lt (by omega)]
      dsimp only [Data.ty]
      by_cases he : op = .eq ∨ op = .ne
      · rw [if_pos he]
        refine ⟨_, rfl, ?_⟩
        intro i a b ha hb
        rw [cmpLoop_bit _ _ (lt ha), toInt_eq he]
        exact key i a b ha hb
      · rw [if_neg he]
        refine ⟨_, rfl, ?_⟩
        intro i a b ha hb
        rw [cmpLoop_bit _ _ (lt ha)]
        exact key i a b ha hb
    | _ => cases ht
  | c16 ws =>
    cases x with
    | c16 xs =>
      have key : ∀ (i : Nat) a b, (Data.c16 ws).elems[i]? = some a → (Data.c16 xs).elems[i]? = some b →
          rel same op (tv a) (tv b) = some (cInt op (rd 16 (memOf tw (.c16 ws)) i).toNat (rd 16 (memOf tx (.c16 xs)) i).toNat) := by
        intro i a b ha hb
        obtain ⟨u, hu, rfl⟩ := map_some ha
        obtain ⟨v, hv, rfl⟩ := map_some hb
        simp only [memOf]
        rw [rd_place (by unfold Wide; omega) ws tw hu, rd_place (by unfold Wide; omega) xs tx hv, cInt_int]
        show some (op.int (u.setWidth 32).toNat (v.setWidth 32).toNat) = _
        rw [BitVec.toNat_setWidth, BitVec.toNat_setWidth, Nat.mod_eq_of_lt (by omega), Nat.mod_eq_of_lt (by omega)]
      dsimp only [Data.ty]
      by_cases he : op = .eq ∨ op = .ne
      · rw [if_pos he]
        refine ⟨_, rfl, ?_⟩
        intro i a b ha hb
        rw [cmpLoop_bit _ _ (lt ha), toInt_eq he]
        exact key i a b ha hb
      · rw [if_neg he]
        refine ⟨_, rfl, ?_⟩
        intro i a b ha hb
        rw [cmpLoop_bit _ _ (lt ha)]
        exact key i a b ha hb
    | _ => cases ht
  | c32 ws =>
    cases x with
    | c32 xs =>
      refine ⟨_, rfl, ?_⟩
      intro i a b ha hb
      rw [cmpLoop_bit _ _ (lt ha), cInt_int]
      obtain ⟨u, hu, rfl⟩ := map_some ha
      obtain ⟨v, hv, rfl⟩ := map_some hb
      simp only [memOf]
      rw [rd_place (by unfold Wide; omega) ws tw hu, rd_place (by unfold Wide; omega) xs tx hv,
        toInt_nonneg (hw u (List.mem_of_getElem? hu)), toInt_nonneg (hx v (List.mem_of_getElem? hv))]
      rfl
    | _ => cases ht
  | B ws => exact absurd rfl hB

/-! ## Scalars -/

/-- The tree of an atom. -/
def atomT : V → T
  | .num f => .num f
  | .chr c => .chr c
  | .fn i => .fn i
  | _ => .fn 0

/-- `scalar` decides `rel`. -/
theorem scalar_rel (same : Nat → Nat → Bool) (op : Op) {w x : V} (hw : w.isArr = false) (hx : x.isArr = false) :
    scalar same op w x = match rel same op (atomT w) (atomT x) with | some b => .ok b | none => .err := by
  cases w <;> first | (cases hw; done) | skip
  all_goals cases x <;> first | (cases hx; done) | skip
  · show Out.ok (cDbl op _ _) = Out.ok (op.dbl _ _)
    rw [cDbl_dbl]
  · cases op <;> rfl
  · cases op <;> rfl
  · cases op <;> rfl
  · show Out.ok (cInt op _ _) = Out.ok (op.int _ _)
    rw [cInt_int]
  · cases op <;> rfl
  · cases op <;> rfl
  · cases op <;> rfl
  · cases op <;> rfl

theorem ofVal_atom (a : Val) : (ofVal a).isArr = false ∧ atomT (ofVal a) = tv a := by
  cases a <;> exact ⟨rfl, rfl⟩

theorem cmpSlow_spec (same : Nat → Nat → Bool) (op : Op) {d : Data} (hB : d.ty ≠ .B) (tail : Mem) {x : V} (hx : x.isArr = false) (r : Mem) :
    ∀ l, l ≤ d.elems.length →
      (∃ r', cmpSlow same op d.ty (memOf tail d) x l r = .ok r' ∧
        ∀ (i : Nat) a, i < l → d.elems[i]? = some a → rel same op (tv a) (atomT x) = some (bitF r' i)) ∨
      (cmpSlow same op d.ty (memOf tail d) x l r = .err ∧ ∃ (i : Nat) (a : Val), d.elems[i]? = some a ∧ rel same op (tv a) (atomT x) = none)
  | 0, _ => .inl ⟨r, rfl, fun i _ h => absurd h (Nat.not_lt_zero i)⟩
  | l+1, hl => by
    have e : cmpSlow same op d.ty (memOf tail d) x (l+1) r = (cmpSlow same op d.ty (memOf tail d) x l r).bind fun r =>
      (scalar same op (elemAt d.ty (memOf tail d) l) x).bind fun b => .ok (bitpSet r l b) := rfl
    have hv := List.getElem?_eq_getElem (l := d.elems) (i := l) (by omega)
    generalize d.elems[l]'(by omega) = v at hv
    rw [e, elemAt_memOf hB tail hv, scalar_rel same op (ofVal_atom v).1 hx, (ofVal_atom v).2]
    rcases cmpSlow_spec same op hB tail hx r l (by omega) with ⟨r', e', h⟩ | ⟨e', h⟩
    · rw [e']
      cases hr : rel same op (tv v) (atomT x) with
      | none => exact .inr ⟨rfl, l, v, hv, hr⟩
      | some b =>
        refine .inl ⟨_, rfl, ?_⟩
        intro i a hi ha
        rw [bitpSet_bit]
        by_cases q : i = l
        · subst q
          rw [hv] at ha
          injection ha with ha
          subst ha
          rw [if_pos rfl, hr]
        · rw [if_neg q]
          exact h i a (by omega) ha
    · rw [e']
      exact .inr ⟨rfl, h⟩

/-- What a comparison of a typed array with an atom gives. -/
def AtomSpec (same : Nat → Nat → Bool) (op : Op) (d : Data) (x : V) (o : Out Mem) : Prop :=
  (∃ r, o = .ok r ∧ ∀ (i : Nat) a, d.elems[i]? = some a → rel same op (tv a) (atomT x) = some (bitF r i)) ∨
  (o = .err ∧ ∃ (i : Nat) (a : Val), d.elems[i]? = some a ∧ rel same op (tv a) (atomT x) = none)

/-- The scalar is never equal to an element. -/
theorem toSlow_spec (same : Nat → Nat → Bool) (op : Op) {d : Data} (hB : d.ty ≠ .B) (tail : Mem) {x : V} (hx : x.isArr = false) (r : Mem)
    (hne : ∀ a ∈ d.elems, rel same .eq (tv a) (atomT x) = some false ∧ rel same .ne (tv a) (atomT x) = some true) :
    AtomSpec same op d x (toSlow same op d.ty (memOf tail d) x d.elems.length r) := by
  have lt : ∀ {i : Nat} {a : Val}, d.elems[i]? = some a → i < d.elems.length := fun h => (List.getElem?_eq_some_iff.1 h).1
  have slow : AtomSpec same op d x (cmpSlow same op d.ty (memOf tail d) x d.elems.length r) := by
    rcases cmpSlow_spec same op hB tail hx r d.elems.length (Nat.le_refl _) with ⟨r', e, h⟩ | h
    · exact .inl ⟨r', e, fun i a ha => h i a (lt ha) ha⟩
    · exact .inr h
  cases op with
  | eq => exact .inl ⟨_, rfl, fun i a ha => by rw [fillBits_bit _ _ (lt ha)]; exact (hne a (List.mem_of_getElem? ha)).1⟩
  | ne => exact .inl ⟨_, rfl, fun i a ha => by rw [fillBits_bit _ _ (lt ha)]; exact (hne a (List.mem_of_getElem? ha)).2⟩
  | le => exact slow
  | lt => exact slow
  | ge => exact slow
  | gt => exact slow

end Verif.Pervade
