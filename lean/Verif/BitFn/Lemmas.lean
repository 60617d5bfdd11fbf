import Verif.BitFn.Model
import Verif.Squeeze.Conv
/-!
# `•bit`: memory and its bits
-/
namespace Verif.BitFn
open Verif.Squeeze
open Verif.Bits (Word bitF)
open Verif.Bins (ofInt)

theorem word_bit (f : Nat → Bool) {j : Nat} (h : j < 64) : (word f).getLsbD j = f j := by
  unfold word
  rw [BitVec.getLsbD_setWidth, BitVec.getLsbD_ofBoolListLE, decide_eq_true h, Bool.true_and, List.getD_eq_getElem?_getD,
    List.getElem?_map, List.getElem?_range h]
  rfl

theorem bitF_word (f : Nat → Nat → Bool) (p : Nat) : bitF (fun i => word (f i)) p = f (p/64) (p%64) :=
  word_bit _ (Nat.mod_lt _ (by decide))

theorem place_bit {w : Nat} (xs : List (BitVec w)) (tail : Mem) {i k : Nat} {v : BitVec w} (hk : k < w) (h : xs[i]? = some v) :
    bitF (place xs tail) (w*i+k) = v.getLsbD k := by
  unfold place
  rw [bitF_word]
  rw [Nat.div_add_mod (w*i+k) 64, Nat.mul_add_div (by omega), Nat.div_eq_of_lt hk, Nat.add_zero, h, Nat.mul_add_mod,
    Nat.mod_eq_of_lt hk]

/-- Widths of words in memory. -/
def Wide (w : Nat) : Prop := w = 1 ∨ w = 8 ∨ w = 16 ∨ w = 32 ∨ w = 64

theorem Wide.pos {w : Nat} (h : Wide w) : 0 < w := by unfold Wide at h; omega

theorem Wide.le {w : Nat} (h : Wide w) : w ≤ 64 := by unfold Wide at h; omega

theorem Wide.split {w : Nat} (h : Wide w) (i : Nat) {k : Nat} (hk : k < w) :
    (w*i+k)/64 = w*i/64 ∧ (w*i+k)%64 = w*i%64 + k := by
  rcases h with rfl | rfl | rfl | rfl | rfl <;> omega

theorem Wide.room {w : Nat} (h : Wide w) (i : Nat) : w*i%64 + w ≤ 64 := by
  rcases h with rfl | rfl | rfl | rfl | rfl <;> omega

theorem rd_bit {w : Nat} (hw : Wide w) (m : Mem) (i : Nat) {k : Nat} (hk : k < w) : (rd w m i).getLsbD k = bitF m (w*i+k) := by
  obtain ⟨a, b⟩ := hw.split i hk
  unfold rd bitF
  rw [a, b, BitVec.getLsbD_setWidth, decide_eq_true hk, Bool.true_and, BitVec.getLsbD_ushiftRight]

theorem put_bit (m : Mem) (i : Nat) (v : Word) (p : Nat) : bitF (put m i v) p = if p/64 = i then v.getLsbD (p%64) else bitF m p := by
  unfold bitF put
  split <;> rfl

theorem allOnes_bit {w : Nat} (k : Nat) (hw : w ≤ 64) : ((BitVec.allOnes w).setWidth 64).getLsbD k = decide (k < w) := by
  rw [BitVec.getLsbD_setWidth, BitVec.getLsbD_allOnes]
  by_cases h : k < w
  · simp [h]; omega
  · simp [h]

theorem wr_bit {w : Nat} (hw : Wide w) (m : Mem) (i : Nat) (v : BitVec w) (p : Nat) :
    bitF (wr w m i v) p = if p/w = i then v.getLsbD (p%w) else bitF m p := by
  unfold wr
  rw [put_bit]
  by_cases h : p/w = i
  · rw [if_pos h]
    have hk := Nat.mod_lt p hw.pos
    obtain ⟨a, b⟩ := hw.split i hk
    have e : w*i + p%w = p := by rw [← h]; exact Nat.div_add_mod p w
    rw [e] at a b
    rw [if_pos a, b, BitVec.getLsbD_or, BitVec.getLsbD_and, BitVec.getLsbD_not, BitVec.getLsbD_shiftLeft, BitVec.getLsbD_shiftLeft,
      Nat.add_sub_cancel_left, allOnes_bit _ hw.le, BitVec.getLsbD_setWidth]
    have r := hw.room i
    have l1 : w*i%64 + p%w < 64 := by omega
    have l2 : ¬ w*i%64 + p%w < w*i%64 := by omega
    have l3 : p%w < 64 := by omega
    simp [l1, l2, l3, hk]
  · rw [if_neg h]
    split
    · rename_i g
      unfold bitF
      rw [← g] 
      rw [BitVec.getLsbD_or, BitVec.getLsbD_and, BitVec.getLsbD_not, BitVec.getLsbD_shiftLeft, BitVec.getLsbD_shiftLeft,
        allOnes_bit _ hw.le, BitVec.getLsbD_setWidth]
      have l1 : p%64 < 64 := Nat.mod_lt _ (by decide)
      by_cases l2 : p%64 < w*i%64
      · simp [l1, l2]
      · have l3 : ¬ p%64 - w*i%64 < w := by
          intro l
          apply h
          have : p = w*i + (p%64 - w*i%64) := by omega
          rw [this, Nat.mul_add_div hw.pos, Nat.div_eq_of_lt l, Nat.add_zero]
        have l4 : v.getLsbD (p%64 - w*i%64) = false := BitVec.getLsbD_of_ge _ _ (by omega)
        simp [l1, l2, l3, l4]
    · rfl

/-! ## Codes -/

theorem toInt_signed {w : Nat} (hw : 1 ≤ w) (v : BitVec w) : v.toInt = signed w v.toNat := by
  rw [BitVec.toInt_eq_toNat_cond]
  unfold signed
  have e : 2^w = 2 * 2^(w-1) := by rw [← Nat.pow_succ']; congr 1; omega
  by_cases h : 2 * v.toNat < 2^w
  · rw [if_pos h, if_pos (by omega)]
  · rw [if_neg h, if_neg (by omega)]
    push_cast
    rfl

theorem signed_bound {w u : Nat} (hw : 1 ≤ w) (h32 : w ≤ 32) (hu : u < 2^w) : (signed w u).natAbs < 2^53 := by
  have e : 2^w ≤ 2^32 := Nat.pow_le_pow_right (by decide) h32
  unfold signed
  have e' : ((2:Int)^w) = ((2^w : Nat) : Int) := by push_cast; rfl
  rw [e']
  generalize 2^w = a at *
  split <;> omega

theorem signed_inj {w u v : Nat} (hu : u < 2^w) (hv : v < 2^w) (h : signed w u = signed w v) : u = v := by
  unfold signed at h
  have e' : ((2:Int)^w) = ((2^w : Nat) : Int) := by push_cast; rfl
  rw [e'] at h
  generalize 2^w = a at *
  generalize 2^(w-1) = c at *
  split at h <;> split at h <;> omega

theorem Code.inj {t : El} {v : Val} {a b : Nat} (ha : a < 2^width t) (hb : b < 2^width t) (h : Code t v a) (g : Code t v b) : a = b := by
  cases t with
  | bit =>
    have := same_ofInt (by simp only [width] at ha; omega) (by simp only [width] at hb; omega) (h.symm.trans g)
    omega
  | i8 => exact signed_inj (w := 8) ha hb (same_ofInt (signed_bound (by decide) (by decide) ha) (signed_bound (by decide) (by decide) hb) (h.symm.trans g))
  | i16 => exact signed_inj (w := 16) ha hb (same_ofInt (signed_bound (by decide) (by decide) ha) (signed_bound (by decide) (by decide) hb) (h.symm.trans g))
  | i32 => exact signed_inj (w := 32) ha hb (same_ofInt (signed_bound (by decide) (by decide) ha) (signed_bound (by decide) (by decide) hb) (h.symm.trans g))
  | f64 =>
    have e := h.symm.trans g
    injection e with e
    have := congrArg BitVec.toNat e
    simp only [width] at ha hb
    rwa [BitVec.toNat_ofNat, BitVec.toNat_ofNat, Nat.mod_eq_of_lt ha, Nat.mod_eq_of_lt hb] at this
  | c8 =>
    have e := h.symm.trans g
    injection e with e
    have := congrArg BitVec.toNat e
    simp only [width] at ha hb
    rwa [BitVec.toNat_ofNat, BitVec.toNat_ofNat, Nat.mod_eq_of_lt (by omega), Nat.mod_eq_of_lt (by omega)] at this
  | c16 =>
    have e := h.symm.trans g
    injection e with e
    have := congrArg BitVec.toNat e
    simp only [width] at ha hb
    rwa [BitVec.toNat_ofNat, BitVec.toNat_ofNat, Nat.mod_eq_of_lt (by omega), Nat.mod_eq_of_lt (by omega)] at this
  | c32 =>
    have e := h.symm.trans g
    injection e with e
    have := congrArg BitVec.toNat e
    simp only [width] at ha hb
    rwa [BitVec.toNat_ofNat, BitVec.toNat_ofNat, Nat.mod_eq_of_lt ha, Nat.mod_eq_of_lt hb] at this
  | B => exact h.elim

theorem Code.same {t : El} {v w : Val} {a : Nat} (ht : t ≠ .f64) (s : Same v w) (h : Code t w a) : Code t v a := by
  cases t with
  | bit => exact s.trans h
  | i8 => exact s.trans h
  | i16 => exact s.trans h
  | i32 => exact s.trans h
  | f64 => exact absurd rfl ht
  | c8 => cases h; cases v with | chr c => exact congrArg _ s | num => exact s.elim | other => exact s.elim
  | c16 => cases h; cases v with | chr c => exact congrArg _ s | num => exact s.elim | other => exact s.elim
  | c32 => cases h; cases v with | chr c => exact congrArg _ s | num => exact s.elim | other => exact s.elim
  | B => exact h.elim

theorem Code.holds {t : El} {v : Val} {a : Nat} (ha : a < 2^width t) (h : Code t v a) : Holds t v := by
  cases t with
  | bit => exact ⟨a, by omega, by simp only [width] at ha; omega, h⟩
  | i8 => refine ⟨_, ?_, ?_, h⟩ <;> (simp only [width] at ha; unfold signed; split <;> omega)
  | i16 => refine ⟨_, ?_, ?_, h⟩ <;> (simp only [width] at ha; unfold signed; split <;> omega)
  | i32 => refine ⟨_, ?_, ?_, h⟩ <;> (simp only [width] at ha; unfold signed; split <;> omega)
  | f64 => exact ⟨_, h⟩
  | c8 => simp only [width] at ha; exact ⟨_, h, by rw [BitVec.toNat_ofNat, Nat.mod_eq_of_lt (by omega)]; omega⟩
  | c16 => simp only [width] at ha; exact ⟨_, h, by rw [BitVec.toNat_ofNat, Nat.mod_eq_of_lt (by omega)]; omega⟩
  | c32 => exact ⟨_, h⟩
  | B => trivial

/-! ## Elements and bits -/

/-- The bits determine, and are determined by, the elements. -/
theorem Reads.bits {t : El} {vs : List Val} {b c : Nat → Bool} (h : Reads t vs b) (g : Reads t vs c) {p : Nat}
    (hp : p < width t * vs.length) : b p = c p := by
  have w0 : 0 < width t := by cases t <;> decide
  have hi : p / width t < vs.length := Nat.div_lt_of_lt_mul hp
  obtain ⟨u, hu, cu, bu⟩ := h _ _ (List.getElem?_eq_getElem hi)
  obtain ⟨u', hu', cu', bu'⟩ := g _ _ (List.getElem?_eq_getElem hi)
  have hk := Nat.mod_lt p w0
  have e1 := bu _ hk
  have e2 := bu' _ hk
  rw [Nat.div_add_mod] at e1 e2
  rw [e1, e2, Code.inj hu hu' cu cu']

theorem Reads.congr {t : El} {vs : List Val} {b c : Nat → Bool} (h : Reads t vs b) (e : ∀ p, p < width t * vs.length → c p = b p) :
    Reads t vs c := by
  intro i v hv
  obtain ⟨u, hu, cu, bu⟩ := h i v hv
  refine ⟨u, hu, cu, fun k hk => ?_⟩
  have hi : i < vs.length := by
    rcases Nat.lt_or_ge i vs.length with h | h
    · exact h
    · rw [List.getElem?_eq_none h] at hv; cases hv
  rw [e _ ?_, bu k hk]
  calc width t * i + k < width t * i + width t := by omega
    _ = width t * (i+1) := by rw [Nat.mul_succ]
    _ ≤ _ := Nat.mul_le_mul_left _ hi

theorem reads_list {t : El} {w : Nat} (hw : width t = w) {vs : List Val} {b : Nat → Bool} {α : Type} {xs : List α} {f : α → Val} (g : α → BitVec w)
    (hvs : vs = xs.map f) (hc : ∀ x, Code t (f x) (g x).toNat)
    (hb : ∀ i x, xs[i]? = some x → ∀ k, k < w → b (w*i+k) = (g x).getLsbD k) : Reads t vs b := by
  subst hw
  intro i v hv
  rw [hvs, List.getElem?_map] at hv
  cases hx : xs[i]? with
  | none => rw [hx] at hv; cases hv
  | some x =>
    rw [hx] at hv
    injection hv with hv
    refine ⟨(g x).toNat, (g x).isLt, hv ▸ hc x, fun k hk => ?_⟩
    rw [hb i x hx k hk]
    rfl

theorem code_bit (b : Bool) : Code .bit (.num (ofInt b.toNat)) (BitVec.ofBool b).toNat := by
  unfold Code
  cases b <;> exact Same.refl _

theorem code_i8 (v : BitVec 8) : Code .i8 (.num (ofInt v.toInt)) v.toNat := by
  unfold Code
  rw [toInt_signed (by decide)]; exact Same.refl _

theorem code_i16 (v : BitVec 16) : Code .i16 (.num (ofInt v.toInt)) v.toNat := by
  unfold Code
  rw [toInt_signed (by decide)]; exact Same.refl _

theorem code_i32 (v : BitVec 32) : Code .i32 (.num (ofInt v.toInt)) v.toNat := by
  unfold Code
  rw [toInt_signed (by decide)]; exact Same.refl _

theorem code_f64 (v : BitVec 64) : Code .f64 (.num v) v.toNat := by
  show Val.num v = _
  rw [BitVec.ofNat_toNat, BitVec.setWidth_eq]

theorem code_c8 (v : BitVec 8) : Code .c8 (.chr (v.zeroExtend 32)) v.toNat := by
  show Val.chr _ = _
  rw [BitVec.ofNat_toNat]

theorem code_c16 (v : BitVec 16) : Code .c16 (.chr (v.zeroExtend 32)) v.toNat := by
  show Val.chr _ = _
  rw [BitVec.ofNat_toNat]

theorem code_c32 (v : BitVec 32) : Code .c32 (.chr v) v.toNat := by
  show Val.chr _ = _
  rw [BitVec.ofNat_toNat, BitVec.setWidth_eq]

theorem getElem?_some_map {α β} {f : α → β} {xs : List α} {i : Nat} {x : α} (h : xs[i]? = some x) : (xs.map f)[i]? = some (f x) := by
  rw [List.getElem?_map, h]; rfl

/-- The memory of an array holds the bits of its elements. -/
theorem memOf_reads (tail : Mem) (d : Data) (hd : d.ty ≠ .B) : Reads d.ty d.elems (bitF (memOf tail d)) := by
  cases d with
  | bit xs => exact reads_list (w := 1) rfl BitVec.ofBool rfl code_bit fun i x hx k hk => place_bit _ _ hk (getElem?_some_map hx)
  | i8 xs => exact reads_list (w := 8) rfl id rfl code_i8 fun i x hx k hk => place_bit _ _ hk hx
  | i16 xs => exact reads_list (w := 16) rfl id rfl code_i16 fun i x hx k hk => place_bit _ _ hk hx
  | i32 xs => exact reads_list (w := 32) rfl id rfl code_i32 fun i x hx k hk => place_bit _ _ hk hx
  | f64 xs => exact reads_list (w := 64) rfl id rfl code_f64 fun i x hx k hk => place_bit _ _ hk hx
  | c8 xs => exact reads_list (w := 8) rfl id rfl code_c8 fun i x hx k hk => place_bit _ _ hk hx
  | c16 xs => exact reads_list (w := 16) rfl id rfl code_c16 fun i x hx k hk => place_bit _ _ hk hx
  | c32 xs => exact reads_list (w := 32) rfl id rfl code_c32 fun i x hx k hk => place_bit _ _ hk hx
  | B xs => exact absurd rfl hd

theorem range_map_some {α} {f : Nat → α} {n i : Nat} {x : α} (h : ((List.range n).map f)[i]? = some x) : x = f i := by
  rw [List.getElem?_map] at h
  rcases Nat.lt_or_ge i n with hi | hi
  · rw [List.getElem?_range hi] at h; injection h with h; exact h.symm
  · rw [List.getElem?_eq_none (by simpa using hi)] at h; cases h

/-- What is read from memory has the bits that are there. -/
theorem load_reads (t : El) (m : Mem) (ia : Nat) : Reads t (load t m ia).elems (bitF m) := by
  cases t with
  | bit =>
    refine reads_list (w := 1) rfl BitVec.ofBool rfl code_bit fun i x hx k hk => ?_
    rw [range_map_some hx, show k = 0 by omega, Nat.one_mul, Nat.add_zero]
    simp
  | i8 => exact reads_list (w := 8) rfl id rfl code_i8 fun i x hx k hk => by rw [range_map_some hx]; exact (rd_bit (by unfold Wide; omega) m i hk).symm
  | i16 => exact reads_list (w := 16) rfl id rfl code_i16 fun i x hx k hk => by rw [range_map_some hx]; exact (rd_bit (by unfold Wide; omega) m i hk).symm
  | i32 => exact reads_list (w := 32) rfl id rfl code_i32 fun i x hx k hk => by rw [range_map_some hx]; exact (rd_bit (by unfold Wide; omega) m i hk).symm
  | f64 => exact reads_list (w := 64) rfl id rfl code_f64 fun i x hx k hk => by rw [range_map_some hx]; exact (rd_bit (by unfold Wide; omega) m i hk).symm
  | c8 => exact reads_list (w := 8) rfl id rfl code_c8 fun i x hx k hk => by rw [range_map_some hx]; exact (rd_bit (by unfold Wide; omega) m i hk).symm
  | c16 => exact reads_list (w := 16) rfl id rfl code_c16 fun i x hx k hk => by rw [range_map_some hx]; exact (rd_bit (by unfold Wide; omega) m i hk).symm
  | c32 => exact reads_list (w := 32) rfl id rfl code_c32 fun i x hx k hk => by rw [range_map_some hx]; exact (rd_bit (by unfold Wide; omega) m i hk).symm
  | B => intro i v hv; cases hv

theorem load_length {t : El} (ht : t ≠ .B) (m : Mem) (ia : Nat) : (load t m ia).elems.length = ia := by
  cases t <;> first | exact absurd rfl ht | simp [load, Data.elems]

theorem load_ty (t : El) (m : Mem) (ia : Nat) : (load t m ia).ty = t := by cases t <;> rfl

/-! ## Conversion -/

theorem toF64s_exact {d : Data} {xs : List (BitVec 64)} (h : toF64s d = some xs) : d.elems = xs.map .num := by
  have gen : ∀ {vs : List Val} {xs}, nums vs = some xs → vs = xs.map .num := by
    intro vs
    induction vs with
    | nil => intro xs h; injection h with h; rw [← h]; rfl
    | cons v vs ih =>
      intro xs h
      cases v with
      | num f =>
        rw [nums] at h
        cases e : nums vs with
        | none => rw [e] at h; cases h
        | some ys =>
          rw [e] at h
          injection h with h
          rw [← h, ih e]; rfl
      | chr => cases h
      | other => cases h
  cases d with
  | bit xs => injection h with h; rw [← h]; simp [Data.elems]
  | i8 xs => injection h with h; rw [← h]; simp [Data.elems]
  | i16 xs => injection h with h; rw [← h]; simp [Data.elems]
  | i32 xs => injection h with h; rw [← h]; simp [Data.elems]
  | f64 xs => injection h with h; rw [← h]; rfl
  | c8 xs => exact gen h
  | c16 xs => exact gen h
  | c32 xs => exact gen h
  | B xs => exact gen h

theorem sames_get {vs ws : List Val} (h : Sames vs ws) : ∀ {i : Nat} {v : Val}, vs[i]? = some v → ∃ w, ws[i]? = some w ∧ Same v w := by
  induction h with
  | nil => intro i v hv; cases hv
  | cons s _ ih =>
    intro i v hv
    cases i with
    | zero => injection hv with hv; exact ⟨_, rfl, hv ▸ s⟩
    | succ i => exact ih hv

/-- Converting elements to a type in which they can be written keeps their bits. -/
theorem conv_reads (bad : BitVec 64 → BitVec 32) {t : El} {d : Data} {b : Nat → Bool} (h : Reads t d.elems b) (ht : t ≠ .B) :
    ∃ d', conv bad t d = some d' ∧ d'.ty = t ∧ d'.elems.length = d.elems.length ∧ Reads t d'.elems b := by
  have hold : ∀ v ∈ d.elems, Holds t v := by
    intro v hv
    obtain ⟨i, hi⟩ := List.getElem?_of_mem hv
    obtain ⟨u, hu, cu, _⟩ := h i v hi
    exact cu.holds hu
  obtain ⟨d', e, ty, s⟩ := conv_spec bad hold
  refine ⟨d', e, ty, s.length, ?_⟩
  by_cases hf : t = .f64
  · subst hf
    have : d'.elems = d.elems := by
      unfold conv at e
      dsimp only at e
      cases g : toF64s d with
      | none => rw [g] at e; cases e
      | some xs =>
        rw [g] at e
        injection e with e
        rw [← e, toF64s_exact g]; rfl
    rw [this]; exact h
  · intro i v hv
    obtain ⟨w, hw, sw⟩ := sames_get s hv
    obtain ⟨u, hu, cu, bu⟩ := h i w hw
    exact ⟨u, hu, cu.same hf sw, bu⟩

end Verif.BitFn
